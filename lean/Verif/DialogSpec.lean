import Verif.InteractSpec
import Verif.CTextProps
import Verif.FileSpec
import Verif.IntGame
import Verif.Print

/-!
# C72: the dialogue of the interactive mode

What a user sees: `/repo/doc/interaction.md`. A session is a list of lines typed, each a command about the game (`ACmd`) or a question
about the specification; the transcript has the prompt and the reply for each.
-/

namespace Gr1c

/-- Lines that are not commands about the game. -/
inductive Query
  | help
  | reorder
  | numgoals
  | envvar
  | sysvar
  | var
  | printgoal (i : ℕ)
  | printegoals
  /-- a command with too few numbers -/
  | short
  /-- a command with a goal that does not exist -/
  | nogoal (i : ℤ)
  /-- anything else -/
  | unknown (line : List Char)

/-- Lines of a session. -/
inductive SItem (ne ns n : ℕ)
  | cmd (c : ACmd ne ns n)
  | ask (q : Query)

/-- All words a line may begin with. -/
def sessionWords : List String :=
  ["quit", "help", "enable autoreorder", "disable autoreorder", "numgoals", "envvar", "sysvar", "var", "refresh winning",
    "refresh levels", "printgoal ", "printegoals", "winning ", "envnext ", "sysnext ", "sysnexta ", "restrict ", "relax ", "clear",
    "blockenv ", "blocksys ", "getindex "]

/-- How many numbers follow the words, for those that take a fixed number; the number of a goal is the last. -/
def wordNumbers (ne ns : ℕ) : List (String × ℕ) :=
  [("winning ", ne + ns), ("envnext ", ne + ns), ("sysnext ", ne + ns + ne + 1), ("sysnexta ", ne + ns + ne), ("blockenv ", ne),
    ("blocksys ", ns), ("getindex ", ne + ns + 1), ("printgoal ", 1)]

/-- How many numbers precede the number of the goal. -/
def goalNumbers (ne ns : ℕ) : List (String × ℕ) := [("sysnext ", ne + ns + ne), ("getindex ", ne + ns), ("printgoal ", 0)]

/-- The lines that ask something. Numbers can be written in every way `strtol` reads. -/
inductive Query.Line (ne ns n : ℕ) : Query → List Char → Prop
  | help (r : List Char) : Line ne ns n .help ("help".toList ++ r)
  | enable (r : List Char) : Line ne ns n .reorder ("enable autoreorder".toList ++ r)
  | disable (r : List Char) : Line ne ns n .reorder ("disable autoreorder".toList ++ r)
  | numgoals (r : List Char) : Line ne ns n .numgoals ("numgoals".toList ++ r)
  | envvar (r : List Char) : Line ne ns n .envvar ("envvar".toList ++ r)
  | sysvar (r : List Char) : Line ne ns n .sysvar ("sysvar".toList ++ r)
  | var (r : List Char) : Line ne ns n .var ("var".toList ++ r)
  | printgoal (i : ℕ) (hi : i < n) (r : List Char) (more : List ℤ) (h : Numbers ((i : ℤ) :: more) r) :
      Line ne ns n (.printgoal i) ("printgoal ".toList ++ r)
  | printegoals (r : List Char) : Line ne ns n .printegoals ("printegoals".toList ++ r)
  | short (w : String) (k : ℕ) (hw : (w, k) ∈ wordNumbers ne ns) (r : List Char) (vs : List ℤ) (h : Numbers vs r)
      (hk : vs.length < k) : Line ne ns n .short (w.toList ++ r)
  | shortEdge (w : String) (hw : w = "restrict " ∨ w = "relax ") (r : List Char) (vs : List ℤ) (h : Numbers vs r)
      (hk : vs.length < 2 * (ne + ns)) (hk' : vs.length ≠ ne + ns + ne) : Line ne ns n .short (w.toList ++ r)
  | nogoal (w : String) (k : ℕ) (hw : (w, k) ∈ goalNumbers ne ns) (r : List Char) (vs : List ℤ) (i : ℤ) (more : List ℤ)
      (h : Numbers (vs ++ i :: more) r) (hk : vs.length = k) (hi : i < 0 ∨ (n : ℤ) ≤ i) (h1 : -2 ^ 31 ≤ i) (h2 : i < 2 ^ 31) :
      Line ne ns n (.nogoal i) (w.toList ++ r)
  | unknown (line : List Char) (h0 : line ≠ []) (h : ∀ w ∈ sessionWords, ¬ w.toList <+: line) : Line ne ns n (.unknown line) line

/-- The lines of a session. -/
inductive SItem.Line {ne ns n : ℕ} : SItem ne ns n → List Char → Prop
  | cmd (c : ACmd ne ns n) (r : List Char) (h : Numbers c.nums r) : Line (.cmd c) (c.word ++ r)
  | ask (q : Query) (line : List Char) (h : q.Line ne ns n line) : Line (.ask q) line

/-- What is typed: lines of at most 254 characters without NUL, and in the end `quit` or the end of the input; the last line may lack
its newline. -/
inductive SessionText {ne ns n : ℕ} : List Char → List (SItem ne ns n) → Prop
  | eof : SessionText [] []
  | quit (rest : List Char) : SessionText ("quit".toList ++ rest) []
  | line (it : SItem ne ns n) (l text : List Char) (its : List (SItem ne ns n)) (hl : ∀ c ∈ l, c ≠ '\n' ∧ c ≠ Char.ofNat 0)
      (hlen : l.length ≤ 254) (h : it.Line (l ++ ['\n'])) (ht : SessionText text its) : SessionText (l ++ '\n' :: text) (it :: its)
  | last (it : SItem ne ns n) (l : List Char) (hl : ∀ c ∈ l, c ≠ '\n' ∧ c ≠ Char.ofNat 0) (hlen : l.length ≤ 254) (h0 : l ≠ [])
      (h : it.Line l) : SessionText l [it]

/-- The commands about the game. -/
def sessionCmds {ne ns n : ℕ} (its : List (SItem ne ns n)) : List (ACmd ne ns n) :=
  its.filterMap fun | .cmd c => some c | .ask _ => none

/-! ## Replies -/

/-- Variables with their positions in the vectors of states, the first at position `k`. -/
def listVars (k : ℕ) (ds : Decls) : List Char :=
  List.intercalate ", ".toList ((ds.zipIdx k).map fun x => x.1.1 ++ " (".toList ++ printInt x.2 ++ ")".toList)

/-- The same, or a remark that there are none. -/
def listSome (k : ℕ) (ds : Decls) : List Char := if ds = [] then "(none)".toList else listVars k ds

/-- The commands, as listed by `help`. -/
def sessionHelp : List String :=
  ["winning STATE", "envnext STATE", "sysnext STATE1 STATE2ENV GOALMODE", "sysnexta STATE1 STATE2ENV", "restrict STATE1 STATE2",
    "relax STATE1 STATE2", "clear", "blocksys STATESYS", "blockenv STATEENV", "getindex STATE GOALMODE", "refresh winning",
    "refresh levels", "addvar env (sys) VARIABLE", "envvar", "sysvar", "var", "numgoals", "printgoal GOALMODE", "printegoals",
    "enable (disable) autoreorder", "quit"]

/-- A formula as it is printed (C19 is about this text). -/
def fmText (f : Fm) : List Char := printFormula false f.toTree

/-- Replies to questions, for the goals `eg` and `sg`; always a newline in the end. -/
def Query.reply (d : FileData) : Query → List Char
  | .help => sessionHelp.flatMap fun s => s.toList ++ ['\n']
  | .reorder => ['\n']
  | .numgoals => printInt (sysGoals d.sp).length ++ ['\n']
  | .envvar => listSome 0 d.evars ++ ['\n']
  | .sysvar => listSome d.evars.length d.svars ++ ['\n']
  | .var => listVars 0 (d.evars ++ d.svars) ++ ['\n']
  | .printgoal i => (((sysGoals d.sp)[i]?).elim [] fmText) ++ ['\n']
  | .printegoals => ((if d.sp.egoals = [] then [.const 1] else d.sp.egoals).flatMap fun f => fmText f ++ ['\n']) ++ "---\n".toList
  | .short => "Invalid arguments.\n".toList
  | .nogoal i => "Invalid mode: ".toList ++ printInt i ++ ['\n']
  | .unknown line => "Unrecognized command: ".toList ++ line ++ ['\n']

/-- A row of a table of vectors. -/
def bitsText (row : List ℕ) : List Char := List.intercalate [' '] (row.map fun x : ℕ => printInt x) ++ ['\n']

/-- Replies to commands about the game. -/
def answerText : IOut → List Char
  | .nothing => []
  | .rows l => (l.map bitsText).flatten ++ "---\n".toList
  | .noEnv => "(none)\n".toList
  | .truth b => (if b then "True\n" else "False\n").toList
  | .inf => "Inf\n".toList
  | .index j => printInt j ++ ['\n']

/-- The replies: to the commands about the game, those of the list of answers. -/
def sessionReplies {ne ns n : ℕ} (d : FileData) : List (SItem ne ns n) → List IOut → List (List Char)
  | [], _ => []
  | .ask q :: its, os => q.reply d :: sessionReplies d its os
  | .cmd _ :: its, o :: os => answerText o :: sessionReplies d its os
  | .cmd _ :: _, [] => []

/-- The transcript. -/
def transcript (replies : List (List Char)) : List Char := (replies.flatMap fun r => ">>> ".toList ++ r) ++ ">>> ".toList

end Gr1c
