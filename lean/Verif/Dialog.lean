import Verif.Main
import Verif.Print

/-!
# The dialogue of the interactive mode

`/repo/src/interactive.c` 84-401 and the `fprintf` calls of 404-958: what is written for the text typed. The build without readline is
modelled. The program is called without `-v`, `-l` and `-p`, so that nothing else is on standard output; `outfp` and `stdout` are the same.
-/

namespace Gr1c

/-- `GR1C_INTERACTIVE_PROMPT`, `/repo/include/common.h` 24. -/
def iPrompt : List Char := ">>> ".toList

/-- The lines that successive calls of `fgets_wrap` with `max_len` 256 deliver, `/repo/src/interactive.c` 84-105 and 121, as C strings. -/
def ttyLines (typed : List Char) : List (List Char) :=
  if h : typed = [] then []
  else cstr (fgets 255 typed).1 :: ttyLines (fgets 255 typed).2
termination_by typed.length
decreasing_by exact fgets_length 254 typed h

/-- What the informational commands look at: the variable lists, and the arrays of goals after line 442 of `/repo/src/interactive.c`. -/
structure IInfo where
  ev : PTree
  sv : PTree
  egoals : List PTree
  sgoals : List PTree

/-- `INTCOM_HELP_STR`, `/repo/src/interactive.c` 53-73. -/
def helpStr : List Char :=
  ("winning STATE\n" ++ "envnext STATE\n" ++ "sysnext STATE1 STATE2ENV GOALMODE\n" ++ "sysnexta STATE1 STATE2ENV\n" ++
    "restrict STATE1 STATE2\n" ++ "relax STATE1 STATE2\n" ++ "clear\n" ++ "blocksys STATESYS\n" ++ "blockenv STATEENV\n" ++
    "getindex STATE GOALMODE\n" ++ "refresh winning\n" ++ "refresh levels\n" ++ "addvar env (sys) VARIABLE\n" ++ "envvar\n" ++ "sysvar\n" ++
    "var\n" ++ "numgoals\n" ++ "printgoal GOALMODE\n" ++ "printegoals\n" ++ "enable (disable) autoreorder\n" ++ "quit").toList

/-- `fprintf( outfp, "%s (%d)", tmppt->name, var_index )`. -/
def varItem (nm : Option Name) (k : ℕ) : List Char := nm.getD [] ++ " (".toList ++ printInt k ++ ")".toList

/-- The loop over a variable list in `envvar`, `sysvar` and the second part of `var`, `/repo/src/interactive.c` 145-153, 161-169 and
183-191. -/
def varLoop (k : ℕ) : PTree → List Char
  | .nil => []
  | .node _ nm _ .nil _ => varItem nm k
  | .node _ nm _ l _ => varItem nm k ++ ", ".toList ++ varLoop (k + 1) l

/-- The first loop of `var`, `/repo/src/interactive.c` 175-180. -/
def varLoopAll (k : ℕ) : PTree → List Char
  | .nil => []
  | .node _ nm _ l _ => varItem nm k ++ ", ".toList ++ varLoopAll (k + 1) l

/-- `printgoal`, `/repo/src/interactive.c` 200-215. -/
def printGoal (I : IInfo) (input : List Char) : List Char :=
  match readStateStr (input.drop 10) 1 with
  | [] => "Invalid arguments.".toList
  | md :: _ =>
    if md < 0 ∨ md > (I.sgoals.length : ℤ) - 1 then "Invalid mode: ".toList ++ printInt md
    else printFormula false (I.sgoals.getD md.toNat .nil)

/-- `printegoals`, `/repo/src/interactive.c` 219-224. -/
def printEgoals (I : IInfo) : List Char := (I.egoals.flatMap fun t => printFormula false t ++ ['\n']) ++ "---".toList

/-- What `command_loop` writes for a line that leads to no command and has nothing to do with the game, `/repo/src/interactive.c` 129-224
and 388-390; without the newline of 393. -/
def infoSays (I : IInfo) (input : List Char) : List Char :=
  let sw (w : String) := startsWith w.toList input
  if sw "help" then helpStr
  else if sw "enable autoreorder" then []
  else if sw "disable autoreorder" then []
  else if sw "numgoals" then printInt I.sgoals.length
  else if sw "envvar" then if I.ev = .nil then "(none)".toList else varLoop 0 I.ev
  else if sw "sysvar" then if I.sv = .nil then "(none)".toList else varLoop I.ev.size I.sv
  else if sw "var" then varLoopAll 0 I.ev ++ varLoop I.ev.size I.sv
  else if sw "printgoal " then printGoal I input
  else if sw "printegoals" then printEgoals I
  else "Unrecognized command: ".toList ++ input

/-- The goal number that is not one: `/repo/src/interactive.c` 270 and 375. -/
def badModeOf (ne ns : ℕ) (input : List Char) : ℤ :=
  if startsWith "sysnext ".toList input then (readStateStr (input.drop 8) (2 * ne + ns + 1 : ℕ)).getD (2 * ne + ns) 0
  else (readStateStr (input.drop 9) (ne + ns + 1 : ℕ)).getD (ne + ns) 0

/-- What `command_loop` writes for a line that leads to no command, `/repo/src/interactive.c` 123-396. -/
def lineSays (I : IInfo) (ne ns n : ℕ) (input : List Char) : List Char :=
  match parseLine ne ns n input with
  | .invalid => "Invalid arguments.\n".toList
  | .badMode => "Invalid mode: ".toList ++ printInt (badModeOf ne ns input) ++ ['\n']
  | .other => if input = [] then [] else infoSays I input ++ ['\n']
  | _ => []

/-- A row of 0s and 1s, e.g. `/repo/src/interactive.c` 679-682; rows have at least one entry. -/
def answerRow : List ℕ → List Char
  | [] => ['\n']
  | x :: xs => printInt x ++ (xs.flatMap fun y : ℕ => ' ' :: printInt y) ++ ['\n']

/-- What `levelset_interactive` writes for a command, `/repo/src/interactive.c` 590-836. -/
def outText : IOut → List Char
  | .nothing => []
  | .rows l => l.flatMap answerRow ++ "---\n".toList
  | .noEnv => "(none)\n".toList
  | .truth b => if b then "True\n".toList else "False\n".toList
  | .inf => "Inf\n".toList
  | .index j => printInt j ++ ['\n']

/-- How the dialogue ends. -/
inductive TalkRes
  /-- all that is on standard output when `main` returns 0 -/
  | ok (text : List Char)
  | err
  | ub
  | unmodelled
  deriving DecidableEq

/-- Something was written before. -/
def TalkRes.after (t : List Char) : TalkRes → TalkRes
  | .ok s => .ok (t ++ s)
  | r => r

/-- The loops of `levelset_interactive` and `command_loop`, `/repo/src/interactive.c` 542-958 and 117-401. -/
def talkLoop {ne ns m n : ℕ} (cover : Bdd (2 * (ne + ns)) → List (CubeArr (2 * (ne + ns)))) (sp : ISpec ne ns m n) (I : IInfo)
    (σ : ISess ne ns m n) : List (List Char) → TalkRes
  | [] => .ok iPrompt
  | l :: ls =>
    match parseLine ne ns n l with
    | .cmd c =>
      match iStep cover sp σ c with
      | .ub => .ub
      | .null => .err
      | .ok (σ', o) => (talkLoop cover sp I σ' ls).after (iPrompt ++ outText o)
    | .quit => .ok iPrompt
    | .unmodelled => .unmodelled
    | _ => (talkLoop cover sp I σ ls).after (iPrompt ++ lineSays I ne ns n l)

/-- `levelset_interactive`, `/repo/src/interactive.c` 404-1003. -/
def talkGame {ne ns : ℕ} (w : World) (I : IInfo) (B : BitSpec ne ns) (typed : List Char) : TalkRes :=
  match iStep (w.cover _) B.interactive (iStart B.interactive) .relevels with
  | .ub => .ub
  | .null => .err
  | .ok (σ, _) => talkLoop (w.cover _) B.interactive I σ (ttyLines typed)

/-- The goals as the session finds them: expanded, `/repo/src/main.c` 512-527, and True for a missing environment goal,
`/repo/src/interactive.c` 437-442. -/
def sessGoals (sp : TSpec) : List PTree := if sp.egoals = [] then [initPtree .const none 1] else sp.egoals

/-- `/repo/src/main.c` 347-600 in the interactive mode, for a parsed specification. -/
def talkParsed (w : World) (c : Cfg) (p : PState) (typed : List Char) : TalkRes :=
  match frontEnd p.ev p.sv c.init p.sp, expandNonboolGR1 p.ev p.sv c.init (omissionDefaults p.sp) with
  | .ok ev sv nb _ _ B, .ok sp' =>
    if nb ≠ .nil then .err else talkGame w ⟨ev, sv, sessGoals sp', sp'.sgoals⟩ B typed
  | .ub, _ => .ub
  | .noBdd, _ => .unmodelled
  | _, _ => .err

/-- What is on standard output after a call of `gr1c` with `-i` and without `-v`, `-l` and `-p`, if `typed` is typed. Other calls are
outside of this model. -/
def talkMain (w : World) (args : List Arg) (typed : List Char) : TalkRes :=
  match cliMain args with
  | .run c =>
    if c.run = .interactive ∧ c.verbose = 0 ∧ c.logging = false ∧ c.ptdump = false then
      match w.source c.input with
      | none => .err
      | some text =>
        match parseFile false text with
        | none => .err
        | some p => talkParsed w c p typed
    else .unmodelled
  | _ => .unmodelled

end Gr1c
