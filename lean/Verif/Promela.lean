import Verif.SpinSpec
import Verif.PTree

/-!
# Specification: the part of Promela and of Spin's LTL that gr1c writes (C58)

After the manual of Promela (<https://spinroot.com/spin/Man/promela.html>): programs with one process, their
texts, their executions, and LTL formulas over them. Numbers are not bounded here (`int` has 32 bits).
-/

namespace Gr1c

/-! ## Programs -/

/-- Right hand sides of assignments. -/
inductive PRhs
  | bool (b : Bool)
  | num (v : ℕ)
  | name (n : Name)
  deriving DecidableEq

/-- Conjuncts of guards: `n`, `!n`, `n == v`. -/
inductive PLit
  | pos (n : Name)
  | neg (n : Name)
  | eq (n : Name) (v : ℕ)
  deriving DecidableEq

/-- Guards: `(1)`, a conjunction, `else`. -/
inductive PGuard
  | one
  | lits (l : PLit) (ls : List PLit)
  | els
  deriving DecidableEq

/-- Assignments. -/
abbrev PAssign := Name × PRhs

/-- An option of a selection, `:: guard -> assignments`. -/
structure PAlt where
  guard : PGuard
  first : PAssign
  more : List PAssign
  deriving DecidableEq

/-- Its assignments. -/
def PAlt.body (a : PAlt) : List PAssign := a.first :: a.more

/-- Statements: assignment, `if … fi`, `d_step { if … fi }`, `atomic { … }` with assignments, `goto`. -/
inductive PCmd
  | assign (p : PAssign)
  | sel (alts : List PAlt)
  | dstep (alts : List PAlt)
  | atomic (l : List PAssign)
  | goto (l : Name)
  deriving DecidableEq

/-- A declaration: type `int` if `int`, name, and whether ` = false` follows. -/
structure PDecl where
  int : Bool
  name : Name
  init : Bool
  deriving DecidableEq

/-- A program: global declarations and one process `init` with local declarations and statements, some with
labels. -/
structure PProgram where
  globals : List PDecl
  locals : List PDecl
  body : List (Option Name × PCmd)

/-! ## Texts -/

/-- Tokens separated by a given one. -/
def sepToks (sep : List Char) : List (List (List Char)) → List (List Char)
  | [] => []
  | [x] => x
  | x :: y :: l => x ++ sep :: sepToks sep (y :: l)

def PRhs.toks : PRhs → List (List Char)
  | .bool true => ["true".toList]
  | .bool false => ["false".toList]
  | .num v => [decimal v]
  | .name n => [n]

def PLit.toks : PLit → List (List Char)
  | .pos n => [n]
  | .neg n => [['!'], n]
  | .eq n v => [n, ['=', '='], decimal v]

def PGuard.toks : PGuard → List (List Char)
  | .one => [['('], ['1'], [')']]
  | .lits l ls => ['('] :: (sepToks ['&', '&'] ((l :: ls).map PLit.toks) ++ [[')']])
  | .els => ["else".toList]

def assignToks (p : PAssign) : List (List Char) := p.1 :: ['='] :: p.2.toks

def assignsToks (l : List PAssign) : List (List Char) := sepToks [';'] (l.map assignToks)

def PAlt.toks (a : PAlt) : List (List Char) := [':', ':'] :: (a.guard.toks ++ ['-', '>'] :: assignsToks a.body)

/-- `if … fi`. -/
def selToks (alts : List PAlt) : List (List Char) := "if".toList :: (alts.flatMap PAlt.toks ++ ["fi".toList])

def PCmd.toks : PCmd → List (List Char)
  | .assign p => assignToks p
  | .sel alts => selToks alts
  | .dstep alts => "d_step".toList :: ['{'] :: (selToks alts ++ [['}']])
  | .atomic l => "atomic".toList :: ['{'] :: (assignsToks l ++ [['}']])
  | .goto l => ["goto".toList, l]

/-- A statement with its label. -/
def lineToks (x : Option Name × PCmd) : List (List Char) :=
  match x.1 with
  | none => x.2.toks
  | some l => l :: [':'] :: x.2.toks

def PDecl.toks (d : PDecl) : List (List Char) :=
  (if d.int then "int".toList else "bool".toList) :: d.name ::
    ((if d.init then [['='], "false".toList] else []) ++ [[';']])

def PProgram.toks (P : PProgram) : List (List Char) :=
  P.globals.flatMap PDecl.toks ++ "init".toList :: ['{'] ::
    (P.locals.flatMap PDecl.toks ++ (sepToks [';'] (P.body.map lineToks) ++ [['}']]))

/-- Blanks and comments. -/
inductive PBlank : List Char → Prop
  | nil : PBlank []
  | blank {s} (c : Char) (hc : c = ' ' ∨ c = '\n') (h : PBlank s) : PBlank (c :: s)
  | comment {s} (t : List Char) (ht : ¬ ['*', '/'] <:+: t) (h : PBlank s) : PBlank ("/*".toList ++ t ++ "*/".toList ++ s)

/-- Whether a token ends where the text `s` begins: a word is not continued by a letter, a symbol not by a
character it could be combined with. -/
def TokEnds (t s : List Char) : Prop :=
  ∀ c, s.head? = some c →
    if t.all isWordChar then isWordChar c = false else c ∉ ['=', '>', ':', '&', '|', '*', '/']

/-- A text with the given tokens. -/
inductive PTokText : List (List Char) → List Char → Prop
  | nil {s} (h : PBlank s) : PTokText [] s
  | cons {b t ts s} (hb : PBlank b) (ht : t ≠ []) (he : TokEnds t s) (h : PTokText ts s) : PTokText (t :: ts) (b ++ t ++ s)

/-- Words that are no names of variables: keywords of Promela, constants and predefined names. -/
def promelaWords : List (List Char) :=
  ["true", "false", "if", "fi", "else", "d_step", "atomic", "goto", "int", "bool", "init", "active", "assert", "bit",
    "break", "byte", "c_code", "c_decl", "c_expr", "c_state", "c_track", "chan", "D_proctype", "do", "od", "empty",
    "enabled", "eval", "for", "full", "get_priority", "hidden", "in", "inline", "len", "local", "ltl", "mtype", "nempty",
    "never", "nfull", "notrace", "nr_pr", "of", "pc_value", "pid", "printf", "printm", "priority", "proctype",
    "provided", "return", "run", "select", "set_priority", "short", "show", "skip", "timeout", "trace", "typedef",
    "unless", "unsigned", "xr", "xs", "_", "_last", "_nr_pr", "_pid", "_priority", "np_", "STDIN"].map String.toList

/-! ## Macros -/

/-- A conjunction of expressions in one line; each is an operand, that is, followed by a character that
does not continue a word, exactly it is read at the highest level of precedence. -/
inductive ConjLine : List SExp → List Char → Prop
  | one {e w} (h : ∀ s, (∀ c, s.head? = some c → isWordChar c = false) → ∃ n, readLev n 4 (w ++ s) = some (e, s))
      (hw : '\n' ∉ w) : ConjLine [e] w
  | cons {e w es ws} (h : ∀ s, (∀ c, s.head? = some c → isWordChar c = false) → ∃ n, readLev n 4 (w ++ s) = some (e, s))
      (hw : '\n' ∉ w) (hs : ConjLine es ws) : ConjLine (e :: es) (w ++ " && ".toList ++ ws)

/-- A macro: a name that stands for a conjunction. -/
abbrev PMacro := Name × List SExp

/-- Lines `#define name text`, each preceded by a line end. -/
inductive MacroLines : List PMacro → List Char → Prop
  | nil : MacroLines [] []
  | cons {n es w ms s} (h : ConjLine es w) (hs : MacroLines ms s) :
      MacroLines ((n, es) :: ms) ("\n#define ".toList ++ n ++ ' ' :: (w ++ s))

/-- A file with macros and a program in which no name is a macro; the names of variables are different, and no
sequence is empty. -/
def PmlFile (text : List Char) (ms : List PMacro) (P : PProgram) : Prop :=
  (∃ b m s, text = b ++ m ++ '\n' :: s ∧ PBlank b ∧ MacroLines ms m ∧ PTokText P.toks s) ∧
    (ms.map Prod.fst).Nodup ∧ (∀ n ∈ ms.map Prod.fst, n ∉ P.toks ∧ n ∉ promelaWords) ∧
    ((P.globals ++ P.locals).map PDecl.name).Nodup ∧ (∀ d ∈ P.globals ++ P.locals, d.name ∉ promelaWords) ∧
    ∀ x ∈ P.body, x.2 ≠ .sel [] ∧ x.2 ≠ .dstep [] ∧ x.2 ≠ .atomic []

/-! ## Executions -/

/-- Values of the variables. -/
abbrev PVal := Name → ℤ

def PRhs.val (σ : PVal) : PRhs → ℤ
  | .bool b => if b then 1 else 0
  | .num v => v
  | .name n => σ n

def PLit.Holds (σ : PVal) : PLit → Prop
  | .pos n => σ n ≠ 0
  | .neg n => σ n = 0
  | .eq n v => σ n = v

/-- An assignment. -/
def PVal.set (σ : PVal) (p : PAssign) : PVal := Function.update σ p.1 (p.2.val σ)

/-- Assignments one after the other. -/
def PVal.run (σ : PVal) (l : List PAssign) : PVal := l.foldl PVal.set σ

/-- A guard other than `else` is true. -/
def PGuard.Holds (σ : PVal) : PGuard → Prop
  | .one => True
  | .lits l ls => ∀ x ∈ l :: ls, x.Holds σ
  | .els => False

/-- An option can be chosen: its guard is true, or it is `else` and no guard is true. -/
def PAlt.Enabled (σ : PVal) (alts : List PAlt) (a : PAlt) : Prop :=
  a.guard.Holds σ ∨ (a.guard = .els ∧ ∀ b ∈ alts, ¬ b.guard.Holds σ)

/-- The statements from a label on. -/
def PProgram.atLabel (P : PProgram) (l : Name) : List PCmd := (P.body.dropWhile fun x => x.1 != some l).map Prod.snd

/-- Steps of the process: values, and statements still to be executed. The guard of an option is a step of its
own. A sequence `d_step` is one step, and takes the first option that can be chosen ("non-determinism is resolved
in a fixed and deterministic way", <https://spinroot.com/spin/Man/d_step.html>). With `fine`, each assignment of a sequence `atomic` is a step (as in Spin's
verifier), otherwise the sequence is one step. (A `goto` is a step here that does not change values; formulas
below do not see it.) -/
inductive PStep (P : PProgram) (fine : Bool) : PVal × List PCmd → PVal × List PCmd → Prop
  | assign (σ p k) : PStep P fine (σ, .assign p :: k) (σ.set p, k)
  | sel (σ alts k) (a : PAlt) (ha : a ∈ alts) (h : a.Enabled σ alts) :
      PStep P fine (σ, .sel alts :: k) (σ, a.body.map .assign ++ k)
  | dstep (σ l r k) (a : PAlt) (h : a.Enabled σ (l ++ a :: r)) (hl : ∀ b ∈ l, ¬ b.Enabled σ (l ++ a :: r)) :
      PStep P fine (σ, .dstep (l ++ a :: r) :: k) (σ.run a.body, k)
  | atomic (σ l k) (h : fine = false) : PStep P fine (σ, .atomic l :: k) (σ.run l, k)
  | atomicStep (σ p l k) (h : fine = true) : PStep P fine (σ, .atomic (p :: l) :: k) (σ.set p, .atomic l :: k)
  | atomicEnd (σ k) (h : fine = true) : PStep P fine (σ, .atomic [] :: k) (σ, k)
  | goto (σ l k) : PStep P fine (σ, .goto l :: k) (σ, P.atLabel l)

/-- An execution: at first all variables are 0. -/
def PExec (P : PProgram) (fine : Bool) (c : ℕ → PVal × List PCmd) : Prop :=
  c 0 = (fun _ => 0, P.body.map Prod.snd) ∧ ∀ i, PStep P fine (c i) (c (i + 1))

/-! ## Formulas -/

/-- Formulas of LTL. -/
inductive Ltl
  | prop (n : Name)
  | not (f : Ltl)
  | and (f g : Ltl)
  | or (f g : Ltl)
  | imp (f g : Ltl)
  | next (f : Ltl)
  | alw (f : Ltl)
  | ev (f : Ltl)
  deriving DecidableEq

/-- Their texts: `->` binds weakest, then `||`, then `&&`; the operators with one operand bind strongest. -/
inductive LtlToks : ℕ → Ltl → List (List Char) → Prop
  | prop (n : Name) : LtlToks 3 (.prop n) [n]
  | paren {f ts} (h : LtlToks 0 f ts) : LtlToks 3 f (['('] :: (ts ++ [[')']]))
  | not {f ts} (h : LtlToks 3 f ts) : LtlToks 3 (.not f) (['!'] :: ts)
  | next {f ts} (h : LtlToks 3 f ts) : LtlToks 3 (.next f) (['X'] :: ts)
  | alw {f ts} (h : LtlToks 3 f ts) : LtlToks 3 (.alw f) (['[', ']'] :: ts)
  | ev {f ts} (h : LtlToks 3 f ts) : LtlToks 3 (.ev f) (['<', '>'] :: ts)
  | and {f g ts us} (h : LtlToks 2 f ts) (h' : LtlToks 3 g us) : LtlToks 2 (.and f g) (ts ++ ['&', '&'] :: us)
  | or {f g ts us} (h : LtlToks 1 f ts) (h' : LtlToks 2 g us) : LtlToks 1 (.or f g) (ts ++ ['|', '|'] :: us)
  | imp {f g ts us} (h : LtlToks 1 f ts) (h' : LtlToks 0 g us) : LtlToks 0 (.imp f g) (ts ++ ['-', '>'] :: us)
  | up {k f ts} (h : LtlToks (k + 1) f ts) : LtlToks k f ts

/-- The text is the formula `f`. -/
def LtlText (text : List Char) (f : Ltl) : Prop := ∃ ts, LtlToks 0 f ts ∧ PTokText ts text

/-- A proposition: a macro, or else a variable. -/
def propHolds (ms : List PMacro) (σ : PVal) (n : Name) : Prop :=
  match ms.find? fun m => m.1 = n with
  | some m => ∀ e ∈ m.2, e.val σ ≠ 0
  | none => σ n ≠ 0

/-- Truth of a formula at a position of a sequence. -/
def Ltl.Holds (ms : List PMacro) (w : ℕ → PVal) : Ltl → ℕ → Prop
  | .prop n, i => propHolds ms (w i) n
  | .not f, i => ¬ f.Holds ms w i
  | .and f g, i => f.Holds ms w i ∧ g.Holds ms w i
  | .or f g, i => f.Holds ms w i ∨ g.Holds ms w i
  | .imp f g, i => f.Holds ms w i → g.Holds ms w i
  | .next f, i => f.Holds ms w (i + 1)
  | .alw f, i => ∀ j, i ≤ j → f.Holds ms w j
  | .ev f, i => ∃ j, i ≤ j ∧ f.Holds ms w j

/-- The model satisfies the formula: all executions do. -/
def PVerifies (P : PProgram) (fine : Bool) (ms : List PMacro) (f : Ltl) : Prop :=
  ∀ c, PExec P fine c → f.Holds ms (fun i => (c i).1) 0

end Gr1c
