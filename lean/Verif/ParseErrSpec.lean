import Verif.ParseErr
import Verif.FileSpec

/-!
# Specification of syntax errors (C73)

The grammar of `/repo/src/gr1c_parse.y` 64-556 as it is written there, without precedence, and what is allowed in a file beyond the
grammar. The line of a place in a text is one more than the number of line ends before it.
-/

namespace Gr1c

/-- Operators between formulas. -/
def binToks : List Tok := [.chr '&', .chr '|', .implies, .equiv]

/-- Formulas, with primed variables if `primes`. -/
inductive FormG (primes : Bool) : List Tok → Prop
  | tt : FormG primes [.tt]
  | ff : FormG primes [.ff]
  | var (nx : Bool) (h : nx = true → primes = true) (n : Name) : FormG primes (.ident n :: primeToks nx)
  | cmp (op : CmpOp) (nx : Bool) (h : nx = true → primes = true) (n : Name) (k : ℕ) :
      FormG primes (.ident n :: (primeToks nx ++ [op.tok, .num k]))
  | neg {ts} (h : FormG primes ts) : FormG primes (.chr '!' :: ts)
  | bin {ts ts' o} (ho : o ∈ binToks) (h : FormG primes ts) (h' : FormG primes ts') : FormG primes (ts ++ o :: ts')
  | paren {ts} (h : FormG primes ts) : FormG primes (.chr '(' :: (ts ++ [.chr ')']))

/-- One or more formulas, separated by `sep`. -/
inductive FormsG (primes : Bool) (sep : Tok) : List Tok → Prop
  | one {ts} (h : FormG primes ts) : FormsG primes sep ts
  | more {ts ts'} (h : FormsG primes sep ts) (h' : FormG primes ts') : FormsG primes sep (ts ++ sep :: ts')

/-- A declaration: a name, and bounds. -/
structure RawDecl where
  name : Name
  dom : Option (ℕ × ℕ)

/-- Its tokens. -/
def RawDecl.toks (d : RawDecl) : List Tok :=
  .ident d.name ::
    match d.dom with
    | none => []
    | some (a, b) => [.chr '[', .num a, .chr ',', .num b, .chr ']']

/-- Sections: declarations, initial conditions (`f`: there is a formula), others. -/
inductive RawSec
  | vars (env : Bool) (ds : List RawDecl)
  | init (env : Bool) (f : Bool)
  | other

/-- Sections without the semicolon. -/
inductive SecG (rg : Bool) : RawSec → List Tok → Prop
  | vars (env : Bool) (ds : List RawDecl) :
      SecG rg (.vars env ds) ((if env then .evars else .svars) :: ds.flatMap RawDecl.toks)
  | init0 (env : Bool) : SecG rg (.init env false) [if env then .einit else .sinit]
  | init1 (env : Bool) {ts} (h : FormG false ts) : SecG rg (.init env true) ((if env then .einit else .sinit) :: ts)
  | trans0 (env : Bool) : SecG rg .other [if env then .etrans else .strans]
  | trans1 (env : Bool) {ts} (h : FormsG true .andSafe ts) :
      SecG rg .other ((if env then .etrans else .strans) :: .safe :: ts)
  | goal0 (env : Bool) : SecG rg .other [if env then .egoal else .sgoal]
  | goal1 (env : Bool) (hr : env = true ∨ rg = false) {ts} (h : FormsG false .andLive ts) :
      SecG rg .other ((if env then .egoal else .sgoal) :: .live :: ts)
  | reach (hr : rg = true) {ts} (h : FormG false ts) : SecG rg .other (.sgoal :: .ev :: ts)

/-- Files, possibly with a formula in front. -/
inductive FileG (rg : Bool) : List RawSec → List Tok → Prop
  | nil : FileG rg [] []
  | lead {ts} (h : FormG false ts) : FileG rg [] ts
  | snoc {ss ts s ts'} (h : FileG rg ss ts) (h' : SecG rg s ts') : FileG rg (ss ++ [s]) (ts ++ (ts' ++ [.chr ';']))

/-- Names that sections declare. -/
def declaredIn (ss : List RawSec) : List Name :=
  ss.flatMap fun s =>
    match s with
    | .vars _ ds => ds.map RawDecl.name
    | _ => []

/-- The declarations are allowed after the given names: lower bounds are 0 and all names new. -/
def DeclsFit (old : List Name) (ds : List RawDecl) : Prop :=
  (∀ d ∈ ds, ∀ x, d.dom = some x → x.1 = 0) ∧ (old ++ ds.map RawDecl.name).Nodup

/-- The section is allowed after the given ones: an initial condition is given once. -/
def RawSec.Fits (old : List RawSec) : RawSec → Prop
  | .vars _ ds => DeclsFit (declaredIn old) ds
  | .init env _ => RawSec.init env true ∉ old
  | .other => True

/-- Sections that are allowed one after the other. -/
def SecsFit (ss : List RawSec) : Prop := ∀ old s new, ss = old ++ s :: new → s.Fits old

/-- The line of what follows the text. -/
def lineAfter (text : List Char) : ℕ := text.count '\n' + 1

/-- The lines of a text, each with its line end; the last one has none. -/
def linesOf : List Char → List (List Char)
  | [] => [[]]
  | c :: cs =>
    if c = '\n' then [c] :: linesOf cs
    else
      match linesOf cs with
      | [] => [[c]]
      | w :: ws => (c :: w) :: ws

/-- Tokens of the lines of a text, each line scanned by itself, with the number of the line; the first line has the number `n`. -/
def toksByLine (n : ℕ) (text : List Char) : List (Tok × ℕ) :=
  ((linesOf text).zipIdx n).flatMap fun x => (lexFile x.1).map fun t => (t, x.2)

/-- A symbol that is not a 7-bit character, or is the character 0. -/
def WideTok (t : Tok) : Prop := ∃ c : Char, t = .chr c ∧ (c.toNat = 0 ∨ 128 ≤ c.toNat)

end Gr1c
