import Verif.Autman
import Verif.TextOut

/-!
# Specification of `gr1c-autman`

From its help text (`/repo/aux/autman.c` 73-92): which argument vectors are command lines, and what they ask for.
-/

namespace Gr1c

/-- Parts of a command line. -/
inductive AmItem
  | verbose (two : Bool) | logging | synt | model
  | format (f : OutFmt) | len (n : ℤ) | spc (a : Arg) | output (a : Arg) | input (a : Arg)
  deriving DecidableEq

/-- Flags without an argument. -/
def amFlagWords : List (AmItem × String) :=
  [(.verbose false, "-v"), (.verbose true, "-vv"), (.logging, "-l"), (.synt, "-s"), (.model, "-P")]

/-- `ws` are the arguments that give the part; `loose` adds spellings that the program takes too. -/
inductive AmSpelled (loose : Bool) : AmItem → List Arg → Prop
  | flag {o w} (h : (o, w) ∈ amFlagWords) : AmSpelled loose o [w.toList]
  | loud (x : Arg) (hl : loose = true) : AmSpelled loose (.verbose true) ["-vv".toList ++ x]
  | format {f w} (x : Arg) (hl : loose = true ∨ x = []) (h : (f, w) ∈ fmtWords) :
      AmSpelled loose (.format f) [['-', 't'], w.toList ++ x]
  | len {a n} (h : IntText a n) (hn : IsInt n) : AmSpelled loose (.len n) [['-', 'L'], a]
  | looseLen (a : Arg) (hl : loose = true) : AmSpelled loose (.len (lenArg a)) [['-', 'L'], a]
  | spc (a : Arg) : AmSpelled loose (.spc a) [['-', 'i'], a]
  | output (a : Arg) : AmSpelled loose (.output a) [['-', 'o'], a]
  | input (a : Arg) (h : a.head? ≠ some '-') : AmSpelled loose (.input a) [a]

/-- Parts one after the other, in any order. -/
inductive AmItems (loose : Bool) : List AmItem → List Arg → Prop
  | nil : AmItems loose [] []
  | cons {o w os ws} (h : AmSpelled loose o w) (hs : AmItems loose os ws) : AmItems loose (o :: os) (w ++ ws)

/-- The last value given, or the default. -/
def lastIn {α : Type} (f : AmItem → Option α) (d : α) (os : List AmItem) : α := (os.filterMap f).getLast?.getD d

def AmItem.run? : AmItem → Option AmRun
  | .synt => some .syntaxOnly
  | .model => some .model
  | .format _ => some .convert
  | _ => none

def AmItem.format? : AmItem → Option OutFmt
  | .format f => some f
  | _ => none

def AmItem.len? : AmItem → Option ℤ
  | .len n => some n
  | _ => none

def AmItem.spc? : AmItem → Option (Option Arg)
  | .spc a => some (some a)
  | _ => none

def AmItem.output? : AmItem → Option (Option Arg)
  | .output a => some (some a)
  | _ => none

def AmItem.input? : AmItem → Option (Option Arg)
  | .input a => some (some a)
  | _ => none

def AmItem.loud : AmItem → ℕ
  | .verbose two => if two then 2 else 1
  | _ => 0

/-- What a command line asks for: of every kind the last one counts. "If no action is requested, then assume -s." -/
def amMeaning (os : List AmItem) : AmCfg where
  run := lastIn AmItem.run? .syntaxOnly os
  format := lastIn AmItem.format? .json os
  len := lastIn AmItem.len? (-1) os
  spc := lastIn AmItem.spc? none os
  output := lastIn AmItem.output? none os
  input := lastIn AmItem.input? none os
  verbose := (os.map AmItem.loud).sum % 256
  logging := decide (AmItem.logging ∈ os)

/-- The input of a run: the file named last, or standard input; `none` if it cannot be opened. -/
def AmWorld.given (w : AmWorld) (c : AmCfg) : Option (List Char) :=
  match c.input with
  | some f => w.file f
  | none => some w.stdin

/-- The output of a run can be opened. -/
def AmWorld.canPut (w : AmWorld) (c : AmCfg) : Prop := ∀ f, c.output = some f → w.canWrite f = true

/-- Status 0 and a text in the requested place, and nothing else. -/
def Puts (r : AmRes) (c : AmCfg) (s : List Char) : Prop :=
  (∀ f, c.output = some f → r = .exit 0 [] (some (f, s))) ∧ (c.output = none → r = .exit 0 s none)

/-- The text describes the automaton, in the sense of its format (`TextSays`); in `dot` all variables are shown with their
values. -/
def AmSays (fmt : OutFmt) (ev sv : VarList) (a : Aut ℤ (List ℤ)) (s : List Char) : Prop :=
  if fmt = .dot then
    ((∀ k n, a[k]? = some n → (nodeLabel false false true ev.names sv.names k n).length < 4094) ∧
      ∃ g, readDot s = some g ∧ Draws false false true ev.names sv.names a g) ∨
    ((∃ k n, a[k]? = some n ∧ 4094 ≤ (nodeLabel false false true ev.names sv.names k n).length) ∧ readDot s = none)
  else TextSays fmt ev sv a s

/-- The nodes of a file as an automaton: IDs in place of addresses. -/
def fileAut (rs : List FileNode) : Aut ℤ (List ℤ) := rs.map fun r => ⟨r.id, r.state, r.mode, r.rgrad, r.initial, r.trans⟩

end Gr1c
