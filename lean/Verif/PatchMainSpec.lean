import Verif.PatchMain
import Verif.MainProps
import Verif.AutmanSpec
import Verif.AddGoalSpec
import Verif.RmGoalSpec
import Verif.IntGame

/-!
# Specification of `gr1c-patch`

From its help text (`/repo/exp/grpatch.c` 227-247): which argument vectors are command lines, what they ask for, and what the written
automaton is to be. All of it is over the declared values of the variables.
-/

namespace Gr1c

/-! ## Command line -/

/-- Options. -/
inductive PgItem
  | help | verbose (two : Bool) | logging | ptdump
  | metric (a : Arg) | format (f : OutFmt) | edges (a : Arg) | aut (a : Arg) | output (a : Arg) | form (a : Arg) | rm (n : ℕ)
  deriving DecidableEq

/-- Flags without an argument. -/
def pgFlagWords : List (PgItem × String) :=
  [(.help, "-h"), (.help, "--help"), (.verbose false, "-v"), (.verbose true, "-vv"), (.logging, "-l"), (.ptdump, "-p")]

/-- `ws` are the arguments that give the option. -/
inductive PgSpelled : PgItem → List Arg → Prop
  | flag {o w} (h : (o, w) ∈ pgFlagWords) : PgSpelled o [w.toList]
  | metric (a : Arg) : PgSpelled (.metric a) [['-', 'm'], a]
  | format {f w} (h : (f, w) ∈ fmtWords) : PgSpelled (.format f) [['-', 't'], w.toList]
  | edges (a : Arg) : PgSpelled (.edges a) [['-', 'e'], a]
  | aut (a : Arg) : PgSpelled (.aut a) [['-', 'a'], a]
  | output (a : Arg) : PgSpelled (.output a) [['-', 'o'], a]
  | form (a : Arg) : PgSpelled (.form a) [['-', 'f'], a]
  | rm {a : Arg} {n : ℕ} (h : IntText a (n : ℤ)) (hn : IsInt (n : ℤ)) : PgSpelled (.rm n) [['-', 'r'], a]

/-- Options one after the other. -/
inductive PgItems : List PgItem → List Arg → Prop
  | nil : PgItems [] []
  | cons {o w os ws} (h : PgSpelled o w) (hs : PgItems os ws) : PgItems (o :: os) (w ++ ws)

/-- A command line: options, and perhaps the name of the specification. -/
def PgCmdLine (os : List PgItem) (f : Option Arg) (args : List Arg) : Prop := ∃ ws t, PgItems os ws ∧ Tail f t ∧ args = ws ++ t

/-- The last value given, or the default. -/
def lastVal {I α : Type} (f : I → Option α) (d : α) (os : List I) : α := (os.filterMap f).getLast?.getD d

def PgItem.metric? : PgItem → Option (Option Arg)
  | .metric a => some (some a)
  | _ => none

def PgItem.format? : PgItem → Option OutFmt
  | .format f => some f
  | _ => none

def PgItem.edges? : PgItem → Option (Option Arg)
  | .edges a => some (some a)
  | _ => none

def PgItem.aut? : PgItem → Option (Option Arg)
  | .aut a => some (some a)
  | _ => none

def PgItem.output? : PgItem → Option (Option Arg)
  | .output a => some (some a)
  | _ => none

def PgItem.form? : PgItem → Option (Option Arg)
  | .form a => some (some a)
  | _ => none

def PgItem.rm? : PgItem → Option ℤ
  | .rm n => some n
  | _ => none

def PgItem.loud : PgItem → ℕ
  | .verbose two => if two then 2 else 1
  | _ => 0

/-- Does the option ask for a patch? -/
def PgItem.patches : PgItem → Bool
  | .edges _ => true
  | .form _ => true
  | .rm _ => true
  | _ => false

/-- What a command line asks for: of every kind the last one counts. -/
def pgMeaning (os : List PgItem) (f : Option Arg) : PgCfg where
  help := decide (PgItem.help ∈ os)
  ptdump := decide (PgItem.ptdump ∈ os)
  logging := decide (PgItem.logging ∈ os)
  verbose := (os.map PgItem.loud).sum % 256
  format := lastVal PgItem.format? .json os
  metric := lastVal PgItem.metric? none os
  edges := lastVal PgItem.edges? none os
  aut := lastVal PgItem.aut? none os
  output := lastVal PgItem.output? none os
  form := lastVal PgItem.form? none os
  rm := lastVal PgItem.rm? (-1) os
  patch := os.any PgItem.patches
  input := f

/-! ## What a run is given -/

/-- The text is a formula, followed by the newline that is appended. -/
def FormSays (x : List Char) (φ : Fm) : Prop := ∃ ts, Layout true ts (x ++ ['\n']) ∧ Gram false 0 ts φ

/-- The text of the automaton: from standard input if the name begins with `-`. -/
def GivenAut (w : World) (fa : Arg) (text : List Char) : Prop :=
  (fa.head? = some '-' ∧ w.stdin = text) ∨ (fa.head? ≠ some '-' ∧ w.file fa = some text)

/-- `gr1c-patch` is called with the options `os` and the file `f`, not asking for help and not both for `-e` and `-f`; the automaton is
`fa`; the two are not both read from standard input. The text of the specification says `d`, the text of the automaton is `text`. -/
structure PgCalled (w : PatchWorld) (args : List Arg) (os : List PgItem) (f : Option Arg) (d : FileData) (text : List Char) : Prop where
  line : PgCmdLine os f args
  noHelp : PgItem.help ∉ os
  patches : ∃ o ∈ os, o.patches = true
  one : (pgMeaning os f).edges = none ∨ (pgMeaning os f).form = none
  spec : ∃ t, GivenText w.toWorld f t ∧ FileSays t d
  aut : ∃ fa, (pgMeaning os f).aut = some fa ∧ GivenAut w.toWorld fa text ∧ (f = none → fa.head? ≠ some '-')

/-- The BDD library and the allocator behave: the oracles for the substrategies are valid, and addresses are new. -/
structure PatchWorld.Sane (w : PatchWorld) : Prop where
  valid : ∀ k ne ns (G : Game (Val ne) (Val ns)) l, (0 < ne ∨ ∀ s e, G.etr s e = true) → (w.sub k ne ns G l).Valid G
  fresh : ∀ k ne ns (G : Game (Val ne) (Val ns)) l c a, (w.sub k ne ns G l).alloc c a ∉ l
  apart : ∀ ne ns (G : Game (Val ne) (Val ns)) l c a c' a', (w.sub 0 ne ns G l).alloc c a ≠ (w.sub 1 ne ns G l).alloc c' a'
  patching : ∀ ne ns (G : Game (Val ne) (Val ns)) g, (0 < ne ∨ ∀ s e, G.etr s e = true) → (w.local_ ne ns G g).Valid G

/-! ## What is written -/

section result

variable {E S : Type} [Fintype E] [DecidableEq E] [Fintype S] [DecidableEq S]

/-- `R` is the strategy `st` for the goals `sgs` without the goal number `d`: every edge is a legal move, and on runs on which all
environment goals hold infinitely often so do all other system goals. If `st` answers every move and no edge leads past the goal, then
`R` answers every move; initial nodes with other goal modes stay, and no node becomes initial. -/
structure GoalRemoved (G : Game E S) (egs sgs : List (Finset (E × S))) (d : ℕ) (st R : Aut ℤ (E × S)) : Prop where
  ids : (R.map (·.id)).Nodup
  legal : LegalEdges G R
  runs : ∀ ρ, IsRun R ρ → (∀ A ∈ egs, InfOften (fun k => (ρ k).state) A) →
    ∀ (i : ℕ) (A : Finset (E × S)), sgs[i]? = some A → i ≠ d → InfOften (fun k => (ρ k).state) A
  answers : AnswersAll G st → NoSkip (d : ℤ) (((d : ℤ) + 1) % (sgs.length : ℤ)) st → AnswersAll G R
  initial : (∀ x ∈ st, x.initial = true → x.mode ≠ (d : ℤ) ∧ x.mode ≠ ((d : ℤ) + 1) % (sgs.length : ℤ)) → ∀ (s : E × S) (i : ℤ),
    (∃ y ∈ R, y.initial = true ∧ y.state = s ∧ y.mode = i) ↔ ∃ x ∈ st, x.initial = true ∧ x.state = s ∧ x.mode = i

/-- `R` is the strategy `st` for the goals `sgs` with the goal `new` after the goal number `i`: it is an automaton with legal moves
and modes for one more goal. If no node of `st` seeks what it has and no state of `st` has the goal `i` and the next one, then on runs
on which all environment goals hold infinitely often so do all system goals and the new one. If `st` answers every move and no state
of `st` has the next goal and the new one, then `R` answers every move. Initial nodes stay unless they have the next goal, and no
node becomes initial. -/
structure GoalAdded (G : Game E S) (egs sgs : List (Finset (E × S))) (i : Fin sgs.length) (new : Finset (E × S))
    (st R : Aut ℤ (E × S)) : Prop where
  ids : (R.map (·.id)).Nodup
  closed : ∀ x ∈ R, ∀ j ∈ x.trans, ∃ y ∈ R, y.id = j
  modes : ∀ x ∈ R, 0 ≤ x.mode ∧ x.mode ≤ sgs.length
  legal : LegalEdges G R
  runs : Waits sgs.get st → Apart (sgs.get i) (sgs.get (nextIx i)) st → ∀ ρ, IsRun R ρ →
    (∀ A ∈ egs, InfOften (fun k => (ρ k).state) A) →
      (∀ A ∈ sgs, InfOften (fun k => (ρ k).state) A) ∧ InfOften (fun k => (ρ k).state) new
  answers : AnswersAll G st → Apart (sgs.get (nextIx i)) new st → AnswersAll G R
  initOld : ∀ y ∈ R, y.initial = true → ∃ x ∈ st, x.initial = true ∧ x.state = y.state
  initNew : ∀ x ∈ st, x.initial = true → x.state ∉ sgs.get (nextIx i) → ∃ y ∈ R, y.initial = true ∧ y.state = x.state

end result

/-- Specification: the words of a text in which blanks divide the words. -/
inductive BlankWords : List (List Char) → Arg → Prop
  | nil (k : ℕ) : BlankWords [] (List.replicate k ' ')
  | cons {w : List Char} {ws : List (List Char)} {r : List Char} (k : ℕ) (h1 : w ≠ []) (h2 : ' ' ∉ w) (h3 : r = [] ∨ ∃ r', r = ' ' :: r')
      (h : BlankWords ws r) : BlankWords (w :: ws) (List.replicate k ' ' ++ (w ++ r))

end Gr1c
