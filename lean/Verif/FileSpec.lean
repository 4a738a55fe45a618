import Verif.Grammar
import Verif.ExpandProps

/-!
# Specification of specification files (C46, C47)

Which token sequences are specification files, and what they say (`/repo/doc/spc_format.md` 16-40,
80-139), independent of the parser.
-/

namespace Gr1c

/-- A section: declarations, initial condition, transition formulas or goals, of the environment if
`env`. -/
inductive Sec
  | vars (env : Bool) (ds : Decls)
  | init (env : Bool) (f : Option Fm)
  | trans (env : Bool) (fs : List Fm)
  | goal (env : Bool) (fs : List Fm)

/-- What a file has said so far. -/
structure FileData where
  evars : Decls
  svars : Decls
  sp : FSpec

/-- Nothing. -/
def FileData.empty : FileData := ⟨[], [], ⟨none, none, [], [], [], []⟩⟩

/-- Names declared so far. -/
def FileData.names (d : FileData) : List Name := d.evars.map Prod.fst ++ d.svars.map Prod.fst

/-- What a section adds; `none` if a variable is declared twice or an initial condition is given twice. An
empty transition section means True unless there are formulas already, an empty system goal section
replaces the goals by True. -/
def Sec.add (d : FileData) : Sec → Option FileData
  | .vars env ds =>
    if (∀ x ∈ ds, x.1 ∉ d.names) ∧ (ds.map Prod.fst).Nodup then
      some (if env then { d with evars := d.evars ++ ds } else { d with svars := d.svars ++ ds })
    else none
  | .init true f => if d.sp.einit = none then some { d with sp := { d.sp with einit := f } } else none
  | .init false f => if d.sp.sinit = none then some { d with sp := { d.sp with sinit := f } } else none
  | .trans true fs =>
    some { d with sp := { d.sp with etrans := if d.sp.etrans ++ fs = [] then [.const 1] else d.sp.etrans ++ fs } }
  | .trans false fs =>
    some { d with sp := { d.sp with strans := if d.sp.strans ++ fs = [] then [.const 1] else d.sp.strans ++ fs } }
  | .goal true fs => some { d with sp := { d.sp with egoals := d.sp.egoals ++ fs } }
  | .goal false fs =>
    some { d with sp := { d.sp with sgoals := if fs = [] then [.const 1] else d.sp.sgoals ++ fs } }

/-- What a sequence of sections says. -/
def readSecs : FileData → List Sec → Option FileData
  | d, [] => some d
  | d, s :: ss =>
    match s.add d with
    | none => none
    | some d' => readSecs d' ss

/-- Tokens of a declaration: a name, or a name and its domain `[0,v]`. -/
def declToks (d : Name × ℤ) : List Tok :=
  if d.2 < 0 then [.ident d.1]
  else [.ident d.1, .chr '[', .num 0, .chr ',', .num d.2.toNat, .chr ']']

/-- Further formulas of a section, each after the token `sep`. -/
inductive MoreToks (primes : Bool) (sep : Tok) : List Fm → List Tok → Prop
  | nil : MoreToks primes sep [] []
  | cons {f ts fs tss} (h : Gram primes 0 ts f) (hs : MoreToks primes sep fs tss) :
      MoreToks primes sep (f :: fs) (sep :: (ts ++ tss))

/-- Tokens of a section without the semicolon; with `rg`, as for reachability games, where a system goal
section has at most one formula and is written with `<>`. -/
inductive SecToks (rg : Bool) : Sec → List Tok → Prop
  | vars (env : Bool) (ds : Decls) (h : GoodDecls ds) :
      SecToks rg (.vars env ds) ((if env then .evars else .svars) :: ds.flatMap declToks)
  | init0 (env : Bool) : SecToks rg (.init env none) [if env then .einit else .sinit]
  | init1 (env : Bool) {f ts} (h : Gram false 0 ts f) :
      SecToks rg (.init env (some f)) ((if env then .einit else .sinit) :: ts)
  | trans0 (env : Bool) : SecToks rg (.trans env []) [if env then .etrans else .strans]
  | trans1 (env : Bool) {f ts fs tss} (h : Gram true 0 ts f) (hs : MoreToks true .andSafe fs tss) :
      SecToks rg (.trans env (f :: fs)) ((if env then .etrans else .strans) :: .safe :: (ts ++ tss))
  | goal0 (env : Bool) : SecToks rg (.goal env []) [if env then .egoal else .sgoal]
  | goal1 (env : Bool) (hr : env = true ∨ rg = false) {f ts fs tss} (h : Gram false 0 ts f)
      (hs : MoreToks false .andLive fs tss) :
      SecToks rg (.goal env (f :: fs)) ((if env then .egoal else .sgoal) :: .live :: (ts ++ tss))
  | reach (hr : rg = true) {f ts} (h : Gram false 0 ts f) :
      SecToks rg (.goal false [f]) (.sgoal :: .ev :: ts)

/-- Tokens of a file. -/
inductive FileToks (rg : Bool) : List Sec → List Tok → Prop
  | nil : FileToks rg [] []
  | cons {s ts ss tss} (h : SecToks rg s ts) (hs : FileToks rg ss tss) :
      FileToks rg (s :: ss) (ts ++ .chr ';' :: tss)

end Gr1c
