import Verif.FormProps

/-!
# Specification: the game over declared values

What a specification with Boolean and integer variables means, without any encoding: states assign
each declared variable a value of its domain, and formulas are evaluated on these values.
-/

namespace Gr1c

/-- Number of values of a declared variable: 2 for Booleans, `n+1` for `[0,n]`. -/
def dcard (d : Name × ℤ) : ℕ := if d.2 < 0 then 2 else d.2.toNat + 1

/-- Valuations of declared variables. -/
abbrev DVal (ds : Decls) := (i : Fin ds.length) → Fin (dcard ds[i])

/-- States: environment values and system values. -/
abbrev IState (evars svars : Decls) := DVal evars × DVal svars

/-- Value of the first variable with the given name, 0 if there is none. -/
def valOfName (ds : Decls) (v : DVal ds) (n : Name) : ℤ :=
  if h : (ds.map Prod.fst).idxOf n < ds.length then ((v ⟨_, h⟩).val : ℤ) else 0

/-- Value of a variable in a state. -/
def stVal {evars svars : Decls} (s : IState evars svars) (n : Name) : ℤ :=
  if n ∈ evars.map Prod.fst then valOfName evars s.1 n else valOfName svars s.2 n

/-- Unprimed variables are read in `s`, primed ones in `t`. -/
def intEnv {evars svars : Decls} (s t : IState evars svars) : Env where
  b nx n := stVal (if nx then t else s) n != 0
  z nx n := stVal (if nx then t else s) n

/-- The game: all transition formulas must hold. (ENVTRANS does not mention primed system variables, so
it does not matter which values these are given.) -/
def intGame (evars svars : Decls) (sp : FSpec) : Game (DVal evars) (DVal svars) where
  etr s e := sp.etrans.all fun f => f.eval (intEnv s (e, s.2))
  str s t := sp.strans.all fun f => f.eval (intEnv s t)

/-- The states satisfying a formula. -/
def fmStates {evars svars : Decls} (f : Fm) : Finset (IState evars svars) :=
  Finset.univ.filter fun s => f.eval (intEnv s s) = true

/-- An empty system goal section means `[]<>True` (`/repo/doc/spc_format.md` 39-40). -/
def sysGoals (sp : FSpec) : List Fm := if sp.sgoals = [] then [.const 1] else sp.sgoals

/-- Boolean variables are used as such, integer variables only in comparisons, and all are declared:
unprimed ones in `us`, primed ones in `ps`. -/
def Typed (us ps : Decls) (f : Fm) : Prop :=
  (∀ x ∈ f.bvars, ∃ d ∈ (if x.1 then ps else us), d.1 = x.2 ∧ d.2 < 0) ∧
  (∀ x ∈ f.zvars, ∃ d ∈ (if x.1 then ps else us), d.1 = x.2 ∧ 0 ≤ d.2)

/-- A specification is used with declared variables of the right kind. -/
structure TypedSpec (evars svars : Decls) (sp : FSpec) : Prop where
  einit : ∀ f ∈ sp.einit, Typed (evars ++ svars) [] f
  sinit : ∀ f ∈ sp.sinit, Typed (evars ++ svars) [] f
  etrans : ∀ f ∈ sp.etrans, Typed (evars ++ svars) evars f
  strans : ∀ f ∈ sp.strans, Typed (evars ++ svars) (evars ++ svars) f
  egoals : ∀ f ∈ sp.egoals, Typed (evars ++ svars) [] f
  sgoals : ∀ f ∈ sp.sgoals, Typed (evars ++ svars) [] f

/-- The declarations after expansion: name of each bit, in order. -/
def expDecls (ds : Decls) : Decls :=
  ds.flatMap fun d => if 0 ≤ d.2 then (List.range (domBits d.2)).map fun i => (bitName d.1 i, 0) else [d]

/-- Names are distinct, before and after expansion. -/
structure Fresh (evars svars : Decls) : Prop where
  declared : ((evars ++ svars).map Prod.fst).Nodup
  expanded : ((expDecls evars ++ expDecls svars).map Prod.fst).Nodup

/-- Bit-level valuation of the expanded variables: Booleans keep their value, the bits of an integer
variable are those of its value. -/
noncomputable def encVal (ds : Decls) (v : DVal ds) : Fin (expDecls ds).length → Bool := fun k =>
  open Classical in
  decide (∃ i : Fin ds.length,
    (ds[i].2 < 0 ∧ (expDecls ds)[k].1 = ds[i].1 ∧ (v i).val ≠ 0) ∨
    (0 ≤ ds[i].2 ∧ ∃ j < domBits ds[i].2, (expDecls ds)[k].1 = bitName ds[i].1 j ∧
      intBit ((v i).val : ℤ) j = true))

/-- Encoding of states. -/
noncomputable def encState {evars svars : Decls} (s : IState evars svars) :
    (Fin (expDecls evars).length → Bool) × (Fin (expDecls svars).length → Bool) :=
  Prod.map (encVal evars) (encVal svars) s

end Gr1c
