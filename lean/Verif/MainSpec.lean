import Verif.IntGame
import Verif.SynthProps

/-!
# Specification for the program as a whole

What a strategy automaton for a specification is, over the declared variables and their values, and how
its states are written as lists of numbers. Independent of bits, BDDs and the synthesis algorithm.
-/

namespace Gr1c

section strategy

variable {E S M : Type} [Fintype E] [DecidableEq E] [Fintype S] [DecidableEq S]

/-- A strategy automaton: nodes have distinct addresses, edges lead to nodes and are legal moves, every
legal move of the environment is answered by exactly one edge, every infinite run on which the
environment goals hold infinitely often visits each system goal infinitely often, nodes marked as
initial are allowed, and the states required by the interpretation of initial conditions occur. -/
structure StrategyFor (G : Game E S) (egs sgs : List (Finset (E × S))) (flag : InitFlag)
    (einit sinit : Option (Finset (E × S))) (st : Aut M (E × S)) : Prop where
  ids : (st.map (·.id)).Nodup
  edges : ∀ x ∈ st, ∀ j ∈ x.trans, ∃ y ∈ st, y.id = j
  legal : ∀ x ∈ st, ∀ y ∈ st, y.id ∈ x.trans → G.etr x.state y.state.1 = true ∧ G.str x.state y.state = true
  answers : ∀ x ∈ st, ∀ e, G.etr x.state e = true → ∃! y, y ∈ st ∧ y.id ∈ x.trans ∧ y.state.1 = e
  live : ∀ ρ : ℕ → ANode M (E × S), (∀ k, ρ k ∈ st ∧ (ρ (k + 1)).id ∈ (ρ k).trans) →
    (∀ A ∈ egs, InfOften (fun k => (ρ k).state) A) → ∀ B ∈ sgs, InfOften (fun k => (ρ k).state) B
  allowed : ∀ x ∈ st, x.initial = true → InitAllowed flag einit sinit x.state
  required : InitRequired flag einit sinit fun s => ∃ x ∈ st, x.state = s

/-- There is an initial state at all. (With ONE_SIDE_INIT and SYSINIT this follows from realizability.) -/
def HasInit (flag : InitFlag) (einit sinit : Option (Finset (E × S))) : Prop :=
  match flag with
  | .oneSide => sinit = none → ∃ s, s ∈ initSet einit
  | _ => ∃ s, s ∈ initSet einit ∧ s ∈ initSet sinit

end strategy

/-- Values in the order of declaration. -/
def declValues (ds : Decls) (v : DVal ds) : List ℤ := List.ofFn fun i => ((v i).val : ℤ)

/-- Values of a state: environment variables, then system variables. -/
def stateValues {evars svars : Decls} (s : IState evars svars) : List ℤ :=
  declValues evars s.1 ++ declValues svars s.2

/-- The verdict for a specification over declared values. -/
def SpecRealizable (evars svars : Decls) (flag : InitFlag) (sp : FSpec) : Prop :=
  CodeRealizable (intGame evars svars sp) (sp.egoals.map fmStates) ((sysGoals sp).map fmStates) flag
    (sp.einit.map fmStates) (sp.sinit.map fmStates)

/-- A strategy automaton for a specification over declared values. -/
def SpecStrategy (evars svars : Decls) (flag : InitFlag) (sp : FSpec) (st : Aut ℤ (IState evars svars)) : Prop :=
  StrategyFor (intGame evars svars sp) (sp.egoals.map fmStates) ((sysGoals sp).map fmStates) flag
    (sp.einit.map fmStates) (sp.sinit.map fmStates) st

/-- A specification with at least one initial state. -/
def SpecHasInit (evars svars : Decls) (flag : InitFlag) (sp : FSpec) : Prop :=
  HasInit flag (sp.einit.map (fmStates (evars := evars) (svars := svars))) (sp.sinit.map fmStates)

end Gr1c
