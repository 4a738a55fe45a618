import Verif.ReachSpec
import Verif.MainSpec
import Verif.CliSpec

/-!
# Specification of `rg`

From `/repo/doc/spc_format.md` ("Specifying reachability games") and the help text
(`/repo/src/rg_main.c` 184-201).
-/

namespace Gr1c

section strategy

variable {E S : Type} [Fintype E] [DecidableEq E] [Fintype S] [DecidableEq S]

/-- A strategy automaton for a reachability game: nodes have distinct addresses and states, edges lead to
nodes and are legal moves, a node in `Exit` is an end, every other node has exactly one edge for each
legal move of the environment, a run that never ends violates some environment goal from some time on,
and each entry state has a node. All modes are -1. -/
structure ReachStrategyFor (G : Game E S) (egs : List (Finset (E × S))) (Entry Exit : Finset (E × S))
    (st : Aut ℤ (E × S)) : Prop where
  ids : (st.map (·.id)).Nodup
  states : (st.map (·.state)).Nodup
  modes : ∀ x ∈ st, x.mode = -1
  entry : ∀ s ∈ Entry, ∃ x ∈ st, x.state = s
  edges : ∀ x ∈ st, ∀ j ∈ x.trans, ∃ y ∈ st, y.id = j
  legal : ∀ x ∈ st, ∀ y ∈ st, y.id ∈ x.trans → G.etr x.state y.state.1 = true ∧ G.str x.state y.state = true
  ends : ∀ x ∈ st, x.state ∈ Exit → x.trans = []
  answers : ∀ x ∈ st, x.state ∉ Exit → ∀ e, G.etr x.state e = true →
    ∃! y, y ∈ st ∧ y.id ∈ x.trans ∧ y.state.1 = e
  live : ∀ ρ : ℕ → ANode ℤ (E × S), (∀ k, ρ k ∈ st ∧ (ρ (k + 1)).id ∈ (ρ k).trans) →
    ∃ Q ∈ egs, ∃ K, ∀ k, K ≤ k → (ρ k).state ∉ Q

end strategy

section spec

variable (evars svars : Decls) (sp : FSpec)

/-- States from which a strategy is wanted: all that satisfy ENVINIT and SYSINIT. -/
def rgEntry : Finset (IState evars svars) := initSet (sp.einit.map fmStates) ∩ initSet (sp.sinit.map fmStates)

/-- States to be reached: those of the system goal; none if there is none ("the environment must be
blocked"). -/
def rgExit : Finset (IState evars svars) := (sp.sgoals.map fmStates).headD ∅

/-- A strategy is wanted from some state, and all such states can be won. -/
def RgSolvable : Prop := (rgEntry evars svars sp).Nonempty ∧ ∀ s ∈ rgEntry evars svars sp,
  ReachWinnable (intGame evars svars sp) (sp.egoals.map fmStates) (rgExit evars svars sp) Finset.univ s

/-- A strategy over declared values. -/
def RgStrategy (st : Aut ℤ (IState evars svars)) : Prop :=
  ReachStrategyFor (intGame evars svars sp) (sp.egoals.map fmStates) (rgEntry evars svars sp)
    (rgExit evars svars sp) st

end spec

/-! ## Command line -/

/-- Options of `rg`. -/
def RgOpt : Opt → Prop
  | .real => False
  | .inter => False
  | .promela => False
  | .init i => i = .allInit
  | _ => True

/-- A command line of `rg`. -/
def RgCmdLine (os : List Opt) (f : Option Arg) (args : List Arg) : Prop :=
  CmdLine false os f args ∧ ∀ o ∈ os, RgOpt o

/-- What it asks for; the only interpretation of initial conditions is ALL_INIT. -/
def rgMeaning (os : List Opt) (f : Option Arg) : Cfg := { meaning os f with init := .allInit }

end Gr1c
