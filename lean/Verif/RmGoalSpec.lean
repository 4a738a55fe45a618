import Verif.RmGoal
import Verif.GameLemmas
import Verif.ReachSpec

/-!
# Specification for the removal of a system goal

The form of strategy `/repo/include/patching.h` 75-91 asks for: "System goals are sought in order, so
that upon reaching a psi_i-state, the next system goal sought is psi_{i+1}, where subscript arithmetic
is modulo n", and "goal i is sought from node n if n->mode = i".
-/

namespace Gr1c

variable {E S : Type} [Fintype E] [DecidableEq E] [Fintype S] [DecidableEq S]

/-- From goal mode `i` the mode becomes `j` on entering `t` by moving on zero or more times, each time
over a goal that `t` satisfies. -/
def Passes {n : ℕ} (sg : Fin n → Finset (E × S)) (i : Fin n) (t : E × S) (j : Fin n) : Prop :=
  ∃ k, (nextIx^[k]) i = j ∧ ∀ c, c < k → t ∈ sg ((nextIx^[c]) i)

/-- `ρ` is an infinite run of the automaton. -/
def IsRun {M V : Type} (st : Aut M V) (ρ : ℕ → ANode M V) : Prop :=
  ∀ k, ρ k ∈ st ∧ (ρ (k + 1)).id ∈ (ρ k).trans

/-- Every edge is a legal move of the environment answered by a legal move of the system. -/
def LegalEdges (G : Game E S) (st : Aut ℤ (E × S)) : Prop :=
  ∀ x ∈ st, ∀ y ∈ st, y.id ∈ x.trans → G.etr x.state y.state.1 = true ∧ G.str x.state y.state = true

/-- Every node has exactly one edge for every legal move of the environment. -/
def AnswersAll (G : Game E S) (st : Aut ℤ (E × S)) : Prop :=
  ∀ x ∈ st, ∀ e, G.etr x.state e = true → ∃! y, y ∈ st ∧ y.id ∈ x.trans ∧ y.state.1 = e

/-- A strategy that seeks the goals `sg` in order. -/
structure SeeksInOrder {m n : ℕ} (G : Game E S) (eg : Fin m → Finset (E × S))
    (sg : Fin n → Finset (E × S)) (st : Aut ℤ (E × S)) : Prop where
  /-- addresses are distinct -/
  ids : (st.map (·.id)).Nodup
  /-- edges lead to nodes of the strategy -/
  closed : ∀ x ∈ st, ∀ j ∈ x.trans, ∃ y ∈ st, y.id = j
  /-- every mode is the index of a goal -/
  modes : ∀ x ∈ st, ∃ i : Fin n, x.mode = (i.val : ℤ)
  legal : LegalEdges G st
  order : ∀ x ∈ st, ∀ y ∈ st, y.id ∈ x.trans →
    ∃ i j : Fin n, x.mode = (i.val : ℤ) ∧ y.mode = (j.val : ℤ) ∧ Passes sg i y.state j
  live : ∀ ρ, IsRun st ρ → Live eg sg (fun k => (ρ k).state)

/-- No edge from the part that is kept leads into a node of mode `d1`: the goal `d` is never skipped
on the way in. -/
def NoSkip (d d1 : ℤ) (st : Aut ℤ (E × S)) : Prop :=
  ∀ x ∈ st, x.mode ≠ d → x.mode ≠ d1 → ∀ y ∈ st, y.id ∈ x.trans → y.mode ≠ d1

/-- The nodes that are deleted. -/
def DelNodes (d d1 : ℤ) (st : Aut ℤ (E × S)) : Aut ℤ (E × S) :=
  st.filter fun x => x.mode = d ∨ x.mode = d1

/-- The nodes of mode `d` with an edge from a node of another mode. -/
def EntryNodes (d : ℤ) (st : Aut ℤ (E × S)) : Aut ℤ (E × S) :=
  st.filter fun y => y.mode = d ∧ ∃ x ∈ st, x.mode ≠ d ∧ y.id ∈ x.trans

/-- The nodes that stay and have an edge from a node that is deleted. -/
def ExitNodes (d d1 : ℤ) (st : Aut ℤ (E × S)) : Aut ℤ (E × S) :=
  st.filter fun y => y.mode ≠ d ∧ y.mode ≠ d1 ∧ ∃ x ∈ st, (x.mode = d ∨ x.mode = d1) ∧ y.id ∈ x.trans

/-- The states of a list of nodes. -/
def nodeStates (st : Aut ℤ (E × S)) : Finset (E × S) := (st.map (·.state)).toFinset

end Gr1c
