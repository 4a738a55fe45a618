import Verif.Patch
import Verif.RmGoalSpec

/-!
# Specification for `patch_localfixpoint`

What the commands of a change file mean (`/repo/doc/formats.md` 125-140, `/repo/doc/interaction.md`),
and what a strategy has to satisfy in a changed game. Independent of the functions of `Verif.Patch`.
-/

namespace Gr1c

variable {E S : Type} [Fintype E] [DecidableEq E] [Fintype S] [DecidableEq S]

/-- The game whose rules are the conjunctions of the given parts. -/
def IsConjunction (eps : List (E × S → E → Bool)) (sps : List (E × S → E × S → Bool)) (G : Game E S) : Prop :=
  (∀ s e, G.etr s e = true ↔ ∀ p ∈ eps, p s e = true) ∧ ∀ s t, G.str s t = true ↔ ∀ p ∈ sps, p s t = true

/-- `G'` is the game `G` after one command: an edge of the system is removed or added, an edge of the
environment is removed or added, or all edges of the system into a system valuation are removed. -/
def ChangedBy (G : Game E S) (c : Change E S) (G' : Game E S) : Prop :=
  match c with
  | .restrictSys s t => (∀ a e, G'.etr a e = true ↔ G.etr a e = true) ∧
      ∀ a b, G'.str a b = true ↔ G.str a b = true ∧ (a, b) ≠ (s, t)
  | .relaxSys s t => (∀ a e, G'.etr a e = true ↔ G.etr a e = true) ∧
      ∀ a b, G'.str a b = true ↔ G.str a b = true ∨ (a, b) = (s, t)
  | .restrictEnv s e => (∀ a f, G'.etr a f = true ↔ G.etr a f = true ∧ (a, f) ≠ (s, e)) ∧
      ∀ a b, G'.str a b = true ↔ G.str a b = true
  | .relaxEnv s e => (∀ a f, G'.etr a f = true ↔ G.etr a f = true ∨ (a, f) = (s, e)) ∧
      ∀ a b, G'.str a b = true ↔ G.str a b = true
  | .blockSys x => (∀ a e, G'.etr a e = true ↔ G.etr a e = true) ∧
      ∀ a b, G'.str a b = true ↔ G.str a b = true ∧ b.2 ≠ x

/-- `G'` is `G` after a list of commands. -/
def ChangedByAll (G : Game E S) : List (Change E S) → Game E S → Prop
  | [], G' => G' = G
  | c :: cs, G' => ∃ G1, ChangedBy G c G1 ∧ ChangedByAll G1 cs G'

/-- Every edge is a legal answer of the system, and there is at most one edge for every move of the
environment. (After `restrict`, edges for moves the environment has lost may remain.) -/
def EdgesSound (G : Game E S) (st : Aut ℤ (E × S)) (x : ANode ℤ (E × S)) : Prop :=
  (∀ y ∈ st, y.id ∈ x.trans → G.str x.state y.state = true) ∧
  ∀ y ∈ st, ∀ y' ∈ st, y.id ∈ x.trans → y'.id ∈ x.trans → y.state.1 = y'.state.1 → y = y'

/-- Every legal move of the environment is answered. -/
def Answered (G : Game E S) (st : Aut ℤ (E × S)) (x : ANode ℤ (E × S)) : Prop :=
  ∀ e, G.etr x.state e = true → ∃ y ∈ st, y.id ∈ x.trans ∧ y.state.1 = e

/-- The command touches the node: it removes the answer the node gives, or adds an environment move
without an edge. -/
def Touches (st : Aut ℤ (E × S)) (c : Change E S) (x : ANode ℤ (E × S)) : Prop :=
  match c with
  | .restrictSys s t => x.state = s ∧ ∃ y ∈ st, y.id ∈ x.trans ∧ y.state = t
  | .relaxEnv s e => x.state = s ∧ ¬ ∃ y ∈ st, y.id ∈ x.trans ∧ y.state.1 = e
  | .blockSys v => ∃ y ∈ st, y.id ∈ x.trans ∧ y.state.2 = v
  | _ => False

/-- Goal mode `i` has a node touched by a command. -/
def TouchedMode (st : Aut ℤ (E × S)) (cs : List (Change E S)) (i : ℤ) : Prop :=
  ∃ x ∈ st, x.mode = i ∧ ∃ c ∈ cs, Touches st c x

/-- The annotation of a synthesized strategy: not negative, and never growing while a goal is sought
(except from a state that satisfies all goals, where the goal mode comes around and the search begins
anew); one node for every goal mode and state. -/
structure Annotated {n : ℕ} (sg : Fin n → Finset (E × S)) (st : Aut ℤ (E × S)) : Prop where
  nonneg : ∀ x ∈ st, 0 ≤ x.rgrad
  mono : ∀ x ∈ st, ∀ y ∈ st, y.id ∈ x.trans → y.mode = x.mode → y.rgrad ≤ x.rgrad ∨ ∀ i, x.state ∈ sg i
  keys : ∀ x ∈ st, ∀ y ∈ st, x.mode = y.mode → x.state = y.state → x = y

/-- No edge inside the neighbourhood part of a touched mode leaves a state that satisfies all goals. -/
def NoWrap {n : ℕ} (sg : Fin n → Finset (E × S)) (N : List (E × S)) (cs : List (Change E S))
    (st : Aut ℤ (E × S)) : Prop :=
  ∀ x ∈ st, ∀ y ∈ st, y.id ∈ x.trans → y.mode = x.mode → TouchedMode st cs x.mode → x.state ∈ N →
    y.state ∈ N → ∃ i, x.state ∉ sg i

/-- No edge from a node of another mode leads into the neighbourhood part of a touched mode. -/
def NoCross (N : List (E × S)) (cs : List (Change E S)) (st : Aut ℤ (E × S)) : Prop :=
  ∀ x ∈ st, ∀ y ∈ st, y.id ∈ x.trans → y.mode ≠ x.mode → TouchedMode st cs y.mode → y.state ∉ N

/-- Everything but edges and annotation agrees. -/
def SameNode {V : Type} (x y : ANode ℤ V) : Prop :=
  y.id = x.id ∧ y.state = x.state ∧ y.mode = x.mode ∧ y.initial = x.initial

end Gr1c
