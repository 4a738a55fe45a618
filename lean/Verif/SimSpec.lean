import Verif.Sim

/-!
# Specification of `sim_rhc`

`/repo/include/sim.h` 14-28 and the comments of `/repo/src/sim.c`: a play of the game inside of the winning set that goes step by step
towards a nearest state of the current goal.
-/

namespace Gr1c

variable {E S : Type}

/-- A legal move of both players to a state of `W`. -/
def LegalIn (G : Game E S) (W : Finset (E × S)) (s t : E × S) : Prop := G.etr s t.1 = true ∧ G.str s t = true ∧ t ∈ W

/-- `j` legal moves in `W` lead from one state to the other. -/
inductive PathIn (G : Game E S) (W : Finset (E × S)) : ℕ → E × S → E × S → Prop
  | nil (s) : PathIn G W 0 s s
  | cons {j s u t} (h : LegalIn G W s u) (hs : PathIn G W j u t) : PathIn G W (j + 1) s t

/-- The nodes of a play, the last one first; `out` are the edges of the last one. -/
def playNodes {V : Type} (ids : ℕ → ℕ) (σ : ℕ → V) : ℕ → List ℕ → Aut ℕ V
  | 0, out => [⟨ids 0, σ 0, 0, -1, false, out⟩]
  | n + 1, out => ⟨ids (n + 1), σ (n + 1), n + 1, -1, false, out⟩ :: playNodes ids σ n [ids (n + 1)]

/-- The automaton is the play `σ 0`, ..., `σ n`. -/
def SimPlay {V : Type} (n : ℕ) (σ : ℕ → V) (a : Aut ℕ V) : Prop :=
  ∃ ids : ℕ → ℕ, (∀ i ≤ n, ∀ j ≤ n, ids i = ids j → i = j) ∧ a = playNodes ids σ n []

/-- `γ (k + 1)` is the number of the goal that is sought in step `k < n`: the next one after a goal is reached, in their order. -/
def SeeksGoals (n : ℕ) (sgs : List (Finset (E × S))) (σ : ℕ → E × S) (γ : ℕ → ℕ) : Prop :=
  γ 0 = 0 ∧ ∀ k < n, ∃ A, sgs[γ k]? = some A ∧ (σ k ∈ A → γ (k + 1) = (γ k + 1) % sgs.length) ∧ (σ k ∉ A → γ (k + 1) = γ k)

/-- What the BDD library and the allocator are assumed to do. -/
structure SimOracle.Valid (o : SimOracle E S) (G : Game E S) : Prop where
  fresh : ∀ k l, o.alloc k l ∉ l
  moves : ∀ k s e, e ∈ o.moves k s ↔ G.etr s e = true
  order : ∀ k A x, x ∈ o.order k A ↔ x ∈ A

/-- A measure of distance as `bounds_state` gives it: not negative, or the marker -1 for all states if the set is empty. -/
def NearOk {V : Type} (near : V → ℤ) : Prop := (∀ v, 0 ≤ near v) ∨ ∀ v, near v = -1

end Gr1c
