import Verif.Game

/-!
# Reachability games: specification side

What it means to win a reachability game, independent of the code.
-/

namespace Gr1c

variable {E S : Type} [DecidableEq E] [DecidableEq S]

/-- `σ` wins the reachability game from `s0`: as long as `Exit` has not been visited the play is in
`N` and every legal environment move gets a legal answer, and a play that never visits `Exit` violates
some environment goal from some time on. -/
def ReachWins (G : Game E S) (egs : List (Finset (E × S))) (Exit N : Finset (E × S))
    (σ : Strategy E S) (s0 : E × S) : Prop :=
  (∀ s h, Consistent G σ s0 (s :: h) → (∀ t ∈ s :: h, t ∉ Exit) →
    s ∈ N ∧ ∀ e', G.etr s e' = true → ∃ x', σ (s :: h) e' = some x' ∧ G.str s (e', x') = true) ∧
  (∀ π : ℕ → E × S, (∀ k, Consistent G σ s0 (pref π k)) → (∀ k, π k ∉ Exit) →
    ∃ Q ∈ egs, ∃ K, ∀ k, K ≤ k → π k ∉ Q)

/-- The state can be won by some strategy. -/
def ReachWinnable (G : Game E S) (egs : List (Finset (E × S))) (Exit N : Finset (E × S))
    (s0 : E × S) : Prop := ∃ σ, ReachWins G egs Exit N σ s0

end Gr1c
