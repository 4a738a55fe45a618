import Mathlib.Data.Finset.Card
import Mathlib.Data.Fintype.Card
import Mathlib.Data.Fintype.Prod
import Mathlib.Data.Fintype.Pi
import Mathlib.Data.Fintype.BigOperators
import Mathlib.Algebra.BigOperators.Group.Finset.Basic
import Mathlib.Algebra.Order.BigOperators.Group.Finset

/-!
# GR(1) game: specification side and the fixpoint loops of the solver

The first part is specification only (plays, strategies, what it means to win).
The second part models the loops of `/repo/src/solve_operators.c`.

States are pairs of an environment valuation and a system valuation. A BDD over the unprimed
variables is modelled by the finite set of states on which it is true.
-/

namespace Gr1c

/-! ## Specification -/

/-- A two-player game graph. `etr s e'`: from state `s` the environment may choose `e'`
(meaning of ENVTRANS, `/repo/doc/spc_format.md` 88-113). `str s t`: the combined step from `s` to
`t` is allowed for the system (meaning of SYSTRANS). -/
structure Game (E S : Type) where
  etr : E × S → E → Bool
  str : E × S → E × S → Bool

variable {E S : Type}

/-- A system strategy: given the non-empty history (latest state first) and the environment's next
valuation, possibly answer with a system valuation. Unbounded memory is allowed. -/
abbrev Strategy (E S : Type) := List (E × S) → E → Option S

/-- Finite histories (latest state first) from `s0` in which the environment plays legally and the
system follows `σ`. -/
inductive Consistent (G : Game E S) (σ : Strategy E S) (s0 : E × S) : List (E × S) → Prop
  | start : Consistent G σ s0 [s0]
  | step {s : E × S} {h : List (E × S)} {e' : E} {x' : S} :
      Consistent G σ s0 (s :: h) → G.etr s e' = true → σ (s :: h) e' = some x' →
      Consistent G σ s0 ((e', x') :: s :: h)

/-- The first `k+1` states of an infinite play, latest first. -/
def pref (π : ℕ → E × S) : ℕ → List (E × S)
  | 0 => [π 0]
  | k + 1 => π (k + 1) :: pref π k

/-- `P` holds infinitely often along `π`. -/
def InfOften (π : ℕ → E × S) (P : Finset (E × S)) : Prop := ∀ N, ∃ k, N ≤ k ∧ π k ∈ P

/-- The GR(1) liveness condition: if every environment goal holds infinitely often then so does
every system goal. -/
def Live {m n : ℕ} (eg : Fin m → Finset (E × S)) (sg : Fin n → Finset (E × S))
    (π : ℕ → E × S) : Prop :=
  (∀ j, InfOften π (eg j)) → ∀ i, InfOften π (sg i)

/-- `σ` wins from `s0`: it always has a legal answer to a legal environment move, and every
infinite consistent play is live. -/
def Wins {m n : ℕ} (G : Game E S) (eg : Fin m → Finset (E × S)) (sg : Fin n → Finset (E × S))
    (σ : Strategy E S) (s0 : E × S) : Prop :=
  (∀ s h, Consistent G σ s0 (s :: h) → ∀ e', G.etr s e' = true →
      ∃ x', σ (s :: h) e' = some x' ∧ G.str s (e', x') = true) ∧
  (∀ π : ℕ → E × S, (∀ k, Consistent G σ s0 (pref π k)) → Live eg sg π)

/-! ## Model of the solver loops -/

variable [Fintype E] [DecidableEq E] [Fintype S] [DecidableEq S]

/-- `compute_existsmodal`, `/repo/src/solve_support.c` 296-357, as a set operation:
for all `e'`, not etrans or exists `x'` with strans and `C'`.
(The bit-level version and its agreement with this one are in `Verif.BddOps`.) -/
def pre (G : Game E S) (C : Finset (E × S)) : Finset (E × S) :=
  Finset.univ.filter fun s => ∀ e', G.etr s e' = true → ∃ x', G.str s (e', x') = true ∧ (e', x') ∈ C

/-- Innermost loop, `/repo/src/solve_operators.c` 237-286 (same code at 461-500): greatest fixpoint
for one environment goal. `base` is `(sgoal & Z) | EX Y`, `ne` the complement of the environment
goal. The C loop starts with `X = True` and runs `X := (base | (EX X & ne)) & X` until unchanged. -/
def gfpX (G : Game E S) (base ne : Finset (E × S)) (X : Finset (E × S)) : Finset (E × S) :=
  let X' := (base ∪ (pre G X ∩ ne)) ∩ X
  if X' = X then X' else gfpX G base ne X'
termination_by X.card
decreasing_by
  apply Finset.card_lt_card
  rw [Finset.ssubset_iff_subset_ne]
  exact ⟨Finset.inter_subset_right, by assumption⟩

/-- One pass over the environment goals, `/repo/src/solve_operators.c` 226-302: the union over the
environment goals of the greatest fixpoints, united with the previous `Y`. -/
def stepY {m : ℕ} (G : Game E S) (eg : Fin m → Finset (E × S)) (goal : Finset (E × S))
    (Y : Finset (E × S)) : Finset (E × S) :=
  ((List.finRange m).foldl (fun acc j => acc ∪ gfpX G (goal ∪ pre G Y) (eg j)ᶜ Finset.univ) ∅) ∪ Y

/-- Middle loop, `/repo/src/solve_operators.c` 206-305: `Y := stepY Y` until unchanged. -/
def lfpY {m : ℕ} (G : Game E S) (eg : Fin m → Finset (E × S)) (goal : Finset (E × S))
    (Y : Finset (E × S)) : Finset (E × S) :=
  let Y' := stepY G eg goal Y
  if Y' = Y then Y' else lfpY G eg goal Y'
termination_by Fintype.card (E × S) - Y.card
decreasing_by
  have h : Y ⊂ stepY G eg goal Y := by
    rw [Finset.ssubset_iff_subset_ne]
    rename_i hn
    exact ⟨Finset.subset_union_right, fun h => hn h.symm⟩
  have h1 := Finset.card_lt_card h
  have h2 := Finset.card_le_univ (stepY G eg goal Y)
  omega

/-- Index of the next goal, `/repo/src/solve_operators.c` 193-200: `i+1`, wrapping to 0. -/
def nextIx {n : ℕ} (i : Fin n) : Fin n :=
  if h : i.val = n - 1 then ⟨0, Nat.lt_of_le_of_lt (Nat.zero_le _) i.isLt⟩
  else ⟨i.val + 1, by have := i.isLt; omega⟩

/-- Body of the outer loop, `/repo/src/solve_operators.c` 186-318: all new sets are computed from
the previous ones. -/
def stepZ {m n : ℕ} (G : Game E S) (eg : Fin m → Finset (E × S)) (sg : Fin n → Finset (E × S))
    (Z : Fin n → Finset (E × S)) : Fin n → Finset (E × S) :=
  fun i => lfpY G eg (sg i ∩ pre G (Z (nextIx i))) ∅ ∩ Z i

/-- Outer loop, `/repo/src/solve_operators.c` 178-328. -/
def gfpZ {m n : ℕ} (G : Game E S) (eg : Fin m → Finset (E × S)) (sg : Fin n → Finset (E × S))
    (Z : Fin n → Finset (E × S)) : Fin n → Finset (E × S) :=
  let Z' := stepZ G eg sg Z
  if Z' = Z then Z' else gfpZ G eg sg Z'
termination_by ∑ i, (Z i).card
decreasing_by
  have hle : ∀ i, stepZ G eg sg Z i ⊆ Z i := fun i => Finset.inter_subset_right
  have hne : ∃ i, stepZ G eg sg Z i ≠ Z i := by
    by_contra h
    push Not at h
    rename_i hn
    exact hn (funext h)
  obtain ⟨i, hi⟩ := hne
  apply Finset.sum_lt_sum (fun i _ => Finset.card_le_card (hle i))
  exact ⟨i, Finset.mem_univ i, Finset.card_lt_card (Finset.ssubset_iff_subset_ne.2 ⟨hle i, hi⟩)⟩

/-- `compute_winning_set_BDD`, `/repo/src/solve_operators.c` 114-342. The C code returns `Z[0]`;
with no system goals it reads through a NULL pointer (331), modelled as `none`. -/
def winningSet {m n : ℕ} (G : Game E S) (eg : Fin m → Finset (E × S))
    (sg : Fin n → Finset (E × S)) : Option (Finset (E × S)) :=
  if h : 0 < n then some (gfpZ G eg sg (fun _ => Finset.univ) ⟨0, h⟩) else none

/-- The goal added when no environment goal is given, `/repo/src/solve_operators.c` 29-36
(same at `/repo/src/solve.c` 91-97 and 826-832): the constant True. -/
def withDefaultGoal (egs : List (Finset (E × S))) : List (Finset (E × S)) :=
  if egs = [] then [Finset.univ] else egs

/-- `compute_winning_set`, `/repo/src/solve_operators.c` 21-111, with the formulas already turned
into sets: add the default environment goal if there is none, then run the fixpoint. -/
def computeWinningSet (G : Game E S) (egs sgs : List (Finset (E × S))) :
    Option (Finset (E × S)) :=
  winningSet G (withDefaultGoal egs).get sgs.get

end Gr1c
