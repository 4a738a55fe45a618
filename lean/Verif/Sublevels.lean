import Verif.Game

/-!
# Model of `compute_sublevel_sets`
-/

namespace Gr1c

variable {E S : Type} [Fintype E] [DecidableEq E] [Fintype S] [DecidableEq S]

/-- One entry of the arrays `Y[i]` and `X_ijr[i]` filled by `compute_sublevel_sets`: the set `Y_ij`
and, for each environment goal `r`, the set `X_ijr`. -/
structure Level (E S : Type) (m : ℕ) where
  Y : Finset (E × S)
  X : Fin m → Finset (E × S)

/-- The `while (True)` loop of `compute_sublevel_sets` for one system goal,
`/repo/src/solve_operators.c` 434-546, after the entry `Y` was stored: the entries that follow it.
`goal` is `sgoal_i & W` (478). An entry equal to the previous one is dropped again and ends the
loop (523-544). -/
def sublevelsFrom {m : ℕ} (G : Game E S) (eg : Fin m → Finset (E × S)) (goal : Finset (E × S))
    (Y : Finset (E × S)) : List (Level E S m) :=
  let Y' := stepY G eg goal Y
  if Y' = Y then []
  else ⟨Y', fun r => gfpX G (goal ∪ pre G Y) (eg r)ᶜ Finset.univ⟩ :: sublevelsFrom G eg goal Y'
termination_by Fintype.card (E × S) - Y.card
decreasing_by
  have h : Y ⊂ stepY G eg goal Y := by
    rw [Finset.ssubset_iff_subset_ne]
    rename_i hn
    exact ⟨Finset.subset_union_right, fun h => hn h.symm⟩
  have h1 := Finset.card_lt_card h
  have h2 := Finset.card_le_univ (stepY G eg goal Y)
  omega

/-- The arrays for one system goal, `/repo/src/solve_operators.c` 403-429 (entry 0 is empty) and
433-548. -/
def sublevels {m : ℕ} (G : Game E S) (eg : Fin m → Finset (E × S)) (goal : Finset (E × S)) :
    List (Level E S m) :=
  ⟨∅, fun _ => ∅⟩ :: sublevelsFrom G eg goal ∅

/-- `compute_sublevel_sets`, `/repo/src/solve_operators.c` 345-553. Without system goals it returns
NULL (430-433), modelled by `none`. The lengths of the lists are the returned `num_sublevels`. -/
def computeSublevels {m n : ℕ} (G : Game E S) (W : Finset (E × S)) (eg : Fin m → Finset (E × S))
    (sg : Fin n → Finset (E × S)) : Option (Fin n → List (Level E S m)) :=
  if 0 < n then some fun i => sublevels G eg (sg i ∩ W) else none

end Gr1c
