import Verif.GameLemmas
import Verif.Sublevels

/-!
# Helper lemmas about the sublevel lists
-/

namespace Gr1c

set_option linter.unusedSectionVars false

variable {E S : Type} [Fintype E] [DecidableEq E] [Fintype S] [DecidableEq S]
variable {m n : ℕ}

theorem sublevelsFrom_get (G : Game E S) (eg : Fin m → Finset (E × S)) (goal Y : Finset (E × S)) :
    ∀ k, Y = ylev G eg goal k →
    (∀ (j : ℕ) (h : j < (sublevelsFrom G eg goal Y).length),
      ((sublevelsFrom G eg goal Y)[j]).Y = ylev G eg goal (k + j + 1) ∧
      (∀ r, ((sublevelsFrom G eg goal Y)[j]).X r = xlev G eg goal (k + j) r) ∧
      ylev G eg goal (k + j) ≠ ylev G eg goal (k + j + 1)) ∧
    ylev G eg goal (k + (sublevelsFrom G eg goal Y).length) = muY G eg goal := by
  fun_induction sublevelsFrom G eg goal Y with
  | case1 Y Y' h =>
    intro k hk
    refine ⟨fun j hj => absurd hj (by simp), ?_⟩
    simp only [List.length_nil, Nat.add_zero]
    apply (ylev_subset_muY G eg goal k).antisymm
    rw [← hk]
    apply muY_least
    intro j s hs
    have : s ∈ stepY G eg goal Y := mem_stepY.2 (Or.inl ⟨j, hs⟩)
    exact (h ▸ this : s ∈ Y)
  | case2 Y Y' h ih =>
    intro k hk
    have hY' : Y' = ylev G eg goal (k + 1) := by rw [ylev_succ, ← hk]
    obtain ⟨ih1, ih2⟩ := ih (k + 1) hY'
    refine ⟨?_, ?_⟩
    · intro j hj
      cases j with
      | zero =>
        refine ⟨hY', fun r => ?_, ?_⟩
        · simp only [List.getElem_cons_zero, Nat.add_zero]
          rw [hk]; rfl
        · simp only [Nat.add_zero]
          rw [← hY', ← hk]
          exact fun he => h he.symm
      | succ j =>
        have := ih1 j (by simpa using hj)
        simp only [List.getElem_cons_succ]
        rw [show k + (j + 1) + 1 = k + 1 + j + 1 by omega, show k + (j + 1) = k + 1 + j by omega]
        exact this
    · rw [List.length_cons, show k + ((sublevelsFrom G eg goal Y').length + 1)
        = k + 1 + (sublevelsFrom G eg goal Y').length by omega]
      exact ih2

theorem sublevels_length_pos (G : Game E S) (eg : Fin m → Finset (E × S)) (goal : Finset (E × S)) :
    0 < (sublevels G eg goal).length := by simp [sublevels]

theorem sublevels_Y (G : Game E S) (eg : Fin m → Finset (E × S)) (goal : Finset (E × S)) (j : ℕ)
    (h : j < (sublevels G eg goal).length) :
    ((sublevels G eg goal)[j]).Y = ylev G eg goal j := by
  cases j with
  | zero => rfl
  | succ j =>
    have := ((sublevelsFrom_get G eg goal ∅ 0 rfl).1 j (by simpa [sublevels] using h)).1
    rw [Nat.zero_add] at this
    exact this

theorem sublevels_X (G : Game E S) (eg : Fin m → Finset (E × S)) (goal : Finset (E × S)) (j : ℕ)
    (h : j + 1 < (sublevels G eg goal).length) (r : Fin m) :
    ((sublevels G eg goal)[j + 1]).X r = xlev G eg goal j r := by
  have := ((sublevelsFrom_get G eg goal ∅ 0 rfl).1 j (by simpa [sublevels] using h)).2.1 r
  rw [Nat.zero_add] at this
  exact this

theorem sublevels_strict (G : Game E S) (eg : Fin m → Finset (E × S)) (goal : Finset (E × S)) (j : ℕ)
    (h : j + 1 < (sublevels G eg goal).length) : ylev G eg goal j ⊂ ylev G eg goal (j + 1) := by
  have := ((sublevelsFrom_get G eg goal ∅ 0 rfl).1 j (by simpa [sublevels] using h)).2.2
  rw [Nat.zero_add] at this
  exact Finset.ssubset_iff_subset_ne.2 ⟨ylev_mono_succ _ _ _ _, this⟩

theorem sublevels_last (G : Game E S) (eg : Fin m → Finset (E × S)) (goal : Finset (E × S)) :
    ylev G eg goal ((sublevels G eg goal).length - 1) = muY G eg goal := by
  have := (sublevelsFrom_get G eg goal ∅ 0 rfl).2
  rw [Nat.zero_add] at this
  simpa [sublevels] using this

/-- The least level of a state is a valid index into the array. -/
theorem lev_lt_length {G : Game E S} {eg : Fin m → Finset (E × S)} {goal : Finset (E × S)} {s : E × S}
    (h : s ∈ muY G eg goal) : lev G eg goal s < (sublevels G eg goal).length := by
  rw [← sublevels_last] at h
  have := lev_le h
  have := sublevels_length_pos G eg goal
  omega

/-- The goal set of the sublevel computation gives the winning set back. -/
theorem muY_goal_W {G : Game E S} {eg : Fin m → Finset (E × S)} {sg : Fin n → Finset (E × S)}
    {W : Finset (E × S)} (hm : 0 < m) (hn : 0 < n) (hW : winningSet G eg sg = some W) (i : Fin n) :
    muY G eg (sg i ∩ W) = W := by
  have h := winningSet_eq hm hW i
  rw [pre_winningSet hm hn hW] at h
  exact h.symm

end Gr1c
