import Verif.CubeLemmas

/-!
# C11: cube enumeration is exact
-/

namespace Gr1c

/-- `v` is a 0-1 completion of the cube `g`: don't-care positions are 0 or 1, the others are kept. -/
def Completes (g v : List ℕ) : Prop :=
  v.length = g.length ∧ ∀ i (h : i < g.length) (h' : i < v.length),
    (g[i] = 2 → v[i] = 0 ∨ v[i] = 1) ∧ (g[i] ≠ 2 → v[i] = g[i])

theorem mem_expandCube_iff {g v : List ℕ} : v ∈ expandCube g ↔ Completes g v := by
  rw [mem_expandCube, List.forall₂_iff_get]
  constructor
  · rintro ⟨h1, h2⟩
    refine ⟨h1.symm, fun i h h' => ?_⟩
    have := h2 i h h'
    simp only [List.get_eq_getElem] at this
    constructor
    · intro h3; rw [if_pos h3] at this; exact this
    · intro h3; rw [if_neg h3] at this; exact this
  · rintro ⟨h1, h2⟩
    refine ⟨h1.symm, fun i h h' => ?_⟩
    simp only [List.get_eq_getElem]
    split
    · rename_i h3; exact (h2 i h h').1 h3
    · rename_i h3; exact (h2 i h h').2 h3

/-- C11. For every cube the loop stops after visiting each completion exactly once, and nothing
else; there are `2 ^ k` visits for `k` don't-care positions. -/
theorem cube_enumeration_exact (g : List ℕ) :
    ∃ l fuel, enumCube g fuel = some l ∧ l.Nodup ∧ (∀ v, v ∈ l ↔ Completes g v) ∧
      l.length = 2 ^ g.countP (· = 2) :=
  ⟨expandCube g, _, enumCube_eq g _ (Nat.le_refl _), nodup_expandCube g, fun _ => mem_expandCube_iff,
    expandCube_length g⟩

/-- The result does not depend on the iteration bound of the model. -/
theorem cube_enumeration_bound (g : List ℕ) (k k' : ℕ) (l : List (List ℕ)) (h : enumCube g k = some l)
    (hk : k ≤ k') : enumCube g k' = some l := enumLoop_mono g k k' _ l h hk

/-- Exactly `2 ^ k` iterations are needed, no more. -/
theorem cube_enumeration_bound_iff (g : List ℕ) (fuel : ℕ) :
    (∃ l, enumCube g fuel = some l) ↔ 2 ^ g.countP (· = 2) ≤ fuel := by
  constructor
  · rintro ⟨l, h⟩
    have hle : ∀ (k : ℕ) (c : List ℕ) (l : List (List ℕ)), enumLoop g k c = some l → l.length ≤ k := by
      intro k
      induction k with
      | zero => intro c l h; simp [enumLoop] at h
      | succ k ih =>
        intro c l h
        unfold enumLoop at h
        split at h
        · simp at h; subst h; simp
        · cases hr : enumLoop g k (incrementCube g c) with
          | none => rw [hr] at h; simp at h
          | some l' =>
            rw [hr] at h
            simp at h
            subst h
            have := ih _ _ hr
            simp; omega
    have h1 := cube_enumeration_bound g fuel (fuel + 2 ^ g.countP (· = 2)) l h (Nat.le_add_right _ _)
    rw [enumCube_eq g _ (Nat.le_add_left _ _)] at h1
    have : l = expandCube g := by simpa using h1.symm
    rw [← expandCube_length, ← this]
    exact hle _ _ _ h
  · intro h; exact ⟨_, enumCube_eq g fuel h⟩

/-- The cube `2 1 2`. -/
example : enumCube [2, 1, 2] 4 = some [[0, 1, 0], [0, 1, 1], [1, 1, 0], [1, 1, 1]] := by decide
example : enumCube [] 1 = some [[]] := by decide
example : enumCube [2, 1, 2] 3 = none := by decide

end Gr1c
