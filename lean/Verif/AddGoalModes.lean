import Verif.AddGoalShape
import Verif.AddGoalSpec

/-!
# Modes and goals passed on the way
-/

namespace Gr1c

variable {E S : Type} [Fintype E] [DecidableEq E] [Fintype S] [DecidableEq S]
variable {n : ℕ} {sg : Fin n → Finset (E × S)}

theorem crosses_iff {i a b : ℤ} : crosses i a b = true ↔ (a < b ∧ a ≤ i ∧ b > i) ∨ (a > b ∧ (b > i ∨ a ≤ i)) := by
  unfold crosses
  simp [and_assoc]

private theorem mod_sub {a l n : ℕ} (ha : a < n) (hl : l < n) :
    (a + (if a ≤ l then l - a else l + n - a)) % n = l := by
  split
  · rw [show a + (l - a) = l by omega, Nat.mod_eq_of_lt hl]
  · rw [show a + (l + n - a) = l + n by omega, Nat.add_mod_right, Nat.mod_eq_of_lt hl]

/-- Moving on from goal `i` to goal `j` is passing the goals in between. -/
theorem passes_iff {i j : Fin n} {t : E × S} :
    Passes sg i t j → ∀ l : Fin n, crosses l.val i.val j.val = true → t ∈ sg l := by
  rintro ⟨k, hk, hall⟩ l hl
  have hi := i.isLt
  have hj := j.isLt
  have hl' := l.isLt
  set c := if i.val ≤ l.val then l.val - i.val else l.val + n - i.val with hc
  have hmod : (nextIx^[c]) i = l := by
    apply Fin.ext
    rw [nextIx_iter_val]
    exact mod_sub hi hl'
  rw [← hmod]
  apply hall
  by_contra hck
  push Not at hck
  have hkn : (i.val + k) % n = j.val := by
    rw [← nextIx_iter_val, hk]
  have hcn : c < n := by rw [hc]; split <;> omega
  rw [crosses_iff] at hl
  have hcase : i.val + k < n ∨ i.val + k - n < n := by omega
  by_cases hlt : i.val + k < n
  · rw [Nat.mod_eq_of_lt hlt] at hkn
    split at hc <;> omega
  · have : (i.val + k) % n = i.val + k - n := by
      rw [Nat.mod_eq_sub_mod (by omega), Nat.mod_eq_of_lt (by omega)]
    split at hc <;> omega

theorem passes_of {i j : Fin n} {t : E × S} (h : ∀ l : Fin n, crosses l.val i.val j.val = true → t ∈ sg l) :
    Passes sg i t j := by
  have hi := i.isLt
  have hj := j.isLt
  refine ⟨if i.val ≤ j.val then j.val - i.val else j.val + n - i.val, ?_, ?_⟩
  · apply Fin.ext
    rw [nextIx_iter_val]
    exact mod_sub hi hj
  · intro c hc
    apply h
    rw [nextIx_iter_val, crosses_iff]
    have hcn : c < n := by split at hc <;> omega
    by_cases hlt : i.val + c < n
    · rw [Nat.mod_eq_of_lt hlt]
      split at hc <;> omega
    · have : (i.val + c) % n = i.val + c - n := by
        rw [Nat.mod_eq_sub_mod (by omega), Nat.mod_eq_of_lt (by omega)]
      split at hc <;> omega

theorem nextGoal_cast (i : Fin n) : nextGoal n i.val = ((nextIx i).val : ℤ) := by
  unfold nextGoal
  rw [nextIx_val]
  have := i.isLt
  by_cases h : i.val + 1 = n
  · rw [if_pos (by omega), if_pos h]; rfl
  · rw [if_neg (by omega), if_neg h]; push_cast; rfl

theorem bumpMode_eq (i1 : ℤ) (c : ℕ) : ∀ m : ℤ, bumpMode i1 c m = if i1 ≤ m ∧ m < i1 + c then m + 1 else m := by
  induction c with
  | zero => intro m; rw [bumpMode, if_neg]; push_cast; omega
  | succ c ih =>
    intro m
    rw [bumpMode, ih]
    push_cast
    split <;> split <;> split <;> omega

/-- The modes of the result. -/
theorem newMode_old (i : Fin n) {m : ℤ} (h0 : 0 ≤ m) (hn : m < n) :
    newMode n i.val (nextGoal n i.val) m = if m ≤ i.val then m else m + 1 := by
  have := i.isLt
  unfold newMode nextGoal
  by_cases h : (i.val : ℤ) = n - 1
  · simp only [if_pos h]
    split
    · omega
    · split
      · omega
      · rw [if_pos (by omega)]
  · simp only [if_neg h, bumpMode_eq]
    rw [show ((i.val : ℤ) + 1 + ((n - ((i.val : ℤ) + 1)).toNat : ℤ)) = n by omega]
    split <;> split <;> (try split) <;> (try split) <;> omega

theorem newMode_first (i : Fin n) : newMode n i.val (nextGoal n i.val) (n + 1) = i.val + 1 := by
  have := i.isLt
  unfold newMode nextGoal
  by_cases h : (i.val : ℤ) = n - 1
  · simp only [if_pos h, if_true]; omega
  · simp only [if_neg h, bumpMode_eq]
    rw [show ((i.val : ℤ) + 1 + ((n - ((i.val : ℤ) + 1)).toNat : ℤ)) = n by omega]
    split <;> split <;> omega

theorem newMode_second (i : Fin n) :
    newMode n i.val (nextGoal n i.val) (-1) = if (i.val : ℤ) + 1 = n then 0 else (i.val : ℤ) + 2 := by
  have := i.isLt
  unfold newMode nextGoal
  by_cases h : (i.val : ℤ) = n - 1
  · simp only [if_pos h]
    rw [if_neg (show ¬ ((-1 : ℤ) = n + 1) by omega), if_pos trivial, if_pos (by omega)]
  · simp only [if_neg h, bumpMode_eq]
    rw [show ((i.val : ℤ) + 1 + ((n - ((i.val : ℤ) + 1)).toNat : ℤ)) = n by omega]
    rw [if_neg (show ¬ ((i.val : ℤ) + 1 ≤ -1 ∧ (-1 : ℤ) < n) by omega), if_neg (show ¬ ((-1 : ℤ) = n + 1) by omega), if_pos rfl,
      if_neg (by omega)]
    omega

theorem mem_crossNodes {i : ℤ} {st : Aut ℤ (E × S)} (hids : (Aut.ids st).Nodup) {x : ANode ℤ (E × S)} (hx : x ∈ st) :
    x.id ∈ crossNodes i st ↔ ∃ w ∈ st, x.id ∈ w.trans ∧ crosses i w.mode x.mode = true := by
  unfold crossNodes
  simp only [List.mem_map, List.mem_filter, List.any_eq_true, Bool.and_eq_true, decide_eq_true_eq]
  constructor
  · rintro ⟨y, ⟨y1, w, w1, w2, w3⟩, y2⟩
    rw [eq_of_id_eq hids y1 hx y2] at w2 w3
    exact ⟨w, w1, w2, w3⟩
  · rintro ⟨w, w1, w2, w3⟩
    exact ⟨x, ⟨hx, w, w1, w2, w3⟩, rfl⟩

end Gr1c
