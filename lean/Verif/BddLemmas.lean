import Verif.BddOps
import Verif.CubeLemmas

/-!
# Helper lemmas about the bit-level model
-/

namespace Gr1c

variable {N : ℕ}

/-- The bits `off .. off+len` of an assignment, as an array. -/
def bitsAt (a : Asg N) (off len : ℕ) : List ℕ := sliceArr (fun i => (a i).toNat) off len

theorem sliceArr_length (c : CubeArr N) (off len : ℕ) : (sliceArr c off len).length = len := by
  simp [sliceArr]

theorem sliceArr_get (c : CubeArr N) (off len i : ℕ) (h : i < (sliceArr c off len).length)
    (hN : off + len ≤ N) :
    (sliceArr c off len).get ⟨i, h⟩ = c ⟨off + i, by rw [sliceArr_length] at h; omega⟩ := by
  have h' : i < len := by rw [sliceArr_length] at h; exact h
  simp only [sliceArr, List.get_eq_getElem, List.getElem_ofFn]
  rw [dif_pos (by omega)]

theorem bitsAt_length (a : Asg N) (off len : ℕ) : (bitsAt a off len).length = len :=
  sliceArr_length _ _ _

theorem bitsAt_get (a : Asg N) (off len i : ℕ) (h : i < (bitsAt a off len).length)
    (hN : off + len ≤ N) :
    (bitsAt a off len).get ⟨i, h⟩ = (a ⟨off + i, by rw [bitsAt_length] at h; omega⟩).toNat :=
  sliceArr_get _ _ _ _ h hN

/-- Outside the slice the cube is unconstrained. -/
def OnlyIn (c : CubeArr N) (off len : ℕ) : Prop :=
  ∀ i : Fin N, ¬ (off ≤ i.val ∧ i.val < off + len) → c i = 2

theorem bitsAt_congr {a b : Asg N} {off len : ℕ} (hN : off + len ≤ N) :
    bitsAt a off len = bitsAt b off len ↔ ∀ i : Fin N, off ≤ i.val → i.val < off + len → a i = b i := by
  constructor
  · intro h i h1 h2
    have hl : i.val - off < (bitsAt a off len).length := by
      unfold bitsAt; rw [sliceArr_length]; omega
    have hl' : i.val - off < (bitsAt b off len).length := by rw [← h]; exact hl
    have h3 : (bitsAt a off len).get ⟨i.val - off, hl⟩ = (bitsAt b off len).get ⟨i.val - off, hl'⟩ := by
      simp only [List.get_eq_getElem, h]
    rw [bitsAt_get _ _ _ _ _ hN, bitsAt_get _ _ _ _ _ hN] at h3
    have h4 : (⟨off + (i.val - off), by have := i.isLt; omega⟩ : Fin N) = i := by
      apply Fin.ext; simp; omega
    rw [h4] at h3
    cases ha : a i <;> cases hb : b i <;> simp [ha, hb] at h3 ⊢
  · intro h
    unfold bitsAt sliceArr
    congr 1
    funext i
    rw [dif_pos (by have := i.isLt; omega), dif_pos (by have := i.isLt; omega)]
    show (a _).toNat = (b _).toNat
    rw [h _ (by simp) (by simp)]

theorem matches_iff {c : CubeArr N} {off len : ℕ} (hN : off + len ≤ N) (ho : OnlyIn c off len)
    (a : Asg N) :
    CubeMatches c a ↔ bitsAt a off len ∈ expandCube (sliceArr c off len) := by
  rw [mem_expandCube, List.forall₂_iff_get]
  constructor
  · intro h
    refine ⟨by unfold bitsAt; rw [sliceArr_length, sliceArr_length], ?_⟩
    intro i h1 h3
    rw [sliceArr_get _ _ _ _ _ hN, bitsAt_get _ _ _ _ _ hN]
    rcases h ⟨off + i, by rw [sliceArr_length] at h1; omega⟩ with h4 | h4
    · rw [if_pos h4]
      cases a ⟨off + i, _⟩ <;> simp
    · rw [if_neg, h4]
      rw [h4]; cases a ⟨off + i, _⟩ <;> simp
  · rintro ⟨_, h⟩ i
    by_cases hi : off ≤ i.val ∧ i.val < off + len
    · have h1 : i.val - off < (sliceArr c off len).length := by rw [sliceArr_length]; omega
      have h3 : i.val - off < (bitsAt a off len).length := by unfold bitsAt; rw [sliceArr_length]; omega
      have h4 := h (i.val - off) h1 h3
      rw [sliceArr_get _ _ _ _ _ hN, bitsAt_get _ _ _ _ _ hN] at h4
      have h5 : (⟨off + (i.val - off), by have := i.isLt; omega⟩ : Fin N) = i := by
        apply Fin.ext; simp; omega
      rw [h5] at h4
      by_cases h6 : c i = 2
      · exact Or.inl h6
      · rw [if_neg h6] at h4; exact Or.inr h4.symm
    · exact Or.inl (ho i hi)

theorem mem_expandCube_bits {c : CubeArr N} {off len : ℕ} (hN : off + len ≤ N)
    (h2 : ∀ i, c i ≤ 2) {v : List ℕ} (hv : v ∈ expandCube (sliceArr c off len)) :
    ∃ a : Asg N, v = bitsAt a off len := by
  rw [mem_expandCube, List.forall₂_iff_get] at hv
  obtain ⟨hl, h⟩ := hv
  refine ⟨fun i => v.getD (i.val - off) 0 == 1, ?_⟩
  rw [sliceArr_length] at hl
  apply List.ext_get
  · unfold bitsAt; rw [sliceArr_length]; exact hl.symm
  · intro i h3 h4
    rw [bitsAt_get _ _ _ _ _ hN]
    have h5 := h i (by rw [sliceArr_length]; omega) h3
    rw [sliceArr_get _ _ _ _ _ hN] at h5
    have h6 := h2 ⟨off + i, by omega⟩
    simp only [List.get_eq_getElem, Nat.add_sub_cancel_left] at h5 ⊢
    rw [show v.getD i 0 = v[i] from by simp [List.getD_eq_getElem?_getD, h3]]
    generalize hx : v[i] = x at *
    split at h5
    · rcases h5 with rfl | rfl <;> simp
    · have : x = 0 ∨ x = 1 := by omega
      rcases this with rfl | rfl <;> simp

theorem enumCover_spec (off len : ℕ) (hN : off + len ≤ N) : ∀ cs : List (CubeArr N),
    (∀ c ∈ cs, ∀ i, c i ≤ 2) → (∀ c ∈ cs, OnlyIn c off len) →
    (cs.Pairwise fun c d => ∀ a, ¬ (CubeMatches c a ∧ CubeMatches d a)) →
    ∃ l, enumCover off len cs = some l ∧ l.Nodup ∧
      ∀ v, v ∈ l ↔ ∃ c ∈ cs, ∃ a : Asg N, CubeMatches c a ∧ v = bitsAt a off len := by
  intro cs
  induction cs with
  | nil => intro _ _ _; exact ⟨[], rfl, List.nodup_nil, by simp⟩
  | cons c cs ih =>
    intro h2 ho hd
    rw [List.pairwise_cons] at hd
    obtain ⟨r, hr, hrn, hrm⟩ := ih (fun c hc => h2 c (List.mem_cons_of_mem _ hc))
      (fun c hc => ho c (List.mem_cons_of_mem _ hc)) hd.2
    have he : enumCube (sliceArr c off len) (2 ^ len) = some (expandCube (sliceArr c off len)) := by
      apply enumCube_eq
      apply Nat.pow_le_pow_right (by omega)
      calc _ ≤ (sliceArr c off len).length := List.countP_le_length
        _ = len := sliceArr_length _ _ _
    have hc2 := h2 c List.mem_cons_self
    have hco := ho c List.mem_cons_self
    refine ⟨expandCube (sliceArr c off len) ++ r, by unfold enumCover; rw [he, hr]; rfl, ?_, ?_⟩
    · rw [List.nodup_append]
      refine ⟨nodup_expandCube _, hrn, ?_⟩
      intro x hx y hy hxy
      subst hxy
      obtain ⟨a, rfl⟩ := mem_expandCube_bits hN hc2 hx
      have hm := (matches_iff hN hco a).2 hx
      obtain ⟨d, hd1, b, hb, hab⟩ := (hrm _).1 hy
      have hdo := ho d (List.mem_cons_of_mem _ hd1)
      have : CubeMatches d a := by
        rw [matches_iff hN hdo, hab]; exact (matches_iff hN hdo b).1 hb
      exact hd.1 d hd1 a ⟨hm, this⟩
    · intro v
      rw [List.mem_append, hrm]
      constructor
      · rintro (h | ⟨d, hd1, a, ha, rfl⟩)
        · obtain ⟨a, rfl⟩ := mem_expandCube_bits hN hc2 h
          exact ⟨c, List.mem_cons_self, a, (matches_iff hN hco a).2 h, rfl⟩
        · exact ⟨d, List.mem_cons_of_mem _ hd1, a, ha, rfl⟩
      · rintro ⟨d, hd1, a, ha, rfl⟩
        rcases List.mem_cons.1 hd1 with rfl | hd1
        · exact Or.inl ((matches_iff hN hco a).1 ha)
        · exact Or.inr ⟨d, hd1, a, ha, rfl⟩

theorem enumCover_exact {f : Bdd N} {cs : List (CubeArr N)} (hc : IsCover f cs) {off len : ℕ}
    (hN : off + len ≤ N) (hi : ∀ i : Fin N, ¬ (off ≤ i.val ∧ i.val < off + len) → Indep f i) :
    ∃ l, enumCover off len cs = some l ∧ l.Nodup ∧
      ∀ v, v ∈ l ↔ ∃ a : Asg N, f a = true ∧ v = bitsAt a off len := by
  obtain ⟨l, h1, h2, h3⟩ := enumCover_spec off len hN cs hc.le2
    (fun c hcc i hi' => hc.support i (hi i hi') c hcc) hc.disjoint
  refine ⟨l, h1, h2, fun v => ?_⟩
  rw [h3]
  constructor
  · rintro ⟨c, hcc, a, ha, rfl⟩; exact ⟨a, (hc.cover a).2 ⟨c, hcc, ha⟩, rfl⟩
  · rintro ⟨a, ha, rfl⟩
    obtain ⟨c, hcc, hm⟩ := (hc.cover a).1 ha
    exact ⟨c, hcc, a, hm, rfl⟩

/-! ## State encodings -/

theorem stateToBddLoop_spec (offset : ℕ) : ∀ (xs : List ℕ) (i : ℕ) (v : Bdd N),
    offset + i + xs.length ≤ N → ∀ a, stateToBddLoop offset i xs v a = true ↔
      v a = true ∧ ∀ k (hk : k < xs.length) (h : offset + i + k < N),
        a ⟨offset + i + k, h⟩ = (xs[k] != 0) := by
  intro xs
  induction xs with
  | nil => intro i v _ a; simp [stateToBddLoop]
  | cons x xs ih =>
    intro i v hN a
    simp only [List.length_cons] at hN
    have hN' : offset + i < N := by omega
    unfold stateToBddLoop
    rw [dif_pos hN', ih (i + 1) _ (by omega)]
    have h0 : (if x ≠ 0 then cuddAnd v (cuddVar ⟨offset + i, hN'⟩)
         else cuddAnd v (cuddNot (cuddVar ⟨offset + i, hN'⟩))) a = true ↔
         v a = true ∧ a ⟨offset + i, hN'⟩ = (x != 0) := by
      by_cases hx : x = 0
      · simp [hx, cuddAnd, cuddNot, cuddVar]
      · simp [hx, cuddAnd, cuddVar, bne_iff_ne.2 hx]
    rw [h0]
    constructor
    · rintro ⟨⟨h1, h2⟩, h3⟩
      refine ⟨h1, ?_⟩
      intro k hk h
      cases k with
      | zero => simpa using h2
      | succ k =>
        simp only [List.length_cons] at hk
        have := h3 k (by omega) (by omega)
        simp only [List.getElem_cons_succ]
        rw [← this]; congr 1; apply Fin.ext; simp; omega
    · rintro ⟨h1, h2⟩
      refine ⟨⟨h1, h2 0 (Nat.succ_pos _) hN'⟩, ?_⟩
      intro k hk h
      have := h2 (k + 1) (by simp; omega) (by omega)
      simp only [List.getElem_cons_succ] at this
      rw [← this]; congr 1; apply Fin.ext; simp; omega

/-! ## Quantification -/

theorem cuddExist_indep (q : CubeArr N) (f : Bdd N) (i : Fin N) (h : q i = 1 ∨ Indep f i) :
    Indep (cuddExist q f) i := by
  have key : ∀ a b : Asg N, (∀ j, j ≠ i → a j = b j) → cuddExist q f a = true → cuddExist q f b = true := by
    intro a b hab ha
    simp only [cuddExist, decide_eq_true_eq] at ha ⊢
    obtain ⟨c, hc1, hc2⟩ := ha
    rcases h with h | h
    · refine ⟨c, fun j hj => ?_, hc2⟩
      rw [hc1 j hj]; apply hab; rintro rfl; exact hj h
    · by_cases hq : q i = 1
      · refine ⟨c, fun j hj => ?_, hc2⟩
        rw [hc1 j hj]; apply hab; rintro rfl; exact hj hq
      · refine ⟨Function.update c i (b i), fun j hj => ?_, ?_⟩
        · by_cases hji : j = i
          · subst hji; simp
          · rw [Function.update_of_ne hji, hc1 j hj]; exact hab j hji
        · rw [← hc2]; apply h; intro j hj; exact Function.update_of_ne hj _ _
  intro a b hab
  rw [Bool.eq_iff_iff]
  exact ⟨key a b hab, key b a fun j hj => (hab j hj).symm⟩

theorem cuddCofactor_indep (q : CubeArr N) (f : Bdd N) (i : Fin N) (h : q i ≠ 2) :
    Indep (cuddCofactor f q) i := by
  intro a b hab
  unfold cuddCofactor
  congr 1
  funext j
  by_cases hj : q j = 2
  · rw [if_pos hj, if_pos hj]; apply hab; rintro rfl; exact h hj
  · rw [if_neg hj, if_neg hj]

end Gr1c
