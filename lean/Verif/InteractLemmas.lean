import Verif.Interactive

/-!
# Helper lemmas about the interactive mode
-/

namespace Gr1c

variable {ne ns m n : ℕ}

theorem bitsAt_sys (s t : BState ne ns) : bitsAt (joinAsg s t) (2 * ne + ns) ns = vec t.2 := by
  apply List.ext_getElem
  · rw [bitsAt_length, vec_length]
  · intro i h1 h2
    have h3 := bitsAt_get (joinAsg s t) (2 * ne + ns) ns i h1 (by omega)
    rw [List.get_eq_getElem] at h3
    rw [h3]
    rw [vec_length] at h2
    simp only [vec, List.getElem_ofFn]
    congr 1
    unfold joinAsg
    simp only
    rw [dif_neg (by omega), dif_neg (by omega), dif_neg (by omega)]
    exact val_congr _ (by dsimp only; omega)

theorem vec_01 {k : ℕ} (v : Val k) : ∀ x ∈ vec v, x ≤ 1 := by
  intro x hx
  simp only [vec, List.mem_ofFn] at hx
  obtain ⟨i, rfl⟩ := hx
  cases v i <;> simp

theorem vec_get {k : ℕ} (v : Val k) (i : ℕ) (h : i < (vec v).length) :
    ((vec v)[i] != 0) = v ⟨i, by rw [vec_length] at h; exact h⟩ := by
  simp only [vec, List.getElem_ofFn]
  cases v _ <;> simp

/-- Cofactoring by an environment move fixes the primed environment part. -/
theorem env_to_cof_join (cube : CubeArr (2 * (ne + ns))) (f : Bdd (2 * (ne + ns))) (e : Val ne)
    (u t : BState ne ns) :
    stateToCof cube (vec e) f (ne + ns) (joinAsg u t) = f (joinAsg u (e, t.2)) := by
  rw [state_to_cof_exact _ _ _ _ (vec_01 e)]
  congr 1
  funext i
  have := i.isLt
  by_cases h : ne + ns ≤ i.val ∧ i.val - (ne + ns) < (vec e).length
  · rw [dif_pos h, vec_get]
    have h2 := h.2
    rw [vec_length] at h2
    unfold joinAsg
    rw [dif_neg (by omega), dif_neg (by omega), dif_pos (by omega)]
  · rw [dif_neg h]
    rw [vec_length] at h
    unfold joinAsg
    by_cases h1 : i.val < ne
    · rw [dif_pos h1, dif_pos h1]
    · rw [dif_neg h1, dif_neg h1]
      by_cases h2 : i.val < ne + ns
      · rw [dif_pos h2, dif_pos h2]
      · rw [dif_neg h2, dif_neg h2, dif_neg (by omega), dif_neg (by omega)]

/-- Lists of vectors are lists of valuations. -/
theorem exists_map_vec {k : ℕ} : ∀ l : List (List ℕ), (∀ v ∈ l, ∃ e : Val k, v = vec e) →
    ∃ r : List (Val k), r.map vec = l := by
  intro l
  induction l with
  | nil => intro _; exact ⟨[], rfl⟩
  | cons v l ih =>
    intro h
    obtain ⟨e, rfl⟩ := h v List.mem_cons_self
    obtain ⟨r, rfl⟩ := ih fun w hw => h w (List.mem_cons_of_mem _ hw)
    exact ⟨e :: r, rfl⟩

theorem take_stateVec (s : BState ne ns) (w : List ℕ) : (stateVec s ++ w).take (ne + ns) = stateVec s := by
  rw [List.take_append_of_le_length (by rw [stateVec_length]), List.take_of_length_le (by rw [stateVec_length])]

theorem drop_stateVec (s : BState ne ns) (w : List ℕ) : (stateVec s ++ w).drop (ne + ns) = w :=
  List.drop_left' (stateVec_length s)

/-- The listing gives each system valuation allowed by the relation once. -/
theorem listMoves_exact (cover : Bdd (2 * (ne + ns)) → List (CubeArr (2 * (ne + ns))))
    (hcov : ∀ f, IsCover f (cover f)) (f : Bdd (2 * (ne + ns))) (s : BState ne ns) (e : Val ne) :
    ∃ l : List (Val ns), listMoves cover f (stateVec s ++ vec e) = some (l.map vec) ∧ l.Nodup ∧
      ∀ x, x ∈ l ↔ f (joinAsg s (e, x)) = true := by
  let g := stateToCof (fun _ => 2) (vec e) (stateToCof (fun _ => 2) (stateVec s) f 0) (ne + ns)
  have hg : ∀ u t : BState ne ns, g (joinAsg u t) = f (joinAsg s (e, t.2)) := by
    intro u t
    show stateToCof _ _ _ _ _ = _
    rw [env_to_cof_join, state_to_cof_join]
  have hind : ∀ i : Fin (2 * (ne + ns)), ¬ (2 * ne + ns ≤ i.val ∧ i.val < 2 * ne + ns + ns) → Indep g i := by
    intro i hi a b hab
    rw [← joinAsg_eta a, ← joinAsg_eta b, hg, hg]
    have h1 : (hiPart a).2 = (hiPart b).2 := by
      unfold hiPart
      funext k
      apply hab
      intro h
      apply hi
      rw [← h]
      have := k.isLt
      dsimp only
      omega
    rw [h1]
  obtain ⟨l, hl1, hl2, hl3⟩ := enumCover_exact (hcov g) (off := 2 * ne + ns) (len := ns) (by omega) hind
  have hl4 : ∀ v, v ∈ l ↔ ∃ x, f (joinAsg s (e, x)) = true ∧ v = vec x := by
    intro v
    rw [hl3]
    constructor
    · rintro ⟨a, ha, rfl⟩
      rw [← joinAsg_eta a, hg] at ha
      refine ⟨(hiPart a).2, ha, ?_⟩
      conv_lhs => rw [← joinAsg_eta a]
      exact bitsAt_sys _ _
    · rintro ⟨x, hx, rfl⟩
      exact ⟨joinAsg s (e, x), by rw [hg]; exact hx, (bitsAt_sys s (e, x)).symm⟩
  obtain ⟨r, rfl⟩ := exists_map_vec l fun v hv => by
    obtain ⟨x, _, h⟩ := (hl4 v).1 hv
    exact ⟨x, h⟩
  refine ⟨r, ?_, hl2.of_map _, fun x => ?_⟩
  · unfold listMoves
    rw [take_stateVec, drop_stateVec, List.take_of_length_le (by rw [vec_length])]
    exact hl1
  · constructor
    · intro h
      obtain ⟨x', h1, h2⟩ := (hl4 (vec x)).1 (List.mem_map_of_mem h)
      rw [vec_inj h2]; exact h1
    · intro h
      have := (hl4 (vec x)).2 ⟨x, h, rfl⟩
      obtain ⟨x', h1, h2⟩ := List.mem_map.1 this
      rw [← vec_inj h2]; exact h1

theorem stateToBdd_state (s u t : BState ne ns) :
    stateToBdd (N := 2 * (ne + ns)) (stateVec s) 0 (joinAsg u t) = decide (u = s) := by
  rw [Bool.eq_iff_iff, state_to_BDD_exact _ _ (by rw [stateVec_length]; omega), decide_eq_true_iff]
  constructor
  · intro h
    apply Prod.ext
    · funext i
      have h1 := h i.val (by rw [stateVec_length]; have := i.isLt; omega)
      rw [stateVec_get, dif_pos i.isLt] at h1
      simpa [joinAsg] using h1
    · funext i
      have h1 := h (ne + i.val) (by rw [stateVec_length]; have := i.isLt; omega)
      rw [stateVec_get, dif_neg (by omega)] at h1
      simpa [joinAsg] using h1
  · rintro rfl k hk
    rw [stateVec_get]
    rw [stateVec_length] at hk
    unfold joinAsg
    simp only [Nat.zero_add]
    by_cases h1 : k < ne
    · rw [dif_pos h1, dif_pos h1]
    · rw [dif_neg h1, dif_neg h1, dif_pos hk]

theorem joinAsg_env' (u t : BState ne ns) (i : Fin ne) (h : ne + ns + i.val < 2 * (ne + ns)) :
    joinAsg u t ⟨ne + ns + i.val, h⟩ = t.1 i := by
  unfold joinAsg
  simp only
  rw [dif_neg (by omega), dif_neg (by omega), dif_pos (by have := i.isLt; omega)]
  exact val_congr _ (by dsimp only; omega)

theorem joinAsg_sys' (u t : BState ne ns) (i : Fin ns) (j : ℕ) (hj : j = 2 * ne + ns + i.val)
    (h : j < 2 * (ne + ns)) : joinAsg u t ⟨j, h⟩ = t.2 i := by
  unfold joinAsg
  simp only
  rw [dif_neg (by omega), dif_neg (by omega), dif_neg (by omega)]
  exact val_congr _ (by dsimp only; omega)

theorem stateToBdd_env (e : Val ne) (u t : BState ne ns) :
    stateToBdd (N := 2 * (ne + ns)) (vec e) (ne + ns) (joinAsg u t) = decide (t.1 = e) := by
  rw [Bool.eq_iff_iff, state_to_BDD_exact _ _ (by rw [vec_length]; omega), decide_eq_true_iff]
  constructor
  · intro h
    funext i
    have h1 := h i.val (by rw [vec_length]; exact i.isLt)
    rw [vec_get, joinAsg_env'] at h1
    exact h1
  · rintro rfl k hk
    rw [vec_get]
    rw [vec_length] at hk
    exact joinAsg_env' u t ⟨k, hk⟩ _

theorem stateToBdd_sys (x : Val ns) (u t : BState ne ns) :
    stateToBdd (N := 2 * (ne + ns)) (vec x) (2 * ne + ns) (joinAsg u t) = decide (t.2 = x) := by
  rw [Bool.eq_iff_iff, state_to_BDD_exact _ _ (by rw [vec_length]; omega), decide_eq_true_iff]
  constructor
  · intro h
    funext i
    have h1 := h i.val (by rw [vec_length]; exact i.isLt)
    rw [vec_get, joinAsg_sys' u t i _ rfl] at h1
    exact h1
  · rintro rfl k hk
    rw [vec_get]
    rw [vec_length] at hk
    exact joinAsg_sys' u t ⟨k, hk⟩ _ rfl _

theorem stateToBdd_state' (s u t : BState ne ns) :
    stateToBdd (N := 2 * (ne + ns)) (stateVec s) (ne + ns) (joinAsg u t) = decide (t = s) := by
  rw [Bool.eq_iff_iff, state_to_BDD_exact _ _ (by rw [stateVec_length]; omega), decide_eq_true_iff]
  constructor
  · intro h
    apply Prod.ext
    · funext i
      have h1 := h i.val (by rw [stateVec_length]; have := i.isLt; omega)
      rw [stateVec_get, dif_pos i.isLt, joinAsg_env'] at h1
      exact h1
    · funext i
      have h1 := h (ne + i.val) (by rw [stateVec_length]; have := i.isLt; omega)
      rw [stateVec_get, dif_neg (by omega), joinAsg_sys' u t i _ (by omega)] at h1
      rw [h1]
      exact val_congr _ (by dsimp only; omega)
  · rintro rfl k hk
    rw [stateVec_get]
    rw [stateVec_length] at hk
    by_cases h1 : k < ne
    · rw [dif_pos h1]
      exact joinAsg_env' u t ⟨k, h1⟩ _
    · rw [dif_neg h1]
      exact joinAsg_sys' u t ⟨k - ne, by omega⟩ _ (by dsimp only; omega) _

theorem varMap_bddOf (A : Finset (BState ne ns)) (s t : BState ne ns) :
    cuddVarMap (bddOf A) (joinAsg s t) = decide (t ∈ A) := by
  rw [cuddVarMap_join, Bool.eq_iff_iff, bddOf_join, decide_eq_true_iff]

/-- The level found is the least one containing the state, or the number of levels if there is none. -/
theorem scanLevel_spec {E S : Type} [DecidableEq E] [DecidableEq S] (L : List (Level E S m)) (s : E × S)
    (h0 : ∀ lv, L[0]? = some lv → s ∉ lv.Y)
    (hmono : ∀ (i j : ℕ) (li lj : Level E S m), i ≤ j → L[i]? = some li → L[j]? = some lj → s ∈ li.Y → s ∈ lj.Y) :
    ∀ j, 1 ≤ j → j ≤ L.length → (∀ (k : ℕ) lv, j ≤ k → L[k]? = some lv → s ∈ lv.Y) →
      1 ≤ scanLevel L s j ∧ scanLevel L s j ≤ j ∧
      (∀ (k : ℕ) lv, k < scanLevel L s j → L[k]? = some lv → s ∉ lv.Y) ∧
      (∀ (k : ℕ) lv, scanLevel L s j ≤ k → L[k]? = some lv → s ∈ lv.Y) := by
  intro j
  induction j with
  | zero => intro h; omega
  | succ j ih =>
    intro _ hj hup
    unfold scanLevel
    rw [List.getElem?_eq_getElem (by omega : j < L.length)]
    dsimp only
    by_cases hin : s ∈ L[j].Y
    · rw [if_pos hin]
      have hj0 : j ≠ 0 := by
        rintro rfl
        exact h0 _ (List.getElem?_eq_getElem (by omega)) hin
      rw [if_neg hj0]
      have hup' : ∀ k lv, j ≤ k → L[k]? = some lv → s ∈ lv.Y := by
        intro k lv hk he
        exact hmono j k _ lv hk (List.getElem?_eq_getElem (by omega)) he hin
      obtain ⟨a1, a2, a3, a4⟩ := ih (by omega) (by omega) hup'
      exact ⟨a1, by omega, a3, a4⟩
    · rw [if_neg hin]
      refine ⟨by omega, le_rfl, ?_, hup⟩
      intro k lv hk he hin'
      exact hin (hmono k j lv _ (by omega) he (List.getElem?_eq_getElem (by omega)) hin')

end Gr1c
