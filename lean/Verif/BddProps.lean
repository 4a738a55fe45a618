import Verif.BddLemmas
import Verif.SynthProps

/-!
# C12, C13, C50: the bit-level helpers compute what the game model uses
-/

namespace Gr1c

variable {ne ns : ℕ}

/-- Valuations of `k` Boolean variables. -/
abbrev Val (k : ℕ) := Fin k → Bool

/-- A state of a bit-level game. -/
abbrev BState (ne ns : ℕ) := Val ne × Val ns

theorem val_congr {k : ℕ} (v : Val k) {i j : Fin k} (h : i.val = j.val) : v i = v j := by
  rw [Fin.ext h]

/-- The assignment giving the unprimed variables the values of `s` and the primed ones those of
`t`. -/
def joinAsg (s t : BState ne ns) : Asg (2 * (ne + ns)) := fun i =>
  if h : i.val < ne then s.1 ⟨i.val, h⟩
  else if h2 : i.val < ne + ns then s.2 ⟨i.val - ne, by omega⟩
  else if h3 : i.val < ne + ns + ne then t.1 ⟨i.val - (ne + ns), by omega⟩
  else t.2 ⟨i.val - (ne + ns + ne), by have := i.isLt; omega⟩

/-- A valuation as the array of its 0-1 values. -/
def vec {k : ℕ} (v : Val k) : List ℕ := List.ofFn fun i => (v i).toNat

/-- A state as the array gr1c keeps: environment values, then system values. -/
def stateVec (s : BState ne ns) : List ℕ := vec s.1 ++ vec s.2

/-- The unprimed / primed part of an assignment. -/
def loPart (a : Asg (2 * (ne + ns))) : BState ne ns :=
  (fun i => a ⟨i.val, by have := i.isLt; omega⟩, fun i => a ⟨ne + i.val, by have := i.isLt; omega⟩)
def hiPart (a : Asg (2 * (ne + ns))) : BState ne ns :=
  (fun i => a ⟨ne + ns + i.val, by have := i.isLt; omega⟩,
   fun i => a ⟨ne + ns + ne + i.val, by have := i.isLt; omega⟩)

theorem joinAsg_eta (a : Asg (2 * (ne + ns))) : joinAsg (loPart a) (hiPart a) = a := by
  funext i
  unfold joinAsg loPart hiPart
  have := i.isLt
  split
  · rfl
  · split
    · exact val_congr a (by dsimp only; omega)
    · split
      · exact val_congr a (by dsimp only; omega)
      · exact val_congr a (by dsimp only; omega)

theorem loPart_join (s t : BState ne ns) : loPart (joinAsg s t) = s := by
  unfold loPart joinAsg
  apply Prod.ext
  · funext i; simp
  · funext i
    dsimp only
    rw [dif_neg (by omega), dif_pos (by have := i.isLt; omega)]
    exact val_congr _ (by dsimp only; omega)

theorem hiPart_join (s t : BState ne ns) : hiPart (joinAsg s t) = t := by
  unfold hiPart joinAsg
  apply Prod.ext
  · funext i
    have := i.isLt
    dsimp only
    rw [dif_neg (by omega), dif_neg (by omega), dif_pos (by omega)]
    exact val_congr _ (by dsimp only; omega)
  · funext i
    have := i.isLt
    dsimp only
    rw [dif_neg (by omega), dif_neg (by omega), dif_neg (by omega)]
    exact val_congr _ (by dsimp only; omega)

theorem joinAsg_inj {s t s' t' : BState ne ns} : joinAsg s t = joinAsg s' t' ↔ s = s' ∧ t = t' := by
  constructor
  · intro h
    exact ⟨by rw [← loPart_join s t, h, loPart_join], by rw [← hiPart_join s t, h, hiPart_join]⟩
  · rintro ⟨rfl, rfl⟩; rfl

/-- `f` does not depend on the primed variables. -/
def NoPrimed (f : Bdd (2 * (ne + ns))) : Prop := ∀ s t t', f (joinAsg s t) = f (joinAsg s t')

/-- `f` does not depend on the primed system variables. -/
def NoPrimedSys (f : Bdd (2 * (ne + ns))) : Prop :=
  ∀ s e x x', f (joinAsg s (e, x)) = f (joinAsg s (e, x'))

theorem cubePrimeSys_exist (cube : CubeArr (2 * (ne + ns))) (f : Bdd (2 * (ne + ns)))
    (s : BState ne ns) (e : Val ne) (x : Val ns) :
    cuddExist (cubePrimeSys ne ns cube) f (joinAsg s (e, x)) = true ↔
      ∃ y, f (joinAsg s (e, y)) = true := by
  simp only [cuddExist, decide_eq_true_eq]
  have hq : ∀ i : Fin (2 * (ne + ns)), cubePrimeSys ne ns cube i ≠ 1 ↔ i.val < 2 * ne + ns := by
    intro i
    have := i.isLt
    unfold cubePrimeSys fillRange
    by_cases h : i.val < 2 * ne + ns
    · rw [if_neg (by omega), if_pos (by omega)]; simp [h]
    · rw [if_pos (by omega)]; simp [h]
  constructor
  · rintro ⟨b, h1, h2⟩
    refine ⟨(hiPart b).2, ?_⟩
    have : joinAsg s (e, (hiPart b).2) = b := by
      rw [← joinAsg_eta b, joinAsg_inj]
      have hlo : loPart b = loPart (joinAsg s (e, x)) := by
        unfold loPart
        apply Prod.ext
        · funext i; exact h1 _ ((hq _).2 (by have := i.isLt; dsimp only; omega))
        · funext i; exact h1 _ ((hq _).2 (by have := i.isLt; dsimp only; omega))
      have hhi : (hiPart b).1 = (hiPart (joinAsg s (e, x))).1 := by
        unfold hiPart
        funext i; exact h1 _ ((hq _).2 (by have := i.isLt; dsimp only; omega))
      rw [loPart_join] at hlo
      rw [hiPart_join] at hhi
      rw [hiPart_join]
      exact ⟨hlo.symm, Prod.ext hhi.symm rfl⟩
    rw [this]; exact h2
  · rintro ⟨y, hy⟩
    refine ⟨joinAsg s (e, y), ?_, hy⟩
    intro i hi
    rw [hq] at hi
    unfold joinAsg
    split
    · rfl
    · split
      · rfl
      · rw [dif_pos (by omega), dif_pos (by omega)]

theorem cubePrimeEnv_univ (cube : CubeArr (2 * (ne + ns))) (f : Bdd (2 * (ne + ns)))
    (s : BState ne ns) (e : Val ne) (x : Val ns) :
    cuddUniv (cubePrimeEnv ne ns cube) f (joinAsg s (e, x)) = true ↔
      ∀ e', f (joinAsg s (e', x)) = true := by
  simp only [cuddUniv, decide_eq_true_eq]
  have hq : ∀ i : Fin (2 * (ne + ns)), cubePrimeEnv ne ns cube i ≠ 1 ↔
      ¬ (ne + ns ≤ i.val ∧ i.val < 2 * ne + ns) := by
    intro i
    have := i.isLt
    unfold cubePrimeEnv fillRange
    by_cases h : ne + ns ≤ i.val ∧ i.val < 2 * ne + ns
    · rw [if_pos h]; simp [h]
    · rw [if_neg h, if_pos (by omega)]; simp only [h]; simp
  constructor
  · intro h e'
    apply h
    intro i hi
    rw [hq] at hi
    unfold joinAsg
    split
    · rfl
    · split
      · rfl
      · rw [dif_neg (by omega), dif_neg (by omega)]
  · intro h b h1
    have : joinAsg s ((hiPart b).1, x) = b := by
      rw [← joinAsg_eta b, joinAsg_inj]
      have hlo : loPart b = loPart (joinAsg s (e, x)) := by
        unfold loPart
        apply Prod.ext
        · funext i; exact h1 _ ((hq _).2 (by have := i.isLt; dsimp only; omega))
        · funext i; exact h1 _ ((hq _).2 (by have := i.isLt; dsimp only; omega))
      have hhi : (hiPart b).2 = (hiPart (joinAsg s (e, x))).2 := by
        unfold hiPart
        funext i; exact h1 _ ((hq _).2 (by have := i.isLt; dsimp only; omega))
      rw [loPart_join] at hlo
      rw [hiPart_join] at hhi
      rw [hiPart_join]
      exact ⟨hlo.symm, Prod.ext rfl hhi.symm⟩
    rw [← this]; exact h _

theorem cuddVarMap_join (f : Bdd (2 * (ne + ns))) (s t : BState ne ns) :
    cuddVarMap f (joinAsg s t) = f (joinAsg t s) := by
  unfold cuddVarMap
  congr 1
  funext i
  have := i.isLt
  split
  · rename_i h
    unfold joinAsg
    dsimp only
    rw [dif_neg (by omega), dif_neg (by omega)]
    by_cases h1 : i.val < ne
    · rw [dif_pos (by omega), dif_pos h1]; exact val_congr _ (by dsimp only; omega)
    · rw [dif_neg (by omega), dif_neg h1, dif_pos h]; exact val_congr _ (by dsimp only; omega)
  · rename_i h
    unfold joinAsg
    dsimp only
    rw [dif_neg (show ¬ i.val < ne by omega), dif_neg (show ¬ i.val < ne + ns by omega)]
    by_cases h1 : i.val < ne + ns + ne
    · rw [dif_pos (by omega), dif_pos h1]
    · rw [dif_neg (by omega), dif_pos (by omega), dif_neg h1]; exact val_congr _ (by dsimp only; omega)

/-- C13, in general: the operator quantifies the primed environment universally under ENVTRANS and
the primed system existentially under SYSTRANS, whatever the scratch array holds. -/
theorem existsmodal_general (cube : CubeArr (2 * (ne + ns))) (C etrans strans : Bdd (2 * (ne + ns)))
    (s : BState ne ns) (e : Val ne) (x : Val ns) :
    computeExistsmodal ne ns cube C etrans strans (joinAsg s (e, x)) = true ↔
      ∀ e', etrans (joinAsg s (e', x)) = true →
        ∃ y, strans (joinAsg s (e', y)) = true ∧ C (joinAsg (e', y) s) = true := by
  unfold computeExistsmodal
  rw [cubePrimeEnv_univ]
  apply forall_congr'
  intro e'
  simp only [cuddOr, cuddNot, Bool.or_eq_true, Bool.not_eq_true']
  rw [cubePrimeSys_exist]
  simp only [cuddAnd, Bool.and_eq_true, cuddVarMap_join]
  cases etrans (joinAsg s (e', x)) <;> simp

/-- The game played on the bits, given the transition BDDs. -/
def bitGame (etrans strans : Bdd (2 * (ne + ns))) : Game (Val ne) (Val ns) where
  etr s e := etrans (joinAsg s (e, fun _ => false))
  str s t := strans (joinAsg s t)

/-- The states at which a BDD over unprimed variables is true. -/
def statesOf (f : Bdd (2 * (ne + ns))) : Finset (BState ne ns) :=
  Finset.univ.filter fun s => f (joinAsg s s) = true

theorem mem_statesOf {f : Bdd (2 * (ne + ns))} (h : NoPrimed f) (s t : BState ne ns) :
    s ∈ statesOf f ↔ f (joinAsg s t) = true := by
  simp only [statesOf, Finset.mem_filter, Finset.mem_univ, true_and]
  rw [h s s t]

/-- C13. When `C` is over unprimed variables and ENVTRANS does not mention primed system variables
(enforced by `check_gr1c_form`), `compute_existsmodal` is the controllable predecessor, and its result
is again over unprimed variables. -/
theorem existsmodal_exact (cube : CubeArr (2 * (ne + ns))) (C etrans strans : Bdd (2 * (ne + ns)))
    (hC : NoPrimed C) (hE : NoPrimedSys etrans) (s t : BState ne ns) :
    computeExistsmodal ne ns cube C etrans strans (joinAsg s t) = true ↔
      ∀ e', (bitGame etrans strans).etr s e' = true →
        ∃ y, (bitGame etrans strans).str s (e', y) = true ∧ (e', y) ∈ statesOf C := by
  obtain ⟨e, x⟩ := t
  rw [existsmodal_general]
  apply forall_congr'
  intro e'
  rw [show (bitGame etrans strans).etr s e' = etrans (joinAsg s (e', x)) from hE _ _ _ _]
  apply imp_congr_right
  intro _
  apply exists_congr
  intro y
  rw [mem_statesOf hC _ s]
  rfl

theorem existsmodal_noPrimed (cube : CubeArr (2 * (ne + ns))) (C etrans strans : Bdd (2 * (ne + ns)))
    (hC : NoPrimed C) (hE : NoPrimedSys etrans) :
    NoPrimed (computeExistsmodal ne ns cube C etrans strans) := by
  intro s t t'
  rw [Bool.eq_iff_iff, existsmodal_exact cube C etrans strans hC hE,
    existsmodal_exact cube C etrans strans hC hE]

/-- C13 as used by the fixpoint model: the set computed by the BDD operations is `pre`. -/
theorem existsmodal_pre (cube : CubeArr (2 * (ne + ns))) (C etrans strans : Bdd (2 * (ne + ns)))
    (hC : NoPrimed C) (hE : NoPrimedSys etrans) :
    statesOf (computeExistsmodal ne ns cube C etrans strans) =
      pre (bitGame etrans strans) (statesOf C) := by
  ext s
  rw [mem_statesOf (existsmodal_noPrimed cube C etrans strans hC hE) s s,
    existsmodal_exact cube C etrans strans hC hE]
  simp [pre]

/-! ## C50 -/

theorem vec_length {k : ℕ} (v : Val k) : (vec v).length = k := by simp [vec]

theorem stateVec_length (s : BState ne ns) : (stateVec s).length = ne + ns := by
  simp [stateVec, vec_length]

/-- C50. `state_to_BDD` is true exactly for assignments that agree with the state at the given
positions. -/
theorem state_to_BDD_exact {N : ℕ} (state : List ℕ) (offset : ℕ) (h : offset + state.length ≤ N)
    (a : Asg N) :
    stateToBdd state offset a = true ↔
      ∀ k (hk : k < state.length), a ⟨offset + k, by omega⟩ = (state[k] != 0) := by
  unfold stateToBdd
  rw [stateToBddLoop_spec offset state 0 _ (by omega)]
  simp only [true_and, Nat.add_zero]
  exact ⟨fun h' k hk => h' k hk (by omega), fun h' k hk _ => h' k hk⟩

/-- C50. `state_to_cof` fixes the given positions to the values of a 0-1 state and leaves the other
variables free, whatever the scratch array holds. -/
theorem state_to_cof_exact {N : ℕ} (cube : CubeArr N) (state : List ℕ) (f : Bdd N) (offset : ℕ)
    (h01 : ∀ x ∈ state, x ≤ 1) (a : Asg N) :
    stateToCof cube state f offset a =
      f fun i => if h : offset ≤ i.val ∧ i.val - offset < state.length
        then state[i.val - offset]'h.2 != 0 else a i := by
  unfold stateToCof cuddCofactor
  congr 1
  funext i
  unfold storeAt fillRange
  have hi : 0 ≤ i.val ∧ i.val < N := ⟨Nat.zero_le _, i.isLt⟩
  rw [if_pos hi]
  by_cases h1 : offset ≤ i.val
  · by_cases h2 : i.val - offset < state.length
    · rw [dif_pos ⟨h1, h2⟩, if_pos h1, List.getElem?_eq_getElem h2]
      have := h01 _ (List.getElem_mem h2)
      simp only [Option.getD_some]
      generalize state[i.val - offset] = x at *
      have : x = 0 ∨ x = 1 := by omega
      rcases this with rfl | rfl <;> simp
    · rw [dif_neg (by tauto), if_pos h1, List.getElem?_eq_none (by omega)]; simp
  · rw [dif_neg (by tauto), if_neg h1]; simp

theorem stateVec_01 (s : BState ne ns) : ∀ x ∈ stateVec s, x ≤ 1 := by
  intro x hx
  simp only [stateVec, vec, List.mem_append, List.mem_ofFn] at hx
  rcases hx with ⟨i, rfl⟩ | ⟨i, rfl⟩
  · cases s.1 i <;> simp
  · cases s.2 i <;> simp

theorem stateVec_get (s : BState ne ns) (i : ℕ) (h : i < (stateVec s).length) :
    ((stateVec s)[i] != 0) =
      (if h1 : i < ne then s.1 ⟨i, h1⟩ else s.2 ⟨i - ne, by rw [stateVec_length] at h; omega⟩) := by
  simp only [stateVec]
  split
  · rename_i h1
    rw [List.getElem_append_left (by rw [vec_length]; exact h1)]
    simp only [vec, List.getElem_ofFn]
    cases s.1 ⟨i, h1⟩ <;> simp
  · rename_i h1
    rw [List.getElem_append_right (by rw [vec_length]; omega)]
    simp only [vec, List.getElem_ofFn, List.length_ofFn]
    generalize s.2 _ = b
    cases b <;> simp

/-- Cofactoring by a state fixes the unprimed part. -/
theorem state_to_cof_join (cube : CubeArr (2 * (ne + ns))) (f : Bdd (2 * (ne + ns)))
    (s u t : BState ne ns) :
    stateToCof cube (stateVec s) f 0 (joinAsg u t) = f (joinAsg s t) := by
  rw [state_to_cof_exact _ _ _ _ (stateVec_01 s)]
  congr 1
  funext i
  have := i.isLt
  simp only [Nat.sub_zero, Nat.zero_le, true_and, stateVec_length]
  by_cases h : i.val < ne + ns
  · rw [dif_pos h, stateVec_get]
    unfold joinAsg
    by_cases h1 : i.val < ne
    · rw [dif_pos h1, dif_pos h1]
    · rw [dif_neg h1, dif_neg h1, dif_pos h]
  · rw [dif_neg h]
    have h1 : ¬ i.val < ne := by omega
    simp only [joinAsg, dif_neg h1, dif_neg h]

/-! ## C12 -/

theorem bitsAt_env (s t : BState ne ns) : bitsAt (joinAsg s t) (ne + ns) ne = vec t.1 := by
  unfold bitsAt sliceArr vec
  congr 1
  funext i
  have := i.isLt
  rw [dif_pos (by omega)]
  have := congrFun (congrArg Prod.fst (hiPart_join s t)) i
  unfold hiPart at this
  dsimp only at this ⊢
  rw [this]

theorem bitsAt_state (s t : BState ne ns) : bitsAt (joinAsg s t) 0 (ne + ns) = stateVec s := by
  apply List.ext_getElem
  · rw [bitsAt_length, stateVec_length]
  · intro i h1 h2
    have h3 := bitsAt_get (joinAsg s t) 0 (ne + ns) i h1 (by omega)
    have h4 := stateVec_get s i h2
    simp only [List.get_eq_getElem] at h3
    rw [h3]
    have h5 := stateVec_01 s _ (List.getElem_mem h2)
    have h6 : joinAsg s t ⟨0 + i, by rw [bitsAt_length] at h1; omega⟩ = ((stateVec s)[i] != 0) := by
      rw [h4]
      unfold joinAsg
      rw [stateVec_length] at h2
      simp only [Nat.zero_add]
      by_cases h7 : i < ne
      · rw [dif_pos h7, dif_pos h7]
      · rw [dif_neg h7, dif_neg h7, dif_pos h2]
    rw [h6]
    generalize (stateVec s)[i] = x at *
    have : x = 0 ∨ x = 1 := by omega
    rcases this with rfl | rfl <;> simp

theorem bitsAt_env0 (s t : BState ne ns) : bitsAt (joinAsg s t) 0 ne = vec s.1 := by
  unfold bitsAt sliceArr vec
  congr 1
  funext i
  have := i.isLt
  rw [dif_pos (by omega)]
  unfold joinAsg
  dsimp only
  rw [dif_pos (by omega)]
  simp

theorem vec_inj {k : ℕ} {v w : Val k} (h : vec v = vec w) : v = w := by
  have := List.ofFn_injective h
  funext i
  have := congrFun this i
  cases hv : v i <;> cases hw : w i <;> simp [hv, hw] at this ⊢

/-- C12, for any relation: each environment valuation for which some primed system valuation satisfies
the relation is listed exactly once. -/
theorem get_env_moves_general (cover : Bdd (2 * (ne + ns)) → List (CubeArr (2 * (ne + ns))))
    (hcov : ∀ f, IsCover f (cover f)) (cube : CubeArr (2 * (ne + ns)))
    (etrans : Bdd (2 * (ne + ns))) (s : BState ne ns) :
    ∃ l : List (Val ne), getEnvMoves ne ns cover cube (stateVec s) etrans = some (l.map vec) ∧
      l.Nodup ∧ ∀ e, e ∈ l ↔ ∃ x, etrans (joinAsg s (e, x)) = true := by
  let f := cuddExist (cubePrimeSys ne ns (storeAt 0 (stateVec s) (fillRange 0 (2 * (ne + ns)) 2 cube)))
    (stateToCof cube (stateVec s) etrans 0)
  have hf : ∀ u t : BState ne ns, f (joinAsg u t) = true ↔ ∃ x, etrans (joinAsg s (t.1, x)) = true := by
    intro u t
    obtain ⟨e, x⟩ := t
    show cuddExist _ _ _ = _ ↔ _
    rw [cubePrimeSys_exist]
    simp only [state_to_cof_join]
  have hind : ∀ i : Fin (2 * (ne + ns)), ¬ (ne + ns ≤ i.val ∧ i.val < ne + ns + ne) → Indep f i := by
    intro i hi a b hab
    rw [Bool.eq_iff_iff, ← joinAsg_eta a, ← joinAsg_eta b, hf, hf]
    have h1 : (hiPart a).1 = (hiPart b).1 := by
      unfold hiPart
      funext k
      apply hab
      intro h
      apply hi
      rw [← h]
      have := k.isLt
      dsimp only
      omega
    rw [h1]
  obtain ⟨l, hl1, hl2, hl3⟩ := enumCover_exact (hcov f) (off := ne + ns) (len := ne) (by omega) hind
  have hl4 : ∀ v, v ∈ l ↔ ∃ e, (∃ x, etrans (joinAsg s (e, x)) = true) ∧ v = vec e := by
    intro v
    rw [hl3]
    constructor
    · rintro ⟨a, ha, rfl⟩
      rw [← joinAsg_eta a, hf] at ha
      refine ⟨(hiPart a).1, ha, ?_⟩
      conv_lhs => rw [← joinAsg_eta a]
      exact bitsAt_env _ _
    · rintro ⟨e, he, rfl⟩
      exact ⟨joinAsg s (e, fun _ => false), (hf _ _).2 he, (bitsAt_env s (e, fun _ => false)).symm⟩
  have hmap : ∀ l : List (List ℕ), (∀ v ∈ l, ∃ e : Val ne, v = vec e) → ∃ r : List (Val ne), r.map vec = l := by
    intro l
    induction l with
    | nil => intro _; exact ⟨[], rfl⟩
    | cons v l ih =>
      intro h
      obtain ⟨e, rfl⟩ := h v List.mem_cons_self
      obtain ⟨r, rfl⟩ := ih fun w hw => h w (List.mem_cons_of_mem _ hw)
      exact ⟨e :: r, rfl⟩
  obtain ⟨r, rfl⟩ := hmap l fun v hv => by
    obtain ⟨e, _, h⟩ := (hl4 v).1 hv
    exact ⟨e, h⟩
  refine ⟨r, hl1, hl2.of_map _, fun e => ?_⟩
  constructor
  · intro h
    obtain ⟨e', h1, h2⟩ := (hl4 (vec e)).1 (List.mem_map_of_mem h)
    rw [vec_inj h2]; exact h1
  · intro h
    have := (hl4 (vec e)).2 ⟨e, h, rfl⟩
    obtain ⟨e', h1, h2⟩ := List.mem_map.1 this
    rw [← vec_inj h2]; exact h1

/-- C12. From every state, for every cover the BDD library may deliver, `get_env_moves` lists each
environment valuation allowed by ENVTRANS exactly once and nothing else. -/
theorem get_env_moves_exact (cover : Bdd (2 * (ne + ns)) → List (CubeArr (2 * (ne + ns))))
    (hcov : ∀ f, IsCover f (cover f)) (cube : CubeArr (2 * (ne + ns)))
    (etrans : Bdd (2 * (ne + ns))) (hE : NoPrimedSys etrans) (s : BState ne ns) :
    ∃ l : List (Val ne), getEnvMoves ne ns cover cube (stateVec s) etrans = some (l.map vec) ∧
      l.Nodup ∧ ∀ e, e ∈ l ↔ etrans (joinAsg s (e, fun _ => false)) = true := by
  obtain ⟨l, h1, h2, h3⟩ := get_env_moves_general cover hcov cube etrans s
  refine ⟨l, h1, h2, fun e => ?_⟩
  rw [h3]
  constructor
  · rintro ⟨x, hx⟩; rw [hE s e _ x]; exact hx
  · intro h; exact ⟨_, h⟩

/-! ## The oracle of `synthesize`, built from cube covers

`Verif.Synth` takes environment moves, enumerations and picks as an oracle assumed valid. Here the
oracle is built from the cube-level code, so that only `Cudd_ForeachCube` and `malloc` remain
assumed. -/

/-- The BDD of a set of states. -/
def bddOf (A : Finset (BState ne ns)) : Bdd (2 * (ne + ns)) := fun a => decide (loPart a ∈ A)

/-- Read an array of 0-1 values. -/
def valOf (k : ℕ) (v : List ℕ) : Val k := fun i => v.getD i.val 0 != 0

/-- Read a state array. -/
def stateOf (v : List ℕ) : BState ne ns := (valOf ne v, valOf ns (v.drop ne))

/-- The cube for abstracting everything but the unprimed environment,
`/repo/src/solve.c` 303-306. -/
def cubeAllButEnv (ne ns : ℕ) (cube : CubeArr (2 * (ne + ns))) : CubeArr (2 * (ne + ns)) :=
  fillRange ne (2 * (ns + ne)) 1 (fillRange 0 ne 2 cube)

/-- `malloc` and `Cudd_ForeachCube` (both may answer differently at each call) give the oracle:
picks are the first cube with don't-cares set to 0, moves are `get_env_moves` (one move without
environment variables, `/repo/src/solve.c` 540-547), enumerations are as at
`/repo/src/solve.c` 268-290 and 303-345. -/
def bitOracle (malloc : ℕ → List ℕ → ℕ)
    (cover : ℕ → Bdd (2 * (ne + ns)) → List (CubeArr (2 * (ne + ns))))
    (cube : CubeArr (2 * (ne + ns))) (etrans : Bdd (2 * (ne + ns))) : Oracle (Val ne) (Val ns) where
  alloc := malloc
  pick c A :=
    match cover c (bddOf A) with
    | [] => (fun _ => false, fun _ => false)
    | g :: _ => stateOf (initializeCube (sliceArr g 0 (ne + ns)))
  moves c s :=
    if ne = 0 then [fun _ => false]
    else ((getEnvMoves ne ns (cover c) cube (stateVec s) etrans).getD []).map (valOf ne)
  enum A := ((enumCover 0 (ne + ns) (cover 0 (bddOf A))).getD []).map stateOf
  enumEnv A :=
    ((enumCover 0 ne (cover 0 (cuddExist (cubeAllButEnv ne ns cube) (bddOf A)))).getD []).map (valOf ne)

theorem valOf_vec {k : ℕ} (v : Val k) : valOf k (vec v) = v := by
  funext i
  unfold valOf vec
  rw [List.getD_eq_getElem?_getD, List.getElem?_eq_getElem (by simp)]
  simp only [List.getElem_ofFn, Option.getD_some]
  cases v i <;> rfl

theorem stateOf_stateVec (s : BState ne ns) : (stateOf (stateVec s) : BState ne ns) = s := by
  have h : valOf ne (vec s.1 ++ vec s.2) = valOf ne (vec s.1) := by
    funext i
    unfold valOf
    rw [List.getD_eq_getElem?_getD, List.getD_eq_getElem?_getD,
      List.getElem?_append_left (by rw [vec_length]; exact i.isLt)]
  unfold stateOf stateVec
  rw [h, List.drop_left' (vec_length _), valOf_vec, valOf_vec]

theorem bddOf_join (A : Finset (BState ne ns)) (s t : BState ne ns) :
    bddOf A (joinAsg s t) = true ↔ s ∈ A := by
  simp [bddOf, loPart_join]

theorem bddOf_indep (A : Finset (BState ne ns)) (i : Fin (2 * (ne + ns))) (hi : ne + ns ≤ i.val) :
    Indep (bddOf A) i := by
  intro a b hab
  unfold bddOf
  have : loPart a = loPart b := by
    unfold loPart
    apply Prod.ext
    · funext k; apply hab; intro h; rw [← h] at hi; have := k.isLt; dsimp only at hi; omega
    · funext k; apply hab; intro h; rw [← h] at hi; have := k.isLt; dsimp only at hi; omega
  rw [this]

theorem abstract_env (cube : CubeArr (2 * (ne + ns))) (A : Finset (BState ne ns))
    (s t : BState ne ns) :
    cuddExist (cubeAllButEnv ne ns cube) (bddOf A) (joinAsg s t) = true ↔ ∃ x, (s.1, x) ∈ A := by
  simp only [cuddExist, decide_eq_true_eq]
  have hq : ∀ i : Fin (2 * (ne + ns)), cubeAllButEnv ne ns cube i ≠ 1 ↔ i.val < ne := by
    intro i
    have := i.isLt
    unfold cubeAllButEnv fillRange
    by_cases h : i.val < ne
    · rw [if_neg (by omega), if_pos (by omega)]; simp [h]
    · rw [if_pos (by omega)]; simp [h]
  constructor
  · rintro ⟨b, h1, h2⟩
    rw [← joinAsg_eta b, bddOf_join] at h2
    have : (loPart b).1 = s.1 := by
      have h3 : (loPart b).1 = (loPart (joinAsg s t)).1 := by
        unfold loPart
        funext i; exact h1 _ ((hq _).2 i.isLt)
      rw [h3, loPart_join]
    exact ⟨(loPart b).2, by rw [← this]; exact h2⟩
  · rintro ⟨x, hx⟩
    refine ⟨joinAsg (s.1, x) t, ?_, (bddOf_join _ _ _).2 hx⟩
    intro i hi
    rw [hq] at hi
    unfold joinAsg
    rw [dif_pos hi, dif_pos hi]

/-- The oracle built from the cube-level code is valid: fresh addresses from `malloc` and cube covers
from CUDD are all that is assumed. Without environment variables ENVTRANS must hold everywhere,
since the C code then ignores it. -/
theorem bitOracle_valid (malloc : ℕ → List ℕ → ℕ) (hm : ∀ c ids, malloc c ids ∉ ids)
    (cover : ℕ → Bdd (2 * (ne + ns)) → List (CubeArr (2 * (ne + ns))))
    (hcov : ∀ c f, IsCover f (cover c f)) (cube : CubeArr (2 * (ne + ns)))
    (etrans strans : Bdd (2 * (ne + ns))) (hE : NoPrimedSys etrans)
    (h0 : ne = 0 → ∀ a, etrans a = true) :
    (bitOracle malloc cover cube etrans).Valid (bitGame etrans strans) := by
  have hmoves : ∀ c s, ((bitOracle malloc cover cube etrans).moves c s).Nodup ∧
      ∀ e, e ∈ (bitOracle malloc cover cube etrans).moves c s ↔
        (bitGame etrans strans).etr s e = true := by
    intro c s
    by_cases hn : ne = 0
    · have : (bitOracle malloc cover cube etrans).moves c s = [fun _ => false] := by
        simp only [bitOracle]; rw [if_pos hn]
      rw [this]
      refine ⟨List.nodup_singleton _, fun e => ?_⟩
      rw [List.mem_singleton]
      constructor
      · intro _; exact h0 hn _
      · intro _; funext i; exact absurd i.isLt (by omega)
    · obtain ⟨l, h1, h2, h3⟩ := get_env_moves_exact (cover c) (hcov c) cube etrans hE s
      have : (bitOracle malloc cover cube etrans).moves c s = l := by
        simp only [bitOracle]
        rw [if_neg hn, h1]
        simp only [Option.getD_some, List.map_map]
        have : (valOf ne ∘ vec : Val ne → Val ne) = id := by funext v; exact valOf_vec v
        rw [this, List.map_id]
      rw [this]
      exact ⟨h2, h3⟩
  have henum : ∀ A, ((bitOracle malloc cover cube etrans).enum A).Nodup ∧
      ∀ s, s ∈ (bitOracle malloc cover cube etrans).enum A ↔ s ∈ A := by
    intro A
    obtain ⟨l, h1, h2, h3⟩ := enumCover_exact (hcov 0 (bddOf A)) (off := 0) (len := ne + ns) (by omega)
      (fun i hi => bddOf_indep A i (by omega))
    have h4 : ∀ v, v ∈ l ↔ ∃ s ∈ A, v = stateVec s := by
      intro v
      rw [h3]
      constructor
      · rintro ⟨a, ha, rfl⟩
        rw [← joinAsg_eta a, bddOf_join] at ha
        refine ⟨_, ha, ?_⟩
        conv_lhs => rw [← joinAsg_eta a]
        exact bitsAt_state _ _
      · rintro ⟨s, hs, rfl⟩
        exact ⟨joinAsg s s, (bddOf_join _ _ _).2 hs, (bitsAt_state s s).symm⟩
    have he : (bitOracle malloc cover cube etrans).enum A = l.map stateOf := by
      simp only [bitOracle]; rw [h1]; rfl
    rw [he]
    constructor
    · apply List.Nodup.map_on _ h2
      intro x hx y hy hxy
      obtain ⟨s, _, rfl⟩ := (h4 x).1 hx
      obtain ⟨t, _, rfl⟩ := (h4 y).1 hy
      rw [stateOf_stateVec, stateOf_stateVec] at hxy
      rw [hxy]
    · intro s
      rw [List.mem_map]
      constructor
      · rintro ⟨v, hv, rfl⟩
        obtain ⟨t, ht, rfl⟩ := (h4 v).1 hv
        rw [stateOf_stateVec]; exact ht
      · intro hs
        exact ⟨stateVec s, (h4 _).2 ⟨s, hs, rfl⟩, stateOf_stateVec s⟩
  have henv : ∀ A, ((bitOracle malloc cover cube etrans).enumEnv A).Nodup ∧
      ∀ e, e ∈ (bitOracle malloc cover cube etrans).enumEnv A ↔ ∃ x, (e, x) ∈ A := by
    intro A
    have hind : ∀ i : Fin (2 * (ne + ns)), ¬ (0 ≤ i.val ∧ i.val < 0 + ne) →
        Indep (cuddExist (cubeAllButEnv ne ns cube) (bddOf A)) i := by
      intro i hi
      apply cuddExist_indep
      left
      unfold cubeAllButEnv fillRange
      rw [if_pos (by have := i.isLt; omega)]
    obtain ⟨l, h1, h2, h3⟩ := enumCover_exact
      (hcov 0 (cuddExist (cubeAllButEnv ne ns cube) (bddOf A))) (off := 0) (len := ne) (by omega) hind
    have h4 : ∀ v, v ∈ l ↔ ∃ e : Val ne, (∃ x, (e, x) ∈ A) ∧ v = vec e := by
      intro v
      rw [h3]
      constructor
      · rintro ⟨a, ha, rfl⟩
        rw [← joinAsg_eta a, abstract_env] at ha
        refine ⟨_, ha, ?_⟩
        conv_lhs => rw [← joinAsg_eta a]
        exact bitsAt_env0 _ _
      · rintro ⟨e, ⟨x, hx⟩, rfl⟩
        exact ⟨joinAsg (e, x) (e, x), (abstract_env _ _ _ _).2 ⟨x, hx⟩, (bitsAt_env0 (e, x) (e, x)).symm⟩
    have he : (bitOracle malloc cover cube etrans).enumEnv A = l.map (valOf ne) := by
      simp only [bitOracle]; rw [h1]; rfl
    rw [he]
    constructor
    · apply List.Nodup.map_on _ h2
      intro x hx y hy hxy
      obtain ⟨s, _, rfl⟩ := (h4 x).1 hx
      obtain ⟨t, _, rfl⟩ := (h4 y).1 hy
      rw [valOf_vec, valOf_vec] at hxy
      rw [hxy]
    · intro s
      rw [List.mem_map]
      constructor
      · rintro ⟨v, hv, rfl⟩
        obtain ⟨t, ht, rfl⟩ := (h4 v).1 hv
        rw [valOf_vec]; exact ht
      · intro hs
        exact ⟨vec s, (h4 _).2 ⟨s, hs, rfl⟩, valOf_vec s⟩
  refine ⟨hm, ?_, fun c s => (hmoves c s).1, fun c s => (hmoves c s).2, fun A => (henum A).1,
    fun A => (henum A).2, fun A => (henv A).1, fun A => (henv A).2⟩
  intro c A ⟨s, hs⟩
  have hc := hcov c (bddOf A)
  obtain ⟨g, hg, _⟩ := (hc.cover (joinAsg s s)).1 ((bddOf_join _ _ _).2 hs)
  show (match cover c (bddOf A) with
    | [] => ((fun _ => false, fun _ => false) : BState ne ns)
    | g :: _ => stateOf (initializeCube (sliceArr g 0 (ne + ns)))) ∈ A
  cases hl : cover c (bddOf A) with
  | nil => rw [hl] at hg; simp at hg
  | cons g' r =>
    have hg' : g' ∈ cover c (bddOf A) := by rw [hl]; exact List.mem_cons_self
    have hon : OnlyIn g' 0 (ne + ns) := fun i hi => hc.support i (bddOf_indep A i (by omega)) g' hg'
    have hin : initializeCube (sliceArr g' 0 (ne + ns)) ∈ expandCube (sliceArr g' 0 (ne + ns)) := by
      have h := (expandCube_run (sliceArr g' 0 (ne + ns))).2.1
      exact List.mem_of_mem_head? h
    obtain ⟨a, ha⟩ := mem_expandCube_bits (by omega) (hc.le2 g' hg') hin
    rw [ha] at hin
    have hm := (matches_iff (by omega) hon a).2 hin
    have hA := (hc.cover a).2 ⟨g', hg', hm⟩
    rw [← joinAsg_eta a, bddOf_join] at hA
    dsimp only
    rw [ha, ← joinAsg_eta a, bitsAt_state, stateOf_stateVec]
    exact hA

/-! ## Covers exist -/

/-- A cover by minterms over the variables a function depends on; shows that the assumption on
`Cudd_ForeachCube` can be met. -/
noncomputable def mintermCover {N : ℕ} (f : Bdd N) : List (CubeArr N) :=
  open Classical in
  ((Finset.univ : Finset (Asg N)).filter fun a => f a = true ∧ ∀ i, Indep f i → a i = false).toList.map
    fun a i => if Indep f i then 2 else (a i).toNat

theorem indep_finset {N : ℕ} (f : Bdd N) (T : Finset (Fin N)) (hT : ∀ i ∈ T, Indep f i) (a b : Asg N)
    (hab : ∀ i, i ∉ T → a i = b i) : f a = f b := by
  induction T using Finset.induction_on generalizing a with
  | empty => congr 1; funext i; exact hab i (by simp)
  | insert j T hj ih =>
    have h1 : f a = f (Function.update a j (b j)) :=
      hT j (Finset.mem_insert_self _ _) _ _ fun i hi => (Function.update_of_ne hi _ _).symm
    rw [h1]
    apply ih (fun i hi => hT i (Finset.mem_insert_of_mem hi))
    intro i hi
    by_cases hij : i = j
    · subst hij; simp
    · rw [Function.update_of_ne hij]; apply hab; simp [hij, hi]

theorem mintermCover_isCover {N : ℕ} (f : Bdd N) : IsCover f (mintermCover f) := by
  classical
  have hmem : ∀ c, c ∈ mintermCover f ↔ ∃ a : Asg N, (f a = true ∧ ∀ i, Indep f i → a i = false) ∧
      (fun i => if Indep f i then 2 else (a i).toNat) = c := by
    intro c
    unfold mintermCover
    rw [List.mem_map]
    constructor
    · rintro ⟨a, ha, h⟩
      refine ⟨a, by simpa using ha, ?_⟩
      rw [← h]
    · rintro ⟨a, ha, h⟩
      refine ⟨a, by simpa using ha, ?_⟩
      rw [← h]
  refine ⟨?_, ?_, ?_, ?_⟩
  · intro c hc i
    obtain ⟨a, _, rfl⟩ := (hmem c).1 hc
    dsimp only
    split
    · exact le_rfl
    · cases a i <;> simp
  · intro a
    constructor
    · intro h
      let b : Asg N := fun i => if Indep f i then false else a i
      have hb : f b = f a := by
        apply indep_finset f (Finset.univ.filter fun i => Indep f i) (by simp)
        intro i hi
        simp only [Finset.mem_filter, Finset.mem_univ, true_and] at hi
        show (if Indep f i then false else a i) = a i
        rw [if_neg hi]
      refine ⟨_, (hmem _).2 ⟨b, ⟨by rw [hb]; exact h, fun i hi => if_pos hi⟩, rfl⟩, ?_⟩
      intro i
      by_cases hi : Indep f i
      · left; simp [hi]
      · right; simp [hi, b]
    · rintro ⟨c, hc, hm⟩
      obtain ⟨b, ⟨hb, _⟩, rfl⟩ := (hmem c).1 hc
      rw [← hb]
      apply indep_finset f (Finset.univ.filter fun i => Indep f i) (by simp)
      intro i hi
      simp only [Finset.mem_filter, Finset.mem_univ, true_and] at hi
      have := hm i
      simp only [if_neg hi] at this
      cases ha : a i <;> cases hb : b i <;> simp [ha, hb] at this ⊢
  · unfold mintermCover
    rw [List.pairwise_map]
    apply List.Nodup.pairwise_of_forall_ne (Finset.nodup_toList _)
    intro a ha b hb hab x ⟨h1, h2⟩
    apply hab
    rw [Finset.mem_toList] at ha hb
    simp only [Finset.mem_filter, Finset.mem_univ, true_and] at ha hb
    funext i
    by_cases hi : Indep f i
    · rw [ha.2 i hi, hb.2 i hi]
    · have h3 := h1 i
      have h4 := h2 i
      simp only [if_neg hi] at h3 h4
      cases hx : a i <;> cases hy : b i <;> cases hz : x i <;> simp [hx, hy, hz] at h3 h4 ⊢
  · intro i hi c hc
    obtain ⟨a, _, rfl⟩ := (hmem c).1 hc
    simp [hi]

/-! ## Examples -/

namespace BEx

/-- One environment and one system variable: `e -> e'`, `x' = e'`. -/
def et : Bdd (2 * (1 + 1)) := fun a => !a 0 || a 2
def st : Bdd (2 * (1 + 1)) := fun a => a 3 == a 2
/-- `C` is `e & x`. -/
def goal : Bdd (2 * (1 + 1)) := fun a => a 0 && a 1
def s00 : BState 1 1 := (fun _ => false, fun _ => false)
def s10 : BState 1 1 := (fun _ => true, fun _ => false)

theorem et_ok : NoPrimedSys (ne := 1) (ns := 1) et := by unfold NoPrimedSys; decide +kernel
theorem goal_ok : NoPrimed (ne := 1) (ns := 1) goal := by unfold NoPrimed; decide +kernel

/-- From `e` the environment must keep `e`, and the system can answer with `x`; from `!e` it may stay
outside `C`. -/
example : s10 ∈ statesOf (computeExistsmodal 1 1 (fun _ => 7) goal et st) ∧
    s00 ∉ statesOf (computeExistsmodal 1 1 (fun _ => 7) goal et st) := by decide +kernel

/-- A cover as CUDD may deliver it, for the abstracted relation at `s00` and `s10`. -/
def cov : Bdd (2 * (1 + 1)) → List (CubeArr (2 * (1 + 1))) := fun f =>
  if f (fun _ => false) then [fun _ => 2] else [fun i => if i = 2 then 1 else 2]

example : getEnvMoves 1 1 cov (fun _ => 0) (stateVec s00) et = some [[0], [1]] := by decide +kernel
example : getEnvMoves 1 1 cov (fun _ => 0) (stateVec s10) et = some [[1]] := by decide +kernel

/-- The hypotheses of `bitOracle_valid` can be met for the example. -/
example : (bitOracle (fun _ ids => ids.sum + 1) (fun _ => mintermCover) (fun _ => 0) et).Valid
    (bitGame (ne := 1) (ns := 1) et st) :=
  bitOracle_valid _ (by
    intro _ ids h
    have : ∀ l : List ℕ, ∀ x ∈ l, x ≤ l.sum := fun l x hx => List.le_sum_of_mem hx
    have := this ids _ h
    omega) _ (fun _ => mintermCover_isCover) _ et st et_ok (by decide)

example : stateToBdd (N := 4) [1, 0] 1 = fun a => a 1 && !a 2 := by decide +kernel

end BEx

end Gr1c
