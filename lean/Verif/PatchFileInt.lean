import Verif.PatchFileLemmas
import Verif.CompactLemmas

/-!
# Lemmas about the change file when there are integer variables
-/

namespace Gr1c

/-! ## Layout of the variables -/

theorem layoutFrom_append (A B : Decls) (off : ℕ) :
    layoutFrom off (A ++ B) = layoutFrom off A ++ layoutFrom (off + totalWidth A) B := by
  induction A generalizing off with
  | nil => simp [layoutFrom, totalWidth]
  | cons d A ih =>
    rw [List.cons_append, layoutFrom, layoutFrom, totalWidth_cons, ih, Nat.add_assoc]
    split <;> simp

theorem layoutFrom_bools {A : Decls} (h : ∀ d ∈ A, ¬ 0 ≤ d.2) (off : ℕ) : layoutFrom off A = [] := by
  induction A generalizing off with
  | nil => rfl
  | cons d A ih => rw [layoutFrom, if_neg (h d (by simp)), ih fun e he => h e (by simp [he])]

theorem totalWidth_bools {A : Decls} (h : ∀ d ∈ A, ¬ 0 ≤ d.2) : totalWidth A = A.length := by
  induction A with
  | nil => rfl
  | cons d A ih =>
    rw [totalWidth_cons, ih fun e he => h e (by simp [he]), declWidth, if_neg (h d (by simp)), List.length_cons]
    omega

theorem length_le_width (A : Decls) : A.length ≤ totalWidth A := by
  induction A with
  | nil => simp
  | cons d A ih => rw [totalWidth_cons, List.length_cons]; have := declWidth_pos d; omega

theorem layoutFrom_nil_iff {A : Decls} {off : ℕ} : layoutFrom off A = [] ↔ ∀ d ∈ A, ¬ 0 ≤ d.2 := by
  constructor
  · intro h
    induction A generalizing off with
    | nil => simp
    | cons d A ih =>
      rw [layoutFrom] at h
      split at h
      · cases h
      · rename_i hd
        intro e he
        rcases List.mem_cons.1 he with rfl | he
        · exact hd
        · exact ih h e he
  · exact fun h => layoutFrom_bools h off

theorem layoutFrom_shift (A : Decls) (off k : ℕ) :
    (layoutFrom (k + off) A).map (fun r => (r.1 - k, r.2)) = layoutFrom off A := by
  induction A generalizing off with
  | nil => rfl
  | cons d A ih =>
    rw [layoutFrom, layoutFrom]
    split
    · rw [List.map_cons, Nat.add_assoc, ih]
      simp
    · rw [Nat.add_assoc, ih]

theorem layoutFrom_below {A : Decls} {off : ℕ} : ∀ r ∈ layoutFrom off A, r.1 < off + totalWidth A := by
  induction A generalizing off with
  | nil => intro r hr; cases hr
  | cons d A ih =>
    intro r hr
    have hd := declWidth_pos d
    rw [layoutFrom] at hr
    rw [totalWidth_cons]
    split at hr
    · rcases List.mem_cons.1 hr with rfl | hr
      · simp only; omega
      · have := ih r hr; omega
    · have := ih r hr; omega

/-- The last variable, if any, is an integer. -/
def EndsInt (A : Decls) : Prop := ∀ d, A.getLast? = some d → 0 ≤ d.2

theorem endsInt_tail {d : Name × ℤ} {A : Decls} (h : EndsInt (d :: A)) : EndsInt A := by
  intro e he
  refine h e ?_
  cases A with
  | nil => cases he
  | cons a A => simpa using he

theorem split_last (R : Decls) : ∃ M T, R = M ++ T ∧ EndsInt M ∧ ∀ d ∈ T, ¬ 0 ≤ d.2 := by
  induction R using List.reverseRecOn with
  | nil => exact ⟨[], [], rfl, fun _ h => by simp at h, fun _ h => by simp at h⟩
  | append_singleton R d ih =>
    by_cases hd : 0 ≤ d.2
    · exact ⟨R ++ [d], [], by simp, fun e he => by simp at he; subst he; exact hd, by simp⟩
    · obtain ⟨M, T, rfl, h1, h2⟩ := ih
      refine ⟨M, T ++ [d], by simp, h1, fun e he => ?_⟩
      rcases List.mem_append.1 he with he | he
      · exact h2 e he
      · simp only [List.mem_singleton] at he; subst he; exact hd

theorem split_first {D : Decls} (h : ∃ d ∈ D, 0 ≤ d.2) : ∃ B d R, D = B ++ d :: R ∧ (∀ e ∈ B, ¬ 0 ≤ e.2) ∧ 0 ≤ d.2 := by
  induction D with
  | nil => simp at h
  | cons a D ih =>
    by_cases ha : 0 ≤ a.2
    · exact ⟨[], a, D, rfl, by simp, ha⟩
    · obtain ⟨d, hd, h0⟩ := h
      rcases List.mem_cons.1 hd with rfl | hd
      · exact absurd h0 ha
      · obtain ⟨B, e, R, rfl, h1, h2⟩ := ih ⟨d, hd, h0⟩
        refine ⟨a :: B, e, R, rfl, fun x hx => ?_, h2⟩
        rcases List.mem_cons.1 hx with rfl | hx
        · exact ha
        · exact h1 x hx

/-! ## Reading beyond the end -/

theorem expand_tail_ub {N : ℕ} (vs : List ℤ) (j : ℕ) (out : List (Option ℤ)) (h : vs.length < N - j) :
    expandStateLoop N vs [] j out = .ub := by
  induction vs generalizing j out with
  | nil =>
    rw [expandStateLoop, if_pos (by simp at h; omega)]
  | cons x vs ih =>
    simp only [List.length_cons] at h
    rw [expandStateLoop, if_pos (by omega)]
    exact ih (j + 1) _ (by omega)

/-- One integer variable at or before the current place. -/
theorem expand_jump {N : ℕ} {vs : List ℤ} {s w : ℕ} {rest : List (ℕ × ℕ)} {j : ℕ} {out : List (Option ℤ)} (hj : j < N) (hs : s ≤ j)
    (hw : 1 ≤ w) (h : ∀ vs' out', vs'.length + 1 = vs.length → expandStateLoop N vs' rest (s + w) out' = .ub) :
    expandStateLoop N vs ((s, w) :: rest) j out = .ub := by
  cases vs with
  | nil => rw [expandStateLoop, if_pos hj]
  | cons x vs =>
    rw [expandStateLoop, if_pos hj]
    rw [if_neg (by omega)]
    cases hb : intToBitvec x w with
    | ub => rfl
    | null =>
      exfalso
      unfold intToBitvec at hb
      split at hb
      · omega
      · split at hb <;> cases hb
    | ok frag =>
      simp only
      cases writeAt out s frag with
      | ok out' => exact h vs out' (by simp)
      | ub => rfl
      | null => rfl

theorem expand_run_ub {N : ℕ} {rest : List (ℕ × ℕ)} (A : Decls) (hA : EndsInt A) (off : ℕ) (hN : off + totalWidth A ≤ N)
    (vs : List ℤ) (out : List (Option ℤ))
    (h : ∀ vs' out', vs'.length + A.length = vs.length → expandStateLoop N vs' rest (off + totalWidth A) out' = .ub) :
    expandStateLoop N vs (layoutFrom off A ++ rest) off out = .ub := by
  induction A generalizing off vs out with
  | nil => exact h vs out (by simp)
  | cons d A ih =>
    have hd := declWidth_pos d
    rw [totalWidth_cons] at hN h
    rw [layoutFrom]
    by_cases h0 : 0 ≤ d.2
    · rw [if_pos h0, List.cons_append]
      refine expand_jump (by omega) le_rfl hd fun vs' out' hl => ?_
      refine ih (endsInt_tail hA) (off + declWidth d) (by omega) vs' out' fun vs'' out'' hl' => ?_
      rw [Nat.add_assoc]
      exact h vs'' out'' (by rw [List.length_cons]; omega)
    · rw [if_neg h0]
      cases vs with
      | nil => rw [expandStateLoop, if_pos (by omega)]
      | cons x vs =>
        have hne : layoutFrom (off + declWidth d) A ≠ [] := by
          intro hc
          rw [layoutFrom_nil_iff] at hc
          cases hl : A.getLast? with
          | none =>
            rw [List.getLast?_eq_none_iff] at hl
            subst hl
            exact h0 (hA d rfl)
          | some e => exact hc e (List.mem_of_getLast? hl) (endsInt_tail hA e hl)
        have hw1 : declWidth d = 1 := by unfold declWidth; rw [if_neg h0]
        have key := ih (endsInt_tail hA) (off + declWidth d) (by omega) vs (out.set off (some x)) fun vs'' out'' hl' => by
          rw [Nat.add_assoc]
          exact h vs'' out'' (by rw [List.length_cons, List.length_cons]; omega)
        cases hlay : layoutFrom (off + declWidth d) A with
        | nil => exact absurd hlay hne
        | cons r rs =>
          obtain ⟨s, w⟩ := r
          have := layoutFrom_ge A (off + declWidth d) (s, w) (by rw [hlay]; simp)
          simp only at this
          rw [hlay, hw1] at key
          simp only [List.cons_append] at key ⊢
          rw [expandStateLoop, if_pos (by omega), if_pos (by omega)]
          exact key

/-- **The array for two states.** The offsets of the second state are those of the first: with an integer variable in the second
part the loop reads beyond the end of the values. -/
theorem expand_twice_ub {D D' X : Decls} (hD : D = D' ++ X) (hint : ∃ d ∈ D', 0 ≤ d.2) (vs : List ℤ)
    (hl : vs.length = D.length + D'.length) :
    expandNonboolState vs (layoutFrom 0 D ++ layoutFrom 0 D') (totalWidth D + totalWidth D') = .ub := by
  obtain ⟨B, d, R', rfl, hB, h0⟩ := split_first hint
  obtain ⟨M', T', rfl, hM', hT'⟩ := split_last R'
  have hD2 : D = (B ++ d :: []) ++ (M' ++ T' ++ X) := by rw [hD]; simp
  obtain ⟨M, T, hM0, hM, hT⟩ := split_last (M' ++ T' ++ X)
  rw [hM0] at hD2
  have hDA : D = (B ++ d :: M) ++ T := by rw [hD2]; simp
  have hL1 : layoutFrom 0 D = layoutFrom 0 (B ++ d :: M) := by
    rw [hDA, layoutFrom_append, layoutFrom_bools hT, List.append_nil]
  have hL2 : layoutFrom 0 (B ++ d :: (M' ++ T')) = (B.length, declWidth d) :: layoutFrom (B.length + declWidth d) M' := by
    rw [layoutFrom_append, layoutFrom_bools hB, List.nil_append, layoutFrom, if_pos h0, layoutFrom_append, layoutFrom_bools hT',
      List.append_nil, totalWidth_bools hB]
    simp
  have hA1 : EndsInt (B ++ d :: M) := by
    intro e he
    cases M with
    | nil =>
      simp at he
      subst he
      exact h0
    | cons m M =>
      refine hM e ?_
      rw [List.getLast?_append] at he
      simpa using he
  have hd := declWidth_pos d
  have w1 : totalWidth (B ++ d :: M) = B.length + (declWidth d + totalWidth M) := by
    rw [totalWidth_append, totalWidth_bools hB, totalWidth_cons]
  have w2 : totalWidth D = totalWidth (B ++ d :: M) + T.length := by
    rw [hDA, totalWidth_append, totalWidth_bools hT]
  have w3 : totalWidth (B ++ d :: (M' ++ T')) = B.length + (declWidth d + (totalWidth M' + T'.length)) := by
    rw [totalWidth_append, totalWidth_bools hB, totalWidth_cons, totalWidth_append, totalWidth_bools hT']
  have l1 : D.length = B.length + (M.length + 1) + T.length := by
    rw [hDA]; simp only [List.length_append, List.length_cons]
  have l2 : (B ++ d :: (M' ++ T')).length = B.length + (M'.length + T'.length + 1) := by simp
  unfold expandNonboolState
  rw [if_neg (by omega), hL1, hL2]
  refine expand_run_ub (B ++ d :: M) hA1 0 (by omega) _ _ fun vs1 out1 e1 => ?_
  refine expand_jump (by omega) (by omega) hd fun vs2 out2 e2 => ?_
  have := expand_run_ub (N := totalWidth D + totalWidth (B ++ d :: (M' ++ T'))) (rest := []) M' hM' (B.length + declWidth d)
    (by omega) vs2 out2 fun vs3 out3 e3 => expand_tail_ub _ _ _ (by simp at e1; omega)
  simpa using this

/-! ## Bits of values -/

theorem bitList_01 {l : List ℤ} (h : Is01 l) : bitList (l.map some) = .ok (l.map fun v => v = 1) := by
  induction l with
  | nil => rfl
  | cons v l ih =>
    have hv := h v (by simp)
    simp only [List.map_cons, bitList, ih fun u hu => h u (by simp [hu])]
    rcases hv with rfl | rfl <;> simp

/-! ## The number of integer variables of the environment -/

theorem countEnv_layout (evars svars : Decls) (off ne : ℕ) (h : ne = off + totalWidth evars) :
    countEnv ne (layoutFrom off (evars ++ svars)) =
      if layoutFrom ne svars = [] then none else some (layoutFrom off evars).length := by
  induction evars generalizing off with
  | nil =>
    simp only [totalWidth_nil, Nat.add_zero] at h
    subst h
    rw [List.nil_append]
    cases hl : layoutFrom ne svars with
    | nil => rfl
    | cons r rs =>
      have := layoutFrom_ge svars ne r (by rw [hl]; simp)
      rw [countEnv, if_neg (by omega), if_neg (by simp)]
      rfl
  | cons d evars ih =>
    have hd := declWidth_pos d
    rw [totalWidth_cons] at h
    have := ih (off + declWidth d) (by omega)
    rw [List.cons_append, layoutFrom, layoutFrom]
    split
    · rw [countEnv, if_pos (by omega), this]
      split <;> simp
    · exact this

/-- The variables of a specification. -/
def declVars (evars svars : Decls) : PatchVars :=
  ⟨evars.length, svars.length, expDecls evars, expDecls svars, intVars (evars ++ svars), layoutFrom 0 (evars ++ svars)⟩

variable {evars svars : Decls}

theorem declVars_ne : (declVars evars svars).ne = totalWidth evars := expDecls_length evars

theorem declVars_ns : (declVars evars svars).ns = totalWidth svars := expDecls_length svars

theorem declVars_only : (declVars evars svars).boolOnly = true ↔ ∀ d ∈ evars ++ svars, ¬ 0 ≤ d.2 := by
  unfold PatchVars.boolOnly declVars
  rw [List.isEmpty_iff, layoutFrom_nil_iff]

/-- When all variables are Boolean. -/
theorem declVars_allBool (h : ∀ d ∈ evars ++ svars, ¬ 0 ≤ d.2) : (declVars evars svars).AllBool := by
  refine ⟨layoutFrom_bools h 0, ?_, ?_⟩
  · rw [declVars_ne, totalWidth_bools fun d hd => h d (List.mem_append.2 (Or.inl hd))]; rfl
  · rw [declVars_ns, totalWidth_bools fun d hd => h d (List.mem_append.2 (Or.inr hd))]; rfl

theorem declVars_enonbool (h : ∃ d ∈ evars ++ svars, 0 ≤ d.2) : (declVars evars svars).enonbool =
    if (∀ d ∈ svars, ¬ 0 ≤ d.2) then none else some (layoutFrom 0 evars).length := by
  have hne : (declVars evars svars).offw ≠ [] := by
    intro hc
    obtain ⟨d, hd, h0⟩ := h
    exact layoutFrom_nil_iff.1 hc d hd h0
  unfold PatchVars.enonbool
  rw [if_neg hne]
  have := countEnv_layout evars svars 0 (declVars evars svars).ne (by rw [declVars_ne]; omega)
  rw [show (declVars evars svars).offw = layoutFrom 0 (evars ++ svars) from rfl, this]
  simp only [layoutFrom_nil_iff]


/-! ## Values of the declared variables -/

theorem written01_01 (bs : List Bool) : Is01 (written01 bs) := by
  intro v hv
  unfold written01 at hv
  obtain ⟨b, -, rfl⟩ := List.mem_map.1 hv
  cases b <;> simp

theorem written01_eq (bs : List Bool) : ((written01 bs).map fun v => decide (v = 1)) = bs := by
  unfold written01
  rw [List.map_map]
  conv_rhs => rw [← List.map_id bs]
  refine List.map_congr_left fun b _ => ?_
  cases b <;> simp

theorem expand_decoded {ds : Decls} (hne : ds ≠ []) (hi : IntDecls ds) {bs : List Bool} (hl : bs.length = totalWidth ds) :
    expandVals false (decList ds (written01 bs)) (layoutFrom 0 ds) (totalWidth ds) = .ok bs := by
  unfold expandVals
  rw [if_neg (by decide), expandNonboolState_eq ds _ hne (decList_length _ _) hi,
    enc_dec ds _ hi (by rw [written01_length, hl]) (written01_01 bs)]
  exact bitList_bools bs

theorem decList_int {ds : Decls} (hi : IntDecls ds) {bs : List ℤ} (hb : Is01 bs) : ∀ v ∈ decList ds bs, -2 ^ 31 ≤ v ∧ v < 2 ^ 31 := by
  induction ds generalizing bs with
  | nil => intro v hv; cases hv
  | cons d ds ih =>
    intro v hv
    rw [decList] at hv
    rcases List.mem_cons.1 hv with rfl | hv
    · split
      · obtain ⟨h1, h2⟩ := bitsVal_range (bs.take (declWidth d)) fun b h => hb b (List.mem_of_mem_take h)
        have h3 := declWidth_le (hi d (by simp))
        have h4 : (bs.take (declWidth d)).length ≤ 31 := by rw [List.length_take]; omega
        have h5 : (2 : ℤ) ^ (bs.take (declWidth d)).length ≤ 2 ^ 31 := pow_le_pow_right₀ (by norm_num) h4
        constructor
        · have : (-2 ^ 31 : ℤ) ≤ 0 := by norm_num
          omega
        · omega
      · cases bs with
        | nil => simp
        | cons b bs => rcases hb b (by simp) with h | h <;> simp [h]
    · exact ih (fun e he => hi e (by simp [he])) (fun b h => hb b (List.mem_of_mem_drop h)) v hv

/-- The values of the declared variables in a state. -/
def bitValues (evars svars : Decls) (bs : List Bool) : List ℤ := decList (evars ++ svars) (written01 bs)

theorem bitValues_length (bs : List Bool) : (bitValues evars svars bs).length = evars.length + svars.length := by
  unfold bitValues
  rw [decList_length, List.length_append]

theorem bitValues_int (hi : IntDecls (evars ++ svars)) (bs : List Bool) : (bitValues evars svars bs).map stored = bitValues evars svars bs :=
  map_stored (decList_int hi (written01_01 bs))

theorem declVars_nonempty (h : ∃ d ∈ evars ++ svars, 0 ≤ d.2) : evars ++ svars ≠ [] := by
  obtain ⟨d, hd, -⟩ := h
  exact List.ne_nil_of_mem hd

theorem declVars_boolOnly (h : ∃ d ∈ evars ++ svars, 0 ≤ d.2) : (declVars evars svars).boolOnly = false := by
  rw [Bool.eq_false_iff]
  intro hc
  obtain ⟨d, hd, h0⟩ := h
  exact declVars_only.1 hc d hd h0

theorem declVars_width : (declVars evars svars).ne + (declVars evars svars).ns = totalWidth (evars ++ svars) := by
  rw [declVars_ne, declVars_ns, totalWidth_append]

/-- A state line. -/
theorem expand_row (h : ∃ d ∈ evars ++ svars, 0 ≤ d.2) (hi : IntDecls (evars ++ svars)) {bs : List Bool}
    (hl : bs.length = totalWidth (evars ++ svars)) :
    expandVals (declVars evars svars).boolOnly (bitValues evars svars bs) (declVars evars svars).offw
      ((declVars evars svars).ne + (declVars evars svars).ns) = .ok bs := by
  rw [declVars_boolOnly h, declVars_width]
  exact expand_decoded (declVars_nonempty h) hi hl

/-- The offsets used for `blocksys`. -/
theorem block_offsets : ((declVars evars svars).offw.drop (layoutFrom 0 evars).length).map (fun r => (r.1 - (declVars evars svars).ne, r.2)) =
    layoutFrom 0 svars := by
  have e : (declVars evars svars).offw = layoutFrom 0 evars ++ layoutFrom (0 + totalWidth evars) svars := layoutFrom_append evars svars 0
  rw [e, List.drop_left, declVars_ne, Nat.zero_add]
  exact layoutFrom_shift svars 0 (totalWidth evars)

/-- The offsets used for a controlled edge and for an uncontrolled edge. -/
theorem edge_offsets : ((declVars evars svars).offw ++ (declVars evars svars).offw).take (2 * (declVars evars svars).offw.length) =
      layoutFrom 0 (evars ++ svars) ++ layoutFrom 0 (evars ++ svars) ∧
    ((declVars evars svars).offw ++ (declVars evars svars).offw).take ((declVars evars svars).offw.length + (layoutFrom 0 evars).length) =
      layoutFrom 0 (evars ++ svars) ++ layoutFrom 0 evars := by
  refine ⟨List.take_of_length_le (by rw [List.length_append]; omega), ?_⟩
  have e : (declVars evars svars).offw = layoutFrom 0 evars ++ layoutFrom (0 + totalWidth evars) svars := layoutFrom_append evars svars 0
  rw [List.take_append, List.take_of_length_le (by omega), Nat.add_sub_cancel_left]
  conv_lhs => rw [e]
  rw [List.take_left]
  conv_rhs => rw [layoutFrom_append]

/-! ## Commands -/

section
variable {n : ℕ} {N : List (BState (declVars evars svars).ne (declVars evars svars).ns)}
  {st : Aut ℤ (BState (declVars evars svars).ne (declVars evars svars).ns)}

/-- A command for an edge in a specification with integer variables: the values are read beyond their end, for a controlled edge
always, for an uncontrolled edge if a variable of the environment is an integer. -/
theorem changeEdge_int (hint : ∃ d ∈ evars ++ svars, 0 ≤ d.2) (relax : Bool) {vs : List ℤ} {args : List Char} (h : Numbers vs args)
    (hl : 2 * (evars.length + svars.length) ≤ vs.length ∨ (vs.length = 2 * evars.length + svars.length ∧ ∃ d ∈ evars, 0 ≤ d.2))
    (x : CmdState (declVars evars svars)) :
    changeEdge (declVars evars svars) (layoutFrom 0 evars).length n N st relax args x = .ub := by
  have hr := read_state_str_exact h ((2 * (evars.length + svars.length) : ℕ) : ℤ)
  rw [if_neg (by omega), Int.toNat_natCast] at hr
  have hr' : readStateStr args (2 * (((declVars evars svars).oe : ℤ) + (declVars evars svars).os)) =
      (vs.take (2 * (evars.length + svars.length))).map stored := by
    rw [← hr]
    congr 1
  obtain ⟨o1, o2⟩ := edge_offsets (evars := evars) (svars := svars)
  have hw := declVars_width (evars := evars) (svars := svars)
  have hwe := declVars_ne (evars := evars) (svars := svars)
  have eo : (declVars evars svars).oe = evars.length := rfl
  have es : (declVars evars svars).os = svars.length := rfl
  have elen : (evars ++ svars).length = evars.length + svars.length := List.length_append
  unfold changeEdge
  rw [hr']
  generalize hus : (vs.take (2 * (evars.length + svars.length))).map stored = us
  have hul : us.length = min (2 * (evars.length + svars.length)) vs.length := by rw [← hus]; simp
  simp only
  rw [eo, es, declVars_boolOnly hint]
  by_cases hctl : us.length = 2 * (evars.length + svars.length)
  · rw [if_neg (by rintro ⟨h1, -⟩; exact h1 hctl)]
    simp only [if_pos hctl]
    rw [o1, show 2 * ((declVars evars svars).ne + (declVars evars svars).ns) = totalWidth (evars ++ svars) + totalWidth (evars ++ svars) by omega]
    unfold expandVals
    rw [if_neg (by decide), expand_twice_ub (X := []) (by simp) hint us (by omega)]
  · have hv : vs.length = 2 * evars.length + svars.length ∧ ∃ d ∈ evars, 0 ≤ d.2 := by
      rcases hl with hl | hl
      · omega
      · exact hl
    have hu : us.length = 2 * evars.length + svars.length := by omega
    rw [if_neg (by rintro ⟨-, h1⟩; exact h1 hu)]
    simp only [if_neg hctl]
    rw [o2, show 2 * (declVars evars svars).ne + (declVars evars svars).ns = totalWidth (evars ++ svars) + totalWidth evars by omega]
    unfold expandVals
    rw [if_neg (by decide), expand_twice_ub (D' := evars) rfl hv.2 us (by omega)]

/-- `blocksys` with integer variables. -/
theorem changeBlock_int (hint : ∃ d ∈ svars, 0 ≤ d.2) (hi : IntDecls (evars ++ svars)) (first : Bool)
    (v : Val (declVars evars svars).ns) {args : List Char} (h : Numbers (decList svars (written01 (List.ofFn v))) args)
    (x : CmdState (declVars evars svars)) :
    changeBlock (declVars evars svars) (layoutFrom 0 evars).length n N st first args x = oneChange n N st (.blockSys v) x := by
  have hi' : IntDecls svars := fun d hd => hi d (List.mem_append.2 (Or.inr hd))
  have hr := read_state_str_exact h ((svars.length : ℕ) : ℤ)
  rw [if_neg (by omega), Int.toNat_natCast, List.take_of_length_le (by rw [decList_length]), map_stored (decList_int hi' (written01_01 _))] at hr
  have hne : svars ≠ [] := by
    obtain ⟨d, hd, -⟩ := hint
    exact List.ne_nil_of_mem hd
  have hall : ∃ d ∈ evars ++ svars, 0 ≤ d.2 := by
    obtain ⟨d, hd, h0⟩ := hint
    exact ⟨d, List.mem_append.2 (Or.inr hd), h0⟩
  have hx := expand_decoded hne hi' (bs := List.ofFn v) (by rw [List.length_ofFn]; exact declVars_ns)
  have hx' : expandVals false (decList svars (written01 (List.ofFn v))) (layoutFrom 0 svars) (declVars evars svars).ns = .ok (List.ofFn v) :=
    (congrArg _ declVars_ns).trans hx
  have hr' : readStateStr args ((declVars evars svars).os : ℤ) = decList svars (written01 (List.ofFn v)) := hr
  unfold changeBlock
  rw [hr', block_offsets, declVars_boolOnly hall]
  simp only [hx', asVal_ofFn]
  rw [if_neg (by rw [decList_length, not_not]; rfl)]
  rfl

/-- An uncontrolled edge when only variables of the system are integers: the effect on the game looks at too few bits of the target. -/
theorem changeEdge_env_int (hb : ∀ d ∈ evars, ¬ 0 ≤ d.2) (hint : ∃ d ∈ svars, 0 ≤ d.2) (hi : IntDecls (evars ++ svars)) (relax : Bool)
    (s : BState (declVars evars svars).ne (declVars evars svars).ns) (e : Val (declVars evars svars).ne) {args : List Char}
    (h : Numbers (bitValues evars svars (stBits s) ++ written01 (List.ofFn e)) args) (x : CmdState (declVars evars svars)) :
    changeEdge (declVars evars svars) (layoutFrom 0 evars).length n N st relax args x =
      match (edgeAffected n N st relax false true s (List.ofFn e) x.2).toP with
      | .ok a => .ok (edgeEffect relax true (evars.length + svars.length - totalWidth svars) s (List.ofFn e) x.1, a)
      | .ub => .ub
      | .err => .err
      | .odd => .odd
      | .timeout => .timeout := by
  have hall : ∃ d ∈ evars ++ svars, 0 ≤ d.2 := by
    obtain ⟨d, hd, h0⟩ := hint
    exact ⟨d, List.mem_append.2 (Or.inr hd), h0⟩
  have hs : 0 < svars.length := by
    obtain ⟨d, hd, -⟩ := hint
    exact List.length_pos_of_mem hd
  have wb : totalWidth evars = evars.length := totalWidth_bools hb
  have hw := declVars_width (evars := evars) (svars := svars)
  have hwe := declVars_ne (evars := evars) (svars := svars)
  have hws := declVars_ns (evars := evars) (svars := svars)
  have eo : (declVars evars svars).oe = evars.length := rfl
  have es : (declVars evars svars).os = svars.length := rfl
  have hds : IntDecls ((evars ++ svars) ++ evars) := by
    intro d hd
    rcases List.mem_append.1 hd with hd | hd
    · exact hi d hd
    · exact hi d (List.mem_append.2 (Or.inl hd))
  have hlen : (written01 (stBits s)).length = totalWidth (evars ++ svars) := by rw [written01_length, stBits_length, hw]
  have hdec : ∀ (A : Decls) (bs : List ℤ), (∀ d ∈ A, ¬ 0 ≤ d.2) → bs.length = A.length → decList A bs = bs := by
    intro A
    induction A with
    | nil => intro bs _ hl; rw [List.length_eq_zero_iff.1 hl]; rfl
    | cons d A ih =>
      intro bs hA hl
      cases bs with
      | nil => cases hl
      | cons b bs =>
        rw [decList, if_neg (hA d (by simp)), declWidth, if_neg (hA d (by simp)), List.headD_cons, List.drop_one, List.tail_cons,
          ih bs (fun d hd => hA d (by simp [hd])) (by simpa using hl)]
  have hpre : ∀ (A : Decls) (bs cs : List ℤ), bs.length = totalWidth A → decList A (bs ++ cs) = decList A bs := by
    intro A
    induction A with
    | nil => intro bs cs _; rfl
    | cons d A ih =>
      intro bs cs hl
      rw [totalWidth_cons] at hl
      have hd := declWidth_pos d
      rw [decList, decList, List.take_append_of_le_length (by omega), List.drop_append_of_le_length (by omega),
        ih _ cs (by rw [List.length_drop]; omega)]
      congr 2
      cases bs with
      | nil => simp at hl; omega
      | cons b bs => rfl
  have hvals : bitValues evars svars (stBits s) ++ written01 (List.ofFn e) =
      decList ((evars ++ svars) ++ evars) (written01 (stBits s ++ List.ofFn e)) := by
    have e0 : written01 (stBits s ++ List.ofFn e) = written01 (stBits s) ++ written01 (List.ofFn e) := by
      unfold written01; rw [List.map_append]
    rw [decList_append, e0, ← hlen, List.drop_left, hpre _ _ _ hlen,
      hdec evars _ hb (by rw [written01_length, List.length_ofFn, hwe, wb])]
    rfl
  have hx : expandVals false (bitValues evars svars (stBits s) ++ written01 (List.ofFn e))
      (layoutFrom 0 (evars ++ svars) ++ layoutFrom 0 evars) (2 * (declVars evars svars).ne + (declVars evars svars).ns) =
        .ok (stBits s ++ List.ofFn e) := by
    have hlay : layoutFrom 0 (evars ++ svars) ++ layoutFrom 0 evars = layoutFrom 0 ((evars ++ svars) ++ evars) := by
      rw [layoutFrom_append (evars ++ svars) evars, layoutFrom_bools hb, layoutFrom_bools hb]
    have hwid : 2 * (declVars evars svars).ne + (declVars evars svars).ns = totalWidth ((evars ++ svars) ++ evars) := by
      rw [totalWidth_append, ← hw, ← hwe]; omega
    rw [hvals, hlay, hwid]
    exact expand_decoded (by
      intro hc
      have := congrArg List.length hc
      simp only [List.length_append, List.length_nil] at this
      omega) hds (by rw [List.length_append, stBits_length, List.length_ofFn]; omega)
  have hvl : (bitValues evars svars (stBits s) ++ written01 (List.ofFn e)).length = 2 * evars.length + svars.length := by
    rw [List.length_append, bitValues_length, written01_length, List.length_ofFn, hwe, wb]; omega
  have hr : readStateStr args (2 * (((declVars evars svars).oe : ℤ) + (declVars evars svars).os)) =
      bitValues evars svars (stBits s) ++ written01 (List.ofFn e) := by
    have := read_state_str_exact h ((2 * (evars.length + svars.length) : ℕ) : ℤ)
    rw [if_neg (by omega), Int.toNat_natCast, List.take_of_length_le (by omega), List.map_append, bitValues_int hi, written01_stored] at this
    rw [← this]
    congr 1
  obtain ⟨-, o2⟩ := edge_offsets (evars := evars) (svars := svars)
  unfold changeEdge
  rw [hr]
  simp only
  rw [eo, es, declVars_boolOnly hall, hvl]
  have n1 : ¬ (2 * evars.length + svars.length = 2 * (evars.length + svars.length)) := by omega
  rw [if_neg (by rintro ⟨-, h1⟩; exact h1 rfl)]
  simp only [if_neg n1, o2, hx]
  rw [List.take_left' (stBits_length s), List.drop_left' (stBits_length s), asState_bits]
  simp only [n1, decide_false, decide_true]
  rw [show 2 * evars.length + svars.length - ((declVars evars svars).ne + (declVars evars svars).ns) =
    evars.length + svars.length - totalWidth svars by rw [hwe, hws, wb]; omega]
  cases (edgeAffected n N st relax false true s (List.ofFn e) x.2).toP <;> rfl

end

end Gr1c
