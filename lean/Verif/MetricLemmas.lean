import Verif.Metric
import Verif.BitsProps
import Verif.SublevelProps

/-!
# Helper lemmas about the distance computations
-/

namespace Gr1c

variable {ne ns : ℕ}

/-- The state as an `int` array. -/
def intVec (s : BState ne ns) : List ℤ := (stateVec s).map (Nat.cast : ℕ → ℤ)

/-- Specification: the value of the metric variable with bits `o, ..., o+w-1`. -/
def metVal (s : BState ne ns) (p : ℕ × ℕ) : ℤ := bitsVal (((intVec s).drop p.1).take p.2)

/-- Specification: the 1-norm distance over the metric variables. -/
def manhattan (offw : List (ℕ × ℕ)) (s t : BState ne ns) : ℤ :=
  (offw.map fun p => |metVal s p - metVal t p|).sum

/-- Specification: the metric variables lie inside the state and have at most 31 bits. -/
def LayoutOk (n : ℕ) (offw : List (ℕ × ℕ)) : Prop := ∀ p ∈ offw, p.1 + p.2 ≤ n ∧ p.2 ≤ 31

/-- Specification: `mm` is the least and the greatest value of `f` on `A`. -/
structure IsBounds {α : Type} (A : Finset α) (f : α → ℤ) (mm : ℤ × ℤ) : Prop where
  least : ∃ s ∈ A, f s = mm.1
  greatest : ∃ s ∈ A, f s = mm.2
  bounds : ∀ s ∈ A, mm.1 ≤ f s ∧ f s ≤ mm.2

theorem intVec_length (s : BState ne ns) : (intVec s).length = ne + ns := by
  unfold intVec; rw [List.length_map, stateVec_length]

theorem intVec_01 (s : BState ne ns) : Is01 (intVec s) := by
  intro b hb
  unfold intVec at hb
  rw [List.mem_map] at hb
  obtain ⟨x, hx, rfl⟩ := hb
  have := stateVec_01 s x hx
  have : x = 0 ∨ x = 1 := by omega
  rcases this with rfl | rfl <;> simp

theorem mapVals_eq (s : BState ne ns) : ∀ offw : List (ℕ × ℕ), LayoutOk (ne + ns) offw →
    mapVals (intVec s) offw = .ok (offw.map (metVal s)) := by
  intro offw
  induction offw with
  | nil => intro _; rfl
  | cons p offw ih =>
    intro h
    obtain ⟨o, w⟩ := p
    have hp := h (o, w) List.mem_cons_self
    unfold mapVals readVec
    rw [if_neg (by rw [intVec_length]; dsimp only at hp; omega), bitvec_value]
    · dsimp only
      rw [ih fun p hp => h p (List.mem_cons_of_mem _ hp)]
      rfl
    · intro b hb
      exact intVec_01 s b (List.mem_of_mem_drop (List.mem_of_mem_take hb))
    · rw [List.length_take]; dsimp only at hp; omega

theorem foldl_add_int (l : List ℤ) : ∀ a : ℤ, l.foldl (· + ·) a = a + l.sum := by
  induction l with
  | nil => intro a; simp
  | cons x l ih => intro a; rw [List.foldl_cons, ih, List.sum_cons]; ring

theorem absDist_eq (offw : List (ℕ × ℕ)) (s t : BState ne ns) :
    absDist (offw.map (metVal s)) (offw.map (metVal t)) = manhattan offw s t := by
  unfold absDist manhattan
  rw [foldl_add_int, zero_add, List.zipWith_map, List.zipWith_self]

theorem manhattan_nonneg (offw : List (ℕ × ℕ)) (s t : BState ne ns) : 0 ≤ manhattan offw s t := by
  unfold manhattan
  apply List.sum_nonneg
  intro x hx
  rw [List.mem_map] at hx
  obtain ⟨p, _, rfl⟩ := hx
  exact abs_nonneg _

theorem manhattan_symm (offw : List (ℕ × ℕ)) (s t : BState ne ns) :
    manhattan offw s t = manhattan offw t s := by
  unfold manhattan
  simp only [abs_sub_comm]

/-- The vectors visited are the states of the set, each once. -/
theorem enum_states (A : Finset (BState ne ns)) (cs : List (CubeArr (2 * (ne + ns))))
    (hc : IsCover (bddOf A) cs) :
    ∃ ls : List (BState ne ns), enumCover 0 (ne + ns) cs = some (ls.map stateVec) ∧ ls.Nodup ∧
      ∀ s, s ∈ ls ↔ s ∈ A := by
  obtain ⟨l, h1, h2, h3⟩ := enumCover_exact hc (off := 0) (len := ne + ns) (by omega)
    (fun i hi => bddOf_indep A i (by omega))
  have h4 : ∀ v, v ∈ l ↔ ∃ s ∈ A, v = stateVec s := by
    intro v
    rw [h3]
    constructor
    · rintro ⟨a, ha, rfl⟩
      rw [← joinAsg_eta a] at ha ⊢
      rw [bddOf_join] at ha
      exact ⟨_, ha, bitsAt_state _ _⟩
    · rintro ⟨s, hs, rfl⟩
      exact ⟨joinAsg s s, (bddOf_join A s s).2 hs, (bitsAt_state s s).symm⟩
  refine ⟨l.map stateOf, ?_, ?_, ?_⟩
  · rw [h1, List.map_map]
    congr 1
    symm
    conv_rhs => rw [← List.map_id l]
    apply List.map_congr_left
    intro v hv
    obtain ⟨s, _, rfl⟩ := (h4 v).1 hv
    simp [stateOf_stateVec]
  · apply List.Nodup.map_on _ h2
    intro v hv w hw hvw
    obtain ⟨s, _, rfl⟩ := (h4 v).1 hv
    obtain ⟨t, _, rfl⟩ := (h4 w).1 hw
    rw [stateOf_stateVec, stateOf_stateVec] at hvw
    rw [hvw]
  · intro s
    rw [List.mem_map]
    constructor
    · rintro ⟨v, hv, rfl⟩
      obtain ⟨t, ht, rfl⟩ := (h4 v).1 hv
      rw [stateOf_stateVec]; exact ht
    · intro hs
      exact ⟨stateVec s, (h4 _).2 ⟨s, hs, rfl⟩, stateOf_stateVec s⟩

/-! ## Running minimum and maximum -/

/-- The fold of the two updates. -/
def foldMM (l : List ℤ) (mm : ℤ × ℤ) : ℤ × ℤ := l.foldl (fun mm d => (updMin mm.1 d, updMax mm.2 d)) mm

theorem foldMM_spec (l : List ℤ) : ∀ mm : ℤ × ℤ, (∀ d ∈ l, 0 ≤ d) → 0 ≤ mm.1 → 0 ≤ mm.2 →
    ((foldMM l mm).1 = mm.1 ∨ (foldMM l mm).1 ∈ l) ∧ ((foldMM l mm).2 = mm.2 ∨ (foldMM l mm).2 ∈ l) ∧
    (foldMM l mm).1 ≤ mm.1 ∧ mm.2 ≤ (foldMM l mm).2 ∧
    ∀ d ∈ l, (foldMM l mm).1 ≤ d ∧ d ≤ (foldMM l mm).2 := by
  induction l with
  | nil => intro mm _ _ _; exact ⟨Or.inl rfl, Or.inl rfl, le_rfl, le_rfl, by simp⟩
  | cons d l ih =>
    intro mm hl h1 h2
    have hd := hl d List.mem_cons_self
    have e : foldMM (d :: l) mm = foldMM l (updMin mm.1 d, updMax mm.2 d) := rfl
    have u1 : updMin mm.1 d = min mm.1 d := by
      unfold updMin
      split
      · rename_i h; rcases h with h | h
        · omega
        · rw [min_eq_right h.le]
      · rename_i h; push Not at h; rw [min_eq_left h.2]
    have u2 : updMax mm.2 d = max mm.2 d := by
      unfold updMax
      split
      · rename_i h; rcases h with h | h
        · omega
        · rw [max_eq_right h.le]
      · rename_i h; push Not at h; rw [max_eq_left h.2]
    rw [e, u1, u2]
    obtain ⟨a1, a2, a3, a4, a5⟩ := ih (min mm.1 d, max mm.2 d)
      (fun d hd => hl d (List.mem_cons_of_mem _ hd)) (le_min h1 hd) (le_trans h2 (le_max_left _ _))
    dsimp only at a1 a2 a3 a4
    refine ⟨?_, ?_, le_trans a3 (min_le_left _ _), le_trans (le_max_left _ _) a4, ?_⟩
    · rcases a1 with a1 | a1
      · rcases min_choice mm.1 d with hm | hm
        · left; rw [a1, hm]
        · right; rw [a1, hm]; exact List.mem_cons_self
      · right; exact List.mem_cons_of_mem _ a1
    · rcases a2 with a2 | a2
      · rcases max_choice mm.2 d with hm | hm
        · left; rw [a2, hm]
        · right; rw [a2, hm]; exact List.mem_cons_self
      · right; exact List.mem_cons_of_mem _ a2
    · intro x hx
      rcases List.mem_cons.1 hx with rfl | hx
      · exact ⟨le_trans a3 (min_le_right _ _), le_trans (le_max_right _ _) a4⟩
      · exact a5 x hx

theorem foldMM_bounds {α : Type} (A : Finset α) (f : α → ℤ) (ls : List α) (hmem : ∀ s, s ∈ ls ↔ s ∈ A)
    (hf : ∀ s ∈ A, 0 ≤ f s) (hne : A.Nonempty) : IsBounds A f (foldMM (ls.map f) (-1, -1)) := by
  cases ls with
  | nil => obtain ⟨s, hs⟩ := hne; simpa using (hmem s).2 hs
  | cons x ls =>
    have hx : x ∈ A := (hmem x).1 List.mem_cons_self
    have e : foldMM ((x :: ls).map f) (-1, -1) = foldMM (ls.map f) (f x, f x) := by
      simp [foldMM, updMin, updMax]
    have hnn : ∀ d ∈ ls.map f, 0 ≤ d := by
      intro d hd
      rw [List.mem_map] at hd
      obtain ⟨s, hs, rfl⟩ := hd
      exact hf s ((hmem s).1 (List.mem_cons_of_mem _ hs))
    obtain ⟨a1, a2, a3, a4, a5⟩ := foldMM_spec (ls.map f) (f x, f x) hnn (hf x hx) (hf x hx)
    rw [e]
    refine ⟨?_, ?_, ?_⟩
    · rcases a1 with a1 | a1
      · exact ⟨x, hx, a1.symm⟩
      · rw [List.mem_map] at a1
        obtain ⟨s, hs, h⟩ := a1
        exact ⟨s, (hmem s).1 (List.mem_cons_of_mem _ hs), h⟩
    · rcases a2 with a2 | a2
      · exact ⟨x, hx, a2.symm⟩
      · rw [List.mem_map] at a2
        obtain ⟨s, hs, h⟩ := a2
        exact ⟨s, (hmem s).1 (List.mem_cons_of_mem _ hs), h⟩
    · intro s hs
      rcases List.mem_cons.1 ((hmem s).2 hs) with rfl | h
      · exact ⟨a3, a4⟩
      · exact a5 _ (List.mem_map_of_mem h)

theorem boundsLoop_eq (offw : List (ℕ × ℕ)) (hl : LayoutOk (ne + ns) offw) (ref : BState ne ns) :
    ∀ (ls : List (BState ne ns)) (mm : ℤ × ℤ),
    boundsLoop offw (offw.map (metVal ref)) (ls.map stateVec) mm =
      .ok (foldMM (ls.map fun s => manhattan offw s ref) mm) := by
  intro ls
  induction ls with
  | nil => intro mm; rfl
  | cons s ls ih =>
    intro mm
    rw [List.map_cons]
    unfold boundsLoop
    have := mapVals_eq s offw hl
    unfold intVec at this
    rw [this]
    dsimp only
    rw [ih, absDist_eq]
    rfl

theorem boundsState_eq (A : Finset (BState ne ns)) (cs : List (CubeArr (2 * (ne + ns))))
    (hc : IsCover (bddOf A) cs) (offw : List (ℕ × ℕ)) (hl : LayoutOk (ne + ns) offw)
    (ref : BState ne ns) :
    (A = ∅ ∧ boundsState (ne + ns) cs (intVec ref) offw = .ok (-1, -1)) ∨
    (A ≠ ∅ ∧ ∃ mm, boundsState (ne + ns) cs (intVec ref) offw = .ok mm ∧
      IsBounds A (fun s => manhattan offw s ref) mm) := by
  obtain ⟨ls, h1, _, h3⟩ := enum_states A cs hc
  have e : boundsState (ne + ns) cs (intVec ref) offw =
      .ok (foldMM (ls.map fun s => manhattan offw s ref) (-1, -1)) := by
    unfold boundsState
    rw [mapVals_eq ref offw hl, h1]
    exact boundsLoop_eq offw hl ref ls _
  by_cases hA : A = ∅
  · left
    refine ⟨hA, ?_⟩
    have : ls = [] := by
      apply List.eq_nil_iff_forall_not_mem.2
      intro s hs
      have := (h3 s).1 hs
      rw [hA] at this
      simp at this
    rw [e, this]
    rfl
  · right
    exact ⟨hA, _, e, foldMM_bounds A _ ls h3 (fun s _ => manhattan_nonneg _ _ _)
      (Finset.nonempty_iff_ne_empty.2 hA)⟩

end Gr1c
