import Verif.MetricLemmas

/-!
# C40, C52: distance bounds and horizon
-/

namespace Gr1c

variable {ne ns : ℕ}

/-- **C40.** `bounds_state` gives the least and greatest 1-norm distance from the reference state over the
states of the set, for every set, cube cover, reference state and layout; the marker -1 for the empty set. -/
theorem bounds_state_exact (A : Finset (BState ne ns)) (cs : List (CubeArr (2 * (ne + ns))))
    (hc : IsCover (bddOf A) cs) (offw : List (ℕ × ℕ)) (hl : LayoutOk (ne + ns) offw)
    (ref : BState ne ns) :
    ∃ mm, boundsState (ne + ns) cs (intVec ref) offw = .ok mm ∧
      (A = ∅ → mm = (-1, -1)) ∧ (A ≠ ∅ → IsBounds A (fun s => manhattan offw s ref) mm) := by
  rcases boundsState_eq A cs hc offw hl ref with ⟨h, e⟩ | ⟨h, mm, e, hb⟩
  · exact ⟨_, e, fun _ => rfl, fun h' => absurd h h'⟩
  · exact ⟨mm, e, fun h' => absurd h' h, fun _ => hb⟩

/-- **C40, each state once.** The vectors over which `bounds_state` and `bounds_DDset` range are exactly
the states of the set, without repetition. -/
theorem bounds_state_visits (A : Finset (BState ne ns)) (cs : List (CubeArr (2 * (ne + ns))))
    (hc : IsCover (bddOf A) cs) :
    ∃ ls : List (BState ne ns), enumCover 0 (ne + ns) cs = some (ls.map stateVec) ∧ ls.Nodup ∧
      ∀ s, s ∈ ls ↔ s ∈ A :=
  enum_states A cs hc

/-- Specification: the distance from a state to a nonempty set. -/
def setDist (offw : List (ℕ × ℕ)) (G : Finset (BState ne ns)) (h : G.Nonempty) (t : BState ne ns) : ℤ :=
  G.inf' h fun g => manhattan offw t g

theorem setDist_nonneg (offw : List (ℕ × ℕ)) (G : Finset (BState ne ns)) (h : G.Nonempty)
    (t : BState ne ns) : 0 ≤ setDist offw G h t := by
  unfold setDist
  rw [Finset.le_inf'_iff]
  intro g _
  exact manhattan_nonneg _ _ _

theorem boundsState_dist (G : Finset (BState ne ns)) (gs : List (CubeArr (2 * (ne + ns))))
    (hg : IsCover (bddOf G) gs) (offw : List (ℕ × ℕ)) (hl : LayoutOk (ne + ns) offw)
    (h : G.Nonempty) (t : BState ne ns) :
    ∃ mx, boundsState (ne + ns) gs (intVec t) offw = .ok (setDist offw G h t, mx) := by
  rcases boundsState_eq G gs hg offw hl t with ⟨h', _⟩ | ⟨_, mm, e, hb⟩
  · exact absurd h' h.ne_empty
  · refine ⟨mm.2, ?_⟩
    rw [e]
    congr 1
    refine Prod.ext ?_ rfl
    dsimp only
    apply le_antisymm
    · unfold setDist
      rw [Finset.le_inf'_iff]
      intro g hgG
      rw [manhattan_symm]
      exact (hb.bounds g hgG).1
    · obtain ⟨g, hgG, hgm⟩ := hb.least
      rw [← hgm]
      rw [manhattan_symm]
      exact Finset.inf'_le _ hgG

theorem ddsetLoop_eq (G : Finset (BState ne ns)) (gs : List (CubeArr (2 * (ne + ns))))
    (hg : IsCover (bddOf G) gs) (offw : List (ℕ × ℕ)) (hl : LayoutOk (ne + ns) offw)
    (h : G.Nonempty) : ∀ (ls : List (BState ne ns)) (mm : ℤ × ℤ),
    ddsetLoop (ne + ns) gs offw (ls.map stateVec) mm = .ok (foldMM (ls.map (setDist offw G h)) mm) := by
  intro ls
  induction ls with
  | nil => intro mm; rfl
  | cons s ls ih =>
    intro mm
    obtain ⟨mx, e⟩ := boundsState_dist G gs hg offw hl h s
    rw [List.map_cons]
    unfold ddsetLoop
    unfold intVec at e
    rw [e]
    dsimp only
    rw [ih]
    rfl

theorem ddsetLoop_empty (gs : List (CubeArr (2 * (ne + ns))))
    (hg : IsCover (bddOf (∅ : Finset (BState ne ns))) gs) (offw : List (ℕ × ℕ))
    (hl : LayoutOk (ne + ns) offw) : ∀ (ls : List (BState ne ns)),
    ddsetLoop (ne + ns) gs offw (ls.map stateVec) (-1, -1) = .ok (-1, -1) := by
  intro ls
  induction ls with
  | nil => rfl
  | cons s ls ih =>
    rcases boundsState_eq ∅ gs hg offw hl s with ⟨_, e⟩ | ⟨h, _⟩
    · rw [List.map_cons]
      unfold ddsetLoop
      unfold intVec at e
      rw [e]
      exact ih
    · exact absurd rfl h

/-- **C40, sets.** `bounds_DDset` gives the least and the greatest distance to the set `G` over the states
of `T`; the marker -1 if one of the sets is empty. -/
theorem bounds_DDset_exact (T G : Finset (BState ne ns)) (cs gs : List (CubeArr (2 * (ne + ns))))
    (hc : IsCover (bddOf T) cs) (hg : IsCover (bddOf G) gs) (offw : List (ℕ × ℕ))
    (hl : LayoutOk (ne + ns) offw) :
    ∃ mm, boundsDDset (ne + ns) cs gs offw = .ok mm ∧
      (T = ∅ ∨ G = ∅ → mm = (-1, -1)) ∧
      ∀ h : G.Nonempty, T ≠ ∅ → IsBounds T (setDist offw G h) mm := by
  obtain ⟨ls, h1, _, h3⟩ := enum_states T cs hc
  unfold boundsDDset
  rw [h1]
  dsimp only
  by_cases hG : G = ∅
  · subst hG
    exact ⟨_, ddsetLoop_empty gs hg offw hl ls, fun _ => rfl, fun h => absurd h (by simp)⟩
  · have hne := Finset.nonempty_iff_ne_empty.2 hG
    refine ⟨_, ddsetLoop_eq G gs hg offw hl hne ls _, ?_, ?_⟩
    · rintro (h | h)
      · have : ls = [] := by
          apply List.eq_nil_iff_forall_not_mem.2
          intro s hs
          have := (h3 s).1 hs
          rw [h] at this
          simp at this
        rw [this]; rfl
      · exact absurd h hG
    · intro h hT
      exact foldMM_bounds T _ ls h3 (fun s _ => setDist_nonneg _ _ _ _)
        (Finset.nonempty_iff_ne_empty.2 hT)

/-! ## The horizon -/

theorem horizJ_spec (mm : List (ℤ × ℤ)) (j : ℕ) : ∀ (k : ℕ) (h : ℤ),
    (∀ i, 1 ≤ i → i ≤ k → (mm.getD (i - 1) (0, 0)).2 ≥ (mm.getD (j - 1) (0, 0)).1 → (j : ℤ) - i ≤ horizJ mm j k h) ∧
    (horizJ mm j k h = h ∨ ∃ i, 1 ≤ i ∧ i ≤ k ∧ (mm.getD (i - 1) (0, 0)).2 ≥ (mm.getD (j - 1) (0, 0)).1 ∧
      horizJ mm j k h = j - i) ∧ (h ≤ (j : ℤ) - (k + 1) → h ≤ horizJ mm j k h) := by
  intro k
  induction k with
  | zero => intro h; exact ⟨by omega, Or.inl rfl, fun _ => le_rfl⟩
  | succ k ih =>
    intro h
    unfold horizJ
    by_cases hc : (mm.getD k (0, 0)).2 ≥ (mm.getD (j - 1) (0, 0)).1
    · rw [if_pos hc]
      obtain ⟨a1, a2, a3⟩ := ih ((j : ℤ) - (k + 1))
      have a3 := a3 le_rfl
      refine ⟨?_, ?_, ?_⟩
      · intro i h1 h2 h3
        by_cases hi : i = k + 1
        · subst hi; push_cast; exact a3
        · exact a1 i h1 (by omega) h3
      · rcases a2 with a2 | ⟨i, b1, b2, b3, b4⟩
        · right; exact ⟨k + 1, by omega, le_rfl, by simpa using hc, by rw [a2]; push_cast; ring⟩
        · right; exact ⟨i, b1, by omega, b3, b4⟩
      · intro hh
        push_cast at hh
        omega
    · rw [if_neg hc]
      obtain ⟨a1, a2, a3⟩ := ih h
      refine ⟨?_, ?_, ?_⟩
      · intro i h1 h2 h3
        by_cases hi : i = k + 1
        · subst hi; exact absurd (by simpa using h3) hc
        · exact a1 i h1 (by omega) h3
      · rcases a2 with a2 | ⟨i, b1, b2, b3, b4⟩
        · left; exact a2
        · right; exact ⟨i, b1, by omega, b3, b4⟩
      · intro hh
        push_cast at hh
        exact a3 (by omega)

theorem foldl_if_max {α : Type} (f : α → ℤ) (l : List α) : ∀ h : ℤ,
    h ≤ l.foldl (fun h j => if f j > h then f j else h) h ∧
    (∀ j ∈ l, f j ≤ l.foldl (fun h j => if f j > h then f j else h) h) ∧
    (l.foldl (fun h j => if f j > h then f j else h) h = h ∨
      ∃ j ∈ l, l.foldl (fun h j => if f j > h then f j else h) h = f j) := by
  induction l with
  | nil => intro h; exact ⟨le_rfl, by simp, Or.inl rfl⟩
  | cons x l ih =>
    intro h
    rw [List.foldl_cons]
    obtain ⟨a1, a2, a3⟩ := ih (if f x > h then f x else h)
    have hx : f x ≤ (if f x > h then f x else h) ∧ h ≤ (if f x > h then f x else h) := by
      split <;> omega
    refine ⟨le_trans hx.2 a1, ?_, ?_⟩
    · intro j hj
      rcases List.mem_cons.1 hj with rfl | hj
      · exact le_trans hx.1 a1
      · exact a2 j hj
    · rcases a3 with a3 | ⟨j, hj, a3⟩
      · rw [a3]
        split
        · right; exact ⟨x, List.mem_cons_self, rfl⟩
        · left; rfl
      · right; exact ⟨j, List.mem_cons_of_mem _ hj, a3⟩

/-- Specification: level `k` is not certainly nearer than level `j`, by the two arrays. -/
def Overlaps (mm : List (ℤ × ℤ)) (k j : ℕ) : Prop :=
  (mm.getD (k - 1) (0, 0)).2 ≥ (mm.getD (j - 1) (0, 0)).1

instance (mm : List (ℤ × ℤ)) (k j : ℕ) : Decidable (Overlaps mm k j) := by unfold Overlaps; infer_instance

theorem mem_jrange (n j : ℕ) : j ∈ (List.range (n + 1)).drop 3 ↔ 3 ≤ j ∧ j ≤ n := by
  rw [List.mem_drop_iff_getElem]
  constructor
  · rintro ⟨i, hi, rfl⟩
    rw [List.length_range] at hi
    rw [List.getElem_range]
    omega
  · rintro ⟨h1, h2⟩
    exact ⟨j - 3, by rw [List.length_range]; omega, by rw [List.getElem_range]; omega⟩

theorem horizGoal_spec (mm : List (ℤ × ℤ)) (h0 : ℤ) :
    h0 ≤ horizGoal mm h0 ∧
    (∀ j k, 3 ≤ j → j ≤ mm.length → 1 ≤ k → k ≤ j - 2 → Overlaps mm k j → (j : ℤ) - k ≤ horizGoal mm h0) ∧
    (3 ≤ mm.length → 1 ≤ horizGoal mm h0) ∧
    (horizGoal mm h0 = h0 ∨ (3 ≤ mm.length ∧ horizGoal mm h0 = 1) ∨
      ∃ j k, 3 ≤ j ∧ j ≤ mm.length ∧ 1 ≤ k ∧ k ≤ j - 2 ∧ Overlaps mm k j ∧ horizGoal mm h0 = j - k) := by
  have := foldl_if_max (fun j => horizJ mm j (j - 2) 1) ((List.range (mm.length + 1)).drop 3) h0
  obtain ⟨a1, a2, a3⟩ := this
  have e : horizGoal mm h0 = ((List.range (mm.length + 1)).drop 3).foldl
    (fun h j => if horizJ mm j (j - 2) 1 > h then horizJ mm j (j - 2) 1 else h) h0 := rfl
  rw [← e] at a1 a2 a3
  refine ⟨a1, ?_, ?_, ?_⟩
  · intro j k h1 h2 h3 h4 h5
    exact le_trans ((horizJ_spec mm j (j - 2) 1).1 k h3 h4 h5) (a2 j ((mem_jrange _ _).2 ⟨h1, h2⟩))
  · intro h
    refine le_trans ?_ (a2 3 ((mem_jrange _ _).2 ⟨le_rfl, h⟩))
    exact (horizJ_spec mm 3 (3 - 2) 1).2.2 (by norm_num)
  · rcases a3 with a3 | ⟨j, hj, a3⟩
    · left; exact a3
    · right
      obtain ⟨h1, h2⟩ := (mem_jrange _ _).1 hj
      rcases (horizJ_spec mm j (j - 2) 1).2.1 with b | ⟨k, b1, b2, b3, b4⟩
      · left; exact ⟨by omega, by rw [a3]; exact b⟩
      · right; exact ⟨j, k, h1, h2, b1, b2, b3, by rw [a3]; exact b4⟩

/-- **C52, horizon.** Given the arrays, `compute_horizon` returns -1 if every goal has at most three
sublevels; otherwise the least number `h ≥ 1` such that levels more than `h` apart do not overlap. -/
theorem horizon_exact (mms : List (List (ℤ × ℤ))) :
    ((∀ mm ∈ mms, mm.length < 3) → computeHorizon mms = -1) ∧
    ((∃ mm ∈ mms, 3 ≤ mm.length) → 1 ≤ computeHorizon mms) ∧
    (∀ mm ∈ mms, ∀ j k, 3 ≤ j → j ≤ mm.length → 1 ≤ k → k ≤ j - 2 → Overlaps mm k j →
      (j : ℤ) - k ≤ computeHorizon mms) ∧
    (1 < computeHorizon mms → ∃ mm ∈ mms, ∃ j k, 3 ≤ j ∧ j ≤ mm.length ∧ 1 ≤ k ∧ k ≤ j - 2 ∧
      Overlaps mm k j ∧ computeHorizon mms = j - k) := by
  have key : ∀ (mms : List (List (ℤ × ℤ))) (h0 : ℤ),
      let h := mms.foldl (fun h mm => horizGoal mm h) h0
      h0 ≤ h ∧ ((∀ mm ∈ mms, mm.length < 3) → h = h0) ∧ ((∃ mm ∈ mms, 3 ≤ mm.length) → 1 ≤ h) ∧
      (∀ mm ∈ mms, ∀ j k, 3 ≤ j → j ≤ mm.length → 1 ≤ k → k ≤ j - 2 → Overlaps mm k j →
        (j : ℤ) - k ≤ h) ∧
      (h = h0 ∨ h = 1 ∨ ∃ mm ∈ mms, ∃ j k, 3 ≤ j ∧ j ≤ mm.length ∧ 1 ≤ k ∧ k ≤ j - 2 ∧
        Overlaps mm k j ∧ h = j - k) := by
    intro mms
    induction mms with
    | nil => intro h0; exact ⟨le_rfl, fun _ => rfl, by simp, by simp, Or.inl rfl⟩
    | cons mm mms ih =>
      intro h0
      obtain ⟨b1, b2, b3, b4⟩ := horizGoal_spec mm h0
      obtain ⟨c1, c2, c3, c4, c5⟩ := ih (horizGoal mm h0)
      simp only [List.foldl_cons]
      refine ⟨le_trans b1 c1, ?_, ?_, ?_, ?_⟩
      · intro h
        have hm := h mm List.mem_cons_self
        rw [c2 fun m hm => h m (List.mem_cons_of_mem _ hm)]
        rcases b4 with b4 | ⟨b4, _⟩ | ⟨j, k, d1, d2, _⟩
        · exact b4
        · omega
        · omega
      · rintro ⟨m, hm, hl⟩
        rcases List.mem_cons.1 hm with rfl | hm
        · exact le_trans (b3 hl) c1
        · exact c3 ⟨m, hm, hl⟩
      · intro m hm j k h1 h2 h3 h4 h5
        rcases List.mem_cons.1 hm with rfl | hm
        · exact le_trans (b2 j k h1 h2 h3 h4 h5) c1
        · exact c4 m hm j k h1 h2 h3 h4 h5
      · rcases c5 with c5 | c5 | ⟨m, hm, c5⟩
        · rw [c5]
          rcases b4 with b4 | ⟨_, b4⟩ | ⟨j, k, b4⟩
          · left; exact b4
          · right; left; exact b4
          · right; right; exact ⟨mm, List.mem_cons_self, j, k, b4⟩
        · right; left; exact c5
        · right; right; exact ⟨m, List.mem_cons_of_mem _ hm, c5⟩
  obtain ⟨_, k2, k3, k4, k5⟩ := key mms (-1)
  have e : computeHorizon mms = mms.foldl (fun h mm => horizGoal mm h) (-1) := rfl
  rw [← e] at k2 k3 k4 k5
  refine ⟨k2, k3, k4, ?_⟩
  intro h1
  rcases k5 with k5 | k5 | k5
  · omega
  · omega
  · exact k5

/-! ## The arrays -/

theorem minmaxFrom_spec {m : ℕ} (cover : Bdd (2 * (ne + ns)) → List (CubeArr (2 * (ne + ns))))
    (hcov : ∀ f, IsCover f (cover f)) (offw : List (ℕ × ℕ)) (hl : LayoutOk (ne + ns) offw)
    (goal : Finset (BState ne ns)) : ∀ (L : List (Level (Val ne) (Val ns) m)) (Y : Finset (BState ne ns)),
    ∃ l, minmaxFrom cover offw goal Y L = .ok l ∧ l.length = L.length ∧
      ∀ (j : ℕ) Yp Yn p, (Y :: L.map Level.Y)[j]? = some Yp → (L.map Level.Y)[j]? = some Yn → l[j]? = some p →
        boundsDDset (ne + ns) (cover (bddOf (Yn ∩ Ypᶜ))) (cover (bddOf goal)) offw = .ok p := by
  intro L
  induction L with
  | nil => intro Y; exact ⟨[], rfl, rfl, fun j _ _ _ _ h => by simp at h⟩
  | cons lv L ih =>
    intro Y
    obtain ⟨mm, e, _⟩ := bounds_DDset_exact (lv.Y ∩ Yᶜ) goal _ _ (hcov _) (hcov _) offw hl
    obtain ⟨l, h1, h2, h3⟩ := ih lv.Y
    refine ⟨mm :: l, ?_, by simp [h2], ?_⟩
    · unfold minmaxFrom
      rw [e, h1]
    · intro j Yp Yn p hp hn hl
      cases j with
      | zero =>
        simp only [List.getElem?_cons_zero, List.map_cons, Option.some.injEq] at hp hn hl
        rw [← hp, ← hn, ← hl]; exact e
      | succ j =>
        rw [List.map_cons] at hp hn
        rw [List.getElem?_cons_succ] at hp hn hl
        exact h3 j Yp Yn p hp hn hl

theorem foldr_ok {α β : Type} (f : α → CRes β) (is : List α) (g : α → β) (h : ∀ i ∈ is, f i = .ok (g i)) :
    is.foldr (fun i acc => consOk (f i) acc) (.ok []) = .ok (is.map g) := by
  induction is with
  | nil => rfl
  | cons i is ih =>
    rw [List.foldr_cons, ih fun i hi => h i (List.mem_cons_of_mem _ hi), h i List.mem_cons_self]
    rfl

/-- Specification of the arrays of one goal: entry 0 is 0; entry `j ≥ 1` holds the least and greatest
distance to the goal set over the states of `Y_{j+1}` that are not in `Y_j`. -/
structure MinmaxSpec {m : ℕ} (G : Game (Val ne) (Val ns)) (eg : Fin m → Finset (BState ne ns))
    (goal : Finset (BState ne ns)) (offw : List (ℕ × ℕ)) (mm : List (ℤ × ℤ)) : Prop where
  length : mm.length + 1 = (sublevels G eg goal).length
  zero : ∀ h : 0 < mm.length, mm[0] = (0, 0)
  level : ∀ j (h : j < mm.length), 1 ≤ j → ∀ hg : goal.Nonempty,
    IsBounds (ylev G eg goal (j + 1) \ ylev G eg goal j) (setDist offw goal hg) mm[j]
  nogoal : ∀ j (h : j < mm.length), 1 ≤ j → goal = ∅ → mm[j] = (-1, -1)

theorem minmaxGoal_spec {m : ℕ} (cover : Bdd (2 * (ne + ns)) → List (CubeArr (2 * (ne + ns))))
    (hcov : ∀ f, IsCover f (cover f)) (offw : List (ℕ × ℕ)) (hl : LayoutOk (ne + ns) offw)
    (G : Game (Val ne) (Val ns)) (eg : Fin m → Finset (BState ne ns)) (goal : Finset (BState ne ns))
    (h2 : 2 ≤ (sublevels G eg goal).length) :
    ∃ mm, minmaxGoal cover offw goal (sublevels G eg goal) = .ok mm ∧ MinmaxSpec G eg goal offw mm := by
  have hY := sublevels_Y G eg goal
  have hst := sublevels_strict G eg goal
  generalize hL : sublevels G eg goal = L at h2 hY hst ⊢
  match L, h2 with
  | l0 :: l1 :: rest, _ =>
    obtain ⟨l, e1, e2, e3⟩ := minmaxFrom_spec cover hcov offw hl goal rest l1.Y
    refine ⟨(0, 0) :: l, by unfold minmaxGoal; dsimp only; rw [e1], ?_, fun _ => rfl, ?_, ?_⟩
    · rw [hL]; simp [e2]
    all_goals
      intro j hj hj1
      obtain ⟨j, rfl⟩ := Nat.exists_eq_add_of_le' hj1
      have hjl : j < l.length := by simpa using hj
      have hjr : j < rest.length := by omega
      have e := e3 j (ylev G eg goal (j + 1)) (ylev G eg goal (j + 1 + 1)) l[j] (by
          have h := hY (j + 1) (by simp; omega)
          cases j with
          | zero => simpa using h
          | succ j =>
            rw [List.getElem?_cons_succ, List.getElem?_map, List.getElem?_eq_getElem (by omega)]
            simpa using h) (by
          have h := hY (j + 2) (by simp; omega)
          rw [List.getElem?_map, List.getElem?_eq_getElem hjr]
          simpa using h) (List.getElem?_eq_getElem hjl)
      rw [← Finset.sdiff_eq_inter_compl] at e
      obtain ⟨mm, f1, f2, f3⟩ := bounds_DDset_exact (ylev G eg goal (j + 1 + 1) \ ylev G eg goal (j + 1))
        goal _ _ (hcov _) (hcov _) offw hl
      rw [e] at f1
      injection f1 with f1
      simp only [List.getElem_cons_succ]
      rw [f1]
    · intro hg
      refine f3 hg ?_
      have := hst (j + 1) (by simp; omega)
      rw [Finset.ssubset_iff_subset_ne] at this
      intro h0
      rw [Finset.sdiff_eq_empty_iff_subset] at h0
      exact this.2 (Finset.Subset.antisymm this.1 h0)
    · intro hg
      exact f2 (Or.inr hg)

variable {m n : ℕ}

theorem sublevels_two {G : Game (Val ne) (Val ns)} {eg : Fin m → Finset (BState ne ns)}
    {sg : Fin n → Finset (BState ne ns)} {W : Finset (BState ne ns)} (hm : 0 < m) (hn : 0 < n)
    (hW : winningSet G eg sg = some W) (i : Fin n) :
    (W = ∅ → (sublevels G eg (sg i ∩ W)).length = 1) ∧ (W ≠ ∅ → 2 ≤ (sublevels G eg (sg i ∩ W)).length) := by
  have h1 := sublevels_last G eg (sg i ∩ W)
  have h2 := sublevels_length_pos G eg (sg i ∩ W)
  rw [muY_goal_W hm hn hW i] at h1
  constructor
  · intro h
    by_contra hc
    have h3 := sublevels_strict G eg (sg i ∩ W) ((sublevels G eg (sg i ∩ W)).length - 2) (by omega)
    rw [show (sublevels G eg (sg i ∩ W)).length - 2 + 1 = (sublevels G eg (sg i ∩ W)).length - 1 by omega, h1, h] at h3
    exact absurd h3 (Finset.not_ssubset_empty _)
  · intro h
    by_contra hc
    rw [show (sublevels G eg (sg i ∩ W)).length - 1 = 0 by omega] at h1
    exact h h1.symm

/-- **C52, arrays.** For a nonempty winning set `compute_minmax` fills the arrays as specified. -/
theorem minmax_exact (cover : Bdd (2 * (ne + ns)) → List (CubeArr (2 * (ne + ns))))
    (hcov : ∀ f, IsCover f (cover f)) (offw : List (ℕ × ℕ)) (hl : LayoutOk (ne + ns) offw)
    (G : Game (Val ne) (Val ns)) (eg : Fin m → Finset (BState ne ns)) (sg : Fin n → Finset (BState ne ns))
    (W : Finset (BState ne ns)) (hm : 0 < m) (hn : 0 < n) (hW : winningSet G eg sg = some W) (hne : W ≠ ∅) :
    ∃ mms : Fin n → List (ℤ × ℤ),
      computeMinmax cover offw G W eg sg = .ok ((List.finRange n).map mms) ∧
      ∀ i, MinmaxSpec G eg (sg i ∩ W) offw (mms i) := by
  have h : ∀ i, ∃ mm, minmaxGoal cover offw (sg i ∩ W) (sublevels G eg (sg i ∩ W)) = .ok mm ∧
      MinmaxSpec G eg (sg i ∩ W) offw mm := fun i =>
    minmaxGoal_spec cover hcov offw hl G eg (sg i ∩ W) ((sublevels_two hm hn hW i).2 hne)
  choose mms h1 h2 using h
  refine ⟨mms, ?_, h2⟩
  unfold computeMinmax computeSublevels
  rw [if_pos hn]
  exact foldr_ok _ _ mms fun i _ => h1 i

/-- **Defect.** For an empty winning set (every specification without a winning state) `compute_minmax`
writes outside the arrays it allocated. -/
theorem minmax_empty_ub (cover : Bdd (2 * (ne + ns)) → List (CubeArr (2 * (ne + ns))))
    (offw : List (ℕ × ℕ)) (G : Game (Val ne) (Val ns)) (eg : Fin m → Finset (BState ne ns))
    (sg : Fin n → Finset (BState ne ns)) (hm : 0 < m) (hn : 0 < n) (hW : winningSet G eg sg = some ∅) :
    computeMinmax cover offw G ∅ eg sg = .ub := by
  unfold computeMinmax computeSublevels
  rw [if_pos hn]
  dsimp only
  obtain ⟨n, rfl⟩ := Nat.exists_eq_add_of_le' hn
  rw [List.finRange_succ, List.foldr_cons]
  have h := (sublevels_two hm hn hW 0).1 rfl
  obtain ⟨x, hx⟩ := List.length_eq_one_iff.1 h
  rw [hx]
  rfl

/-- **C52, meaning of the horizon.** A state of level `j ≥ 3` is strictly farther from the goal than every
state that lies more than the horizon below it, on level 2 or above. (For level 1 see
`horizon_level1_wrong`.) -/
theorem horizon_separates_partial (cover : Bdd (2 * (ne + ns)) → List (CubeArr (2 * (ne + ns))))
    (hcov : ∀ f, IsCover f (cover f)) (offw : List (ℕ × ℕ)) (hl : LayoutOk (ne + ns) offw)
    (G : Game (Val ne) (Val ns)) (eg : Fin m → Finset (BState ne ns)) (sg : Fin n → Finset (BState ne ns))
    (W : Finset (BState ne ns)) (hm : 0 < m) (hn : 0 < n) (hW : winningSet G eg sg = some W)
    (arr : List (List (ℤ × ℤ))) (hc : computeMinmax cover offw G W eg sg = .ok arr)
    (i : Fin n) (hg : (sg i ∩ W).Nonempty) (j k : ℕ) (hk : 2 ≤ k)
    (hjk : computeHorizon arr < (j : ℤ) - k) (hkj : k + 2 ≤ j) (s t : BState ne ns)
    (hs : s ∈ ylev G eg (sg i ∩ W) j \ ylev G eg (sg i ∩ W) (j - 1))
    (ht : t ∈ ylev G eg (sg i ∩ W) k \ ylev G eg (sg i ∩ W) (k - 1)) :
    setDist offw (sg i ∩ W) hg t < setDist offw (sg i ∩ W) hg s := by
  have hne : W ≠ ∅ := by
    rintro rfl
    simp at hg
  obtain ⟨mms, h1, h2⟩ := minmax_exact cover hcov offw hl G eg sg W hm hn hW hne
  rw [hc] at h1
  injection h1 with h1
  have hi := h2 i
  have hmem : mms i ∈ arr := by rw [h1]; exact List.mem_map_of_mem (List.mem_finRange i)
  -- level j is an entry of the array
  have hjlen : j ≤ (mms i).length := by
    by_contra hcon
    have hlast := sublevels_last G eg (sg i ∩ W)
    have hle : (sublevels G eg (sg i ∩ W)).length - 1 ≤ j - 1 := by
      have := hi.length; omega
    have hsub := ylev_mono G eg (sg i ∩ W) hle
    rw [hlast] at hsub
    rw [Finset.mem_sdiff] at hs
    exact hs.2 (hsub (ylev_subset_muY G eg (sg i ∩ W) j hs.1))
  have bj := hi.level (j - 1) (by omega) (by omega) hg
  have bk := hi.level (k - 1) (by omega) (by omega) hg
  rw [show j - 1 + 1 = j by omega] at bj
  rw [show k - 1 + 1 = k by omega] at bk
  have h3 := (bj.bounds s hs).1
  have h4 := (bk.bounds t ht).2
  by_contra hcon
  push Not at hcon
  have : Overlaps (mms i) k j := by
    unfold Overlaps
    rw [List.getD_eq_getElem?_getD, List.getD_eq_getElem?_getD,
      List.getElem?_eq_getElem (by omega : k - 1 < (mms i).length),
      List.getElem?_eq_getElem (by omega : j - 1 < (mms i).length), Option.getD_some, Option.getD_some]
    omega
  have := (horizon_exact arr).2.2.1 (mms i) hmem j k (by omega) hjlen (by omega) (by omega) this
  omega

/-! ## Witness and examples -/

namespace MetEx

/-- The state with value `x` of the only variable, which has two bits. -/
def st (x : ℕ) : BState 0 2 := (fun _ => false, fun i => x / 2 ^ i.val % 2 == 1)

/-- Value of the variable. -/
def val (s : BState 0 2) : ℕ := (s.2 0).toNat + 2 * (s.2 1).toNat

/-- 0 and 3 stay, 2 goes to 1, 1 goes to 0. -/
def G : Game (Val 0) (Val 2) where
  etr _ _ := true
  str s t := val t == (match val s with | 0 => 0 | 1 => 0 | 2 => 1 | _ => 3)

/-- Environment goal: `x != 3`. System goal: `x = 0`. -/
def eg : Fin 1 → Finset (BState 0 2) := fun _ => Finset.univ.filter fun s => val s ≠ 3
def sg : Fin 1 → Finset (BState 0 2) := fun _ => Finset.univ.filter fun s => val s = 0

theorem goal_eq : sg 0 ∩ Finset.univ = {st 0} := by decide +kernel
theorem win_all : winningSet G eg sg = some Finset.univ := by decide +kernel
theorem levels_eq : (sublevels G eg (sg 0 ∩ Finset.univ)).map Level.Y =
    [∅, {st 0, st 3}, {st 0, st 3, st 1}, Finset.univ] := by decide +kernel

end MetEx

theorem isBounds_singleton {α : Type} (a : α) (f : α → ℤ) (mm : ℤ × ℤ) (h : IsBounds {a} f mm) :
    mm = (f a, f a) := by
  obtain ⟨s, hs, h1⟩ := h.least
  obtain ⟨t, ht, h2⟩ := h.greatest
  rw [Finset.mem_singleton] at hs ht
  subst hs; subst ht
  exact Prod.ext h1.symm h2.symm

/-- **Level 1 is not covered by the horizon.** Entry 0 of the arrays is 0 although level 1 also contains
the states from which the environment can be kept from its goal. With the variable `x [0,3]`, system goal
`x=0`, environment goal `x!=3` and the system moves 0 to 0, 1 to 0, 2 to 1, 3 to 3, for every cover:
the horizon is 1; state 2 is on level 3 with distance 2; state 3 is on level 1 with distance 3. -/
theorem horizon_level1_wrong (cover : Bdd (2 * (0 + 2)) → List (CubeArr (2 * (0 + 2))))
    (hcov : ∀ f, IsCover f (cover f)) :
    ∃ arr, computeMinmax cover [(0, 2)] MetEx.G Finset.univ MetEx.eg MetEx.sg = .ok arr ∧
      computeHorizon arr = 1 ∧
      MetEx.st 2 ∈ ylev MetEx.G MetEx.eg (MetEx.sg 0 ∩ Finset.univ) 3 \
        ylev MetEx.G MetEx.eg (MetEx.sg 0 ∩ Finset.univ) 2 ∧
      MetEx.st 3 ∈ ylev MetEx.G MetEx.eg (MetEx.sg 0 ∩ Finset.univ) 1 \
        ylev MetEx.G MetEx.eg (MetEx.sg 0 ∩ Finset.univ) 0 ∧
      ∀ hg, setDist [(0, 2)] (MetEx.sg 0 ∩ Finset.univ) hg (MetEx.st 2) = 2 ∧
        setDist [(0, 2)] (MetEx.sg 0 ∩ Finset.univ) hg (MetEx.st 3) = 3 := by
  have hlen : (sublevels MetEx.G MetEx.eg (MetEx.sg 0 ∩ Finset.univ)).length = 4 := by
    rw [← List.length_map (f := Level.Y), MetEx.levels_eq]; rfl
  have hY : ∀ j (h : j < 4), ylev MetEx.G MetEx.eg (MetEx.sg 0 ∩ Finset.univ) j =
      ([∅, {MetEx.st 0, MetEx.st 3}, {MetEx.st 0, MetEx.st 3, MetEx.st 1}, Finset.univ] :
        List (Finset (BState 0 2)))[j] := by
    intro j h
    rw [← sublevels_Y _ _ _ j (by rw [hlen]; exact h)]
    have := congrArg (fun l => l[j]?) MetEx.levels_eq
    simp only [List.getElem?_map] at this
    rw [List.getElem?_eq_getElem (by rw [hlen]; exact h), List.getElem?_eq_getElem h] at this
    simpa using this
  have hgne : (MetEx.sg 0 ∩ Finset.univ).Nonempty := by rw [MetEx.goal_eq]; exact Finset.singleton_nonempty _
  have hd : ∀ hg t, setDist [(0, 2)] (MetEx.sg 0 ∩ Finset.univ) hg t = manhattan [(0, 2)] t (MetEx.st 0) := by
    intro hg t
    unfold setDist
    simp only [MetEx.goal_eq]
    exact Finset.inf'_singleton _
  obtain ⟨mms, h1, h2⟩ := minmax_exact cover hcov [(0, 2)] (by unfold LayoutOk; decide) MetEx.G MetEx.eg MetEx.sg
    Finset.univ (by decide) (by decide) MetEx.win_all (by decide +kernel)
  have hs := h2 0
  have hl3 : (mms 0).length = 3 := by have := hs.length; rw [hlen] at this; omega
  have e0 := hs.zero (by omega)
  have e1 := hs.level 1 (by omega) le_rfl hgne
  have e2 := hs.level 2 (by omega) (by omega) hgne
  rw [hY 2 (by omega), hY 1 (by omega)] at e1
  rw [hY 3 (by omega), hY 2 (by omega)] at e2
  rw [show ([∅, {MetEx.st 0, MetEx.st 3}, {MetEx.st 0, MetEx.st 3, MetEx.st 1}, Finset.univ] :
        List (Finset (BState 0 2)))[2] \ ([∅, {MetEx.st 0, MetEx.st 3}, {MetEx.st 0, MetEx.st 3, MetEx.st 1},
        Finset.univ] : List (Finset (BState 0 2)))[1] = {MetEx.st 1} by decide +kernel] at e1
  rw [show ([∅, {MetEx.st 0, MetEx.st 3}, {MetEx.st 0, MetEx.st 3, MetEx.st 1}, Finset.univ] :
        List (Finset (BState 0 2)))[3] \ ([∅, {MetEx.st 0, MetEx.st 3}, {MetEx.st 0, MetEx.st 3, MetEx.st 1},
        Finset.univ] : List (Finset (BState 0 2)))[2] = {MetEx.st 2} by decide +kernel] at e2
  have f1 := isBounds_singleton _ _ _ e1
  have f2 := isBounds_singleton _ _ _ e2
  rw [hd, show manhattan [(0, 2)] (MetEx.st 1) (MetEx.st 0) = 1 by decide +kernel] at f1
  rw [hd, show manhattan [(0, 2)] (MetEx.st 2) (MetEx.st 0) = 2 by decide +kernel] at f2
  have hmm : mms 0 = [(0, 0), (1, 1), (2, 2)] := by
    apply List.ext_getElem (by rw [hl3]; rfl)
    intro j hj hj'
    have : j = 0 ∨ j = 1 ∨ j = 2 := by omega
    rcases this with rfl | rfl | rfl
    · exact e0
    · exact f1
    · exact f2
  refine ⟨_, h1, ?_, ?_, ?_, ?_⟩
  · rw [show List.finRange 1 = [0] from rfl, List.map_cons, List.map_nil, hmm]; decide
  · rw [hY 3 (by omega), hY 2 (by omega)]
    simp only [List.getElem_cons_succ, List.getElem_cons_zero]; decide +kernel
  · rw [hY 1 (by omega), hY 0 (by omega)]
    simp only [List.getElem_cons_succ, List.getElem_cons_zero]; decide +kernel
  · intro hg
    rw [hd, hd]
    decide +kernel

/-- Covers as required exist (`mintermCover`), so the witness is not vacuous. -/
example : ∃ arr, computeMinmax mintermCover [(0, 2)] MetEx.G Finset.univ MetEx.eg MetEx.sg = .ok arr ∧
    computeHorizon arr = 1 := by
  obtain ⟨arr, h1, h2, _⟩ := horizon_level1_wrong mintermCover mintermCover_isCover
  exact ⟨arr, h1, h2⟩

/-- `bounds_state` on the set {1, 3} (a cube with bit 0 set) from the reference state 2. -/
example : boundsState (N := 4) 2 [fun i => if i = 0 then 1 else 2] [0, 1] [(0, 2)] = .ok (1, 1) := by
  decide +kernel
example : boundsState (N := 4) 2 [fun i => if i = 0 then 1 else 2] [0, 0] [(0, 2)] = .ok (1, 3) := by
  decide +kernel

/-- `bounds_DDset` from {1, 3} to {0}, and with an empty set. -/
example : boundsDDset (N := 4) 2 [fun i => if i = 0 then 1 else 2]
    [fun i => if i.val < 2 then 0 else 2] [(0, 2)] = .ok (1, 3) := by decide +kernel
example : boundsDDset (N := 4) 2 [fun i => if i = 0 then 1 else 2] [] [(0, 2)] = .ok (-1, -1) := by
  decide +kernel

/-- Levels 1 to 5; levels 5 and 2 overlap. -/
example : computeHorizon [[(0, 0), (1, 4), (2, 3), (3, 6), (4, 8)]] = 3 := by decide

end Gr1c
