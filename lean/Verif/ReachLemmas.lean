import Verif.ReachGame
import Verif.ReachSpec
import Verif.SynthInv
import Verif.WinProps

/-!
# Helper lemmas for the reachability game
-/

namespace Gr1c

set_option linter.unusedSectionVars false

variable {E S : Type} [Fintype E] [DecidableEq E] [Fintype S] [DecidableEq S] {m : ℕ}
  {G : Game E S} {Entry Exit N : Finset (E × S)} {eg : Fin m → Finset (E × S)}

/-! ## The levels -/

theorem mem_reachStep {Y : Finset (E × S)} {a : E × S} :
    a ∈ reachStep G Exit N eg Y ↔ (∃ r, a ∈ reachX G Exit N eg Y r) ∨ a ∈ Y := by
  unfold reachStep
  rw [Finset.mem_union, mem_foldl_union (List.finRange m) (fun r => reachX G Exit N eg Y r)]
  simp

theorem reachX_eq (Y : Finset (E × S)) (r : Fin m) :
    reachX G Exit N eg Y r = nuX G (Exit ∪ (pre G Y ∩ N)) (N ∩ (eg r)ᶜ) := rfl

theorem reachX_cases {Y : Finset (E × S)} {r : Fin m} {s : E × S} (h : s ∈ reachX G Exit N eg Y r) :
    s ∈ Exit ∨ (s ∈ pre G Y ∧ s ∈ N) ∨
      (s ∈ pre G (reachX G Exit N eg Y r) ∧ s ∈ N ∧ s ∉ eg r) := by
  rw [reachX_eq, nuX_eq] at h
  simp only [Finset.mem_union, Finset.mem_inter, Finset.mem_compl] at h
  rcases h with (h | h) | h
  · exact Or.inl h
  · exact Or.inr (Or.inl h)
  · exact Or.inr (Or.inr h)

theorem exit_subset_reachX (Y : Finset (E × S)) (r : Fin m) : Exit ⊆ reachX G Exit N eg Y r := by
  rw [reachX_eq]
  exact Finset.subset_union_left.trans (base_subset_nuX _ _ _)

/-- The `k`-th level. -/
def rlev (G : Game E S) (Exit N : Finset (E × S)) (eg : Fin m → Finset (E × S)) (k : ℕ) :
    Finset (E × S) := (reachStep G Exit N eg)^[k] Exit

theorem rlev_succ (k : ℕ) :
    rlev G Exit N eg (k + 1) = reachStep G Exit N eg (rlev G Exit N eg k) := by
  unfold rlev; rw [Function.iterate_succ_apply']

theorem rlev_mono : Monotone (rlev G Exit N eg) := by
  apply monotone_nat_of_le_succ
  intro k a ha
  rw [rlev_succ]
  exact mem_reachStep.2 (Or.inr ha)

theorem exit_subset_rlev (k : ℕ) : Exit ⊆ rlev G Exit N eg k := rlev_mono (Nat.zero_le k)

theorem rlev_subset_N (hX : Exit ⊆ N) (k : ℕ) : rlev G Exit N eg k ⊆ N := by
  induction k with
  | zero => exact hX
  | succ k ih =>
    intro a ha
    rw [rlev_succ] at ha
    rcases mem_reachStep.1 ha with ⟨r, h⟩ | h
    · rcases reachX_cases h with h | h | h
      · exact hX h
      · exact h.2
      · exact h.2.1
    · exact ih h

theorem reachX_subset_rlev (k : ℕ) (r : Fin m) :
    reachX G Exit N eg (rlev G Exit N eg k) r ⊆ rlev G Exit N eg (k + 1) := by
  intro a ha
  rw [rlev_succ]
  exact mem_reachStep.2 (Or.inl ⟨r, ha⟩)

theorem reachFrom_get (Y : Finset (E × S)) : ∀ k, Y = rlev G Exit N eg k →
    (∀ l, reachFrom G Entry Exit N eg Y = some l →
      (∀ j (hj : j < l.length), l[j].Y = rlev G Exit N eg (k + j + 1) ∧
        ∀ r, l[j].X r = reachX G Exit N eg (rlev G Exit N eg (k + j)) r) ∧
      Entry ⊆ rlev G Exit N eg (k + l.length)) ∧
    (reachFrom G Entry Exit N eg Y = none →
      ∃ j, reachStep G Exit N eg (rlev G Exit N eg j) = rlev G Exit N eg j ∧
        ¬ Entry ⊆ rlev G Exit N eg j) := by
  fun_induction reachFrom G Entry Exit N eg Y with
  | case1 Y Y' h1 h2 =>
    intro k hk
    refine ⟨?_, by simp⟩
    rintro l ⟨rfl⟩
    refine ⟨fun j hj => absurd hj (by simp), ?_⟩
    simp only [List.length_nil, Nat.add_zero]
    rw [← hk, ← h2, ← h1]
    exact Finset.subset_union_left
  | case2 Y Y' h1 h2 =>
    intro k hk
    have hY' : Y' = rlev G Exit N eg (k + 1) := by rw [rlev_succ, ← hk]
    refine ⟨?_, by simp⟩
    rintro l ⟨rfl⟩
    refine ⟨?_, ?_⟩
    · intro j hj
      obtain rfl : j = 0 := by simpa using hj
      exact ⟨hY', fun r => by simp [hk]⟩
    · simp only [List.length_cons, List.length_nil, Nat.zero_add]
      rw [← hY', ← h1]
      exact Finset.subset_union_left
  | case3 Y Y' h1 h2 =>
    intro k hk
    refine ⟨by simp, fun _ => ⟨k, ?_, ?_⟩⟩
    · rw [← hk]; exact h2
    · intro h
      apply h1
      rw [← hk, ← h2] at h
      exact Finset.union_eq_right.2 h
  | case4 Y Y' h1 h2 ih =>
    intro k hk
    have hY' : Y' = rlev G Exit N eg (k + 1) := by rw [rlev_succ, ← hk]
    obtain ⟨ih1, ih2⟩ := ih (k + 1) hY'
    refine ⟨?_, ?_⟩
    · intro l hl
      cases hr : reachFrom G Entry Exit N eg Y' with
      | none => rw [hr] at hl; simp at hl
      | some l' =>
        rw [hr] at hl
        simp only [Option.map_some, Option.some.injEq] at hl
        subst hl
        obtain ⟨a, b⟩ := ih1 l' hr
        refine ⟨?_, ?_⟩
        · intro j hj
          cases j with
          | zero => exact ⟨hY', fun r => by simp [hk]⟩
          | succ j =>
            have := a j (by simpa using hj)
            simp only [List.getElem_cons_succ]
            rw [show k + (j + 1) + 1 = k + 1 + j + 1 by omega, show k + (j + 1) = k + 1 + j by omega]
            exact this
        · rw [List.length_cons, show k + (l'.length + 1) = k + 1 + l'.length by omega]
          exact b
    · intro hn
      cases hr : reachFrom G Entry Exit N eg Y' with
      | none => exact ih2 hr
      | some l' => rw [hr] at hn; simp at hn

/-- What the list of levels contains. -/
theorem reachLevels_spec {L : List (Level E S m)} (h : reachLevels G Entry Exit N eg = some L) :
    0 < L.length ∧ (∀ j (hj : j < L.length), L[j].Y = rlev G Exit N eg j) ∧
    (∀ h0 : 0 < L.length, ∀ r, L[0].X r = ∅) ∧
    (∀ j (hj : j + 1 < L.length) r, L[j + 1].X r = reachX G Exit N eg (rlev G Exit N eg j) r) ∧
    Entry ⊆ rlev G Exit N eg (L.length - 1) := by
  unfold reachLevels at h
  cases hr : reachFrom G Entry Exit N eg Exit with
  | none => rw [hr] at h; simp at h
  | some l =>
    rw [hr] at h
    simp only [Option.map_some, Option.some.injEq] at h
    subst h
    obtain ⟨a, b⟩ := (reachFrom_get (G := G) (Entry := Entry) (N := N) (eg := eg) Exit 0 rfl).1 l hr
    refine ⟨by simp, ?_, fun _ _ => rfl, ?_, ?_⟩
    · intro j hj
      cases j with
      | zero => rfl
      | succ j =>
        have := (a j (by simpa using hj)).1
        rw [Nat.zero_add] at this
        exact this
    · intro j hj r
      have := (a j (by simpa using hj)).2 r
      rw [Nat.zero_add] at this
      exact this
    · simpa using b

theorem reachLevels_none (h : reachLevels G Entry Exit N eg = none) :
    ∃ j, reachStep G Exit N eg (rlev G Exit N eg j) = rlev G Exit N eg j ∧
      ¬ Entry ⊆ rlev G Exit N eg j := by
  unfold reachLevels at h
  rw [Option.map_eq_none_iff] at h
  exact (reachFrom_get (G := G) (Entry := Entry) (N := N) (eg := eg) Exit 0 rfl).2 h

/-! ## Reduction to a GR(1) game -/

/-- The game in which `Exit` is absorbing and the system is stuck outside of `N`. -/
def absorb (G : Game E S) (Exit N : Finset (E × S)) : Game E S :=
  ⟨fun s e => if s ∈ Exit then decide (e = s.1) else (G.etr s e || decide (s ∉ N)),
   fun s t => if s ∈ Exit then decide (t = s) else (G.str s t && decide (s ∈ N))⟩

theorem mem_pre_absorb_exit {C : Finset (E × S)} {s : E × S} (h : s ∈ Exit) :
    s ∈ pre (absorb G Exit N) C ↔ s ∈ C := by
  rw [mem_pre]
  simp only [absorb, h, if_true, decide_eq_true_eq]
  constructor
  · intro hh
    obtain ⟨x', h1, h2⟩ := hh s.1 rfl
    rw [← h1]; exact h2
  · rintro hc e' rfl
    exact ⟨s.2, rfl, hc⟩

theorem mem_pre_absorb {C : Finset (E × S)} {s : E × S} (h : s ∉ Exit) :
    s ∈ pre (absorb G Exit N) C ↔ s ∈ pre G C ∧ s ∈ N := by
  rw [mem_pre, mem_pre]
  simp only [absorb, h, if_false, Bool.or_eq_true, Bool.and_eq_true, decide_eq_true_eq]
  constructor
  · intro hh
    have hN : s ∈ N := by
      by_contra hn
      obtain ⟨x', h1, _⟩ := hh s.1 (Or.inr hn)
      exact hn h1.2
    refine ⟨fun e' he => ?_, hN⟩
    obtain ⟨x', h1, h2⟩ := hh e' (Or.inl he)
    exact ⟨x', h1.1, h2⟩
  · rintro ⟨hh, hN⟩ e' (he | he)
    · obtain ⟨x', h1, h2⟩ := hh e' he
      exact ⟨x', ⟨h1, hN⟩, h2⟩
    · exact absurd hN he

/-- A fixpoint of the level computation contains what is winning in the absorbing game. -/
theorem absorb_subset (hm : 0 < m) {Y W : Finset (E × S)} (hE : Exit ⊆ Y)
    (hfix : reachStep G Exit N eg Y = Y)
    (hW : winningSet (absorb G Exit N) eg (fun _ : Fin 1 => Exit) = some W) : W ⊆ Y := by
  refine (winningSet_post hm hW 0).trans ?_
  apply muY_least
  intro r
  set X := nuX (absorb G Exit N) (Exit ∩ pre (absorb G Exit N) W ∪ pre (absorb G Exit N) Y) (eg r)ᶜ
    with hX
  have h1 : X ⊆ reachX G Exit N eg Y r ∪ Exit := by
    have : X ∪ Exit ⊆ reachX G Exit N eg Y r := by
      rw [reachX_eq]
      apply nuX_greatest
      intro s hs
      simp only [Finset.mem_union, Finset.mem_inter, Finset.mem_compl]
      by_cases he : s ∈ Exit
      · exact Or.inl (Or.inl he)
      · have hsX : s ∈ X := by
          rcases Finset.mem_union.1 hs with h | h
          · exact h
          · exact absurd h he
        rw [hX, nuX_eq, ← hX] at hsX
        simp only [Finset.mem_union, Finset.mem_inter, Finset.mem_compl] at hsX
        rcases hsX with (h | h) | h
        · exact absurd h.1 he
        · exact Or.inl (Or.inr ((mem_pre_absorb he).1 h))
        · have := (mem_pre_absorb he).1 h.1
          exact Or.inr ⟨pre_mono Finset.subset_union_left this.1, this.2, h.2⟩
    exact fun s hs => Finset.mem_union_left _ (this (Finset.mem_union_left _ hs))
  intro s hs
  rcases Finset.mem_union.1 (h1 hs) with h | h
  · rw [← hfix]; exact mem_reachStep.2 (Or.inl ⟨r, h⟩)
  · exact hE h

/-- Every level is winning in the absorbing game. -/
theorem subset_absorb (hm : 0 < m) {W : Finset (E × S)} (k : ℕ)
    (hW : winningSet (absorb G Exit N) eg (fun _ : Fin 1 => Exit) = some W) :
    rlev G Exit N eg k ⊆ W := by
  set Y := rlev G Exit N eg k with hY
  refine winningSet_greatest hW (T := Y) fun _ => ?_
  have hex : Exit ⊆ muY (absorb G Exit N) eg (Exit ∩ pre (absorb G Exit N) Y) := by
    refine Finset.Subset.trans ?_ (goal_subset_muY _ _ _ hm)
    intro s hs
    exact Finset.mem_inter.2 ⟨hs, (mem_pre_absorb_exit hs).2 (exit_subset_rlev k hs)⟩
  have key : ∀ j, rlev G Exit N eg j ⊆ muY (absorb G Exit N) eg (Exit ∩ pre (absorb G Exit N) Y) := by
    intro j
    induction j with
    | zero => exact hex
    | succ j ih =>
      intro s hs
      rw [rlev_succ] at hs
      rcases mem_reachStep.1 hs with ⟨r, hr⟩ | h
      · apply muY_closed _ _ _ r
        refine nuX_greatest (T := reachX G Exit N eg (rlev G Exit N eg j) r) ?_ hr
        intro t ht
        simp only [Finset.mem_union, Finset.mem_inter, Finset.mem_compl]
        by_cases he : t ∈ Exit
        · exact Or.inl (Or.inl ⟨he, (mem_pre_absorb_exit he).2 (exit_subset_rlev k he)⟩)
        · rcases reachX_cases ht with h | h | h
          · exact absurd h he
          · exact Or.inl (Or.inr ((mem_pre_absorb he).2 ⟨pre_mono ih h.1, h.2⟩))
          · exact Or.inr ⟨(mem_pre_absorb he).2 ⟨h.1, h.2.1⟩, h.2.2⟩
      · exact ih h
  exact key k

/-! ### Strategies -/

section Strat
variable {σ : Strategy E S} {s0 : E × S}

theorem notInf_iff {π : ℕ → E × S} {Q : Finset (E × S)} :
    ¬ InfOften π Q ↔ ∃ K, ∀ k, K ≤ k → π k ∉ Q := by
  unfold InfOften
  push Not
  rfl

/-- In the absorbing game a history not in `Exit` now never was. -/
theorem absorb_history {h : List (E × S)} {σ' : Strategy E S}
    (hσ : ∀ s h e, s ∈ Exit → σ' (s :: h) e = some s.2)
    (hc : Consistent (absorb G Exit N) σ' s0 h) :
    ∀ s t, h = s :: t → s ∉ Exit → ∀ u ∈ h, u ∉ Exit := by
  induction hc with
  | start =>
    rintro s t h hs u hu
    simp only [List.cons.injEq] at h
    rw [List.mem_singleton] at hu
    rw [hu, h.1]; exact hs
  | @step s h e' x' hc he hx ih =>
    intro a t heq ha u hu
    simp only [List.cons.injEq] at heq
    have hs : s ∉ Exit := by
      intro hs
      rw [hσ s h e' hs] at hx
      simp only [absorb, hs, if_true, decide_eq_true_eq] at he
      simp only [Option.some.injEq] at hx
      apply ha
      rw [← heq.1, he, ← hx]
      exact hs
    rcases List.mem_cons.1 hu with rfl | hu
    · rw [heq.1]; exact ha
    · exact ih s h rfl hs u hu

/-- From a winning strategy of the reachability game to one of the absorbing game. -/
theorem wins_absorb (hr : ReachWins G (List.ofFn eg) Exit N σ s0) :
    ∃ σ', Wins (absorb G Exit N) eg (fun _ : Fin 1 => Exit) σ' s0 := by
  classical
  obtain ⟨hr1, hr2⟩ := hr
  let σ' : Strategy E S := fun h e =>
    match h with
    | [] => none
    | s :: t => if s ∈ Exit then some s.2 else σ (s :: t) e
  have hσe : ∀ s h e, s ∈ Exit → σ' (s :: h) e = some s.2 := fun s h e hs => by
    simp only [σ', hs, if_true]
  have hσn : ∀ s h e, s ∉ Exit → σ' (s :: h) e = σ (s :: h) e := fun s h e hs => by
    simp only [σ', hs, if_false]
  -- histories outside of `Exit` are those of `σ`
  have hcons : ∀ h, Consistent (absorb G Exit N) σ' s0 h → (∀ u ∈ h, u ∉ Exit) → Consistent G σ s0 h := by
    intro h hc
    induction hc with
    | start => intro _; exact Consistent.start
    | @step s h e' x' hc he hx ih =>
      intro hu
      have hs : s ∉ Exit := hu s (by simp)
      have hc' := ih fun u hu' => hu u (List.mem_cons_of_mem _ hu')
      have hN := (hr1 s h hc' fun u hu' => hu u (List.mem_cons_of_mem _ hu')).1
      simp only [absorb, hs, if_false, Bool.or_eq_true, decide_eq_true_eq] at he
      rw [hσn s h e' hs] at hx
      refine Consistent.step hc' ?_ hx
      rcases he with he | he
      · exact he
      · exact absurd hN he
  refine ⟨σ', ?_, ?_⟩
  · intro s h hc e' he
    by_cases hs : s ∈ Exit
    · refine ⟨s.2, hσe s h e' hs, ?_⟩
      simp only [absorb, hs, if_true, decide_eq_true_eq] at he ⊢
      rw [he]
    · have hu := absorb_history hσe hc s h rfl hs
      obtain ⟨hN, hans⟩ := hr1 s h (hcons _ hc hu) hu
      simp only [absorb, hs, if_false, Bool.or_eq_true, Bool.and_eq_true, decide_eq_true_eq] at he ⊢
      rcases he with he | he
      · obtain ⟨x', h1, h2⟩ := hans e' he
        exact ⟨x', by rw [hσn s h e' hs]; exact h1, h2, hN⟩
      · exact absurd hN he
  · intro π hπ henv _ K
    by_contra hcon
    push Not at hcon
    have hpm : ∀ k j, j ≤ k → π j ∈ pref π k := by
      intro k
      induction k with
      | zero => intro j hj; obtain rfl : j = 0 := by omega
                simp [pref]
      | succ k ih =>
        intro j hj
        by_cases h : j = k + 1
        · subst h; simp [pref]
        · exact List.mem_cons_of_mem _ (ih j (by omega))
    have hpsub : ∀ k u, u ∈ pref π k → ∃ j, j ≤ k ∧ u = π j := by
      intro k
      induction k with
      | zero => intro u hu; exact ⟨0, le_rfl, by simpa [pref] using hu⟩
      | succ k ih =>
        intro u hu
        rcases List.mem_cons.1 hu with rfl | hu
        · exact ⟨k + 1, le_rfl, rfl⟩
        · obtain ⟨j, hj, rfl⟩ := ih u hu
          exact ⟨j, by omega, rfl⟩
    have hno : ∀ k, π k ∉ Exit := by
      intro k
      obtain ⟨t, ht⟩ := pref_cons π (max k K)
      exact absorb_history hσe (hπ (max k K)) _ t ht (hcon _ (le_max_right _ _)) _
        (hpm _ k (le_max_left _ _))
    obtain ⟨Q, hQ, K', hK'⟩ := hr2 π (fun k => hcons _ (hπ k) fun u hu => by
      obtain ⟨j, _, rfl⟩ := hpsub k u hu
      exact hno j) hno
    obtain ⟨r, rfl⟩ := (List.mem_ofFn).1 hQ
    obtain ⟨k, hk, hin⟩ := henv r K'
    exact hK' k hk hin

/-- From a winning strategy of the absorbing game to one of the reachability game. -/
theorem reach_of_absorb (hw : Wins (absorb G Exit N) eg (fun _ : Fin 1 => Exit) σ s0) :
    ReachWins G (List.ofFn eg) Exit N σ s0 := by
  obtain ⟨h1, h2⟩ := hw
  have hcons : ∀ h, Consistent G σ s0 h → (∀ u ∈ h, u ∉ Exit) → Consistent (absorb G Exit N) σ s0 h := by
    intro h hc
    induction hc with
    | start => intro _; exact Consistent.start
    | @step s h e' x' hc he hx ih =>
      intro hu
      have hs : s ∉ Exit := hu s (by simp)
      refine Consistent.step (ih fun u hu' => hu u (List.mem_cons_of_mem _ hu')) ?_ hx
      simp only [absorb, hs, if_false, Bool.or_eq_true]
      exact Or.inl he
  refine ⟨?_, ?_⟩
  · intro s h hc hu
    have hs : s ∉ Exit := hu s (by simp)
    have hans := h1 s h (hcons _ hc hu)
    have hN : s ∈ N := by
      by_contra hn
      obtain ⟨x', _, hx⟩ := hans s.1 (by simp [absorb, hs, hn])
      simp [absorb, hs, hn] at hx
    refine ⟨hN, fun e' he => ?_⟩
    obtain ⟨x', hx1, hx2⟩ := hans e' (by simp [absorb, hs, he])
    refine ⟨x', hx1, ?_⟩
    simp only [absorb, hs, if_false, Bool.and_eq_true] at hx2
    exact hx2.1
  · intro π hπ hno
    by_contra hcon
    push Not at hcon
    have hpsub : ∀ k u, u ∈ pref π k → u ∉ Exit := by
      intro k
      induction k with
      | zero => intro u hu; rw [show u = π 0 by simpa [pref] using hu]; exact hno 0
      | succ k ih =>
        intro u hu
        rcases List.mem_cons.1 hu with rfl | hu
        · exact hno _
        · exact ih u hu
    have := h2 π (fun k => hcons _ (hπ k) (hpsub k)) (fun j K => hcon (eg j) ((List.mem_ofFn).2 ⟨j, rfl⟩) K) 0 0
    obtain ⟨k, _, hk⟩ := this
    exact hno k hk

end Strat

theorem winningSet_some (G : Game E S) (eg : Fin m → Finset (E × S)) (Exit : Finset (E × S)) :
    ∃ W, winningSet G eg (fun _ : Fin 1 => Exit) = some W := by
  unfold winningSet
  rw [dif_pos Nat.one_pos]
  exact ⟨_, rfl⟩

/-- Every state of a level can be won. -/
theorem winnable_of_rlev (hm : 0 < m) {k : ℕ} {s : E × S} (hs : s ∈ rlev G Exit N eg k) :
    ReachWinnable G (List.ofFn eg) Exit N s := by
  obtain ⟨W, hW⟩ := winningSet_some (absorb G Exit N) eg Exit
  obtain ⟨σ, hσ⟩ := wins_of_mem hm Nat.one_pos hW (subset_absorb hm k hW hs)
  exact ⟨σ, reach_of_absorb hσ⟩

/-- A state that can be won is in every level that no longer grows. -/
theorem rlev_of_winnable (hm : 0 < m) {k : ℕ} {s : E × S}
    (hfix : reachStep G Exit N eg (rlev G Exit N eg k) = rlev G Exit N eg k)
    (h : ReachWinnable G (List.ofFn eg) Exit N s) : s ∈ rlev G Exit N eg k := by
  obtain ⟨σ, hσ⟩ := h
  obtain ⟨W, hW⟩ := winningSet_some (absorb G Exit N) eg Exit
  obtain ⟨σ', hσ'⟩ := wins_absorb hσ
  exact absorb_subset hm (exit_subset_rlev k) hfix hW (mem_of_wins (σ0 := σ') hm hW hσ')

end Gr1c
