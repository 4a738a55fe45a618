import Verif.Synth
import Verif.SublevelLemmas
import Verif.AutomatonLemmas

/-!
# Helper lemmas about `synthesize`
-/

namespace Gr1c

set_option linter.unusedSectionVars false

variable {E S : Type} [Fintype E] [DecidableEq E] [Fintype S] [DecidableEq S] {m n : ℕ}

/-! ## Levels -/

theorem shift_spec {G : Game E S} {eg : Fin m → Finset (E × S)} {goal : Finset (E × S)}
    {L : List (Level E S m)} (h : shiftLevels goal (sublevels G eg goal) = some L) :
    L.length + 1 = (sublevels G eg goal).length ∧ 0 < L.length ∧
    (∀ (h0 : 0 < L.length), L[0].Y = goal) ∧
    (∀ j (hj : j < L.length), 0 < j → L[j].Y = ylev G eg goal (j + 1)) ∧
    (∀ j (hj : j < L.length) r, L[j].X r = xlev G eg goal j r) := by
  have hY := sublevels_Y G eg goal
  have hX := sublevels_X G eg goal
  generalize sublevels G eg goal = K at h hY hX ⊢
  match K, h, hY, hX with
  | [], h, _, _ => simp [shiftLevels] at h
  | [_], h, _, _ => simp [shiftLevels] at h
  | a :: b :: rest, h, hY, hX =>
    simp only [shiftLevels, Option.some.injEq] at h
    subst h
    refine ⟨rfl, by simp, fun _ => rfl, ?_, ?_⟩
    · intro j hj hpos
      obtain ⟨k, rfl⟩ : ∃ k, j = k + 1 := ⟨j - 1, by omega⟩
      have := hY (k + 2) (by simpa using hj)
      simpa using this
    · intro j hj r
      have := hX j (by simpa using hj) r
      cases j with
      | zero => simpa using this
      | succ k => simpa using this

theorem levelDown_spec (L : List (Level E S m)) (s : E × S) : ∀ k, k ≤ L.length →
    levelDown L s k ≤ k ∧
    (∀ i (hi : i < L.length), levelDown L s k ≤ i → i < k → s ∈ L[i].Y) ∧
    (0 < levelDown L s k → ∃ hi : levelDown L s k - 1 < L.length, s ∉ L[levelDown L s k - 1].Y) := by
  intro k
  induction k with
  | zero => intro _; simp [levelDown]
  | succ k ih =>
    intro hk
    obtain ⟨h1, h2, h3⟩ := ih (by omega)
    have hk' : k < L.length := by omega
    have heq : levelDown L s (k + 1) = if s ∈ L[k].Y then levelDown L s k else k + 1 := by
      conv_lhs => unfold levelDown
      rw [List.getElem?_eq_getElem hk']
    by_cases hs : s ∈ L[k].Y
    · rw [if_pos hs] at heq
      rw [heq]
      refine ⟨by omega, ?_, h3⟩
      intro i hi hle hlt
      by_cases hik : i = k
      · subst hik; exact hs
      · exact h2 i hi hle (by omega)
    · rw [if_neg hs] at heq
      rw [heq]
      refine ⟨le_refl _, fun i hi hle hlt => by omega, fun _ => ⟨by simpa using hk', by simpa using hs⟩⟩

theorem goal_subset_ylev_one (G : Game E S) (eg : Fin m → Finset (E × S)) (goal : Finset (E × S))
    (hm : 0 < m) : goal ⊆ ylev G eg goal 1 := by
  intro s hs
  refine mem_ylev_succ.2 (Or.inl ⟨⟨0, hm⟩, ?_⟩)
  exact base_subset_nuX _ _ _ (Finset.mem_union_left _ hs)

/-- What the level search returns for a state of the least fixpoint. -/
theorem levelOf_spec {G : Game E S} {eg : Fin m → Finset (E × S)} {goal : Finset (E × S)}
    {L : List (Level E S m)} (hm : 0 < m) (h : shiftLevels goal (sublevels G eg goal) = some L)
    {s : E × S} (hs : s ∈ muY G eg goal) :
    (levelOf L s = 0 ↔ s ∈ goal) ∧
    (2 ≤ levelOf L s → lev G eg goal s = levelOf L s + 1 ∧ levelOf L s < L.length) ∧
    (levelOf L s = 1 → lev G eg goal s = 1 ∨ (lev G eg goal s = 2 ∧ 1 < L.length)) := by
  obtain ⟨hlen, hpos, hL0, hLY, hLX⟩ := shift_spec h
  obtain ⟨h1, h2, h3⟩ := levelDown_spec L s L.length le_rfl
  have hlast := sublevels_last G eg goal
  have hlt := lev_lt_length hs
  have hlp := lev_pos hs
  have hmem := mem_ylev_lev hs
  unfold levelOf
  generalize hj : levelDown L s L.length = j at h1 h2 h3 ⊢
  refine ⟨⟨?_, ?_⟩, ?_, ?_⟩
  · rintro rfl
    rw [← hL0 hpos]
    exact h2 0 hpos le_rfl hpos
  · intro hg
    by_contra hne
    obtain ⟨hi, hn⟩ := h3 (by omega)
    by_cases hj1 : j = 1
    · subst hj1
      exact hn ((hL0 hi).symm ▸ hg)
    · rw [hLY (j - 1) hi (by omega)] at hn
      exact hn (ylev_mono _ _ _ (by omega) (goal_subset_ylev_one G eg goal hm hg))
  · intro hj2
    obtain ⟨hi, hn⟩ := h3 (by omega)
    rw [hLY (j - 1) hi (by omega), show j - 1 + 1 = j by omega] at hn
    have hjl : j < L.length := by
      by_contra hge
      have : j = (sublevels G eg goal).length - 1 := by omega
      rw [this, hlast] at hn
      exact hn hs
    refine ⟨?_, hjl⟩
    have hin := h2 j hjl le_rfl hjl
    rw [hLY j hjl (by omega)] at hin
    have hle := lev_le hin
    by_contra hne
    exact hn (ylev_mono _ _ _ (by omega) hmem)
  · rintro rfl
    by_cases hl : 1 < L.length
    · have hin := h2 1 hl le_rfl hl
      rw [hLY 1 hl (by omega)] at hin
      have := lev_le hin
      omega
    · left; omega

/-! ## Choice of a system move -/

theorem mem_cand {G : Game E S} {W T : Finset (E × S)} {s : E × S} {e : E} {t : E × S} :
    t ∈ cand G W T s e ↔ G.str s (e, t.2) = true ∧ (e, t.2) ∈ W ∧ (e, t.2) ∈ T := by
  simp [cand]

theorem cand_ne {G : Game E S} {W T : Finset (E × S)} {s : E × S} {e : E} (hT : T ⊆ W)
    (hp : s ∈ pre G T) (he : G.etr s e = true) : cand G W T s e ≠ ∅ := by
  obtain ⟨x, h1, h2⟩ := mem_pre.1 hp e he
  exact Finset.nonempty_iff_ne_empty.1 ⟨(e, x), mem_cand.2 ⟨h1, hT h2, h2⟩⟩

theorem find_finRange {p : Fin m → Bool} {r : Fin m} (h : (List.finRange m).find? p = some r) :
    p r = true ∧ ∀ r', p r' = true → r ≤ r' := by
  refine ⟨List.find?_some h, ?_⟩
  intro r' hr'
  rw [List.find?_eq_some_iff_getElem] at h
  obtain ⟨_, i, hi, hir, hlt⟩ := h
  by_contra hcon
  have hri : r.val = i := by
    rw [← hir]; simp
  have := hlt r'.val (by omega)
  simp [hr'] at this

theorem firstX_some {G : Game E S} {W : Finset (E × S)} {s : E × S} {e : E} {X : Fin m → Finset (E × S)}
    {B : Finset (E × S)} (h : firstX G W s e X = some B) :
    ∃ r, B = cand G W (X r) s e ∧ B ≠ ∅ ∧ ∀ r', cand G W (X r') s e ≠ ∅ → r ≤ r' := by
  unfold firstX at h
  cases hf : (List.finRange m).find? fun r => cand G W (X r) s e ≠ ∅ with
  | none => rw [hf] at h; simp at h
  | some r =>
    rw [hf] at h
    simp only [Option.map_some, Option.some.injEq] at h
    obtain ⟨h1, h2⟩ := find_finRange hf
    refine ⟨r, h.symm, ?_, ?_⟩
    · rw [← h]; simpa using h1
    · intro r' hr'
      exact h2 r' (by simpa using hr')

theorem firstX_none {G : Game E S} {W : Finset (E × S)} {s : E × S} {e : E} {X : Fin m → Finset (E × S)}
    (h : firstX G W s e X = none) (r : Fin m) : cand G W (X r) s e = ∅ := by
  unfold firstX at h
  rw [Option.map_eq_none_iff, List.find?_eq_none] at h
  have := h r (List.mem_finRange r)
  simpa using this

/-- The chosen move is legal, stays in the winning set and makes progress. -/
theorem chooseStep_ok {G : Game E S} {eg : Fin m → Finset (E × S)} {sg W : Finset (E × S)}
    {L : List (Level E S m)} (hm : 0 < m) (hmu : muY G eg (sg ∩ W) = W) (hpre : pre G W = W)
    (h : shiftLevels (sg ∩ W) (sublevels G eg (sg ∩ W)) = some L)
    {s : E × S} (hs : s ∈ W) {e : E} (he : G.etr s e = true) {pick : Finset (E × S) → E × S}
    (hpick : ∀ A : Finset (E × S), A.Nonempty → pick A ∈ A) :
    ∃ x, chooseStep G W L (levelOf L s) s e pick = .ok x ∧ G.str s (e, x) = true ∧ (e, x) ∈ W ∧
      ((e, x) ∉ sg → s ∉ sg →
        rank G eg (sg ∩ W) (e, x) ≤ rank G eg (sg ∩ W) s ∧
        (s ∈ eg ⟨rank G eg (sg ∩ W) s % m, Nat.mod_lt _ hm⟩ →
          rank G eg (sg ∩ W) (e, x) < rank G eg (sg ∩ W) s)) := by
  obtain ⟨hlen, hpos, hL0, hLY, hLX⟩ := shift_spec h
  have hsm : s ∈ muY G eg (sg ∩ W) := hmu.symm ▸ hs
  obtain ⟨hz, h2, h1⟩ := levelOf_spec hm h hsm
  generalize hj : levelOf L s = j at hz h2 h1 ⊢
  set goal := sg ∩ W with hgoal
  have pickm : ∀ {T : Finset (E × S)}, cand G W T s e ≠ ∅ →
      G.str s (e, (pick (cand G W T s e)).2) = true ∧ (e, (pick (cand G W T s e)).2) ∈ W ∧
      (e, (pick (cand G W T s e)).2) ∈ T := fun hne =>
    mem_cand.1 (hpick _ (Finset.nonempty_iff_ne_empty.2 hne))
  have hyW : ∀ k, ylev G eg goal k ⊆ W := fun k => (ylev_subset_muY G eg goal k).trans hmu.subset
  have hxW : ∀ k r, xlev G eg goal k r ⊆ W := fun k r => (xlev_subset_ylev G eg goal k r).trans (hyW _)
  obtain ⟨hrm, hxr⟩ := mem_xlev_rix hsm
  have hmod : rank G eg goal s % m = rix G eg goal s := rank_mod hsm
  -- progress facts
  have prog_lt : ∀ {t : E × S}, t ∈ W → lev G eg goal t < lev G eg goal s →
      rank G eg goal t ≤ rank G eg goal s ∧
      (s ∈ eg ⟨rank G eg goal s % m, Nat.mod_lt _ hm⟩ → rank G eg goal t < rank G eg goal s) := by
    intro t ht hlt
    have := rank_lt_of_lev (hmu.symm ▸ ht) hlt
    exact ⟨this.le, fun _ => this⟩
  have prog_le : ∀ {t : E × S} {r : Fin m}, r.val ≤ rix G eg goal s →
      t ∈ xlev G eg goal (lev G eg goal s - 1) r → s ∉ eg ⟨rix G eg goal s, hrm⟩ →
      rank G eg goal t ≤ rank G eg goal s ∧
      (s ∈ eg ⟨rank G eg goal s % m, Nat.mod_lt _ hm⟩ → rank G eg goal t < rank G eg goal s) := by
    intro t r hr ht hne
    refine ⟨(rank_le_of_xlev hsm hr ht).2, fun hin => absurd ?_ hne⟩
    have heq : (⟨rank G eg goal s % m, Nat.mod_lt _ hm⟩ : Fin m) = ⟨rix G eg goal s, hrm⟩ :=
      Fin.ext hmod
    rwa [heq] at hin
  have hjl : j - 1 < L.length := by
    by_cases hj2 : 2 ≤ j
    · have := (h2 hj2).2; omega
    · omega
  unfold chooseStep
  rw [List.getElem?_eq_getElem hjl]
  simp only
  by_cases hA : cand G W L[j - 1].Y s e ≠ ∅
  · rw [if_pos hA]
    obtain ⟨p1, p2, p3⟩ := pickm hA
    refine ⟨_, rfl, p1, p2, fun hn hsn => ?_⟩
    by_cases hj2 : 2 ≤ j
    · have hl := (h2 hj2).1
      have p4 := (hLY (j - 1) hjl (by omega)).subset p3
      have := lev_le p4
      exact prog_lt p2 (by omega)
    · have hj0 : j - 1 = 0 := by omega
      have : (e, (pick (cand G W L[j - 1].Y s e)).2) ∈ goal := by
        have h00 : L[j - 1].Y = goal := by
          simp only [hj0]; exact hL0 hpos
        rw [← h00]; exact p3
      exact absurd (Finset.mem_inter.1 this).1 hn
  · rw [if_neg hA]
    simp only [ne_eq, not_not] at hA
    by_cases hj0 : 0 < j
    · rw [if_pos hj0]
      have hsg : s ∉ goal := fun hg => by have := hz.2 hg; omega
      -- states of the level below, when `j = 1` and `s` is on level 1, can be kept in some X
      have hlev1 : lev G eg goal s = 1 → s ∈ pre G (xlev G eg goal 0 ⟨rix G eg goal s, hrm⟩) ∧
          s ∉ eg ⟨rix G eg goal s, hrm⟩ := by
        intro hl
        have := lev_cases hsm hsg hrm
        rw [hl] at this
        rcases this with h | h
        · obtain ⟨x, _, hx⟩ := mem_pre.1 h e he
          rw [ylev_zero] at hx
          simp at hx
        · exact h
      cases hf : firstX G W s e L[j - 1].X with
      | some B =>
        simp only
        obtain ⟨r, hB, hBne, hmin⟩ := firstX_some hf
        rw [hLX (j - 1) hjl r] at hB
        subst hB
        obtain ⟨p1, p2, p3⟩ := pickm hBne
        refine ⟨_, rfl, p1, p2, fun hn hsn => ?_⟩
        have hty := xlev_subset_ylev _ _ _ _ _ p3
        rw [show j - 1 + 1 = j by omega] at hty
        have hlt := lev_le hty
        by_cases hj2 : 2 ≤ j
        · have hl := (h2 hj2).1
          exact prog_lt p2 (by omega)
        · obtain rfl : j = 1 := by omega
          rcases h1 rfl with hl | ⟨hl, _⟩
          · obtain ⟨q1, q2⟩ := hlev1 hl
            refine prog_le (r := r) ?_ (by rw [hl]; exact p3) q2
            have := hmin ⟨rix G eg goal s, hrm⟩ (by
              rw [hLX (1 - 1) hjl]
              exact cand_ne (hxW _ _) q1 he)
            exact this
          · exact prog_lt p2 (by omega)
      | none =>
        simp only
        have hnone := firstX_none hf
        have hl : lev G eg goal s = j + 1 ∧ j < L.length := by
          by_cases hj2 : 2 ≤ j
          · exact h2 hj2
          · obtain rfl : j = 1 := by omega
            rcases h1 rfl with hl | ⟨hl, hl2⟩
            · obtain ⟨q1, q2⟩ := hlev1 hl
              have := hnone ⟨rix G eg goal s, hrm⟩
              rw [hLX (1 - 1) hjl] at this
              exact absurd this (cand_ne (hxW _ _) q1 he)
            · exact ⟨hl, hl2⟩
        obtain ⟨hl, hjl'⟩ := hl
        rw [List.getElem?_eq_getElem hjl']
        simp only
        have hcase := lev_cases hsm hsg hrm
        rw [hl, show j + 1 - 1 = j by omega] at hcase
        have hcase' : s ∈ pre G (xlev G eg goal j ⟨rix G eg goal s, hrm⟩) ∧
            s ∉ eg ⟨rix G eg goal s, hrm⟩ := by
          rcases hcase with hc | hc
          · exfalso
            by_cases hj2 : 2 ≤ j
            · rw [hLY (j - 1) hjl (by omega), show j - 1 + 1 = j by omega] at hA
              exact cand_ne (hyW _) hc he hA
            · obtain rfl : j = 1 := by omega
              obtain ⟨x, hx1, hx2⟩ := mem_pre.1 hc e he
              rcases mem_ylev_succ.1 hx2 with ⟨r, hr⟩ | hr
              · have := hnone r
                rw [hLX (1 - 1) hjl] at this
                have hmem : (e, x) ∈ cand G W (xlev G eg goal 0 r) s e :=
                  mem_cand.2 ⟨hx1, hxW _ _ hr, hr⟩
                rw [this] at hmem
                simp at hmem
              · rw [ylev_zero] at hr
                simp at hr
          · exact hc
        obtain ⟨q1, q2⟩ := hcase'
        have hcne : cand G W (L[j].X ⟨rix G eg goal s, hrm⟩) s e ≠ ∅ := by
          rw [hLX j hjl']
          exact cand_ne (hxW _ _) q1 he
        cases hf2 : firstX G W s e L[j].X with
        | none => exact absurd (firstX_none hf2 _) hcne
        | some B =>
          simp only
          obtain ⟨r, hB, hBne, hmin⟩ := firstX_some hf2
          have hmr := hmin _ hcne
          rw [hLX j hjl' r] at hB
          subst hB
          obtain ⟨p1, p2, p3⟩ := pickm hBne
          refine ⟨_, rfl, p1, p2, fun hn hsn => ?_⟩
          exact prog_le (r := r) hmr (by rw [hl]; exact p3) q2
    · rw [if_neg hj0]
      have hne : cand G W Finset.univ s e ≠ ∅ := by
        have hp : s ∈ pre G W := hpre.symm ▸ hs
        obtain ⟨x, hx1, hx2⟩ := mem_pre.1 hp e he
        exact Finset.nonempty_iff_ne_empty.1 ⟨(e, x), mem_cand.2 ⟨hx1, hx2, Finset.mem_univ _⟩⟩
      rw [if_pos hne]
      obtain ⟨p1, p2, p3⟩ := pickm hne
      refine ⟨_, rfl, p1, p2, fun hn hsn => ?_⟩
      have : s ∈ goal := hz.1 (by omega)
      exact absurd (Finset.mem_inter.1 this).1 hsn

end Gr1c
