import Verif.Patch
import Verif.RmGoalShape

/-!
# Helper lemmas about `localfixpoint_goalmode`
-/

namespace Gr1c

set_option linter.unusedSectionVars false

section
variable {V : Type} [DecidableEq V] {st : Aut ℤ V} {g : ℤ} {inN : V → Bool}

/-! ## Entry and Exit -/

theorem addEntry_spec : ∀ (js : List ℕ) (en r : Aut ℤ V),
    addEntry st g inN js en = some r →
    (∀ y ∈ en, y ∈ r) ∧
    (∀ y ∈ r, y ∈ en ∨ (y ∈ st ∧ y.id ∈ js ∧ y.mode = g ∧ inN y.state = true)) ∧
    (∀ y ∈ st, (Aut.ids st).Nodup → y.id ∈ js → y.mode = g → inN y.state = true →
      ∃ y' ∈ r, y'.state = y.state) ∧
    ((en.map (·.state)).Nodup → (r.map (·.state)).Nodup) := by
  intro js
  induction js with
  | nil =>
    intro en r h
    simp only [addEntry, Option.some.injEq] at h
    subst h
    exact ⟨fun y hy => hy, fun y hy => Or.inl hy, by simp, fun h => h⟩
  | cons j js ih =>
    intro en r h
    simp only [addEntry] at h
    cases hd : derefNode st j with
    | none => rw [hd] at h; simp at h
    | some y =>
      rw [hd] at h
      simp only at h
      obtain ⟨y1, y2⟩ := derefNode_some hd
      obtain ⟨a1, a2, a3, a4⟩ := ih _ _ h
      refine ⟨?_, ?_, ?_, ?_⟩
      · intro w hw
        apply a1
        split
        · exact List.mem_append_left _ hw
        · exact hw
      · intro w hw
        rcases a2 w hw with hw' | ⟨w1, w2, w3, w4⟩
        · split at hw'
          · rename_i hc
            rcases List.mem_append.1 hw' with hw'' | hw''
            · exact Or.inl hw''
            · rw [List.mem_singleton] at hw''
              subst hw''
              exact Or.inr ⟨y1, by simp [y2], hc.1, hc.2.1⟩
          · exact Or.inl hw'
        · exact Or.inr ⟨w1, List.mem_cons_of_mem _ w2, w3, w4⟩
      · intro w w1 hnd w2 w3 w4
        rcases List.mem_cons.1 w2 with w2 | w2
        · have hwy : w = y := eq_of_id_eq hnd w1 y1 (w2.trans y2.symm)
          subst hwy
          by_cases hc : w.mode = g ∧ inN w.state = true ∧ ∀ z ∈ en, z.state ≠ w.state
          · rw [if_pos hc] at a1
            exact ⟨w, a1 w (by simp), rfl⟩
          · rw [if_neg hc] at a1
            push Not at hc
            obtain ⟨z, z1, z2⟩ := hc w3 w4
            exact ⟨z, a1 z z1, z2⟩
        · exact a3 w w1 hnd w2 w3 w4
      · intro hnd
        apply a4
        split
        · rename_i hc
          rw [List.map_append, List.nodup_append]
          refine ⟨hnd, by simp, ?_⟩
          intro a ha b hb hab
          simp only [List.map_cons, List.map_nil, List.mem_singleton] at hb
          obtain ⟨z, z1, z2⟩ := List.mem_map.1 ha
          exact hc.2.2 z z1 (z2.trans (hab.trans hb))
        · exact hnd

theorem goalScan_spec (hnd : (Aut.ids st).Nodup) : ∀ (xs : Aut ℤ V) (en ex en' ex' : Aut ℤ V),
    goalScan st g inN xs (en, ex) = some (en', ex') →
    (∀ y ∈ en, y ∈ en') ∧
    (∀ y ∈ en', y ∈ en ∨ (y ∈ st ∧ y.mode = g ∧ inN y.state = true ∧
      ∃ x ∈ xs, x.mode = g ∧ inN x.state = false ∧ y.id ∈ x.trans)) ∧
    (∀ x ∈ xs, x.mode = g → inN x.state = false → ∀ y ∈ st, y.id ∈ x.trans → y.mode = g →
      inN y.state = true → ∃ y' ∈ en', y'.state = y.state) ∧
    ((en.map (·.state)).Nodup → (en'.map (·.state)).Nodup) ∧
    ex' = ex ++ xs.filter (fun x => x.mode = g ∧ inN x.state = true) := by
  intro xs
  induction xs with
  | nil =>
    intro en ex en' ex' h
    simp only [goalScan, Option.some.injEq, Prod.mk.injEq] at h
    obtain ⟨rfl, rfl⟩ := h
    exact ⟨fun y hy => hy, fun y hy => Or.inl hy, by simp, fun h => h, by simp⟩
  | cons x xs ih =>
    intro en ex en' ex' h
    simp only [goalScan] at h
    by_cases hg : x.mode = g
    · rw [if_pos hg] at h
      by_cases hN : inN x.state = true
      · rw [if_pos hN] at h
        obtain ⟨a1, a2, a3, a4, a5⟩ := ih _ _ _ _ h
        refine ⟨a1, ?_, ?_, a4, ?_⟩
        · intro y hy
          rcases a2 y hy with hy' | ⟨y1, y2, y3, u, u1, u2⟩
          · exact Or.inl hy'
          · exact Or.inr ⟨y1, y2, y3, u, List.mem_cons_of_mem _ u1, u2⟩
        · intro u hu u1 u2
          rcases List.mem_cons.1 hu with rfl | hu
          · rw [hN] at u2; simp at u2
          · exact a3 u hu u1 u2
        · rw [a5, List.filter_cons, if_pos (by simp [hg, hN])]
          simp
      · rw [if_neg hN] at h
        cases had : addEntry st g inN x.trans en with
        | none => rw [had] at h; simp at h
        | some en1 =>
          rw [had] at h
          simp only at h
          obtain ⟨b1, b2, b3, b4⟩ := addEntry_spec _ _ _ had
          obtain ⟨a1, a2, a3, a4, a5⟩ := ih _ _ _ _ h
          have hN' : inN x.state = false := by simpa using hN
          refine ⟨fun y hy => a1 y (b1 y hy), ?_, ?_, fun h => a4 (b4 h), ?_⟩
          · intro y hy
            rcases a2 y hy with hy' | ⟨y1, y2, y3, u, u1, u2⟩
            · rcases b2 y hy' with hy'' | ⟨y1, y2, y3, y4⟩
              · exact Or.inl hy''
              · exact Or.inr ⟨y1, y3, y4, x, by simp, hg, hN', y2⟩
            · exact Or.inr ⟨y1, y2, y3, u, List.mem_cons_of_mem _ u1, u2⟩
          · intro u hu u1 u2 y y1 y2 y3 y4
            rcases List.mem_cons.1 hu with rfl | hu
            · obtain ⟨y', q1, q2⟩ := b3 y y1 hnd y2 y3 y4
              exact ⟨y', a1 y' q1, q2⟩
            · exact a3 u hu u1 u2 y y1 y2 y3 y4
          · rw [a5, List.filter_cons, if_neg (by simp [hN'])]
    · rw [if_neg hg] at h
      obtain ⟨a1, a2, a3, a4, a5⟩ := ih _ _ _ _ h
      refine ⟨a1, ?_, ?_, a4, ?_⟩
      · intro y hy
        rcases a2 y hy with hy' | ⟨y1, y2, y3, u, u1, u2⟩
        · exact Or.inl hy'
        · exact Or.inr ⟨y1, y2, y3, u, List.mem_cons_of_mem _ u1, u2⟩
      · intro u hu u1 u2
        rcases List.mem_cons.1 hu with rfl | hu
        · exact absurd u1 hg
        · exact a3 u hu u1 u2
      · rw [a5, List.filter_cons, if_neg (by simp [hg])]

/-! ## Annotations -/

theorem minRgrad_spec : ∀ (rs : List ℤ) (m : ℤ), (∀ r ∈ rs, 0 ≤ r) → -1 ≤ m →
    (∀ r ∈ rs, minRgrad rs m ≤ r) ∧ (m ≠ -1 → minRgrad rs m ≤ m) ∧
    ((minRgrad rs m = m) ∨ minRgrad rs m ∈ rs) ∧ (rs ≠ [] → 0 ≤ minRgrad rs m) ∧ -1 ≤ minRgrad rs m ∧
    (m ≠ -1 → 0 ≤ minRgrad rs m) := by
  intro rs
  induction rs with
  | nil =>
    intro m _ hm
    refine ⟨by simp, fun _ => le_refl _, Or.inl rfl, by simp, hm, fun h => ?_⟩
    change 0 ≤ m
    omega
  | cons r rs ih =>
    intro m h hm
    simp only [minRgrad]
    have hr := h r (by simp)
    obtain ⟨a1, a2, a3, a4, a5, a6⟩ := ih (if r < m ∨ m = -1 then r else m)
      (fun r hr => h r (by simp [hr])) (by split <;> omega)
    have hne : (if r < m ∨ m = -1 then r else m) ≠ -1 := by split <;> omega
    have h1 := a2 hne
    have h2 : (if r < m ∨ m = -1 then r else m) ≤ r := by split <;> omega
    have h3 : m ≠ -1 → (if r < m ∨ m = -1 then r else m) ≤ m := by intro _; split <;> omega
    refine ⟨?_, fun h => by have := h3 h; omega, ?_, fun _ => a6 hne, a5, fun _ => a6 hne⟩
    · intro q hq
      rcases List.mem_cons.1 hq with rfl | hq
      · omega
      · exact a1 q hq
    · rcases a3 with a3 | a3
      · rw [a3]
        split
        · exact Or.inr (by simp)
        · exact Or.inl rfl
      · exact Or.inr (List.mem_cons_of_mem _ a3)

theorem maxRgrad_spec : ∀ (rs : List ℤ) (m : ℤ),
    (∀ r ∈ rs, r ≤ maxRgrad rs m) ∧ m ≤ maxRgrad rs m := by
  intro rs
  induction rs with
  | nil => intro m; simp [maxRgrad]
  | cons r rs ih =>
    intro m
    simp only [maxRgrad]
    obtain ⟨a1, a2⟩ := ih (if m < r then r else m)
    have h1 : r ≤ (if m < r then r else m) := by split <;> omega
    have h2 : m ≤ (if m < r then r else m) := by split <;> omega
    refine ⟨?_, by omega⟩
    intro q hq
    rcases List.mem_cons.1 hq with rfl | hq
    · omega
    · exact a1 q hq

theorem dropHigh_spec (mn : ℤ) (i : ℕ) (ex : Aut ℤ V) :
    (∀ k (h : k < ex.length), k < i → ex[k].rgrad < mn) →
    ∀ x, x ∈ dropHigh mn i ex ↔ x ∈ ex ∧ x.rgrad < mn := by
  fun_induction dropHigh mn i ex with
  | case1 i ex h hr hl ih =>
    intro hlow x
    have hlen : ((ex.set i (ex[ex.length - 1]'(by omega))).dropLast).length = ex.length - 1 := by simp
    have hget : ∀ k (hk : k < ex.length - 1),
        ((ex.set i (ex[ex.length - 1]'(by omega))).dropLast)[k]'(by rw [hlen]; exact hk) =
          if i = k then ex[ex.length - 1]'(by omega) else ex[k]'(by omega) := by
      intro k hk
      rw [List.getElem_dropLast, List.getElem_set]
    rw [ih (by
      intro k hk hki
      rw [hlen] at hk
      rw [hget k hk, if_neg (by omega)]
      exact hlow k (by omega) hki)]
    constructor
    · rintro ⟨h1, h2⟩
      refine ⟨?_, h2⟩
      obtain ⟨k, hk, rfl⟩ := List.getElem_of_mem h1
      rw [hlen] at hk
      rw [hget k hk]
      split
      · exact List.getElem_mem _
      · exact List.getElem_mem _
    · rintro ⟨h1, h2⟩
      refine ⟨?_, h2⟩
      obtain ⟨k, hk, rfl⟩ := List.getElem_of_mem h1
      have hki : k ≠ i := by
        rintro rfl
        omega
      by_cases hkl : k = ex.length - 1
      · have hil : i < ex.length - 1 := by omega
        have := hget i hil
        rw [if_pos rfl] at this
        subst hkl
        have hm := List.getElem_mem (l := (ex.set i (ex[ex.length - 1]'(by omega))).dropLast) (n := i)
          (by rw [hlen]; exact hil)
        rw [this] at hm
        exact hm
      · have := hget k (by omega)
        rw [if_neg (fun h => hki h.symm)] at this
        rw [← this]
        exact List.getElem_mem _
  | case2 i ex h hr hl =>
    intro hlow x
    have : ex.length = 1 := by omega
    obtain ⟨a, rfl⟩ := List.length_eq_one_iff.1 this
    have hi : i = 0 := by simp at h; omega
    subst hi
    simp only [List.getElem_cons_zero] at hr
    simp only [List.not_mem_nil, List.mem_singleton, false_iff, not_and, not_lt]
    rintro rfl
    exact hr
  | case3 i ex h hr ih =>
    intro hlow x
    apply ih
    intro k hk hki
    by_cases hke : k = i
    · subst hke
      omega
    · exact hlow k hk (by omega)
  | case4 i ex h =>
    intro hlow x
    constructor
    · intro hx
      refine ⟨hx, ?_⟩
      obtain ⟨k, hk, rfl⟩ := List.getElem_of_mem hx
      exact hlow k hk (by omega)
    · exact fun h => h.1

theorem scaleLoop_spec {d r : ℤ} : ∀ (fuel i k : ℕ), scaleLoop d r fuel i = some k →
    r ≤ d * k ∧ i ≤ k := by
  intro fuel
  induction fuel with
  | zero => intro i k h; simp [scaleLoop] at h
  | succ fuel ih =>
    intro i k h
    simp only [scaleLoop] at h
    split at h
    · obtain ⟨h1, h2⟩ := ih _ _ h
      exact ⟨h1, by omega⟩
    · simp only [Option.some.injEq] at h
      subst h
      exact ⟨by omega, le_refl _⟩

theorem scaleLoop_ok {d r : ℤ} (hd : 0 < d) : ∀ (fuel i : ℕ), r.toNat + 1 ≤ fuel + i → 0 < fuel →
    ∃ k, scaleLoop d r fuel i = some k := by
  intro fuel
  induction fuel with
  | zero => intro i _ h; omega
  | succ fuel ih =>
    intro i h _
    simp only [scaleLoop]
    split
    · rename_i hlt
      have h1 : (i : ℤ) ≤ d * i := by
        have := Int.mul_le_mul_of_nonneg_right (show 1 ≤ d by omega) (show (0 : ℤ) ≤ i by omega)
        rwa [one_mul] at this
      exact ih (i + 1) (by omega) (by omega)
    · exact ⟨_, rfl⟩

/-! ## Deleting marked nodes -/

theorem deleteMarked_spec (sub : Aut ℤ V) : (Aut.ids sub).Nodup →
    deleteMarked sub = sub.filter fun x => x.mode ≠ -2 := by
  fun_induction deleteMarked sub with
  | case1 sub h =>
    intro _
    rw [List.find?_eq_none] at h
    rw [eq_comm, List.filter_eq_self]
    intro a ha
    simpa using h a ha
  | case2 sub x h ih =>
    intro hnd
    have hx1 := List.mem_of_find?_eq_some h
    have hx2 : x.mode = -2 := by simpa using List.find?_some h
    have hdel : deleteAnode sub (some x.id) = sub.filter fun y => y.id ≠ x.id := by
      rw [deleteAnode_eq _ hnd, if_pos (mem_ids.2 ⟨x, hx1, rfl⟩)]
    rw [hdel] at ih ⊢
    rw [ih (hnd.sublist (List.filter_sublist.map _)), List.filter_filter]
    apply List.filter_congr
    intro a ha
    by_cases hax : a.id = x.id
    · have : a = x := eq_of_id_eq hnd ha hx1 hax
      subst this
      simp [hx2]
    · simp [hax]

/-! ## Connecting the entries -/

theorem patchEntries_spec {B : Aut ℤ V} : ∀ (en : Aut ℤ V) (st st1 : Aut ℤ V),
    patchEntries B en st = .ok st1 → (∀ y ∈ en, y.id ∉ Aut.ids B) →
    ∃ f : ℕ → ℕ, st1 = st.map (ANode.redirect f) ∧ (∀ i, i ∉ Aut.ids en → f i = i) ∧
      ((Aut.ids en).Nodup → ∀ y ∈ en, ∃ z ∈ B, z.id = f y.id ∧ z.state = y.state) ∧
      (∀ i, f i = i ∨ f i ∈ Aut.ids B) := by
  intro en
  induction en with
  | nil =>
    intro st st1 h _
    simp only [patchEntries, SRes.ok.injEq] at h
    subst h
    refine ⟨id, ?_, fun _ _ => rfl, by simp, fun _ => Or.inl rfl⟩
    have : (ANode.redirect id : ANode ℤ V → ANode ℤ V) = id := by
      funext x; simp [ANode.redirect]
    rw [this]; simp
  | cons y ys ih =>
    intro st st1 h hB
    simp only [patchEntries] at h
    cases hz : B.find? (fun z => y.state = z.state) with
    | none => rw [hz] at h; simp at h
    | some z =>
      rw [hz] at h
      simp only at h
      have hz1 := List.mem_of_find?_eq_some hz
      have hz2 : y.state = z.state := by simpa using List.find?_some hz
      obtain ⟨f, a1, a2, a3, a4⟩ := ih _ _ h (fun w hw => hB w (by simp [hw]))
      have hfz : f z.id = z.id := by
        apply a2
        intro hc
        obtain ⟨w, w1, w2⟩ := mem_ids.1 hc
        exact hB w (by simp [w1]) (w2 ▸ mem_ids.2 ⟨z, hz1, rfl⟩)
      refine ⟨fun i => f (if i = y.id then z.id else i), ?_, ?_, ?_, ?_⟩
      · rw [a1, replace_redirect, List.map_map]
        apply List.map_congr_left
        intro w _
        rw [Function.comp_apply, redirect_redirect]
      · intro i hi
        simp only [Aut.ids, List.map_cons, List.mem_cons, not_or] at hi
        simp only [if_neg hi.1]
        exact a2 i hi.2
      · intro hnd w hw
        simp only [Aut.ids, List.map_cons, List.nodup_cons] at hnd
        rcases List.mem_cons.1 hw with rfl | hw
        · exact ⟨z, hz1, by simp [hfz], hz2.symm⟩
        · have : w.id ≠ y.id := by
            intro hc
            exact hnd.1 (hc ▸ List.mem_map_of_mem hw)
          simp only [if_neg this]
          exact a3 hnd.2 w hw
      · intro i
        simp only
        split
        · rw [hfz]
          exact Or.inr (mem_ids.2 ⟨z, hz1, rfl⟩)
        · exact a4 i

theorem patchEntries_ok {B : Aut ℤ V} : ∀ (en : Aut ℤ V) (st : Aut ℤ V),
    (∀ y ∈ en, ∃ z ∈ B, z.state = y.state) → ∃ st1, patchEntries B en st = .ok st1 := by
  intro en
  induction en with
  | nil => intro st _; exact ⟨_, rfl⟩
  | cons y ys ih =>
    intro st h
    simp only [patchEntries]
    cases hz : B.find? (fun z => y.state = z.state) with
    | none =>
      rw [List.find?_eq_none] at hz
      obtain ⟨z, z1, z2⟩ := h y (by simp)
      exact absurd z2.symm (by simpa using hz z z1)
    | some z => exact ih _ (fun w hw => h w (by simp [hw]))

/-! ## Connecting the exits -/

open Classical in
/-- State of the loop over the local strategy `B`; `qs` are the addresses still to be visited, `K` the
marked addresses, `h` where the edges of the local strategy lead now. -/
structure ExitInv (st1 B ex : Aut ℤ V) (g : ℤ) (inN : V → Bool) (qs : List ℕ) (r : ℤ)
    (st' sub' : Aut ℤ V) (K : ℕ → Prop) (h : ℕ → ℕ) (μ : ℕ → ℤ) : Prop where
  st_eq : st' = relabel st1 K (-1)
  sub_eq : sub' = B.map fun z => { z with mode := μ z.id, trans := z.trans.map h }
  mu_term : ∀ z ∈ B, z.id ∉ qs → z.trans = [] → μ z.id = -2
  mu_else : ∀ z ∈ B, z.id ∈ qs ∨ z.trans ≠ [] → μ z.id = -1
  h_term : ∀ z ∈ B, z.id ∉ qs → z.trans = [] →
    ∃ x ∈ ex, x.state = z.state ∧ h z.id = x.id ∧ K x.id ∧ x.rgrad ≤ r
  h_id : ∀ j, (∀ z ∈ B, z.id = j → z.id ∈ qs ∨ z.trans ≠ []) → h j = j
  K_mem : ∀ k, K k → ∃ x ∈ st1, x.id = k ∧ x.mode = g ∧ inN x.state = true
  K_closed : ∀ x ∈ st1, K x.id → ∀ y ∈ st1, y.id ∈ x.trans → y.mode = g → inN y.state = true → K y.id
  K_ind : ∀ P : ℕ → Prop, (∀ x ∈ ex, P x.id) →
    (∀ x ∈ st1, ∀ y ∈ st1, P x.id → x.mode = g → inN x.state = true → y.id ∈ x.trans → y.mode = g →
      inN y.state = true → P y.id) → ∀ k, K k → P k
  r_or : r = -1 ∨ ∃ x ∈ ex, r = x.rgrad ∧ ∃ z ∈ B, z.trans = []

theorem succOf_of_mem {l : Aut ℤ V} (hnd : (Aut.ids l).Nodup) {x : ANode ℤ V} (hx : x ∈ l) :
    succOf l x.id = x.trans := by
  unfold succOf
  have := derefNode_of_mem hnd hx
  unfold derefNode at this
  rw [this]

theorem relabel_three (l : Aut ℤ V) (P Q R T : ℕ → Prop) (_ : DecidablePred P) (_ : DecidablePred Q)
    (_ : DecidablePred R) (_ : DecidablePred T) (m : ℤ) (hT : ∀ i, T i ↔ (P i ∨ Q i) ∨ R i) :
    relabel (relabel (relabel l P m) Q m) R m = relabel l T m := by
  unfold relabel
  rw [List.map_map, List.map_map]
  apply List.map_congr_left
  intro u _
  simp only [Function.comp_apply, hT]
  by_cases c1 : P u.id <;> by_cases c2 : Q u.id <;> by_cases c3 : R u.id <;> simp [c1, c2, c3]

theorem updNode_pair {l : Aut ℤ V} {B : Aut ℤ V} (h : ℕ → ℕ) (μ : ℕ → ℤ) (q p : ℕ)
    (hl : l = B.map fun z => { z with mode := μ z.id, trans := z.trans.map h }) :
    replaceAnodeTrans (updNode l q fun n => { n with mode := -2 }) q (some p) =
      B.map fun z => { z with mode := if z.id = q then -2 else μ z.id,
                              trans := z.trans.map fun j => if h j = q then p else h j } := by
  rw [replace_redirect, hl]
  unfold updNode
  rw [List.map_map, List.map_map]
  apply List.map_congr_left
  intro z _
  simp only [Function.comp_apply]
  by_cases hq : z.id = q
  · simp [hq, ANode.redirect, Function.comp_def]
  · simp [hq, ANode.redirect, Function.comp_def]

open Classical in
theorem patchExits_outcome {st1 B ex : Aut ℤ V} {g : ℤ} {inN : V → Bool} (hg : g ≠ -1) (hg2 : g ≠ -2)
    (hnd1 : (Aut.ids st1).Nodup) (hndB : (Aut.ids B).Nodup)
    (hdisj : ∀ x ∈ st1, ∀ z ∈ B, x.id ≠ z.id)
    (hcl1 : ∀ x ∈ st1, ∀ j ∈ x.trans, j ∈ Aut.ids st1 ∨ j ∈ Aut.ids B)
    (hclB : ∀ z ∈ B, ∀ j ∈ z.trans, j ∈ Aut.ids B)
    (hex : ∀ x ∈ ex, ∃ y ∈ st1, y.id = x.id ∧ y.mode = g ∧ inN y.state = true) :
    ∀ (qs : List ℕ) (r : ℤ) (st' sub' : Aut ℤ V) (K : ℕ → Prop) (h : ℕ → ℕ) (μ : ℕ → ℤ),
      qs.Nodup → (∀ q ∈ qs, q ∈ Aut.ids B) → ExitInv st1 B ex g inN qs r st' sub' K h μ →
      (∃ r2 st2 sub2 K h μ, patchExits g inN ex qs r st' sub' = .ok (r2, st2, sub2) ∧
        ExitInv st1 B ex g inN [] r2 st2 sub2 K h μ) ∨
      (patchExits g inN ex qs r st' sub' = .err ∧ ∃ z ∈ B, z.trans = [] ∧ ∀ x ∈ ex, x.state ≠ z.state) := by
  intro qs
  induction qs with
  | nil =>
    intro r st' sub' K h μ _ _ hI
    exact Or.inl ⟨_, _, _, K, h, μ, rfl, hI⟩
  | cons q qs ih =>
    intro r st' sub' K h μ hqs hqB hI
    simp only [patchExits]
    cases hd : derefNode sub' q with
    | none =>
      exfalso
      have hS : Aut.ids sub' = Aut.ids B := by rw [hI.sub_eq]; simp [Aut.ids, Function.comp_def]
      obtain ⟨w, w1, w2⟩ := mem_ids.1 (hS ▸ hqB q (by simp))
      rw [← w2, derefNode_of_mem (by rw [hS]; exact hndB) w1] at hd
      simp at hd
    | some z' =>
      simp only
      obtain ⟨z1', z2'⟩ := derefNode_some hd
      obtain ⟨z, zB, hz⟩ : ∃ z ∈ B, ({ z with mode := μ z.id, trans := z.trans.map h } : ANode ℤ V) = z' := by
        rw [hI.sub_eq] at z1'
        exact List.mem_map.1 z1'
      have hzq : z.id = q := by rw [← hz] at z2'; exact z2'
      have hzt : z'.trans = [] ↔ z.trans = [] := by rw [← hz]; simp
      have hzs : z'.state = z.state := by rw [← hz]
      have huniq : ∀ w ∈ B, w.id = q → w = z := fun w hw hwq => eq_of_id_eq hndB hw zB (hwq.trans hzq.symm)
      obtain ⟨hq1, hq2⟩ := List.nodup_cons.1 hqs
      by_cases hne : z'.trans = []
      · rw [if_neg (by simpa using hne)]
        cases hf : ex.find? (fun x => z'.state = x.state) with
        | none =>
          refine Or.inr ⟨rfl, z, zB, hzt.1 hne, fun x hx hc => ?_⟩
          have := List.find?_eq_none.1 hf x hx
          simp only [decide_eq_true_eq] at this
          exact this (hzs.trans hc.symm)
        | some x =>
          simp only
          have hx1 := List.mem_of_find?_eq_some hf
          have hx2 : z'.state = x.state := by simpa using List.find?_some hf
          obtain ⟨y, y1, y2, y3, y4⟩ := hex x hx1
          -- the heap
          have hidsT : Aut.ids st' = Aut.ids st1 := by rw [hI.st_eq, ids_relabel]
          have hidsS : Aut.ids sub' = Aut.ids B := by
            rw [hI.sub_eq]; simp [Aut.ids, Function.comp_def]
          have hndH : (Aut.ids (st' ++ sub')).Nodup := by
            have : Aut.ids (st' ++ sub') = Aut.ids st1 ++ Aut.ids B := by
              rw [← hidsT, ← hidsS]; simp [Aut.ids]
            rw [this, List.nodup_append]
            refine ⟨hnd1, hndB, ?_⟩
            intro a ha b hb hab
            obtain ⟨u, u1, u2⟩ := mem_ids.1 ha
            obtain ⟨w, w1, w2⟩ := mem_ids.1 hb
            exact hdisj u u1 w w1 (u2.trans (hab.trans w2.symm))
          have hmemT : ∀ u ∈ st', ∃ v ∈ st1, u.id = v.id ∧ u.trans = v.trans ∧ u.state = v.state ∧
              (u.mode = if K v.id then -1 else v.mode) := by
            intro u hu
            rw [hI.st_eq] at hu
            unfold relabel at hu
            obtain ⟨v, v1, rfl⟩ := List.mem_map.1 hu
            refine ⟨v, v1, ?_, ?_, ?_, ?_⟩ <;> split <;> rfl
          have hmemS : ∀ u ∈ sub', ∃ v ∈ B, u.id = v.id ∧ u.trans = v.trans.map h ∧
              (u.mode = -1 ∨ u.mode = -2) := by
            intro u hu
            rw [hI.sub_eq] at hu
            obtain ⟨v, v1, rfl⟩ := List.mem_map.1 hu
            refine ⟨v, v1, rfl, rfl, ?_⟩
            by_cases hv : v.id ∈ q :: qs ∨ v.trans ≠ []
            · exact Or.inl (hI.mu_else v v1 hv)
            · push Not at hv
              exact Or.inr (hI.mu_term v v1 hv.1 hv.2)
          have hclH : Closed (st' ++ sub') := by
            intro u hu j hj
            have hgoal : j ∈ Aut.ids st1 ∨ j ∈ Aut.ids B := by
              rcases List.mem_append.1 hu with hu | hu
              · obtain ⟨v, v1, -, v3, -⟩ := hmemT u hu
                exact hcl1 v v1 j (v3 ▸ hj)
              · obtain ⟨v, v1, -, v3, -⟩ := hmemS u hu
                rw [v3] at hj
                obtain ⟨i, hi, rfl⟩ := List.mem_map.1 hj
                obtain ⟨w, w1, rfl⟩ := mem_ids.1 (hclB v v1 i hi)
                by_cases hw : w.id ∈ q :: qs ∨ w.trans ≠ []
                · right
                  rw [hI.h_id w.id (fun w' hw' he => by rw [eq_of_id_eq hndB hw' w1 he]; exact hw)]
                  exact mem_ids.2 ⟨w, w1, rfl⟩
                · push Not at hw
                  obtain ⟨x', x1', -, x3', -⟩ := hI.h_term w w1 hw.1 hw.2
                  obtain ⟨y', q1, q2, -⟩ := hex x' x1'
                  left
                  rw [x3', ← q2]
                  exact mem_ids.2 ⟨y', q1, rfl⟩
            have : Aut.ids (st' ++ sub') = Aut.ids st' ++ Aut.ids sub' := by simp [Aut.ids]
            rw [this, hidsT, hidsS, List.mem_append]
            exact hgoal
          have hstart : x.id ∈ Aut.ids (st' ++ sub') := by
            have : Aut.ids (st' ++ sub') = Aut.ids st' ++ Aut.ids sub' := by simp [Aut.ids]
            rw [this, hidsT, List.mem_append]
            exact Or.inl (y2 ▸ mem_ids.2 ⟨y, y1, rfl⟩)
          have hcount : targetCount (st' ++ sub') g inN < st'.length + sub'.length + 1 := by
            unfold targetCount
            have := List.length_filter_le (fun n : ANode ℤ V => decide (n.mode = g ∧ inN n.state = true))
              (st' ++ sub')
            rw [List.length_append] at this
            omega
          have hmr := (modereach_spec g (-1) inN (fun hc => hg hc.symm) (st'.length + sub'.length + 1)).1
            (st' ++ sub') x.id hndH hclH hstart hcount
          rw [hmr]
          simp only
          set P := Rch (succOf (st' ++ sub')) (Target (st' ++ sub') g inN) (succOf (st' ++ sub') x.id)
            with hP
          -- targets are nodes of the strategy
          have htar : ∀ i, Target (st' ++ sub') g inN i ↔
              ∃ v ∈ st1, v.id = i ∧ v.mode = g ∧ inN v.state = true ∧ ¬ K i := by
            intro i
            constructor
            · rintro ⟨u, hu, u1, u2, u3⟩
              rcases List.mem_append.1 hu with hu | hu
              · obtain ⟨v, v1, v2, v3, v4, v5⟩ := hmemT u hu
                have hK : ¬ K v.id := by
                  intro hc
                  rw [if_pos hc] at v5
                  exact hg (u2.symm.trans v5)
                rw [if_neg hK] at v5
                have hvi : v.id = i := v2.symm.trans u1
                exact ⟨v, v1, hvi, v5.symm.trans u2, v4 ▸ u3, hvi ▸ hK⟩
              · obtain ⟨v, -, -, -, v4⟩ := hmemS u hu
                rcases v4 with v4 | v4
                · exact absurd (u2.symm.trans v4) hg
                · exact absurd (u2.symm.trans v4) hg2
            · rintro ⟨v, v1, v2, v3, v4, v5⟩
              refine ⟨v, List.mem_append_left _ ?_, v2, v3, v4⟩
              rw [hI.st_eq]
              unfold relabel
              refine List.mem_map.2 ⟨v, v1, ?_⟩
              rw [if_neg (v2 ▸ v5)]
          have hsucc : ∀ v ∈ st1, succOf (st' ++ sub') v.id = v.trans := by
            intro v hv
            have : (if K v.id then { v with mode := -1 } else v) ∈ st' ++ sub' := by
              apply List.mem_append_left
              rw [hI.st_eq]
              exact List.mem_map_of_mem hv
            have h2 := succOf_of_mem hndH this
            have h3 : (if K v.id then { v with mode := -1 } else v).id = v.id := by split <;> rfl
            have h4 : (if K v.id then { v with mode := -1 } else v).trans = v.trans := by split <;> rfl
            rw [h3, h4] at h2
            exact h2
          have hPst : ∀ i, P i → ∃ v ∈ st1, v.id = i ∧ v.mode = g ∧ inN v.state = true := by
            intro i hi
            obtain ⟨v, v1, v2, v3, v4, -⟩ := (htar i).1 hi.target
            exact ⟨v, v1, v2, v3, v4⟩
          -- the new lists
          have htake : (relabel (st' ++ sub') P (-1)).take st'.length = relabel st' P (-1) := by
            unfold relabel
            rw [← List.map_take]
            simp
          have hdrop : (relabel (st' ++ sub') P (-1)).drop st'.length = sub' := by
            unfold relabel
            rw [← List.map_drop]
            simp only [List.drop_left]
            conv_rhs => rw [← List.map_id sub']
            apply List.map_congr_left
            intro u hu
            rw [if_neg]
            · rfl
            · intro hc
              obtain ⟨v, v1, v2, -⟩ := hPst _ hc
              obtain ⟨w, w1, w2, -⟩ := hmemS u hu
              exact hdisj v v1 w w1 (v2.trans w2)
          rw [htake, hdrop, updNode_eq_relabel, hI.st_eq]
          refine ih _ _ _ (fun i => (K i ∨ P i) ∨ i = x.id) (fun j => if h j = q then x.id else h j)
            (fun i => if i = q then -2 else μ i) hq2 (fun p hp => hqB p (by simp [hp])) ?_
          · have hexne : ∀ x' ∈ ex, x'.id ≠ q := by
              intro x' hx' hc
              obtain ⟨y', q1, q2, -⟩ := hex x' hx'
              exact hdisj y' q1 z zB (q2.trans (hc.trans hzq.symm))
            refine ⟨?_, updNode_pair h μ q x.id hI.sub_eq, ?_, ?_, ?_, ?_, ?_, ?_, ?_, ?_⟩
            · exact relabel_three _ _ _ _ _ _ _ _ _ _ (fun i => Iff.rfl)
            · intro w hw hwq hwt
              split
              · rfl
              · rename_i hwne
                exact hI.mu_term w hw (by simp [hwne, hwq]) hwt
            · intro w hw hwq
              have hwne : w.id ≠ q := by
                intro hc
                rcases hwq with hwq | hwq
                · exact hq1 (hc ▸ hwq)
                · rw [huniq w hw hc] at hwq
                  exact hwq (hzt.1 hne)
              simp only [if_neg hwne]
              exact hI.mu_else w hw (by
                rcases hwq with hwq | hwq
                · exact Or.inl (List.mem_cons_of_mem _ hwq)
                · exact Or.inr hwq)
            · intro w hw hwq hwt
              by_cases hwne : w.id = q
              · have hwz := huniq w hw hwne
                subst hwz
                refine ⟨x, hx1, hx2.symm.trans hzs, ?_, Or.inr rfl, by split <;> omega⟩
                have : h w.id = w.id := hI.h_id _ (fun w' hw' he => by
                  rw [eq_of_id_eq hndB hw' hw he]; exact Or.inl (by simp [hwne]))
                show (if h w.id = q then x.id else h w.id) = x.id
                rw [this, if_pos hwne]
              · obtain ⟨x', a1, a2, a3, a4, a5⟩ := hI.h_term w hw (by simp [hwne, hwq]) hwt
                refine ⟨x', a1, a2, ?_, Or.inl (Or.inl a4), by split <;> omega⟩
                simp only [a3, if_neg (hexne x' a1)]
            · intro j hj
              have hjq : j ≠ q := by
                rintro rfl
                rcases hj z zB hzq with hc | hc
                · exact hq1 (hzq ▸ hc)
                · exact hc (hzt.1 hne)
              have : h j = j := hI.h_id j (fun w hw he => by
                rcases hj w hw he with hc | hc
                · exact Or.inl (List.mem_cons_of_mem _ hc)
                · exact Or.inr hc)
              simp only [this, if_neg hjq]
            · rintro k ((hk | hk) | rfl)
              · exact hI.K_mem k hk
              · exact hPst k hk
              · exact ⟨y, y1, y2, y3, y4⟩
            · intro u hu hK v hv huv hvm hvN
              by_cases hKv : K v.id
              · exact Or.inl (Or.inl hKv)
              · have hT : Target (st' ++ sub') g inN v.id := (htar v.id).2 ⟨v, hv, rfl, hvm, hvN, hKv⟩
                rcases hK with (hK | hK) | hK
                · exact absurd (hI.K_closed u hu hK v hv huv hvm hvN) hKv
                · refine Or.inl (Or.inr (Rch.step hK ?_ hT))
                  rw [hsucc u hu]
                  exact huv
                · refine Or.inl (Or.inr (Rch.base ?_ hT))
                  rw [← hK, hsucc u hu]
                  exact huv
            · intro Q hQ1 hQ2 k hk
              rcases hk with (hk | hk) | rfl
              · exact hI.K_ind Q hQ1 hQ2 k hk
              · have hxQ := hQ1 x hx1
                have hsx : succOf (st' ++ sub') x.id = y.trans := by rw [← y2]; exact hsucc y y1
                rw [hP, hsx] at hk
                induction hk with
                | base t1 t2 =>
                  obtain ⟨v, v1, rfl, v3, v4, -⟩ := (htar _).1 t2
                  exact hQ2 y y1 v v1 (y2 ▸ hxQ) y3 y4 t1 v3 v4
                | step t0 t1 t2 ihh =>
                  obtain ⟨v, v1, rfl, v3, v4, -⟩ := (htar _).1 t2
                  obtain ⟨u, u1, rfl, u3, u4, -⟩ := (htar _).1 t0.target
                  rw [hsucc u u1] at t1
                  exact hQ2 u u1 v v1 ihh u3 u4 t1 v3 v4
              · exact hQ1 x hx1
            · split
              · exact Or.inr ⟨x, hx1, rfl, z, zB, hzt.1 hne⟩
              · exact hI.r_or
      · rw [if_pos hne]
        refine ih r st' sub' K h μ hq2 (fun p hp => hqB p (by simp [hp])) ?_
        have hztne : z.trans ≠ [] := fun hc => hne (hzt.2 hc)
        refine ⟨hI.st_eq, hI.sub_eq, ?_, ?_, ?_, ?_, hI.K_mem, hI.K_closed, hI.K_ind, hI.r_or⟩
        · intro w hw hwq hwt
          refine hI.mu_term w hw ?_ hwt
          intro hc
          rcases List.mem_cons.1 hc with hc | hc
          · rw [huniq w hw hc] at hwt
            exact hztne hwt
          · exact hwq hc
        · intro w hw hwq
          refine hI.mu_else w hw ?_
          rcases hwq with hwq | hwq
          · exact Or.inl (List.mem_cons_of_mem _ hwq)
          · exact Or.inr hwq
        · intro w hw hwq hwt
          refine hI.h_term w hw ?_ hwt
          intro hc
          rcases List.mem_cons.1 hc with hc | hc
          · rw [huniq w hw hc] at hwt
            exact hztne hwt
          · exact hwq hc
        · intro j hj
          refine hI.h_id j (fun w hw he => ?_)
          rcases hj w hw he with hc | hc
          · exact Or.inl (List.mem_cons_of_mem _ hc)
          · exact Or.inr hc

open Classical in
theorem patchExits_spec {st1 B ex : Aut ℤ V} {g : ℤ} {inN : V → Bool} (hg : g ≠ -1) (hg2 : g ≠ -2)
    (hnd1 : (Aut.ids st1).Nodup) (hndB : (Aut.ids B).Nodup)
    (hdisj : ∀ x ∈ st1, ∀ z ∈ B, x.id ≠ z.id)
    (hcl1 : ∀ x ∈ st1, ∀ j ∈ x.trans, j ∈ Aut.ids st1 ∨ j ∈ Aut.ids B)
    (hclB : ∀ z ∈ B, ∀ j ∈ z.trans, j ∈ Aut.ids B)
    (hex : ∀ x ∈ ex, ∃ y ∈ st1, y.id = x.id ∧ y.mode = g ∧ inN y.state = true)
    (qs : List ℕ) (r : ℤ) (st' sub' : Aut ℤ V) (K : ℕ → Prop) (h : ℕ → ℕ) (μ : ℕ → ℤ)
    (r2 : ℤ) (st2 sub2 : Aut ℤ V) (h1 : qs.Nodup) (h2 : ∀ q ∈ qs, q ∈ Aut.ids B)
    (hI : ExitInv st1 B ex g inN qs r st' sub' K h μ)
    (hr : patchExits g inN ex qs r st' sub' = .ok (r2, st2, sub2)) :
    ∃ K h μ, ExitInv st1 B ex g inN [] r2 st2 sub2 K h μ := by
  rcases patchExits_outcome hg hg2 hnd1 hndB hdisj hcl1 hclB hex qs r st' sub' K h μ h1 h2 hI with
    ⟨r3, st3, sub3, K', h', μ', e1, e2⟩ | ⟨e1, -⟩
  · rw [hr] at e1
    simp only [SRes.ok.injEq, Prod.mk.injEq] at e1
    obtain ⟨rfl, rfl, rfl⟩ := e1
    exact ⟨K', h', μ', e2⟩
  · rw [hr] at e1
    simp at e1

end

end Gr1c
