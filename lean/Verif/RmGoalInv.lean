import Verif.RmGoalLemmas

/-!
# Invariant of the loop connecting the substrategy to the `Exit` nodes
-/

namespace Gr1c

set_option linter.unusedSectionVars false

variable {V : Type} [DecidableEq V]

/-- A node of the substrategy after the loop: `τ` gives the `Exit` nodes taken over. -/
def growNode (ι : ℕ → Bool) (f : ℕ → ℕ) (τ : ℕ → Option (ANode ℤ V)) (z : ANode ℤ V) : ANode ℤ V :=
  match τ z.id with
  | none => { z with initial := ι z.id }
  | some x =>
    { z with mode := x.mode, rgrad := x.rgrad, initial := x.initial, trans := x.trans.map f }

theorem growNode_id (ι : ℕ → Bool) (f : ℕ → ℕ) (τ : ℕ → Option (ANode ℤ V)) (z : ANode ℤ V) :
    (growNode ι f τ z).id = z.id := by
  unfold growNode; split <;> rfl

theorem growNode_state (ι : ℕ → Bool) (f : ℕ → ℕ) (τ : ℕ → Option (ANode ℤ V)) (z : ANode ℤ V) :
    (growNode ι f τ z).state = z.state := by
  unfold growNode; split <;> rfl

/-- `S` is the given strategy, `B` the substrategy, `en` and `ex0` the arrays, `f` the map applied to
all edges of the strategy so far. -/
structure CInv (S B : Aut ℤ V) (ι : ℕ → Bool) (en ex0 : List ℕ) (f : ℕ → ℕ)
    (τ : ℕ → Option (ANode ℤ V)) (ex : List (Option ℕ)) (st sub : Aut ℤ V) : Prop where
  st_eq : st = (S.filter fun x => ∀ z ∈ B, τ z.id ≠ some x).map (ANode.redirect f)
  sub_eq : sub = B.map (growNode ι f τ)
  tau : ∀ z ∈ B, ∀ x, τ z.id = some x →
    x ∈ S ∧ x.id ∈ ex0 ∧ x.state = z.state ∧ f x.id = z.id ∧ z.trans = []
  exs : ∀ p, some p ∈ ex ↔ p ∈ ex0 ∧ ∀ z ∈ B, ∀ x, τ z.id = some x → x.id ≠ p
  tgt : ∀ y ∈ S, (y.id ∈ en ∧ ∃ z ∈ B, z.id = f y.id ∧ z.state = y.state) ∨
    (∃ z ∈ B, τ z.id = some y) ∨ ((∀ z ∈ B, τ z.id ≠ some y) ∧ y.id ∉ en ∧ f y.id = y.id)
  fixB : ∀ z ∈ B, f z.id = z.id

/-- What the loop relies on and never changes. -/
structure CStat (S B : Aut ℤ V) (en ex0 : List ℕ) : Prop where
  sids : (Aut.ids S).Nodup
  bids : (Aut.ids B).Nodup
  disj : ∀ x ∈ S, ∀ z ∈ B, x.id ≠ z.id
  bclosed : ∀ z ∈ B, ∀ j ∈ z.trans, ∃ w ∈ B, w.id = j
  exen : ∀ p ∈ ex0, p ∉ en
  exS : ∀ p ∈ ex0, ∃ x ∈ S, x.id = p

theorem matchExit_some {st : Aut ℤ V} {s : V} {x : ANode ℤ V} : ∀ {ps : List (Option ℕ)},
    matchExit st s ps = some (some x) → x ∈ st ∧ x.state = s ∧ some x.id ∈ ps := by
  intro ps
  induction ps with
  | nil => intro h; simp [matchExit] at h
  | cons p ps ih =>
    intro h
    cases p with
    | none =>
      simp only [matchExit] at h
      obtain ⟨h1, h2, h3⟩ := ih h
      exact ⟨h1, h2, by simp [h3]⟩
    | some p =>
      simp only [matchExit] at h
      cases hd : derefNode st p with
      | none => rw [hd] at h; simp at h
      | some y =>
        rw [hd] at h
        simp only at h
        obtain ⟨y1, y2⟩ := derefNode_some hd
        split at h
        · rename_i hs
          simp only [Option.some.injEq] at h
          subst h
          exact ⟨y1, hs.symm, by rw [y2]; simp⟩
        · obtain ⟨h1, h2, h3⟩ := ih h
          exact ⟨h1, h2, by simp [h3]⟩

theorem matchExit_exists {st : Aut ℤ V} {s : V} : ∀ {ps : List (Option ℕ)},
    (∀ p, some p ∈ ps → ∃ y, derefNode st p = some y) →
    (∃ p y, some p ∈ ps ∧ derefNode st p = some y ∧ y.state = s) →
    ∃ x, matchExit st s ps = some (some x) := by
  intro ps
  induction ps with
  | nil => rintro _ ⟨p, y, h, _⟩; simp at h
  | cons p ps ih =>
    intro hall hex
    cases p with
    | none =>
      simp only [matchExit]
      apply ih (fun q hq => hall q (by simp [hq]))
      obtain ⟨p, y, h1, h2⟩ := hex
      exact ⟨p, y, by simpa using h1, h2⟩
    | some p =>
      simp only [matchExit]
      obtain ⟨y, hy⟩ := hall p (by simp)
      rw [hy]
      simp only
      split
      · exact ⟨y, rfl⟩
      · rename_i hs
        apply ih (fun q hq => hall q (by simp [hq]))
        obtain ⟨p', y', h1, h2, h3⟩ := hex
        refine ⟨p', y', ?_, h2, h3⟩
        rcases List.mem_cons.1 h1 with h1 | h1
        · simp only [Option.some.injEq] at h1
          subst h1
          rw [hy] at h2
          cases h2
          exact absurd h3.symm hs
        · exact h1

theorem CInv.ids_st {S B : Aut ℤ V} {ι : ℕ → Bool} {en ex0 : List ℕ} {f : ℕ → ℕ}
    {τ : ℕ → Option (ANode ℤ V)} {ex : List (Option ℕ)} {st sub : Aut ℤ V} (hs : CStat S B en ex0)
    (h : CInv S B ι en ex0 f τ ex st sub) : (Aut.ids st).Nodup := by
  rw [h.st_eq]
  unfold Aut.ids
  rw [List.map_map]
  exact hs.sids.sublist (List.filter_sublist.map _)

theorem CInv.ids_sub {S B : Aut ℤ V} {ι : ℕ → Bool} {en ex0 : List ℕ} {f : ℕ → ℕ}
    {τ : ℕ → Option (ANode ℤ V)} {ex : List (Option ℕ)} {st sub : Aut ℤ V}
    (h : CInv S B ι en ex0 f τ ex st sub) : Aut.ids sub = Aut.ids B := by
  rw [h.sub_eq]
  unfold Aut.ids
  rw [List.map_map]
  apply List.map_congr_left
  intro z _
  exact growNode_id _ _ _ _

/-- One terminal node takes over an `Exit` node. -/
theorem CInv.step {S B : Aut ℤ V} {ι : ℕ → Bool} {en ex0 : List ℕ} {f : ℕ → ℕ}
    {τ : ℕ → Option (ANode ℤ V)} {ex : List (Option ℕ)} {st sub : Aut ℤ V} (hs : CStat S B en ex0)
    (h : CInv S B ι en ex0 f τ ex st sub) {z : ANode ℤ V} (hz : z ∈ B) (hτ : τ z.id = none)
    (hzt : z.trans = []) {x : ANode ℤ V} (hx : x ∈ S) (hun : ∀ w ∈ B, τ w.id ≠ some x)
    (hxs : x.state = z.state) (hxe : some x.id ∈ ex) :
    CInv S B ι en ex0 (fun i => if f i = x.id then z.id else f i)
      (fun i => if i = z.id then some x else τ i)
      (ex.map fun p => if p = some x.id then none else p)
      (deleteAnode (replaceAnodeTrans (updNode st x.id fun n => { n with trans := [] }) x.id (some z.id))
        (some x.id))
      (replaceAnodeTrans (updNode sub z.id fun n =>
        { n with mode := x.mode, rgrad := x.rgrad, initial := x.initial, trans := x.trans.map f })
        x.id (some z.id)) := by
  have hids := h.ids_st hs
  have hxen : x.id ∉ en := hs.exen _ ((h.exs x.id).1 hxe).1
  have hfx : f x.id = x.id := by
    rcases h.tgt x hx with h' | ⟨w, w1, w2⟩ | h'
    · exact absurd h'.1 hxen
    · exact absurd w2 (hun w w1)
    · exact h'.2.2
  have hu : (∀ w ∈ B, τ w.id ≠ some x) ↔ True := by simpa using hun
  have hτ' : ∀ w ∈ B, ∀ y, (if w.id = z.id then some x else τ w.id) = some y ↔
      (w = z ∧ y = x) ∨ τ w.id = some y := by
    intro w hw y
    by_cases hwz : w.id = z.id
    · have : w = z := eq_of_id_eq hs.bids hw hz hwz
      subst this
      rw [if_pos rfl, hτ]
      simp [eq_comm]
    · rw [if_neg hwz]
      constructor
      · exact Or.inr
      · rintro (⟨rfl, _⟩ | h)
        · exact absurd rfl hwz
        · exact h
  constructor
  · have hids2 : Aut.ids (replaceAnodeTrans (updNode st x.id fun n => { n with trans := [] }) x.id
        (some z.id)) = Aut.ids st := by
      rw [replace_redirect]
      unfold Aut.ids updNode
      rw [List.map_map, List.map_map]
      apply List.map_congr_left
      intro w _
      simp only [Function.comp_apply]
      split <;> rfl
    have hxst : x.id ∈ Aut.ids st := by
      rw [mem_ids, h.st_eq]
      exact ⟨x.redirect f, List.mem_map_of_mem (List.mem_filter.2 ⟨hx, by simpa using hun⟩), rfl⟩
    rw [deleteAnode_eq _ (by rw [hids2]; exact hids), if_pos (by rw [hids2]; exact hxst),
      replace_redirect, h.st_eq]
    unfold updNode
    rw [List.map_map, List.map_map, List.filter_map, List.filter_filter]
    have hf : (S.filter fun y => ((fun n : ANode ℤ V => decide (n.id ≠ x.id)) ∘
          (ANode.redirect fun i => if i = x.id then z.id else i) ∘
          (fun n => if n.id = x.id then { n with trans := [] } else n) ∘ ANode.redirect f) y &&
          decide (∀ w ∈ B, τ w.id ≠ some y)) =
        S.filter fun y => decide (∀ w ∈ B, (if w.id = z.id then some x else τ w.id) ≠ some y) := by
      apply List.filter_congr
      intro y hy
      rw [Bool.eq_iff_iff]
      simp only [Function.comp_apply, Bool.and_eq_true, decide_eq_true_eq]
      have hid : (ANode.redirect (fun i => if i = x.id then z.id else i)
          (if (ANode.redirect f y).id = x.id then { ANode.redirect f y with trans := [] }
            else ANode.redirect f y)).id = y.id := by
        split <;> rfl
      rw [hid]
      constructor
      · rintro ⟨h1, h2⟩ w hw hc
        rcases (hτ' w hw y).1 hc with ⟨_, rfl⟩ | hc
        · exact h1 rfl
        · exact h2 w hw hc
      · intro h1
        refine ⟨?_, fun w hw hc => h1 w hw ((hτ' w hw y).2 (Or.inr hc))⟩
        intro hc
        have : y = x := eq_of_id_eq hs.sids hy hx hc
        exact h1 z hz ((hτ' z hz y).2 (Or.inl ⟨rfl, this⟩))
    refine Eq.trans (congrArg _ hf) ?_
    apply List.map_congr_left
    intro y hy
    have hyx : y.id ≠ x.id := by
      intro hc
      obtain ⟨y1, y2⟩ := List.mem_filter.1 hy
      have : y = x := eq_of_id_eq hs.sids y1 hx hc
      simp only [decide_eq_true_eq] at y2
      exact y2 z hz ((hτ' z hz y).2 (Or.inl ⟨rfl, this⟩))
    have hyx' : (ANode.redirect f y).id ≠ x.id := hyx
    simp only [Function.comp_apply, if_neg hyx']
    rw [redirect_redirect]
  · rw [replace_redirect, h.sub_eq]
    unfold updNode
    rw [List.map_map, List.map_map]
    apply List.map_congr_left
    intro w hw
    simp only [Function.comp_apply, growNode_id]
    by_cases hwz : w.id = z.id
    · have : w = z := eq_of_id_eq hs.bids hw hz hwz
      subst this
      rw [if_pos rfl]
      unfold growNode ANode.redirect
      simp [hτ, Function.comp_def]
    · rw [if_neg hwz]
      cases hw2 : τ w.id with
      | none =>
        unfold growNode ANode.redirect
        simp only [hw2, if_neg hwz]
        congr 1
        conv_rhs => rw [← List.map_id w.trans]
        apply List.map_congr_left
        intro j hj
        obtain ⟨v, v1, v2⟩ := hs.bclosed w hw j hj
        rw [if_neg]
        · rfl
        · intro hc
          exact hs.disj x hx v v1 (by rw [v2, hc])
      | some y =>
        unfold growNode ANode.redirect
        simp [hw2, if_neg hwz, Function.comp_def]
  · intro w hw y hy
    rcases (hτ' w hw y).1 hy with ⟨rfl, rfl⟩ | hy
    · refine ⟨hx, ((h.exs _).1 hxe).1, hxs, ?_, hzt⟩
      rw [hfx, if_pos rfl]
    · obtain ⟨y1, y2, y3, y4, y5⟩ := h.tau w hw y hy
      refine ⟨y1, y2, y3, ?_, y5⟩
      rw [y4, if_neg]
      exact fun hc => hs.disj x hx w hw hc.symm
  · intro p
    have : some p ∈ (ex.map fun p => if p = some x.id then none else p) ↔ some p ∈ ex ∧ p ≠ x.id := by
      rw [List.mem_map]
      constructor
      · rintro ⟨q, q1, q2⟩
        split at q2
        · simp at q2
        · rename_i hq
          subst q2
          exact ⟨q1, fun hc => hq (by rw [hc])⟩
      · rintro ⟨q1, q2⟩
        exact ⟨some p, q1, by rw [if_neg]; simpa using q2⟩
    rw [this, h.exs]
    constructor
    · rintro ⟨⟨h1, h2⟩, h3⟩
      refine ⟨h1, fun w hw y hy => ?_⟩
      rcases (hτ' w hw y).1 hy with ⟨rfl, rfl⟩ | hy
      · exact fun hc => h3 hc.symm
      · exact h2 w hw y hy
    · rintro ⟨h1, h2⟩
      refine ⟨⟨h1, fun w hw y hy => h2 w hw y ((hτ' w hw y).2 (Or.inr hy))⟩, ?_⟩
      exact fun hc => h2 z hz x ((hτ' z hz x).2 (Or.inl ⟨rfl, rfl⟩)) hc.symm
  · intro y hy
    rcases h.tgt y hy with ⟨h1, w, w1, w2, w3⟩ | ⟨w, w1, w2⟩ | ⟨h1, h2, h3⟩
    · refine Or.inl ⟨h1, w, w1, ?_, w3⟩
      rw [← w2, if_neg]
      exact fun hc => hs.disj x hx w w1 hc.symm
    · exact Or.inr (Or.inl ⟨w, w1, (hτ' w w1 y).2 (Or.inr w2)⟩)
    · by_cases hyx : y = x
      · exact Or.inr (Or.inl ⟨z, hz, (hτ' z hz y).2 (Or.inl ⟨rfl, hyx⟩)⟩)
      · refine Or.inr (Or.inr ⟨fun w hw hc => ?_, h2, ?_⟩)
        · rcases (hτ' w hw y).1 hc with ⟨_, h⟩ | h
          · exact hyx h
          · exact h1 w hw h
        · rw [h3, if_neg]
          exact fun hc => hyx (eq_of_id_eq hs.sids hy hx hc)
  · intro w hw
    rw [h.fixB w hw, if_neg]
    exact fun hc => hs.disj x hx w hw hc.symm

theorem connectExit_spec {S B : Aut ℤ V} {ι : ℕ → Bool} {en ex0 : List ℕ} (hs : CStat S B en ex0) :
    ∀ (qs : List ℕ) (f : ℕ → ℕ) (τ : ℕ → Option (ANode ℤ V)) (ex : List (Option ℕ))
      (st sub st2 sub2 : Aut ℤ V),
    CInv S B ι en ex0 f τ ex st sub → qs.Nodup → (∀ q ∈ qs, q ∈ Aut.ids B ∧ τ q = none) →
    (∀ z ∈ B, z.id ∉ qs → τ z.id = none → z.trans ≠ []) →
    connectExit qs ex st sub = .ok (st2, sub2) →
    ∃ f' τ' ex', CInv S B ι en ex0 f' τ' ex' st2 sub2 ∧ ∀ z ∈ B, τ' z.id = none → z.trans ≠ [] := by
  intro qs
  induction qs with
  | nil =>
    intro f τ ex st sub st2 sub2 h _ _ hdone hc
    simp only [connectExit, SRes.ok.injEq, Prod.mk.injEq] at hc
    obtain ⟨rfl, rfl⟩ := hc
    exact ⟨f, τ, ex, h, fun z hz hn => hdone z hz (by simp) hn⟩
  | cons q qs ih =>
    intro f τ ex st sub st2 sub2 h hnd hq hdone hc
    obtain ⟨hq1, hq2⟩ := List.nodup_cons.1 hnd
    obtain ⟨hqB, hqτ⟩ := hq q (by simp)
    obtain ⟨z, hz, rfl⟩ := mem_ids.1 hqB
    have hsubnd : (Aut.ids sub).Nodup := by rw [h.ids_sub]; exact hs.bids
    have hzsub : ({ z with initial := ι z.id } : ANode ℤ V) ∈ sub := by
      rw [h.sub_eq, List.mem_map]
      refine ⟨z, hz, ?_⟩
      unfold growNode
      rw [hqτ]
    simp only [connectExit] at hc
    rw [derefNode_of_mem hsubnd hzsub] at hc
    simp only at hc
    by_cases hzt : z.trans = []
    · rw [if_neg (by simpa using hzt)] at hc
      cases hm : matchExit st z.state ex with
      | none => rw [hm] at hc; simp at hc
      | some r =>
        rw [hm] at hc
        cases r with
        | none => simp at hc
        | some xx =>
          simp only at hc
          obtain ⟨x1, x2, x3⟩ := matchExit_some hm
          rw [h.st_eq] at x1
          obtain ⟨x, y1, rfl⟩ := List.mem_map.1 x1
          obtain ⟨y1, y2⟩ := List.mem_filter.1 y1
          simp only [decide_eq_true_eq] at y2
          have hstep := h.step hs hz hqτ hzt y1 y2 x2 x3
          refine ih _ _ _ _ _ _ _ hstep hq2 ?_ ?_ hc
          · intro p hp
            refine ⟨(hq p (by simp [hp])).1, ?_⟩
            rw [if_neg (fun hc : p = z.id => hq1 (hc ▸ hp))]
            exact (hq p (by simp [hp])).2
          · intro w hw hwq hwτ
            by_cases hwz : w.id = z.id
            · simp [hwz] at hwτ
            · simp only [if_neg hwz] at hwτ
              exact hdone w hw (by simp [hwz, hwq]) hwτ
    · rw [if_pos (by simpa using hzt)] at hc
      refine ih f τ ex st sub st2 sub2 h hq2 (fun p hp => hq p (by simp [hp])) ?_ hc
      intro w hw hwq hwτ
      by_cases hwz : w.id = z.id
      · rw [eq_of_id_eq hs.bids hw hz hwz]
        exact hzt
      · exact hdone w hw (by simp [hwz, hwq]) hwτ

/-- The loop succeeds if every terminal node of the substrategy has the state of an `Exit` node. -/
theorem connectExit_ok {S B : Aut ℤ V} {ι : ℕ → Bool} {en ex0 : List ℕ} (hs : CStat S B en ex0)
    (hst : (B.map (·.state)).Nodup)
    (hterm : ∀ z ∈ B, z.trans = [] → ∃ x ∈ S, x.id ∈ ex0 ∧ x.state = z.state) :
    ∀ (qs : List ℕ) (f : ℕ → ℕ) (τ : ℕ → Option (ANode ℤ V)) (ex : List (Option ℕ))
      (st sub : Aut ℤ V),
    CInv S B ι en ex0 f τ ex st sub → qs.Nodup → (∀ q ∈ qs, q ∈ Aut.ids B ∧ τ q = none) →
    ∃ r, connectExit qs ex st sub = .ok r := by
  intro qs
  induction qs with
  | nil => intro f τ ex st sub _ _ _; exact ⟨_, rfl⟩
  | cons q qs ih =>
    intro f τ ex st sub h hnd hq
    obtain ⟨hq1, hq2⟩ := List.nodup_cons.1 hnd
    obtain ⟨hqB, hqτ⟩ := hq q (by simp)
    obtain ⟨z, hz, rfl⟩ := mem_ids.1 hqB
    have hsubnd : (Aut.ids sub).Nodup := by rw [h.ids_sub]; exact hs.bids
    have hzsub : ({ z with initial := ι z.id } : ANode ℤ V) ∈ sub := by
      rw [h.sub_eq, List.mem_map]
      refine ⟨z, hz, ?_⟩
      unfold growNode
      rw [hqτ]
    simp only [connectExit]
    rw [derefNode_of_mem hsubnd hzsub]
    simp only
    by_cases hzt : z.trans = []
    · rw [if_neg (by simpa using hzt)]
      have hst' : ∀ x ∈ S, (∀ w ∈ B, τ w.id ≠ some x) → derefNode st x.id = some (x.redirect f) := by
        intro x hx hun
        exact derefNode_of_mem (h.ids_st hs) (x := x.redirect f) (by
          rw [h.st_eq]
          exact List.mem_map_of_mem (List.mem_filter.2 ⟨hx, by simpa using hun⟩))
      have hm : ∃ xx, matchExit st z.state ex = some (some xx) := by
        apply matchExit_exists
        · intro p hp
          obtain ⟨p1, p2⟩ := (h.exs p).1 hp
          obtain ⟨x, x1, rfl⟩ := hs.exS p p1
          exact ⟨_, hst' x x1 (fun w hw hc => p2 w hw x hc rfl)⟩
        · obtain ⟨x, x1, x2, x3⟩ := hterm z hz hzt
          have hun : ∀ w ∈ B, ∀ y, τ w.id = some y → y.id ≠ x.id := by
            intro w hw y hy hc
            obtain ⟨y1, -, y2, -⟩ := h.tau w hw y hy
            have hyx : y = x := eq_of_id_eq hs.sids y1 x1 hc
            subst hyx
            have : w = z := (List.inj_on_of_nodup_map hst) hw hz (y2.symm.trans x3)
            subst this
            rw [hqτ] at hy
            simp at hy
          exact ⟨x.id, x.redirect f, (h.exs x.id).2 ⟨x2, hun⟩,
            hst' x x1 (fun w hw hc => hun w hw x hc rfl), x3⟩
      obtain ⟨xx, hm⟩ := hm
      rw [hm]
      simp only
      obtain ⟨x1, x2, x3⟩ := matchExit_some hm
      rw [h.st_eq] at x1
      obtain ⟨x, y1, rfl⟩ := List.mem_map.1 x1
      obtain ⟨y1, y2⟩ := List.mem_filter.1 y1
      simp only [decide_eq_true_eq] at y2
      have hstep := h.step hs hz hqτ hzt y1 y2 x2 x3
      refine ih _ _ _ _ _ hstep hq2 ?_
      intro p hp
      refine ⟨(hq p (by simp [hp])).1, ?_⟩
      rw [if_neg (fun hc : p = z.id => hq1 (hc ▸ hp))]
      exact (hq p (by simp [hp])).2
    · rw [if_pos (by simpa using hzt)]
      exact ih f τ ex st sub h hq2 (fun p hp => hq p (by simp [hp]))

end Gr1c
