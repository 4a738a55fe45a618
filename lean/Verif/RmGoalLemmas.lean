import Verif.RmGoal
import Verif.AutomatonLemmas

/-!
# Helper lemmas about the list surgery of `rm_sysgoal`
-/

namespace Gr1c

set_option linter.unusedSectionVars false

section
variable {M V : Type} [DecidableEq M] [DecidableEq V]

theorem derefNode_some {l : Aut M V} {p : ℕ} {x : ANode M V} (h : derefNode l p = some x) :
    x ∈ l ∧ x.id = p := by
  unfold derefNode at h
  exact ⟨List.mem_of_find?_eq_some h, by simpa using List.find?_some h⟩

theorem derefNode_of_mem {l : Aut M V} (hnd : (Aut.ids l).Nodup) {x : ANode M V} (hx : x ∈ l) :
    derefNode l x.id = some x := by
  cases h : derefNode l x.id with
  | none =>
    unfold derefNode at h
    rw [List.find?_eq_none] at h
    exact absurd (h x hx) (by simp)
  | some y =>
    obtain ⟨h1, h2⟩ := derefNode_some h
    rw [eq_of_id_eq hnd h1 hx h2]

theorem mem_addPtr {a : List ℕ} {p q : ℕ} : q ∈ addPtr a p ↔ q ∈ a ∨ q = p := by
  unfold addPtr
  split
  · rename_i h
    constructor
    · exact Or.inl
    · rintro (h' | rfl)
      · exact h'
      · exact h
  · simp

theorem addPtr_nodup {a : List ℕ} {p : ℕ} (h : a.Nodup) : (addPtr a p).Nodup := by
  unfold addPtr
  split
  · exact h
  · rename_i hp
    rw [List.nodup_append]
    refine ⟨h, by simp, ?_⟩
    rintro x hx y hy rfl
    simp at hy
    exact hp (hy ▸ hx)

theorem collectTrans_spec {l : Aut M V} (hnd : (Aut.ids l).Nodup) {P : M → Bool} :
    ∀ (js a r : List ℕ), collectTrans l P js a = some r →
      (∀ p, p ∈ r ↔ p ∈ a ∨ (p ∈ js ∧ ∃ y ∈ l, y.id = p ∧ P y.mode = true)) ∧ (a.Nodup → r.Nodup) := by
  intro js
  induction js with
  | nil =>
    intro a r h
    simp only [collectTrans, Option.some.injEq] at h
    subst h
    simp
  | cons j js ih =>
    intro a r h
    simp only [collectTrans] at h
    cases hd : derefNode l j with
    | none => rw [hd] at h; simp at h
    | some y =>
      rw [hd] at h
      simp only at h
      obtain ⟨y1, y2⟩ := derefNode_some hd
      obtain ⟨h1, h2⟩ := ih _ _ h
      constructor
      · intro p
        rw [h1]
        by_cases hp : P y.mode = true
        · rw [if_pos hp, mem_addPtr]
          constructor
          · rintro ((h | rfl) | h)
            · exact Or.inl h
            · exact Or.inr ⟨by simp, y, y1, y2, hp⟩
            · exact Or.inr ⟨by simp [h.1], h.2⟩
          · rintro (h | ⟨h, h'⟩)
            · exact Or.inl (Or.inl h)
            · rcases List.mem_cons.1 h with rfl | h
              · exact Or.inl (Or.inr rfl)
              · exact Or.inr ⟨h, h'⟩
        · rw [if_neg hp]
          constructor
          · rintro (h | h)
            · exact Or.inl h
            · exact Or.inr ⟨by simp [h.1], h.2⟩
          · rintro (h | ⟨h, h'⟩)
            · exact Or.inl h
            · rcases List.mem_cons.1 h with rfl | h
              · obtain ⟨y', q1, q2, q3⟩ := h'
                rw [eq_of_id_eq hnd q1 y1 (q2.trans y2.symm)] at q3
                exact absurd q3 hp
              · exact Or.inr ⟨h, h'⟩
      · intro ha
        apply h2
        split
        · exact addPtr_nodup ha
        · exact ha

theorem collectTrans_some {l : Aut M V} {P : M → Bool} :
    ∀ (js a : List ℕ), (∀ j ∈ js, j ∈ Aut.ids l) → ∃ r, collectTrans l P js a = some r := by
  intro js
  induction js with
  | nil => intro a _; exact ⟨a, rfl⟩
  | cons j js ih =>
    intro a h
    simp only [collectTrans]
    cases hd : derefNode l j with
    | none =>
      obtain ⟨x, x1, x2⟩ := mem_ids.1 (h j (by simp))
      unfold derefNode at hd
      rw [List.find?_eq_none] at hd
      exact absurd x2 (by simpa using hd x x1)
    | some y => exact ih _ (fun j hj => h j (by simp [hj]))

/-- Apply a map to all edges of a node. -/
def ANode.redirect (f : ℕ → ℕ) (x : ANode M V) : ANode M V := { x with trans := x.trans.map f }

/-- Drop the edges to the given addresses. -/
def ANode.cut (D : List ℕ) (x : ANode M V) : ANode M V :=
  { x with trans := x.trans.filter fun j => j ∉ D }

@[simp] theorem redirect_id (f : ℕ → ℕ) (x : ANode M V) : (x.redirect f).id = x.id := rfl
@[simp] theorem redirect_state (f : ℕ → ℕ) (x : ANode M V) : (x.redirect f).state = x.state := rfl
@[simp] theorem redirect_mode (f : ℕ → ℕ) (x : ANode M V) : (x.redirect f).mode = x.mode := rfl
@[simp] theorem redirect_initial (f : ℕ → ℕ) (x : ANode M V) : (x.redirect f).initial = x.initial := rfl
@[simp] theorem cut_id (D : List ℕ) (x : ANode M V) : (x.cut D).id = x.id := rfl
@[simp] theorem cut_state (D : List ℕ) (x : ANode M V) : (x.cut D).state = x.state := rfl
@[simp] theorem cut_mode (D : List ℕ) (x : ANode M V) : (x.cut D).mode = x.mode := rfl

theorem redirect_redirect (f g : ℕ → ℕ) (x : ANode M V) :
    (x.redirect f).redirect g = x.redirect (fun i => g (f i)) := by
  simp [ANode.redirect, Function.comp_def]

theorem replace_redirect (l : Aut M V) (p q : ℕ) :
    replaceAnodeTrans l p (some q) = l.map (ANode.redirect fun i => if i = p then q else i) := by
  rw [replaceAnodeTrans_some]
  rfl

end

section
variable {V : Type} [DecidableEq V]

theorem collectEE_spec {l : Aut ℤ V} (hnd : (Aut.ids l).Nodup) {d d1 : ℤ} :
    ∀ (xs : Aut ℤ V) (a r : List ℕ × List ℕ), collectEE l d d1 xs a = some r →
      (∀ p, p ∈ r.1 ↔ p ∈ a.1 ∨
        ∃ x ∈ xs, x.mode ≠ d ∧ p ∈ x.trans ∧ ∃ y ∈ l, y.id = p ∧ y.mode = d) ∧
      (∀ p, p ∈ r.2 ↔ p ∈ a.2 ∨
        ∃ x ∈ xs, (x.mode = d ∨ x.mode = d1) ∧ p ∈ x.trans ∧
          ∃ y ∈ l, y.id = p ∧ y.mode ≠ d1 ∧ y.mode ≠ d) ∧
      (a.1.Nodup → r.1.Nodup) ∧ (a.2.Nodup → r.2.Nodup) := by
  intro xs
  induction xs with
  | nil =>
    rintro ⟨a1, a2⟩ r h
    simp only [collectEE, Option.some.injEq] at h
    subst h
    simp
  | cons x xs ih =>
    rintro ⟨a1, a2⟩ r h
    simp only [collectEE] at h
    split at h
    · simp at h
    · rename_i ex' hex
      split at h
      · simp at h
      · rename_i en' hen
        obtain ⟨i1, i2, i3, i4⟩ := ih _ _ h
        simp only at i1 i2 i3 i4 ⊢
        have hen' : (∀ p, p ∈ en' ↔ p ∈ a1 ∨ (x.mode ≠ d ∧ p ∈ x.trans ∧ ∃ y ∈ l, y.id = p ∧ y.mode = d)) ∧
            (a1.Nodup → en'.Nodup) := by
          split at hen
          · rename_i hm
            obtain ⟨c1, c2⟩ := collectTrans_spec hnd _ _ _ hen
            refine ⟨fun p => ?_, c2⟩
            rw [c1]
            simp [hm]
          · rename_i hm
            simp only [Option.some.injEq] at hen
            subst hen
            refine ⟨fun p => ?_, id⟩
            simp [hm]
        have hex' : (∀ p, p ∈ ex' ↔ p ∈ a2 ∨ ((x.mode = d ∨ x.mode = d1) ∧ p ∈ x.trans ∧
              ∃ y ∈ l, y.id = p ∧ y.mode ≠ d1 ∧ y.mode ≠ d)) ∧
            (a2.Nodup → ex'.Nodup) := by
          split at hex
          · rename_i hm
            obtain ⟨c1, c2⟩ := collectTrans_spec hnd _ _ _ hex
            refine ⟨fun p => ?_, c2⟩
            rw [c1]
            simp [hm]
          · rename_i hm
            simp only [Option.some.injEq] at hex
            subst hex
            refine ⟨fun p => ?_, id⟩
            simp [hm]
        refine ⟨fun p => ?_, fun p => ?_, fun h => i3 (hen'.2 h), fun h => i4 (hex'.2 h)⟩
        · rw [i1, hen'.1]
          simp only [List.mem_cons, exists_eq_or_imp]
          rw [or_assoc]
        · rw [i2, hex'.1]
          simp only [List.mem_cons, exists_eq_or_imp]
          rw [or_assoc]

theorem collectEE_some {l : Aut ℤ V} {d d1 : ℤ} :
    ∀ (xs : Aut ℤ V) (a : List ℕ × List ℕ), (∀ x ∈ xs, ∀ j ∈ x.trans, j ∈ Aut.ids l) →
      ∃ r, collectEE l d d1 xs a = some r := by
  intro xs
  induction xs with
  | nil => rintro a _; exact ⟨a, by cases a; rfl⟩
  | cons x xs ih =>
    rintro ⟨a1, a2⟩ h
    have hx := h x (by simp)
    have h1 : ∃ ex', (if x.mode = d ∨ x.mode = d1 then
        collectTrans l (fun m => m ≠ d1 ∧ m ≠ d) x.trans a2 else some a2) = some ex' := by
      split
      · exact collectTrans_some _ _ hx
      · exact ⟨_, rfl⟩
    have h2 : ∃ en', (if x.mode ≠ d then collectTrans l (fun m => m = d) x.trans a1 else some a1) =
        some en' := by
      split
      · exact collectTrans_some _ _ hx
      · exact ⟨_, rfl⟩
    obtain ⟨ex', h1⟩ := h1
    obtain ⟨en', h2⟩ := h2
    simp only [collectEE]
    rw [h1]
    simp only
    rw [h2]
    exact ih _ (fun x hx => h x (by simp [hx]))

theorem mem_ptrStates {l : Aut ℤ V} (hnd : (Aut.ids l).Nodup) {a : List ℕ} {s : V} :
    s ∈ ptrStates l a ↔ ∃ x ∈ l, x.id ∈ a ∧ x.state = s := by
  unfold ptrStates
  simp only [List.mem_toFinset, List.mem_filterMap, Option.map_eq_some_iff]
  constructor
  · rintro ⟨p, hp, x, hx, rfl⟩
    obtain ⟨x1, x2⟩ := derefNode_some hx
    exact ⟨x, x1, x2 ▸ hp, rfl⟩
  · rintro ⟨x, x1, x2, rfl⟩
    exact ⟨x.id, x2, x, derefNode_of_mem hnd x1, rfl⟩

/-! ## Entry nodes -/

theorem connectEntry_spec {B : Aut ℤ V} : ∀ (ps : List ℕ) (st sub st1 sub1 : Aut ℤ V),
    connectEntry ps st sub = .ok (st1, sub1) →
    (∀ p ∈ ps, p ∉ Aut.ids B) → (∃ ι : ℕ → Bool, sub = B.map fun z => { z with initial := ι z.id }) →
    ∃ (f : ℕ → ℕ) (ι : ℕ → Bool), st1 = st.map (ANode.redirect f) ∧
      sub1 = B.map (fun z => { z with initial := ι z.id }) ∧ (∀ i, i ∉ ps → f i = i) ∧
      (∀ p ∈ ps, ∃ z ∈ B, z.id = f p ∧ ∃ x ∈ st, x.id = p ∧ x.state = z.state) ∧
      ((∀ z ∈ sub, z.initial = false) → (∀ x ∈ st, x.id ∈ ps → x.initial = false) →
        ∀ z ∈ sub1, z.initial = false) := by
  intro ps
  induction ps with
  | nil =>
    rintro st sub st1 sub1 h _ ⟨ι, hι⟩
    simp only [connectEntry, SRes.ok.injEq, Prod.mk.injEq] at h
    obtain ⟨rfl, rfl⟩ := h
    refine ⟨id, ι, ?_, hι, fun _ _ => rfl, by simp, fun h _ => h⟩
    have : (ANode.redirect id : ANode ℤ V → ANode ℤ V) = id := by
      funext x; simp [ANode.redirect]
    rw [this]; simp
  | cons p ps ih =>
    rintro st sub st1 sub1 h hps ⟨ι, hι⟩
    simp only [connectEntry] at h
    cases hd : derefNode st p with
    | none => rw [hd] at h; simp at h
    | some en =>
      rw [hd] at h
      simp only at h
      obtain ⟨en1, en2⟩ := derefNode_some hd
      cases hz : sub.find? (fun z => en.state = z.state) with
      | none => rw [hz] at h; simp at h
      | some z' =>
        rw [hz] at h
        simp only at h
        have hz1 := List.mem_of_find?_eq_some hz
        have hz2 : en.state = z'.state := by simpa using List.find?_some hz
        obtain ⟨z, hzB, hzz⟩ : ∃ z ∈ B, z' = { z with initial := ι z.id } := by
          rw [hι] at hz1
          obtain ⟨z, q1, q2⟩ := List.mem_map.1 hz1
          exact ⟨z, q1, q2.symm⟩
        have hzid : z'.id = z.id := by rw [hzz]
        obtain ⟨f, ι', r1, r2, r3, r4, r5⟩ := ih _ _ _ _ h (fun q hq => hps q (by simp [hq]))
          ⟨fun i => if i = z'.id then en.initial else ι i, by
            rw [hι]
            unfold updNode
            rw [List.map_map]
            apply List.map_congr_left
            intro w _
            simp only [Function.comp_apply]
            split <;> rfl⟩
        have hzn : z.id ∉ p :: ps := fun hc => hps _ hc (mem_ids.2 ⟨z, hzB, rfl⟩)
        refine ⟨fun i => f (if i = p then z'.id else i), ι', ?_, r2, ?_, ?_, ?_⟩
        · rw [r1, replace_redirect, List.map_map]
          apply List.map_congr_left
          intro w _
          rw [Function.comp_apply, redirect_redirect]
        · intro i hi
          simp only [List.mem_cons, not_or] at hi
          simp only [if_neg hi.1]
          exact r3 i hi.2
        · intro q hq
          by_cases hqp : q = p
          · subst hqp
            simp only [if_true]
            refine ⟨z, hzB, ?_, en, en1, en2, ?_⟩
            · rw [r3 _ (by rw [hzid]; exact fun hc => hzn (by simp [hc])), hzid]
            · rw [hz2, hzz]
          · simp only [if_neg hqp]
            obtain ⟨w, w1, w2, x, x1, x2, x3⟩ := r4 q (by simpa [hqp] using hq)
            rw [replace_redirect] at x1
            obtain ⟨x', y1, rfl⟩ := List.mem_map.1 x1
            exact ⟨w, w1, w2, x', y1, x2, x3⟩
        · intro hA hB
          apply r5
          · intro w hw
            unfold updNode at hw
            obtain ⟨v, v1, rfl⟩ := List.mem_map.1 hw
            split
            · exact hB en en1 (by rw [en2]; simp)
            · exact hA v v1
          · intro x hx hxi
            rw [replace_redirect] at hx
            obtain ⟨x', y1, rfl⟩ := List.mem_map.1 hx
            exact hB x' y1 (List.mem_cons_of_mem _ hxi)

theorem connectEntry_ok {B : Aut ℤ V} : ∀ (ps : List ℕ) (st sub : Aut ℤ V),
    (∃ ι : ℕ → Bool, sub = B.map fun z => { z with initial := ι z.id }) →
    (Aut.ids st).Nodup → (∀ p ∈ ps, ∃ x ∈ st, x.id = p ∧ ∃ z ∈ B, z.state = x.state) →
    ∃ r, connectEntry ps st sub = .ok r := by
  intro ps
  induction ps with
  | nil => intro st sub _ _ _; exact ⟨_, rfl⟩
  | cons p ps ih =>
    rintro st sub ⟨ι, hι⟩ hnd h
    obtain ⟨x, x1, rfl, z, z1, z2⟩ := h p (by simp)
    simp only [connectEntry]
    rw [derefNode_of_mem hnd x1]
    simp only
    cases hz : sub.find? (fun z => x.state = z.state) with
    | none =>
      rw [List.find?_eq_none] at hz
      have := hz { z with initial := ι z.id } (by rw [hι]; exact List.mem_map_of_mem z1)
      simp only [decide_eq_true_eq] at this
      exact absurd z2.symm this
    | some z' =>
      simp only
      apply ih
      · refine ⟨fun i => if i = z'.id then x.initial else ι i, ?_⟩
        rw [hι]
        unfold updNode
        rw [List.map_map]
        apply List.map_congr_left
        intro w _
        simp only [Function.comp_apply]
        split <;> rfl
      · rw [replace_redirect]
        unfold Aut.ids at hnd ⊢
        rw [List.map_map]
        exact hnd
      · intro q hq
        obtain ⟨y, y1, y2, y3⟩ := h q (by simp [hq])
        rw [replace_redirect]
        exact ⟨_, List.mem_map_of_mem y1, y2, y3⟩

/-! ## Deleting the nodes of the two modes -/

theorem replace_cut (l : Aut ℤ V) (p : ℕ) :
    replaceAnodeTrans l p none = l.map (ANode.cut [p]) := by
  rw [replaceAnodeTrans_none]
  unfold ANode.cut
  simp

theorem deleteModes_spec {d d1 : ℤ} (st sub : Aut ℤ V) : (Aut.ids st).Nodup →
    deleteModes d d1 st sub =
      ((st.filter fun x => ¬ (x.mode = d ∨ x.mode = d1)).map
          (ANode.cut (Aut.ids (st.filter fun x => x.mode = d ∨ x.mode = d1))),
        sub.map (ANode.cut (Aut.ids (st.filter fun x => x.mode = d ∨ x.mode = d1)))) := by
  fun_induction deleteModes d d1 st sub with
  | case1 st sub h =>
    intro _
    rw [List.find?_eq_none] at h
    have h1 : st.filter (fun x => decide (x.mode = d ∨ x.mode = d1)) = [] := by
      rw [List.filter_eq_nil_iff]
      intro a ha
      exact h a ha
    have h2 : st.filter (fun x => decide (¬ (x.mode = d ∨ x.mode = d1))) = st := by
      rw [List.filter_eq_self]
      intro a ha
      simpa using h a ha
    have h3 : (ANode.cut [] : ANode ℤ V → ANode ℤ V) = id := by
      funext x; simp [ANode.cut]
    rw [h1, h2]
    simp [Aut.ids, h3]
  | case2 st sub x h ih =>
    intro hnd
    have hx1 := List.mem_of_find?_eq_some h
    have hx2 : x.mode = d ∨ x.mode = d1 := by simpa using List.find?_some h
    have hids : Aut.ids (replaceAnodeTrans st x.id none) = Aut.ids st := by
      rw [replace_cut]; simp [Aut.ids, Function.comp_def]
    have hdel : deleteAnode (replaceAnodeTrans st x.id none) (some x.id) =
        (st.filter fun y => y.id ≠ x.id).map (ANode.cut [x.id]) := by
      rw [deleteAnode_eq _ (by rw [hids]; exact hnd), if_pos (by rw [hids]; exact mem_ids.2 ⟨x, hx1, rfl⟩),
        replace_cut, List.filter_map]
      rfl
    rw [hdel] at ih
    have hnd' : (Aut.ids ((st.filter fun y => y.id ≠ x.id).map (ANode.cut [x.id]))).Nodup := by
      unfold Aut.ids at hnd ⊢
      rw [List.map_map]
      exact hnd.sublist (List.filter_sublist.map _)
    rw [hdel, ih hnd', replace_cut, List.filter_map, List.filter_map]
    simp only [Function.comp_def, cut_mode, List.filter_filter, List.map_map]
    have hD : ∀ j, j ∈ Aut.ids (List.map (ANode.cut [x.id])
        (st.filter fun y => decide (y.mode = d ∨ y.mode = d1) && decide (y.id ≠ x.id))) ∨ j = x.id ↔
        j ∈ Aut.ids (st.filter fun y => decide (y.mode = d ∨ y.mode = d1)) := by
      intro j
      simp only [Aut.ids, List.map_map, List.mem_map, List.mem_filter, Function.comp_apply, cut_id,
        Bool.and_eq_true, decide_eq_true_eq]
      constructor
      · rintro (⟨y, ⟨y1, y2, _⟩, rfl⟩ | rfl)
        · exact ⟨y, ⟨y1, y2⟩, rfl⟩
        · exact ⟨x, ⟨hx1, hx2⟩, rfl⟩
      · rintro ⟨y, ⟨y1, y2⟩, rfl⟩
        by_cases hyx : y.id = x.id
        · exact Or.inr hyx
        · exact Or.inl ⟨y, ⟨y1, y2, hyx⟩, rfl⟩
    have hcut : ∀ y : ANode ℤ V, (y.cut [x.id]).cut (Aut.ids (List.map (ANode.cut [x.id])
        (st.filter fun y => decide (y.mode = d ∨ y.mode = d1) && decide (y.id ≠ x.id)))) =
        y.cut (Aut.ids (st.filter fun y => decide (y.mode = d ∨ y.mode = d1))) := by
      intro y
      unfold ANode.cut at hD ⊢
      simp only [List.filter_filter]
      congr 1
      apply List.filter_congr
      intro j _
      have := hD j
      rw [Bool.eq_iff_iff]
      simp only [Bool.and_eq_true, decide_eq_true_eq, List.mem_singleton] at this ⊢
      rw [← this, not_or]
    have hf : st.filter (fun y => decide (¬(y.mode = d ∨ y.mode = d1)) && decide (y.id ≠ x.id)) =
        st.filter fun y => decide (¬(y.mode = d ∨ y.mode = d1)) := by
      apply List.filter_congr
      intro y hy
      by_cases hyx : y.id = x.id
      · rw [eq_of_id_eq hnd hy hx1 hyx]
        simp [hx2]
      · simp [hyx]
    refine Prod.ext ?_ ?_
    · exact (List.map_congr_left (fun y _ => hcut y)).trans (congrArg _ hf)
    · exact List.map_congr_left (fun y _ => hcut y)

end

end Gr1c
