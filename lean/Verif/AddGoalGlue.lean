import Verif.AddGoal
import Verif.RmGoalInv

/-!
# Gluing automata together

In all three loops of `add_metric_sysgoal` a node takes over edges and mode of a node with the same
state, which is deleted, and pointers to the latter are redirected. The invariant `Glue` relates the
current list to the nodes it was made of.
-/

namespace Gr1c

set_option linter.unusedSectionVars false

variable {V : Type} [DecidableEq V]

/-- The list `l` is made of the nodes `U`: the node with address `i` has state, mode and edges of
`src i`, and pointers to `j` now lead to `φ j`. -/
structure Glue (U l : Aut ℤ V) (φ : ℕ → ℕ) (src : ℕ → ANode ℤ V) : Prop where
  nodup : (Aut.ids l).Nodup
  mem : ∀ y ∈ l, src y.id ∈ U
  state : ∀ y ∈ l, y.state = (src y.id).state
  mode : ∀ y ∈ l, y.mode = (src y.id).mode
  trans : ∀ y ∈ l, y.trans = (src y.id).trans.map φ
  back : ∀ y ∈ l, φ (src y.id).id = y.id
  fix : ∀ y ∈ l, φ y.id = y.id
  own : ∀ y ∈ l, ∃ c ∈ U, c.id = y.id ∧ c.initial = y.initial ∧ c.state = y.state
  tgt : ∀ c ∈ U, ∃ y ∈ l, y.id = φ c.id ∧ y.state = c.state

/-- The node with address `k` takes over the node `x`, which is deleted; `r` is the annotation it gets. -/
def meld (l : Aut ℤ V) (k : ℕ) (x : ANode ℤ V) (r : ANode ℤ V → ℤ) : Aut ℤ V :=
  (l.filter fun y => y.id ≠ x.id).map fun y =>
    if y.id = k then { y with mode := x.mode, rgrad := r y, trans := x.trans.map fun i => if i = x.id then k else i }
    else y.redirect fun i => if i = x.id then k else i

theorem meld_ids (l : Aut ℤ V) (k : ℕ) (x : ANode ℤ V) (r : ANode ℤ V → ℤ) :
    Aut.ids (meld l k x r) = (Aut.ids l).filter fun i => i ≠ x.id := by
  unfold meld Aut.ids
  rw [List.map_map, List.filter_map]
  apply List.map_congr_left
  intro y _
  simp only [Function.comp_apply]
  split <;> rfl

/-- The nodes one starts with. -/
theorem Glue.refl {U : Aut ℤ V} (h : (Aut.ids U).Nodup) {src : ℕ → ANode ℤ V} (hs : ∀ c ∈ U, src c.id = c) :
    Glue U U id src := by
  refine ⟨h, ?_, ?_, ?_, ?_, ?_, fun _ _ => rfl, ?_, ?_⟩
  · intro y hy; rw [hs y hy]; exact hy
  · intro y hy; rw [hs y hy]
  · intro y hy; rw [hs y hy]
  · intro y hy; rw [hs y hy]; simp
  · intro y hy; rw [hs y hy]; rfl
  · intro y hy; exact ⟨y, hy, rfl, rfl, rfl⟩
  · intro c hc; exact ⟨c, hc, rfl, rfl⟩

theorem Glue.meld {U l : Aut ℤ V} {φ : ℕ → ℕ} {src : ℕ → ANode ℤ V} (h : Glue U l φ src) {kn x : ANode ℤ V}
    (hk : kn ∈ l) (hx : x ∈ l) (hne : kn.id ≠ x.id) (hst : kn.state = x.state) (r : ANode ℤ V → ℤ) :
    Glue U (meld l kn.id x r) (fun i => if φ i = x.id then kn.id else φ i)
      (fun i => if i = kn.id then src x.id else src i) := by
  have key : ∀ y ∈ Gr1c.meld l kn.id x r, ∃ w ∈ l, w.id ≠ x.id ∧ y.id = w.id ∧ y.state = w.state ∧ y.initial = w.initial ∧
      (w.id = kn.id → y.mode = x.mode ∧ y.trans = x.trans.map fun i => if i = x.id then kn.id else i) ∧
      (w.id ≠ kn.id → y.mode = w.mode ∧ y.trans = w.trans.map fun i => if i = x.id then kn.id else i) := by
    intro y hy
    obtain ⟨w, hw, rfl⟩ := List.mem_map.1 hy
    obtain ⟨h1, h2⟩ := List.mem_filter.1 hw
    simp only [ne_eq, decide_not, Bool.not_eq_true', decide_eq_false_iff_not] at h2
    refine ⟨w, h1, h2, ?_, ?_, ?_, ?_, ?_⟩
    · split <;> rfl
    · split <;> rfl
    · split <;> rfl
    · intro e; rw [if_pos e]; exact ⟨rfl, rfl⟩
    · intro e; rw [if_neg e]; exact ⟨rfl, rfl⟩
  have hcomp : ∀ t : List ℕ, (t.map φ).map (fun i => if i = x.id then kn.id else i) = t.map fun i => if φ i = x.id then kn.id else φ i := by
    intro t; rw [List.map_map]; rfl
  refine ⟨?_, ?_, ?_, ?_, ?_, ?_, ?_, ?_, ?_⟩
  · rw [meld_ids]; exact h.nodup.filter _
  · intro y hy
    obtain ⟨w, w1, w2, w3, -⟩ := key y hy
    rw [w3]
    by_cases e : w.id = kn.id
    · rw [if_pos e]; exact h.mem x hx
    · rw [if_neg e]; exact h.mem w w1
  · intro y hy
    obtain ⟨w, w1, w2, w3, w4, -⟩ := key y hy
    rw [w3, w4]
    by_cases e : w.id = kn.id
    · rw [if_pos e, eq_of_id_eq h.nodup w1 hk e, hst]; exact h.state x hx
    · rw [if_neg e]; exact h.state w w1
  · intro y hy
    obtain ⟨w, w1, w2, w3, w4, -, w5, w6⟩ := key y hy
    rw [w3]
    by_cases e : w.id = kn.id
    · rw [if_pos e, (w5 e).1]; exact h.mode x hx
    · rw [if_neg e, (w6 e).1]; exact h.mode w w1
  · intro y hy
    obtain ⟨w, w1, w2, w3, w4, -, w5, w6⟩ := key y hy
    rw [w3]
    by_cases e : w.id = kn.id
    · rw [if_pos e, (w5 e).2, h.trans x hx]; exact hcomp _
    · rw [if_neg e, (w6 e).2, h.trans w w1]; exact hcomp _
  · intro y hy
    obtain ⟨w, w1, w2, w3, -⟩ := key y hy
    rw [w3]
    by_cases e : w.id = kn.id
    · rw [if_pos e]
      simp only [h.back x hx, if_true, e]
    · rw [if_neg e]
      simp only [h.back w w1, if_neg w2]
  · intro y hy
    obtain ⟨w, w1, w2, w3, -⟩ := key y hy
    rw [w3, h.fix w w1, if_neg w2]
  · intro y hy
    obtain ⟨w, w1, w2, w3, w4, w5, -⟩ := key y hy
    obtain ⟨c, c1, c2, c3, c4⟩ := h.own w w1
    exact ⟨c, c1, by rw [c2, w3], by rw [c3, w5], by rw [c4, w4]⟩
  · intro c hc
    obtain ⟨y, y1, y2, y3⟩ := h.tgt c hc
    by_cases e : φ c.id = x.id
    · refine ⟨_, List.mem_map_of_mem (List.mem_filter.2 ⟨hk, by simpa using hne⟩), ?_, ?_⟩
      · rw [if_pos rfl]; simp only [e, if_true]
      · rw [if_pos rfl]
        change kn.state = c.state
        rw [hst, ← y3, eq_of_id_eq h.nodup y1 hx (y2.trans e)]
    · refine ⟨_, List.mem_map_of_mem (List.mem_filter.2 ⟨y1, by simpa [y2] using e⟩), ?_, ?_⟩
      · simp only [if_neg e]
        split <;> exact y2
      · split <;> exact y3

/-- Appending further nodes. -/
theorem Glue.append {U l B : Aut ℤ V} {φ : ℕ → ℕ} {src : ℕ → ANode ℤ V} (h : Glue U l φ src) (hB : (Aut.ids B).Nodup)
    (hU : ∀ c ∈ U, c.id ∉ Aut.ids B) (hc : ∀ c ∈ U, ∀ j ∈ c.trans, ∃ y ∈ U, y.id = j)
    (hBc : ∀ c ∈ B, ∀ j ∈ c.trans, ∃ y ∈ B, y.id = j) :
    Glue (U ++ B) (l ++ B) (fun i => if i ∈ Aut.ids B then i else φ i)
      (fun i => (derefNode B i).getD (src i)) := by
  have hl : ∀ y ∈ l, y.id ∉ Aut.ids B := by
    intro y hy
    obtain ⟨c, c1, c2, -⟩ := h.own y hy
    rw [← c2]; exact hU c c1
  have hdl : ∀ y ∈ l, derefNode B y.id = none := by
    intro y hy
    cases hd : derefNode B y.id with
    | none => rfl
    | some b =>
      obtain ⟨b1, b2⟩ := derefNode_some hd
      exact absurd (mem_ids.2 ⟨b, b1, b2⟩) (hl y hy)
  have hdB : ∀ y ∈ B, derefNode B y.id = some y := fun y hy => derefNode_of_mem hB hy
  have hφU : ∀ c ∈ U, (if c.id ∈ Aut.ids B then c.id else φ c.id) = φ c.id := fun c hc => if_neg (hU c hc)
  have hφB : ∀ c ∈ B, (if c.id ∈ Aut.ids B then c.id else φ c.id) = c.id := fun c hc => if_pos (mem_ids.2 ⟨c, hc, rfl⟩)
  have hmapU : ∀ c ∈ U, c.trans.map (fun i => if i ∈ Aut.ids B then i else φ i) = c.trans.map φ := by
    intro c hcU
    apply List.map_congr_left
    intro j hj
    obtain ⟨y, y1, rfl⟩ := hc c hcU j hj
    exact hφU y y1
  refine ⟨?_, ?_, ?_, ?_, ?_, ?_, ?_, ?_, ?_⟩
  · unfold Aut.ids
    rw [List.map_append, List.nodup_append]
    refine ⟨h.nodup, hB, ?_⟩
    rintro i hi j hj rfl
    obtain ⟨y, y1, rfl⟩ := List.mem_map.1 hi
    exact hl y y1 hj
  · intro y hy
    rcases List.mem_append.1 hy with hy | hy
    · rw [hdl y hy]; exact List.mem_append_left _ (h.mem y hy)
    · rw [hdB y hy]; exact List.mem_append_right _ hy
  · intro y hy
    rcases List.mem_append.1 hy with hy | hy
    · rw [hdl y hy]; exact h.state y hy
    · rw [hdB y hy]; rfl
  · intro y hy
    rcases List.mem_append.1 hy with hy | hy
    · rw [hdl y hy]; exact h.mode y hy
    · rw [hdB y hy]; rfl
  · intro y hy
    rcases List.mem_append.1 hy with hy | hy
    · rw [hdl y hy]; rw [Option.getD_none, hmapU _ (h.mem y hy)]; exact h.trans y hy
    · rw [hdB y hy, Option.getD_some]
      conv_lhs => rw [← List.map_id y.trans]
      apply List.map_congr_left
      intro j hj
      obtain ⟨w, w1, rfl⟩ := hBc y hy j hj
      exact (hφB w w1).symm
  · intro y hy
    rcases List.mem_append.1 hy with hy | hy
    · rw [hdl y hy, Option.getD_none]
      exact (hφU _ (h.mem y hy)).trans (h.back y hy)
    · rw [hdB y hy, Option.getD_some]
      exact hφB y hy
  · intro y hy
    by_cases e : y.id ∈ Aut.ids B
    · rw [if_pos e]
    · rw [if_neg e]
      rcases List.mem_append.1 hy with hy | hy
      · exact h.fix y hy
      · exact absurd (mem_ids.2 ⟨y, hy, rfl⟩) e
  · intro y hy
    rcases List.mem_append.1 hy with hy | hy
    · obtain ⟨c, c1, c2⟩ := h.own y hy
      exact ⟨c, List.mem_append_left _ c1, c2⟩
    · exact ⟨y, List.mem_append_right _ hy, rfl, rfl, rfl⟩
  · intro c hc
    rcases List.mem_append.1 hc with hc | hc
    · obtain ⟨y, y1, y2, y3⟩ := h.tgt c hc
      exact ⟨y, List.mem_append_left _ y1, y2.trans (hφU c hc).symm, y3⟩
    · exact ⟨c, List.mem_append_right _ hc, (hφB c hc).symm, rfl⟩

/-! ## The steps of the loops -/

theorem attach_step {st sub : Aut ℤ V} (hnd : (Aut.ids (st ++ sub)).Nodup) {p : ℕ} {z : ANode ℤ V} (hp : p ∈ Aut.ids st)
    (hz : z ∈ sub) (r : ANode ℤ V → ℤ) :
    replaceAnodeTrans (updNode st p fun x => { x with mode := z.mode, rgrad := r x, trans := z.trans }) z.id (some p) ++
      deleteAnode (replaceAnodeTrans (updNode sub z.id fun x => { x with trans := [] }) z.id (some p)) (some z.id) =
    meld (st ++ sub) p z r ∧
    deleteAnode (replaceAnodeTrans (updNode sub z.id fun x => { x with trans := [] }) z.id (some p)) (some z.id) =
      (sub.filter fun y => y.id ≠ z.id).map (ANode.redirect fun i => if i = z.id then p else i) ∧
    Aut.ids (replaceAnodeTrans (updNode st p fun x => { x with mode := z.mode, rgrad := r x, trans := z.trans }) z.id (some p)) =
      Aut.ids st := by
  have hnd' := hnd
  unfold Aut.ids at hnd'
  rw [List.map_append, List.nodup_append] at hnd'
  obtain ⟨n1, n2, n3⟩ := hnd'
  have hstz : ∀ y ∈ st, y.id ≠ z.id := fun y hy => n3 _ (List.mem_map_of_mem hy) _ (List.mem_map_of_mem hz)
  have hsubp : ∀ y ∈ sub, y.id ≠ p := by
    intro y hy
    exact fun e => n3 p hp _ (List.mem_map_of_mem hy) e.symm
  have hids : Aut.ids (replaceAnodeTrans (updNode sub z.id fun x => { x with trans := [] }) z.id (some p)) = Aut.ids sub := by
    unfold Aut.ids replaceAnodeTrans updNode
    rw [List.map_map, List.map_map]
    apply List.map_congr_left
    intro y _
    simp only [Function.comp_apply]
    split <;> rfl
  have hdel : deleteAnode (replaceAnodeTrans (updNode sub z.id fun x => { x with trans := [] }) z.id (some p)) (some z.id) =
      (sub.filter fun y => y.id ≠ z.id).map (ANode.redirect fun i => if i = z.id then p else i) := by
    rw [deleteAnode_eq _ (by rw [hids]; exact n2), if_pos (by rw [hids]; exact mem_ids.2 ⟨z, hz, rfl⟩), replace_redirect, updNode,
      List.filter_map, List.filter_map, List.map_map]
    have e1 : (sub.filter (((fun n : ANode ℤ V => decide (n.id ≠ z.id)) ∘ (ANode.redirect fun i => if i = z.id then p else i)) ∘
        fun n => if n.id = z.id then { n with trans := [] } else n)) = sub.filter fun y => y.id ≠ z.id := by
      apply List.filter_congr
      intro y _
      simp only [Function.comp_apply]
      split <;> rfl
    rw [e1]
    apply List.map_congr_left
    intro y hy
    have := (List.mem_filter.1 hy).2
    simp only [ne_eq, decide_not, Bool.not_eq_true', decide_eq_false_iff_not] at this
    simp only [Function.comp_apply, if_neg this]
  refine ⟨?_, hdel, ?_⟩
  · rw [hdel, replace_redirect, meld, List.filter_append, List.map_append]
    congr 1
    · rw [List.filter_eq_self.2 (fun y hy => by simpa using hstz y hy), updNode, List.map_map]
      apply List.map_congr_left
      intro y _
      simp only [Function.comp_apply]
      split <;> rfl
    · apply List.map_congr_left
      intro y hy
      rw [if_neg (hsubp y (List.mem_filter.1 hy).1)]
  · unfold Aut.ids replaceAnodeTrans updNode
    rw [List.map_map, List.map_map]
    apply List.map_congr_left
    intro y _
    simp only [Function.comp_apply]
    split <;> rfl

theorem takeOver_step {st sub : Aut ℤ V} (hnd : (Aut.ids (st ++ sub)).Nodup) {q : ℕ} {x : ANode ℤ V} (hq : q ∈ Aut.ids sub)
    (hx : x ∈ st) :
    deleteAnode (replaceAnodeTrans (updNode st x.id fun n => { n with trans := [] }) x.id (some q)) (some x.id) ++
      replaceAnodeTrans (updNode sub q fun n => { n with mode := x.mode, rgrad := x.rgrad, trans := x.trans }) x.id (some q) =
    meld (st ++ sub) q x (fun _ => x.rgrad) ∧
    Aut.ids (deleteAnode (replaceAnodeTrans (updNode st x.id fun n => { n with trans := [] }) x.id (some q)) (some x.id)) =
      (Aut.ids st).filter (fun i => i ≠ x.id) ∧
    Aut.ids (replaceAnodeTrans (updNode sub q fun n => { n with mode := x.mode, rgrad := x.rgrad, trans := x.trans }) x.id (some q)) =
      Aut.ids sub := by
  have hnd' := hnd
  unfold Aut.ids at hnd'
  rw [List.map_append, List.nodup_append] at hnd'
  obtain ⟨n1, n2, n3⟩ := hnd'
  have hsubx : ∀ y ∈ sub, y.id ≠ x.id := fun y hy e => n3 _ (List.mem_map_of_mem hx) _ (List.mem_map_of_mem hy) e.symm
  have hstq : ∀ y ∈ st, y.id ≠ q := fun y hy => n3 _ (List.mem_map_of_mem hy) q hq
  have hids : Aut.ids (replaceAnodeTrans (updNode st x.id fun n => { n with trans := [] }) x.id (some q)) = Aut.ids st := by
    unfold Aut.ids replaceAnodeTrans updNode
    rw [List.map_map, List.map_map]
    apply List.map_congr_left
    intro y _
    simp only [Function.comp_apply]
    split <;> rfl
  have hdel : deleteAnode (replaceAnodeTrans (updNode st x.id fun n => { n with trans := [] }) x.id (some q)) (some x.id) =
      (st.filter fun y => y.id ≠ x.id).map (ANode.redirect fun i => if i = x.id then q else i) := by
    rw [deleteAnode_eq _ (by rw [hids]; exact n1), if_pos (by rw [hids]; exact mem_ids.2 ⟨x, hx, rfl⟩), replace_redirect, updNode,
      List.filter_map, List.filter_map, List.map_map]
    have e1 : (st.filter (((fun n : ANode ℤ V => decide (n.id ≠ x.id)) ∘ (ANode.redirect fun i => if i = x.id then q else i)) ∘
        fun n => if n.id = x.id then { n with trans := [] } else n)) = st.filter fun y => y.id ≠ x.id := by
      apply List.filter_congr
      intro y _
      simp only [Function.comp_apply]
      split <;> rfl
    rw [e1]
    apply List.map_congr_left
    intro y hy
    have := (List.mem_filter.1 hy).2
    simp only [ne_eq, decide_not, Bool.not_eq_true', decide_eq_false_iff_not] at this
    simp only [Function.comp_apply, if_neg this]
  refine ⟨?_, ?_, ?_⟩
  · rw [hdel, replace_redirect, meld, List.filter_append, List.map_append]
    congr 1
    · apply List.map_congr_left
      intro y hy
      rw [if_neg (hstq y (List.mem_filter.1 hy).1)]
    · rw [List.filter_eq_self.2 (fun y hy => by simpa using hsubx y hy), updNode, List.map_map]
      apply List.map_congr_left
      intro y _
      simp only [Function.comp_apply]
      split <;> rfl
  · rw [hdel]
    unfold Aut.ids
    rw [List.map_map, List.filter_map]
    rfl
  · unfold Aut.ids replaceAnodeTrans updNode
    rw [List.map_map, List.map_map]
    apply List.map_congr_left
    intro y _
    simp only [Function.comp_apply]
    split <;> rfl

/-! ## The loops -/

/-- Only `i` itself leads to `i`. -/
def Only (U : Aut ℤ V) (φ : ℕ → ℕ) (i : ℕ) : Prop := ∀ c ∈ U, φ c.id = i → c.id = i

/-- What becomes of a node of `U`. -/
def sig (φ : ℕ → ℕ) (src : ℕ → ANode ℤ V) (c : ANode ℤ V) : ANode ℤ V := src (φ c.id)

theorem sig_meld {φ : ℕ → ℕ} {src : ℕ → ANode ℤ V} {k d : ℕ} (hkd : k ≠ d) (c : ANode ℤ V) :
    sig (fun i => if φ i = d then k else φ i) (fun i => if i = k then src d else src i) c =
      if φ c.id = k then src d else sig φ src c := by
  unfold sig
  by_cases h1 : φ c.id = d
  · simp only [h1, if_true, if_neg (Ne.symm hkd)]
  · simp only [h1, if_false]

theorem Only.meld {U : Aut ℤ V} {φ : ℕ → ℕ} {k d i : ℕ} (h : Only U φ i) (hk : i ≠ k) :
    Only U (fun i => if φ i = d then k else φ i) i := by
  intro c hc he
  by_cases h1 : φ c.id = d
  · simp only [h1, if_true] at he; exact absurd he.symm hk
  · simp only [h1, if_false] at he; exact h c hc he

theorem attach_glue {U : Aut ℤ V} {keep : Bool} : ∀ (ps : List ℕ) (st sub st' sub' : Aut ℤ V) (φ : ℕ → ℕ) (src : ℕ → ANode ℤ V),
    Glue U (st ++ sub) φ src → ps.Nodup → (∀ p ∈ ps, p ∈ Aut.ids st ∧ Only U φ p) →
    attach keep ps st sub = .ok (st', sub') →
    ∃ φ' src', Glue U (st' ++ sub') φ' src' ∧ Aut.ids st' = Aut.ids st ∧ (Aut.ids sub').Sublist (Aut.ids sub) ∧
      (∀ c ∈ U, c.id ∉ ps → sig φ' src' c = sig φ src c) ∧
      (∀ c ∈ U, c.id ∈ ps → ∃ i ∈ Aut.ids sub, i ∉ Aut.ids sub' ∧ sig φ' src' c = src i ∧ (src i).state = c.state) ∧
      (∀ i, i ∉ ps → Only U φ i → Only U φ' i) ∧
      (∀ i ∈ Aut.ids sub, i ∉ Aut.ids sub' → ∃ c ∈ U, c.id ∈ ps ∧ (src i).state = c.state) := by
  intro ps
  induction ps with
  | nil =>
    intro st sub st' sub' φ src h _ _ he
    simp only [attach, SRes.ok.injEq, Prod.mk.injEq] at he
    obtain ⟨rfl, rfl⟩ := he
    exact ⟨φ, src, h, rfl, List.Sublist.refl _, fun _ _ _ => rfl, by simp, fun _ _ h => h, fun i h1 h2 => absurd h1 h2⟩
  | cons p ps ih =>
    intro st sub st' sub' φ src h hnd hps he
    rw [List.nodup_cons] at hnd
    obtain ⟨hp1, hp2⟩ := hps p (by simp)
    simp only [attach] at he
    cases hd : derefNode st p with
    | none => rw [hd] at he; simp at he
    | some g =>
      rw [hd] at he
      simp only at he
      obtain ⟨g1, g2⟩ := derefNode_some hd
      cases hf : sub.find? (fun z => z.state = g.state) with
      | none => rw [hf] at he; simp at he
      | some z =>
        rw [hf] at he
        simp only at he
        have z1 := List.mem_of_find?_eq_some hf
        have z2 : z.state = g.state := by simpa using List.find?_some hf
        obtain ⟨e1, e2, e3⟩ := attach_step h.nodup hp1 z1 (fun x => if keep then x.rgrad else z.rgrad)
        have hgz : g.id ≠ z.id := by
          have := h.nodup
          unfold Aut.ids at this
          rw [List.map_append, List.nodup_append] at this
          exact this.2.2 _ (List.mem_map_of_mem g1) _ (List.mem_map_of_mem z1)
        have hG := h.meld (List.mem_append_left _ g1) (List.mem_append_right _ z1) hgz z2.symm (fun x => if keep then x.rgrad else z.rgrad)
        rw [g2] at hG hgz
        rw [← e1] at hG
        have hsubids : Aut.ids (deleteAnode (replaceAnodeTrans (updNode sub z.id fun x => { x with trans := [] }) z.id (some p)) (some z.id)) =
            (Aut.ids sub).filter fun i => i ≠ z.id := by
          rw [e2]
          unfold Aut.ids
          rw [List.map_map, List.filter_map]
          rfl
        obtain ⟨φ', src', k1, k2, k3, k4, k5, k6, k7⟩ := ih _ _ st' sub' _ _ hG hnd.2 (fun q hq => by
          obtain ⟨q1, q2⟩ := hps q (by simp [hq])
          refine ⟨by rw [e3]; exact q1, q2.meld ?_⟩
          rintro rfl
          exact hnd.1 hq) he
        rw [hsubids] at k3 k5 k7
        refine ⟨φ', src', k1, k2.trans e3, k3.trans List.filter_sublist, ?_, ?_, ?_, ?_⟩
        · intro c hc hcp
          simp only [List.mem_cons, not_or] at hcp
          rw [k4 c hc hcp.2, sig_meld hgz, if_neg (fun e => hcp.1 (hp2 c hc e))]
        · intro c hc hcp
          rcases List.mem_cons.1 hcp with hcp | hcp
          · refine ⟨z.id, mem_ids.2 ⟨z, z1, rfl⟩, ?_, ?_, ?_⟩
            · intro hz
              have := k3.subset hz
              simp at this
            · rw [k4 c hc (by rw [hcp]; exact hnd.1), sig_meld hgz, if_pos]
              rw [hcp, ← g2]
              exact h.fix g (List.mem_append_left _ g1)
            · rw [← h.state z (List.mem_append_right _ z1), z2]
              obtain ⟨c', c1, c2, -, c3⟩ := h.own g (List.mem_append_left _ g1)
              obtain ⟨y, y1, y2, y3⟩ := h.tgt c hc
              have hφ : φ c.id = g.id := by
                rw [hcp, ← g2]; exact h.fix g (List.mem_append_left _ g1)
              rw [← y3, eq_of_id_eq h.nodup y1 (List.mem_append_left _ g1) (y2.trans hφ)]
          · obtain ⟨i, i1, i2, i3, i4⟩ := k5 c hc hcp
            obtain ⟨i1, -⟩ := List.mem_filter.1 i1
            have hip : i ≠ p := by
              rintro rfl
              have := h.nodup
              unfold Aut.ids at this
              rw [List.map_append, List.nodup_append] at this
              exact this.2.2 _ hp1 _ i1 rfl
            rw [if_neg hip] at i3 i4
            exact ⟨i, i1, i2, i3, i4⟩
        · intro i hi ho
          simp only [List.mem_cons, not_or] at hi
          exact k6 i hi.2 (ho.meld hi.1)
        · intro i hi hn
          by_cases hiz : i = z.id
          · obtain ⟨c, c1, c2, -, c3⟩ := h.own g (List.mem_append_left _ g1)
            refine ⟨c, c1, by rw [c2, g2]; simp, ?_⟩
            rw [hiz, ← h.state z (List.mem_append_right _ z1), z2, c3]
          · obtain ⟨c, c1, c2, c3⟩ := k7 i (List.mem_filter.2 ⟨hi, by simpa using hiz⟩) hn
            have hip : i ≠ p := by
              rintro rfl
              have := h.nodup
              unfold Aut.ids at this
              rw [List.map_append, List.nodup_append] at this
              exact this.2.2 _ hp1 _ hi rfl
            rw [if_neg hip] at c3
            exact ⟨c, c1, by simp [c2], c3⟩

theorem takeOver_glue {U : Aut ℤ V} {ex : List ℕ} : ∀ (qs : List ℕ) (st sub st' sub' : Aut ℤ V) (φ : ℕ → ℕ) (src : ℕ → ANode ℤ V),
    Glue U (st ++ sub) φ src → qs.Nodup → (∀ q ∈ qs, q ∈ Aut.ids sub ∧ Only U φ q) →
    takeOver ex qs st sub = .ok (st', sub') →
    ∃ φ' src', Glue U (st' ++ sub') φ' src' ∧ (Aut.ids st').Sublist (Aut.ids st) ∧ Aut.ids sub' = Aut.ids sub ∧
      (∀ c ∈ U, c.id ∉ qs → sig φ' src' c = sig φ src c) ∧
      (∀ c ∈ U, c.id ∈ qs → (sig φ' src' c = sig φ src c ∧ (sig φ src c).trans ≠ []) ∨
        ((sig φ src c).trans = [] ∧ ∃ x ∈ U, x.id ∈ ex ∧ x.id ∈ Aut.ids st ∧ x.state = c.state ∧
          sig φ' src' c = sig φ src x)) ∧
      (∀ i ∈ Aut.ids st, i ∉ ex → i ∈ Aut.ids st') := by
  intro qs
  induction qs with
  | nil =>
    intro st sub st' sub' φ src h _ _ he
    simp only [takeOver, SRes.ok.injEq, Prod.mk.injEq] at he
    obtain ⟨rfl, rfl⟩ := he
    exact ⟨φ, src, h, List.Sublist.refl _, rfl, fun _ _ _ => rfl, by simp, fun _ h _ => h⟩
  | cons q qs ih =>
    intro st sub st' sub' φ src h hnd hqs he
    rw [List.nodup_cons] at hnd
    obtain ⟨hq1, hq2⟩ := hqs q (by simp)
    simp only [takeOver] at he
    cases hd : derefNode sub q with
    | none => rw [hd] at he; simp at he
    | some z =>
      rw [hd] at he
      simp only at he
      obtain ⟨z1, z2⟩ := derefNode_some hd
      have z1' : z ∈ st ++ sub := List.mem_append_right _ z1
      have hsigq : ∀ c ∈ U, c.id = q → sig φ src c = src q ∧ z.state = c.state := by
        intro c hc e
        have hφ : φ c.id = z.id := by rw [e, ← z2]; exact h.fix z z1'
        obtain ⟨y, y1, y2, y3⟩ := h.tgt c hc
        refine ⟨by unfold sig; rw [hφ, z2], ?_⟩
        rw [← y3, eq_of_id_eq h.nodup y1 z1' (y2.trans hφ)]
      have htr : z.trans = [] ↔ (src q).trans = [] := by
        rw [h.trans z z1', z2]; simp
      by_cases ht : z.trans = []
      · rw [if_neg (by simpa using ht)] at he
        cases hm : matchExit st z.state (ex.map some) with
        | none => rw [hm] at he; simp at he
        | some mx =>
          cases mx with
          | none => rw [hm] at he; simp at he
          | some x =>
            rw [hm] at he
            simp only at he
            obtain ⟨x1, x2, x3⟩ := matchExit_some hm
            simp only [List.mem_map, Option.some.injEq, exists_eq_right] at x3
            have x1' : x ∈ st ++ sub := List.mem_append_left _ x1
            obtain ⟨e1, e2, e3⟩ := takeOver_step h.nodup hq1 x1
            have hzx : z.id ≠ x.id := by
              have := h.nodup
              unfold Aut.ids at this
              rw [List.map_append, List.nodup_append] at this
              exact fun e => this.2.2 _ (List.mem_map_of_mem x1) _ (List.mem_map_of_mem z1) e.symm
            have hG := h.meld z1' x1' hzx x2.symm (fun _ => x.rgrad)
            rw [z2] at hG hzx
            rw [← e1] at hG
            obtain ⟨φ', src', k1, k2, k3, k4, k5, k6⟩ := ih _ _ st' sub' _ _ hG hnd.2 (fun r hr => by
              obtain ⟨r1, r2⟩ := hqs r (by simp [hr])
              refine ⟨by rw [e3]; exact r1, r2.meld ?_⟩
              rintro rfl
              exact hnd.1 hr) he
            have hsig : ∀ c ∈ U, c.id ≠ q → sig (fun i => if φ i = x.id then q else φ i)
                (fun i => if i = q then src x.id else src i) c = sig φ src c := by
              intro c hc hcq
              rw [sig_meld hzx, if_neg (fun e => hcq (hq2 c hc e))]
            rw [e2] at k2 k5 k6
            refine ⟨φ', src', k1, k2.trans List.filter_sublist, k3.trans e3, ?_, ?_, fun i hi hn =>
              k6 i (List.mem_filter.2 ⟨hi, by
                simp only [ne_eq, decide_eq_true_eq]
                rintro rfl
                exact hn x3⟩) hn⟩
            · intro c hc hcq
              simp only [List.mem_cons, not_or] at hcq
              rw [k4 c hc hcq.2, hsig c hc hcq.1]
            · intro c hc hcq
              by_cases e : c.id = q
              · right
                obtain ⟨s1, s2⟩ := hsigq c hc e
                refine ⟨by rw [s1]; exact htr.1 ht, ?_⟩
                obtain ⟨x0, u1, u2, -, u4⟩ := h.own x x1'
                refine ⟨x0, u1, by rw [u2]; exact x3, by rw [u2]; exact mem_ids.2 ⟨x, x1, rfl⟩, by rw [u4, x2, s2], ?_⟩
                rw [k4 c hc (by rw [e]; exact hnd.1), sig_meld hzx, if_pos (by rw [e, ← z2]; exact h.fix z z1')]
                unfold sig
                rw [u2, h.fix x x1']
              · have hcq' : c.id ∈ qs := by
                  rcases List.mem_cons.1 hcq with h | h
                  · exact absurd h e
                  · exact h
                rcases k5 c hc hcq' with ⟨g1, g2⟩ | ⟨g1, x0, u1, u2, u3, u4, u5⟩
                · rw [hsig c hc e] at g1 g2
                  exact Or.inl ⟨g1, g2⟩
                · rw [hsig c hc e] at g1
                  refine Or.inr ⟨g1, x0, u1, u2, (List.mem_filter.1 u3).1, u4, ?_⟩
                  rw [u5, hsig x0 u1]
                  intro e'
                  have := h.nodup
                  unfold Aut.ids at this
                  rw [List.map_append, List.nodup_append] at this
                  exact this.2.2 _ (List.mem_filter.1 u3).1 _ hq1 e'
      · rw [if_pos ht] at he
        obtain ⟨φ', src', k1, k2, k3, k4, k5, k6⟩ := ih _ _ st' sub' _ _ h hnd.2 (fun r hr => hqs r (by simp [hr])) he
        refine ⟨φ', src', k1, k2, k3, fun c hc hcq => k4 c hc (fun e => hcq (by simp [e])), ?_, k6⟩
        intro c hc hcq
        rcases List.mem_cons.1 hcq with hcq | hcq
        · left
          rw [k4 c hc (by rw [hcq]; exact hnd.1)]
          refine ⟨rfl, ?_⟩
          rw [(hsigq c hc hcq).1]
          exact fun e => ht (htr.2 e)
        · exact k5 c hc hcq

/-- Pruning, whatever the pointers handed to it are. -/
theorem forwardPruneLoop_weak {M : Type} [DecidableEq M] (l : Aut M V) (U : List (Option ℕ)) : (Aut.ids l).Nodup → Closed l →
    ∀ R, forwardPruneLoop l U = some R → R.Sublist l ∧ Closed R ∧ ∀ n ∈ l, n.initial = true → n ∈ R := by
  fun_induction forwardPruneLoop l U with
  | case1 U =>
    intro _ _ R h
    cases h
    exact ⟨List.Sublist.refl _, by intro n hn; simp at hn, by simp⟩
  | case2 l U hl hs => intro _ _ R h; simp at h
  | case3 l U hl hs =>
    intro hnd hc R h
    cases h
    exact ⟨List.Sublist.refl l, hc, fun n hn _ => hn⟩
  | case4 l U hl k u tr hs U' ih =>
    intro hnd hc R h
    obtain ⟨hu, hnp, nd, hnd1, hid, hni, htr⟩ := (scanU_spec l U 0).2.2 k u tr hs
    have hdel : deleteAnode l (some u) = l.filter (fun n => n.id ≠ u) := by
      rw [deleteAnode_eq l hnd, if_pos (mem_ids.2 ⟨nd, hnd1, hid⟩)]
    have hids : Aut.ids (l.filter (fun n => n.id ≠ u)) = (Aut.ids l).filter (fun i => i ≠ u) := by
      unfold Aut.ids
      rw [List.filter_map]; rfl
    have hnopred : ∀ n ∈ l, u ∉ n.trans := by
      intro n hn hin
      have := hasPred_iff.2 ⟨n, hn, hin⟩
      rw [hnp] at this
      simp at this
    rw [hdel] at ih
    obtain ⟨h2, h3, h4⟩ := ih (by rw [hids]; exact hnd.filter _)
      (by
        intro n hn j hj
        rw [hids]
        have hn' := List.mem_filter.1 hn
        refine List.mem_filter.2 ⟨hc n hn'.1 j hj, ?_⟩
        simp only [ne_eq, decide_eq_true_eq]
        rintro rfl
        exact hnopred n hn'.1 hj) R (by rw [← hdel]; exact h)
    refine ⟨h2.trans List.filter_sublist, h3, ?_⟩
    intro n hn hi
    refine h4 n (List.mem_filter.2 ⟨hn, ?_⟩) hi
    simp only [ne_eq, decide_eq_true_eq]
    intro he
    rw [eq_of_id_eq hnd hn hnd1 (by rw [he, hid]), hni] at hi
    simp at hi

theorem forwardPrune_weak {M : Type} [DecidableEq M] {l R : Aut M V} {U : List (Option ℕ)} (hnd : (Aut.ids l).Nodup) (hc : Closed l)
    (h : forwardPrune l U = some R) : R.Sublist l ∧ Closed R ∧ ∀ n ∈ l, n.initial = true → n ∈ R := by
  unfold forwardPrune at h
  split at h
  · rename_i hl
    cases h
    subst hl
    exact ⟨List.Sublist.refl _, hc, by simp⟩
  · split at h
    · cases h
      exact ⟨List.Sublist.refl _, hc, fun n hn _ => hn⟩
    · exact forwardPruneLoop_weak l U hnd hc R h

end Gr1c
