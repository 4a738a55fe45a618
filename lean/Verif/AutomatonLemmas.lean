import Verif.Automaton

/-!
# Helper lemmas about the automaton operations
-/

namespace Gr1c

set_option linter.unusedSectionVars false

variable {M V : Type} [DecidableEq M] [DecidableEq V]

/-- Addresses of the nodes, in order. -/
def Aut.ids (l : Aut M V) : List ℕ := l.map (·.id)

/-- There is an edge from the node `i` to `j`. -/
def Edge (l : Aut M V) (i j : ℕ) : Prop := ∃ n ∈ l, n.id = i ∧ j ∈ n.trans

/-- Every edge leads to a node of the automaton. -/
def Closed (l : Aut M V) : Prop := ∀ n ∈ l, ∀ j ∈ n.trans, j ∈ Aut.ids l

theorem mem_ids {l : Aut M V} {i : ℕ} : i ∈ Aut.ids l ↔ ∃ n ∈ l, n.id = i := by simp [Aut.ids]

theorem deleteRest_eq (l : Aut M V) (hnd : (Aut.ids l).Nodup) (t : ℕ) :
    deleteRest l t = if t ∈ Aut.ids l then some (l.filter fun n => n.id ≠ t) else none := by
  induction l with
  | nil => simp [deleteRest, Aut.ids]
  | cons n tl ih =>
    simp only [Aut.ids, List.map_cons, List.nodup_cons] at hnd
    unfold deleteRest
    by_cases h : n.id = t
    · rw [if_pos h, if_pos (by simp [Aut.ids, h])]
      congr 1
      rw [List.filter_cons]
      simp only [h, ne_eq, not_true_eq_false, decide_false, Bool.false_eq_true, if_false]
      symm
      rw [List.filter_eq_self]
      intro a ha
      simp only [ne_eq, decide_eq_true_eq]
      rintro rfl
      exact hnd.1 (by rw [h]; exact List.mem_map_of_mem ha)
    · rw [if_neg h, ih hnd.2]
      by_cases ht : t ∈ Aut.ids tl
      · rw [if_pos ht, if_pos (by simp only [Aut.ids, List.map_cons, List.mem_cons]; exact Or.inr ht)]
        simp [List.filter_cons, h]
      · rw [if_neg ht, if_neg]
        · rfl
        · simp only [Aut.ids, List.map_cons, List.mem_cons, not_or]
          exact ⟨fun he => h he.symm, ht⟩

theorem deleteAnode_eq (l : Aut M V) (hnd : (Aut.ids l).Nodup) (t : ℕ) :
    deleteAnode l (some t) = if t ∈ Aut.ids l then l.filter (fun n => n.id ≠ t) else [] := by
  cases l with
  | nil => simp [deleteAnode]
  | cons n tl =>
    have h0 := deleteRest_eq (n :: tl) hnd t
    unfold deleteRest at h0
    simp only [deleteAnode]
    split
    · rename_i h
      rw [if_pos h] at h0
      split at h0
      · rename_i h1
        rw [if_pos h1]
        simpa using h0
      · simp at h0
    · rename_i h
      rw [if_neg h] at h0
      split at h0
      · rename_i h1
        rw [if_pos h1]
        cases hr : deleteRest tl t with
        | none => rw [hr] at h0; simp at h0
        | some r => rw [hr] at h0; simpa using h0
      · rename_i h1
        rw [if_neg h1]
        cases hr : deleteRest tl t with
        | none => rfl
        | some r => rw [hr] at h0; simp at h0

theorem replaceLoop_none (old i : ℕ) (a : List ℕ) :
    replaceLoop old none i a = a.take i ++ (a.drop i).filter (fun x => x ≠ old) := by
  generalize hnew : (none : Option ℕ) = new
  fun_induction replaceLoop old new i a with
  | case1 i a h heq _ ih =>
    rw [hnew, ih]
    rw [List.eraseIdx_eq_take_drop_succ]
    rw [List.drop_eq_getElem_cons h, List.filter_cons]
    simp only [heq, ne_eq, not_true_eq_false, decide_false, Bool.false_eq_true, if_false]
    have hlen : (a.take i).length = i := by simp; omega
    rw [List.take_append_of_le_length (by omega), List.drop_append_of_le_length (by omega)]
    simp [List.take_take]
  | case2 i a h heq y hy ih => rw [hy] at hnew; simp at hnew
  | case3 i a h hne ih =>
    rw [ih]
    conv_rhs => rw [List.drop_eq_getElem_cons h, List.filter_cons]
    simp only [hne, ne_eq, not_false_eq_true, decide_true, if_true]
    rw [List.take_succ_eq_append_getElem h, List.append_assoc]
    rfl
  | case4 i a h =>
    rw [List.take_of_length_le (by omega), List.drop_eq_nil_of_le (by omega)]
    simp

theorem replaceLoop_some (old new i : ℕ) (a : List ℕ) :
    replaceLoop old (some new) i a = a.take i ++ (a.drop i).map (fun x => if x = old then new else x) := by
  generalize hnew : some new = new'
  fun_induction replaceLoop old new' i a with
  | case1 i a h heq hn ih => rw [hn] at hnew; simp at hnew
  | case2 i a h heq y hy ih =>
    rw [hy, Option.some.injEq] at hnew
    subst hnew
    rw [← hy, ih]
    rw [List.drop_eq_getElem_cons h (l := a), List.map_cons]
    simp only [heq, if_true]
    rw [List.take_succ_eq_append_getElem (by simpa using h), List.append_assoc]
    congr 1
    · rw [List.take_set_of_le le_rfl]
    · simp [List.drop_set]
  | case3 i a h hne ih =>
    rw [ih]
    conv_rhs => rw [List.drop_eq_getElem_cons h, List.map_cons]
    simp only [hne, if_false]
    rw [List.take_succ_eq_append_getElem h, List.append_assoc]
    rfl
  | case4 i a h =>
    rw [List.take_of_length_le (by omega), List.drop_eq_nil_of_le (by omega)]
    simp

theorem replaceAnodeTrans_none (l : Aut M V) (old : ℕ) :
    replaceAnodeTrans l old none =
      l.map fun n => { n with trans := n.trans.filter fun x => x ≠ old } := by
  unfold replaceAnodeTrans
  congr 1
  funext n
  rw [replaceLoop_none]
  simp

theorem replaceAnodeTrans_some (l : Aut M V) (old new : ℕ) :
    replaceAnodeTrans l old (some new) =
      l.map fun n => { n with trans := n.trans.map fun x => if x = old then new else x } := by
  unfold replaceAnodeTrans
  congr 1
  funext n
  rw [replaceLoop_some]
  simp

theorem findAnode_eq (l : Aut M V) (mode : M) (state : V) :
    findAnode l mode state = l.find? fun n => n.mode = mode ∧ n.state = state := by
  induction l with
  | nil => rfl
  | cons n tl ih =>
    unfold findAnode
    rw [List.find?_cons, ih]
    by_cases h1 : n.mode = mode <;> by_cases h2 : n.state = state <;> simp [h1, h2]

theorem ids_updNode (l : Aut M V) (id : ℕ) (f : ANode M V → ANode M V) (hf : ∀ n, (f n).id = n.id) :
    Aut.ids (updNode l id f) = Aut.ids l := by
  unfold Aut.ids updNode
  rw [List.map_map]
  apply List.map_congr_left
  intro n _
  simp only [Function.comp]
  split
  · exact hf n
  · rfl

theorem eq_of_id_eq {l : Aut M V} (hnd : (Aut.ids l).Nodup) {a b : ANode M V} (ha : a ∈ l) (hb : b ∈ l)
    (h : a.id = b.id) : a = b := List.inj_on_of_nodup_map hnd ha hb h

/-! ## Dead-end pruning -/

/-- There is an infinite run from `i`. -/
def HasRun (l : Aut M V) (i : ℕ) : Prop := ∃ π : ℕ → ℕ, π 0 = i ∧ ∀ k, Edge l (π k) (π (k + 1))

/-- The sub-automaton on the nodes satisfying `P`, in the same order. -/
def restrictAut (l : Aut M V) (P : ℕ → Prop) [DecidablePred P] : Aut M V :=
  (l.filter fun n => P n.id).map fun n => { n with trans := n.trans.filter fun j => P j }

theorem ids_restrict (l : Aut M V) (P : ℕ → Prop) [DecidablePred P] :
    Aut.ids (restrictAut l P) = (Aut.ids l).filter fun i => P i := by
  unfold Aut.ids restrictAut
  rw [List.map_map, List.filter_map]
  rfl

theorem closed_restrict (l : Aut M V) (P : ℕ → Prop) [DecidablePred P] (hc : Closed l) :
    Closed (restrictAut l P) := by
  intro n hn j hj
  rw [ids_restrict]
  unfold restrictAut at hn
  rw [List.mem_map] at hn
  obtain ⟨n0, hn0, rfl⟩ := hn
  simp only [List.mem_filter, decide_eq_true_eq] at hn0 hj ⊢
  exact ⟨hc n0 hn0.1 j hj.1, hj.2⟩

theorem edge_restrict {l : Aut M V} {P : ℕ → Prop} [DecidablePred P] {i j : ℕ} :
    Edge (restrictAut l P) i j ↔ Edge l i j ∧ P i ∧ P j := by
  unfold Edge restrictAut
  constructor
  · rintro ⟨n, hn, rfl, hj⟩
    rw [List.mem_map] at hn
    obtain ⟨n0, hn0, rfl⟩ := hn
    simp only [List.mem_filter, decide_eq_true_eq] at hn0 hj
    exact ⟨⟨n0, hn0.1, rfl, hj.1⟩, hn0.2, hj.2⟩
  · rintro ⟨⟨n, hn, rfl, hj⟩, h1, h2⟩
    refine ⟨_, List.mem_map_of_mem (List.mem_filter.2 ⟨hn, by simpa using h1⟩), rfl, ?_⟩
    simpa using ⟨hj, h2⟩

theorem restrict_restrict (l : Aut M V) (P Q : ℕ → Prop) [DecidablePred P] [DecidablePred Q]
    (h : ∀ i, Q i → P i) : restrictAut (restrictAut l P) Q = restrictAut l Q := by
  unfold restrictAut
  rw [List.filter_map, List.map_map, List.filter_filter]
  have : (l.filter fun a => ((fun n : ANode M V => decide (Q n.id)) ∘
      fun n : ANode M V => { n with trans := n.trans.filter fun j => P j }) a && decide (P a.id))
      = l.filter fun n => Q n.id := by
    apply List.filter_congr
    intro n _
    simp only [Function.comp]
    by_cases hq : Q n.id
    · simp [hq, h _ hq]
    · simp [hq]
  rw [this]
  apply List.map_congr_left
  intro n _
  simp only [Function.comp, List.filter_filter]
  congr 1
  apply List.filter_congr
  intro j _
  by_cases hq : Q j
  · simp [hq, h _ hq]
  · simp [hq]

theorem remove_deadend (l : Aut M V) (hnd : (Aut.ids l).Nodup) (d : ANode M V) (hd : d ∈ l) :
    deleteAnode (replaceAnodeTrans l d.id none) (some d.id) = restrictAut l (fun i => i ≠ d.id) := by
  have hids : Aut.ids (replaceAnodeTrans l d.id none) = Aut.ids l := by
    unfold Aut.ids replaceAnodeTrans
    rw [List.map_map]; rfl
  rw [deleteAnode_eq _ (by rw [hids]; exact hnd), hids, if_pos (mem_ids.2 ⟨d, hd, rfl⟩),
    replaceAnodeTrans_none]
  unfold restrictAut
  rw [List.filter_map]
  rfl

theorem hasRun_restrict_deadend {l : Aut M V} (hnd : (Aut.ids l).Nodup) {d : ANode M V} (hd : d ∈ l)
    (hdead : d.trans = []) (i : ℕ) :
    HasRun (restrictAut l (fun i => i ≠ d.id)) i ↔ HasRun l i := by
  constructor
  · rintro ⟨π, h0, h⟩
    exact ⟨π, h0, fun k => (edge_restrict.1 (h k)).1⟩
  · rintro ⟨π, h0, h⟩
    have hne : ∀ k, π k ≠ d.id := by
      intro k heq
      obtain ⟨n, hn, h1, h2⟩ := h k
      have : n = d := eq_of_id_eq hnd hn hd (by rw [h1, heq])
      rw [this, hdead] at h2
      simp at h2
    exact ⟨π, h0, fun k => edge_restrict.2 ⟨h k, hne k, hne (k + 1)⟩⟩

theorem not_hasRun_deadend {l : Aut M V} (hnd : (Aut.ids l).Nodup) {d : ANode M V} (hd : d ∈ l)
    (hdead : d.trans = []) : ¬ HasRun l d.id := by
  rintro ⟨π, h0, h⟩
  obtain ⟨n, hn, h1, h2⟩ := h 0
  have : n = d := eq_of_id_eq hnd hn hd (by rw [h1, h0])
  rw [this, hdead] at h2
  simp at h2

open Classical in
theorem prune_step {l : Aut M V} (hnd : (Aut.ids l).Nodup) (hc : Closed l) {d : ANode M V}
    (hd : d ∈ l) (hdead : d.trans = []) :
    let l' := deleteAnode (replaceAnodeTrans l d.id none) (some d.id)
    (Aut.ids l').Nodup ∧ Closed l' ∧ restrictAut l' (HasRun l') = restrictAut l (HasRun l) := by
  intro l'
  have hl' : l' = restrictAut l (fun i => i ≠ d.id) := remove_deadend l hnd d hd
  rw [hl']
  refine ⟨?_, closed_restrict l _ hc, ?_⟩
  · rw [ids_restrict]; exact hnd.filter _
  · have hfun : HasRun (restrictAut l (fun i => i ≠ d.id)) = HasRun l :=
      funext fun i => propext (hasRun_restrict_deadend hnd hd hdead i)
    have h1 : restrictAut (restrictAut l (fun i => i ≠ d.id)) (HasRun l) = restrictAut l (HasRun l) :=
      restrict_restrict l _ _ (fun i hi he => not_hasRun_deadend hnd hd hdead (he ▸ hi))
    convert h1 using 2

open Classical in
theorem pruneHeads_spec (l : Aut M V) : (Aut.ids l).Nodup → Closed l →
    (Aut.ids (pruneHeads l)).Nodup ∧ Closed (pruneHeads l) ∧
    restrictAut (pruneHeads l) (HasRun (pruneHeads l)) = restrictAut l (HasRun l) ∧
    ∀ h tl, pruneHeads l = h :: tl → h.trans ≠ [] := by
  fun_induction pruneHeads l with
  | case1 =>
    intro hnd hc
    exact ⟨hnd, hc, rfl, fun h tl he => by simp at he⟩
  | case2 h tl hh ih =>
    intro hnd hc
    obtain ⟨h1, h2, h3⟩ := prune_step hnd hc (d := h) (by simp) hh
    obtain ⟨g1, g2, g3, g4⟩ := ih h1 h2
    exact ⟨g1, g2, g3.trans h3, g4⟩
  | case3 h tl hh =>
    intro hnd hc
    refine ⟨hnd, hc, rfl, ?_⟩
    intro h' tl' he
    simp only [List.cons.injEq] at he
    rw [← he.1]
    exact hh

open Classical in
theorem restrict_all_live {l : Aut M V} (hc : Closed l) (hne : ∀ n ∈ l, n.trans ≠ []) :
    restrictAut l (HasRun l) = l := by
  have hrun : ∀ i ∈ Aut.ids l, HasRun l i := by
    have hs : ∀ i, i ∈ Aut.ids l → ∃ j, j ∈ Aut.ids l ∧ Edge l i j := by
      intro i hi
      obtain ⟨n, hn, rfl⟩ := mem_ids.1 hi
      obtain ⟨j, hj⟩ := List.exists_mem_of_ne_nil _ (hne n hn)
      exact ⟨j, hc n hn j hj, n, hn, rfl, hj⟩
    choose! f hf1 hf2 using hs
    intro i hi
    have hin : ∀ k, f^[k] i ∈ Aut.ids l := by
      intro k
      induction k with
      | zero => exact hi
      | succ k ih => rw [Function.iterate_succ_apply']; exact hf1 _ ih
    exact ⟨fun k => f^[k] i, rfl, fun k => by
      simp only [Function.iterate_succ_apply']
      exact hf2 _ (hin k)⟩
  unfold restrictAut
  have h1 : (l.filter fun n => HasRun l n.id) = l := by
    rw [List.filter_eq_self]
    intro n hn
    simpa using hrun n.id (mem_ids.2 ⟨n, hn, rfl⟩)
  rw [h1]
  conv_rhs => rw [← List.map_id l]
  apply List.map_congr_left
  intro n hn
  have h2 : (n.trans.filter fun j => HasRun l j) = n.trans := by
    rw [List.filter_eq_self]
    intro j hj
    simpa using hrun j (hc n hn j hj)
  rw [h2]
  rfl

open Classical in
theorem autPruneDeadends_eq (l : Aut M V) : (Aut.ids l).Nodup → Closed l →
    autPruneDeadends l = restrictAut l (HasRun l) := by
  fun_induction autPruneDeadends l with
  | case1 l hl =>
    intro hnd hc
    obtain ⟨-, -, h3, -⟩ := pruneHeads_spec l hnd hc
    rw [hl] at h3
    rw [← h3]
    rfl
  | case2 l h tl hl hf =>
    intro hnd hc
    obtain ⟨h1, h2, h3, h4⟩ := pruneHeads_spec l hnd hc
    rw [hl] at h1 h2 h3
    rw [← h3, restrict_all_live h2]
    intro n hn
    rcases List.mem_cons.1 hn with rfl | hn
    · exact h4 _ _ hl
    · have := List.find?_eq_none.1 hf n hn
      simpa using this
  | case3 l h tl hl nd hf ih =>
    intro hnd hc
    obtain ⟨h1, h2, h3, -⟩ := pruneHeads_spec l hnd hc
    rw [hl] at h1 h2 h3
    have hmem : nd ∈ h :: tl := List.mem_cons_of_mem _ (List.mem_of_find?_eq_some hf)
    have hdead : nd.trans = [] := by
      have := List.find?_some hf
      simpa using this
    obtain ⟨g1, g2, g3⟩ := prune_step h1 h2 hmem hdead
    rw [ih g1 g2, g3, h3]

/-! ## Forward pruning -/

theorem scanU_spec (l : Aut M V) (U : List (Option ℕ)) : ∀ i,
    (scanU l i U = .ub → ∃ u, some u ∈ U ∧ u ∉ Aut.ids l) ∧
    (scanU l i U = .none → ∀ u, some u ∈ U → ∀ n, l.find? (fun n => n.id = u) = some n →
      n.initial = true ∨ hasPred l u = true) ∧
    (∀ k u tr, scanU l i U = .hit k u tr → some u ∈ U ∧ hasPred l u = false ∧
      ∃ n ∈ l, n.id = u ∧ n.initial = false ∧ n.trans = tr) := by
  induction U with
  | nil => intro i; simp [scanU]
  | cons x us ih =>
    intro i
    obtain ⟨h1, h2, h3⟩ := ih (i + 1)
    cases x with
    | none =>
      simp only [scanU]
      refine ⟨fun h => ?_, fun h u hu => ?_, fun k u tr h => ?_⟩
      · obtain ⟨u, hu, hn⟩ := h1 h
        exact ⟨u, List.mem_cons_of_mem _ hu, hn⟩
      · exact h2 h u (by simpa using hu)
      · obtain ⟨g1, g2⟩ := h3 k u tr h
        exact ⟨List.mem_cons_of_mem _ g1, g2⟩
    | some v =>
      simp only [scanU]
      cases hf : l.find? (fun n => n.id = v) with
      | none =>
        refine ⟨fun _ => ⟨v, by simp, ?_⟩, fun h => by simp at h, fun k u tr h => by simp at h⟩
        intro hv
        obtain ⟨n, hn, he⟩ := mem_ids.1 hv
        have := List.find?_eq_none.1 hf n hn
        simp [he] at this
      | some nd =>
        have hmem : nd ∈ l := List.mem_of_find?_eq_some hf
        have hid : nd.id = v := by have := List.find?_some hf; simpa using this
        simp only
        by_cases hi : nd.initial = true
        · rw [if_pos hi]
          refine ⟨fun h => ?_, fun h u hu n hn => ?_, fun k u tr h => ?_⟩
          · obtain ⟨u, hu, hn⟩ := h1 h
            exact ⟨u, List.mem_cons_of_mem _ hu, hn⟩
          · rcases List.mem_cons.1 hu with he | hu
            · simp only [Option.some.injEq] at he
              subst he
              rw [hf] at hn
              simp only [Option.some.injEq] at hn
              exact Or.inl (hn ▸ hi)
            · exact h2 h u hu n hn
          · obtain ⟨g1, g2⟩ := h3 k u tr h
            exact ⟨List.mem_cons_of_mem _ g1, g2⟩
        · rw [if_neg hi]
          by_cases hp : hasPred l v = true
          · rw [if_pos hp]
            refine ⟨fun h => ?_, fun h u hu n hn => ?_, fun k u tr h => ?_⟩
            · obtain ⟨u, hu, hn⟩ := h1 h
              exact ⟨u, List.mem_cons_of_mem _ hu, hn⟩
            · rcases List.mem_cons.1 hu with he | hu
              · simp only [Option.some.injEq] at he
                subst he
                exact Or.inr hp
              · exact h2 h u hu n hn
            · obtain ⟨g1, g2⟩ := h3 k u tr h
              exact ⟨List.mem_cons_of_mem _ g1, g2⟩
          · rw [if_neg hp]
            refine ⟨fun h => by simp at h, fun h => by simp at h, fun k u tr h => ?_⟩
            simp only [ScanRes.hit.injEq] at h
            obtain ⟨_, rfl, rfl⟩ := h
            exact ⟨by simp, by simpa using hp, nd, hmem, hid, by simpa using hi, rfl⟩

theorem hasPred_iff {l : Aut M V} {u : ℕ} : hasPred l u = true ↔ ∃ n ∈ l, u ∈ n.trans := by
  simp [hasPred, List.any_eq_true]

theorem forwardPruneLoop_spec (l : Aut M V) (U : List (Option ℕ)) : (Aut.ids l).Nodup → Closed l →
    (∀ u, some u ∈ U → u ∈ Aut.ids l) →
    ∃ R, forwardPruneLoop l U = some R ∧ R.Sublist l ∧ Closed R ∧
      (∀ n ∈ l, n.initial = true → n ∈ R) ∧
      (∀ u, some u ∈ U → ∀ n ∈ R, n.id = u → n.initial = true ∨ hasPred R u = true) := by
  fun_induction forwardPruneLoop l U with
  | case1 U => 
    intro _ _ _
    exact ⟨[], rfl, List.Sublist.slnil, by intro n hn; simp at hn, by simp, by simp⟩
  | case2 l U hl hs =>
    intro hnd hc hU
    obtain ⟨u, h1, h2⟩ := (scanU_spec l U 0).1 hs
    exact absurd (hU u h1) h2
  | case3 l U hl hs =>
    intro hnd hc hU
    refine ⟨l, rfl, List.Sublist.refl l, hc, fun n hn _ => hn, ?_⟩
    intro u hu n hn hid
    refine (scanU_spec l U 0).2.1 hs u hu n ?_
    cases hf : l.find? (fun n => n.id = u) with
    | none =>
      have := List.find?_eq_none.1 hf n hn
      simp [hid] at this
    | some nd =>
      have hmem : nd ∈ l := List.mem_of_find?_eq_some hf
      have hid' : nd.id = u := by have := List.find?_some hf; simpa using this
      rw [eq_of_id_eq hnd hmem hn (by rw [hid, hid'])]
  | case4 l U hl i u tr hs U' ih =>
    intro hnd hc hU
    obtain ⟨hu, hnp, nd, hnd1, hid, hni, htr⟩ := (scanU_spec l U 0).2.2 i u tr hs
    have hdel : deleteAnode l (some u) = l.filter (fun n => n.id ≠ u) := by
      rw [deleteAnode_eq l hnd, if_pos (hU u hu)]
    have hids : Aut.ids (l.filter (fun n => n.id ≠ u)) = (Aut.ids l).filter (fun i => i ≠ u) := by
      unfold Aut.ids
      rw [List.filter_map]; rfl
    have hnopred : ∀ n ∈ l, u ∉ n.trans := by
      intro n hn hin
      have := hasPred_iff.2 ⟨n, hn, hin⟩
      rw [hnp] at this
      simp at this
    rw [hdel] at ih
    obtain ⟨R, h1, h2, h3, h4, h5⟩ := ih (by rw [hids]; exact hnd.filter _)
      (by
        intro n hn j hj
        rw [hids]
        have hn' := List.mem_filter.1 hn
        refine List.mem_filter.2 ⟨hc n hn'.1 j hj, ?_⟩
        simp only [ne_eq, decide_eq_true_eq]
        rintro rfl
        exact hnopred n hn'.1 hj)
      (by
        intro v hv
        rw [hids]
        simp only [U', List.mem_map, List.mem_append] at hv
        obtain ⟨x, hx, hxe⟩ := hv
        split at hxe
        · simp at hxe
        · rename_i hne
          subst hxe
          refine List.mem_filter.2 ⟨?_, by simpa using hne⟩
          rcases hx with hx | ⟨j, hj, hje⟩
          · exact hU v hx
          · simp only [Option.some.injEq] at hje
            subst hje
            exact hc nd hnd1 j (htr ▸ hj))
    rw [hdel]
    refine ⟨R, h1, h2.trans List.filter_sublist, h3, ?_, ?_⟩
    · intro n hn hi
      refine h4 n (List.mem_filter.2 ⟨hn, ?_⟩) hi
      simp only [ne_eq, decide_eq_true_eq]
      intro he
      rw [eq_of_id_eq hnd hn hnd1 (by rw [he, hid]), hni] at hi
      simp at hi
    · intro v hv n hn hnid
      by_cases hvu : v = u
      · have := List.mem_filter.1 (h2.subset hn)
        simp [hnid, hvu] at this
      · refine h5 v ?_ n hn hnid
        simp only [U', List.mem_map, List.mem_append]
        exact ⟨some v, Or.inl hv, by simp [hvu]⟩

/-! ## Mode relabelling -/

/-- Reachable from the list `ts` through nodes satisfying `T` (including the endpoints). -/
inductive Rch (succ : ℕ → List ℕ) (T : ℕ → Prop) (ts : List ℕ) : ℕ → Prop
  | base {t : ℕ} : t ∈ ts → T t → Rch succ T ts t
  | step {i j : ℕ} : Rch succ T ts i → j ∈ succ i → T j → Rch succ T ts j

theorem Rch.target {succ : ℕ → List ℕ} {T : ℕ → Prop} {ts : List ℕ} {j : ℕ} (h : Rch succ T ts j) :
    T j := by
  cases h with
  | base _ h => exact h
  | step _ _ h => exact h

theorem Rch.mono {succ : ℕ → List ℕ} {T T' : ℕ → Prop} {ts ts' : List ℕ} {j : ℕ}
    (hT : ∀ i, T i → T' i) (hts : ∀ i, i ∈ ts → i ∈ ts') (h : Rch succ T ts j) : Rch succ T' ts' j := by
  induction h with
  | base h1 h2 => exact Rch.base (hts _ h1) (hT _ h2)
  | step _ h2 h3 ih => exact Rch.step ih h2 (hT _ h3)

theorem rch_split {succ : ℕ → List ℕ} {T : ℕ → Prop} {ts : List ℕ} {t : ℕ} (ht : T t) (j : ℕ) :
    Rch succ T (t :: ts) j ↔ j = t ∨ Rch succ (fun i => T i ∧ i ≠ t) (succ t) j ∨
      Rch succ (fun i => (T i ∧ i ≠ t) ∧ ¬ Rch succ (fun i => T i ∧ i ≠ t) (succ t) i) ts j := by
  constructor
  · intro h
    induction h with
    | @base i h1 h2 =>
      by_cases hi : i = t
      · exact Or.inl hi
      · by_cases hr : Rch succ (fun i => T i ∧ i ≠ t) (succ t) i
        · exact Or.inr (Or.inl hr)
        · refine Or.inr (Or.inr (Rch.base ?_ ⟨⟨h2, hi⟩, hr⟩))
          rcases List.mem_cons.1 h1 with h | h
          · exact absurd h hi
          · exact h
    | @step a i _ h2 h3 ih =>
      by_cases hi : i = t
      · exact Or.inl hi
      · by_cases hr : Rch succ (fun i => T i ∧ i ≠ t) (succ t) i
        · exact Or.inr (Or.inl hr)
        · rcases ih with rfl | ih | ih
          · exact absurd (Rch.base h2 ⟨h3, hi⟩) hr
          · exact absurd (Rch.step ih h2 ⟨h3, hi⟩) hr
          · exact Or.inr (Or.inr (Rch.step ih h2 ⟨⟨h3, hi⟩, hr⟩))
  · rintro (rfl | h | h)
    · exact Rch.base (by simp) ht
    · induction h with
      | base h1 h2 => exact Rch.step (Rch.base (by simp) ht) h1 h2.1
      | step _ h2 h3 ih => exact Rch.step ih h2 h3.1
    · exact h.mono (fun i hi => hi.1.1) (fun i hi => List.mem_cons_of_mem _ hi)

/-- Transition array of the node with address `i` (empty if there is none). -/
def succOf (l : Aut M V) (i : ℕ) : List ℕ :=
  match l.find? (fun n => n.id = i) with
  | none => []
  | some n => n.trans

/-- The node with address `i` has the given mode and a state in the set. -/
def Target (l : Aut M V) (mode : M) (inN : V → Bool) (i : ℕ) : Prop :=
  ∃ n ∈ l, n.id = i ∧ n.mode = mode ∧ inN n.state = true

/-- Relabel the nodes satisfying `P`. -/
def relabel (l : Aut M V) (P : ℕ → Prop) [DecidablePred P] (magic : M) : Aut M V :=
  l.map fun n => if P n.id then { n with mode := magic } else n

theorem ids_relabel (l : Aut M V) (P : ℕ → Prop) [DecidablePred P] (magic : M) :
    Aut.ids (relabel l P magic) = Aut.ids l := by
  unfold Aut.ids relabel
  rw [List.map_map]
  apply List.map_congr_left
  intro n _
  simp only [Function.comp]
  split <;> rfl

theorem find_relabel (l : Aut M V) (P : ℕ → Prop) [DecidablePred P] (magic : M) (i : ℕ) :
    (relabel l P magic).find? (fun n => n.id = i) =
      (l.find? (fun n => n.id = i)).map fun n => if P n.id then { n with mode := magic } else n := by
  unfold relabel
  rw [List.find?_map]
  congr 2
  funext n
  simp only [Function.comp]
  split <;> rfl

theorem succOf_relabel (l : Aut M V) (P : ℕ → Prop) [DecidablePred P] (magic : M) :
    succOf (relabel l P magic) = succOf l := by
  funext i
  unfold succOf
  rw [find_relabel]
  cases l.find? (fun n => n.id = i) with
  | none => rfl
  | some n => simp only [Option.map_some]; split <;> rfl

theorem target_relabel {l : Aut M V} {P : ℕ → Prop} [DecidablePred P] {mode magic : M} {inN : V → Bool}
    (hne : magic ≠ mode) (i : ℕ) :
    Target (relabel l P magic) mode inN i ↔ Target l mode inN i ∧ ¬ P i := by
  unfold Target relabel
  constructor
  · rintro ⟨n, hn, h1, h2, h3⟩
    rw [List.mem_map] at hn
    obtain ⟨n0, hn0, rfl⟩ := hn
    split at h1
    · rename_i hp
      rw [if_pos hp] at h2
      exact absurd h2 hne
    · rename_i hp
      rw [if_neg hp] at h2 h3
      exact ⟨⟨n0, hn0, h1, h2, h3⟩, h1 ▸ hp⟩
  · rintro ⟨⟨n, hn, h1, h2, h3⟩, hp⟩
    refine ⟨n, List.mem_map.2 ⟨n, hn, ?_⟩, h1, h2, h3⟩
    rw [if_neg (h1 ▸ hp)]

theorem relabel_relabel (l : Aut M V) (P Q : ℕ → Prop) [DecidablePred P] [DecidablePred Q]
    [DecidablePred fun i => P i ∨ Q i] (magic : M) :
    relabel (relabel l P magic) Q magic = relabel l (fun i => P i ∨ Q i) magic := by
  unfold relabel
  rw [List.map_map]
  apply List.map_congr_left
  intro n _
  simp only [Function.comp]
  by_cases hp : P n.id <;> by_cases hq : Q n.id <;> simp [hp, hq]

/-- Number of targets. -/
noncomputable def targetCount (l : Aut M V) (mode : M) (inN : V → Bool) : ℕ :=
  (l.filter fun n => n.mode = mode ∧ inN n.state = true).length

theorem targetCount_relabel_lt {l : Aut M V} {P : ℕ → Prop} [DecidablePred P] {mode magic : M}
    {inN : V → Bool} (hne : magic ≠ mode) :
    targetCount (relabel l P magic) mode inN ≤ targetCount l mode inN ∧
    ((∃ i, P i ∧ Target l mode inN i) →
      targetCount (relabel l P magic) mode inN < targetCount l mode inN) := by
  unfold targetCount
  induction l with
  | nil => simp [relabel, Target]
  | cons n tl ih =>
    obtain ⟨ih1, ih2⟩ := ih
    have hcons : relabel (n :: tl) P magic =
        (if P n.id then { n with mode := magic } else n) :: relabel tl P magic := rfl
    rw [hcons]
    by_cases hp : P n.id
    · rw [if_pos hp, List.filter_cons, List.filter_cons]
      simp only [hne, false_and, decide_false, Bool.false_eq_true, if_false]
      by_cases ht : n.mode = mode ∧ inN n.state = true
      · simp only [ht, and_self, decide_true, if_true, List.length_cons]
        exact ⟨by omega, fun _ => by omega⟩
      · simp only [ht, decide_false, Bool.false_eq_true, if_false]
        refine ⟨ih1, ?_⟩
        rintro ⟨i, hi, n', hn', h1, h2⟩
        apply ih2
        rcases List.mem_cons.1 hn' with rfl | hn'
        · exact absurd h2 ht
        · exact ⟨i, hi, n', hn', h1, h2⟩
    · rw [if_neg hp, List.filter_cons, List.filter_cons]
      have hrest : (∃ i, P i ∧ Target (n :: tl) mode inN i) → ∃ i, P i ∧ Target tl mode inN i := by
        rintro ⟨i, hi, n', hn', h1, h2⟩
        rcases List.mem_cons.1 hn' with rfl | hn'
        · exact absurd (h1 ▸ hi) hp
        · exact ⟨i, hi, n', hn', h1, h2⟩
      by_cases ht : n.mode = mode ∧ inN n.state = true
      · simp only [ht, and_self, decide_true, if_true, List.length_cons]
        exact ⟨by omega, fun h => by have := ih2 (hrest h); omega⟩
      · simp only [ht, decide_false, Bool.false_eq_true, if_false]
        exact ⟨ih1, fun h => ih2 (hrest h)⟩

theorem updNode_eq_relabel (l : Aut M V) (t : ℕ) (magic : M) :
    (updNode l t fun n => { n with mode := magic }) = relabel l (fun i => i = t) magic := rfl

/-- The loop of `modereach` with the recursive call in place. -/
def modereachList (mode : M) (inN : V → Bool) (magic : M) (fuel : ℕ) (l : Aut M V) (ts : List ℕ) :
    Option (Aut M V) :=
  modereachLoop mode inN magic (fun l t => modereach mode inN magic fuel l t) l ts

theorem modereachList_nil (mode : M) (inN : V → Bool) (magic : M) (fuel : ℕ) (l : Aut M V) :
    modereachList mode inN magic fuel l [] = some l := rfl

theorem modereachList_cons (mode : M) (inN : V → Bool) (magic : M) (fuel : ℕ) (l : Aut M V) (t : ℕ) (ts : List ℕ) :
    modereachList mode inN magic fuel l (t :: ts) =
      match l.find? (fun n => n.id = t) with
      | none => none
      | some nd =>
        if nd.mode = mode ∧ inN nd.state then
          match modereach mode inN magic fuel (updNode l t fun n => { n with mode := magic }) t with
          | none => none
          | some l' => modereachList mode inN magic fuel l' ts
        else modereachList mode inN magic fuel l ts := rfl

theorem modereach_succ (mode : M) (inN : V → Bool) (magic : M) (fuel : ℕ) (l : Aut M V) (id : ℕ) :
    modereach mode inN magic (fuel + 1) l id =
      match l.find? (fun n => n.id = id) with
      | none => none
      | some nd => modereachList mode inN magic fuel l nd.trans := rfl

open Classical in
theorem modereach_spec (mode magic : M) (inN : V → Bool) (hne : magic ≠ mode) (fuel : ℕ) :
    (∀ (l : Aut M V) (id : ℕ), (Aut.ids l).Nodup → Closed l → id ∈ Aut.ids l →
      targetCount l mode inN < fuel →
      modereach mode inN magic fuel l id =
        some (relabel l (Rch (succOf l) (Target l mode inN) (succOf l id)) magic)) ∧
    (∀ (ts : List ℕ) (l : Aut M V), (Aut.ids l).Nodup → Closed l → (∀ t ∈ ts, t ∈ Aut.ids l) →
      targetCount l mode inN ≤ fuel →
      modereachList mode inN magic fuel l ts =
        some (relabel l (Rch (succOf l) (Target l mode inN) ts) magic)) := by
  have findsome : ∀ (l : Aut M V) (i : ℕ), i ∈ Aut.ids l → ∃ nd, l.find? (fun n => n.id = i) = some nd ∧
      nd ∈ l ∧ nd.id = i := by
    intro l i hi
    cases hf : l.find? (fun n => n.id = i) with
    | none =>
      obtain ⟨n, hn, he⟩ := mem_ids.1 hi
      have := List.find?_eq_none.1 hf n hn
      simp [he] at this
    | some nd =>
      exact ⟨nd, rfl, List.mem_of_find?_eq_some hf, by have := List.find?_some hf; simpa using this⟩
  have closedrel : ∀ (l : Aut M V) (P : ℕ → Prop) [DecidablePred P], Closed l → Closed (relabel l P magic) := by
    intro l P _ hc n hn j hj
    rw [ids_relabel]
    unfold relabel at hn
    rw [List.mem_map] at hn
    obtain ⟨n0, hn0, rfl⟩ := hn
    refine hc n0 hn0 j ?_
    split at hj <;> exact hj
  -- the list part, given the node part at the same fuel
  have hlist : ∀ fuel, (∀ (l : Aut M V) (id : ℕ), (Aut.ids l).Nodup → Closed l → id ∈ Aut.ids l →
      targetCount l mode inN < fuel →
      modereach mode inN magic fuel l id =
        some (relabel l (Rch (succOf l) (Target l mode inN) (succOf l id)) magic)) →
      (∀ (ts : List ℕ) (l : Aut M V), (Aut.ids l).Nodup → Closed l → (∀ t ∈ ts, t ∈ Aut.ids l) →
      targetCount l mode inN ≤ fuel →
      modereachList mode inN magic fuel l ts =
        some (relabel l (Rch (succOf l) (Target l mode inN) ts) magic)) := by
    intro fuel hnode ts
    induction ts with
    | nil =>
      intro l hnd hc hts hcount
      rw [modereachList_nil]
      congr 1
      unfold relabel
      conv_lhs => rw [← List.map_id l]
      apply List.map_congr_left
      intro n _
      have hno : ∀ i, ¬ Rch (succOf l) (Target l mode inN) [] i := by
        intro i h
        induction h with
        | base h1 _ => simp at h1
        | step _ _ _ ih => exact ih
      rw [if_neg (hno _)]
      rfl
    | cons t ts ih =>
      intro l hnd hc hts hcount
      obtain ⟨nd, hf, hmem, hid⟩ := findsome l t (hts t (by simp))
      rw [modereachList_cons, hf]
      simp only
      by_cases htar : nd.mode = mode ∧ inN nd.state = true
      · rw [if_pos htar]
        have hT : Target l mode inN t := ⟨nd, hmem, hid, htar.1, htar.2⟩
        rw [updNode_eq_relabel]
        have hcount1 := (targetCount_relabel_lt (l := l) (P := fun i => i = t) (inN := inN) hne).2 ⟨t, rfl, hT⟩
        rw [hnode (relabel l (fun i => i = t) magic) t (by rw [ids_relabel]; exact hnd)
          (closedrel l _ hc) (by rw [ids_relabel]; exact hts t (by simp)) (by omega)]
        simp only
        rw [succOf_relabel]
        have hT1 : Target (relabel l (fun i => i = t) magic) mode inN =
            fun i => Target l mode inN i ∧ i ≠ t := by
          funext i; exact propext (target_relabel hne i)
        rw [hT1]
        set R1 := Rch (succOf l) (fun i => Target l mode inN i ∧ i ≠ t) (succOf l t) with hR1
        have hcount2 := (targetCount_relabel_lt (l := relabel l (fun i => i = t) magic) (P := R1)
          (inN := inN) hne).1
        rw [ih (relabel (relabel l (fun i => i = t) magic) R1 magic)
          (by rw [ids_relabel, ids_relabel]; exact hnd) (closedrel _ _ (closedrel l _ hc))
          (by rw [ids_relabel, ids_relabel]; exact fun x hx => hts x (by simp [hx])) (by omega)]
        rw [succOf_relabel, succOf_relabel]
        have hT2 : Target (relabel (relabel l (fun i => i = t) magic) R1 magic) mode inN =
            fun i => (Target l mode inN i ∧ i ≠ t) ∧ ¬ R1 i := by
          funext i
          apply propext
          rw [target_relabel hne, hT1]
        rw [hT2, relabel_relabel, relabel_relabel]
        congr 1
        unfold relabel
        apply List.map_congr_left
        intro n _
        have := rch_split (succ := succOf l) (ts := ts) hT n.id
        by_cases hc1 : Rch (succOf l) (Target l mode inN) (t :: ts) n.id
        · rw [if_pos hc1, if_pos]
          rcases this.1 hc1 with h | h | h
          · exact Or.inl h
          · exact Or.inr (Or.inl h)
          · exact Or.inr (Or.inr h)
        · rw [if_neg hc1, if_neg]
          rintro (h | h | h)
          · exact hc1 (this.2 (Or.inl h))
          · exact hc1 (this.2 (Or.inr (Or.inl h)))
          · exact hc1 (this.2 (Or.inr (Or.inr h)))
      · rw [if_neg htar, ih l hnd hc (fun x hx => hts x (by simp [hx])) hcount]
        have hnT : ¬ Target l mode inN t := by
          rintro ⟨n, hn, h1, h2⟩
          rw [eq_of_id_eq hnd hn hmem (by rw [h1, hid])] at h2
          exact htar h2
        have heq : Rch (succOf l) (Target l mode inN) ts = Rch (succOf l) (Target l mode inN) (t :: ts) := by
          funext i
          apply propext
          constructor
          · exact fun h => h.mono (fun _ h => h) (fun i hi => List.mem_cons_of_mem _ hi)
          · intro h
            induction h with
            | base h1 h2 =>
              rcases List.mem_cons.1 h1 with rfl | h1
              · exact absurd h2 hnT
              · exact Rch.base h1 h2
            | step _ h2 h3 ih => exact Rch.step ih h2 h3
        rw [heq]
  induction fuel with
  | zero =>
    have h0 : ∀ (l : Aut M V) (id : ℕ), (Aut.ids l).Nodup → Closed l → id ∈ Aut.ids l →
      targetCount l mode inN < 0 →
      modereach mode inN magic 0 l id =
        some (relabel l (Rch (succOf l) (Target l mode inN) (succOf l id)) magic) :=
      fun l id _ _ _ h => absurd h (Nat.not_lt_zero _)
    exact ⟨h0, hlist 0 h0⟩
  | succ fuel ih =>
    have h0 : ∀ (l : Aut M V) (id : ℕ), (Aut.ids l).Nodup → Closed l → id ∈ Aut.ids l →
      targetCount l mode inN < fuel + 1 →
      modereach mode inN magic (fuel + 1) l id =
        some (relabel l (Rch (succOf l) (Target l mode inN) (succOf l id)) magic) := by
      intro l id hnd hc hid hcount
      obtain ⟨nd, hf, hmem, hid'⟩ := findsome l id hid
      rw [modereach_succ, hf]
      simp only
      have hs : succOf l id = nd.trans := by unfold succOf; rw [hf]
      rw [hs]
      exact ih.2 nd.trans l hnd hc (fun t ht => hc nd hmem t ht) (by omega)
    exact ⟨h0, hlist (fuel + 1) h0⟩

end Gr1c
