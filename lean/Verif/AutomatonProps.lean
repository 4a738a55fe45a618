import Verif.AutomatonLemmas

/-!
# Properties of the automaton operations (C27-C30, C44)

Specification vocabulary: `Aut.ids` (addresses), `Edge`, `Closed` (no dangling edge), `HasRun` (an
infinite path starts here), `Rch` (reachability through a set of nodes), all in `AutomatonLemmas`.
The hypothesis `(Aut.ids l).Nodup` says that distinct list cells have distinct addresses, which
holds of every linked list in memory.
-/

namespace Gr1c

set_option linter.unusedSectionVars false

variable {M V : Type} [DecidableEq M] [DecidableEq V]

/-! ## C27 -/

/-- C27: deleting a present node removes that cell and keeps everything else, in order. -/
theorem delete_anode_exact (pre post : Aut M V) (nd : ANode M V)
    (hnd : (Aut.ids (pre ++ nd :: post)).Nodup) :
    deleteAnode (pre ++ nd :: post) (some nd.id) = pre ++ post := by
  rw [deleteAnode_eq _ hnd, if_pos (by simp [Aut.ids])]
  simp only [Aut.ids, List.map_append, List.map_cons] at hnd
  rw [List.nodup_append] at hnd
  obtain ⟨_, h2, h3⟩ := hnd
  rw [List.nodup_cons] at h2
  rw [List.filter_append, List.filter_cons]
  simp only [ne_eq, not_true_eq_false, decide_false, Bool.false_eq_true, if_false]
  congr 1
  · rw [List.filter_eq_self]
    intro a ha
    simp only [decide_eq_true_eq]
    exact h3 a.id (List.mem_map_of_mem ha) nd.id (by simp)
  · rw [List.filter_eq_self]
    intro a ha
    simp only [decide_eq_true_eq]
    intro he
    exact h2.1 (he ▸ List.mem_map_of_mem ha)

/-- C27: deleting an absent node (or NULL) gives NULL. -/
theorem delete_anode_absent (l : Aut M V) (hnd : (Aut.ids l).Nodup) (t : ℕ) (ht : t ∉ Aut.ids l) :
    deleteAnode l (some t) = [] ∧ deleteAnode l none = [] := by
  refine ⟨by rw [deleteAnode_eq _ hnd, if_neg ht], ?_⟩
  cases l <;> rfl

/-- C27: `replace_anode_trans(old, new)` maps every edge to `old` to `new`, position by position,
and changes nothing else. -/
theorem replace_anode_trans_redirect (l : Aut M V) (old new : ℕ) :
    replaceAnodeTrans l old (some new) =
      l.map fun n => { n with trans := n.trans.map fun j => if j = old then new else j } :=
  replaceAnodeTrans_some l old new

/-- C27: with `new = NULL` exactly the edges to `old` are removed and the others keep their order. -/
theorem replace_anode_trans_remove (l : Aut M V) (old : ℕ) :
    replaceAnodeTrans l old none =
      l.map fun n => { n with trans := n.trans.filter fun j => j ≠ old } :=
  replaceAnodeTrans_none l old

/-! ## C28 -/

/-- No node without outgoing edges. -/
def NoDeadEnd (l : Aut M V) : Prop := ∀ n ∈ l, n.trans ≠ []

/-- C28: after `aut_prune_deadends` there is no dead end and no dangling edge; exactly the nodes
starting an infinite run are kept, in order and unchanged except that edges to deleted nodes are
gone; the result is NULL exactly when no node starts an infinite run. -/
theorem prune_deadends_exact (l : Aut M V) (hnd : (Aut.ids l).Nodup) (hc : Closed l) :
    NoDeadEnd (autPruneDeadends l) ∧ Closed (autPruneDeadends l) ∧
    (∀ i, i ∈ Aut.ids (autPruneDeadends l) ↔ i ∈ Aut.ids l ∧ HasRun l i) ∧
    (Aut.ids (autPruneDeadends l)).Sublist (Aut.ids l) ∧
    (∀ n' ∈ autPruneDeadends l, ∃ n ∈ l, n'.id = n.id ∧ n'.state = n.state ∧ n'.mode = n.mode ∧
      n'.rgrad = n.rgrad ∧ n'.initial = n.initial ∧ n'.trans.Sublist n.trans ∧
      ∀ j, j ∈ n'.trans ↔ j ∈ n.trans ∧ HasRun l j) ∧
    (autPruneDeadends l = [] ↔ ∀ i, ¬ HasRun l i) := by
  classical
  have heq := autPruneDeadends_eq l hnd hc
  have hstep : ∀ i, HasRun l i → ∃ j, Edge l i j ∧ HasRun l j := by
    rintro i ⟨π, h0, h⟩
    exact ⟨π 1, h0 ▸ h 0, fun k => π (k + 1), rfl, fun k => h (k + 1)⟩
  have hin : ∀ i, HasRun l i → i ∈ Aut.ids l := by
    rintro i ⟨π, h0, h⟩
    obtain ⟨n, hn, h1, _⟩ := h 0
    exact mem_ids.2 ⟨n, hn, by rw [h1, h0]⟩
  have hids : Aut.ids (autPruneDeadends l) = (Aut.ids l).filter fun i => HasRun l i := by
    rw [heq, ids_restrict]
  refine ⟨?_, by rw [heq]; exact closed_restrict l _ hc, ?_, by rw [hids]; exact List.filter_sublist, ?_, ?_⟩
  · intro n hn
    rw [heq] at hn
    unfold restrictAut at hn
    rw [List.mem_map] at hn
    obtain ⟨n0, hn0, rfl⟩ := hn
    simp only [List.mem_filter, decide_eq_true_eq] at hn0
    obtain ⟨j, ⟨n1, hn1, he, hj⟩, hrun⟩ := hstep _ hn0.2
    rw [eq_of_id_eq hnd hn1 hn0.1 he] at hj
    intro hnil
    have hm : j ∈ n0.trans.filter fun j => HasRun l j :=
      List.mem_filter.2 ⟨hj, by simpa using hrun⟩
    simp only at hnil
    rw [hnil] at hm
    simp at hm
  · intro i
    rw [hids]
    simp [List.mem_filter]
  · intro n' hn
    rw [heq] at hn
    unfold restrictAut at hn
    rw [List.mem_map] at hn
    obtain ⟨n0, hn0, rfl⟩ := hn
    refine ⟨n0, (List.mem_filter.1 hn0).1, rfl, rfl, rfl, rfl, rfl, List.filter_sublist, ?_⟩
    intro j
    simp [List.mem_filter]
  · have hnil : autPruneDeadends l = [] ↔ Aut.ids (autPruneDeadends l) = [] := by
      unfold Aut.ids
      rw [List.map_eq_nil_iff]
    rw [hnil, hids, List.filter_eq_nil_iff]
    constructor
    · intro h i hi
      exact absurd (by simpa using hi) (h i (hin i hi))
    · intro h i _ 
      simpa using h i

/-! ## C29 -/

/-- Nodes reachable from an initial node. -/
inductive FromInitial (l : Aut M V) : ℕ → Prop
  | base {n : ANode M V} : n ∈ l → n.initial = true → FromInitial l n.id
  | step {i j : ℕ} : FromInitial l i → Edge l i j → FromInitial l j

/-- C29: for an array `U` of nodes of the automaton (NULL entries allowed), `forward_prune` never
touches freed memory, only removes cells (the others are unchanged and in order), keeps every
initial node and everything reachable from one, leaves no dangling edge, and every node of `U` that
remains is initial or has a remaining predecessor. -/
theorem forward_prune_exact (l : Aut M V) (U : List (Option ℕ)) (hnd : (Aut.ids l).Nodup)
    (hc : Closed l) (hU : ∀ u, some u ∈ U → u ∈ Aut.ids l) :
    ∃ R, forwardPrune l U = some R ∧ R.Sublist l ∧ Closed R ∧
      (∀ n ∈ l, n.initial = true → n ∈ R) ∧
      (∀ n ∈ l, FromInitial l n.id → n ∈ R) ∧
      (∀ n ∈ R, some n.id ∈ U → n.initial = true ∨ ∃ p ∈ R, n.id ∈ p.trans) := by
  have key : ∃ R, forwardPrune l U = some R ∧ R.Sublist l ∧ Closed R ∧
      (∀ n ∈ l, n.initial = true → n ∈ R) ∧
      (∀ u, some u ∈ U → ∀ n ∈ R, n.id = u → n.initial = true ∨ hasPred R u = true) := by
    unfold forwardPrune
    by_cases hl : l = []
    · rw [if_pos hl]
      subst hl
      exact ⟨[], rfl, List.Sublist.refl _, hc, by simp, by simp⟩
    · rw [if_neg hl]
      by_cases hU0 : U = []
      · rw [if_pos hU0]
        subst hU0
        exact ⟨l, rfl, List.Sublist.refl _, hc, fun n hn _ => hn, by simp⟩
      · rw [if_neg hU0]
        exact forwardPruneLoop_spec l U hnd hc hU
  obtain ⟨R, h1, h2, h3, h4, h5⟩ := key
  refine ⟨R, h1, h2, h3, h4, ?_, ?_⟩
  · have hreach : ∀ i, FromInitial l i → i ∈ Aut.ids R := by
      intro i hi
      induction hi with
      | base hn hi => exact mem_ids.2 ⟨_, h4 _ hn hi, rfl⟩
      | step _ he ih =>
        obtain ⟨n, hn, hid, hj⟩ := he
        obtain ⟨n', hn', hid'⟩ := mem_ids.1 ih
        have : n' = n := eq_of_id_eq hnd (h2.subset hn') hn (by rw [hid, hid'])
        exact h3 n' hn' _ (this ▸ hj)
    intro n hn hr
    obtain ⟨n', hn', hid'⟩ := mem_ids.1 (hreach _ hr)
    exact eq_of_id_eq hnd (h2.subset hn') hn hid' ▸ hn'
  · intro n hn hu
    rcases h5 n.id hu n hn rfl with h | h
    · exact Or.inl h
    · exact Or.inr (hasPred_iff.1 h)

/-! ## C30 -/

/-- C30: `find_anode` returns the first node with the given mode and state; `find_anode_index` its
position. -/
theorem find_anode_first (pre post : Aut M V) (nd : ANode M V)
    (hpre : ∀ n ∈ pre, ¬ (n.mode = nd.mode ∧ n.state = nd.state)) :
    findAnode (pre ++ nd :: post) nd.mode nd.state = some nd ∧
    findAnodeIndex (pre ++ nd :: post) nd.mode nd.state = some pre.length := by
  have h : ∀ c, findAnode (pre ++ nd :: post) nd.mode nd.state = some nd ∧
      findAnodeIndexFrom c (pre ++ nd :: post) nd.mode nd.state = some (c + pre.length) := by
    induction pre with
    | nil => intro c; simp [findAnodeIndexFrom, findAnode]
    | cons a tl ih =>
      intro c
      have ha := hpre a (by simp)
      obtain ⟨i1, i2⟩ := ih (fun n hn => hpre n (by simp [hn])) (c + 1)
      simp only [List.cons_append, findAnodeIndexFrom, findAnode, List.length_cons]
      rw [i1, i2]
      have hlen : c + 1 + tl.length = c + (tl.length + 1) := by omega
      rw [hlen]
      by_cases hm : a.mode = nd.mode
      · rw [if_pos hm, if_neg (fun hs => ha ⟨hm, hs⟩), if_pos hm, if_neg (fun hs => ha ⟨hm, hs⟩)]
        exact ⟨rfl, rfl⟩
      · rw [if_neg hm, if_neg hm]
        exact ⟨rfl, rfl⟩
  refine ⟨(h 0).1, ?_⟩
  have := (h 0).2
  rw [Nat.zero_add] at this
  exact this

/-- C30: both lookups fail (NULL, -1) when no node matches. -/
theorem find_anode_none (l : Aut M V) (m : M) (v : V) (h : ∀ n ∈ l, ¬ (n.mode = m ∧ n.state = v)) :
    findAnode l m v = none ∧ findAnodeIndex l m v = none := by
  have h : ∀ c, findAnode l m v = none ∧ findAnodeIndexFrom c l m v = none := by
    induction l with
    | nil => intro c; simp [findAnodeIndexFrom, findAnode]
    | cons a tl ih =>
      intro c
      have ha := h a (by simp)
      obtain ⟨i1, i2⟩ := ih (fun n hn => h n (by simp [hn])) (c + 1)
      simp only [findAnodeIndexFrom, findAnode]
      rw [i1, i2]
      by_cases hm : a.mode = m
      · rw [if_pos hm, if_neg (fun hs => ha ⟨hm, hs⟩), if_pos hm, if_neg (fun hs => ha ⟨hm, hs⟩)]
        exact ⟨rfl, rfl⟩
      · rw [if_neg hm, if_neg hm]
        exact ⟨rfl, rfl⟩
  exact ⟨(h 0).1, (h 0).2⟩

/-- C30: `anode_index` is the position of the cell with the given address. -/
theorem anode_index_pos (pre post : Aut M V) (nd : ANode M V)
    (hnd : (Aut.ids (pre ++ nd :: post)).Nodup) :
    anodeIndex (pre ++ nd :: post) nd.id = some pre.length := by
  have h : ∀ c, anodeIndexFrom c (pre ++ nd :: post) nd.id = some (c + pre.length) := by
    induction pre with
    | nil => intro c; simp [anodeIndexFrom]
    | cons a tl ih =>
      intro c
      simp only [Aut.ids, List.cons_append, List.map_cons, List.nodup_cons] at hnd
      have ha : a.id ≠ nd.id := by
        intro he
        exact hnd.1 (by simp [he])
      simp only [List.cons_append, anodeIndexFrom, List.length_cons, if_neg ha]
      rw [ih hnd.2 (c + 1)]
      congr 1
      omega
  have := h 0
  rw [Nat.zero_add] at this
  exact this

/-- C30: `append_anode_trans` adds one edge at the end of the first matching node's list, to the
first node matching the target, and leaves every other cell alone; it returns NULL if there is no
target node. -/
theorem append_anode_trans_exact (pre post : Aut M V) (nd : ANode M V) (m : M) (v : V)
    (hnd : (Aut.ids (pre ++ nd :: post)).Nodup)
    (hpre : ∀ n ∈ pre, ¬ (n.mode = nd.mode ∧ n.state = nd.state)) :
    (∀ pre' t post', pre ++ nd :: post = pre' ++ t :: post' → t.mode = m → t.state = v →
      (∀ n ∈ pre', ¬ (n.mode = m ∧ n.state = v)) →
      appendAnodeTrans (pre ++ nd :: post) nd.mode nd.state m v =
        .ok (pre ++ { nd with trans := nd.trans ++ [t.id] } :: post)) ∧
    ((∀ n ∈ pre ++ nd :: post, ¬ (n.mode = m ∧ n.state = v)) →
      appendAnodeTrans (pre ++ nd :: post) nd.mode nd.state m v = .null) := by
  have h1 := (find_anode_first pre post nd hpre).1
  constructor
  · rintro pre' t post' he rfl rfl hpre'
    have h2 := (find_anode_first pre' post' t hpre').1
    rw [← he] at h2
    unfold appendAnodeTrans
    rw [h1, h2]
    simp only
    congr 1
    unfold updNode
    simp only [Aut.ids, List.map_append, List.map_cons] at hnd
    rw [List.nodup_append] at hnd
    obtain ⟨_, h3, h4⟩ := hnd
    rw [List.nodup_cons] at h3
    rw [List.map_append, List.map_cons, if_pos rfl]
    congr 1
    · conv_rhs => rw [← List.map_id pre]
      apply List.map_congr_left
      intro a ha
      rw [if_neg (h4 a.id (List.mem_map_of_mem ha) nd.id (by simp))]
      rfl
    · congr 1
      conv_rhs => rw [← List.map_id post]
      apply List.map_congr_left
      intro a ha
      rw [if_neg]
      · rfl
      · intro hid
        exact h3.1 (hid ▸ List.mem_map_of_mem ha)
  · intro h
    unfold appendAnodeTrans
    rw [h1, (find_anode_none _ m v h).1]

/-- C30: a node just inserted is found by its mode and state, has no edges, and lookups of any
other mode and state are unaffected. -/
theorem insert_anode_find (l : Aut M V) (fresh : ℕ) (m : M) (r : ℤ) (b : Bool) (v : V) :
    (∃ n, findAnode (insertAnode l fresh m r b v) m v = some n ∧ n.id = fresh ∧ n.mode = m ∧
      n.state = v ∧ n.rgrad = r ∧ n.initial = b ∧ n.trans = []) ∧
    (∀ m' v', (m', v') ≠ (m, v) → findAnode (insertAnode l fresh m r b v) m' v' = findAnode l m' v') ∧
    (∃ n, insertAnode l fresh m r b v = n :: l) := by
  refine ⟨⟨_, by unfold insertAnode findAnode; rw [if_pos rfl, if_pos rfl], rfl, rfl, rfl, rfl, rfl, rfl⟩, ?_,
    ⟨_, rfl⟩⟩
  intro m' v' hne
  conv_lhs => unfold insertAnode findAnode
  by_cases hm : m = m'
  · rw [if_pos hm, if_neg]
    rintro rfl
    exact hne (by rw [hm])
  · rw [if_neg hm]

/-! ## C44 -/

/-- C44: with enough recursion depth (one more than the number of candidate nodes always suffices,
so the recursion terminates) and a label different from the searched mode, `forward_modereach`
changes the mode of exactly the nodes that have the given mode, have their state in the set, and are
reachable from the start node's successors through such nodes; nothing else changes. -/
theorem modereach_exact (l : Aut M V) (start : ℕ) (mode magic : M) (inN : V → Bool)
    (hnd : (Aut.ids l).Nodup) (hc : Closed l) (hs : start ∈ Aut.ids l) (hne : magic ≠ mode)
    (fuel : ℕ) (hfuel : l.length < fuel) :
    ∃ l', modereach mode inN magic fuel l start = some l' ∧ l'.length = l.length ∧
      ∀ (k : ℕ) (n n' : ANode M V), l[k]? = some n → l'[k]? = some n' →
        (Rch (fun i => succOf l i) (fun i => ∃ n ∈ l, n.id = i ∧ n.mode = mode ∧ inN n.state = true)
            (succOf l start) n.id → n' = { n with mode := magic }) ∧
        (¬ Rch (fun i => succOf l i) (fun i => ∃ n ∈ l, n.id = i ∧ n.mode = mode ∧ inN n.state = true)
            (succOf l start) n.id → n' = n) := by
  classical
  have hcount : targetCount l mode inN < fuel :=
    lt_of_le_of_lt (List.length_filter_le _ _) hfuel
  refine ⟨_, (modereach_spec mode magic inN hne fuel).1 l start hnd hc hs hcount, ?_, ?_⟩
  · simp [relabel]
  · intro k n n' hk hk'
    unfold relabel at hk'
    rw [List.getElem?_map, hk] at hk'
    simp only [Option.map_some, Option.some.injEq] at hk'
    subst hk'
    constructor
    · intro h; exact if_pos h
    · intro h; exact if_neg h

/-- C44: when the label equals the searched mode and two candidate nodes form a cycle, no recursion
depth suffices: the C function recurses until the stack overflows. -/
theorem modereach_same_label_diverges (fuel : ℕ) :
    modereach (0 : ℕ) (fun _ : Unit => true) 0 fuel
      [{ id := 0, state := (), mode := 0, rgrad := 0, initial := true, trans := [0] }] 0 = none := by
  induction fuel with
  | zero => unfold modereach; rfl
  | succ n ih =>
    rw [modereach_succ]
    simp only [List.find?_cons, decide_true]
    cases n with
    | zero =>
      rw [modereachList_cons]
      simp [modereach]
    | succ n =>
      rw [modereachList_cons]
      simp only [List.find?_cons, decide_true, and_self, if_true, updNode, List.map_cons, List.map_nil]
      rw [ih]

/-! ## Concrete cases -/

namespace ExAut

/-- Four nodes: 0 → 1, 1 → 2 and 1 → 3, 2 → 1, 3 dead end. -/
def A : Aut ℕ (Bool × Bool) :=
  [⟨0, (false, false), 0, -1, true, [1]⟩, ⟨1, (true, false), 0, 1, false, [2, 3]⟩,
   ⟨2, (true, true), 1, 0, false, [1]⟩, ⟨3, (false, true), 1, 0, false, []⟩]

example : (Aut.ids A).Nodup := by decide
example : Closed A := by unfold Closed; decide
example : autPruneDeadends A =
  [⟨0, (false, false), 0, -1, true, [1]⟩, ⟨1, (true, false), 0, 1, false, [2]⟩,
   ⟨2, (true, true), 1, 0, false, [1]⟩] := by decide +kernel
example : (deleteAnode A (some 1)).length = 3 := by decide
example : deleteAnode A (some 9) = [] := by decide
example : (replaceAnodeTrans A 1 (some 3)).map (·.trans) = [[3], [2, 3], [3], []] := by decide +kernel
example : (replaceAnodeTrans A 1 none).map (·.trans) = [[], [2, 3], [], []] := by decide +kernel

/-- Node 4 is not reachable; its successor 5 is reachable only from it. -/
def B : Aut ℕ Bool :=
  [⟨0, false, 0, -1, true, [1]⟩, ⟨1, true, 0, 1, false, [0]⟩, ⟨4, true, 1, 0, false, [5, 1]⟩,
   ⟨5, false, 1, 0, false, [0]⟩]

example : (Aut.ids B).Nodup ∧ Closed B ∧ ∀ u, some u ∈ [some 1, none, some 4] → u ∈ Aut.ids B := by
  refine ⟨by decide, by unfold Closed; decide, ?_⟩
  intro u hu
  simp at hu
  rcases hu with rfl | rfl <;> decide
example : forwardPrune B [some 1, none, some 4] = some (B.take 2) := by decide +kernel

example : findAnode A 1 (true, true) = some ⟨2, (true, true), 1, 0, false, [1]⟩ := by decide
example : findAnodeIndex A 1 (true, true) = some 2 := by decide
example : anodeIndex A 3 = some 3 := by decide

example : (modereach 0 (fun v : Bool => v = v) 7 5 B 4).map (·.map (·.mode)) = some [7, 7, 1, 1] := by
  decide +kernel

end ExAut

end Gr1c
