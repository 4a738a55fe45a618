import Verif.AutIOLemmas
import Mathlib.Data.List.Nodup
import Mathlib.Data.List.Range

/-!
# C25, C26: loading and writing automata
-/

namespace Gr1c

/-- The loaded automaton `l` is the one the file describes: the node at position `i` of the list has the
fields written on the line with ID `i`, and its transitions lead to the nodes at the positions written
there. `none` in a transition list of the file would be a missing node. -/
def LoadedAs (rs : List FileNode) (l : List LNode) : Prop :=
  l.length = rs.length ∧ (l.map LNode.id).Nodup ∧ ∀ r ∈ rs, ∃ n, l[r.id]? = some n ∧ n.state = r.state ∧
    n.initial = some r.initial ∧ n.mode = r.mode ∧ n.rgrad = r.rgrad ∧
    n.trans.map some = r.trans.map fun t => (l[t]?).map LNode.id

/-! ## Linking -/

theorem map_inj_on {f : ℕ → ℕ} {l l' : List ℕ} (h : ∀ x ∈ l, ∀ y ∈ l', f x = f y → x = y) (e : l.map f = l'.map f) : l = l' := by
  induction l generalizing l' with
  | nil => cases l' with
    | nil => rfl
    | cons y l' => simp at e
  | cons x l ih =>
    cases l' with
    | nil => simp at e
    | cons y l' =>
      simp only [List.map_cons, List.cons.injEq] at e
      rw [h x (by simp) y (by simp) e.1, ih (fun a ha b hb => h a (by simp [ha]) b (by simp [hb])) e.2]

/-- Position of the line with a given ID. -/
def lineOf (rs : List FileNode) (i : ℕ) : ℕ := (rs.map FileNode.id).idxOf i

theorem findLine_rec (rs : List FileNode) {i : ℕ} (h : i ∈ rs.map FileNode.id) :
    findLine (rs.map FileNode.lineRec) i = some (lineOf rs i) := by
  unfold findLine lineOf
  induction rs with
  | nil => simp at h
  | cons r rs ih =>
    simp only [List.map_cons, List.findIdx?_cons, List.idxOf_cons]
    by_cases hr : r.id = i
    · subst hr
      simp [FileNode.lineRec]
    · have h' : i ∈ rs.map FileNode.id := by
        rcases List.mem_cons.1 h with h | h
        · exact absurd h.symm hr
        · exact h
      rw [ih h', if_neg (by simpa [FileNode.lineRec] using hr)]
      simp [beq_eq_false_iff_ne.2 hr]

theorem tight_mem {rs : List FileNode} (h : Tight rs) {i : ℕ} (hi : i < rs.length) : i ∈ rs.map FileNode.id :=
  h.1.mem_iff.2 (List.mem_range.2 hi)

theorem tight_id {rs : List FileNode} (h : Tight rs) {r : FileNode} (hr : r ∈ rs) : r.id < rs.length :=
  List.mem_range.1 (h.1.mem_iff.1 (List.mem_map_of_mem hr))

/-- The line with ID `i`. -/
theorem lineOf_spec {rs : List FileNode} (h : Tight rs) {i : ℕ} (hi : i < rs.length) :
    ∃ r, rs[lineOf rs i]? = some r ∧ r.id = i ∧ r ∈ rs := by
  have h1 := List.idxOf_lt_length_of_mem (tight_mem h hi)
  have h2 : lineOf rs i < rs.length := by simpa [lineOf] using h1
  refine ⟨rs[lineOf rs i], List.getElem?_eq_getElem h2, ?_, List.getElem_mem h2⟩
  have h3 := List.getElem_idxOf h1
  rw [List.getElem_map] at h3
  exact h3

theorem lineOf_inj {rs : List FileNode} (h : Tight rs) {i j : ℕ} (hi : i < rs.length) (hj : j < rs.length)
    (he : lineOf rs i = lineOf rs j) : i = j := by
  obtain ⟨r, h1, h2, _⟩ := lineOf_spec h hi
  obtain ⟨r', k1, k2, _⟩ := lineOf_spec h hj
  rw [he, k1] at h1
  cases h1
  omega

theorem setTrans_eq {rs : List FileNode} (h : Tight rs) (m : ℕ) {ts : List ℕ} (ht : ∀ t ∈ ts, t < rs.length) :
    setTrans (rs.map FileNode.lineRec) m (ts.map fun (t : ℕ) => (t : ℤ)) =
      if m ≤ ts.length then .ok ((ts.take m).map (lineOf rs)) else .ub := by
  induction m generalizing ts with
  | zero => simp [setTrans]
  | succ m ih =>
    cases ts with
    | nil => simp [setTrans]
    | cons t ts =>
      rw [List.map_cons, setTrans, findLine_rec rs (tight_mem h (ht t (by simp))), ih fun u hu => ht u (by simp [hu])]
      simp only [List.length_cons, Nat.add_le_add_iff_right]
      by_cases hm : m ≤ ts.length
      · rw [if_pos hm, if_pos hm]; rfl
      · rw [if_neg hm, if_neg hm]

section
variable {rs : List FileNode} (line own : ℕ → FileNode)

/-- The node that the linking loop makes at position `k`: fields of the line with ID `k`, transitions of
line number `k`. -/
def madeNode (rs : List FileNode) (line own : ℕ → FileNode) (k : ℕ) : LNode :=
  ⟨lineOf rs k, (own k).state, some (own k).initial, (own k).mode, (own k).rgrad,
    ((line k).trans.take (own k).trans.length).map (lineOf rs)⟩

variable {line own}

theorem linkLoop_ok (h : Tight rs) (hline : ∀ k < rs.length, rs[k]? = some (line k))
    (hown : ∀ k < rs.length, rs[lineOf rs k]? = some (own k)) (ver : ℤ)
    (hlen : ∀ k < rs.length, (own k).trans.length ≤ (line k).trans.length) (m i : ℕ) (acc : List LNode)
    (hm : i + m = rs.length) :
    linkLoop (rs.map FileNode.lineRec) ver i acc m = .ok (acc ++ (List.range' i m).map (madeNode rs line own)) ver := by
  induction m generalizing i acc with
  | zero => simp [linkLoop]
  | succ m ih =>
    have hi : i < rs.length := by omega
    have ht : ∀ t ∈ (line i).trans, t < rs.length := h.2 _ (List.mem_of_getElem? (hline i hi))
    have e := setTrans_eq h (own i).trans.length ht
    rw [if_pos (hlen i hi)] at e
    rw [linkLoop, findLine_rec rs (tight_mem h hi)]
    simp only [List.getElem?_map, hline i hi, hown i hi, Option.map_some]
    rw [show (own i).lineRec.trans.length = (own i).trans.length by simp [FileNode.lineRec],
      show (line i).lineRec.trans = (line i).trans.map fun (t : ℕ) => (t : ℤ) from rfl, e]
    simp only
    rw [ih (i + 1) _ (by omega), List.range'_succ, List.map_cons, List.append_assoc]
    rfl

theorem linkLoop_ub (h : Tight rs) (hline : ∀ k < rs.length, rs[k]? = some (line k))
    (hown : ∀ k < rs.length, rs[lineOf rs k]? = some (own k)) (ver : ℤ) {k : ℕ} (hk : k < rs.length)
    (hlen : ¬ (own k).trans.length ≤ (line k).trans.length) (m i : ℕ) (acc : List LNode)
    (hm : i + m = rs.length) (hik : i ≤ k) :
    linkLoop (rs.map FileNode.lineRec) ver i acc m = .ub := by
  induction m generalizing i acc with
  | zero => omega
  | succ m ih =>
    have hi : i < rs.length := by omega
    have ht : ∀ t ∈ (line i).trans, t < rs.length := h.2 _ (List.mem_of_getElem? (hline i hi))
    have e := setTrans_eq h (own i).trans.length ht
    rw [linkLoop, findLine_rec rs (tight_mem h hi)]
    simp only [List.getElem?_map, hline i hi, hown i hi, Option.map_some]
    rw [show (own i).lineRec.trans.length = (own i).trans.length by simp [FileNode.lineRec],
      show (line i).lineRec.trans = (line i).trans.map fun (t : ℕ) => (t : ℤ) from rfl, e]
    by_cases hx : (own i).trans.length ≤ (line i).trans.length
    · rw [if_pos hx]
      have : i ≠ k := fun hx' => hlen (hx' ▸ hx)
      exact ih (i + 1) _ (by omega) (by omega)
    · rw [if_neg hx]

theorem made_denotes (h : Tight rs) (hline : ∀ k < rs.length, rs[k]? = some (line k))
    (hown : ∀ k < rs.length, rs[lineOf rs k]? = some (own k)) :
    LoadedAs rs ((List.range' 0 rs.length).map (madeNode rs line own)) ↔
      ∀ k < rs.length, (own k).trans <+: (line k).trans := by
  have hget : ∀ k < rs.length, ((List.range' 0 rs.length).map (madeNode rs line own))[k]? = some (madeNode rs line own k) := by
    intro k hk
    simp [hk]
  have hid : ∀ k < rs.length, (own k).id = k := by
    intro k hk
    obtain ⟨r, h1, h2, _⟩ := lineOf_spec h hk
    rw [hown k hk] at h1; cases h1; exact h2
  have hmem : ∀ k < rs.length, own k ∈ rs := fun k hk => List.mem_of_getElem? (hown k hk)
  have hall : ∀ r ∈ rs, r = own r.id := by
    intro r hr
    have hnd : (rs.map FileNode.id).Nodup := h.1.nodup_iff.2 List.nodup_range
    exact List.inj_on_of_nodup_map hnd hr (hmem _ (tight_id h hr)) (hid _ (tight_id h hr)).symm
  have htr : ∀ k < rs.length, ((madeNode rs line own k).trans.map some = (own k).trans.map fun t =>
      (((List.range' 0 rs.length).map (madeNode rs line own))[t]?).map LNode.id) ↔ (own k).trans <+: (line k).trans := by
    intro k hk
    have ht : ∀ t ∈ (own k).trans, t < rs.length := h.2 _ (hmem k hk)
    have ht' : ∀ t ∈ (line k).trans, t < rs.length := h.2 _ (List.mem_of_getElem? (hline k hk))
    have e : ((own k).trans.map fun t => (((List.range' 0 rs.length).map (madeNode rs line own))[t]?).map LNode.id) =
        ((own k).trans.map (lineOf rs)).map some := by
      rw [List.map_map]
      exact List.map_congr_left fun t h => by rw [hget t (ht t h)]; rfl
    rw [e, List.prefix_iff_eq_take]
    constructor
    · intro hx
      have hx := List.map_injective_iff.2 (Option.some_injective _) hx
      have hx : ((line k).trans.take (own k).trans.length).map (lineOf rs) = (own k).trans.map (lineOf rs) := hx
      symm
      exact map_inj_on (fun x hx' y hy e => lineOf_inj h (ht' x (List.mem_of_mem_take hx')) (ht y hy) e) hx
    · intro hx
      show (((line k).trans.take (own k).trans.length).map (lineOf rs)).map some = _
      rw [← hx]
  constructor
  · rintro ⟨_, _, h3⟩ k hk
    obtain ⟨n, h4, _, _, _, _, h5⟩ := h3 (own k) (hmem k hk)
    rw [hid k hk, hget k hk] at h4
    cases h4
    exact (htr k hk).1 h5
  · intro hp
    refine ⟨by simp, ?_, fun r hr => ?_⟩
    · rw [List.map_map]
      refine List.Nodup.map_on ?_ (List.nodup_range')
      intro i hi j hj he
      simp only [List.mem_range'_1] at hi hj
      exact lineOf_inj h (by omega) (by omega) he
    · have hk := tight_id h hr
      have := hall r hr
      refine ⟨_, hget _ hk, ?_, ?_, ?_, ?_, ?_⟩
      · exact (congrArg FileNode.state this).symm
      · exact congrArg some (congrArg FileNode.initial this).symm
      · exact (congrArg FileNode.mode this).symm
      · exact (congrArg FileNode.rgrad this).symm
      · rw [(htr _ hk).2 (hp _ hk), ← this]
end

/-! ## Reading -/

theorem tight_functions {rs : List FileNode} (h : Tight rs) : ∃ line own : ℕ → FileNode,
    (∀ k < rs.length, rs[k]? = some (line k)) ∧ (∀ k < rs.length, rs[lineOf rs k]? = some (own k)) := by
  refine ⟨fun k => (rs[k]?).getD ⟨0, [], false, 0, 0, []⟩, fun k => (rs[lineOf rs k]?).getD ⟨0, [], false, 0, 0, []⟩,
    fun k hk => ?_, fun k hk => ?_⟩
  · simp [List.getElem?_eq_getElem hk]
  · obtain ⟨r, h1, _⟩ := lineOf_spec h hk
    simp [h1]

theorem load_read {ver len : ℕ} (hv : ver = 0 ∨ ver = 1) (hl : 1 ≤ len) {rs : List FileNode} {s : List Char}
    (h : AutFile ver rs s) (hr : ∀ r ∈ rs, r.Ok ver len) (hne : rs ≠ []) :
    loadVer len s = linkLoop (rs.map FileNode.lineRec) ver 0 [] rs.length := by
  unfold loadVer
  rw [if_neg (by omega), Int.toNat_natCast, readLoop_file hv h hr hne]
  simp [hne]

/-- **C26, exact.** For every file of the documented format with tight IDs, the loader returns the
automaton that the file describes exactly when the transitions of the line with ID `i` are an initial part
of those on line number `i`, for every `i`. -/
theorem load_order_exact {ver len : ℕ} (hv : ver = 0 ∨ ver = 1) (hl : 1 ≤ len) {rs : List FileNode} {s : List Char}
    (h : AutFile ver rs s) (hr : ∀ r ∈ rs, r.Ok ver len) (hne : rs ≠ []) (ht : Tight rs) :
    (∃ l, loadVer len s = .ok l ver ∧ LoadedAs rs l) ↔
      ∀ r ∈ rs, ∀ r', rs[r.id]? = some r' → r.trans <+: r'.trans := by
  obtain ⟨line, own, h1, h2⟩ := tight_functions ht
  have hid : ∀ k < rs.length, (own k).id = k := by
    intro k hk
    obtain ⟨r, h3, h4, _⟩ := lineOf_spec ht hk
    rw [h2 k hk] at h3; cases h3; exact h4
  have hmem : ∀ k < rs.length, own k ∈ rs := fun k hk => List.mem_of_getElem? (h2 k hk)
  have hcond : (∀ r ∈ rs, ∀ r', rs[r.id]? = some r' → r.trans <+: r'.trans) ↔
      ∀ k < rs.length, (own k).trans <+: (line k).trans := by
    constructor
    · intro hx k hk
      exact hx _ (hmem k hk) _ (by rw [hid k hk, h1 k hk])
    · intro hx r hr' r' hr''
      have hk := tight_id ht hr'
      have hnd : (rs.map FileNode.id).Nodup := ht.1.nodup_iff.2 List.nodup_range
      have e := List.inj_on_of_nodup_map hnd hr' (hmem _ hk) (hid _ hk).symm
      rw [h1 _ hk] at hr''
      cases hr''
      have := hx _ hk
      rwa [← e] at this
  rw [hcond, load_read hv hl h hr hne]
  constructor
  · rintro ⟨l, h3, h4⟩
    by_cases hlen : ∀ k < rs.length, (own k).trans.length ≤ (line k).trans.length
    · rw [linkLoop_ok ht h1 h2 ver hlen _ 0 [] (by omega)] at h3
      cases h3
      exact (made_denotes ht h1 h2).1 h4
    · push Not at hlen
      obtain ⟨k, hk, hlen⟩ := hlen
      rw [linkLoop_ub ht h1 h2 ver hk (by omega) _ 0 [] (by omega) (by omega)] at h3
      cases h3
  · intro hx
    exact ⟨_, linkLoop_ok ht h1 h2 ver (fun k hk => (hx k hk).length_le) _ 0 [] (by omega), (made_denotes ht h1 h2).2 hx⟩

/-- **C26, partial.** The part of the documented freedom that the loader honours: files whose node lines
are in the order of their IDs. Missing: files with the lines in another order, for which the claim is
false (`load_order_exact`, `load_order_wrong`). -/
theorem load_in_order_partial {ver len : ℕ} (hv : ver = 0 ∨ ver = 1) (hl : 1 ≤ len) {rs : List FileNode} {s : List Char}
    (h : AutFile ver rs s) (hr : ∀ r ∈ rs, r.Ok ver len) (hne : rs ≠ []) (hid : rs.map FileNode.id = List.range rs.length)
    (htr : ∀ r ∈ rs, ∀ t ∈ r.trans, t < rs.length) :
    ∃ l, loadVer len s = .ok l ver ∧ LoadedAs rs l := by
  refine (load_order_exact hv hl h hr hne ⟨hid ▸ List.Perm.refl _, htr⟩).2 fun r hr' r' hr'' => ?_
  obtain ⟨k, hk, rfl⟩ := List.getElem_of_mem hr'
  have : rs[k].id = k := by
    have := congrArg (·[k]?) hid
    simpa [List.getElem?_eq_getElem hk, hk] using this
  rw [this, List.getElem?_eq_getElem hk] at hr''
  cases hr''
  exact List.prefix_refl _

/-! ## C25: writing and reading back -/

/-- The automata `l` (written) and `l'` (read) are the same up to addresses: nodes at the same position
agree in all fields and their `j`-th transitions lead to nodes at the same position. Version 0 of the
format does not record initial nodes. -/
def SameAut (ver : ℕ) (l : Aut ℤ (List ℤ)) (l' : List LNode) : Prop :=
  l'.length = l.length ∧ (l'.map LNode.id).Nodup ∧ ∀ (k : ℕ) (n : ANode ℤ (List ℤ)) (n' : LNode), l[k]? = some n → l'[k]? = some n' →
    n'.state = n.state ∧ n'.mode = n.mode ∧ n'.rgrad = n.rgrad ∧
    n'.initial = some (if ver = 1 then n.initial else false) ∧ n'.trans.length = n.trans.length ∧
    ∀ (j t t' : ℕ), n.trans[j]? = some t → n'.trans[j]? = some t' →
      ∀ (i : ℕ) (m : ANode ℤ (List ℤ)) (m' : LNode), l[i]? = some m → l'[i]? = some m' → (m.id = t ↔ m'.id = t')

/-- The values of a C `int`. -/
def IsInt (v : ℤ) : Prop := -2 ^ 31 ≤ v ∧ v < 2 ^ 31

/-- Automata as the program holds them: distinct addresses, transitions to nodes of the list, states of
length `len`, and all numbers of type `int`. -/
structure GoodAut (len : ℕ) (l : Aut ℤ (List ℤ)) : Prop where
  nodup : (l.map ANode.id).Nodup
  closed : ∀ n ∈ l, ∀ t ∈ n.trans, ∃ m ∈ l, m.id = t
  length : ∀ n ∈ l, n.state.length = len
  small : l.length ≤ 2 ^ 31
  ints : ∀ n ∈ l, (∀ v ∈ n.state, IsInt v) ∧ IsInt n.mode ∧ IsInt n.rgrad

/-- What the file says about the node at position `k`. -/
def fileNode (ver : ℕ) (l : Aut ℤ (List ℤ)) (k : ℕ) (n : ANode ℤ (List ℤ)) : FileNode :=
  ⟨k, n.state, if ver = 1 then n.initial else false, n.mode, n.rgrad, n.trans.map fun t => (anodeIndex l t).getD 0⟩

theorem sp_head (vs : List ℤ) : ∀ c, (vs.flatMap sp).head? = some c → isSpTab c = true := by
  intro c hc
  cases vs with
  | nil => simp at hc
  | cons v vs =>
    simp only [List.flatMap_cons, sp, List.cons_append, List.head?_cons, Option.some.injEq] at hc
    subst hc; decide

theorem row_sp (vs : List ℤ) : Row vs (vs.flatMap sp) := by
  induction vs with
  | nil => exact .nil [] (by simp)
  | cons v vs ih =>
    have := Row.cons [' '] (printInt v) v vs _ (by decide) (intText_printInt v) (sp_head vs) ih
    simpa [sp] using this

theorem row_print (v : ℤ) (vs : List ℤ) : Row (v :: vs) (printInt v ++ vs.flatMap sp) :=
  Row.cons [] (printInt v) v vs _ (by simp) (intText_printInt v) (sp_head vs) (row_sp vs)

theorem index_of_closed {l : Aut ℤ (List ℤ)} {t : ℕ} (h : ∃ m ∈ l, m.id = t) :
    ∃ i m, anodeIndex l t = some i ∧ l[i]? = some m ∧ m.id = t := by
  have key : ∀ c, ∃ i m, anodeIndexFrom c l t = some (c + i) ∧ l[i]? = some m ∧ m.id = t := by
    induction l with
    | nil => simp at h
    | cons n l ih =>
      intro c
      rw [anodeIndexFrom]
      by_cases hn : n.id = t
      · exact ⟨0, n, by rw [if_pos hn]; rfl, rfl, hn⟩
      · have : ∃ m ∈ l, m.id = t := by
          obtain ⟨m, hm, e⟩ := h
          rcases List.mem_cons.1 hm with rfl | hm
          · exact absurd e hn
          · exact ⟨m, hm, e⟩
        obtain ⟨i, m, h1, h2, h3⟩ := ih this (c + 1)
        exact ⟨i + 1, m, by rw [if_neg hn, h1]; congr 1; omega, by simpa using h2, h3⟩
  obtain ⟨i, m, h1, h2⟩ := key 0
  exact ⟨i, m, by rw [Nat.zero_add] at h1; exact h1, h2⟩

theorem nodeText_values {len ver : ℕ} {l : Aut ℤ (List ℤ)} (hg : GoodAut len l) {n : ANode ℤ (List ℤ)} (hn : n ∈ l) (k : ℕ) :
    Row ((fileNode ver l k n).values ver) (nodeText ver l k n) := by
  have hi : ∀ t ∈ n.trans, indexInt l t = (((anodeIndex l t).getD 0 : ℕ) : ℤ) := by
    intro t ht
    obtain ⟨i, m, h1, _⟩ := index_of_closed (hg.closed n hn t ht)
    simp [indexInt, h1]
  have e : nodeText ver l k n = printInt k ++ ((fileNode ver l k n).values ver).tail.flatMap sp := by
    unfold nodeText FileNode.values fileNode
    simp only [List.tail_cons, List.flatMap_append, List.flatMap_cons, List.map_map]
    rw [List.map_congr_left hi]
    by_cases hv : ver = 1
    · simp [hv, flagInt, Function.comp_def]
    · simp [hv, Function.comp_def]
  rw [e]
  exact row_print _ _

theorem dump_lines {len ver : ℕ} {l : Aut ℤ (List ℤ)} (hg : GoodAut len l) (k : ℕ) {r : Aut ℤ (List ℤ)} (hr : ∀ n ∈ r, n ∈ l)
    (hlen : ∀ i n, r[i]? = some n → (nodeText ver l (k + i) n).length < 4095) :
    NodeLines ver (r.mapIdx fun i n => fileNode ver l (k + i) n) (dumpLoop ver l k r) := by
  induction r generalizing k with
  | nil => exact .nil
  | cons n r ih =>
    rw [List.mapIdx_cons, dumpLoop]
    have := ih (k + 1) (fun m hm => hr m (by simp [hm])) fun i m hm => by
      have := hlen (i + 1) m (by simpa using hm)
      rwa [show k + (i + 1) = k + 1 + i by omega] at this
    have e : (fun i n => fileNode ver l (k + (i + 1)) n) = fun i n => fileNode ver l (k + 1 + i) n := by
      funext i n; rw [show k + (i + 1) = k + 1 + i by omega]
    rw [e, show nodeText ver l k n ++ '\n' :: dumpLoop ver l (k + 1) r = (nodeText ver l k n ++ ['\n']) ++ dumpLoop ver l (k + 1) r by simp]
    refine .node _ _ _ _ ⟨?_, _, _, nodeText_values hg (hr n (by simp)) k, Or.inl rfl, rfl⟩ this
    have := hlen 0 n rfl
    simp only [Nat.add_zero] at this
    simp only [List.length_append, List.length_singleton]; omega

theorem fileNode_ok {len ver : ℕ} (hv : ver = 0 ∨ ver = 1) {l : Aut ℤ (List ℤ)} (hg : GoodAut len l) {k : ℕ} {n : ANode ℤ (List ℤ)}
    (hn : n ∈ l) (hk : k < l.length) : (fileNode ver l k n).Ok ver len := by
  have hs := hg.small
  refine ⟨hg.length n hn, by rintro rfl; rfl, fun v hv => ?_⟩
  unfold FileNode.values fileNode at hv
  simp only [List.mem_cons, List.mem_append, List.mem_map, List.mem_ite_nil_right, List.not_mem_nil, or_false] at hv
  obtain ⟨h1, h2, h3⟩ := hg.ints n hn
  rcases hv with rfl | hv | ⟨_, rfl⟩ | rfl | rfl | ⟨t, ⟨u, hu, rfl⟩, rfl⟩
  · omega
  · exact h1 v hv
  · split <;> omega
  · exact h2
  · exact h3
  · obtain ⟨i, m, e1, e2, _⟩ := index_of_closed (hg.closed n hn u hu)
    have := (List.getElem?_eq_some_iff.1 e2).1
    simp only [e1, Option.getD_some]
    omega

/-- **C25.** Loading the text that `aut_aut_dumpver` writes gives back the automaton, for both versions,
if no line reaches 4095 characters. -/
theorem dump_load {len ver : ℕ} (hv : ver = 0 ∨ ver = 1) (hl : 1 ≤ len) {l : Aut ℤ (List ℤ)} (hg : GoodAut len l) (hne : l ≠ [])
    (hlen : ∀ i n, l[i]? = some n → (nodeText ver l i n).length < 4095) :
    ∃ l', (dumpVer l ver).1 = 0 ∧ loadVer len (dumpVer l ver).2 = .ok l' ver ∧ SameAut ver l l' := by
  have hd := dump_lines (ver := ver) hg 0 (fun n hn => hn) (fun i n hi => by rw [Nat.zero_add]; exact hlen i n hi)
  simp only [Nat.zero_add] at hd
  have hdump : dumpVer l ver = (0, printInt ver ++ '\n' :: dumpLoop ver l 0 l) := if_pos hv
  have hfile : AutFile ver (l.mapIdx fun i n => fileNode ver l i n) (dumpVer l ver).2 := by
    rw [hdump]
    refine AutFile.version ver (printInt ver) ['\n'] _ _ (intText_printInt _) ?_ (Or.inl rfl) hd
    rcases hv with rfl | rfl <;> decide
  have hget : ∀ i, (l.mapIdx fun i n => fileNode ver l i n)[i]? = (l[i]?).map (fileNode ver l i) := by
    intro i; simp
  have hmem : ∀ r ∈ l.mapIdx (fun i n => fileNode ver l i n), ∃ i n, l[i]? = some n ∧ r = fileNode ver l i n := by
    intro r hr
    obtain ⟨i, hi, rfl⟩ := List.getElem_of_mem hr
    have := hget i
    rw [List.getElem?_eq_getElem hi] at this
    cases h : l[i]? with
    | none => rw [h] at this; cases this
    | some n => rw [h] at this; exact ⟨i, n, h, Option.some.inj this⟩
  obtain ⟨l', h1, h2, h3, h4⟩ := load_in_order_partial hv hl hfile
    (fun r hr => by
      obtain ⟨i, n, h1, rfl⟩ := hmem r hr
      exact fileNode_ok hv hg (List.mem_of_getElem? h1) (List.getElem?_eq_some_iff.1 h1).1)
    (by simpa using hne)
    (by
      apply List.ext_getElem?
      intro i
      rw [List.getElem?_map, hget, List.length_mapIdx]
      by_cases hi : i < l.length
      · simp [hi, fileNode]
      · simp [hi])
    (fun r hr t ht => by
      obtain ⟨i, n, h1, rfl⟩ := hmem r hr
      simp only [fileNode, List.mem_map] at ht
      obtain ⟨u, hu, rfl⟩ := ht
      obtain ⟨i, m, e1, e2, _⟩ := index_of_closed (hg.closed n (List.mem_of_getElem? h1) u hu)
      rw [e1, List.length_mapIdx]
      exact (List.getElem?_eq_some_iff.1 e2).1)
  refine ⟨l', by rw [hdump], h1, by simpa using h2, h3, ?_⟩
  intro k n n' hk hk'
  have hm : fileNode ver l k n ∈ l.mapIdx (fun i n => fileNode ver l i n) :=
    List.mem_of_getElem? (by rw [hget, hk]; rfl)
  obtain ⟨n'', k1, k2, k3, k4, k5, k6⟩ := h4 _ hm
  have hk'' : l'[k]? = some n'' := k1
  rw [hk'] at hk''
  cases hk''
  have hlen' : n'.trans.length = n.trans.length := by
    have := congrArg List.length k6
    simpa [fileNode] using this
  refine ⟨k2, k4, k5, k3, hlen', ?_⟩
  intro j t t' ht ht' i m m' hi hi'
  obtain ⟨p, mp, e1, e2, e3⟩ := index_of_closed (hg.closed n (List.mem_of_getElem? hk) t (List.mem_of_getElem? ht))
  have k7 := congrArg (·[j]?) k6
  simp only [fileNode, List.getElem?_map, ht, ht', Option.map_some, e1, Option.getD_some, Option.some.injEq] at k7
  have hp : ∃ mp', l'[p]? = some mp' ∧ mp'.id = t' := by
    cases h : l'[p]? with
    | none => rw [h] at k7; cases k7
    | some mp' => rw [h] at k7; exact ⟨mp', rfl, by simpa using k7.symm⟩
  obtain ⟨mp', f1, f2⟩ := hp
  have inj : ∀ {α : Type} {g : α → ℕ} {L : List α} {a b : ℕ} {x y : α}, (L.map g).Nodup → L[a]? = some x → L[b]? = some y →
      (g x = g y ↔ a = b) := by
    intro α g L a b x y hn hx hy
    obtain ⟨ha, rfl⟩ := List.getElem?_eq_some_iff.1 hx
    obtain ⟨hb, rfl⟩ := List.getElem?_eq_some_iff.1 hy
    have := hn.getElem_inj_iff (i := a) (j := b) (hi := by simpa using ha) (hj := by simpa using hb)
    simpa using this
  rw [← e3, ← f2, inj hg.nodup hi e2, inj h3 hi' f1]

/-! ## Witnesses -/

/-- Two nodes with the line of ID 1 first. Node 0 (state 5) has an edge to itself, node 1 (state 7) also. -/
def swapped : List FileNode := [⟨1, [7], false, 0, 0, [1]⟩, ⟨0, [5], true, 0, 0, [0]⟩]

/-- The text of the file. -/
def swappedText : List Char := "1\n1 7 0 0 0 1\n0 5 1 0 0 0\n".toList

theorem swapped_file : AutFile 1 swapped swappedText := by
  refine AutFile.version 1 ['1'] ['\n'] _ _ ⟨['1'], by decide, by decide, Or.inr ⟨Or.inl rfl, by decide⟩⟩ (by decide) (Or.inl rfl)
    (.node _ "1 7 0 0 0 1\n".toList _ _ ⟨by decide, "1 7 0 0 0 1".toList, ['\n'], ?_, Or.inl rfl, rfl⟩
    (.node _ "0 5 1 0 0 0\n".toList _ _ ⟨by decide, "0 5 1 0 0 0".toList, ['\n'], ?_, Or.inl rfl, rfl⟩ .nil))
  · exact row_print 1 [7, 0, 0, 0, 1]
  · exact row_print 0 [5, 1, 0, 0, 0]

theorem swapped_ok : ∀ r ∈ swapped, r.Ok 1 1 := by unfold FileNode.Ok; decide

theorem swapped_tight : Tight swapped := by unfold Tight; decide

/-- **C26 is false of the code.** A file of the documented format with tight IDs in another order: the
loader gives each node the edges of the other one. -/
theorem load_order_wrong :
    AutFile 1 swapped swappedText ∧ Tight swapped ∧
    loadVer 1 swappedText = .ok [⟨1, [5], some true, 0, 0, [0]⟩, ⟨0, [7], some false, 0, 0, [1]⟩] 1 ∧
    ¬ LoadedAs swapped [⟨1, [5], some true, 0, 0, [0]⟩, ⟨0, [7], some false, 0, 0, [1]⟩] := by
  refine ⟨swapped_file, swapped_tight, by decide +kernel, ?_⟩
  rintro ⟨_, _, h⟩
  obtain ⟨n, h1, h2⟩ := h ⟨0, [5], true, 0, 0, [0]⟩ (by decide)
  cases h1
  revert h2
  decide

/-- With edges of different numbers the loader reads beyond the end of an array. -/
theorem load_order_ub : loadVer 1 "1\n1 7 0 0 0\n0 5 1 0 0 0 1\n".toList = .ub := by decide +kernel

/-- An unsupported version is accepted, and the field `initial` is left uninitialised: the test of
`/repo/src/automaton_io.c` 92-97 is never reached with an explicit version number. -/
theorem load_version_2 : loadVer 1 "2\n0 5 0 0 0\n".toList = .ok [⟨0, [5], none, 0, 0, [0]⟩] 2 := by decide +kernel

/-- A malformed line after a node line leads to undefined behaviour instead of an error return. -/
theorem load_malformed : loadVer 1 "1\n0 5 1 0 0 0\nx\n".toList = .ub := by decide +kernel

/-! A file in order, with a comment and a blank line, and an automaton that meets the hypotheses of
`dump_load`. -/

/-- Three nodes; addresses 40, 10, 30. -/
def ioEx : Aut ℤ (List ℤ) :=
  [⟨40, [0, -3], 0, -1, true, [10, 30]⟩, ⟨10, [1, 12], 1, 2, false, [40]⟩, ⟨30, [1, 0], 0, 1, false, []⟩]

example : GoodAut 2 ioEx := by
  refine ⟨by decide, by decide, by decide, by decide, ?_⟩
  unfold IsInt
  decide

example : ∀ i < 3, ∀ n ∈ ioEx[i]?, (nodeText 1 ioEx i n).length < 4095 := by decide +kernel

example : (dumpVer ioEx 1).2 = "1\n0 0 -3 1 0 -1 1 2\n1 1 12 0 1 2 0\n2 1 0 0 0 1\n".toList := by decide +kernel

example : loadVer 2 (dumpVer ioEx 1).2 = .ok [⟨0, [0, -3], some true, 0, -1, [1, 2]⟩, ⟨1, [1, 12], some false, 1, 2, [0]⟩,
    ⟨2, [1, 0], some false, 0, 1, []⟩] 1 := by decide +kernel

/-- A line of 4096 characters or more is read in pieces. -/
def longEx : Aut ℤ (List ℤ) := [⟨0, [0], 0, 0, true, List.replicate 2100 0⟩]

theorem dump_load_long : GoodAut 1 longEx ∧ loadVer 1 (dumpVer longEx 1).2 = .ub := by
  refine ⟨⟨by decide, by decide +kernel, by decide, by decide, ?_⟩, by decide +kernel⟩
  unfold IsInt
  decide

end Gr1c
