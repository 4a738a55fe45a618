import Verif.XmlLemmas

/-!
# C60: the formats `txt` and `tulip` describe the automaton
-/

namespace Gr1c

theorem isPos_index {a : Aut ℤ (List ℤ)} (hn : (a.map ANode.id).Nodup) {t : ℕ} (ht : ∃ m ∈ a, m.id = t) :
    IsPos a t (indexInt a t) := by
  obtain ⟨m, i, h1, h2, h3, -⟩ := target_found hn ht
  refine ⟨i, m, h3, ?_, h2⟩
  have := List.find?_some h1
  simpa using this

theorem isPos_trans {a : Aut ℤ (List ℤ)} (hn : (a.map ANode.id).Nodup) (hc : ∀ n ∈ a, ∀ t ∈ n.trans, ∃ m ∈ a, m.id = t) :
    ∀ n ∈ a, List.Forall₂ (IsPos a) n.trans (n.trans.map (indexInt a)) := by
  intro n hm
  rw [List.forall₂_map_right_iff, List.forall₂_same]
  exact fun t ht => isPos_index hn (hc n hm t ht)

/-- **C60.** The text written for `txt` has one line for each node, in the order of the list, from which the state, the
annotation, the mark of initial nodes and the positions of the successors are read back. -/
theorem txt_dump_says {a : Aut ℤ (List ℤ)} {len : ℕ} (hn : (a.map ANode.id).Nodup)
    (hc : ∀ n ∈ a, ∀ t ∈ n.trans, ∃ m ∈ a, m.id = t) (hl : ∀ n ∈ a, n.state.length = len) :
    ∃ s ls, listDump a len = some s ∧ readTxt s = some ls ∧ TxtSays a ls := by
  obtain ⟨s, ls, h1, h2, h3⟩ := listLoop_reads a len a 0 hl
  refine ⟨s, txtNodes a 0 a, h1, ?_, ?_⟩
  · unfold readTxt
    rw [h2]
    exact h3
  · unfold TxtSays txtNodes
    rw [List.forall₂_map_right_iff, List.forall₂_same]
    intro n hm
    exact ⟨rfl, rfl, rfl, rfl, rfl, isPos_trans hn hc n.1 (List.fst_mem_of_mem_zipIdx hm)⟩

/-- **C60.** The text written for `tulip` is an XML document from which the variables with their domains and, for each node
in the order of the list, the values, the annotation (unless one of its numbers is -1) and the positions of the successors
are read back. -/
theorem tulip_dump_says {a : Aut ℤ (List ℤ)} {ev sv : VarList} (hn : (a.map ANode.id).Nodup)
    (hc : ∀ n ∈ a, ∀ t ∈ n.trans, ∃ m ∈ a, m.id = t) (hl : ∀ n ∈ a, n.state.length = ev.length + sv.length)
    (hp : ∀ v ∈ ev ++ sv, ∀ c ∈ v.1, XPlain c) (hd : ∀ v ∈ ev ++ sv, -1 ≤ v.2) :
    ∃ s d, tulipDump a ev sv = some s ∧ readTulip s = some d ∧ TulipSays ev sv a d := by
  obtain ⟨s, h1, h2⟩ := tulipDump_reads hp hd hl
  refine ⟨s, _, h1, h2, rfl, rfl, ?_⟩
  simp only
  rw [List.forall₂_map_right_iff, List.forall₂_same]
  intro n hm
  exact ⟨rfl, rfl, isPos_trans hn hc n.1 (List.fst_mem_of_mem_zipIdx hm), rfl⟩

/-- Positions tell identifiers apart. -/
theorem IsPos.unique {a : Aut ℤ (List ℤ)} {t u : ℕ} {p : ℤ} (h : IsPos a t p) (h' : IsPos a u p) : t = u := by
  obtain ⟨i, m, h1, rfl, h2⟩ := h
  obtain ⟨j, m', h3, rfl, h4⟩ := h'
  have : i = j := by omega
  subst this
  rw [h1] at h3
  cases h3
  rfl

/-- **C60.** Two automata that agree with the same lines differ in identifiers of nodes only. -/
theorem txtSays_tells {a b : Aut ℤ (List ℤ)} {ls : List TxtNode} (ha : TxtSays a ls) (hb : TxtSays b ls) :
    List.Forall₂ (fun n m : ANode ℤ (List ℤ) => n.state = m.state ∧ n.mode = m.mode ∧ n.rgrad = m.rgrad ∧ n.initial = m.initial ∧
      List.Forall₂ (fun t u => ∃ p, IsPos a t p ∧ IsPos b u p) n.trans m.trans) a b := by
  have key : ∀ (la lb : List (ANode ℤ (List ℤ) × ℕ)) (xs : List TxtNode),
      List.Forall₂ (fun (n : ANode ℤ (List ℤ) × ℕ) (x : TxtNode) => x.num = n.2 ∧ x.initial = n.1.initial ∧ x.state = n.1.state ∧
        x.mode = n.1.mode ∧ x.rgrad = n.1.rgrad ∧ List.Forall₂ (IsPos a) n.1.trans x.trans) la xs →
      List.Forall₂ (fun (n : ANode ℤ (List ℤ) × ℕ) (x : TxtNode) => x.num = n.2 ∧ x.initial = n.1.initial ∧ x.state = n.1.state ∧
        x.mode = n.1.mode ∧ x.rgrad = n.1.rgrad ∧ List.Forall₂ (IsPos b) n.1.trans x.trans) lb xs →
      List.Forall₂ (fun n m : ANode ℤ (List ℤ) => n.state = m.state ∧ n.mode = m.mode ∧ n.rgrad = m.rgrad ∧ n.initial = m.initial ∧
        List.Forall₂ (fun t u => ∃ p, IsPos a t p ∧ IsPos b u p) n.trans m.trans) (la.map Prod.fst) (lb.map Prod.fst) := by
    intro la lb xs h
    induction h generalizing lb with
    | nil => intro h'; cases h'; exact .nil
    | cons h1 _ ih =>
      intro h'
      cases h' with
      | cons h2 h3 =>
        refine .cons ⟨?_, ?_, ?_, ?_, ?_⟩ (ih _ h3)
        · rw [← h1.2.2.1, h2.2.2.1]
        · rw [← h1.2.2.2.1, h2.2.2.2.1]
        · rw [← h1.2.2.2.2.1, h2.2.2.2.2.1]
        · rw [← h1.2.1, h2.2.1]
        · have e1 := h1.2.2.2.2.2
          have e2 := h2.2.2.2.2.2
          have comb : ∀ (ts us : List ℕ) (ps : List ℤ), List.Forall₂ (IsPos a) ts ps → List.Forall₂ (IsPos b) us ps →
              List.Forall₂ (fun t u => ∃ p, IsPos a t p ∧ IsPos b u p) ts us := by
            intro ts us ps q
            induction q generalizing us with
            | nil => intro q'; cases q'; exact .nil
            | cons q1 _ ih =>
              intro q'
              cases q' with
              | cons q2 q3 => exact .cons ⟨_, q1, q2⟩ (ih _ q3)
          exact comb _ _ _ e1 e2
  have := key a.zipIdx b.zipIdx ls ha hb
  simpa using this

/-- **C60.** The format `tulip` does not tell which nodes are initial: the text is the same whatever the marks are. -/
theorem tulip_no_initial (a : Aut ℤ (List ℤ)) (ev sv : VarList) (g : ANode ℤ (List ℤ) → Bool) :
    tulipDump (a.map fun n => { n with initial := g n }) ev sv = tulipDump a ev sv := by
  have hi : ∀ (l : Aut ℤ (List ℤ)) (c t : ℕ), anodeIndexFrom c (l.map fun n => { n with initial := g n }) t = anodeIndexFrom c l t := by
    intro l
    induction l with
    | nil => intro c t; rfl
    | cons n l ih =>
      intro c t
      simp only [List.map_cons, anodeIndexFrom, ih]
  have hx : indexInt (a.map fun n => { n with initial := g n }) = indexInt a := by
    funext t
    unfold indexInt anodeIndex
    rw [hi]
  have hl : ∀ (r : Aut ℤ (List ℤ)) (k : ℕ),
      tulipLoop (a.map fun n => { n with initial := g n }) ev sv k (r.map fun n => { n with initial := g n }) = tulipLoop a ev sv k r := by
    intro r
    induction r with
    | nil => intro k; rfl
    | cons n r ih =>
      intro k
      simp only [List.map_cons, tulipLoop, ih, tulipNode, hx]
  unfold tulipDump
  rw [hl]

namespace ListEx

def ev : VarList := [("x".toList, -1)]

def sv : VarList := [("y".toList, 3)]

/-- Two nodes; the second has no annotation. -/
def aut : Aut ℤ (List ℤ) := [⟨0, [1, 0], 0, 12, true, [7, 7]⟩, ⟨7, [0, 3], -1, -1, false, [0]⟩]

theorem nodup : (aut.map ANode.id).Nodup := by decide

theorem closed : ∀ n ∈ aut, ∀ t ∈ n.trans, ∃ m ∈ aut, m.id = t := by decide

theorem length : ∀ n ∈ aut, n.state.length = ev.length + sv.length := by decide

/-- The hypotheses of `txt_dump_says` hold. -/
example : ∃ s ls, listDump aut 2 = some s ∧ readTxt s = some ls ∧ TxtSays aut ls := txt_dump_says nodup closed length

/-- Those of `tulip_dump_says` hold. -/
example : ∃ s d, tulipDump aut ev sv = some s ∧ readTulip s = some d ∧ TulipSays ev sv aut d :=
  tulip_dump_says nodup closed length (by decide) (by decide)

/-- What is written and read. -/
example : listDump aut 2 = some ("   0 (init) : 1,0 -  0 - 12 - [ 1 1]\n" ++ "   1 : 0,3 - -1 - -1 - [ 0]\n").toList ∧
    (listDump aut 2).bind readTxt = some [⟨0, true, [1, 0], 0, 12, [1, 1]⟩, ⟨1, false, [0, 3], -1, -1, [0]⟩] ∧
    (tulipDump aut ev sv).bind readTulip = some ⟨ev, sv,
      [⟨0, [0, 12], [1, 1], [("x".toList, 1), ("y".toList, 0)]⟩, ⟨1, [], [0], [("x".toList, 0), ("y".toList, 3)]⟩]⟩ := by
  decide +kernel

/-- `tulip_no_initial` applies to automata with different initial nodes. -/
example : tulipDump (aut.map fun n => { n with initial := !n.initial }) ev sv = tulipDump aut ev sv :=
  tulip_no_initial aut ev sv _

/-- The readers reject damaged texts. -/
example : readTxt "   0 : 1,0 -  0 - 12 - [ 1 1\n".toList = none ∧ readTxt "   0 : 1,0 -  0 - 12 - [ 1 1]".toList = none ∧
    (readXml "<a><b></a></b>".toList).isSome = false ∧ (readXml "<a x=\"1\" x=\"2\"/>".toList).isSome = false ∧
    (readXml "<a x=\"<\"/>".toList).isSome = false ∧ (readXml "<a x=\"1\"><b/></a>".toList).isSome = true := by
  decide +kernel

end ListEx

end Gr1c
