import Verif.DotLemmas
import Mathlib.Data.List.Perm.Basic

/-!
# C59: the output in DOT is a drawing of the strategy
-/

namespace Gr1c

theorem toks_header (s : List Char) :
    dotToks .start ("/* created using gr1c, version ".toList ++ (gr1cVersion ++
      (" */\ndigraph A {\n    \"\" [shape=none]\n".toList ++ s))) =
    .word "digraph".toList :: .word "A".toList :: .lbrace :: .quoted [] :: .lbrack :: .word "shape".toList :: .eq ::
      .word "none".toList :: .rbrack :: dotToks .start s := by
  have e1 : ∀ y, dotToks .start ("/* created using gr1c, version ".toList ++ y) = dotToks .comment y := fun _ => rfl
  have e2 : ∀ y, dotToks .comment (gr1cVersion ++ y) = dotToks .comment y := fun _ => rfl
  have e3 : ∀ y, dotToks .comment (" */\ndigraph A {\n".toList ++ y) =
      .word "digraph".toList :: .word "A".toList :: .lbrace :: dotToks .start y := fun _ => rfl
  have e4 : ∀ y, dotToks .start ("    \"\" [shape=none]\n".toList ++ y) =
      .quoted [] :: .lbrack :: .word "shape".toList :: .eq :: .word "none".toList :: .rbrack :: dotToks .start y := fun _ => rfl
  have e5 : " */\ndigraph A {\n    \"\" [shape=none]\n".toList =
      " */\ndigraph A {\n".toList ++ "    \"\" [shape=none]\n".toList := by decide
  rw [e1, e2, e5, List.append_assoc, e3, e4]

/-- The first statement that is written. -/
def pointStmt : DStmt := .node [] [("shape".toList, "none".toList)]

theorem readStmts_point (n : ℕ) (r : List DTok) :
    readStmts (n + 1) (.quoted [] :: .lbrack :: .word "shape".toList :: .eq :: .word "none".toList :: .rbrack :: r) =
      (readStmts n r).map (pointStmt :: ·) := by
  have e1 : (DTok.word "shape".toList).name? = some "shape".toList := by decide
  have e2 : (DTok.word "none".toList).name? = some "none".toList := by decide
  have e3 : readAttrs (.lbrack :: .word "shape".toList :: .eq :: .word "none".toList :: .rbrack :: r) =
      some ([("shape".toList, "none".toList)], r) := by
    simp only [readAttrs]
    rw [e1, e2]
  have nq : ∀ w, (DTok.quoted w).name? = some w := fun _ => rfl
  simp only [readStmts, nq, e3]
  simp [pointStmt]

theorem simple_nodes (f : DotFlags) (ev sv : VarList) (l : Aut ℤ (List ℤ)) (r : List (ANode ℤ (List ℤ) × ℕ)) :
    ∀ s ∈ r.flatMap (nodeStmts f ev sv l), SimpleStmt s := by
  intro s hs
  obtain ⟨n, -, hs⟩ := List.mem_flatMap.1 hs
  unfold nodeStmts at hs
  rcases List.mem_cons.1 hs with rfl | hs
  · rfl
  · rcases List.mem_append.1 hs with hs | hs
    · split at hs
      · rw [List.mem_singleton.1 hs]; exact Or.inl rfl
      · cases hs
    · unfold edgeStmts at hs
      obtain ⟨t, -, hs⟩ := List.mem_flatMap.1 hs
      obtain ⟨m, -, rfl⟩ := List.mem_map.1 hs
      show edgeAttrs f.binary f.edgeInput ev.names m.1 = [] ∨
        ∃ v, edgeAttrs f.binary f.edgeInput ev.names m.1 = [("label".toList, v)]
      unfold edgeAttrs
      split
      · exact Or.inr ⟨_, rfl⟩
      · exact Or.inl rfl

theorem toks_length (ss : List DStmt) : ss.length ≤ (ss.flatMap stmtToks).length := by
  induction ss with
  | nil => simp
  | cons s ss ih =>
    have : 1 ≤ (stmtToks s).length := by cases s <;> simp [stmtToks]
    rw [List.flatMap_cons, List.length_append, List.length_cons]
    omega

theorem draws_stmts {f : DotFlags} {ev sv : VarList} {l : Aut ℤ (List ℤ)} (h : DotOk ev sv l) :
    Draws f.binary f.edgeInput f.attrib ev.names sv.names l (pointStmt :: l.zipIdx.flatMap (nodeStmts f ev sv l)) := by
  have hz : ∀ n ∈ l.zipIdx, l[n.2]? = some n.1 := by
    intro n hn
    have := List.mem_zipIdx_iff_getElem?.1 hn
    exact this
  constructor
  · intro x
    constructor
    · rintro ⟨s, hs, hx⟩
      rcases List.mem_cons.1 hs with rfl | hs
      · left; simpa [pointStmt, DStmt.names] using hx
      · obtain ⟨n, hn, hs⟩ := List.mem_flatMap.1 hs
        unfold nodeStmts at hs
        rcases List.mem_cons.1 hs with rfl | hs
        · right
          exact ⟨n.2, n.1, hz n hn, by simpa [DStmt.names] using hx⟩
        · rcases List.mem_append.1 hs with hs | hs
          · split at hs
            · rw [List.mem_singleton.1 hs] at hx
              simp only [DStmt.names, List.mem_cons, List.not_mem_nil, or_false] at hx
              rcases hx with hx | hx
              · exact Or.inl hx
              · exact Or.inr ⟨n.2, n.1, hz n hn, hx⟩
            · cases hs
          · obtain ⟨t, -, hs⟩ := List.mem_flatMap.1 hs
            obtain ⟨m, hm, rfl⟩ := List.mem_map.1 hs
            simp only [DStmt.names, List.mem_cons, List.not_mem_nil, or_false] at hx
            right
            rcases hx with hx | hx
            · exact ⟨n.2, n.1, hz n hn, hx⟩
            · exact ⟨m.2, m.1, hz m (List.mem_of_mem_filter hm), hx⟩
    · rintro (rfl | ⟨k, n, hk, rfl⟩)
      · exact ⟨pointStmt, List.mem_cons_self .., by simp [pointStmt, DStmt.names]⟩
      · refine ⟨.node (nodeLabel f.binary f.edgeInput f.attrib ev.names sv.names k n) [],
          List.mem_cons_of_mem _ (List.mem_flatMap.2 ⟨(n, k), List.mem_zipIdx_iff_getElem?.2 hk, ?_⟩), ?_⟩
        · unfold nodeStmts; exact List.mem_cons_self ..
        · simp [DStmt.names]
  · have e : (pointStmt :: l.zipIdx.flatMap (nodeStmts f ev sv l)).filterMap DStmt.edge? =
        l.zipIdx.flatMap fun n => (if n.1.initial then
            [(([], nodeLabel f.binary f.edgeInput f.attrib ev.names sv.names n.2 n.1, []) :
              List Char × List Char × List (List Char × List Char))] else []) ++
          n.1.trans.flatMap fun t => (l.zipIdx.filter fun m => m.1.id = t).map fun m =>
            (nodeLabel f.binary f.edgeInput f.attrib ev.names sv.names n.2 n.1,
              nodeLabel f.binary f.edgeInput f.attrib ev.names sv.names m.2 m.1, edgeAttrs f.binary f.edgeInput ev.names m.1) := by
      show (l.zipIdx.flatMap (nodeStmts f ev sv l)).filterMap DStmt.edge? = _
      rw [List.filterMap_flatMap]
      congr 1
      funext n
      unfold nodeStmts edgeStmts
      rw [List.filterMap_cons_none rfl, List.filterMap_append, List.filterMap_flatMap]
      congr 1
      · split <;> rfl
      · congr 1
        funext t
        rw [List.filterMap_map]
        simp [Function.comp_def, DStmt.edge?]
    rw [e]
    refine (List.flatMap_append_perm _ _ _).symm.trans (List.Perm.append_right _ (List.Perm.of_eq ?_))
    induction l.zipIdx with
    | nil => rfl
    | cons n r ih =>
      rw [List.flatMap_cons, List.filter_cons, ih]
      split <;> rfl

/-- **C59.** For every choice of flags, if names of variables are free of quotes, backslashes and control characters,
edges lead to nodes of the automaton, and no text of a node reaches 4094 characters, `dot_aut_dump` returns 0 and
writes a graph in DOT that draws the automaton: its nodes, with their numbers, annotations and values, its edges, with
their multiplicities, and its initial nodes. -/
theorem dot_dump_draws {f : DotFlags} {ev sv : VarList} {a : Aut ℤ (List ℤ)} (h : DotOk ev sv a)
    (hs : ∀ k n, a[k]? = some n → (nodeLabel f.binary f.edgeInput f.attrib ev.names sv.names k n).length < 4094) :
    ∃ s g, dotDump f a ev sv = .done 0 s ∧ readDot s = some g ∧
      Draws f.binary f.edgeInput f.attrib ev.names sv.names a g := by
  obtain ⟨c, s, e1, e2, -⟩ := dotLoop_toks (f := f) h a 0 fun n hn => hn
  obtain ⟨rfl, e3⟩ := e2 fun n hn => hs n.2 n.1 (List.mem_zipIdx_iff_getElem?.1 hn)
  refine ⟨_, _, by rw [dotDump, e1], ?_, draws_stmts h⟩
  unfold readDot
  rw [toks_header, e3]
  simp only
  rw [if_pos (by decide), List.length_cons, readStmts_point, readStmts_stmts _ _ (simple_nodes f ev sv a _)]
  · rfl
  · have := toks_length (a.zipIdx.flatMap (nodeStmts f ev sv a))
    simp only [List.length_cons, List.length_append]
    omega

/-- **C59.** If some text of a node has 4094 characters or more, -1 is returned, and what was written until then is no
graph. The callers ignore the value that is returned. -/
theorem dot_dump_long {f : DotFlags} {ev sv : VarList} {a : Aut ℤ (List ℤ)} (h : DotOk ev sv a)
    (hs : ∃ k n, a[k]? = some n ∧ 4094 ≤ (nodeLabel f.binary f.edgeInput f.attrib ev.names sv.names k n).length) :
    ∃ s, dotDump f a ev sv = .done (-1) s ∧ readDot s = none := by
  obtain ⟨c, s, e1, -, e2⟩ := dotLoop_toks (f := f) h a 0 fun n hn => hn
  obtain ⟨k, n, hk, hn⟩ := hs
  obtain ⟨rfl, ss, e3⟩ := e2 fun hs => by
    have := hs (n, k) (List.mem_zipIdx_iff_getElem?.2 hk)
    simp only at this
    omega
  refine ⟨_, by rw [dotDump, e1], ?_⟩
  unfold readDot
  rw [toks_header, e3]
  simp only
  rw [if_pos (by decide)]
  cases hr : readStmts _ _ with
  | none => rfl
  | some g =>
    exfalso
    have hb := readStmts_rbrace _ _ _ hr
    have : .rbrace ∉ ss.flatMap stmtToks := by
      intro hb
      obtain ⟨s, -, hb⟩ := List.mem_flatMap.1 hb
      cases s with
      | node x as => simp [stmtToks] at hb
      | edge x y as =>
        simp only [stmtToks, List.mem_cons, List.mem_flatMap] at hb
        rcases hb with hb | hb | hb | ⟨a, -, hb⟩
        · cases hb
        · cases hb
        · cases hb
        · simp at hb
    simp [this] at hb

/-! ## Texts of nodes tell nodes apart -/

theorem printInt_split {v v' : ℤ} {r r' : List Char} (hr : ∀ c, r.head? = some c → isDig c = false ∧ c ≠ '-')
    (hr' : ∀ c, r'.head? = some c → isDig c = false ∧ c ≠ '-') (e : printInt v ++ r = printInt v' ++ r') : v = v' ∧ r = r' := by
  have hp : ∀ u : ℤ, ∀ c ∈ printInt u, (isDig c || c == '-') = true := by
    intro u c hc
    rcases printInt_chars u c hc with h | rfl
    · simp [h]
    · decide
  have hq : ∀ {s : List Char}, (∀ c, s.head? = some c → isDig c = false ∧ c ≠ '-') →
      ∀ c, s.head? = some c → (isDig c || c == '-') = false := by
    intro s h c hc
    simp [(h c hc).1, (h c hc).2]
  have e1 := maximal_split (hp v) (hp v') (hq hr) (hq hr') e
  refine ⟨intText_unique (intText_printInt v) (e1 ▸ intText_printInt v'), ?_⟩
  rw [e1] at e
  exact List.append_cancel_left e

theorem tail_vals : ∀ (names : List (List Char)) (st st' : List ℤ), st.length = names.length → st'.length = names.length →
    (names.zip st).flatMap (fun v => ", ".toList ++ (v.1 ++ '=' :: printInt v.2)) =
      (names.zip st').flatMap (fun v => ", ".toList ++ (v.1 ++ '=' :: printInt v.2)) → st = st' := by
  intro names
  induction names with
  | nil =>
    intro st st' h h' _
    rw [List.length_nil, List.length_eq_zero_iff] at h h'
    rw [h, h']
  | cons x names ih =>
    intro st st' h h' e
    cases st with
    | nil => simp at h
    | cons v st =>
      cases st' with
      | nil => simp at h'
      | cons v' st' =>
        simp only [List.zip_cons_cons, List.flatMap_cons, List.append_assoc, List.cons_append] at e
        have e := List.append_cancel_left (List.append_cancel_left e)
        rw [List.cons.injEq] at e
        have hc : ∀ st : List ℤ, ∀ c, ((names.zip st).flatMap (fun v => ", ".toList ++ (v.1 ++ '=' :: printInt v.2))).head? = some c →
            isDig c = false ∧ c ≠ '-' := by
          intro st c hc
          cases hz : names.zip st with
          | nil => rw [hz] at hc; cases hc
          | cons y ys =>
            rw [hz] at hc
            have : c = ',' := by
              have e : some ',' = some c := hc
              cases e; rfl
            rw [this]
            decide
        obtain ⟨rfl, e2⟩ := printInt_split (hc st) (hc st') e.2
        rw [ih st st' (by simpa using h) (by simpa using h') e2]

theorem inter_cons (sep x : List Char) (l : List (List Char)) : sep.intercalate (x :: l) = x ++ l.flatMap (sep ++ ·) := by
  induction l generalizing x with
  | nil => simp [List.intercalate]
  | cons y l ih =>
    rw [List.intercalate, List.intersperse_cons₂, List.flatten_cons, List.flatten_cons, ← List.intercalate, ih]
    simp

/-- **C59.** Texts of nodes with different numbers are different, and the text of a node tells its annotation and its
values. -/
theorem nodeLabel_tells {bin input attrib : Bool} {en sn : List (List Char)} {k k' : ℕ} {n n' : ANode ℤ (List ℤ)}
    (e : nodeLabel bin input attrib en sn k n = nodeLabel bin input attrib en sn k' n') :
    k = k' ∧ (attrib = true → n.mode = n'.mode ∧ n.rgrad = n'.rgrad) ∧
    (attrib = true → bin = false → input = false → n.state.length = en.length + sn.length →
      n'.state.length = en.length + sn.length → n.state = n'.state) := by
  unfold nodeLabel at e
  simp only [List.append_assoc] at e
  have hsemi : ∀ (r : List Char) c, (";\\n".toList ++ r).head? = some c → isDig c = false := by
    intro r c hc
    have e : some ';' = some c := hc
    cases e
    decide
  have e1 := maximal_split (decimal_digits k) (decimal_digits k') (hsemi _) (hsemi _) e
  rw [e1] at e
  have e := List.append_cancel_left (List.append_cancel_left e)
  have hd : ∀ k : ℕ, printInt (k : ℤ) = decimal k := by intro k; simp [printInt]
  have hk : k = k' := by
    have := intText_unique (intText_printInt (k : ℤ)) (by rw [hd, e1, ← hd]; exact intText_printInt (k' : ℤ))
    exact_mod_cast this
  refine ⟨hk, ?_⟩
  cases attrib with
  | false => exact ⟨fun h => absurd h (by decide), fun h => absurd h (by decide)⟩
  | true =>
    simp only [if_true, List.append_assoc] at e
    have e := List.append_cancel_left e
    have hcom : ∀ (r : List Char) c, (", ".toList ++ r).head? = some c → isDig c = false ∧ c ≠ '-' := by
      intro r c hc
      have e : some ',' = some c := hc
      cases e
      decide
    obtain ⟨e2, e⟩ := printInt_split (hcom _) (hcom _) e
    have e := List.append_cancel_left e
    have hpar : ∀ (r : List Char) c, (")\\n".toList ++ r).head? = some c → isDig c = false ∧ c ≠ '-' := by
      intro r c hc
      have e : some ')' = some c := hc
      cases e
      decide
    obtain ⟨e3, e⟩ := printInt_split (hpar _) (hpar _) e
    have e := List.append_cancel_left e
    refine ⟨fun _ => ⟨e2, e3⟩, ?_⟩
    rintro - rfl rfl h h'
    simp only [Bool.false_eq_true, if_false, shownVals] at e
    rw [← List.length_append] at h h'
    generalize en ++ sn = names at e h h'
    cases names with
    | nil =>
      rw [List.length_nil, List.length_eq_zero_iff] at h h'
      rw [h, h']
    | cons x names =>
      cases hs : n.state with
      | nil => rw [hs] at h; simp at h
      | cons v st =>
        cases hs' : n'.state with
        | nil => rw [hs'] at h'; simp at h'
        | cons v' st' =>
          rw [hs] at e h
          rw [hs'] at e h'
          apply tail_vals (x :: names) (v :: st) (v' :: st') h h'
          simp only [List.zip_cons_cons, List.map_cons, braced, List.cons_ne_nil, reduceCtorEq, if_false, inter_cons,
            List.flatMap_map] at e
          simp only [List.zip_cons_cons, List.flatMap_cons]
          have e := congrArg (", ".toList ++ ·) e
          simpa only [List.append_assoc] using e

namespace DotEx

/-- Two variables, one of them with three values. -/
def ev : VarList := [("x".toList, -1)]
def sv : VarList := [("y".toList, 2)]

def aut : Aut ℤ (List ℤ) := [⟨5, [1, 2], 0, 1, true, [7, 7]⟩, ⟨7, [0, 0], 1, -1, false, [5]⟩]

theorem ok : DotOk ev sv aut where
  nodup := by decide
  closed := by decide
  length := by decide
  plain := by decide

example : dotDump ⟨false, false, true⟩ aut ev sv = .done 0
    ("/* created using gr1c, version 0.13.4 */\ndigraph A {\n    \"\" [shape=none]\n" ++
     "    \"0;\\n(0, 1)\\nx=1, y=2\"\n    \"\" -> \"0;\\n(0, 1)\\nx=1, y=2\"\n" ++
     "    \"0;\\n(0, 1)\\nx=1, y=2\" -> \"1;\\n(1, -1)\\nx=0, y=0\"\n" ++
     "    \"0;\\n(0, 1)\\nx=1, y=2\" -> \"1;\\n(1, -1)\\nx=0, y=0\"\n" ++
     "    \"1;\\n(1, -1)\\nx=0, y=0\"\n    \"1;\\n(1, -1)\\nx=0, y=0\" -> \"0;\\n(0, 1)\\nx=1, y=2\"\n}\n").toList := by
  decide +kernel

/-- The hypotheses of `dot_dump_draws` hold for these flags. -/
example : ∀ f ∈ [DotFlags.mk false false true, ⟨true, false, true⟩, ⟨true, true, true⟩],
    ∃ s g, dotDump f aut ev sv = .done 0 s ∧ readDot s = some g ∧
      Draws f.binary f.edgeInput f.attrib ev.names sv.names aut g := by
  intro f hf
  refine dot_dump_draws ok ?_
  intro k n hk
  have hk' : k < 2 := by
    by_contra h
    rw [List.getElem?_eq_none (by simp [aut]; omega)] at hk
    cases hk
  simp only [List.mem_cons, List.not_mem_nil, or_false] at hf
  rcases hf with rfl | rfl | rfl <;> rcases (show k = 0 ∨ k = 1 by omega) with rfl | rfl <;> cases hk <;> decide

/-- Values of the environment on the edges, names of variables that are not zero. -/
example : dotDump ⟨true, true, false⟩ aut ev sv = .done 0
    ("/* created using gr1c, version 0.13.4 */\ndigraph A {\n    \"\" [shape=none]\n" ++
     "    \"0;\\ny\"\n    \"\" -> \"0;\\ny\"\n" ++
     "    \"0;\\ny\" -> \"1;\\n{}\"[label=\"{}\"]\n    \"0;\\ny\" -> \"1;\\n{}\"[label=\"{}\"]\n" ++
     "    \"1;\\n{}\"\n    \"1;\\n{}\" -> \"0;\\ny\"[label=\"x\"]\n}\n").toList := by
  decide +kernel

/-- A name with 4100 characters: the hypothesis of `dot_dump_long` holds. -/
example : ∃ s, dotDump ⟨true, false, true⟩ [⟨0, [1], 0, 0, true, [0]⟩] [] [(List.replicate 4100 'a', -1)] = .done (-1) s ∧
    readDot s = none := by
  have key : ∀ w : List Char, 4094 ≤ w.length →
      4094 ≤ (nodeLabel true false true (VarList.names []) (VarList.names [(w, -1)]) 0 ⟨0, [1], 0, 0, true, [0]⟩).length := by
    intro w hw
    simp [nodeLabel, shownVals, braced, List.intercalate]
    omega
  refine dot_dump_long ⟨by decide, by decide, by decide, ?_⟩ ⟨0, _, rfl, key _ (by rw [List.length_replicate]; omega)⟩
  intro x hx c hc
  have hx : x = List.replicate 4100 'a' := List.mem_singleton.1 hx
  rw [hx] at hc
  rw [List.eq_of_mem_replicate hc]
  decide

end DotEx

end Gr1c
