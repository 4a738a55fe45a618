import Verif.TreeDot
import Verif.DotProps

/-!
# C69: `tree_dot_dump` draws the parse tree
-/

namespace Gr1c

/-! ## Specification -/

/-- The subtree at a path; `false` is left. -/
def subAt : PTree → List Bool → PTree
  | t, [] => t
  | .nil, _ => .nil
  | .node _ _ _ l _, false :: p => subAt l p
  | .node _ _ _ _ r, true :: p => subAt r p

/-- Symbols of the operators, `/repo/doc/spc_format.md`. -/
def opSymbols : List (PTy × String) :=
  [(.neg, "!"), (.and, "&"), (.or, "|"), (.imp, "->"), (.equiv, "<->"), (.eq, "="), (.noteq, "!="), (.lt, "<"), (.gt, ">"),
   (.le, "<="), (.ge, ">="), (.empty, "(empty)")]

/-- What a node of the drawing shows: names (with a prime for the next value), numbers, symbols. -/
inductive Shows : PTree → List Char → Prop
  | var (n : Name) (v : ℤ) (l r : PTree) : Shows (.node .var (some n) v l r) n
  | next (n : Name) (v : ℤ) (l r : PTree) : Shows (.node .next (some n) v l r) (n ++ ['\''])
  | const (nm : Option Name) (v : ℤ) (l r : PTree) : Shows (.node .const nm v l r) (printInt v)
  | op (ty : PTy) (nm : Option Name) (v : ℤ) (l r : PTree) (s : String) (h : (ty, s) ∈ opSymbols) : Shows (.node ty nm v l r) s.toList

/-- Variables have names without quotes, backslashes and control characters. -/
def NamedTree (t : PTree) : Prop :=
  ∀ p ty nm v l r, subAt t p = .node ty nm v l r → ty = .var ∨ ty = .next → ∃ n, nm = some n ∧ ∀ c ∈ n, JPlain c

/-- A drawing of a tree. There is a name for every node, which tells its address and what it shows; the names are the nodes of the graph;
the edges, each once and without attributes, lead from nodes to their children, the left one first. -/
structure DrawsTree (addr : List Bool → ℕ) (t : PTree) (g : List DStmt) (name : List Bool → List Char) : Prop where
  tells : ∀ p, subAt t p ≠ .nil → ∃ x, Shows (subAt t p) x ∧ name p = decimal (addr p) ++ (";\\n".toList ++ x)
  nodes : ∀ x, (∃ s ∈ g, x ∈ s.names) ↔ ∃ p, subAt t p ≠ .nil ∧ x = name p
  edges : ∀ e, e ∈ g.filterMap DStmt.edge? ↔
    ∃ p b, subAt t (p ++ [b]) ≠ .nil ∧ e = (name p, name (p ++ [b]), [])
  once : (g.filterMap DStmt.edge?).Nodup
  order : ∀ p, subAt t (p ++ [false]) ≠ .nil → subAt t (p ++ [true]) ≠ .nil →
    [(name p, name (p ++ [false]), []), (name p, name (p ++ [true]), [])].Sublist (g.filterMap DStmt.edge?)

/-! ## Proofs -/

theorem subAt_nil (p : List Bool) : subAt .nil p = .nil := by cases p <;> rfl

theorem subAt_append (t : PTree) (p q : List Bool) : subAt t (p ++ q) = subAt (subAt t p) q := by
  induction p generalizing t with
  | nil => cases t <;> rfl
  | cons b p ih =>
    cases t with
    | nil => simp [subAt_nil]
    | node ty nm v l r => cases b <;> exact ih _

/-- Pairs of paths for the edges below a node. -/
def pathEdges : List Bool → PTree → List (List Bool × List Bool)
  | _, .nil => []
  | p, .node _ _ _ l r =>
    pathEdges (p ++ [false]) l ++
      ((if l = .nil then [] else [(p, p ++ [false])]) ++ ((if r = .nil then [] else [(p, p ++ [true])]) ++ pathEdges (p ++ [true]) r))

/-- Statements for the nodes below a node. -/
def treeStmts (addr : List Bool → ℕ) (T : PTree) : List Bool → PTree → List DStmt
  | _, .nil => []
  | p, .node _ _ _ l r =>
    treeStmts addr T (p ++ [false]) l ++ (.node (treeNodeText addr p (subAt T p)) [] ::
      ((if l = .nil then [] else [.edge (treeNodeText addr p (subAt T p)) (treeNodeText addr (p ++ [false]) (subAt T (p ++ [false]))) []]) ++
      ((if r = .nil then [] else [.edge (treeNodeText addr p (subAt T p)) (treeNodeText addr (p ++ [true]) (subAt T (p ++ [true]))) []]) ++
        treeStmts addr T (p ++ [true]) r)))

theorem printNode_shows {t : PTree} (h0 : t ≠ .nil)
    (h : ∀ ty nm v l r, t = .node ty nm v l r → ty = .var ∨ ty = .next → ∃ n, nm = some n ∧ ∀ c ∈ n, JPlain c) :
    Shows t (printNode t) := by
  cases t with
  | nil => exact absurd rfl h0
  | node ty nm v l r =>
    cases ty with
    | var => obtain ⟨n, rfl, -⟩ := h _ _ _ _ _ rfl (Or.inl rfl); exact .var n v l r
    | next => obtain ⟨n, rfl, -⟩ := h _ _ _ _ _ rfl (Or.inr rfl); exact .next n v l r
    | const => exact .const nm v l r
    | empty => exact .op _ nm v l r "(empty)" (by decide)
    | neg => exact .op _ nm v l r "!" (by decide)
    | and => exact .op _ nm v l r "&" (by decide)
    | or => exact .op _ nm v l r "|" (by decide)
    | imp => exact .op _ nm v l r "->" (by decide)
    | eq => exact .op _ nm v l r "=" (by decide)
    | equiv => exact .op _ nm v l r "<->" (by decide)
    | lt => exact .op _ nm v l r "<" (by decide)
    | gt => exact .op _ nm v l r ">" (by decide)
    | le => exact .op _ nm v l r "<=" (by decide)
    | ge => exact .op _ nm v l r ">=" (by decide)
    | noteq => exact .op _ nm v l r "!=" (by decide)

theorem printNode_safe {t : PTree}
    (h : ∀ ty nm v l r, t = .node ty nm v l r → ty = .var ∨ ty = .next → ∃ n, nm = some n ∧ ∀ c ∈ n, JPlain c) :
    QSafe (printNode t) := by
  cases t with
  | nil => exact QSafe.nil
  | node ty nm v l r =>
    cases ty with
    | var => obtain ⟨n, rfl, hn⟩ := h _ _ _ _ _ rfl (Or.inl rfl); exact QSafe.name hn
    | next => obtain ⟨n, rfl, hn⟩ := h _ _ _ _ _ rfl (Or.inr rfl); exact (QSafe.name hn).append (QSafe.plain (by decide))
    | const => exact QSafe.dig (printInt_chars v)
    | _ => exact QSafe.plain (by simp [printNode])

theorem treeNodeText_safe (addr : List Bool → ℕ) {T : PTree} (hT : NamedTree T) (p : List Bool) :
    QSafe (treeNodeText addr p (subAt T p)) :=
  (QSafe.dig (printInt_chars _)).append (((QSafe.plain (t := [';']) (by decide)).append QSafe.newline).append
    (printNode_safe fun ty nm v l r e ho => hT p ty nm v l r e ho))

theorem subAt_left {T : PTree} {p : List Bool} {ty : PTy} {nm : Option Name} {v : ℤ} {l r : PTree} (h : subAt T p = .node ty nm v l r) :
    subAt T (p ++ [false]) = l ∧ subAt T (p ++ [true]) = r := by
  constructor
  · rw [subAt_append, h]; cases l <;> rfl
  · rw [subAt_append, h]; cases r <;> rfl

theorem treeEdge_toks (addr : List Bool → ℕ) {T : PTree} (hT : NamedTree T) (p : List Bool) (b : Bool) (c : PTree)
    (hc : subAt T (p ++ [b]) = c) (y : List Char) :
    dotToks .start (treeEdgeText addr p (subAt T p) b c ++ y) =
      (if c = .nil then [] else
        [DStmt.edge (treeNodeText addr p (subAt T p)) (treeNodeText addr (p ++ [b]) (subAt T (p ++ [b]))) []]).flatMap stmtToks ++
      dotToks .start y := by
  cases c with
  | nil => rfl
  | node ty nm v l r =>
    have h1 := treeNodeText_safe addr hT p
    have h2 := treeNodeText_safe addr hT (p ++ [b])
    rw [hc] at h2 ⊢
    have e : treeEdgeText addr p (subAt T p) b (.node ty nm v l r) ++ y = '"' :: (treeNodeText addr p (subAt T p) ++ '"' ::
        (" -> ".toList ++ ('"' :: (treeNodeText addr (p ++ [b]) (.node ty nm v l r) ++ '"' :: ('\n' :: y))))) := by
      simp [treeEdgeText]
    rw [e, toks_quoted h1]
    have e2 : ∀ z, dotToks .start (" -> ".toList ++ z) = .arrow :: dotToks .start z := fun _ => rfl
    have e3 : ∀ z, dotToks .start ('\n' :: z) = dotToks .start z := fun _ => rfl
    rw [e2, toks_quoted h2, e3]
    simp [stmtToks]

theorem treeDot_toks (addr : List Bool → ℕ) {T : PTree} (hT : NamedTree T) (t : PTree) : ∀ (p : List Bool), subAt T p = t → ∀ y,
    dotToks .start (treeDotNodes addr p t ++ y) = (treeStmts addr T p t).flatMap stmtToks ++ dotToks .start y := by
  induction t with
  | nil => intro p _ y; rfl
  | node ty nm v l r ihl ihr =>
    intro p hp y
    obtain ⟨hl, hr⟩ := subAt_left hp
    have h1 := treeNodeText_safe addr hT p
    have e3 : ∀ z, dotToks .start ('\n' :: z) = dotToks .start z := fun _ => rfl
    rw [hp] at h1
    have e : treeDotNodes addr p (.node ty nm v l r) ++ y = treeDotNodes addr (p ++ [false]) l ++
        ('"' :: (treeNodeText addr p (.node ty nm v l r) ++ '"' :: ('\n' ::
          (treeEdgeText addr p (.node ty nm v l r) false l ++ (treeEdgeText addr p (.node ty nm v l r) true r ++
            (treeDotNodes addr (p ++ [true]) r ++ y)))))) := by
      simp [treeDotNodes]
    have k1 := treeEdge_toks addr hT p false l hl
    have k2 := treeEdge_toks addr hT p true r hr
    rw [hp] at k1 k2
    rw [e, ihl _ hl, toks_quoted h1, e3, k1, k2, ihr _ hr]
    simp only [treeStmts, hp, List.flatMap_append, List.flatMap_cons, List.append_assoc, stmtToks, List.cons_append, List.nil_append]

theorem treeStmts_simple (addr : List Bool → ℕ) (T t : PTree) : ∀ p, ∀ s ∈ treeStmts addr T p t, SimpleStmt s := by
  induction t with
  | nil => intro p s hs; cases hs
  | node ty nm v l r ihl ihr =>
    intro p s hs
    simp only [treeStmts, List.mem_append, List.mem_cons] at hs
    rcases hs with hs | rfl | hs | hs | hs
    · exact ihl _ s hs
    · rfl
    · split at hs
      · cases hs
      · rw [List.mem_singleton] at hs; subst hs; exact Or.inl rfl
    · split at hs
      · cases hs
      · rw [List.mem_singleton] at hs; subst hs; exact Or.inl rfl
    · exact ihr _ s hs

/-- The edges of the statements. -/
theorem treeStmts_edges (addr : List Bool → ℕ) (T t : PTree) : ∀ p, (treeStmts addr T p t).filterMap DStmt.edge? =
    (pathEdges p t).map fun e => (treeNodeText addr e.1 (subAt T e.1), treeNodeText addr e.2 (subAt T e.2), []) := by
  induction t with
  | nil => intro p; rfl
  | node ty nm v l r ihl ihr =>
    intro p
    simp only [treeStmts, pathEdges, List.filterMap_append, List.map_append, ihl]
    rw [List.filterMap_cons_none rfl, List.filterMap_append, List.filterMap_append, ihr]
    by_cases h1 : l = .nil <;> by_cases h2 : r = .nil <;> simp [h1, h2, DStmt.edge?]

theorem mem_pathEdges (t : PTree) : ∀ (p : List Bool) (e : List Bool × List Bool),
    e ∈ pathEdges p t ↔ ∃ q b, subAt t (q ++ [b]) ≠ .nil ∧ e = (p ++ q, p ++ (q ++ [b])) := by
  induction t with
  | nil => intro p e; simp [pathEdges, subAt_nil]
  | node ty nm v l r ihl ihr =>
    intro p e
    simp only [pathEdges, List.mem_append, ihl, ihr]
    constructor
    · rintro (⟨q, b, h, rfl⟩ | h | h | ⟨q, b, h, rfl⟩)
      · exact ⟨false :: q, b, h, by simp⟩
      · split at h
        · cases h
        · rename_i hn
          rw [List.mem_singleton] at h
          exact ⟨[], false, by simpa [subAt] using hn, by simp [h]⟩
      · split at h
        · cases h
        · rename_i hn
          rw [List.mem_singleton] at h
          exact ⟨[], true, by simpa [subAt] using hn, by simp [h]⟩
      · exact ⟨true :: q, b, h, by simp⟩
    · rintro ⟨q, b, h, rfl⟩
      cases q with
      | nil =>
        cases b
        · have hn : l ≠ .nil := by simpa [subAt] using h
          exact Or.inr (Or.inl (by simp [hn]))
        · have hn : r ≠ .nil := by simpa [subAt] using h
          exact Or.inr (Or.inr (Or.inl (by simp [hn])))
      | cons c q =>
        cases c
        · exact Or.inl ⟨q, b, h, by simp⟩
        · exact Or.inr (Or.inr (Or.inr ⟨q, b, h, by simp⟩))

theorem pathEdges_nodup (t : PTree) : ∀ p, (pathEdges p t).Nodup := by
  induction t with
  | nil => intro p; exact List.nodup_nil
  | node ty nm v l r ihl ihr =>
    intro p
    have own : ∀ (c : PTree) (b : Bool), (if c = .nil then ([] : List (List Bool × List Bool)) else [(p, p ++ [b])]).Nodup := by
      intro c b; split <;> simp
    have mown : ∀ (c : PTree) (b : Bool) e, e ∈ (if c = .nil then ([] : List (List Bool × List Bool)) else [(p, p ++ [b])]) →
        e = (p, p ++ [b]) := by
      intro c b e he; split at he
      · cases he
      · exact List.mem_singleton.1 he
    simp only [pathEdges]
    refine List.nodup_append'.2 ⟨ihl _, List.nodup_append'.2 ⟨own _ _, List.nodup_append'.2 ⟨own _ _, ihr _, ?_⟩, ?_⟩, ?_⟩
    · intro e h1 h2
      obtain ⟨q, b, -, h⟩ := (mem_pathEdges r _ e).1 h2
      have := mown _ _ _ h1
      rw [this] at h
      have := congrArg (List.length ∘ Prod.fst) h
      simp at this
    · intro e h1 h2
      have := mown _ _ _ h1
      subst this
      rcases List.mem_append.1 h2 with h2 | h2
      · have := mown _ _ _ h2
        simp at this
      · obtain ⟨q, b, -, h⟩ := (mem_pathEdges r _ _).1 h2
        have := congrArg (List.length ∘ Prod.fst) h
        simp at this
    · intro e h1 h2
      obtain ⟨q, b, -, rfl⟩ := (mem_pathEdges l _ e).1 h1
      rcases List.mem_append.1 h2 with h2 | h2
      · have := congrArg (List.length ∘ Prod.fst) (mown _ _ _ h2)
        simp at this
      · rcases List.mem_append.1 h2 with h2 | h2
        · have := congrArg (List.length ∘ Prod.fst) (mown _ _ _ h2)
          simp at this
        · obtain ⟨q', b', -, h⟩ := (mem_pathEdges r _ _).1 h2
          have := congrArg Prod.fst h
          simp at this

theorem treeStmts_names (addr : List Bool → ℕ) (T t : PTree) : ∀ p, subAt T p = t → ∀ x,
    (∃ s ∈ treeStmts addr T p t, x ∈ s.names) ↔
      ∃ q, subAt t q ≠ .nil ∧ x = treeNodeText addr (p ++ q) (subAt T (p ++ q)) := by
  induction t with
  | nil => intro p _ x; simp [treeStmts, subAt_nil]
  | node ty nm v l r ihl ihr =>
    intro p hp x
    obtain ⟨hl, hr⟩ := subAt_left hp
    constructor
    · rintro ⟨s, hs, hx⟩
      simp only [treeStmts, List.mem_append, List.mem_cons] at hs
      rcases hs with hs | rfl | hs | hs | hs
      · obtain ⟨q, h1, h2⟩ := (ihl _ hl x).1 ⟨s, hs, hx⟩
        exact ⟨false :: q, h1, by simpa using h2⟩
      · refine ⟨[], by simp [subAt], ?_⟩
        simpa [DStmt.names] using hx
      · split at hs
        · cases hs
        · rename_i hn
          rw [List.mem_singleton] at hs
          subst hs
          simp only [DStmt.names, List.mem_cons, List.not_mem_nil, or_false] at hx
          rcases hx with rfl | rfl
          · exact ⟨[], by simp [subAt], by simp⟩
          · exact ⟨[false], by simpa [subAt] using hn, rfl⟩
      · split at hs
        · cases hs
        · rename_i hn
          rw [List.mem_singleton] at hs
          subst hs
          simp only [DStmt.names, List.mem_cons, List.not_mem_nil, or_false] at hx
          rcases hx with rfl | rfl
          · exact ⟨[], by simp [subAt], by simp⟩
          · exact ⟨[true], by simpa [subAt] using hn, rfl⟩
      · obtain ⟨q, h1, h2⟩ := (ihr _ hr x).1 ⟨s, hs, hx⟩
        exact ⟨true :: q, h1, by simpa using h2⟩
    · rintro ⟨q, h1, rfl⟩
      cases q with
      | nil =>
        refine ⟨.node (treeNodeText addr p (subAt T p)) [], ?_, by simp [DStmt.names]⟩
        simp [treeStmts]
      | cons b q =>
        cases b
        · obtain ⟨s, hs, hx⟩ := (ihl _ hl (treeNodeText addr (p ++ [false] ++ q) (subAt T (p ++ [false] ++ q)))).2 ⟨q, h1, rfl⟩
          exact ⟨s, by simp [treeStmts, hs], by simpa using hx⟩
        · obtain ⟨s, hs, hx⟩ := (ihr _ hr (treeNodeText addr (p ++ [true] ++ q) (subAt T (p ++ [true] ++ q)))).2 ⟨q, h1, rfl⟩
          exact ⟨s, by simp [treeStmts, hs], by simpa using hx⟩

/-- Different addresses give different names. -/
theorem treeNodeText_inj {addr : List Bool → ℕ} {p q : List Bool} {t u : PTree}
    (h : treeNodeText addr p t = treeNodeText addr q u) : addr p = addr q ∧ printNode t = printNode u := by
  unfold treeNodeText at h
  have hc : ∀ (x : List Char) (c : Char), (";\\n".toList ++ x).head? = some c → isDig c = false ∧ c ≠ '-' := by
    intro x c hc
    have : c = ';' := by simpa using hc.symm
    subst this
    decide
  obtain ⟨e1, e2⟩ := printInt_split (hc _) (hc _) h
  exact ⟨by exact_mod_cast e1, List.append_cancel_left e2⟩

theorem pathEdges_order (t : PTree) : ∀ (p q : List Bool), subAt t (q ++ [false]) ≠ .nil → subAt t (q ++ [true]) ≠ .nil →
    [(p ++ q, p ++ (q ++ [false])), (p ++ q, p ++ (q ++ [true]))].Sublist (pathEdges p t) := by
  induction t with
  | nil => intro p q h; exact absurd (subAt_nil _) h
  | node ty nm v l r ihl ihr =>
    intro p q h1 h2
    cases q with
    | nil =>
      have a : l ≠ .nil := by simpa [subAt] using h1
      have b : r ≠ .nil := by simpa [subAt] using h2
      simp only [pathEdges, if_neg a, if_neg b, List.append_nil, List.nil_append]
      refine List.Sublist.trans ?_ (List.sublist_append_right _ _)
      exact (List.nil_sublist _).cons_cons _ |>.cons_cons _
    | cons c q =>
      cases c
      · have := ihl (p ++ [false]) q h1 h2
        simp only [pathEdges]
        refine List.Sublist.trans ?_ (List.sublist_append_left _ _)
        simpa using this
      · have := ihr (p ++ [true]) q h1 h2
        simp only [pathEdges]
        refine List.Sublist.trans ?_ (List.sublist_append_right _ _)
        refine List.Sublist.trans ?_ (List.sublist_append_right _ _)
        refine List.Sublist.trans ?_ (List.sublist_append_right _ _)
        simpa using this

theorem subAt_prefix {t : PTree} {p : List Bool} {b : Bool} (h : subAt t (p ++ [b]) ≠ .nil) : subAt t p ≠ .nil := by
  intro hn
  rw [subAt_append, hn, subAt_nil] at h
  exact h rfl

/-- **C69.** For every tree whose variables have names without quotes, backslashes and control characters, and whose nodes have different
addresses, the file written by `tree_dot_dump` is a graph in DOT that draws the tree. -/
theorem tree_dot_draws {addr : List Bool → ℕ} {t : PTree} (hT : NamedTree t)
    (ha : ∀ p q, subAt t p ≠ .nil → subAt t q ≠ .nil → addr p = addr q → p = q) :
    ∃ g name, readDot (treeDotDump addr t) = some g ∧ DrawsTree addr t g name ∧
      ∀ p q, subAt t p ≠ .nil → subAt t q ≠ .nil → name p = name q → p = q := by
  refine ⟨treeStmts addr t [] t, fun p => treeNodeText addr p (subAt t p), ?_, ⟨fun p hp => ?_, fun x => ?_, fun e => ?_, ?_, ?_⟩, ?_⟩
  · have e1 : dotToks .start (treeDotDump addr t) = .word "digraph".toList :: .word "PT".toList :: .lbrace ::
        ((treeStmts addr t [] t).flatMap stmtToks ++ [.rbrace]) := by
      have e2 : ∀ y, dotToks .start ("digraph PT {\n".toList ++ y) =
          .word "digraph".toList :: .word "PT".toList :: .lbrace :: dotToks .start y := fun _ => rfl
      unfold treeDotDump
      rw [e2, treeDot_toks addr hT t [] (by cases t <;> rfl)]
      rfl
    unfold readDot
    rw [e1]
    simp only
    rw [if_pos (by decide), readStmts_stmts _ _ (treeStmts_simple addr t t [])]
    have := toks_length (treeStmts addr t [] t)
    simp only [List.length_append, List.length_cons]
    omega
  · refine ⟨_, printNode_shows hp fun ty nm v l r e ho => hT p ty nm v l r e ho, ?_⟩
    simp [treeNodeText, printInt]
  · have := treeStmts_names addr t t [] (by cases t <;> rfl) x
    simpa using this
  · rw [treeStmts_edges, List.mem_map]
    constructor
    · rintro ⟨f, hf, rfl⟩
      obtain ⟨q, b, h1, rfl⟩ := (mem_pathEdges t [] f).1 hf
      exact ⟨q, b, h1, rfl⟩
    · rintro ⟨p, b, h1, rfl⟩
      exact ⟨(p, p ++ [b]), (mem_pathEdges t [] _).2 ⟨p, b, h1, rfl⟩, rfl⟩
  · rw [treeStmts_edges]
    refine List.Nodup.map_on ?_ (pathEdges_nodup t [])
    intro e he f hf hef
    obtain ⟨q, b, h1, rfl⟩ := (mem_pathEdges t [] e).1 he
    obtain ⟨q', b', h2, rfl⟩ := (mem_pathEdges t [] f).1 hf
    have k1 := (treeNodeText_inj (congrArg Prod.fst hef)).1
    have k2 := (treeNodeText_inj (congrArg (Prod.fst ∘ Prod.snd) hef)).1
    have k1 := ha _ _ (subAt_prefix h1) (subAt_prefix h2) k1
    have k2 := ha _ _ h1 h2 k2
    simp only [List.nil_append] at k1 k2 ⊢
    rw [k2, k1]
  · intro p h1 h2
    rw [treeStmts_edges]
    exact (pathEdges_order t [] p h1 h2).map (fun e : List Bool × List Bool =>
      (treeNodeText addr e.1 (subAt t e.1), treeNodeText addr e.2 (subAt t e.2), ([] : List (List Char × List Char))))
  · intro p q h1 h2 h
    exact ha p q h1 h2 (treeNodeText_inj h).1

/-- **C69.** For the empty tree (NULL, 536-538) the graph is empty. -/
theorem tree_dot_nil (addr : List Bool → ℕ) : readDot (treeDotDump addr .nil) = some [] := by
  rfl

/-! ## Example -/

namespace TreeDotEx

/-- `x' -> y` -/
def t : PTree := .node .imp none 0 (.node .next (some ['x']) 0 .nil .nil) (.node .var (some ['y']) 0 .nil .nil)

/-- Addresses. -/
def addr : List Bool → ℕ
  | [] => 1000
  | [false] => 1040
  | _ => 1080

example : treeDotDump addr t = ("digraph PT {\n\"1040;\\nx'\"\n\"1000;\\n->\"\n\"1000;\\n->\" -> \"1040;\\nx'\"\n" ++
    "\"1000;\\n->\" -> \"1080;\\ny\"\n\"1080;\\ny\"\n}\n").toList := by decide +kernel

end TreeDotEx

end Gr1c
