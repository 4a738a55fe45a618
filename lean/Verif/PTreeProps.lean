import Verif.PTreeLemmas

/-!
# Properties of the parse tree functions

C18 (postfix building), C22 (merging), C23 (list operations), C41 (extreme constants).
-/

namespace Gr1c

open PTree

/-! ## C22: merging -/

/-- **C22.** `merge_ptrees` of one or more formulas with AND is a formula true exactly when all of them
are. -/
theorem merge_and (fs : List Fm) (h : fs ≠ []) :
    ∃ g : Fm, mergePtrees (fs.map Fm.toTree) .and = g.toTree ∧ ∀ ρ, g.eval ρ = fs.all (Fm.eval ρ) :=
  ⟨_, mergePtrees_toTree_and fs h, fun ρ => by
    rw [mergeFm_and_eval ρ _ (by simpa using h), List.all_reverse]⟩

/-- **C22.** With OR: true exactly when some formula is. -/
theorem merge_or (fs : List Fm) (h : fs ≠ []) :
    ∃ g : Fm, mergePtrees (fs.map Fm.toTree) .or = g.toTree ∧ ∀ ρ, g.eval ρ = fs.any (Fm.eval ρ) :=
  ⟨_, mergePtrees_toTree_or fs h, fun ρ => by
    rw [mergeFm_or_eval ρ _ (by simpa using h), List.any_reverse]⟩

/-- **C22.** A single formula is returned as it is, whatever the operator; no formula gives NULL; an
operator other than AND, OR, IMPLIES is refused when there is something to merge. -/
theorem merge_edge (t : PTree) (ty : PTy) :
    mergePtrees [t] ty = t ∧ mergePtrees [] ty = .nil ∧
      (∀ u ts, ty ≠ .and → ty ≠ .or → ty ≠ .imp → mergePtrees (t :: u :: ts) ty = .nil) := by
  refine ⟨rfl, rfl, ?_⟩
  intro u ts h1 h2 h3
  simp [mergePtrees, h1, h2, h3]

/-- Merging with IMPLIES associates to the left: `((f0 -> f1) -> f2) -> ...`. -/
theorem merge_imp (f : Fm) (fs : List Fm) :
    mergePtrees ((f :: fs).map Fm.toTree) .imp = (fs.foldl Fm.imp f).toTree := by
  have key : ∀ (fs : List Fm) (f : Fm),
      mergeLoop .imp (fs.map Fm.toTree ++ [f.toTree]) = (fs.reverse.foldl Fm.imp f).toTree := by
    intro fs
    induction fs with
    | nil => intro f; rfl
    | cons a fs ih =>
      intro f
      have h := ih f
      cases hfs : fs.map Fm.toTree ++ [f.toTree] with
      | nil => simp at hfs
      | cons x xs =>
        rw [List.map_cons, List.cons_append, hfs]
        rw [hfs] at h
        simp only [mergeLoop, h, List.reverse_cons, List.foldl_append, List.foldl_cons,
          List.foldl_nil, Fm.toTree]
  cases fs with
  | nil => rfl
  | cons g fs =>
    have := key (g :: fs).reverse f
    rw [List.reverse_reverse] at this
    rw [← this]
    simp [mergePtrees]

example : mergePtrees ([Fm.var false ['a'], Fm.var false ['b'], Fm.var true ['c']].map Fm.toTree) .and
    = (Fm.and (.and (.var false ['a']) (.var false ['b'])) (.var true ['c'])).toTree := by
  decide +kernel

/-! ## C23: lists -/

/-- List entries: type, name, value. -/
abbrev Item := PTy × Option Name × ℤ

/-- The linked list with the given entries. -/
def ofItems : List Item → PTree
  | [] => .nil
  | (ty, nm, v) :: xs => .node ty nm v (ofItems xs) .nil

/-- The entry stored for a request: names only for variables, values only for variables and
constants (`/repo/include/ptree.h` 84-92). -/
def storedItem (ty : PTy) (name : Option Name) (value : ℤ) : Item :=
  (ty, if ty = .var ∨ ty = .next then name else none,
    if ty = .var ∨ ty = .next ∨ ty = .const then value else 0)

/-- Does an entry match a search request (`/repo/include/ptree.h`, `find_list_item`)? -/
def itemMatches (ty : PTy) (name : Option Name) (value : ℤ) (x : Item) : Bool :=
  x.1 = ty && (if ty = .var ∨ ty = .next then decide (name ≠ none ∧ x.2.1 = name)
    else if ty = .const then decide (x.2.2 = value) else true)

theorem ofItems_inj {xs ys : List Item} (h : ofItems xs = ofItems ys) : xs = ys := by
  induction xs generalizing ys with
  | nil => cases ys with
    | nil => rfl
    | cons y ys => obtain ⟨a, b, c⟩ := y; simp [ofItems] at h
  | cons x xs ih =>
    obtain ⟨a, b, c⟩ := x
    cases ys with
    | nil => simp [ofItems] at h
    | cons y ys =>
      obtain ⟨a', b', c'⟩ := y
      simp only [ofItems, PTree.node.injEq, and_true] at h
      obtain ⟨rfl, rfl, rfl, h⟩ := h
      rw [ih h]

/-- **C23.** `tree_size` of a list is its length. -/
theorem list_size (xs : List Item) : (ofItems xs).size = xs.length := by
  induction xs with
  | nil => rfl
  | cons x xs ih => obtain ⟨a, b, c⟩ := x; simp [ofItems, PTree.size, ih]; omega

theorem initPtree_ofItems (ty : PTy) (name : Option Name) (value : ℤ) :
    initPtree ty name value = ofItems [storedItem ty name value] := by
  cases ty <;> simp [initPtree, ofItems, storedItem]

/-- **C23.** `append_list_item` adds one entry at the end. -/
theorem list_append (xs : List Item) (ty : PTy) (name : Option Name) (value : ℤ) :
    appendListItem (ofItems xs) ty name value = ofItems (xs ++ [storedItem ty name value]) := by
  induction xs with
  | nil => exact initPtree_ofItems ty name value
  | cons x xs ih => obtain ⟨a, b, c⟩ := x; simp [ofItems, appendListItem, ih]

theorem getListWalk_ofItems (xs : List Item) (i : ℕ) : getListWalk i (ofItems xs) = ofItems (xs.drop i) := by
  induction xs generalizing i with
  | nil => cases i <;> rfl
  | cons x xs ih =>
    obtain ⟨a, b, c⟩ := x
    cases i with
    | zero => rfl
    | succ i => simp only [ofItems, getListWalk, List.drop_succ_cons, ih]

theorem lastItem_ofItems (xs : List Item) : lastItem (ofItems xs) = ofItems (xs.drop (xs.length - 1)) := by
  induction xs with
  | nil => rfl
  | cons x xs ih =>
    obtain ⟨a, b, c⟩ := x
    cases xs with
    | nil => rfl
    | cons y ys =>
      obtain ⟨a', b', c'⟩ := y
      have h : (ofItems ((a, b, c) :: (a', b', c') :: ys)) =
        .node a b c (.node a' b' c' (ofItems ys) .nil) .nil := rfl
      rw [h]
      simp only [lastItem]
      have h2 : PTree.node a' b' c' (ofItems ys) .nil = ofItems ((a', b', c') :: ys) := rfl
      rw [h2, ih]
      simp

/-- **C23.** `get_list_item`: index -1 is the last entry, an index from 0 the entry with that index
(with the list behind it), and an invalid index gives NULL. -/
theorem list_get (xs : List Item) (i : ℤ) :
    getListItem (ofItems xs) i =
      if i = -1 then ofItems (xs.drop (xs.length - 1))
      else if 0 ≤ i ∧ i < xs.length then ofItems (xs.drop i.toNat)
      else .nil := by
  unfold getListItem
  by_cases h1 : i < -1
  · rw [if_pos h1, if_neg (by omega), if_neg (by omega)]
  · rw [if_neg h1]
    by_cases h2 : i = -1
    · rw [if_pos h2, if_pos h2, lastItem_ofItems]
    · rw [if_neg h2, if_neg h2, getListWalk_ofItems]
      by_cases h3 : i < xs.length
      · rw [if_pos ⟨by omega, h3⟩]
      · rw [if_neg (by omega), List.drop_eq_nil_of_le (by omega)]; rfl

/-- **C23.** The entry returned by `get_list_item` for a valid index is the entry of the list. -/
theorem list_get_entry (xs : List Item) (i : ℕ) (h : i < xs.length) :
    ∃ l, getListItem (ofItems xs) i = .node xs[i].1 xs[i].2.1 xs[i].2.2 l .nil := by
  rw [list_get, if_neg (by omega), if_pos (by omega)]
  have : (i : ℤ).toNat = i := by omega
  rw [this, List.drop_eq_getElem_cons h]
  exact ⟨_, rfl⟩

theorem findListFrom_ofItems (ty : PTy) (name : Option Name) (value : ℤ) (xs : List Item) (i : ℤ) :
    findListFrom ty name value i (ofItems xs) =
      match xs.findIdx? (itemMatches ty name value) with
      | none => -1
      | some k => i + k := by
  induction xs generalizing i with
  | nil => rfl
  | cons x xs ih =>
    obtain ⟨a, b, c⟩ := x
    simp only [ofItems, findListFrom, List.findIdx?_cons]
    have hm : (a = ty ∧ (if a = .var ∨ a = .next then name ≠ none ∧ b = name
         else if a = .const then c = value else True)) ↔ itemMatches ty name value (a, b, c) = true := by
      unfold itemMatches
      by_cases h : a = ty
      · subst h
        by_cases h1 : a = .var ∨ a = .next
        · simp [h1]
        · by_cases h2 : a = .const
          · subst h2; simp
          · simp only [if_neg h1, if_neg h2]; simp
      · simp [h]
    by_cases h : itemMatches ty name value (a, b, c) = true
    · rw [if_pos (hm.2 h), if_pos h]; simp
    · rw [if_neg (fun h' => h (hm.1 h')), if_neg h, ih]
      cases xs.findIdx? (itemMatches ty name value) with
      | none => rfl
      | some k => show (i + 1) + (k : ℤ) = i + ((k + 1 : ℕ) : ℤ); omega

/-- **C23.** `find_list_item` returns the index of the first matching entry, -1 if there is none. -/
theorem list_find (xs : List Item) (ty : PTy) (name : Option Name) (value : ℤ) :
    (findListItem (ofItems xs) ty name value = -1 ∧
        ∀ x ∈ xs, itemMatches ty name value x = false) ∨
      ∃ k : ℕ, ∃ h : k < xs.length, findListItem (ofItems xs) ty name value = k ∧
        itemMatches ty name value xs[k] = true ∧
        ∀ j (hj : j < k), itemMatches ty name value (xs[j]'(by omega)) = false := by
  unfold findListItem
  rw [findListFrom_ofItems]
  cases h : xs.findIdx? (itemMatches ty name value) with
  | none =>
    left
    exact ⟨rfl, fun x hx => by simpa using List.findIdx?_eq_none_iff.1 h x hx⟩
  | some k =>
    right
    obtain ⟨h1, h2, h3⟩ := List.findIdx?_eq_some_iff_getElem.1 h
    exact ⟨k, h1, by simp, h2, fun j hj => by simpa using h3 j hj⟩

theorem unlinkAfter_ofItems (xs : List Item) (k : ℕ) (h : k + 1 < xs.length) :
    unlinkAfter k (ofItems xs) = some (ofItems (xs.eraseIdx (k + 1))) := by
  induction xs generalizing k with
  | nil => simp at h
  | cons x xs ih =>
    obtain ⟨a, b, c⟩ := x
    cases k with
    | zero =>
      cases xs with
      | nil => simp at h
      | cons y ys => obtain ⟨a', b', c'⟩ := y; rfl
    | succ k =>
      simp only [List.length_cons] at h
      simp only [ofItems, unlinkAfter, ih k (by omega), Option.map_some, List.eraseIdx_cons_succ]

/-- **C23.** `remove_list_item` refuses the empty list and invalid indices; otherwise it removes exactly
the entry with the given index (-1 is the last one). It returns the new head if the first entry was
removed, else the predecessor of the removed entry. -/
theorem list_remove (xs : List Item) (i : ℤ) :
    ((xs = [] ∨ i < -1 ∨ i ≥ xs.length) → removeListItem (ofItems xs) i = .err) ∧
    ∀ k : ℕ, k < xs.length → (i = k ∨ (i = -1 ∧ k = xs.length - 1)) →
      removeListItem (ofItems xs) i =
        .ok (ofItems (xs.eraseIdx k)) (ofItems ((xs.eraseIdx k).drop (k - 1))) := by
  have hnil : ofItems xs = .nil ↔ xs = [] := by
    cases xs with
    | nil => simp [ofItems]
    | cons x xs => obtain ⟨a, b, c⟩ := x; simp [ofItems]
  constructor
  · intro h
    unfold removeListItem
    simp only [list_size]
    by_cases hx : xs = []
    · rw [if_pos (hnil.2 hx)]
    · rw [if_neg (fun h' => hx (hnil.1 h')), if_pos (by rcases h with h | h | h; exact absurd h hx; exact Or.inl h; exact Or.inr h)]
  · intro k hk hi
    have hx : xs ≠ [] := by intro h; subst h; simp at hk
    unfold removeListItem
    simp only [list_size]
    rw [if_neg (fun h' => hx (hnil.1 h')), if_neg (by omega)]
    by_cases h0 : k = 0
    · subst h0
      rw [if_pos (by omega)]
      cases xs with
      | nil => exact absurd rfl hx
      | cons x xs => obtain ⟨a, b, c⟩ := x; rfl
    · rw [if_neg (by omega)]
      have e : ((if i = -1 then (xs.length : ℤ) - 1 else i).toNat - 1) = k - 1 := by
        split <;> omega
      rw [e, unlinkAfter_ofItems xs (k - 1) (by omega)]
      have e2 : k - 1 + 1 = k := by omega
      rw [e2]
      simp only [getListWalk_ofItems]

example : removeListItem (ofItems [(.var, some ['a'], 0), (.var, some ['b'], 3), (.var, some ['c'], -1)]) (-1)
    = .ok (ofItems [(.var, some ['a'], 0), (.var, some ['b'], 3)]) (ofItems [(.var, some ['b'], 3)]) := by
  decide +kernel

example : findListItem (ofItems [(.var, some ['a'], 0), (.next, some ['b'], 0), (.var, some ['b'], 3)])
    .var (some ['b']) 0 = 2 := by decide +kernel

/-! ## C18: building trees in postfix order -/

/-- The parser's semantic actions (`/repo/src/gr1c_parse.y`, formula rules). -/
inductive Act
  | term (ty : PTy) (name : Option Name) (value : ℤ)
  | op (ty : PTy)

/-- Effect of an action on `gen_tree_ptr`. -/
def Act.run (st : PTree) : Act → PTree
  | .term ty name value => pushtTerminal st ty name value
  | .op ty => pushtOperator st ty

/-- The actions performed while parsing a formula, in order. -/
def Fm.actions : Fm → List Act
  | .const v => [.term .const none v]
  | .var nx n => [.term (varTy nx) (some n) 0]
  | .neg f => f.actions ++ [.op .neg]
  | .and f g => f.actions ++ g.actions ++ [.op .and]
  | .or f g => f.actions ++ g.actions ++ [.op .or]
  | .imp f g => f.actions ++ g.actions ++ [.op .imp]
  | .equiv f g => f.actions ++ g.actions ++ [.op .equiv]
  | .cmp op nx n c => [.term (varTy nx) (some n) 0, .term .const none c, .op op.ty]

/-- A stack of formulas as the code stores it: the rest of the stack hangs at the left end of the top
formula. -/
def PTree.onto (rest : PTree) : PTree → PTree
  | .nil => .nil
  | .node ty nm v l r => if l = .nil then .node ty nm v rest r else .node ty nm v (onto rest l) r

/-- Tree storing the stack with the given formulas, top first. -/
def stackTree : List Fm → PTree
  | [] => .nil
  | f :: fs => (stackTree fs).onto f.toTree

theorem toTree_ne_nil (f : Fm) : f.toTree ≠ .nil := by cases f <;> simp [Fm.toTree]

theorem onto_ne_nil (rest : PTree) (f : Fm) : rest.onto f.toTree ≠ .nil := by
  cases h : f.toTree with
  | nil => exact absurd h (toTree_ne_nil f)
  | node a b c d e => simp only [PTree.onto]; split <;> simp

theorem stopTy_varTy (nx : Bool) : stopTy (varTy nx) = true := by cases nx <;> rfl

/-- The walk of `pusht_operator` finds the left end of the top formula. -/
theorem cutStack_onto (f : Fm) (rest : PTree) : cutStack (rest.onto f.toTree) = (rest, f.toTree) := by
  induction f generalizing rest with
  | const v => simp [Fm.toTree, PTree.onto, cutStack, stopTy]
  | var nx n => simp [Fm.toTree, PTree.onto, cutStack, stopTy_varTy]
  | neg f ih => simp [Fm.toTree, PTree.onto, cutStack, stopTy]
  | and f g ih1 ih2 =>
    simp only [Fm.toTree, PTree.onto, toTree_ne_nil f, if_false, cutStack, onto_ne_nil, ih1]
    simp [stopTy]
  | or f g ih1 ih2 =>
    simp only [Fm.toTree, PTree.onto, toTree_ne_nil f, if_false, cutStack, onto_ne_nil, ih1]
    simp [stopTy]
  | imp f g ih1 ih2 =>
    simp only [Fm.toTree, PTree.onto, toTree_ne_nil f, if_false, cutStack, onto_ne_nil, ih1]
    simp [stopTy]
  | equiv f g ih1 ih2 =>
    simp only [Fm.toTree, PTree.onto, toTree_ne_nil f, if_false, cutStack, onto_ne_nil, ih1]
    simp [stopTy]
  | cmp op nx n c =>
    cases op <;> cases nx <;> simp [Fm.toTree, PTree.onto, cutStack, varTy, CmpOp.ty, stopTy]

theorem pushtOperator_onto (f : Fm) (rest : PTree) (ty : PTy) (h : ty ≠ .const) (hv : isVarTy ty = false) :
    pushtOperator (rest.onto f.toTree) ty = .node ty none 0 rest f.toTree := by
  have hv' : ¬ (ty = .var ∨ ty = .next) := by
    rintro (h | h) <;> subst h <;> simp [isVarTy] at hv
  cases hx : rest.onto f.toTree with
  | nil => exact absurd hx (onto_ne_nil rest f)
  | node a b c d e =>
    simp only [pushtOperator, initPtree, if_neg hv', if_neg h]
    rw [← hx, cutStack_onto]

/-- The actions for a formula put its tree on top of whatever was there. -/
theorem actions_onto (f : Fm) (st : PTree) : f.actions.foldl Act.run st = st.onto f.toTree := by
  induction f generalizing st with
  | const v => simp [Fm.actions, Act.run, pushtTerminal, initPtree, PTree.setLeft, Fm.toTree, PTree.onto]
  | var nx n =>
    cases nx <;> simp [Fm.actions, Act.run, pushtTerminal, initPtree, PTree.setLeft, Fm.toTree,
      PTree.onto, varTy]
  | neg f ih =>
    simp only [Fm.actions, List.foldl_append, ih, List.foldl_cons, List.foldl_nil, Act.run]
    rw [pushtOperator_onto _ _ _ (by decide) (by decide)]
    simp [Fm.toTree, PTree.onto]
  | and f g ih1 ih2 =>
    simp only [Fm.actions, List.foldl_append, ih1, ih2, List.foldl_cons, List.foldl_nil, Act.run]
    rw [pushtOperator_onto _ _ _ (by decide) (by decide)]
    simp [Fm.toTree, PTree.onto, toTree_ne_nil]
  | or f g ih1 ih2 =>
    simp only [Fm.actions, List.foldl_append, ih1, ih2, List.foldl_cons, List.foldl_nil, Act.run]
    rw [pushtOperator_onto _ _ _ (by decide) (by decide)]
    simp [Fm.toTree, PTree.onto, toTree_ne_nil]
  | imp f g ih1 ih2 =>
    simp only [Fm.actions, List.foldl_append, ih1, ih2, List.foldl_cons, List.foldl_nil, Act.run]
    rw [pushtOperator_onto _ _ _ (by decide) (by decide)]
    simp [Fm.toTree, PTree.onto, toTree_ne_nil]
  | equiv f g ih1 ih2 =>
    simp only [Fm.actions, List.foldl_append, ih1, ih2, List.foldl_cons, List.foldl_nil, Act.run]
    rw [pushtOperator_onto _ _ _ (by decide) (by decide)]
    simp [Fm.toTree, PTree.onto, toTree_ne_nil]
  | cmp op nx n c =>
    have h1 : ∀ st : PTree, pushtTerminal st (varTy nx) (some n) 0 = st.onto (Fm.var nx n).toTree := by
      intro st; cases nx <;> simp [pushtTerminal, initPtree, PTree.setLeft, Fm.toTree, PTree.onto, varTy]
    have h2 : ∀ st : PTree, pushtTerminal st .const none c = st.onto (Fm.const c).toTree := by
      intro st; simp [pushtTerminal, initPtree, PTree.setLeft, Fm.toTree, PTree.onto]
    simp only [Fm.actions, List.foldl_cons, List.foldl_nil, Act.run, h1, h2]
    rw [pushtOperator_onto _ _ _ (by cases op <;> decide) (by cases op <;> decide)]
    simp [Fm.toTree, PTree.onto]

/-- **C18.** Performing the actions for a formula pushes exactly that formula on the stack. -/
theorem postfix_push (f : Fm) (fs : List Fm) :
    f.actions.foldl Act.run (stackTree fs) = stackTree (f :: fs) := actions_onto f (stackTree fs)

/-- **C18.** Parsing a formula from an empty stack gives its parse tree. -/
theorem postfix_parse (f : Fm) : f.actions.foldl Act.run .nil = f.toTree := by
  rw [actions_onto]
  have h : ∀ t : PTree, PTree.onto .nil t = t := by
    intro t
    induction t with
    | nil => rfl
    | node ty nm v l r ih1 ih2 =>
      simp only [PTree.onto]
      split
      · rename_i h; rw [h]
      · rw [ih1]
  exact h _

/-- **C18.** The stored stack determines the formulas on it: nothing below the top was changed. -/
theorem stackTree_inj {fs gs : List Fm} (h : stackTree fs = stackTree gs) : fs = gs := by
  induction fs generalizing gs with
  | nil =>
    cases gs with
    | nil => rfl
    | cons g gs => exact absurd h.symm (onto_ne_nil _ g)
  | cons f fs ih =>
    cases gs with
    | nil => exact absurd h (onto_ne_nil _ f)
    | cons g gs =>
      have h1 := cutStack_onto f (stackTree fs)
      have h2 := cutStack_onto g (stackTree gs)
      simp only [stackTree] at h
      rw [h, h2] at h1
      simp only [Prod.mk.injEq] at h1
      rw [ih h1.1.symm, Fm.toTree_inj h1.2.symm]

example : (Fm.and (.neg (.var false ['a'])) (.cmp .lt true ['x'] 3)).actions.foldl Act.run
      (stackTree [.or (.var false ['b']) (.const 1)]) =
    stackTree [.and (.neg (.var false ['a'])) (.cmp .lt true ['x'] 3), .or (.var false ['b']) (.const 1)] := by
  decide +kernel

/-! ## C41: extreme constants -/

/-- Constants in a tree. -/
def PTree.consts : PTree → List ℤ
  | .nil => []
  | .node ty _ v l r => (if ty = .const then [v] else []) ++ l.consts ++ r.consts

/-- `v` is the least element of `l` (under `le`), or -9999 and `l` is empty. -/
def IsBest (le : ℤ → ℤ → Prop) (l : List ℤ) (v : ℤ) : Prop :=
  (l = [] ∧ v = -9999) ∨ (v ∈ l ∧ ∀ c ∈ l, le v c)

theorem combine_best (le : ℤ → ℤ → Prop) (better : ℤ → ℤ → Bool)
    (htot : ∀ a b, better a b = true → le a b) (htot' : ∀ a b, better a b = false → le b a)
    (htrans : ∀ a b c, le a b → le b c → le a c)
    {l1 l2 : List ℤ} {v1 v2 : ℤ} (h1 : IsBest le l1 v1) (h2 : IsBest le l2 v2)
    (hs : ∀ c ∈ l1 ++ l2, c ≠ -9999) : IsBest le (l1 ++ l2) (combineVal better v2 v1) := by
  unfold combineVal
  rcases h1 with ⟨rfl, rfl⟩ | ⟨m1, b1⟩
  · rcases h2 with ⟨rfl, rfl⟩ | ⟨m2, b2⟩
    · left; simp
    · have : v2 ≠ -9999 := hs _ (by simpa using m2)
      simp only [this, ne_eq, not_true_eq_false, and_false, if_false, not_false_eq_true, if_true,
        List.nil_append]
      exact Or.inr ⟨m2, b2⟩
  · have n1 : v1 ≠ -9999 := hs _ (by simp [m1])
    rcases h2 with ⟨rfl, rfl⟩ | ⟨m2, b2⟩
    · simp only [ne_eq, not_true_eq_false, false_and, if_false, List.append_nil]
      exact Or.inr ⟨m1, b1⟩
    · have n2 : v2 ≠ -9999 := hs _ (by simp [m2])
      rw [if_pos ⟨n2, n1⟩]
      right
      cases hb : better v2 v1 with
      | true =>
        simp only [if_true]
        refine ⟨by simp [m2], ?_⟩
        intro c hc
        rcases List.mem_append.1 hc with hc | hc
        · exact htrans _ _ _ (htot _ _ hb) (b1 c hc)
        · exact b2 c hc
      | false =>
        simp only [Bool.false_eq_true, if_false]
        refine ⟨by simp [m1], ?_⟩
        intro c hc
        rcases List.mem_append.1 hc with hc | hc
        · exact b1 c hc
        · exact htrans _ _ _ (htot' _ _ hb) (b2 c hc)

theorem min_best (t : PTree) (h : ∀ c ∈ t.consts, c ≠ -9999) :
    IsBest (· ≤ ·) t.consts (minTreeValue t) := by
  induction t with
  | nil => left; exact ⟨rfl, rfl⟩
  | node ty nm v l r ihl ihr =>
    simp only [PTree.consts, minTreeValue] at h ⊢
    have h0 : IsBest (· ≤ ·) (if ty = .const then [v] else []) (if ty = .const then v else -9999) := by
      by_cases ht : ty = .const
      · simp only [ht, if_true]; right; simp
      · simp only [ht, if_false]; left; simp
    have ax := @combine_best (· ≤ ·) (fun a b => decide (a < b)) (by intro a b h; simp at h; omega)
      (by intro a b h; simp at h; omega) (by intro a b c; omega)
    apply ax (ax h0 (ihl fun c hc => h c (by simp [hc])) (fun c hc => h c (by simp at hc ⊢; tauto)))
      (ihr fun c hc => h c (by simp [hc])) h

theorem max_best (t : PTree) (h : ∀ c ∈ t.consts, c ≠ -9999) :
    IsBest (· ≥ ·) t.consts (maxTreeValue t) := by
  induction t with
  | nil => left; exact ⟨rfl, rfl⟩
  | node ty nm v l r ihl ihr =>
    simp only [PTree.consts, maxTreeValue] at h ⊢
    have h0 : IsBest (· ≥ ·) (if ty = .const then [v] else []) (if ty = .const then v else -9999) := by
      by_cases ht : ty = .const
      · simp only [ht, if_true]; right; simp
      · simp only [ht, if_false]; left; simp
    have ax := @combine_best (· ≥ ·) (fun a b => decide (a > b)) (by intro a b h; simp at h; omega)
      (by intro a b h; simp at h; omega) (by intro a b c; omega)
    apply ax (ax h0 (ihl fun c hc => h c (by simp [hc])) (fun c hc => h c (by simp at hc ⊢; tauto)))
      (ihr fun c hc => h c (by simp [hc])) h

/-- **C41.** `min_tree_value` is the least constant, -9999 if there is none. -/
theorem min_tree_value_exact (t : PTree) (h : ∀ c ∈ t.consts, c ≠ -9999) :
    (t.consts = [] → minTreeValue t = -9999) ∧
    (t.consts ≠ [] → minTreeValue t ∈ t.consts ∧ ∀ c ∈ t.consts, minTreeValue t ≤ c) := by
  rcases min_best t h with ⟨h1, h2⟩ | h1
  · exact ⟨fun _ => h2, fun h' => absurd h1 h'⟩
  · refine ⟨fun h' => ?_, fun _ => h1⟩
    rw [h'] at h1; simp at h1

/-- **C41.** `max_tree_value` is the greatest constant, -9999 if there is none. -/
theorem max_tree_value_exact (t : PTree) (h : ∀ c ∈ t.consts, c ≠ -9999) :
    (t.consts = [] → maxTreeValue t = -9999) ∧
    (t.consts ≠ [] → maxTreeValue t ∈ t.consts ∧ ∀ c ∈ t.consts, maxTreeValue t ≥ c) := by
  rcases max_best t h with ⟨h1, h2⟩ | h1
  · exact ⟨fun _ => h2, fun h' => absurd h1 h'⟩
  · refine ⟨fun h' => ?_, fun _ => h1⟩
    rw [h'] at h1; simp at h1

/-- Constants compared by equality with variable `name` in a formula. -/
def Fm.eqConsts (name : Name) : Fm → List ℤ
  | .const _ => []
  | .var _ _ => []
  | .neg f => f.eqConsts name
  | .and f g => f.eqConsts name ++ g.eqConsts name
  | .or f g => f.eqConsts name ++ g.eqConsts name
  | .imp f g => f.eqConsts name ++ g.eqConsts name
  | .equiv f g => f.eqConsts name ++ g.eqConsts name
  | .cmp op _ n c => if op = .eq ∧ n = name then [c] else []

/-- No other integer variable of the formula has a name that starts with `name`. -/
def Fm.PrefixFree (name : Name) (f : Fm) : Prop :=
  ∀ x ∈ f.zvars, name <+: x.2 → x.2 = name

theorem r_best (le : ℤ → ℤ → Prop) (better : ℤ → ℤ → Bool)
    (htot : ∀ a b, better a b = true → le a b) (htot' : ∀ a b, better a b = false → le b a)
    (hrefl : ∀ a, le a a)
    (htrans : ∀ a b c, le a b → le b c → le a c) (name : Name) (f : Fm)
    (hp : f.PrefixFree name) (hs : ∀ c ∈ f.eqConsts name, c ≠ -9999) :
    ∃ v, rTreeValue better name f.toTree = some v ∧ IsBest le (f.eqConsts name) v := by
  have ax := @combine_best le better htot htot' htrans
  have c9 : ∀ x, combineVal better (-9999) x = x := by intro x; simp [combineVal]
  have c9' : ∀ x, combineVal better x (-9999) = x := by
    intro x; by_cases h : x = -9999 <;> simp [combineVal, h]
  induction f with
  | const v => exact ⟨-9999, by simp [Fm.toTree, rTreeValue, c9], Or.inl ⟨rfl, rfl⟩⟩
  | var nx n => exact ⟨-9999, by cases nx <;> simp [Fm.toTree, rTreeValue, c9, varTy], Or.inl ⟨rfl, rfl⟩⟩
  | neg f ih =>
    obtain ⟨v, h1, h2⟩ := ih hp hs
    exact ⟨v, by simp [Fm.toTree, rTreeValue, h1, c9, c9'], h2⟩
  | and f g ih1 ih2 | or f g ih1 ih2 | imp f g ih1 ih2 | equiv f g ih1 ih2 =>
    obtain ⟨v1, h1, h2⟩ := ih1 (fun x hx => hp x (by simp [Fm.zvars, hx]))
      (fun c hc => hs c (by simp [Fm.eqConsts, hc]))
    obtain ⟨v2, h3, h4⟩ := ih2 (fun x hx => hp x (by simp [Fm.zvars, hx]))
      (fun c hc => hs c (by simp [Fm.eqConsts, hc]))
    refine ⟨combineVal better v2 v1, by simp [Fm.toTree, rTreeValue, h1, h3, c9'], ax h2 h4 hs⟩
  | cmp op nx n c =>
    have hpm : prefixMatch name (some n) = decide (n = name) := by
      simp only [prefixMatch]
      by_cases h : n = name
      · subst h; simp
      · have := hp (nx, n) (by simp [Fm.zvars])
        simp only [h, decide_false]
        cases hq : name.isPrefixOf n with
        | false => rfl
        | true => exact absurd (this (List.isPrefixOf_iff_prefix.1 hq)) h
    by_cases h : op = .eq
    · subst h
      by_cases hn : n = name
      · rw [hn] at hpm
        refine ⟨c, ?_, ?_⟩
        · cases nx <;> simp [Fm.toTree, rTreeValue, c9, varTy, CmpOp.ty, eqConst, isVarTy, hpm, hn]
        · simp only [Fm.eqConsts, hn, and_self, if_true]; right; simp [hrefl]
      · refine ⟨-9999, ?_, ?_⟩
        · cases nx <;> simp [Fm.toTree, rTreeValue, c9, varTy, CmpOp.ty, eqConst, isVarTy, hpm, hn]
        · simp only [Fm.eqConsts, hn, and_false, if_false]; left; simp
    · refine ⟨-9999, ?_, ?_⟩
      · cases op <;> first | exact absurd rfl h | (cases nx <;> simp [Fm.toTree, rTreeValue, c9, varTy, CmpOp.ty])
      · simp only [Fm.eqConsts, h, false_and, if_false]; left; simp

/-- **C41** (partial: needs that no other variable name starts with `name`, see `rmin_prefix`).
`rmin_tree_value` is the least constant compared by equality with the variable. -/
theorem rmin_exact_partial (name : Name) (f : Fm) (hp : f.PrefixFree name)
    (hs : ∀ c ∈ f.eqConsts name, c ≠ -9999) :
    ∃ v, rminTreeValue name f.toTree = some v ∧ (f.eqConsts name = [] → v = -9999) ∧
      (f.eqConsts name ≠ [] → v ∈ f.eqConsts name ∧ ∀ c ∈ f.eqConsts name, v ≤ c) := by
  obtain ⟨v, h1, h2⟩ := r_best (· ≤ ·) (fun a b => decide (a < b)) (by intro a b h; simp at h; omega)
      (by intro a b h; simp at h; omega) (by intro a; omega) (by intro a b c; omega) name f hp hs
  refine ⟨v, h1, ?_, ?_⟩
  · intro h; rcases h2 with h2 | h2
    · exact h2.2
    · rw [h] at h2; simp at h2
  · intro h; rcases h2 with h2 | h2
    · exact absurd h2.1 h
    · exact h2

/-- **C41** (partial, as above). `rmax_tree_value` is the greatest such constant. -/
theorem rmax_exact_partial (name : Name) (f : Fm) (hp : f.PrefixFree name)
    (hs : ∀ c ∈ f.eqConsts name, c ≠ -9999) :
    ∃ v, rmaxTreeValue name f.toTree = some v ∧ (f.eqConsts name = [] → v = -9999) ∧
      (f.eqConsts name ≠ [] → v ∈ f.eqConsts name ∧ ∀ c ∈ f.eqConsts name, v ≥ c) := by
  obtain ⟨v, h1, h2⟩ := r_best (· ≥ ·) (fun a b => decide (a > b)) (by intro a b h; simp at h; omega)
      (by intro a b h; simp at h; omega) (by intro a; omega) (by intro a b c; omega) name f hp hs
  refine ⟨v, h1, ?_, ?_⟩
  · intro h; rcases h2 with h2 | h2
    · exact h2.2
    · rw [h] at h2; simp at h2
  · intro h; rcases h2 with h2 | h2
    · exact absurd h2.1 h
    · exact h2

/-- **C41** is false without that hypothesis: `x = 5 & x1 = 2` has least constant 5 for `x`, but the
code compares only the first characters of names and returns 2. -/
theorem rmin_prefix :
    let f : Fm := .and (.cmp .eq false ['x'] 5) (.cmp .eq false ['x', '1'] 2)
    f.eqConsts ['x'] = [5] ∧ rminTreeValue ['x'] f.toTree = some 2 := by
  decide +kernel

example : (Fm.and (.cmp .eq false ['x'] 5) (.or (.cmp .eq true ['x'] 2) (.cmp .eq false ['y'] 1))).PrefixFree ['x'] := by
  unfold Fm.PrefixFree; decide +kernel

example : rmaxTreeValue ['x']
    (Fm.and (.cmp .eq false ['x'] 5) (.or (.cmp .eq true ['x'] 2) (.cmp .eq false ['y'] 9))).toTree = some 5 := by
  decide +kernel

example : minTreeValue (Fm.and (.cmp .eq false ['x'] 5) (.cmp .lt true ['x'] (-2))).toTree = -2 := by
  decide +kernel

end Gr1c
