import Verif.Bits
import Mathlib.Data.List.Basic

/-!
# Model of parse trees, `/repo/src/ptree.c`

`NULL` is `PTree.nil`. Trees are values: functions that modify a tree in place return the modified
tree. `malloc` failures (the program exits) are not modelled. Names are lists of characters.
-/

namespace Gr1c

/-- Variable names. -/
abbrev Name := List Char

/-- Node types, `/repo/include/ptree.h` 30-53. -/
inductive PTy
  | empty | var | next | const | neg | and | or | imp | eq | equiv | lt | gt | le | ge | noteq
  deriving DecidableEq, Repr

/-- `ptree_t`, `/repo/include/ptree.h` 56-82. For node types other than variables and constants the C
code leaves `value` uninitialised and never reads it; here it is 0. -/
inductive PTree
  | nil
  | node (ty : PTy) (name : Option Name) (value : ℤ) (left right : PTree)
  deriving DecidableEq, Repr

namespace PTree

/-- Number of nodes; also `tree_size`, `/repo/src/ptree.c` 522-527. -/
def size : PTree → ℕ
  | nil => 0
  | node _ _ _ l r => 1 + l.size + r.size

def left : PTree → PTree
  | nil => nil
  | node _ _ _ l _ => l

def right : PTree → PTree
  | nil => nil
  | node _ _ _ _ r => r

/-- `p->left = l` for a non-NULL `p`. -/
def setLeft (l : PTree) : PTree → PTree
  | nil => nil
  | node ty nm v _ r => node ty nm v l r

end PTree

open PTree

/-- `init_ptree`, `/repo/src/ptree.c` 20-48: the name is kept only for variables, the value only for
variables and constants. -/
def initPtree (ty : PTy) (name : Option Name) (value : ℤ) : PTree :=
  if ty = .var ∨ ty = .next then .node ty name value .nil .nil
  else if ty = .const then .node ty none value .nil .nil
  else .node ty none 0 .nil .nil

/-- `copy_ptree`, `/repo/src/ptree.c` 51-70 (`init_ptree` never returns NULL). -/
def copyPtree : PTree → PTree
  | .nil => .nil
  | .node ty nm v l r =>
    match initPtree ty nm v with
    | .nil => .nil
    | .node ty' nm' v' _ _ => .node ty' nm' v' (copyPtree l) (copyPtree r)

/-- Combination of a child's value in `min_tree_value` and `max_tree_value`,
`/repo/src/ptree.c` 107-121 and 139-153; -9999 means "none". -/
def combineVal (better : ℤ → ℤ → Bool) (child cur : ℤ) : ℤ :=
  if child ≠ -9999 ∧ cur ≠ -9999 then (if better child cur then child else cur)
  else if child ≠ -9999 then child
  else cur

/-- `min_tree_value`, `/repo/src/ptree.c` 92-122. -/
def minTreeValue : PTree → ℤ
  | .nil => -9999
  | .node ty _ v l r =>
    let m0 := if ty = .const then v else -9999
    let m1 := combineVal (fun a b => decide (a < b)) (minTreeValue l) m0
    combineVal (fun a b => decide (a < b)) (minTreeValue r) m1

/-- `max_tree_value`, `/repo/src/ptree.c` 124-154. -/
def maxTreeValue : PTree → ℤ
  | .nil => -9999
  | .node ty _ v l r =>
    let m0 := if ty = .const then v else -9999
    let m1 := combineVal (fun a b => decide (a > b)) (maxTreeValue l) m0
    combineVal (fun a b => decide (a > b)) (maxTreeValue r) m1

/-- `!strncmp(s, name, strlen(name))` for a string `s` of a variable node. -/
def prefixMatch (name : Name) (s : Option Name) : Bool :=
  match s with
  | none => false
  | some n => name.isPrefixOf n

def isVarTy (ty : PTy) : Bool := ty == .var || ty == .next

/-- The constant compared with a variable whose name starts with `name`, else -9999;
`/repo/src/ptree.c` 163-181. `none`: a child of an equality node is NULL. -/
def eqConst (name : Name) (l r : PTree) : Option ℤ :=
  match l, r with
  | .node lty ln lv _ _, .node rty rn rv _ _ =>
    if isVarTy lty && (rty == .const) && prefixMatch name ln then some rv
    else if isVarTy rty && (lty == .const) && prefixMatch name rn then some lv
    else some (-9999)
  | _, _ => none

/-- `rmin_tree_value` and `rmax_tree_value`, `/repo/src/ptree.c` 156-242. `none`: NULL
dereference. -/
def rTreeValue (better : ℤ → ℤ → Bool) (name : Name) : PTree → Option ℤ
  | .nil => some (-9999)
  | .node ty _ _ l r => do
    let m0 ← if ty = .eq then eqConst name l r else some (-9999)
    let a ← rTreeValue better name l
    let b ← rTreeValue better name r
    return combineVal better b (combineVal better a m0)

def rminTreeValue (name : Name) (t : PTree) : Option ℤ := rTreeValue (fun a b => decide (a < b)) name t
def rmaxTreeValue (name : Name) (t : PTree) : Option ℤ := rTreeValue (fun a b => decide (a > b)) name t

/-! ## Lists (linked through `left`) -/

/-- Does some node of the list carry this name? Loop at `/repo/src/ptree.c` 258-262. -/
def nameInList (name : Option Name) : PTree → Bool
  | .nil => false
  | .node _ nm _ l _ => name == nm || nameInList name l

/-- `check_vars`, `/repo/src/ptree.c` 245-282: the first offending name (with `'` if primed), or NULL. -/
def checkVars (vars nexts : PTree) : PTree → Option Name
  | .nil => none
  | .node ty nm _ l r =>
    let here :=
      if ty = .var ∧ nameInList nm vars = false then some (nm.getD [])
      else if ty = .next ∧ nameInList nm nexts = false then some (nm.getD [] ++ ['\''])
      else none
    match here with
    | some n => some n
    | none =>
      match checkVars vars nexts l with
      | some n => some n
      | none => checkVars vars nexts r

/-- `append_list_item`, `/repo/src/ptree.c` 659-671: the list afterwards. (The C function returns the
new node.) -/
def appendListItem (head : PTree) (ty : PTy) (name : Option Name) (value : ℤ) : PTree :=
  match head with
  | .nil => initPtree ty name value
  | .node ty' nm' v' l r => .node ty' nm' v' (appendListItem l ty name value) r

/-- Walk used by `get_list_item` for `index >= 0`, `/repo/src/ptree.c` 1131-1137. -/
def getListWalk : ℕ → PTree → PTree
  | _, .nil => .nil
  | 0, t => t
  | i + 1, .node _ _ _ l _ => getListWalk i l

/-- Last node of a list, `/repo/src/ptree.c` 1125-1129. -/
def lastItem : PTree → PTree
  | .nil => .nil
  | .node ty nm v .nil r => .node ty nm v .nil r
  | .node _ _ _ (.node ty nm v l r) _ => lastItem (.node ty nm v l r)

/-- `get_list_item`, `/repo/src/ptree.c` 1120-1138. -/
def getListItem (head : PTree) (index : ℤ) : PTree :=
  if index < -1 then .nil
  else if index = -1 then lastItem head
  else getListWalk index.toNat head

/-- `find_list_item`, `/repo/src/ptree.c` 1090-1117, from index `i`. -/
def findListFrom (ty : PTy) (name : Option Name) (value : ℤ) : ℤ → PTree → ℤ
  | _, .nil => -1
  | i, .node ty' nm' v' l _ =>
    if ty' = ty ∧
        (if ty' = .var ∨ ty' = .next then name ≠ none ∧ nm' = name
         else if ty' = .const then v' = value else True)
    then i
    else findListFrom ty name value (i + 1) l

def findListItem (head : PTree) (ty : PTy) (name : Option Name) (value : ℤ) : ℤ :=
  findListFrom ty name value 0 head

/-- Unlink the successor of the node at distance `k`, `/repo/src/ptree.c` 706-716; the list afterwards.
`none`: NULL dereference. -/
def unlinkAfter : ℕ → PTree → Option PTree
  | _, .nil => none
  | 0, .node ty nm v l r =>
    match l with
    | .nil => none
    | .node _ _ _ l' _ => some (.node ty nm v l' r)
  | k + 1, .node ty nm v l r => (unlinkAfter k l).map fun l' => .node ty nm v l' r

/-- Result of `remove_list_item`. -/
inductive RemRes
  /-- NULL dereference -/
  | ub
  /-- error message, NULL returned, list unchanged -/
  | err
  /-- the list afterwards and the node (with its tail) whose address is returned -/
  | ok (list ret : PTree)
  deriving DecidableEq

/-- `remove_list_item`, `/repo/src/ptree.c` 674-719. -/
def removeListItem (head : PTree) (index : ℤ) : RemRes :=
  let length : ℤ := head.size
  if head = .nil then .err
  else if index < -1 ∨ index ≥ length then .err
  else if index = 0 ∨ (length = 1 ∧ index = -1) then .ok head.left head.left
  else
    let index := if index = -1 then length - 1 else index
    match unlinkAfter (index.toNat - 1) head with
    | none => .ub
    | some l => .ok l (getListWalk (index.toNat - 1) l)

/-! ## Building formulas -/

/-- Loop of `merge_ptrees`, `/repo/src/ptree.c` 639-653, reading the array from its end. -/
def mergeLoop (ty : PTy) : List PTree → PTree
  | [] => .nil
  | [a] => a
  | b :: rest => .node ty none 0 (mergeLoop ty rest) b

/-- `merge_ptrees`, `/repo/src/ptree.c` 615-656; `len` is the length of the list. -/
def mergePtrees (heads : List PTree) (ty : PTy) : PTree :=
  match heads with
  | [] => .nil
  | [a] => a
  | _ => if ty = .and ∨ ty = .or ∨ ty = .imp then mergeLoop ty heads.reverse else .nil

/-- `pusht_terminal`, `/repo/src/ptree.c` 722-729. -/
def pushtTerminal (head : PTree) (ty : PTy) (name : Option Name) (value : ℤ) : PTree :=
  setLeft head (initPtree ty name value)

/-- Does the walk of `pusht_operator` stop at this node type? `/repo/src/ptree.c` 743-746. -/
def stopTy (ty : PTy) : Bool :=
  ty == .empty || ty == .var || ty == .next || ty == .const || ty == .neg

/-- `/repo/src/ptree.c` 741-750: cut the tree at the left end of the top formula: (rest of the stack,
tree without it). -/
def cutStack : PTree → PTree × PTree
  | .nil => (.nil, .nil)
  | .node ty nm v l r =>
    if l = .nil ∨ stopTy ty then (l, .node ty nm v .nil r)
    else ((cutStack l).1, .node ty nm v (cutStack l).2 r)

/-- `pusht_operator`, `/repo/src/ptree.c` 732-754. -/
def pushtOperator (head : PTree) (ty : PTy) : PTree :=
  match head with
  | .nil => .nil
  | _ =>
    match initPtree ty none 0 with
    | .nil => .nil
    | .node ty' nm' v' _ _ => .node ty' nm' v' (cutStack head).1 (cutStack head).2

/-! ## Integer variables -/

/-- Decimal digits, as printed by `%d` for a nonnegative number. -/
def decimal (i : ℕ) : List Char := Nat.toDigits 10 i

/-- Name of bit `i`: `snprintf( varname, 1024, "%s%d", name, i )`, `/repo/src/ptree.c` 296-300. -/
def bitName (name : Name) (i : ℕ) : Name := (name ++ decimal i).take 1023

/-- The loop of `var_to_bool`, `/repo/src/ptree.c` 299-302: bits `i .. i+k`. -/
def varToBoolLoop (name : Name) : ℕ → ℕ → PTree → PTree
  | 0, _, head => head
  | k + 1, i, head => varToBoolLoop name k (i + 1) (appendListItem head .var (some (bitName name i)) 0)

/-- `var_to_bool`, `/repo/src/ptree.c` 286-305 (`name` not NULL). `ceil(log2(maxval+1))` is taken to
be computed exactly. -/
def varToBool (name : Name) (maxval : ℤ) : PTree :=
  if maxval < 0 then .nil
  else
    let bits := Nat.clog 2 (maxval.toNat + 1)
    varToBoolLoop name (bits - 1) 1 (initPtree .var (some (bitName name 0)) 0)

/-- Comparison node types handled by `expand_nonbool_varnum`, `/repo/src/ptree.c` 319-321. -/
def isCmpTy (ty : PTy) : Bool :=
  ty == .lt || ty == .gt || ty == .le || ty == .ge || ty == .noteq

/-- The node `name = i`, `/repo/src/ptree.c` 365-367 and 392-394. -/
def eqNode (tense : PTy) (name : Name) (i : ℤ) : PTree :=
  .node .eq none 0 (initPtree tense (some name) 0) (initPtree .const none i)

/-- The disjunction of `name = i` for `min <= i <= max`, `/repo/src/ptree.c` 386-396. -/
def eqRange (tense : PTy) (name : Name) (min max : ℤ) : PTree :=
  mergePtrees ((List.range (max - min + 1).toNat).map fun (k : ℕ) => eqNode tense name (min + k)) .or

/-- The part of `expand_nonbool_varnum` after the relevant node was recognised,
`/repo/src/ptree.c` 343-398. -/
def expandCmp (op : PTy) (tense : PTy) (name : Name) (val maxval : ℤ) : PTree :=
  if (op = .lt ∧ val ≤ 0) ∨ (op = .gt ∧ val ≥ maxval) ∨ (op = .le ∧ val < 0) ∨ (op = .ge ∧ val > maxval)
  then initPtree .const none 0
  else if op = .noteq ∧ (val < 0 ∨ val > maxval) then initPtree .const none 1
  else if op = .noteq then
    mergePtrees (((List.range (maxval + 1).toNat).filter fun (k : ℕ) => (k : ℤ) ≠ val).map
      fun (k : ℕ) => eqNode tense name k) .or
  else if op = .lt then eqRange tense name 0 (val - 1)
  else if op = .gt then eqRange tense name (val + 1) maxval
  else if op = .le then eqRange tense name 0 val
  else eqRange tense name val maxval

/-- `expand_nonbool_varnum`, `/repo/src/ptree.c` 311-399. `none`: NULL dereference. -/
def expandNonboolVarnum (name : Name) (maxval : ℤ) : PTree → Option PTree
  | .nil => some .nil
  | .node ty nm v l r =>
    if isCmpTy ty then
      match l, r with
      | .node lty ln lv ll lr, .node rty rn rv rl rr =>
        if (isVarTy lty ∧ rty = .const ∧ ln = some name) ∨ (isVarTy rty ∧ lty = .const ∧ rn = some name) then
          -- 330-338: the operator is not mirrored when the constant is on the left
          if lty = .const then some (expandCmp ty rty name lv maxval)
          else some (expandCmp ty lty name rv maxval)
        else some (.node ty nm v (.node lty ln lv ll lr) (.node rty rn rv rl rr))
      | _, _ => none
    else some (.node ty nm v l r)

/-- The conjunction of literals for `name = val`, `/repo/src/ptree.c` 459-478; `val` is in range. The
list nodes are detached from the end, so looking up the remaining ones is unaffected. -/
def eqBits (bits : ℕ) (varlist : PTree) (isNext : Bool) (val : ℤ) : PTree :=
  mergePtrees ((List.range bits).map fun (i : ℕ) =>
    let lit : PTree :=
      match getListItem varlist i with
      | .nil => .nil
      | .node ty nm v _ _ => .node (if isNext then .next else ty) nm v .nil .nil
    if intBit val i then lit else .node .neg none 0 .nil lit) .and

/-- Number of comparison nodes; only for termination. -/
def PTree.cmps : PTree → ℕ
  | .nil => 0
  | .node ty _ _ l r => (if isCmpTy ty then 1 else 0) + l.cmps + r.cmps

theorem cmps_eqNode (tense : PTy) (ht : isCmpTy tense = false) (name : Name) (i : ℤ) :
    (eqNode tense name i).cmps = 0 := by
  unfold eqNode initPtree
  by_cases h : tense = .var ∨ tense = .next
  · rw [if_pos h]; rcases h with rfl | rfl <;> rfl
  · rw [if_neg h]
    by_cases h2 : tense = .const
    · subst h2; simp [PTree.cmps, isCmpTy]
    · rw [if_neg h2]; simp only [PTree.cmps, ht]; simp [isCmpTy, PTree.cmps]

theorem cmps_mergeLoop (ty : PTy) (ht : isCmpTy ty = false) (l : List PTree)
    (h : ∀ t ∈ l, t.cmps = 0) : (mergeLoop ty l).cmps = 0 := by
  induction l with
  | nil => rfl
  | cons a l ih =>
    cases l with
    | nil => exact h a List.mem_cons_self
    | cons b l =>
      have h1 := ih fun t ht => h t (List.mem_cons_of_mem _ ht)
      have h2 := h a List.mem_cons_self
      simp only [mergeLoop, PTree.cmps, ht] at h1 ⊢
      rw [h1, h2]; rfl

theorem cmps_mergePtrees (ty : PTy) (ht : isCmpTy ty = false) (l : List PTree)
    (h : ∀ t ∈ l, t.cmps = 0) : (mergePtrees l ty).cmps = 0 := by
  unfold mergePtrees
  split
  · rfl
  · exact h _ List.mem_cons_self
  · split
    · exact cmps_mergeLoop ty ht _ (by simpa using h)
    · rfl

theorem cmps_expandCmp (op tense : PTy) (ht : isCmpTy tense = false) (name : Name) (val maxval : ℤ) :
    (expandCmp op tense name val maxval).cmps = 0 := by
  have hr : ∀ a b, (eqRange tense name a b).cmps = 0 := by
    intro a b
    unfold eqRange
    apply cmps_mergePtrees _ rfl
    intro t h
    obtain ⟨k, _, rfl⟩ := List.mem_map.1 h
    exact cmps_eqNode tense ht name _
  unfold expandCmp
  split
  · rfl
  · split
    · rfl
    · split
      · apply cmps_mergePtrees _ rfl
        intro t h
        obtain ⟨k, _, rfl⟩ := List.mem_map.1 h
        exact cmps_eqNode tense ht name _
      · split
        · exact hr _ _
        · split
          · exact hr _ _
          · split <;> exact hr _ _

theorem cmps_varnum {name : Name} {maxval : ℤ} {t t' : PTree}
    (h : expandNonboolVarnum name maxval t = some t') : t' = t ∨ (t'.cmps = 0 ∧ 0 < t.cmps) := by
  cases t with
  | nil => simp [expandNonboolVarnum] at h; exact Or.inl h.symm
  | node ty nm v l r =>
    simp only [expandNonboolVarnum] at h
    by_cases hc : isCmpTy ty
    · rw [if_pos hc] at h
      have hpos : ∀ l r, 0 < (PTree.node ty nm v l r).cmps := by
        intro l r; simp only [PTree.cmps, hc]; simp
      split at h
      · split at h
        · rename_i hcond
          split at h
          · rename_i hlt
            simp only [Option.some.injEq] at h
            subst h
            right
            refine ⟨cmps_expandCmp _ _ ?_ _ _ _, hpos _ _⟩
            rcases hcond with ⟨h1, _⟩ | ⟨h1, _⟩
            · rw [hlt] at h1; simp [isVarTy] at h1
            · simp only [isVarTy, Bool.or_eq_true, beq_iff_eq] at h1
              rcases h1 with h1 | h1 <;> rw [h1] <;> rfl
          · rename_i hlt
            simp only [Option.some.injEq] at h
            subst h
            right
            refine ⟨cmps_expandCmp _ _ ?_ _ _ _, hpos _ _⟩
            rcases hcond with ⟨h1, _⟩ | ⟨_, h1, _⟩
            · simp only [isVarTy, Bool.or_eq_true, beq_iff_eq] at h1
              rcases h1 with h1 | h1 <;> rw [h1] <;> rfl
            · exact absurd h1 hlt
        · simp only [Option.some.injEq] at h; exact Or.inl h.symm
      · simp at h
    · rw [if_neg hc] at h
      simp only [Option.some.injEq] at h; exact Or.inl h.symm

/-- Is this a node `name = c` or `c = name`? `/repo/src/ptree.c` 422-426. `none`: NULL dereference
(a child is NULL, or a non-constant child without a name is passed to `strcmp`). -/
def eqMatches (name : Name) (l r : PTree) : Option Bool :=
  match l, r with
  | .node lty ln _ _ _, .node rty rn _ _ _ =>
    if lty ≠ .const then
      match ln with
      | none => none
      | some n =>
        if n = name then some true
        else if rty ≠ .const then rn.map (· == name) else some false
    else if rty ≠ .const then rn.map (· == name) else some false
  | _, _ => none

/-- `/repo/src/ptree.c` 428-480: the tree replacing `name = val` (`l`, `r` the children). -/
def expandEq (name : Name) (maxval : ℤ) (l r : PTree) : PTree :=
  let bits := if maxval > 0 then Nat.clog 2 (maxval.toNat + 1) else 1
  let varlist := varToBool name maxval
  if varlist = .nil then .nil
  else
    match l, r with
    | .node lty _ lv _ _, .node rty _ rv _ _ =>
      let val := if lty = .const then lv else rv
      let isNext := if lty = .const then decide (rty ≠ .var) else decide (lty ≠ .var)
      if val > 2 ^ bits - 1 ∨ val < 0 then initPtree .const none 0
      else eqBits bits varlist isNext val
    | _, _ => .nil

/-- `expand_to_bool`, `/repo/src/ptree.c` 402-488. `none`: NULL dereference. `pow(2, num_bits)` and
`ceil(log2(..))` are taken to be exact. -/
def expandToBool (name : Name) (maxval : ℤ) (t : PTree) : Option PTree :=
  match t with
  | .nil => some .nil
  | .node ty nm v l r =>
    match hv : expandNonboolVarnum name maxval (.node ty nm v l r) with
    | none => none
    | some .nil => none
    | some (.node ty' nm' v' l' r') =>
      if ty' = .eq then
        match eqMatches name l' r' with
        | none => none
        | some true => some (expandEq name maxval l' r')
        | some false => do
          let a ← expandToBool name maxval l'
          let b ← expandToBool name maxval r'
          return .node ty' nm' v' a b
      else do
        let a ← expandToBool name maxval l'
        let b ← expandToBool name maxval r'
        return .node ty' nm' v' a b
termination_by (t.cmps, t.size)
decreasing_by
  all_goals
    rcases cmps_varnum hv with h | ⟨h1, h2⟩
    · obtain ⟨rfl, rfl, rfl, rfl, rfl⟩ := PTree.node.inj h
      simp only [PTree.cmps, PTree.size]
      by_cases hc : (if isCmpTy ty' = true then 1 else 0) + l'.cmps + r'.cmps = l'.cmps
      · rw [Prod.lex_def]
        simp only
        omega
      · rw [Prod.lex_def]
        simp only
        omega
    · apply Prod.Lex.left
      simp only [PTree.cmps] at h1
      omega

/-- `unreach_expanded_bool`, `/repo/src/ptree.c` 491-519. -/
def unreachLoop (name : Name) (ty : PTy) (lower : ℤ) : ℕ → PTree
  | 0 => .node .neg none 0 .nil (eqNode ty name lower)
  | k + 1 => .node .and none 0 (.node .neg none 0 .nil (eqNode ty name (lower + (k + 1 : ℕ))))
      (unreachLoop name ty lower k)

def unreachExpandedBool (name : Name) (lower upper : ℤ) (ty : PTy) : PTree :=
  if lower > upper then .nil
  else if ¬ (ty = .var ∨ ty = .next) then .nil
  else unreachLoop name ty lower (upper - lower).toNat

end Gr1c
