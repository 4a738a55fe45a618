import Verif.ExpandProps

/-!
# C16, C20: copies of formulas, and the error branch of the expansion

`gr1c -P` keeps copies of the formulas before they are expanded (`/repo/src/main.c` 484-512).
-/

namespace Gr1c

open PTree

/-! ## `copy_ptree` -/

/-- Every node is one that `init_ptree` can make: operators have neither a name nor a value, constants have no name. -/
def PTree.Made : PTree → Prop
  | .nil => True
  | .node ty nm v l r => (isVarTy ty = true ∨ nm = none) ∧ (isVarTy ty = true ∨ ty = .const ∨ v = 0) ∧ l.Made ∧ r.Made

/-- **C20, C22.** `copy_ptree` makes an equal tree of every tree made with `init_ptree`, and of no other tree. -/
theorem copy_exact (t : PTree) : copyPtree t = t ↔ t.Made := by
  induction t with
  | nil => simp [copyPtree, PTree.Made]
  | node ty nm v l r hl hr =>
    unfold copyPtree PTree.Made initPtree
    by_cases h1 : ty = .var ∨ ty = .next
    · have : isVarTy ty = true := by rcases h1 with rfl | rfl <;> rfl
      simp [h1, this, hl, hr]
    · have h2 : isVarTy ty = false := by
        unfold isVarTy
        simp only [not_or] at h1
        simp [h1.1, h1.2]
      by_cases h3 : ty = .const
      · subst h3
        simp only [reduceCtorEq, or_self, if_false, if_true, PTree.node.injEq, true_and, hl, hr, isVarTy]
        have e : (none = nm) = (nm = none) := propext eq_comm
        rw [e]
        simp
      · simp only [h1, h3, if_false, h2, Bool.false_eq_true, false_or, PTree.node.injEq, true_and, hl, hr]
        have e : (none = nm) = (nm = none) := propext eq_comm
        have e' : (0 = v) = (v = 0) := propext eq_comm
        rw [e, e']

/-- **C20.** A formula is copied unchanged. -/
theorem copy_formula (f : Fm) : copyPtree f.toTree = f.toTree := by
  rw [copy_exact]
  induction f with
  | const v => simp [Fm.toTree, PTree.Made]
  | var nx n => cases nx <;> simp [Fm.toTree, PTree.Made, varTy, isVarTy]
  | neg f ih => simp [Fm.toTree, PTree.Made, ih]
  | and f g hf hg => simp [Fm.toTree, PTree.Made, hf, hg]
  | or f g hf hg => simp [Fm.toTree, PTree.Made, hf, hg]
  | imp f g hf hg => simp [Fm.toTree, PTree.Made, hf, hg]
  | equiv f g hf hg => simp [Fm.toTree, PTree.Made, hf, hg]
  | cmp op nx n c => cases nx <;> simp [Fm.toTree, PTree.Made, varTy, isVarTy]

example : copyPtree (Fm.imp (.var false ['a']) (.cmp .le true ['y'] 3)).toTree = (Fm.imp (.var false ['a']) (.cmp .le true ['y'] 3)).toTree :=
  copy_formula _

/-- A tree that `init_ptree` cannot make. -/
example : copyPtree (.node .and (some ['a']) 0 .nil .nil) ≠ .node .and (some ['a']) 0 .nil .nil := by decide +kernel

/-! ## `expand_to_bool` never returns NULL for a formula -/

theorem expandEq_ne_nil (name : Name) (maxval : ℤ) (hm : 0 ≤ maxval) {l r : PTree} (hl : l ≠ .nil) (hr : r ≠ .nil) :
    expandEq name maxval l r ≠ .nil := by
  have hv := varToBool_eq name maxval hm
  have hne : varToBool name maxval ≠ .nil := by
    rw [hv]
    have := domBits_pos maxval
    obtain ⟨m, hm⟩ : ∃ m, domBits maxval = m + 1 := ⟨domBits maxval - 1, by omega⟩
    rw [hm]
    simp only [bitItems, List.range_succ_eq_map, List.map_cons, ofItems]
    simp
  cases l with
  | nil => exact absurd rfl hl
  | node lty ln lv ll lr =>
    cases r with
    | nil => exact absurd rfl hr
    | node rty rn rv rl rr =>
      unfold expandEq
      simp only [if_neg hne]
      rw [bits_eq_domBits maxval hm, hv]
      simp only [eqBits_toTree name _ (domBits_pos maxval)]
      split <;> split <;> first | exact toTree_ne_nil _ | simp [initPtree]

/-- **C16.** `expand_to_bool` does not return NULL for a tree that is not NULL, so the error branches of
`expand_nonbool_GR1` (`/repo/src/util.c` 333-337 and so on) are never taken. -/
theorem expand_not_null (name : Name) (maxval : ℤ) (hm : 0 ≤ maxval) (t : PTree) (h : expandToBool name maxval t = some .nil) :
    t = .nil := by
  cases t with
  | nil => rfl
  | node ty nm v l r =>
    exfalso
    rw [expandToBool.eq_def] at h
    simp only at h
    split at h
    · cases h
    · cases h
    · rename_i ty' nm' v' l' r' hv
      split at h
      · split at h
        · cases h
        · rename_i he
          have : l' ≠ .nil ∧ r' ≠ .nil := by
            constructor
            · rintro rfl
              simp [eqMatches] at he
            · rintro rfl
              cases l' <;> simp [eqMatches] at he
          exact expandEq_ne_nil name maxval hm this.1 this.2 (Option.some.inj h)
        · cases h1 : expandToBool name maxval l' <;> cases h2 : expandToBool name maxval r' <;> simp [h1, h2] at h
      · cases h1 : expandToBool name maxval l' <;> cases h2 : expandToBool name maxval r' <;> simp [h1, h2] at h

/-- The hypothesis holds for the empty tree; for a formula the result is another one. -/
example : expandToBool ['y'] 3 .nil = some .nil := expand_nil _ _

end Gr1c
