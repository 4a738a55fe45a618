import Verif.PTree

/-!
# Specification of formulas: syntax, meaning, and their parse trees

Independent of the C code except for `toTree`, which fixes what parse tree stands for which formula
(`/repo/doc/spc_format.md` 88-113, `/repo/include/ptree.h` 20-82).
-/

namespace Gr1c

/-- Comparison operators. -/
inductive CmpOp
  | eq | ne | lt | gt | le | ge
  deriving DecidableEq, Repr

/-- Formulas; `nx` tells whether the variable is primed. -/
inductive Fm
  | const (v : ℤ)
  | var (nx : Bool) (n : Name)
  | neg (f : Fm)
  | and (f g : Fm)
  | or (f g : Fm)
  | imp (f g : Fm)
  | equiv (f g : Fm)
  | cmp (op : CmpOp) (nx : Bool) (n : Name) (c : ℤ)
  deriving DecidableEq, Repr

/-- Values of the Boolean and of the integer variables, unprimed (`false`) and primed (`true`). -/
structure Env where
  b : Bool → Name → Bool
  z : Bool → Name → ℤ

/-- Meaning of a comparison. -/
def CmpOp.holds : CmpOp → ℤ → ℤ → Bool
  | .eq, x, c => decide (x = c)
  | .ne, x, c => decide (x ≠ c)
  | .lt, x, c => decide (x < c)
  | .gt, x, c => decide (x > c)
  | .le, x, c => decide (x ≤ c)
  | .ge, x, c => decide (x ≥ c)

/-- Meaning of a formula. -/
def Fm.eval (ρ : Env) : Fm → Bool
  | .const v => decide (v ≠ 0)
  | .var nx n => ρ.b nx n
  | .neg f => !f.eval ρ
  | .and f g => f.eval ρ && g.eval ρ
  | .or f g => f.eval ρ || g.eval ρ
  | .imp f g => !f.eval ρ || g.eval ρ
  | .equiv f g => f.eval ρ == g.eval ρ
  | .cmp op nx n c => op.holds (ρ.z nx n) c

/-- Node type of a comparison. -/
def CmpOp.ty : CmpOp → PTy
  | .eq => .eq | .ne => .noteq | .lt => .lt | .gt => .gt | .le => .le | .ge => .ge

/-- Node type of a variable. -/
def varTy (nx : Bool) : PTy := if nx then .next else .var

/-- The parse tree of a formula. -/
def Fm.toTree : Fm → PTree
  | .const v => .node .const none v .nil .nil
  | .var nx n => .node (varTy nx) (some n) 0 .nil .nil
  | .neg f => .node .neg none 0 .nil f.toTree
  | .and f g => .node .and none 0 f.toTree g.toTree
  | .or f g => .node .or none 0 f.toTree g.toTree
  | .imp f g => .node .imp none 0 f.toTree g.toTree
  | .equiv f g => .node .equiv none 0 f.toTree g.toTree
  | .cmp op nx n c =>
    .node op.ty none 0 (.node (varTy nx) (some n) 0 .nil .nil) (.node .const none c .nil .nil)

/-- Boolean variables of a formula. -/
def Fm.bvars : Fm → List (Bool × Name)
  | .const _ => []
  | .var nx n => [(nx, n)]
  | .neg f => f.bvars
  | .and f g => f.bvars ++ g.bvars
  | .or f g => f.bvars ++ g.bvars
  | .imp f g => f.bvars ++ g.bvars
  | .equiv f g => f.bvars ++ g.bvars
  | .cmp _ _ _ _ => []

/-- Integer variables of a formula. -/
def Fm.zvars : Fm → List (Bool × Name)
  | .const _ => []
  | .var _ _ => []
  | .neg f => f.zvars
  | .and f g => f.zvars ++ g.zvars
  | .or f g => f.zvars ++ g.zvars
  | .imp f g => f.zvars ++ g.zvars
  | .equiv f g => f.zvars ++ g.zvars
  | .cmp _ nx n _ => [(nx, n)]

/-- A formula has one parse tree and a parse tree stands for one formula. -/
theorem Fm.toTree_inj : ∀ {f g : Fm}, f.toTree = g.toTree → f = g := by
  intro f
  induction f with
  | const v => intro g h; (cases g <;> simp [Fm.toTree, varTy, CmpOp.ty] at h ⊢); exact h
  | var nx n =>
    intro g h
    cases g with
    | var nx' n' => cases nx <;> cases nx' <;> simp [Fm.toTree, varTy] at h ⊢ <;> exact h
    | cmp op _ _ _ => cases nx <;> cases op <;> simp [Fm.toTree, varTy, CmpOp.ty] at h
    | _ => cases nx <;> simp [Fm.toTree, varTy] at h
  | neg f ih =>
    intro g h
    cases g with
    | neg g => simp only [Fm.toTree, PTree.node.injEq, true_and] at h; rw [ih h]
    | var nx' _ => cases nx' <;> simp [Fm.toTree, varTy] at h
    | cmp op _ _ _ => cases op <;> simp [Fm.toTree, CmpOp.ty] at h
    | _ => simp [Fm.toTree] at h
  | and f1 f2 ih1 ih2 =>
    intro g h
    cases g with
    | and g1 g2 => simp only [Fm.toTree, PTree.node.injEq, true_and] at h; rw [ih1 h.1, ih2 h.2]
    | var nx' _ => cases nx' <;> simp [Fm.toTree, varTy] at h
    | cmp op _ _ _ => cases op <;> simp [Fm.toTree, CmpOp.ty] at h
    | _ => simp [Fm.toTree] at h
  | or f1 f2 ih1 ih2 =>
    intro g h
    cases g with
    | or g1 g2 => simp only [Fm.toTree, PTree.node.injEq, true_and] at h; rw [ih1 h.1, ih2 h.2]
    | var nx' _ => cases nx' <;> simp [Fm.toTree, varTy] at h
    | cmp op _ _ _ => cases op <;> simp [Fm.toTree, CmpOp.ty] at h
    | _ => simp [Fm.toTree] at h
  | imp f1 f2 ih1 ih2 =>
    intro g h
    cases g with
    | imp g1 g2 => simp only [Fm.toTree, PTree.node.injEq, true_and] at h; rw [ih1 h.1, ih2 h.2]
    | var nx' _ => cases nx' <;> simp [Fm.toTree, varTy] at h
    | cmp op _ _ _ => cases op <;> simp [Fm.toTree, CmpOp.ty] at h
    | _ => simp [Fm.toTree] at h
  | equiv f1 f2 ih1 ih2 =>
    intro g h
    cases g with
    | equiv g1 g2 => simp only [Fm.toTree, PTree.node.injEq, true_and] at h; rw [ih1 h.1, ih2 h.2]
    | var nx' _ => cases nx' <;> simp [Fm.toTree, varTy] at h
    | cmp op _ _ _ => cases op <;> simp [Fm.toTree, CmpOp.ty] at h
    | _ => simp [Fm.toTree] at h
  | cmp op nx n c =>
    intro g h
    cases g with
    | cmp op' nx' n' c' =>
      cases op <;> cases op' <;> cases nx <;> cases nx' <;>
        simp [Fm.toTree, CmpOp.ty, varTy] at h ⊢ <;> exact h
    | var nx' _ => cases op <;> cases nx' <;> simp [Fm.toTree, varTy, CmpOp.ty] at h
    | _ => cases op <;> simp [Fm.toTree, CmpOp.ty] at h

end Gr1c
