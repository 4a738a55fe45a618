import Verif.RmGoalSpec

/-!
# Specification for the insertion of a system goal

`/repo/include/patching.h` 48-67: the new goal is inserted in the order in which the goals are sought, after
the goal that is closest to it; without metric variables it "is appended at the end of the existing goal
visitation sequence". The result is a strategy for the enlarged list of goals.
-/

namespace Gr1c

variable {E S : Type} [Fintype E] [DecidableEq E] [Fintype S] [DecidableEq S]

/-- The list of goals with `new` after the goal `i`. -/
def insertGoal {n : ℕ} (sg : Fin n → Finset (E × S)) (i : Fin n) (new : Finset (E × S)) (l : Fin (n + 1)) :
    Finset (E × S) :=
  if h : l.val ≤ i.val then sg ⟨l.val, lt_of_le_of_lt h i.isLt⟩
  else if h' : l.val = i.val + 1 then new
  else sg ⟨l.val - 1, by have := l.isLt; omega⟩

/-- No node seeks a goal that its state already satisfies. -/
def Waits {n : ℕ} (sg : Fin n → Finset (E × S)) (st : Aut ℤ (E × S)) : Prop :=
  ∀ x ∈ st, ∀ i : Fin n, x.mode = (i.val : ℤ) → x.state ∉ sg i

/-- No state of the strategy satisfies both goals. -/
def Apart (A B : Finset (E × S)) (st : Aut ℤ (E × S)) : Prop := ∀ x ∈ st, x.state ∈ A → x.state ∉ B

end Gr1c
