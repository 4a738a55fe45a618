import Verif.Game

/-!
# Model of `check_realizable`
-/

namespace Gr1c

variable {E S : Type} [Fintype E] [DecidableEq E] [Fintype S] [DecidableEq S]

/-- `/repo/src/solve.h` / `/repo/src/common.h`: values of `init_flags`. -/
inductive InitFlag
  | undefined | allEnvExistSys | allInit | oneSide
  deriving DecidableEq

/-- A missing (NULL) initial formula is the constant True,
`/repo/src/solve.c` 151-162 and 852-863. -/
def initSet (f : Option (Finset (E × S))) : Finset (E × S) := f.getD Finset.univ

/-- `Cudd_bddExistAbstract` over the system variables (cube from `cube_sys`),
`/repo/src/solve.c` 902-921, as a set of states. -/
def existsSys (A : Finset (E × S)) : Finset (E × S) :=
  Finset.univ.filter fun s => ∃ x, (s.1, x) ∈ A

/-- `check_realizable_internal`, `/repo/src/solve.c` 803-981: `some W` for a non-NULL result.
`einit`, `sinit` are `none` when the formula is absent. -/
def checkRealizableInternal (W : Finset (E × S)) (flag : InitFlag)
    (einit sinit : Option (Finset (E × S))) : Option (Finset (E × S)) :=
  let e := initSet einit
  let x := initSet sinit
  match flag with
  | .allInit =>                                        -- 878-892
    let tmp := e ∩ x
    let tmp2 := tmp ∩ W
    if tmp = ∅ ∨ tmp ≠ tmp2 then none else some W
  | .allEnvExistSys =>                                 -- 894-933
    let tmp := x ∩ e
    let tmp3 := tmp ∩ W
    if existsSys tmp3 ≠ existsSys tmp then none else some W
  | .oneSide =>                                        -- 935-963
    match sinit with
    | none => if e ∩ W ≠ e then none else some W
    | some _ => if x ∩ W ≠ ∅ then some W else none
  | .undefined => none                                 -- 965-969

/-- `check_realizable`, `/repo/src/solve.c` 795-800. `none` on the outside: the fixpoint itself is
undefined (no system goals). -/
def checkRealizable (G : Game E S) (egs sgs : List (Finset (E × S))) (flag : InitFlag)
    (einit sinit : Option (Finset (E × S))) : Option (Option (Finset (E × S))) :=
  (computeWinningSet G egs sgs).map fun W => checkRealizableInternal W flag einit sinit

end Gr1c
