import Verif.Expand
import Verif.BddOps

/-!
# Model of `ptree_BDD` (`/repo/src/ptree.c` 964-1087) and `check_gr1c_form` (`/repo/src/util.c` 551-677)

BDDs are Boolean functions, see `Verif.BddOps`. Error messages are not modelled.
-/

namespace Gr1c

open PTree

/-- Outcomes of `ptree_BDD`. -/
inductive DRes (N : ℕ)
  /-- NULL dereference, or NULL passed to CUDD -/
  | ub
  /-- error message and `exit(-1)` -/
  | exit
  /-- NULL returned -/
  | null
  /-- a variable outside the `N` variables of the manager (CUDD would create it) -/
  | outside
  | ok (f : Bdd N)

/-- Combination of the two sub-BDDs, `/repo/src/ptree.c` 1022-1087. -/
def DRes.comb {N : ℕ} (op : Bdd N → Bdd N → Bdd N) (l r : DRes N) : DRes N :=
  match l with
  | .exit => .exit
  | .ub => .ub
  | .outside => .outside
  | .null =>
    -- the right subtree is still visited, and may exit
    match r with
    | .exit => .exit
    | _ => .ub
  | .ok f =>
    match r with
    | .exit => .exit
    | .ub => .ub
    | .outside => .outside
    | .null => .ub
    | .ok g => .ok (op f g)

/-- Variable case, `/repo/src/ptree.c` 983-1013; `off` is 0 or the number of variables. -/
def bddVarCase (N : ℕ) (varList : PTree) (name : Option Name) (off : ℕ) : DRes N :=
  let index := findListItem varList .var name 0
  if index < 0 then .exit
  else if h : off + index.toNat < N then .ok (cuddAnd (fun _ => true) (cuddVar ⟨off + index.toNat, h⟩))
  else .outside

/-- `ptree_BDD`, `/repo/src/ptree.c` 964-1087, for a manager with `N` variables. -/
def ptreeBdd (N : ℕ) (varList : PTree) : PTree → DRes N
  | .nil => .ub
  | .node ty nm v l r =>
    match ty with
    | .and => .comb cuddAnd (ptreeBdd N varList l) (ptreeBdd N varList r)
    | .or => .comb cuddOr (ptreeBdd N varList l) (ptreeBdd N varList r)
    | .imp => .comb (fun f g => cuddOr (cuddNot f) g) (ptreeBdd N varList l) (ptreeBdd N varList r)
    | .equiv =>
      .comb (fun f g => cuddAnd (cuddOr (cuddNot f) g) (cuddOr (cuddNot g) f))
        (ptreeBdd N varList l) (ptreeBdd N varList r)
    | .neg =>
      match ptreeBdd N varList r with
      | .ok f => .ok (cuddNot f)
      | .null => .ub
      | x => x
    | .var => bddVarCase N varList nm 0
    | .next => bddVarCase N varList nm varList.size
    | .const => if v = 0 then .ok (cuddNot fun _ => true) else .ok fun _ => true
    | _ => .null

/-- First formula of an array whose variables are not as required, `/repo/src/util.c` 618-667. -/
def arrayBad (vars nexts : PTree) (l : List PTree) : Bool :=
  l.any fun t => (checkVars vars nexts t).isSome

/-- `check_gr1c_form`, `/repo/src/util.c` 551-677: the value returned. (On an error return the lists
stay chained; not modelled.) `check_vars` on NULL finds nothing, so the NULL tests are not repeated. -/
def checkGr1cForm (evars svars : PTree) (flag : InitFlag) (sp : TSpec) : ℤ :=
  if evars.size = 0 ∧ svars.size = 0 then -1
  else if flag = .allEnvExistSys ∧ (checkVars evars .nil sp.einit).isSome then -1
  else if flag = .allEnvExistSys ∧ (checkVars svars .nil sp.sinit).isSome then -1
  else if flag = .oneSide ∧ sp.einit ≠ .nil ∧ sp.sinit ≠ .nil then -1
  else
    let all := chainVars svars evars
    if (checkVars all .nil sp.einit).isSome then -1
    else if (checkVars all .nil sp.sinit).isSome then -1
    else if arrayBad all evars sp.etrans then -1
    else if arrayBad all all sp.strans then -1
    else if arrayBad all .nil sp.egoals then -1
    else if arrayBad all .nil sp.sgoals then -1
    else 0

end Gr1c
