import Verif.Form
import Verif.BddProps
import Verif.Realizable

/-!
# Model of the path from parse trees to the verdict, `/repo/src/main.c` 347-594

Only the steps that lead to the verdict of `check_realizable`; dumps, copies for the verification model,
interaction and output are not part of it. The winning-set computation works on sets of bit states; by
`existsmodal_pre` this is what the BDD operations compute.
-/

namespace Gr1c

open PTree

/-- Outcomes. -/
inductive PipeRes
  /-- `check_gr1c_form` failed: exit status 2 -/
  | formError
  /-- NULL dereference -/
  | ub
  /-- `expand_nonbool_GR1` reported an error: exit status -1 -/
  | error
  /-- `ptree_BDD` did not deliver a BDD for some formula -/
  | noBdd
  /-- numbers of environment and system bits, and the result of `check_realizable` -/
  | verdict (ne ns : ℕ) (r : Option (Finset (BState ne ns)))

/-- "Omission implies empty", `/repo/src/main.c` 361-388. -/
def omissionDefaults (sp : TSpec) : TSpec :=
  { sp with
    etrans := if sp.etrans = [] then [initPtree .const none 1] else sp.etrans
    strans := if sp.strans = [] then [initPtree .const none 1] else sp.strans
    sgoals := if sp.sgoals = [] then [initPtree .const none 1] else sp.sgoals }

/-- BDDs of an array of formulas, `/repo/src/solve_operators.c` 68-85. -/
def bddList (N : ℕ) (vl : PTree) : List PTree → Option (List (Bdd N))
  | [] => some []
  | t :: ts =>
    match ptreeBdd N vl t, bddList N vl ts with
    | .ok b, some bs => some (b :: bs)
    | _, _ => none

/-- BDD of a NULL-able formula, `/repo/src/solve.c` 852-863. -/
def bddOpt (N : ℕ) (vl : PTree) (t : PTree) : Option (Option (Bdd N)) :=
  if t = .nil then some none
  else
    match ptreeBdd N vl t with
    | .ok b => some (some b)
    | _ => none

/-- The BDDs of a specification over `ne` environment and `ns` system bits. -/
structure BitSpec (ne ns : ℕ) where
  etrans : Bdd (2 * (ne + ns))
  strans : Bdd (2 * (ne + ns))
  egoals : List (Bdd (2 * (ne + ns)))
  sgoals : List (Bdd (2 * (ne + ns)))
  einit : Option (Bdd (2 * (ne + ns)))
  sinit : Option (Bdd (2 * (ne + ns)))

namespace BitSpec

variable {ne ns : ℕ} (B : BitSpec ne ns)

/-- The transition relations as a game. -/
def game : Game (Val ne) (Val ns) := bitGame B.etrans B.strans
/-- Environment goals as sets of states. -/
def egs : List (Finset (BState ne ns)) := B.egoals.map statesOf
/-- System goals as sets of states. -/
def sgs : List (Finset (BState ne ns)) := B.sgoals.map statesOf
/-- ENVINIT as a set of states. -/
def ei : Option (Finset (BState ne ns)) := B.einit.map statesOf
/-- SYSINIT as a set of states. -/
def si : Option (Finset (BState ne ns)) := B.sinit.map statesOf

end BitSpec

/-- Merging (`/repo/src/main.c` 533-554) and building the BDDs (`/repo/src/solve_operators.c` 43-85,
`/repo/src/solve.c` 852-863); `vl` is the chained variable list. Merging a one-element array gives its
element, so the two branches of the C code are one here. The C code builds the same BDDs again for each
of its steps. -/
def buildBits (ne ns : ℕ) (vl : PTree) (sp : TSpec) : Option (BitSpec ne ns) :=
  match ptreeBdd (2 * (ne + ns)) vl (mergePtrees sp.etrans .and),
      ptreeBdd (2 * (ne + ns)) vl (mergePtrees sp.strans .and),
      bddList (2 * (ne + ns)) vl sp.egoals, bddList (2 * (ne + ns)) vl sp.sgoals,
      bddOpt (2 * (ne + ns)) vl sp.einit, bddOpt (2 * (ne + ns)) vl sp.sinit with
  | .ok et, .ok st, some eg, some sg, some ei, some si => some ⟨et, st, eg, sg, ei, si⟩
  | _, _, _, _, _, _ => none

/-- Outcomes of the steps before `check_realizable`. -/
inductive FrontRes
  | formError
  | ub
  | error
  | noBdd
  /-- expanded variable lists, list of integer variables, and the BDDs -/
  | ok (ev sv nonbool : PTree) (ne ns : ℕ) (B : BitSpec ne ns)

/-- `ptree_BDD` delivered all BDDs or not. -/
def frontBits (ev sv nb : PTree) {ne ns : ℕ} : Option (BitSpec ne ns) → FrontRes
  | none => .noBdd
  | some B => .ok ev sv nb ne ns B

/-- `/repo/src/main.c` 361-388 and 510-560: from the parse trees to the BDDs. -/
def frontEnd (evars svars : PTree) (flag : InitFlag) (sp : TSpec) : FrontRes :=
  if checkGr1cForm evars svars flag sp < 0 then .formError
  else
    match expandNonboolGR1 evars svars flag (omissionDefaults sp) with
    | .ub => .ub
    | .err => .error
    | .ok sp' =>
      match expandNonboolVariables evars svars with
      | none => .ub
      | some (ev, sv, nb) => frontBits ev sv nb (buildBits ev.size sv.size (chainVars ev sv) sp')

/-- `check_realizable`, `/repo/src/solve.c` 795-981. -/
def BitSpec.check {ne ns : ℕ} (B : BitSpec ne ns) (flag : InitFlag) : Option (Option (Finset (BState ne ns))) :=
  checkRealizable B.game B.egs B.sgs flag B.ei B.si

/-- `/repo/src/main.c` 347-594. -/
def pipeline (evars svars : PTree) (flag : InitFlag) (sp : TSpec) : PipeRes :=
  match frontEnd evars svars flag sp with
  | .formError => .formError
  | .ub => .ub
  | .error => .error
  | .noBdd => .noBdd
  | .ok _ _ _ ne ns B =>
    match B.check flag with
    | none => .ub
    | some r => .verdict ne ns r

end Gr1c
