import Verif.PTree
import Verif.Realizable

/-!
# Model of the expansion of integer variables, `/repo/src/util.c` 56-160 and 199-439

Messages and `verbose` are not modelled.
-/

namespace Gr1c

open PTree

/-- `get_list_item( t, -1 )->left = tail` for a non-NULL list `t`. -/
def spliceAfter (tail : PTree) : PTree → PTree
  | .nil => tail
  | .node ty nm v l r => .node ty nm v (spliceAfter tail l) r

/-- Expansion of one variable list, `/repo/src/util.c` 95-127 (and 129-157 for the system list): the
head is treated separately from the other entries in C only because it has no predecessor. `none`: NULL
dereference. -/
def expandVarList : PTree → Option PTree
  | .nil => some .nil
  | .node ty nm v l r =>
    if v ≥ 0 then
      match nm with
      | none => none
      | some name => (expandVarList l).map fun l' => spliceAfter l' (varToBool name v)
    else (expandVarList l).map fun l' => .node ty nm v l' r

/-- Collection of the integer variables, `/repo/src/util.c` 77-89. -/
def collectNonbool : PTree → PTree → PTree
  | acc, .nil => acc
  | acc, .node _ nm v l _ =>
    if v ≥ 0 then
      match acc with
      | .nil => collectNonbool (initPtree .var nm v) l
      | acc => collectNonbool (appendListItem acc .var nm v) l
    else collectNonbool acc l

/-- Chaining of the two lists, `/repo/src/util.c` 63-76 and 311-324. -/
def chainVars (evars svars : PTree) : PTree :=
  match evars with
  | .nil => svars
  | e => spliceAfter svars e

/-- `expand_nonbool_variables`, `/repo/src/util.c` 56-160: (environment list, system list, list of
integer variables). -/
def expandNonboolVariables (evars svars : PTree) : Option (PTree × PTree × PTree) :=
  let nonbool := collectNonbool .nil (chainVars evars svars)
  match expandVarList evars, expandVarList svars with
  | some e, some s => some (e, s, nonbool)
  | _, _ => none

/-- The formulas of a specification; NULL initial conditions are `nil`. -/
structure TSpec where
  einit : PTree
  sinit : PTree
  etrans : List PTree
  strans : List PTree
  egoals : List PTree
  sgoals : List PTree
  deriving DecidableEq

/-- `maxbitval`, `/repo/src/util.c` 221-222 and 269-270, with exact arithmetic. -/
def maxBitVal (v : ℤ) : ℤ := 2 ^ Nat.clog 2 (if v > 0 then v.toNat + 1 else 2)

/-- `f AND g` as built at `/repo/src/util.c` 230-234; a NULL `f` is first replaced by True (237-239). -/
def andInit (f g : PTree) : PTree :=
  .node .and none 0 (if f = .nil then initPtree .const none 1 else f) g

/-- Loop over the environment variables, `/repo/src/util.c` 213-259. -/
def blockEnv (flag : InitFlag) : PTree → TSpec → TSpec
  | .nil, sp => sp
  | .node _ nm v l _, sp =>
    if v = -1 then blockEnv flag l sp
    else if maxBitVal v - 1 > v then
      let un := unreachExpandedBool (nm.getD []) (v + 1) (maxBitVal v - 1)
      let sp1 :=
        if flag = .oneSide ∧ sp.sinit ≠ .nil then { sp with sinit := andInit sp.sinit (un .var) }
        else { sp with einit := andInit sp.einit (un .var) }
      blockEnv flag l { sp1 with etrans := sp1.etrans ++ [un .var, un .next] }
    else blockEnv flag l sp

/-- Loop over the system variables, `/repo/src/util.c` 261-309. -/
def blockSys (flag : InitFlag) : PTree → TSpec → TSpec
  | .nil, sp => sp
  | .node _ nm v l _, sp =>
    if v = -1 then blockSys flag l sp
    else if maxBitVal v - 1 > v then
      let un := unreachExpandedBool (nm.getD []) (v + 1) (maxBitVal v - 1)
      let sp1 :=
        if flag = .oneSide ∧ sp.sinit = .nil then { sp with einit := andInit sp.einit (un .var) }
        else { sp with sinit := andInit sp.sinit (un .var) }
      blockSys flag l { sp1 with strans := sp1.strans ++ [un .var, un .next] }
    else blockSys flag l sp

/-- Results of `expand_nonbool_GR1`. -/
inductive GRes
  /-- NULL dereference -/
  | ub
  /-- error message and -1 -/
  | err
  | ok (sp : TSpec)
  deriving DecidableEq

/-- Expand one variable in a NULL-able initial condition, `/repo/src/util.c` 328-355. -/
def expandInit (name : Name) (v : ℤ) (t : PTree) : Option (Option PTree) :=
  if t = .nil then some (some .nil)
  else
    match expandToBool name v t with
    | none => none
    | some .nil => some none
    | some t' => some (some t')

/-- Expand one variable in an array of formulas, `/repo/src/util.c` 356-427. Outer `none`: NULL
dereference; inner `none`: error return. -/
def expandArr (name : Name) (v : ℤ) : List PTree → Option (Option (List PTree))
  | [] => some (some [])
  | t :: ts =>
    match expandToBool name v t with
    | none => none
    | some .nil => some none
    | some t' =>
      match expandArr name v ts with
      | none => none
      | some none => some none
      | some (some ts') => some (some (t' :: ts'))

/-- Expand one variable everywhere, `/repo/src/util.c` 327-427. (An error in a later formula cannot
hide a NULL dereference in an earlier one: they are processed in this order.) -/
def expandVarSpec (name : Name) (v : ℤ) (sp : TSpec) : GRes :=
  match expandInit name v sp.sinit with
  | none => .ub
  | some none => .err
  | some (some si) =>
    match expandInit name v sp.einit with
    | none => .ub
    | some none => .err
    | some (some ei) =>
      match expandArr name v sp.etrans with
      | none => .ub
      | some none => .err
      | some (some et) =>
        match expandArr name v sp.strans with
        | none => .ub
        | some none => .err
        | some (some st) =>
          match expandArr name v sp.egoals with
          | none => .ub
          | some none => .err
          | some (some eg) =>
            match expandArr name v sp.sgoals with
            | none => .ub
            | some none => .err
            | some (some sg) => .ok ⟨ei, si, et, st, eg, sg⟩

/-- Loop over all variables, `/repo/src/util.c` 325-431. -/
def expandAll : PTree → TSpec → GRes
  | .nil, sp => .ok sp
  | .node _ nm v l _, sp =>
    if v ≥ 0 then
      match expandVarSpec (nm.getD []) v sp with
      | .ok sp' => expandAll l sp'
      | .err => .err
      | .ub => .ub
    else expandAll l sp

/-- `expand_nonbool_GR1`, `/repo/src/util.c` 199-439. (The variable lists are chained while running and
separated afterwards; on an error return they stay chained.) -/
def expandNonboolGR1 (evars svars : PTree) (flag : InitFlag) (sp : TSpec) : GRes :=
  expandAll (chainVars evars svars)
    (blockSys flag svars (blockEnv flag evars sp))

end Gr1c
