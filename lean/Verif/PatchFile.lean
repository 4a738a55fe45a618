import Verif.Patch
import Verif.Compact
import Verif.AutIO
import Verif.BddProps

/-!
# Model of `patch_localfixpoint` with its files, `/repo/src/patching.c` 352-1069

`Verif.Patch` starts from a loaded strategy, a neighbourhood and commands. Here these are read from the texts of the strategy
file and of the change file, with the expansion of variables that are not Boolean.

Simplified: the parts of the transition rules and the environment goals are Boolean functions (`ptree_BDD` is the subject of
`Verif.BddProps`); messages are left out; an automaton or a change file with a Boolean variable whose value is neither 0 nor 1 is
not modelled (outcome `odd`): the BDDs take every nonzero value for 1, comparisons of arrays do not.
-/

namespace Gr1c

/-- Outcome of a part of `patch_localfixpoint`: `err` is the return value NULL, `odd` is a value of a Boolean variable that is
neither 0 nor 1 (not modelled). -/
inductive PRes (α : Type)
  | ub | err | odd | timeout
  | ok (a : α)
  deriving DecidableEq

/-- The outcomes of `Verif.Patch` among them. -/
def SRes.toP {α : Type} : SRes α → PRes α
  | .ub => .ub
  | .err => .err
  | .timeout => .timeout
  | .ok a => .ok a

/-- What the function knows of the variables: numbers of variables as declared, variable lists after expansion, variables that
are not Boolean, and the array `offw` of `get_offsets_list` (`num_nonbool` is its length). -/
structure PatchVars where
  oe : ℕ
  os : ℕ
  ev : VarList
  sv : VarList
  nonbool : VarList
  offw : List (ℕ × ℕ)

/-- `num_env` -/
abbrev PatchVars.ne (w : PatchVars) : ℕ := w.ev.length

/-- `num_sys` -/
abbrev PatchVars.ns (w : PatchVars) : ℕ := w.sv.length

/-- The loop for `num_enonbool`, `/repo/src/patching.c` 432-434. `none`: the array is read beyond its end. -/
def countEnv (ne : ℕ) : List (ℕ × ℕ) → Option ℕ
  | [] => none
  | (s, _) :: r => if s < ne then (countEnv ne r).map (· + 1) else some 0

/-- `num_enonbool`; it is set and used only if there are variables that are not Boolean. -/
def PatchVars.enonbool (w : PatchVars) : Option ℕ := if w.offw = [] then some 0 else countEnv w.ne w.offw

/-! ## Values -/

/-- The Boolean values in an array of bits. `ub`: an element was never written. -/
def bitList : List (Option ℤ) → PRes (List Bool)
  | [] => .ok []
  | none :: _ => .ub
  | some v :: l =>
    match bitList l with
    | .ok bs => if v = 0 then .ok (false :: bs) else if v = 1 then .ok (true :: bs) else .odd
    | e => e

/-- A list of bits as a valuation. It has length `k` wherever this is used. -/
def asVal (k : ℕ) (bs : List Bool) : Val k := fun i => bs.getD i.val false

/-- A list of bits as a state: environment variables first. -/
def asState (ne ns : ℕ) (bs : List Bool) : BState ne ns := (asVal ne (bs.take ne), asVal ns (bs.drop ne))

/-- The array that is used for the values read: the values themselves if all variables are Boolean, else the array made by
`expand_nonbool_state`, whose NULL is an error. -/
def expandVals (boolOnly : Bool) (vs : List ℤ) (offw : List (ℕ × ℕ)) (len : ℕ) : PRes (List Bool) :=
  if boolOnly then bitList (vs.map some)
  else
    match expandNonboolState vs offw len with
    | .ub => .ub
    | .null => .err
    | .ok l => bitList l

/-- Are all variables Boolean? -/
def PatchVars.boolOnly (w : PatchVars) : Bool := w.offw.isEmpty

/-! ## The first part of the change file -/

/-- A line that is skipped, `/repo/src/patching.c` 476 and 709. -/
def blankLine (line : List Char) : Bool := line = [] || line.head? = some '\n' || line.head? = some '#'

/-- Result of the first loop: the states, and the text from the first command on (`none`: there is no command). -/
structure Hood (w : PatchVars) where
  states : List (BState w.ne w.ns)
  cmds : Option (List Char)

/-- The loop over the states of the neighbourhood, `/repo/src/patching.c` 473-523. The line that ends it is read again by `cmdLoop`;
the code keeps it in `line`. -/
def hoodLoop (w : PatchVars) (N : List (BState w.ne w.ns)) (f : List Char) : PRes (Hood w) :=
  if hf : f = [] then .ok ⟨N, none⟩
  else
    let line := cstr (fgets 1023 f).1
    let rest := (fgets 1023 f).2
    if blankLine line then hoodLoop w N rest
    else
      let vs := readStateStr line (w.oe + w.os)
      if vs = [] then .ok ⟨N, some f⟩
      else if vs.length < w.oe + w.os then .err
      else
        match expandVals w.boolOnly vs w.offw (w.ne + w.ns) with
        | .ok bs => hoodLoop w (N ++ [asState w.ne w.ns bs]) rest
        | .ub => .ub
        | .err => .err
        | .odd => .odd
        | .timeout => .timeout
termination_by f.length
decreasing_by all_goals exact fgets_length 1022 f hf

/-! ## Commands -/

/-- The effect of `restrict` and `relax` on the transition rules, `/repo/src/patching.c` 873-908: `unc` says that the number of
values is that of an uncontrolled edge, `k` is the number of bits of the target that are looked at, `tb` are its bits. -/
def edgeEffect {ne ns : ℕ} (relax unc : Bool) (k : ℕ) (s : BState ne ns) (tb : List Bool) (G : Game (Val ne) (Val ns)) :
    Game (Val ne) (Val ns) :=
  let hitE (a : BState ne ns) (b : Val ne) : Bool := a = s && (List.ofFn b).take k = tb.take k
  let hitS (a b : BState ne ns) : Bool := a = s && (List.ofFn b.1 ++ List.ofFn b.2).take k = tb.take k
  if unc then { G with etr := fun a b => if relax then hitE a b || G.etr a b else !hitE a b && G.etr a b }
  else { G with str := fun a b => if relax then hitS a b || G.str a b else !hitS a b && G.str a b }

/-- The affected nodes for `restrict` and `relax`, `/repo/src/patching.c` 790-871. -/
def edgeAffected {ne ns : ℕ} (n : ℕ) (N : List (BState ne ns)) (st : Aut ℤ (BState ne ns)) (relax ctl unc : Bool) (s : BState ne ns)
    (tb : List Bool) (a : List (ℤ × ℕ)) : SRes (List (ℤ × ℕ)) :=
  if relax then (if unc then affectedBy n N st (.relaxEnv s (asVal ne tb)) a else .ok a)
  else if ctl then affectedBy n N st (.restrictSys s (asState ne ns tb)) a else .ok a

/-- The game so far and the affected nodes so far. -/
abbrev CmdState (w : PatchVars) := Game (Val w.ne) (Val w.ns) × List (ℤ × ℕ)

/-- `restrict` and `relax`, `/repo/src/patching.c` 712-913; `args` is the text after the word and a blank. The array `doffw` is `offw`
twice, 436-442. In 876 the number of values read (variables as declared) is reduced by the number of bits. -/
def changeEdge (w : PatchVars) (ke n : ℕ) (N : List (BState w.ne w.ns)) (st : Aut ℤ (BState w.ne w.ns)) (relax : Bool)
    (args : List Char) (c : CmdState w) : PRes (CmdState w) :=
  let vs := readStateStr args (2 * (w.oe + w.os))
  let ctl := vs.length = 2 * (w.oe + w.os)
  let unc := vs.length = 2 * w.oe + w.os
  if ¬ ctl ∧ ¬ unc then .err
  else
    match expandVals w.boolOnly vs ((w.offw ++ w.offw).take (if ctl then 2 * w.offw.length else w.offw.length + ke))
        (if ctl then 2 * (w.ne + w.ns) else 2 * w.ne + w.ns) with
    | .ub => .ub
    | .err => .err
    | .odd => .odd
    | .timeout => .timeout
    | .ok bs =>
      let s := asState w.ne w.ns (bs.take (w.ne + w.ns))
      let tb := bs.drop (w.ne + w.ns)
      match (edgeAffected n N st relax ctl unc s tb c.2).toP with
      | .ok a => .ok (edgeEffect relax unc (vs.length - (w.ne + w.ns)) s tb c.1, a)
      | .ub => .ub
      | .err => .err
      | .odd => .odd
      | .timeout => .timeout

/-- `blocksys`, `/repo/src/patching.c` 910-997. With a wrong number of values, but at least one, `state` is freed instead of
`state_frag`: it is NULL at the first command, and was freed before at a later one. -/
def changeBlock (w : PatchVars) (ke n : ℕ) (N : List (BState w.ne w.ns)) (st : Aut ℤ (BState w.ne w.ns)) (first : Bool)
    (args : List Char) (c : CmdState w) : PRes (CmdState w) :=
  let vs := readStateStr args w.os
  if vs.length ≠ w.os then (if vs = [] ∨ first then .err else .ub)
  else
    match expandVals w.boolOnly vs ((w.offw.drop ke).map fun r => (r.1 - w.ne, r.2)) w.ns with
    | .ub => .ub
    | .err => .err
    | .odd => .odd
    | .timeout => .timeout
    | .ok bs =>
      match (affectedBy n N st (.blockSys (asVal w.ns bs)) c.2).toP with
      | .ok a => .ok (applyChange c.1 (.blockSys (asVal w.ns bs)), a)
      | .ub => .ub
      | .err => .err
      | .odd => .odd
      | .timeout => .timeout

/-- One line that is not skipped, `/repo/src/patching.c` 712-1004. -/
def cmdLine (w : PatchVars) (ke n : ℕ) (N : List (BState w.ne w.ns)) (st : Aut ℤ (BState w.ne w.ns)) (first : Bool)
    (line : List Char) (c : CmdState w) : PRes (CmdState w) :=
  if "restrict ".toList.isPrefixOf line then changeEdge w ke n N st false (line.drop 9) c
  else if "relax ".toList.isPrefixOf line then changeEdge w ke n N st true (line.drop 6) c
  else if "blocksys ".toList.isPrefixOf line then changeBlock w ke n N st first (line.drop 9) c
  else .err

/-- The loop over the commands, `/repo/src/patching.c` 706-1005; `first`: no command was processed before. -/
def cmdLoop (w : PatchVars) (ke n : ℕ) (N : List (BState w.ne w.ns)) (st : Aut ℤ (BState w.ne w.ns)) (first : Bool)
    (f : List Char) (c : CmdState w) : PRes (CmdState w) :=
  if hf : f = [] then .ok c
  else
    let line := cstr (fgets 1023 f).1
    let rest := (fgets 1023 f).2
    if blankLine line then cmdLoop w ke n N st first rest c
    else
      match cmdLine w ke n N st first line c with
      | .ok c' => cmdLoop w ke n N st false rest c'
      | .ub => .ub
      | .err => .err
      | .odd => .odd
      | .timeout => .timeout
termination_by f.length
decreasing_by all_goals exact fgets_length 1022 f hf

/-! ## The strategy -/

/-- The states of a loaded and expanded strategy. -/
def bitStates (ne ns : ℕ) : Aut ℤ (List (Option ℤ)) → PRes (Aut ℤ (BState ne ns))
  | [] => .ok []
  | x :: xs =>
    match bitList x.state with
    | .ok bs =>
      match bitStates ne ns xs with
      | .ok ys => .ok (⟨x.id, asState ne ns bs, x.mode, x.rgrad, x.initial, x.trans⟩ :: ys)
      | e => e
    | .ub => .ub
    | .err => .err
    | .odd => .odd
    | .timeout => .timeout

/-- `/repo/src/patching.c` 402-444: loading and expanding. `b`: what an uninitialised mark `initial` happens to be (it is copied and
never read). -/
def loadStrategy (w : PatchVars) (b : Bool) (text : List Char) : PRes (Aut ℤ (BState w.ne w.ns)) :=
  match loadVer ((w.oe + w.os : ℕ) : ℤ) text with
  | .null => .err
  | .ub => .ub
  | .ok l _ =>
    let a : Aut ℤ (List ℤ) := l.map fun n => ⟨n.id, n.state, n.mode, n.rgrad, n.initial.getD b, n.trans⟩
    if w.boolOnly then bitStates w.ne w.ns (a.map fun x => ⟨x.id, x.state.map some, x.mode, x.rgrad, x.initial, x.trans⟩)
    else
      match autExpandBool a w.ev w.sv w.nonbool with
      | .ub => .ub
      | .null => .err
      | .ok a' => bitStates w.ne w.ns a'

/-! ## The whole function -/

/-- `/repo/src/patching.c` 1007-1045: the loop over the goal modes and the removal of dead ends. The oracles are those for the game after
the changes. -/
def patchRun {w : PatchVars} {m : ℕ} (eg : Fin m → Finset (BState w.ne w.ns)) (n : ℕ) (os : Game (Val w.ne) (Val w.ns) → ℕ → Oracle (Val w.ne) (Val w.ns)) (fuel : ℕ)
    (N : List (BState w.ne w.ns)) (st : Aut ℤ (BState w.ne w.ns)) (c : CmdState w) : PRes (Aut ℤ (BState w.ne w.ns)) :=
  match (patchModes c.1 eg N (os c.1) fuel c.2 n 0 st).toP with
  | .ok st' => .ok (autPruneDeadends st')
  | e => e

/-- `patch_localfixpoint`, `/repo/src/patching.c` 352-1069, from the texts of the two files. -/
def patchFiles (w : PatchVars) {m : ℕ} (eps : List (BState w.ne w.ns → Val w.ne → Bool))
    (sps : List (BState w.ne w.ns → BState w.ne w.ns → Bool)) (eg : Fin m → Finset (BState w.ne w.ns)) (n : ℕ)
    (os : Game (Val w.ne) (Val w.ns) → ℕ → Oracle (Val w.ne) (Val w.ns)) (fuel : ℕ) (b : Bool) (strategy changes : List Char) : PRes (Aut ℤ (BState w.ne w.ns)) :=
  match loadStrategy w b strategy with
  | .ub => .ub
  | .err => .err
  | .odd => .odd
  | .timeout => .timeout
  | .ok st =>
    match w.enonbool with
    | none => .ub
    | some ke =>
      match hoodLoop w [] changes with
      | .ub => .ub
      | .err => .err
      | .odd => .odd
      | .timeout => .timeout
      | .ok ⟨N, none⟩ => patchRun eg n os fuel N st (localGame N eps sps, [])
      | .ok ⟨N, some f⟩ =>
        match cmdLoop w ke n N st true f (localGame N eps sps, []) with
        | .ok c => patchRun eg n os fuel N st c
        | .ub => .ub
        | .err => .err
        | .odd => .odd
        | .timeout => .timeout

end Gr1c
