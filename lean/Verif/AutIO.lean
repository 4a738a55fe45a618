import Verif.CText
import Verif.Print
import Verif.Automaton

/-!
# Model of `aut_aut_dumpver` and `aut_aut_loadver`, `/repo/src/automaton_io.c` 21-358

Modes are integers and states are lists of integers of length `state_len`. Allocation succeeds. The
messages on stderr are left out.
-/

namespace Gr1c

/-! ## Writing -/

/-- A space and a number, `" %d"`. -/
def sp (v : ℤ) : List Char := ' ' :: printInt v

/-- `%d` of a truth value. -/
def flagInt (b : Bool) : ℤ := if b then 1 else 0

/-- `anode_index` as a number, `/repo/src/automaton.c` 136-147: -1 if the node is not found. -/
def indexInt (l : Aut ℤ (List ℤ)) (id : ℕ) : ℤ :=
  match anodeIndex l id with
  | some i => i
  | none => -1

/-- One line of the file without the newline, `/repo/src/automaton_io.c` 327-332 (version 0) and 341-346
(version 1). -/
def nodeText (ver : ℕ) (l : Aut ℤ (List ℤ)) (k : ℕ) (n : ANode ℤ (List ℤ)) : List Char :=
  printInt k ++ n.state.flatMap sp ++ (if ver = 1 then sp (flagInt n.initial) else []) ++ sp n.mode ++ sp n.rgrad ++
    (n.trans.map (indexInt l)).flatMap sp

/-- The `while (node)` loop, `/repo/src/automaton_io.c` 326-336, 340-350. -/
def dumpLoop (ver : ℕ) (l : Aut ℤ (List ℤ)) (k : ℕ) : Aut ℤ (List ℤ) → List Char
  | [] => []
  | n :: r => nodeText ver l k n ++ '\n' :: dumpLoop ver l (k + 1) r

/-- `aut_aut_dumpver`, `/repo/src/automaton_io.c` 314-358: return value and text written. -/
def dumpVer (l : Aut ℤ (List ℤ)) (ver : ℕ) : ℤ × List Char :=
  if ver = 0 ∨ ver = 1 then (0, printInt ver ++ '\n' :: dumpLoop ver l 0 l)
  else (-1, printInt ver ++ ['\n'])

/-! ## Reading -/

/-- What is kept of one line: `ID_array`, the fields of the node and `trans_array`. `initial = none`:
the field is left uninitialised. -/
structure LineRec where
  id : ℤ
  state : List ℤ
  initial : Option Bool
  mode : ℤ
  rgrad : ℤ
  trans : List ℤ
  deriving DecidableEq

/-- Result of reading a line after the ID. `early`: error before the node is allocated; `late`: error
after that, when the fields of the node are partly uninitialised. -/
inductive LineRes
  | early
  | late
  | ok (r : LineRec)
  deriving DecidableEq

/-- The loop over the state, `/repo/src/automaton_io.c` 101-112: exactly `n` numbers. -/
def readInts : ℕ → List Char → Option (List ℤ × List Char)
  | 0, s => some ([], s)
  | n + 1, s => if s = [] then none else
    match strtol s with
    | none => none
    | some (v, r) => (readInts n r).map fun x => (toInt v :: x.1, x.2)

/-- The loop over the transitions, `/repo/src/automaton_io.c` 168-183. -/
def readAll (s : List Char) : List ℤ :=
  match h : strtol s with
  | none => []
  | some (v, r) => toInt v :: readAll r
termination_by s.length
decreasing_by exact strtol_length h

/-- The field `initial` for format version `ver`, `/repo/src/automaton_io.c` 120-137, 158-159. `none` on
error. -/
def readInitial (ver : ℤ) (s : List Char) : Option (Option Bool × List Char) :=
  if ver = 1 then
    match strtol s with
    | none => none
    | some (v, r) => if r = [] then none else if toChar v = 0 then some (some false, r)
        else if toChar v = 1 then some (some true, r) else none
  else some (if ver = 0 then some false else none, s)

/-- The rest of a line after the ID, `/repo/src/automaton_io.c` 100-183. -/
def readLine (len : ℕ) (ver : ℤ) (id : ℤ) (s : List Char) : LineRes :=
  match readInts len s with
  | none => .early
  | some (st, s1) =>
    match readInitial ver s1 with
    | none => .late
    | some (ini, s2) =>
      match strtol s2 with
      | none => .late
      | some (m, s3) => if s3 = [] then .late else
        match strtol s3 with
        | none => .late
        | some (r, s4) => .ok ⟨id, st, ini, toInt m, toInt r, readAll s4⟩

/-- Result of the loading loop. `bad`: error when no node was allocated; `ub`: error otherwise, and the
clean-up (296-299, `delete_aut`) frees the `trans` pointer of a node, which has not been set. -/
inductive ReadRes
  | bad
  | ub
  | ok (ver : ℤ) (rs : List LineRec)
  deriving DecidableEq

/-- The loop over the lines, `/repo/src/automaton_io.c` 62-214. `ver` is `detected_version` (`none` for
-1), `rs` the lines read so far. A line longer than 4095 characters is read in pieces. An explicit version
number is only tested for being negative: the test at 92-97 follows the `continue` of line 85. -/
def readLoop (len : ℕ) (ver : Option ℤ) (rs : List LineRec) (f : List Char) : ReadRes :=
  if hf : f = [] then .ok (ver.getD (-1)) rs
  else
    let line := cstr (fgets 4095 f).1
    let rest := (fgets 4095 f).2
    if line = [] ∨ line.head? = some '#' ∨ line.head? = some '\n' ∨ line.head? = some '\r' then
      readLoop len ver rs rest
    else
      match strtol line with
      | none => if rs = [] then .bad else .ub
      | some (id, s) =>
        if ver = none ∧ (s = [] ∨ s.head? = some '\n' ∨ s.head? = some '\r') then
          if toInt id < 0 then .bad else readLoop len (some (toInt id)) rs rest
        else
          match readLine len (ver.getD 0) (toInt id) s with
          | .early => if rs = [] then .bad else .ub
          | .late => .ub
          | .ok r => readLoop len (some (ver.getD 0)) (rs ++ [r]) rest
termination_by f.length
decreasing_by all_goals exact fgets_length 4094 f hf

/-- A node of the loaded automaton. `id` stands for its address: the number of its line. -/
structure LNode where
  id : ℕ
  state : List ℤ
  initial : Option Bool
  mode : ℤ
  rgrad : ℤ
  trans : List ℕ
  deriving DecidableEq

/-- First line with a given ID, `/repo/src/automaton_io.c` 250, 274-276. -/
def findLine (rs : List LineRec) (i : ℤ) : Option ℕ := rs.findIdx? fun r => r.id = i

/-- Result of setting the transitions of one node. -/
inductive TransRes
  | missing
  | ub
  | ok (ts : List ℕ)
  deriving DecidableEq

/-- The loop over `node->trans`, `/repo/src/automaton_io.c` 273-287, `m` steps left: reads the array `ts`
(`trans_array[i]`), beyond its end with undefined behaviour. -/
def setTrans (rs : List LineRec) : ℕ → List ℤ → TransRes
  | 0, _ => .ok []
  | _ + 1, [] => .ub
  | m + 1, t :: ts =>
    match findLine rs t with
    | none => .missing
    | some k =>
      match setTrans rs m ts with
      | .ok l => .ok (k :: l)
      | e => e

/-- Result of `aut_aut_loadver`. -/
inductive LoadRes
  | null
  | ub
  | ok (l : List LNode) (ver : ℤ)
  deriving DecidableEq

/-- The linking loop, `/repo/src/automaton_io.c` 249-289, from index `i`, `m` steps left; `acc` are the
nodes linked so far. The transitions are taken from `trans_array[i]` although the node is that of line
`j`. On an error `head` is NULL and every node is deleted through `node_array`: with several nodes this
frees unset pointers or the same node twice, with one node it is clean (the missing ID 0 excepted). -/
def linkLoop (rs : List LineRec) (ver : ℤ) (i : ℕ) (acc : List LNode) : ℕ → LoadRes
  | 0 => .ok acc ver
  | m + 1 =>
    match findLine rs i with
    | none => .ub
    | some j =>
      match rs[j]?, rs[i]? with
      | some n, some t =>
        match setTrans rs n.trans.length t.trans with
        | .missing => if rs.length = 1 then .null else .ub
        | .ub => .ub
        | .ok l => linkLoop rs ver (i + 1) (acc ++ [⟨j, n.state, n.initial, n.mode, n.rgrad, l⟩]) m
      | _, _ => .ub

/-- `aut_aut_loadver`, `/repo/src/automaton_io.c` 21-306. -/
def loadVer (len : ℤ) (f : List Char) : LoadRes :=
  if len < 1 then .null
  else
    match readLoop len.toNat none [] f with
    | .bad => .null
    | .ub => .ub
    | .ok ver rs => if rs = [] then .null else linkLoop rs ver 0 [] rs.length

end Gr1c
