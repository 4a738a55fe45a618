import Verif.RepoTests
import Verif.AutIO
import Verif.PTreeProps
import Verif.Bits
import Verif.Log
import Verif.Print

/-!
# The project's unit tests, run on the model

The checks of `/repo/tests/test_*.c`, in the same order, on the functions of the model. As in
`Verif.RepoTests` these are tests of the model and not proofs. Left out: checks of reference counts,
`inorder_trav` with `print_node` (used nowhere else) and "%f" in `test_logging.c` (used nowhere else).
-/

namespace Gr1c

namespace RepoUnit

/-! ## `/repo/tests/test_aut_aut_dump.c` -/

def one : Aut ℤ (List ℤ) := [⟨0, [0, 0, 0], 0, -1, true, [0]⟩]
def two : Aut ℤ (List ℤ) := updNode (insertAnode one 1 0 (-1) true [1, 0, 0]) 1 fun n => { n with trans := [0] }
def three : Aut ℤ (List ℤ) := updNode (insertAnode two 2 0 (-1) true [0, 1, 0]) 2 fun n => { n with trans := [2, 0] }

example : dumpVer one 0 = (0, "0\n0 0 0 0 0 -1 0\n".toList) := by decide +kernel
example : dumpVer one 1 = (0, "1\n0 0 0 0 1 0 -1 0\n".toList) := by decide +kernel
example : (dumpVer two 1).2 = "1\n0 1 0 0 1 0 -1 1\n1 0 0 0 1 0 -1 1\n".toList := by decide +kernel
example : (dumpVer three 1).2 = "1\n0 0 1 0 1 0 -1 0 2\n1 1 0 0 1 0 -1 2\n2 0 0 0 1 0 -1 2\n".toList := by decide +kernel

/-! ## `/repo/tests/test_aut_aut_load.c` -/

def trivialText : List Char := "1\n0 1 0 1 0 2 1 2\n1 0 0 1 0 1 1 2\n2 1 1 1 1 1 1 0\n".toList
def trivialText0 : List Char := "0 1 0 0 2 1 2\n1 0 0 0 1 1 2\n2 1 1 1 1 1 0\n".toList

def loaded (text : List Char) : Aut ℤ (List ℤ) :=
  match loadVer 2 text with
  | .ok l _ => l.map fun n => ⟨n.id, n.state, n.mode, n.rgrad, n.initial.getD false, n.trans⟩
  | _ => []

def node : Option (ANode ℤ (List ℤ)) := findAnode (loaded trivialText) 0 [1, 0]
def outNode : Option (ANode ℤ (List ℤ)) := findAnode (loaded trivialText) 0 [0, 0]

example : (loaded trivialText).length = 3 ∧ (loaded trivialText0).length = 3 := by decide +kernel
example : (node.map fun n => (n.rgrad, n.mode, n.trans.length)) = some (2, 0, 2) := by decide +kernel
example : (outNode.map fun n => (n.rgrad, n.mode)) = some (1, 0) := by decide +kernel
example : ∃ n ∈ node, ∃ m ∈ outNode, m.id ∈ n.trans := by decide +kernel

/-- The second edge of `node` is turned to itself, a node is inserted and gets an edge to `node`. -/
def modified : AppendRes ℤ (List ℤ) :=
  let l := updNode (loaded trivialText) ((node.map (·.id)).getD 9) fun n => { n with trans := n.trans.set 1 n.id }
  appendAnodeTrans (insertAnode l 7 0 (-1) false [0, 1]) 0 [0, 1] 0 [1, 0]

example : (match modified with | .ok l => (dumpVer l 1).2 | _ => []) =
    "1\n0 0 1 0 0 -1 1\n1 1 0 1 0 2 2 1\n2 0 0 1 0 1 2 3\n3 1 1 1 1 1 2 1\n".toList := by decide +kernel

/-! ## `/repo/tests/test_aut_prune_deadends.c` -/

def pair (back : List ℕ) : Aut ℤ (List ℤ) := [⟨1, [], -1, -1, false, [0]⟩, ⟨0, [], -1, -1, false, back⟩]

example : autPruneDeadends ([] : Aut ℤ (List ℤ)) = [] := by decide +kernel
example : autPruneDeadends ([⟨0, [], -1, -1, false, []⟩] : Aut ℤ (List ℤ)) = [] := by decide +kernel
example : autPruneDeadends (pair [1]) ≠ [] := by decide +kernel
example : autPruneDeadends (pair []) = [] := by decide +kernel

/-! ## `/repo/tests/test_automaton.c` -/

/-- State and mode of node `i`. -/
def unit (i : ℕ) : List ℤ := (List.range 10).map fun j => if j = i % 10 then 1 else 0
def mode (i : ℕ) : ℤ := (i / 10 : ℕ)

/-- 100 nodes, each with edges to the next ten. -/
def bare : Aut ℤ (List ℤ) := (List.range 100).foldl (fun l i => insertAnode l i (mode i) (-1) false (unit i)) []
def filled : Aut ℤ (List ℤ) :=
  (List.range 100).foldl (fun l i =>
    match findAnode l (mode i) (unit i) with
    | none => []
    | some n => updNode l n.id fun n =>
      { n with trans := (List.range 10).filterMap fun j =>
          (findAnode bare (mode ((i + j + 1) % 100)) (unit ((i + j + 1) % 100))).map (·.id) }) bare

#guard filled.length = 100
#guard filled.all fun n => n.trans.length = 10
#guard (List.range 100).all fun i => (findAnodeIndex filled (mode i) (unit i)).isSome
#guard findAnodeIndex filled 100 (unit 0) = none
#guard
  match filled with
  | [] => false
  | h :: _ => (replaceAnodeTrans filled (h.trans.headD 0) none).all fun n => !n.trans.contains (h.trans.headD 0)
#guard
  match filled with
  | h :: h' :: _ =>
    ((replaceAnodeTrans (updNode filled h.id fun n => { n with trans := [h'.id] }) h'.id (some h.id)).head?.map (·.trans)) = some [h.id]
  | _ => false

def twoNodes : Aut ℤ (List ℤ) := insertAnode (insertAnode [] 0 (-1) (-1) false []) 1 (-1) (-1) false []

example : deleteAnode ([] : Aut ℤ (List ℤ)) none = [] := by decide +kernel
example : (deleteAnode twoNodes (some 0)).length = 1 ∧ anodeIndex (deleteAnode twoNodes (some 0)) 0 = none := by decide +kernel
example : deleteAnode (deleteAnode twoNodes (some 0)) (some 1) = [] := by decide +kernel

/-! ## `/repo/tests/test_ptree.c` -/

def abk : PTree :=
  appendListItem (appendListItem (appendListItem .nil .var (some ['a']) (-1)) .var (some ['b']) (-1)) .var (some "kitten".toList) (-1)

def nameOf : PTree → Option Name
  | .nil => none
  | .node _ nm _ _ _ => nm

example : nameOf (getListItem abk 0) = some ['a'] ∧ nameOf (getListItem abk 1) = some ['b'] := by decide +kernel
example : findListItem abk .var (some ['b']) (-1) = 1 ∧ findListItem abk .var (some "kitten".toList) (-1) = 2 := by decide +kernel
example : nameOf (getListItem abk 2) = some "kitten".toList ∧ abk.size = 3 := by decide +kernel
example : ∃ l r, removeListItem abk 0 = .ok l r ∧ l = r ∧ nameOf r = some ['b'] ∧
    ∃ l', removeListItem l (-1) = .ok l' l' ∧ nameOf l' = some ['b'] ∧ l'.size = 1 :=
  ⟨_, _, rfl, rfl, rfl, _, rfl, rfl, rfl⟩

def small1 : PTree :=
  .node .and none 0 (initPtree .var (some "felix".toList) (-1))
    (.node .neg none 0 .nil (.node .or none 0 (initPtree .next (some "the".toList) (-1)) (initPtree .var (some "cat".toList) (-1))))
def small2 : PTree := .node .neg none 0 .nil (initPtree .next (some "x".toList) (-1))
def both : PTree := mergePtrees [small1, small2] .and

/-- The same formula, built with the stack functions. -/
def pushed : PTree :=
  let t (ty : PTy) (s : String) (h : PTree) := pushtTerminal h ty (some s.toList) (-1)
  let o (ty : PTy) (h : PTree) := pushtOperator h ty
  o .and (o .neg (t .next "x" (o .and (o .neg (o .or (t .var "cat" (t .next "the" (t .var "felix" .nil))))))))

example : small1.size = 6 ∧ both.size = 9 ∧ pushed.size = 9 := by decide +kernel
example : pushed = both := by decide +kernel

def known (xs : List String) : PTree := xs.foldl (fun l s => appendListItem l .var (some s.toList) (-1)) .nil

example : checkVars (known ["felix", "cat"]) (known ["the"]) both = some "x'".toList := by decide +kernel
example : checkVars (known ["felix", "cat"]) (known ["the", "x"]) both = none := by decide +kernel
example : copyPtree both = both := by decide +kernel
example : minTreeValue (pushtTerminal .nil .const none 1) = 1 ∧ maxTreeValue (pushtTerminal .nil .const none 1) = 1 := by decide +kernel

/-! ## `/repo/tests/test_bitblasting.c` and `/repo/tests/test_util.c` -/

example : (varToBool ['x'] 2).size = 2 ∧ nameOf (getListItem (varToBool ['x'] 2) 0) = some "x0".toList ∧
    nameOf (getListItem (varToBool ['x'] 2) 1) = some "x1".toList := by decide +kernel

example : bitvecToInt [0, 1, 0, 1] = .ok 0xA ∧ bitvecToInt [1, 0, 1, 0] = .ok 5 ∧ bitvecToInt [0, 0, 0, 0] = .ok 0 ∧
    bitvecToInt [1, 1, 1, 1] = .ok 0xF ∧ bitvecToInt [1, 1, 1, 1, 1, 0, 1, 0] = .ok 0x5F := by decide +kernel
example : intToBitvec 2 0 = .null ∧ intToBitvec 0 1 = .ok [0] ∧ intToBitvec 0xA 4 = .ok [0, 1, 0, 1] := by decide +kernel

/-! ## `/repo/tests/test_ptree_to_BDD.c`: `(a & b) | !c` on all assignments -/

def abc : PTree := known ["a", "b", "c"]
def formula : PTree :=
  .node .or none 0 (.node .and none 0 (initPtree .var (some ['a']) 0) (initPtree .var (some ['b']) 0))
    (.node .neg none 0 .nil (initPtree .var (some ['c']) 0))

example : (match ptreeBdd 3 abc formula with
    | .ok f => decide (∀ a : Asg 3, f a = ((a 0 && a 1) || !a 2))
    | _ => false) = true := by decide +kernel

/-! ## `/repo/tests/test_solve_support.c` -/

example : initializeCube [0, 2, 0, 2] = [0, 0, 0, 0] := by decide +kernel
example : incrementCube [0, 2, 0, 2] [0, 0, 0, 0] = [0, 0, 0, 1] ∧ incrementCube [0, 2, 0, 2] [0, 0, 0, 1] = [0, 1, 0, 0] ∧
    incrementCube [0, 2, 0, 2] [0, 1, 0, 0] = [0, 1, 0, 1] := by decide +kernel
example : saturatedCube [0, 2, 0, 2] [0, 0, 0, 0] = false ∧ saturatedCube [0, 2, 0, 2] [0, 0, 0, 1] = false ∧
    saturatedCube [0, 2, 0, 2] [0, 1, 0, 0] = false ∧ saturatedCube [0, 2, 0, 2] [0, 1, 0, 1] = true := by decide +kernel

/-- `[](y -> !x1')` with three environment variables and one system variable. -/
def yx : Bdd (2 * (3 + 1)) := fun a => !a 3 || !a 4

#guard getEnvMoves 3 1 (pathCover _) (fun _ => 0) [0, 0, 0, 0] yx =
  some [[0, 0, 0], [0, 0, 1], [0, 1, 0], [0, 1, 1], [1, 0, 0], [1, 0, 1], [1, 1, 0], [1, 1, 1]]
#guard getEnvMoves 3 1 (pathCover _) (fun _ => 0) [0, 0, 0, 1] yx = some [[0, 0, 0], [0, 0, 1], [0, 1, 0], [0, 1, 1]]

/-! ## `/repo/tests/test_patching.c`: from 00 to 11 within these two states, environment goal `x` -/

def at00 : BState 1 1 := (fun _ => false, fun _ => false)
def at11 : BState 1 1 := (fun _ => true, fun _ => true)
def free : Game (Val 1) (Val 1) := ⟨fun _ _ => true, fun _ _ => true⟩

def local_ : Aut ℤ (BState 1 1) :=
  match reachGame (m := 1) free {at00} {at11} {at00, at11} (fun _ => Finset.univ.filter fun s => s.1 0 = true) (pathOracle 1 1 free) 100 with
  | .ok st => st
  | _ => []

example : local_.length = 2 ∧ ∃ a ∈ local_, ∃ b ∈ local_, a.state = at00 ∧ b.state = at11 ∧
    (a.trans = [a.id, b.id] ∨ a.trans = [b.id, a.id]) ∧ b.trans = [] := by decide +kernel

/-! ## `/repo/tests/test_logging.c` -/

def log0 : LogSt := setLogStream (some 3) (setLogStream none ⟨none, 0, [], [0, 3], fun _ => []⟩)

def logged : LogRes LogSt :=
  let T := some "t".toList
  (logPrint T "Hello, world!".toList [] log0).bind fun σ =>
  (logPrint T "%s %d".toList [.str "ok thx bai".toList, .int (-1)] σ).bind fun σ =>
  (logStartLine T σ).bind fun σ =>
  (logRaw "this is a multi-".toList [] σ).bind fun σ =>
  (logRaw "part entry, on one line".toList [] σ).bind fun σ =>
  (logEndLine σ).bind fun σ =>
  (logStartLine T σ).bind fun σ =>
  (logRaw "%d this is another multi-part en".toList [.int 5] σ).bind fun σ =>
  (logRaw "try,\nbut it spans two lines and has data: %s".toList [.str "like".toList] σ).bind fun σ =>
  logEndLine σ

example : (setLogStream none log0).fp = some 0 ∧ log0.fp = some 3 := by decide +kernel
example : (match logged with | .ok σ => σ.text 3 | _ => []) =
    "t Hello, world!\nt ok thx bai -1\nt this is a multi-part entry, on one line\nt 5 this is another multi-part entry,\nbut it spans two lines and has data: like\n".toList := by
  decide +kernel

end RepoUnit

end Gr1c
