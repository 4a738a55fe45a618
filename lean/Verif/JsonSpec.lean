import Verif.Json
import Verif.Automaton

/-!
# Specification: strategies in JSON, `/repo/doc/formats.md` 21-76

Members of an object are found by their names, in any order.
-/

namespace Gr1c

/-- An object with distinct names that has these members. -/
def JVal.Has (j : JVal) (want : List (String × (JVal → Prop))) : Prop :=
  ∃ ms, j = .obj ms ∧ (ms.map Prod.fst).Nodup ∧ ∀ w ∈ want, ∃ v, (w.1.toList, v) ∈ ms ∧ w.2 v

/-- An integer. -/
def JVal.IsInt (v : ℤ) (j : JVal) : Prop := ∃ w, j = .num w ∧ IntText w v

/-- An array whose elements correspond to the entries of a list. -/
def JVal.IsArr {α : Type} (P : α → JVal → Prop) (l : List α) (j : JVal) : Prop :=
  ∃ vs, j = .arr vs ∧ List.Forall₂ P l vs

def JVal.IsStr (x : List Char) (j : JVal) : Prop := j = .str x

/-- A variable: its name with its domain, which is `"boolean"` or `[0,n]`. A negative number stands for
Boolean variables in the declarations. -/
def JVal.IsVar (v : List Char × ℤ) (j : JVal) : Prop :=
  ∃ dom, j = .obj [(v.1, dom)] ∧
    if 0 ≤ v.2 then dom.IsArr (fun (x : ℤ) (j : JVal) => j.IsInt x) [0, v.2] else dom.IsStr "boolean".toList

/-- A node, by the members of `anode_t`; nodes are referred to by their names. -/
def JVal.IsNode (name : ℕ → List Char) (n : ANode ℤ (List ℤ)) (j : JVal) : Prop :=
  j.Has [("state", fun j => j.IsArr (fun (x : ℤ) (j : JVal) => j.IsInt x) n.state),
    ("mode", fun j => j.IsInt n.mode), ("rgrad", fun j => j.IsInt n.rgrad),
    ("initial", fun j => j = .bool n.initial),
    ("trans", fun j => j.IsArr (fun (id : ℕ) (j : JVal) => j.IsStr (name id)) n.trans)]

/-- The nodes, each with a name of its own. -/
def JVal.IsNodes (name : ℕ → List Char) (a : Aut ℤ (List ℤ)) (j : JVal) : Prop :=
  ∃ ms, j = .obj ms ∧ (ms.map Prod.fst).Nodup ∧
    List.Forall₂ (fun n m => m.1 = name n.id ∧ m.2.IsNode name n) a ms

/-- A strategy with its variables, version 1 of the format. `name` gives the names of the nodes; different
nodes and targets of edges have different names. -/
def JVal.IsStrategy (ev sv : List (List Char × ℤ)) (a : Aut ℤ (List ℤ)) (j : JVal) : Prop :=
  ∃ name : ℕ → List Char, (∀ x y, name x = name y → x = y) ∧
    j.Has [("version", fun j => j.IsInt 1), ("gr1c", fun j => ∃ x, j.IsStr x), ("date", fun j => ∃ x, j.IsStr x),
      ("extra", fun j => ∃ x, j.IsStr x),
      ("ENV", fun j => j.IsArr (fun (v : List Char × ℤ) (j : JVal) => j.IsVar v) ev),
      ("SYS", fun j => j.IsArr (fun (v : List Char × ℤ) (j : JVal) => j.IsVar v) sv),
      ("nodes", fun j => j.IsNodes name a)]

end Gr1c
