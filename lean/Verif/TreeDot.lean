import Verif.Print

/-!
# Model of `tree_dot_dump`, `/repo/src/ptree.c` 530-612 and 757-804

The node at a path (`false` is left, `true` is right) has the address `addr` of that path, which `%ld` writes as a number (addresses
below 2^63). The file can be opened, written and closed.
-/

namespace Gr1c

/-- `print_node`, `/repo/src/ptree.c` 530-600. Variables have names (a NULL pointer would be printed otherwise). -/
def printNode : PTree → List Char
  | .nil => []
  | .node ty nm v _ _ =>
    match ty with
    | .empty => "(empty)".toList
    | .var => nm.getD []
    | .next => nm.getD [] ++ ['\'']
    | .const => printInt v
    | .neg => ['!']
    | .and => ['&']
    | .or => ['|']
    | .imp => "->".toList
    | .equiv => "<->".toList
    | .eq => ['=']
    | .noteq => "!=".toList
    | .lt => ['<']
    | .gt => ['>']
    | .le => "<=".toList
    | .ge => ">=".toList

/-- Address and text of a node, `/repo/src/ptree.c` 759-760; the backslash and the `n` are two characters. -/
def treeNodeText (addr : List Bool → ℕ) (p : List Bool) (t : PTree) : List Char :=
  printInt (addr p) ++ (";\\n".toList ++ printNode t)

/-- `/repo/src/ptree.c` 762-768 and 769-775: a child that is not NULL. -/
def treeEdgeText (addr : List Bool → ℕ) (p : List Bool) (t : PTree) (b : Bool) : PTree → List Char
  | .nil => []
  | .node ty nm v l r =>
    '"' :: (treeNodeText addr p t ++ ("\" -> \"".toList ++ (treeNodeText addr (p ++ [b]) (.node ty nm v l r) ++ "\"\n".toList)))

/-- `inorder_trav` with `tree_dot_dump_node`, `/repo/src/ptree.c` 603-612 and 757-776. -/
def treeDotNodes (addr : List Bool → ℕ) : List Bool → PTree → List Char
  | _, .nil => []
  | p, .node ty nm v l r =>
    treeDotNodes addr (p ++ [false]) l ++
      ('"' :: (treeNodeText addr p (.node ty nm v l r) ++ ("\"\n".toList ++
        (treeEdgeText addr p (.node ty nm v l r) false l ++ (treeEdgeText addr p (.node ty nm v l r) true r ++
          treeDotNodes addr (p ++ [true]) r)))))

/-- `tree_dot_dump`, `/repo/src/ptree.c` 779-804: the text of the file. -/
def treeDotDump (addr : List Bool → ℕ) (t : PTree) : List Char :=
  "digraph PT {\n".toList ++ (treeDotNodes addr [] t ++ "}\n".toList)

end Gr1c
