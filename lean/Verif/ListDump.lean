import Verif.JsonDump

/-!
# Model of `list_aut_dump` and `tulip_aut_dump`, `/repo/src/automaton_io.c` 656-772
-/

namespace Gr1c

/-! ## `list_aut_dump` -/

/-- `%4d`, `%2d`: at least `w` characters, filled with blanks on the left. -/
def padInt (w : ℕ) (v : ℤ) : List Char := List.replicate (w - (printInt v).length) ' ' ++ printInt v

/-- The loop `for (i = 0; i < state_len-1; i++)` and what follows, `/repo/src/automaton_io.c` 756-759. -/
def commaInts : List ℤ → List Char
  | [] => []
  | [v] => printInt v
  | v :: u :: r => printInt v ++ ',' :: commaInts (u :: r)

/-- One line, `/repo/src/automaton_io.c` 752-768. `none`: the state array is read beyond its end. -/
def listNode (l : Aut ℤ (List ℤ)) (len k : ℕ) (n : ANode ℤ (List ℤ)) : Option (List Char) :=
  if n.state.length < len then none
  else some (padInt 4 k ++ (' ' :: ((if n.initial then "(init) ".toList else []) ++ (": ".toList ++
    ((if 0 < len then commaInts (n.state.take len) else "(nil)".toList) ++
    (" - ".toList ++ (padInt 2 n.mode ++ (" - ".toList ++ (padInt 2 n.rgrad ++ (" - [".toList ++
    ((n.trans.map (indexInt l)).flatMap sp ++ "]\n".toList)))))))))))

/-- The `while (node)` loop, `/repo/src/automaton_io.c` 751-771. -/
def listLoop (l : Aut ℤ (List ℤ)) (len k : ℕ) : Aut ℤ (List ℤ) → Option (List Char)
  | [] => some []
  | n :: r =>
    match listNode l len k n, listLoop l len (k + 1) r with
    | some t, some u => some (t ++ u)
    | _, _ => none

/-- `list_aut_dump`, `/repo/src/automaton_io.c` 745-772. -/
def listDump (l : Aut ℤ (List ℤ)) (len : ℕ) : Option (List Char) := listLoop l len 0 l

/-! ## `tulip_aut_dump` -/

/-- A declared variable, `/repo/src/automaton_io.c` 678-687, 692-702. -/
def tulipVar (v : List Char × ℤ) : List Char :=
  "    <item key=\"".toList ++ (v.1 ++ ("\" value=\"".toList ++
    (if 0 ≤ v.2 then "[0,".toList ++ (printInt v.2 ++ "]\" />\n".toList) else "boolean\" />\n".toList)))

/-- A value of a variable, `/repo/src/automaton_io.c` 723-732. -/
def tulipVal (v : List Char × ℤ) : List Char :=
  "        <item key=\"".toList ++ (v.1 ++ ("\" value=\"".toList ++ (printInt v.2 ++ "\" />\n".toList)))

/-- A node, `/repo/src/automaton_io.c` 715-733. -/
def tulipNode (l : Aut ℤ (List ℤ)) (ev sv : VarList) (k : ℕ) (n : ANode ℤ (List ℤ)) : Option (List Char) :=
  if n.state.length < ev.length + sv.length then none
  else some ("    <node>\n      <id>".toList ++ (printInt k ++ ("</id><anno>".toList ++
    ((if n.mode ≠ -1 ∧ n.rgrad ≠ -1 then printInt n.mode ++ sp n.rgrad else []) ++
    ("</anno>\n      <child_list>".toList ++ ((n.trans.map (indexInt l)).flatMap sp ++
    ("</child_list>\n      <state>\n".toList ++
    ((((ev.map Prod.fst).zip (n.state.take ev.length)).flatMap tulipVal ++
      ((sv.map Prod.fst).zip ((n.state.drop ev.length).take sv.length)).flatMap tulipVal) ++
    "      </state>\n    </node>\n".toList))))))))

/-- The `while (node)` loop, `/repo/src/automaton_io.c` 714-736. -/
def tulipLoop (l : Aut ℤ (List ℤ)) (ev sv : VarList) (k : ℕ) : Aut ℤ (List ℤ) → Option (List Char)
  | [] => some []
  | n :: r =>
    match tulipNode l ev sv k n, tulipLoop l ev sv (k + 1) r with
    | some t, some u => some (t ++ u)
    | _, _ => none

/-- `tulip_aut_dump`, `/repo/src/automaton_io.c` 656-743. -/
def tulipDump (l : Aut ℤ (List ℤ)) (ev sv : VarList) : Option (List Char) :=
  (tulipLoop l ev sv 0 l).map fun ns =>
    "<?xml version=\"1.0\" encoding=\"UTF-8\"?>\n".toList ++
    ("<tulipcon xmlns=\"http://tulip-control.sourceforge.net/ns/1\" version=\"1\">\n".toList ++
    ("  <env_vars>\n".toList ++ (ev.flatMap tulipVar ++ ("  </env_vars>\n".toList ++
    ("  <sys_vars>\n".toList ++ (sv.flatMap tulipVar ++ ("  </sys_vars>\n".toList ++
    ("  <spec>\n    <env_init></env_init><env_safety></env_safety><env_prog></env_prog>".toList ++
    ("<sys_init></sys_init><sys_safety></sys_safety><sys_prog></sys_prog>\n  </spec>\n".toList ++
    ("  <aut type=\"basic\">\n".toList ++ (ns ++ ("  </aut>\n".toList ++
    ("  <extra>created using gr1c, version ".toList ++ (gr1cVersion ++ "</extra>\n</tulipcon>\n".toList))))))))))))))

end Gr1c
