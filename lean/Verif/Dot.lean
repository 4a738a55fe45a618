import Verif.JsonDump

/-!
# Model of `dot_aut_dump`, `/repo/src/automaton_io.c` 367-653
-/

namespace Gr1c

/-- The flags, `/repo/include/automaton.h` 51-57: `DOT_AUT_BINARY`, `DOT_AUT_EDGEINPUT`, `DOT_AUT_ATTRIB`
(`DOT_AUT_ALL` is 0). -/
structure DotFlags where
  binary : Bool
  edgeInput : Bool
  attrib : Bool

/-- The loops that look for the last variable with a nonzero value, `/repo/src/automaton_io.c` 405-410, 536-542 and
(inside of the loop over edges) the same for the target: the first `k` entries are left to be examined. -/
def lastNz (vs : List (List Char × ℤ)) : ℕ → ℤ
  | 0 => -1
  | k + 1 =>
    match vs[k]? with
    | some v => if v.2 = 0 then lastNz vs k else k
    | none => lastNz vs k

/-- `last_nonzero_env`, `last_nonzero_sys`, `/repo/src/automaton_io.c` 401-411, 532-543. -/
def dotLast (bin : Bool) (vs : List (List Char × ℤ)) : ℤ :=
  if bin then lastNz vs vs.length else vs.length - 1

/-- The loops over variables, `/repo/src/automaton_io.c` 419-463, 473-510, 548-576, 582-607, 617-641. `tail` is what
follows the variable with index `last`. -/
def dotVarLoop (bin : Bool) (last : ℤ) (tail : List Char) : ℤ → List (List Char × ℤ) → List Char
  | _, [] => []
  | j, v :: r =>
    (if bin = true ∧ v.2 = 0 then []
     else (if bin then v.1 else v.1 ++ '=' :: printInt v.2) ++ (if j = last then tail else ", ".toList)) ++
    dotVarLoop bin last tail (j + 1) r

/-- Values in the text of a node, `/repo/src/automaton_io.c` 412-511 and 544-609. -/
def dotBody (f : DotFlags) (e s : List (List Char × ℤ)) : List Char :=
  let le := dotLast f.binary e
  let ls := dotLast f.binary s
  if le < 0 ∧ ls < 0 then "{}".toList
  else
    (if f.edgeInput then [] else dotVarLoop f.binary le (if 0 ≤ ls then ", ".toList else []) 0 e) ++
    (if ls < 0 ∧ f.edgeInput = true then "{}".toList else dotVarLoop f.binary ls [] 0 s)

/-- Names with the values of the environment. -/
def dotEnv (ev : VarList) (st : List ℤ) : List (List Char × ℤ) := (ev.map Prod.fst).zip (st.take ev.length)

/-- Names with the values of the system. -/
def dotSys (ev sv : VarList) (st : List ℤ) : List (List Char × ℤ) :=
  (sv.map Prod.fst).zip ((st.drop ev.length).take sv.length)

/-- Text of a node in quotes, `/repo/src/automaton_io.c` 391-516 and 526-611. `none`: the state array is read beyond
its end. -/
def dotNodeText (f : DotFlags) (ev sv : VarList) (idx : ℤ) (n : ANode ℤ (List ℤ)) : Option (List Char) :=
  if n.state.length < ev.length + sv.length then none
  else some ('"' :: (printInt idx ++ (";\\n".toList ++
    ((if f.attrib then '(' :: (printInt n.mode ++ (", ".toList ++ (printInt n.rgrad ++ ")\\n".toList))) else []) ++
    (dotBody f (dotEnv ev n.state) (dotSys ev sv n.state) ++ ['"'])))))

/-- The label of an edge, `/repo/src/automaton_io.c` 612-644. -/
def dotEdgeLabel (f : DotFlags) (ev : VarList) (n : ANode ℤ (List ℤ)) : List Char :=
  if f.edgeInput then
    "[label=\"".toList ++
      ((if dotLast f.binary (dotEnv ev n.state) < 0 then "{}".toList
        else dotVarLoop f.binary (dotLast f.binary (dotEnv ev n.state)) [] 0 (dotEnv ev n.state)) ++ "\"]".toList)
  else []

/-- The edges of one node, whose text is `t`, `/repo/src/automaton_io.c` 524-646. `none`: an edge leads to a node
outside of the list, or its state array is too short. -/
def dotEdges (f : DotFlags) (ev sv : VarList) (l : Aut ℤ (List ℤ)) (t : List Char) : List ℕ → Option (List Char)
  | [] => some []
  | id :: r =>
    match l.find? fun m => m.id = id with
    | none => none
    | some m =>
      match dotNodeText f ev sv (indexInt l id) m, dotEdges f ev sv l t r with
      | some u, some rest =>
        some ("    ".toList ++ (t ++ (" -> ".toList ++ (u ++ (dotEdgeLabel f ev m ++ '\n' :: rest)))))
      | _, _ => none

/-- How `dot_aut_dump` ends: return value and text written. -/
inductive DotRes
  | ub
  | done (ret : ℤ) (s : List Char)
  deriving DecidableEq

/-- The `while (node)` loop, `/repo/src/automaton_io.c` 389-649. The text of a node is built in a buffer of 4096
characters by calls of `snprintf`, whose results are added; -1 is returned when the sum reaches 4096, thus if and
only if the whole text has so many characters. -/
def dotLoop (f : DotFlags) (ev sv : VarList) (l : Aut ℤ (List ℤ)) (k : ℕ) : Aut ℤ (List ℤ) → DotRes
  | [] => .done 0 "}\n".toList
  | n :: r =>
    match dotNodeText f ev sv k n with
    | none => .ub
    | some t =>
      if 4096 ≤ t.length then .done (-1) []
      else
        match dotEdges f ev sv l t n.trans, dotLoop f ev sv l (k + 1) r with
        | some es, .done c s =>
          .done c ("    ".toList ++ (t ++ '\n' ::
            ((if n.initial then "    \"\" -> ".toList ++ (t ++ ['\n']) else []) ++ (es ++ s))))
        | _, _ => .ub

/-- `dot_aut_dump`, `/repo/src/automaton_io.c` 367-653. -/
def dotDump (f : DotFlags) (a : Aut ℤ (List ℤ)) (ev sv : VarList) : DotRes :=
  match dotLoop f ev sv a 0 a with
  | .ub => .ub
  | .done c s => .done c ("/* created using gr1c, version ".toList ++ (gr1cVersion ++
      (" */\ndigraph A {\n    \"\" [shape=none]\n".toList ++ s)))

end Gr1c
