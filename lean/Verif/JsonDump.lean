import Verif.AutIO
import Verif.Compact

/-!
# Model of `json_aut_dump`, `/repo/src/automaton_io.c` 776-866
-/

namespace Gr1c

/-- What the C library supplies: the text of a pointer (`%p`, implementation-defined) and the time stamp
(`none`: `strftime` failed). -/
structure JsonEnv where
  ptr : ℕ → List Char
  stamp : Option (List Char)

/-- `GR1C_VERSION` of a release, `/repo/include/common.h` 12-18. -/
def gr1cVersion : List Char := "0.13.4".toList

/-- The loops of the form `for (i = 0; i < n; i++) { print item i; if (i < n-1) print ", "; }`. -/
def commaSep : List (List Char) → List Char
  | [] => []
  | [x] => x
  | x :: y :: r => x ++ (", ".toList ++ commaSep (y :: r))

/-- `/repo/src/automaton_io.c` 810-817 (`gap = false`) and 823-830 (`gap = true`). -/
def jsonVar (gap : Bool) (v : List Char × ℤ) : List Char :=
  "{\"".toList ++ (v.1 ++ ("\": ".toList ++
    (if 0 ≤ v.2 then (if gap then "[0, ".toList else "[0,".toList) ++ (printInt v.2 ++ "]}".toList)
     else "\"boolean\"}".toList)))

/-- `"%p"` in quotes. -/
def jsonPtr (E : JsonEnv) (id : ℕ) : List Char := '"' :: (E.ptr id ++ ['"'])

/-- One node, `/repo/src/automaton_io.c` 837-858; `len` is `num_env+num_sys`. `none`: the state array is
read beyond its end. -/
def jsonNode (E : JsonEnv) (len : ℕ) (n : ANode ℤ (List ℤ)) : Option (List Char) :=
  if n.state.length < len then none
  else some (jsonPtr E n.id ++ (": {\n    \"state\": [".toList ++
    (commaSep ((n.state.take len).map printInt) ++ ("],\n    \"mode\": ".toList ++
    (printInt n.mode ++ (",\n    \"rgrad\": ".toList ++ (printInt n.rgrad ++ (",\n".toList ++
    ((if n.initial then "    \"initial\": true,\n".toList else "    \"initial\": false,\n".toList) ++
    ("    \"trans\": [".toList ++ (commaSep (n.trans.map (jsonPtr E)) ++ "] }".toList)))))))))))

/-- The `while (head)` loop, `/repo/src/automaton_io.c` 836-863. -/
def jsonNodes (E : JsonEnv) (len : ℕ) : Aut ℤ (List ℤ) → Option (List Char)
  | [] => some []
  | [n] => (jsonNode E len n).map fun t => t ++ ['\n']
  | n :: m :: r =>
    match jsonNode E len n, jsonNodes E len (m :: r) with
    | some t, some u => some (t ++ (",\n".toList ++ u))
    | _, _ => none

/-- How `json_aut_dump` ends. -/
inductive JsonRes
  /-- the return value -1, nothing written -/
  | failed
  | ub
  /-- the return value 0 and this text -/
  | ok (s : List Char)
  deriving DecidableEq

/-- `json_aut_dump`, `/repo/src/automaton_io.c` 776-866. -/
def jsonDump (E : JsonEnv) (a : Aut ℤ (List ℤ)) (ev sv : VarList) : JsonRes :=
  match E.stamp with
  | none => .failed
  | some stamp =>
    match jsonNodes E (ev.length + sv.length) a with
    | none => .ub
    | some ns => .ok ("{\"version\": 1,\n \"gr1c\": \"".toList ++ (gr1cVersion ++
        ("\",\n \"date\": \"".toList ++ (stamp ++ ("\",\n \"extra\": \"\",\n\n \"ENV\": [".toList ++
        (commaSep (ev.map (jsonVar false)) ++ ("],\n \"SYS\": [".toList ++ (commaSep (sv.map (jsonVar true)) ++
        ("],\n\n \"nodes\": {\n".toList ++ (ns ++ "}}\n".toList))))))))))

end Gr1c
