import Verif.SpinDump
import Verif.Automaton
import Verif.Expand

/-!
# Model of `spin_aut_dump` and `spin_aut_ltl_formula`, `/repo/src/automaton_io.c` 869-1178

As far as written to `fp`; the formula is written a second time to `formula_fp` if that is another stream. Node
states are lists of integers. The variable list is the environment's followed by the system's (994-1006).
-/

namespace Gr1c

/-- `"%04d"` of a nonnegative number. -/
def pad4 (i : ℕ) : List Char := List.replicate (4 - (decimal i).length) '0' ++ decimal i

/-- Repeated ` && []<> nameNNNN`, `/repo/src/automaton_io.c` 881-882 and 888-889. -/
def ltlGoals (name : String) (n : ℕ) : List Char :=
  (List.range n).flatMap fun i => " && []<> ".toList ++ name.toList ++ pad4 i

/-- `spin_aut_ltl_formula`, `/repo/src/automaton_io.c` 869-895. -/
def spinLtl (ne : ℕ) (einit sinit : Bool) (neg nsg : ℕ) : List Char :=
  (if 0 < ne then
    "(".toList ++ ((if einit then "X envinit && ".toList else []) ++ ("[] (!checketrans || envtrans)".toList ++
      (ltlGoals "envgoal" neg ++ ") -> (".toList)))
  else []) ++
  ((if sinit then "X sysinit && ".toList else []) ++ ("[] (!checkstrans || systrans)".toList ++
    (ltlGoals "sysgoal" nsg ++ (" && [] !pmlfault".toList ++ ((if 0 < ne then ")".toList else []) ++ "\n".toList)))))

/-- Formulas joined by ` && `, `/repo/src/automaton_io.c` 949-953 and 970-974. -/
def conjText : List PTree → List Char
  | [] => []
  | [t] => printFormula true t
  | t :: u :: l => printFormula true t ++ " && ".toList ++ conjText (u :: l)

/-- `#define` of a list of formulas, `/repo/src/automaton_io.c` 945-954 and 966-975. -/
def transDefine (name : String) (l : List PTree) : List Char :=
  "\n#define ".toList ++ (name.toList ++ (' ' :: (if l = [] then "true".toList else conjText l)))

/-- `#define` of an initial condition, `/repo/src/automaton_io.c` 941-944 and 962-965. -/
def initDefine (name : String) (t : PTree) : List Char :=
  if t = .nil then [] else "\n#define ".toList ++ (name.toList ++ (' ' :: printFormula true t))

/-- `#define` of the goals from number `i` on, `/repo/src/automaton_io.c` 955-959 and 976-980. -/
def goalDefines (name : String) : ℕ → List PTree → List Char
  | _, [] => []
  | i, t :: l => "\n#define ".toList ++ (name.toList ++ pad4 i ++ (' ' :: printFormula true t)) ++ goalDefines name (i + 1) l

/-- All macros, `/repo/src/automaton_io.c` 940-980. -/
def spinDefines (ne : ℕ) (sp : TSpec) : List Char :=
  (if 0 < ne then
    initDefine "envinit" sp.einit ++ (transDefine "envtrans" sp.etrans ++ goalDefines "envgoal" 0 sp.egoals)
  else []) ++
  (initDefine "sysinit" sp.sinit ++ (transDefine "systrans" sp.strans ++ goalDefines "sysgoal" 0 sp.sgoals))

/-- Type of a variable, `/repo/src/automaton_io.c` 1000-1004. -/
def typeText (x : Name × ℤ) : List Char := if x.2 = -1 then "bool ".toList else "int ".toList

/-- Declarations of a variable and of its next value, `/repo/src/automaton_io.c` 998-1016. -/
def spinDeclText (x : Name × ℤ) : List Char :=
  typeText x ++ (x.1 ++ (";\n".toList ++ (typeText x ++ (x.1 ++ "_next;\n".toList))))

/-- Assignments `; name=value`, with the given ending of the name, `/repo/src/automaton_io.c` 1041-1054 and
1137-1149. -/
def assignsText (sfx : List Char) : List (Name × ℤ) → List ℤ → List Char
  | x :: vs, c :: cs => "; ".toList ++ (x.1 ++ (sfx ++ ('=' :: valueText x c))) ++ assignsText sfx vs cs
  | _, _ => []

/-- The options for initial nodes; `k` is the number of the first node. `/repo/src/automaton_io.c` 1031-1059. -/
def initAlts {M : Type} (vs : List (Name × ℤ)) : ℕ → Aut M (List ℤ) → List Char
  | _, [] => []
  | k, n :: a =>
    (if n.initial then "\n:: (1) -> current_node=".toList ++ (decimal k ++ assignsText [] vs n.state) else []) ++
      initAlts vs (k + 1) a

/-- Conditions on the environment's move, `/repo/src/automaton_io.c` 1112-1125. -/
def envCond : List (Name × ℤ) → List ℤ → List Char
  | x :: vs, c :: cs =>
    " && ".toList ++ ((if x.2 = -1 then (if c = 0 then "!".toList else []) ++ (x.1 ++ "_next".toList)
      else x.1 ++ ("_next == ".toList ++ printInt c)) ++ envCond vs cs)
  | _, _ => []

/-- The option for an edge from node number `k` to the node with address `j`: `none` if there is none, when the
search runs over the end of the list. `/repo/src/automaton_io.c` 1109-1150. -/
def edgeAlt {M : Type} (ev sv : List (Name × ℤ)) (a : Aut M (List ℤ)) (k : ℕ) (j : ℕ) : Option (List Char) :=
  (a.find? fun x => x.id = j).map fun y =>
    "\n:: (current_node == ".toList ++ (decimal k ++ (envCond ev y.state ++ (") -> current_node=".toList ++
      (decimal (a.findIdx fun x => x.id = j) ++ assignsText "_next".toList sv (y.state.drop ev.length)))))

/-- Text of a list, `none` if some entry has none. -/
def optTexts : List (Option (List Char)) → Option (List Char)
  | [] => some []
  | none :: _ => none
  | some t :: l => (optTexts l).map (t ++ ·)

/-- The options for all edges, `/repo/src/automaton_io.c` 1105-1154. -/
def edgeAlts {M : Type} (ev sv : List (Name × ℤ)) (a : Aut M (List ℤ)) : ℕ → Aut M (List ℤ) → Option (List Char)
  | _, [] => some []
  | k, n :: r =>
    match optTexts (n.trans.map (edgeAlt ev sv a k)), edgeAlts ev sv a (k + 1) r with
    | some t, some u => some (t ++ u)
    | _, _ => none

/-- `name = name_next` for all variables, `/repo/src/automaton_io.c` 1159-1166. -/
def applyText : List (Name × ℤ) → List Char
  | [] => []
  | [x] => x.1 ++ (" = ".toList ++ (x.1 ++ "_next".toList))
  | x :: y :: vs => x.1 ++ (" = ".toList ++ (x.1 ++ ("_next".toList ++ ("; ".toList ++ applyText (y :: vs)))))

/-- `spin_aut_dump`, `/repo/src/automaton_io.c` 897-1178, with the text of the version. `none` stands for reading
beyond the end of a state or of the node list; at most `fuel` moves of the environment are enumerated. -/
def spinDump {M : Type} (ver : List Char) (fuel : ℕ) (ev sv : List (Name × ℤ)) (sp : TSpec) (a : Aut M (List ℤ)) :
    Option (List Char) :=
  if ∀ n ∈ a, n.state.length = ev.length + sv.length then
    match (if 0 < ev.length then envMoveText fuel ev else some []), edgeAlts ev sv a 0 a with
    | some em, some ea => some
      ("/* Spin Promela model created by gr1c, version ".toList ++ ver ++ " */\n\n".toList ++
        ("/* LTL formula\n".toList ++ spinLtl ev.length (decide (sp.einit ≠ .nil)) (decide (sp.sinit ≠ .nil)) sp.egoals.length sp.sgoals.length ++
          "*/\n\n".toList) ++
        spinDefines ev.length sp ++ ("\n\n".toList ++
        ((ev ++ sv).flatMap spinDeclText ++
        ((if 0 < ev.length then "\nbool checketrans = false;  /* Check env transition rule? */".toList else []) ++
        ("\nbool checkstrans = false;  /* Check sys transition rule? */\nbool pmlfault = false;\n\n".toList ++
        ("init\n{\nint current_node;\n\nd_step {\nif".toList ++
        (initAlts (ev ++ sv) 0 a ++
        ("\nfi\n};\n\n".toList ++
        (em ++
        ("SYS_MOVE:\nif".toList ++
        (ea ++
        ("\n:: else -> pmlfault=true\nfi;\ncheckstrans = true; checkstrans = false;\n\natomic { ".toList ++
        (applyText (ev ++ sv) ++
        (" };\n\ngoto ".toList ++
        ((if 0 < ev.length then "ENV_MOVE".toList else "SYS_MOVE".toList) ++ "\n}\n\n".toList)))))))))))))))
    | _, _ => none
  else none

end Gr1c
