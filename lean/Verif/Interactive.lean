import Verif.BddProps
import Verif.Bits
import Verif.Sublevels
import Verif.CText

/-!
# Model of the interactive mode, `/repo/src/interactive.c`

The first part is the `switch` of `levelset_interactive` (542-955), the second one the recognition of
commands in `command_loop` (106-401). A BDD over the unprimed variables is the set of its states; the
transition relations are kept as Boolean functions. Vectors given by the user hold 0 and 1 (other values
are not modelled). There is at least one system variable: otherwise the marker of `sysnext` (675) fails.
Log output and freeing of memory are left out.
-/

namespace Gr1c

/-- Commands with their arguments: `intcom_state` and `intcom_index`, `/repo/src/interactive.c` 37-49 and
79-81. For `restrict` and `relax` the index is the length of the vector. -/
inductive ICmd
  | winning (v : List ℕ)
  | envnext (v : List ℕ)
  | sysnext (v : List ℕ) (mode : ℕ)
  | sysnexta (v : List ℕ)
  | restrict (v : List ℕ)
  | relax (v : List ℕ)
  | clear
  | blkenv (v : List ℕ)
  | blksys (v : List ℕ)
  | getindex (v : List ℕ) (mode : ℕ)
  | rewin
  | relevels
  deriving DecidableEq

/-- What is written to `outfp` for a command. -/
inductive IOut
  | nothing
  | rows (l : List (List ℕ))   -- one line each, then `---`
  | noEnv                      -- "(none)"
  | truth (b : Bool)
  | inf
  | index (j : ℕ)
  deriving DecidableEq

/-- The variables of `levelset_interactive` that survive from one command to the next. -/
structure ISess (ne ns m n : ℕ) where
  et : Bdd (2 * (ne + ns))      -- etrans_patched
  st : Bdd (2 * (ne + ns))      -- strans_patched
  W : Finset (BState ne ns)
  Y : Fin n → List (Level (Val ne) (Val ns) m)

/-- The specification: the relations and goals it was started with. -/
structure ISpec (ne ns m n : ℕ) where
  etrans : Bdd (2 * (ne + ns))
  strans : Bdd (2 * (ne + ns))
  eg : Fin m → Finset (BState ne ns)
  sg : Fin n → Finset (BState ne ns)

variable {ne ns m n : ℕ}

/-- The loop finding the level, `/repo/src/interactive.c` 633-641 and 826-834; the argument is `j` before
it is decreased. -/
def scanLevel {E S : Type} [DecidableEq E] [DecidableEq S] (L : List (Level E S m)) (s : E × S) : ℕ → ℕ
  | 0 => 0
  | j + 1 =>
    match L[j]? with
    | none => j + 1
    | some lv => if s ∈ lv.Y then (if j = 0 then 0 else scanLevel L s j) else j + 1

/-- The listing of system moves, e.g. `/repo/src/interactive.c` 655-690: `f` is the relation, cofactored by
the state and the environment move, and its cubes are enumerated over the primed system variables. -/
def listMoves (cover : Bdd (2 * (ne + ns)) → List (CubeArr (2 * (ne + ns)))) (f : Bdd (2 * (ne + ns)))
    (v : List ℕ) : Option (List (List ℕ)) :=
  let tmp2 := stateToCof (fun _ => 2) (v.take (ne + ns)) f 0
  let tmp := stateToCof (fun _ => 2) ((v.drop (ne + ns)).take ne) tmp2 (ne + ns)
  enumCover (2 * ne + ns) ns (cover tmp)

/-- `INTCOM_SYSNEXT`, `/repo/src/interactive.c` 618-756. Reading beyond the array of levels is
undefined (710). -/
def doSysnext (cover : Bdd (2 * (ne + ns)) → List (CubeArr (2 * (ne + ns)))) (σ : ISess ne ns m n)
    (v : List ℕ) (mode : ℕ) : CRes IOut :=
  if h : mode < n then
    let L := σ.Y ⟨mode, h⟩
    let into := cuddAnd σ.st (cuddVarMap (bddOf σ.W))
    let s : BState ne ns := stateOf (v.take (ne + ns))
    let j := scanLevel L s L.length
    match L[j - 1]? with            -- `Y[0]` for `j = 0`
    | none => .ub
    | some lv =>
      match listMoves cover (cuddAnd into (cuddVarMap (bddOf lv.Y))) v with
      | none => .null
      | some rows =>
        if rows ≠ [] then .ok (.rows rows)
        else if 0 < j then
          match L[j]? with
          | none => .ub
          | some lv' =>
            match listMoves cover (cuddAnd into (cuddVarMap (bddOf lv'.Y))) v with
            | none => .null
            | some rows' => .ok (.rows rows')
        else
          match listMoves cover (cuddAnd into (fun _ => true)) v with
          | none => .null
          | some rows' => .ok (.rows rows')
  else .ub

/-- `INTCOM_GETINDEX`, `/repo/src/interactive.c` 808-837. -/
def doGetindex (σ : ISess ne ns m n) (v : List ℕ) (mode : ℕ) : CRes IOut :=
  if h : mode < n then
    let s : BState ne ns := stateOf v
    if s ∉ σ.W then .ok .inf
    else .ok (.index (scanLevel (σ.Y ⟨mode, h⟩) s (σ.Y ⟨mode, h⟩).length))
  else .ub

/-- `INTCOM_RESTRICT` and `INTCOM_RELAX`, `/repo/src/interactive.c` 839-900. -/
def doEdge (add : Bool) (σ : ISess ne ns m n) (v : List ℕ) : ISess ne ns m n :=
  let vertex1 : Bdd (2 * (ne + ns)) := stateToBdd (v.take (ne + ns)) 0
  let vertex2 : Bdd (2 * (ne + ns)) := stateToBdd (v.drop (ne + ns)) (ne + ns)
  let tmp := if add then cuddAnd vertex1 vertex2 else cuddOr (cuddNot vertex1) (cuddNot vertex2)
  let op := if add then cuddOr tmp else cuddAnd tmp
  if v.length = 2 * ne + ns then { σ with et := op σ.et }
  else { σ with st := op σ.st }

/-- One command, `/repo/src/interactive.c` 544-955. `null` is an error return (no winning set or levels,
which happens without system goals). -/
def iStep (cover : Bdd (2 * (ne + ns)) → List (CubeArr (2 * (ne + ns)))) (sp : ISpec ne ns m n)
    (σ : ISess ne ns m n) : ICmd → CRes (ISess ne ns m n × IOut)
  | .rewin =>
    match winningSet (bitGame σ.et σ.st) sp.eg sp.sg with
    | none => .null
    | some W => .ok ({ σ with W := W }, .nothing)
  | .relevels =>
    match winningSet (bitGame σ.et σ.st) sp.eg sp.sg with
    | none => .null
    | some W =>
      match computeSublevels (bitGame σ.et σ.st) W sp.eg sp.sg with
      | none => .null
      | some Y => .ok ({ σ with W := W, Y := Y }, .nothing)
  | .envnext v =>
    if 0 < ne then
      match getEnvMoves ne ns cover (fun _ => 2) v σ.et with
      | none => .null
      | some l => .ok (σ, .rows l)
    else .ok (σ, .noEnv)
  | .sysnext v mode =>
    match doSysnext cover σ v mode with
    | .ok o => .ok (σ, o)
    | .ub => .ub
    | .null => .null
  | .sysnexta v =>
    match listMoves cover σ.st v with
    | none => .null
    | some l => .ok (σ, .rows l)
  | .winning v => .ok (σ, .truth (decide (stateOf v ∈ σ.W)))
  | .getindex v mode =>
    match doGetindex σ v mode with
    | .ok o => .ok (σ, o)
    | .ub => .ub
    | .null => .null
  | .restrict v => .ok (doEdge false σ v, .nothing)
  | .relax v => .ok (doEdge true σ v, .nothing)
  | .blkenv v => .ok ({ σ with et := cuddAnd σ.et (cuddNot (stateToBdd v (ne + ns))) }, .nothing)
  | .blksys v => .ok ({ σ with st := cuddAnd σ.st (cuddNot (stateToBdd v (2 * ne + ns))) }, .nothing)
  | .clear => .ok ({ σ with et := sp.etrans, st := sp.strans }, .nothing)

/-- The loop over the commands, `/repo/src/interactive.c` 542-958, from a given point on: the final session
and the outputs. -/
def iRun (cover : Bdd (2 * (ne + ns)) → List (CubeArr (2 * (ne + ns)))) (sp : ISpec ne ns m n)
    (σ : ISess ne ns m n) : List ICmd → CRes (ISess ne ns m n × List IOut)
  | [] => .ok (σ, [])
  | c :: cs =>
    match iStep cover sp σ c with
    | .ub => .ub
    | .null => .null
    | .ok (σ', o) =>
      match iRun cover sp σ' cs with
      | .ub => .ub
      | .null => .null
      | .ok (σ'', os) => .ok (σ'', o :: os)

/-- The session before the first command, `/repo/src/interactive.c` 524-541: the first command executed is
always `relevels`. -/
def iStart (sp : ISpec ne ns m n) : ISess ne ns m n := ⟨sp.etrans, sp.strans, ∅, fun _ => []⟩

/-! ## Recognition of commands -/

/-- `!strncmp( input, w, strlen(w) )`. -/
def startsWith (w input : List Char) : Bool := w.isPrefixOf input

/-- What one line leads to: a command is returned, the loop ends, or something is printed and the next line
is read. Printed text is not modelled except for these two messages. -/
inductive ILine
  | cmd (c : ICmd)
  | quit
  | invalid                     -- "Invalid arguments."
  | badMode                     -- "Invalid mode: ..."
  | other                       -- any other output
  | unmodelled                  -- entries other than 0 and 1
  deriving DecidableEq

/-- The vector as used by the model. -/
def asBits (l : List ℤ) : Option (List ℕ) :=
  if ∀ x ∈ l, x = 0 ∨ x = 1 then some (l.map Int.toNat) else none

/-- Commands whose arguments are a vector of fixed length, e.g. `/repo/src/interactive.c` 225-238. -/
def argCmd (input w : List Char) (len : ℕ) (mk : List ℕ → ICmd) : ILine :=
  let l := readStateStr (input.drop (w.length + 1)) len
  if l.length = len then
    match asBits l with
    | some v => .cmd (mk v)
    | none => .unmodelled
  else .invalid

/-- Commands with a goal mode after the vector, e.g. `/repo/src/interactive.c` 256-286. -/
def modeCmd (input w : List Char) (len n : ℕ) (mk : List ℕ → ℕ → ICmd) : ILine :=
  let l := readStateStr (input.drop (w.length + 1)) (len + 1 : ℕ)
  if l.length ≠ len + 1 then .invalid
  else
    let md := l.getD len 0
    if md < 0 ∨ md > (n : ℤ) - 1 then .badMode
    else
      match asBits (l.take len) with
      | some v => .cmd (mk v md.toNat)
      | none => .unmodelled

/-- `restrict` and `relax`, `/repo/src/interactive.c` 302-332. -/
def edgeCmd (ne ns : ℕ) (input w : List Char) (mk : List ℕ → ICmd) : ILine :=
  let l := readStateStr (input.drop (w.length + 1)) (2 * (ne + ns) : ℕ)
  if l.length = 2 * (ne + ns) ∨ l.length = 2 * ne + ns then
    match asBits l with
    | some v => .cmd (mk v)
    | none => .unmodelled
  else .invalid

/-- `command_loop`, `/repo/src/interactive.c` 123-390, for one line. A name is followed by a space
which is overwritten before the arguments are read. -/
def parseLine (ne ns n : ℕ) (input : List Char) : ILine :=
  let sw (w : String) := startsWith w.toList input
  if input = [] then .other
  else if sw "quit" then .quit
  else if sw "help" then .other
  else if sw "enable autoreorder" then .other
  else if sw "disable autoreorder" then .other
  else if sw "numgoals" then .other
  else if sw "envvar" then .other
  else if sw "sysvar" then .other
  else if sw "var" then .other
  else if sw "refresh winning" then .cmd .rewin
  else if sw "refresh levels" then .cmd .relevels
  else if sw "printgoal " then .other
  else if sw "printegoals" then .other
  else if sw "winning " then argCmd input "winning".toList (ne + ns) .winning
  else if sw "envnext " then argCmd input "envnext".toList (ne + ns) .envnext
  else if sw "sysnext " then modeCmd input "sysnext".toList (2 * ne + ns) n .sysnext
  else if sw "sysnexta " then argCmd input "sysnexta".toList (2 * ne + ns) .sysnexta
  else if sw "restrict " then edgeCmd ne ns input "restrict".toList .restrict
  else if sw "relax " then edgeCmd ne ns input "relax".toList .relax
  else if sw "clear" then .cmd .clear
  else if sw "blockenv " then argCmd input "blockenv".toList ne .blkenv
  else if sw "blocksys " then argCmd input "blocksys".toList ns .blksys
  else if sw "getindex " then modeCmd input "getindex".toList (ne + ns) n .getindex
  else .other

end Gr1c
