import Verif.Automaton
import Verif.Bits

/-!
# Model of the conversion of automata between bits and integer values

`aut_compact_nonbool` and `aut_expand_bool` (`/repo/src/automaton.c`), `get_offsets_list` and
`expand_nonbool_state` (`/repo/src/util.c`). A variable list is the list of the names and values of its
nodes (all nodes are PT_VARIABLE with a name). A state is an array of `int`.
-/

namespace Gr1c

/-- A node of a variable list: name and value. -/
abbrev VarList := List (List Char × ℤ)

/-- `strstr( var->name, name ) == var->name`: the first occurrence is at the start. -/
def pfxOf (name : List Char) (v : List Char × ℤ) : Bool := name.isPrefixOf v.1

/-- Position of the first match and length of the run of matches from there, or none,
`/repo/src/automaton.c` 316-320 and 332-339, `/repo/src/util.c` 702-707 and 725-733. -/
def findRun (name : List Char) (l : VarList) : Option (ℕ × ℕ) :=
  match l.findIdx? (pfxOf name) with
  | none => none
  | some i => some (i, ((l.drop i).takeWhile (pfxOf name)).length)

/-- Start index and width of a variable in environment list followed by system list,
`/repo/src/util.c` 700-736. The run does not extend from one list into the other. -/
def offsetOf (ev sv : VarList) (name : List Char) : Option (ℕ × ℕ) :=
  match findRun name ev with
  | some r => some r
  | none =>
    match findRun name sv with
    | some (i, w) => some (ev.length + i, w)
    | none => none

/-- `get_offsets_list`, `/repo/src/util.c` 682-742. `none` is the error case; an empty list of
variables gives NULL in C as well. -/
def getOffsetsList (ev sv : VarList) : VarList → Option (List (ℕ × ℕ))
  | [] => some []
  | v :: vs =>
    match offsetOf ev sv v.1 with
    | none => none
    | some r =>
      match getOffsetsList ev sv vs with
      | none => none
      | some rs => some (r :: rs)

/-- Writing `frag` from index `j` on, `/repo/src/util.c` 186-187; writing outside is undefined. -/
def writeAt (out : List (Option ℤ)) (j : ℕ) (frag : List ℤ) : CRes (List (Option ℤ)) :=
  if out.length < j + frag.length then .ub
  else .ok (out.take j ++ frag.map some ++ out.drop (j + frag.length))

/-- The loop of `expand_nonbool_state`, `/repo/src/util.c` 177-193: `st` is the rest of the state
(from `k`), `offw` the rest of the offsets (from `i`). Reading beyond the state is undefined. A width
below 1 makes `int_to_bitvec` return NULL, nothing is copied then. -/
def expandStateLoop (mappedLen : ℕ) (st : List ℤ) (offw : List (ℕ × ℕ)) (j : ℕ) (out : List (Option ℤ)) :
    CRes (List (Option ℤ)) :=
  if j < mappedLen then
    match st with
    | [] => .ub
    | x :: st' =>
      match offw with
      | [] => expandStateLoop mappedLen st' [] (j + 1) (out.set j (some x))
      | (s, w) :: offw' =>
        if j < s then expandStateLoop mappedLen st' ((s, w) :: offw') (j + 1) (out.set j (some x))
        else
          match intToBitvec x w with
          | .ub => .ub
          | .null => expandStateLoop mappedLen st' offw' s out
          | .ok frag =>
            match writeAt out s frag with
            | .ok out' => expandStateLoop mappedLen st' offw' (s + w) out'
            | _ => .ub
  else .ok out
termination_by st.length

/-- `expand_nonbool_state`, `/repo/src/util.c` 163-196, for a non-NULL state and nonnegative
`num_nonbool`. Entries that were never written are `none`. -/
def expandNonboolState (st : List ℤ) (offw : List (ℕ × ℕ)) (mappedLen : ℕ) : CRes (List (Option ℤ)) :=
  if mappedLen = 0 then .null
  else expandStateLoop mappedLen st offw 0 (List.replicate mappedLen none)

/-- Apply a conversion to the states of all nodes in order. -/
def mapStates {M V W : Type} (f : V → CRes W) : Aut M V → CRes (Aut M W)
  | [] => .ok []
  | x :: xs =>
    match f x.state with
    | .ub => .ub
    | .null => .null
    | .ok s =>
      match mapStates f xs with
      | .ub => .ub
      | .null => .null
      | .ok ys => .ok (⟨x.id, s, x.mode, x.rgrad, x.initial, x.trans⟩ :: ys)

/-- `aut_expand_bool`, `/repo/src/automaton.c` 385-424; `null` is the return value -1. -/
def autExpandBool {M : Type} (head : Aut M (List ℤ)) (ev sv nonbool : VarList) :
    CRes (Aut M (List (Option ℤ))) :=
  if head = [] then .null
  else if nonbool = [] then .ok (head.map fun x => ⟨x.id, x.state.map some, x.mode, x.rgrad, x.initial, x.trans⟩)
  else
    match getOffsetsList ev sv nonbool with
    | none => .null
    | some offw => mapStates (fun st => expandNonboolState st offw (ev.length + sv.length)) head

/-- The new variable list, `/repo/src/automaton.c` 340-352: the run of `w` nodes from index `i` becomes
one node. -/
def compactVars (name : List Char) (maxval : ℤ) (i w : ℕ) (l : VarList) : VarList :=
  l.take i ++ (name, maxval) :: l.drop (i + w)

/-- The new state, `/repo/src/automaton.c` 354-375; `total` is `num_env+num_sys`. Reading beyond the
state is undefined. -/
def compactState (start w total : ℕ) (st : List ℤ) : CRes (List ℤ) :=
  if st.length < total then .ub
  else
    match bitvecToInt ((st.drop start).take w) with
    | .ok x => .ok (st.take start ++ x :: (st.take total).drop (start + w))
    | _ => .ub

/-- `aut_compact_nonbool`, `/repo/src/automaton.c` 305-380: the changed automaton and variable lists.
`null` is the return value -1, in which case nothing is changed. -/
def autCompact {M : Type} (head : Aut M (List ℤ)) (ev sv : VarList) (name : List Char) (maxval : ℤ) :
    CRes (Aut M (List ℤ) × VarList × VarList) :=
  let total := ev.length + sv.length
  match findRun name ev with
  | some (i, w) =>
    match mapStates (compactState i w total) head with
    | .ok a => .ok (a, compactVars name maxval i w ev, sv)
    | _ => .ub
  | none =>
    match findRun name sv with
    | some (i, w) =>
      match mapStates (compactState (ev.length + i) w total) head with
      | .ok a => .ok (a, ev, compactVars name maxval i w sv)
      | _ => .ub
    | none => .null

/-- The loop over all integer variables, `/repo/src/main.c` 628-634 and `/repo/src/rg_main.c` 545-552;
the return value is ignored. -/
def compactAll {M : Type} : Aut M (List ℤ) → VarList → VarList → VarList →
    CRes (Aut M (List ℤ) × VarList × VarList)
  | head, ev, sv, [] => .ok (head, ev, sv)
  | head, ev, sv, v :: vs =>
    match autCompact head ev sv v.1 v.2 with
    | .ub => .ub
    | .null => compactAll head ev sv vs
    | .ok (a, ev', sv') => compactAll a ev' sv' vs

end Gr1c
