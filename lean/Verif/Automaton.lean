import Mathlib.Data.List.Basic
import Mathlib.Data.List.Nodup
import Mathlib.Tactic.Ring

/-!
# Model of `/repo/src/automaton.c` (list and graph operations)

An automaton is the linked list of its nodes, head first; the empty list is the NULL pointer.
A node is identified by `id`, which stands for its address; `trans` holds the addresses in the
transition array. Memory allocation always succeeds in the model. Modes and states are arbitrary
types with decidable equality (C: `int`, and arrays compared element by element over the common
length `state_len`).
-/

namespace Gr1c

/-- `anode_t`, `/repo/include/automaton.h` 23-37: one node. `next` is the list order. -/
structure ANode (M V : Type) where
  id : ℕ
  state : V
  mode : M
  rgrad : ℤ
  initial : Bool
  trans : List ℕ
  deriving DecidableEq

/-- An automaton: node list, head first. -/
abbrev Aut (M V : Type) := List (ANode M V)

variable {M V : Type} [DecidableEq M] [DecidableEq V]

/-- `insert_anode`, `/repo/src/automaton.c` 19-50. `fresh` is the address returned by `malloc`. -/
def insertAnode (l : Aut M V) (fresh : ℕ) (mode : M) (rgrad : ℤ) (initial : Bool) (state : V) :
    Aut M V :=
  { id := fresh, state := state, mode := mode, rgrad := rgrad, initial := initial, trans := [] } :: l

/-- `find_anode`, `/repo/src/automaton.c` 78-103. -/
def findAnode (l : Aut M V) (mode : M) (state : V) : Option (ANode M V) :=
  match l with
  | [] => none
  | n :: tl => if n.mode = mode then (if n.state = state then some n else findAnode tl mode state)
      else findAnode tl mode state

/-- `find_anode_index`, `/repo/src/automaton.c` 106-133; `none` stands for -1. The accumulator is
`node_counter`. -/
def findAnodeIndexFrom (c : ℕ) (l : Aut M V) (mode : M) (state : V) : Option ℕ :=
  match l with
  | [] => none
  | n :: tl => if n.mode = mode then
        (if n.state = state then some c else findAnodeIndexFrom (c + 1) tl mode state)
      else findAnodeIndexFrom (c + 1) tl mode state

/-- `find_anode_index`, `/repo/src/automaton.c` 106-133. -/
def findAnodeIndex (l : Aut M V) (mode : M) (state : V) : Option ℕ := findAnodeIndexFrom 0 l mode state

/-- `anode_index`, `/repo/src/automaton.c` 136-147 (`none` is -1). -/
def anodeIndexFrom (c : ℕ) (l : Aut M V) (id : ℕ) : Option ℕ :=
  match l with
  | [] => none
  | n :: tl => if n.id = id then some c else anodeIndexFrom (c + 1) tl id

/-- `anode_index`, `/repo/src/automaton.c` 136-147. -/
def anodeIndex (l : Aut M V) (id : ℕ) : Option ℕ := anodeIndexFrom 0 l id

/-- A write through a node pointer. -/
def updNode (l : Aut M V) (id : ℕ) (f : ANode M V → ANode M V) : Aut M V :=
  l.map fun n => if n.id = id then f n else n

/-- Result of `append_anode_trans`. `ub`: the base node is missing and NULL is dereferenced. -/
inductive AppendRes (M V : Type)
  | ub
  | null
  | ok (l : Aut M V)

/-- `append_anode_trans`, `/repo/src/automaton.c` 53-75. -/
def appendAnodeTrans (l : Aut M V) (mode : M) (state : V) (nextMode : M) (nextState : V) :
    AppendRes M V :=
  match findAnode l mode state with
  | none => .ub
  | some base =>
    match findAnode l nextMode nextState with
    | none => .null
    | some t => .ok (updNode l base.id fun n => { n with trans := n.trans ++ [t.id] })

/-- The `while (next)` loop of `delete_anode`, `/repo/src/automaton.c` 165-178: `none` if the
target is not found. -/
def deleteRest (l : Aut M V) (t : ℕ) : Option (Aut M V) :=
  match l with
  | [] => none
  | n :: tl => if n.id = t then some tl else (deleteRest tl t).map (n :: ·)

/-- `delete_anode`, `/repo/src/automaton.c` 150-179; the second argument `none` is a NULL target. -/
def deleteAnode (l : Aut M V) (target : Option ℕ) : Aut M V :=
  match l, target with
  | [], _ => []
  | _, none => []
  | h :: tl, some t => if h.id = t then tl else
      match deleteRest tl t with
      | some r => h :: r
      | none => []

/-- The inner loop of `replace_anode_trans` for one node, `/repo/src/automaton.c` 187-213: index
`i` over the transition array `a`. -/
def replaceLoop (old : ℕ) (new : Option ℕ) (i : ℕ) (a : List ℕ) : List ℕ :=
  if h : i < a.length then
    if a[i] = old then
      match new with
      | none => replaceLoop old new i (a.eraseIdx i)
      | some y => replaceLoop old new (i + 1) (a.set i y)
    else replaceLoop old new (i + 1) a
  else a
termination_by a.length - i
decreasing_by
  · simp only [List.length_eraseIdx]; split <;> omega
  · simp only [List.length_set]; omega
  · omega

/-- `replace_anode_trans`, `/repo/src/automaton.c` 182-216. -/
def replaceAnodeTrans (l : Aut M V) (old : ℕ) (new : Option ℕ) : Aut M V :=
  l.map fun n => { n with trans := replaceLoop old new 0 n.trans }

omit [DecidableEq M] [DecidableEq V] in
theorem deleteRest_length (l : Aut M V) (t : ℕ) (r : Aut M V) (h : deleteRest l t = some r) :
    r.length < l.length := by
  induction l generalizing r with
  | nil => simp [deleteRest] at h
  | cons n tl ih =>
    unfold deleteRest at h
    split at h
    · simp at h; subst h; simp
    · cases hr : deleteRest tl t with
      | none => rw [hr] at h; simp at h
      | some r' =>
        rw [hr] at h
        simp at h
        subst h
        have := ih r' hr
        simp; omega

omit [DecidableEq M] [DecidableEq V] in
theorem deleteAnode_length (l : Aut M V) (t : Option ℕ) (h : l ≠ []) :
    (deleteAnode l t).length < l.length := by
  cases l with
  | nil => exact absurd rfl h
  | cons n tl =>
    cases t with
    | none => simp [deleteAnode]
    | some t =>
      simp only [deleteAnode]
      split
      · simp
      · cases hr : deleteRest tl t with
        | none => simp
        | some r =>
          have := deleteRest_length tl t r hr
          simp; omega

/-- Lines 225-228 of `/repo/src/automaton.c`: drop dead-end nodes at the head. -/
def pruneHeads (l : Aut M V) : Aut M V :=
  match l with
  | [] => []
  | h :: tl => if h.trans = [] then
      pruneHeads (deleteAnode (replaceAnodeTrans (h :: tl) h.id none) (some h.id)) else h :: tl
termination_by l.length
decreasing_by
  have := deleteAnode_length (replaceAnodeTrans (h :: tl) h.id none) (some h.id)
    (by simp [replaceAnodeTrans])
  simpa [replaceAnodeTrans] using this

omit [DecidableEq M] [DecidableEq V] in
theorem pruneHeads_length (l : Aut M V) : (pruneHeads l).length ≤ l.length := by
  fun_induction pruneHeads l with
  | case1 => simp
  | case2 h tl hh ih =>
    have := deleteAnode_length (replaceAnodeTrans (h :: tl) h.id none) (some h.id)
      (by simp [replaceAnodeTrans])
    simp only [replaceAnodeTrans, List.length_map] at this ih ⊢
    omega
  | case3 => simp

/-- `aut_prune_deadends`, `/repo/src/automaton.c` 219-242. -/
def autPruneDeadends (l : Aut M V) : Aut M V :=
  match _hl : pruneHeads l with
  | [] => []
  | h :: tl =>
    match tl.find? (fun n => n.trans = []) with
    | none => h :: tl
    | some nd => autPruneDeadends (deleteAnode (replaceAnodeTrans (h :: tl) nd.id none) (some nd.id))
termination_by l.length
decreasing_by
  have h1 := deleteAnode_length (replaceAnodeTrans (h :: tl) nd.id none) (some nd.id)
    (by simp [replaceAnodeTrans])
  have h2 := pruneHeads_length l
  rw [_hl] at h2
  simp only [replaceAnodeTrans, List.length_map] at h1 h2 ⊢
  omega

/-- Does some node of the list have an edge to `u`? `/repo/src/automaton.c` 446-455. -/
def hasPred (l : Aut M V) (u : ℕ) : Bool := l.any fun n => n.trans.contains u

/-- Outcome of scanning `U` once, `/repo/src/automaton.c` 441-455. -/
inductive ScanRes
  | ub
  | none
  | hit (i : ℕ) (u : ℕ) (tr : List ℕ)

/-- The `for` loop over `U`, `/repo/src/automaton.c` 441-456: find the first entry that is not NULL,
not initial and without predecessor. Looking at an entry whose node is not in the list reads freed
memory (`ub`). `i` is the index of the first element of the given suffix. -/
def scanU (l : Aut M V) (i : ℕ) : List (Option ℕ) → ScanRes
  | [] => .none
  | none :: us => scanU l (i + 1) us
  | some u :: us =>
    match l.find? (fun n => n.id = u) with
    | none => .ub
    | some nd => if nd.initial then scanU l (i + 1) us
        else if hasPred l u then scanU l (i + 1) us
        else .hit i u nd.trans

/-- `forward_prune`, main loop, `/repo/src/automaton.c` 439-481. `none`: a freed node is used. -/
def forwardPruneLoop (l : Aut M V) (U : List (Option ℕ)) : Option (Aut M V) :=
  if _hl : l = [] then some [] else
  match scanU l 0 U with
  | .ub => none
  | .none => some l
  | .hit _ u tr =>
    -- append the successors, then blank every entry equal to `u` (459-476)
    let U' := (U ++ tr.map some).map fun x => if x = some u then none else x
    forwardPruneLoop (deleteAnode l (some u)) U'
termination_by l.length
decreasing_by exact deleteAnode_length l (some u) _hl

/-- `forward_prune`, `/repo/src/automaton.c` 427-485. (A negative `U_len` is not represented.) -/
def forwardPrune (l : Aut M V) (U : List (Option ℕ)) : Option (Aut M V) :=
  if l = [] then some []
  else if U = [] then some l
  else forwardPruneLoop l U

/-- The loop over the transitions, `/repo/src/automaton.c` 287-299; `call` stands for the recursive call.
`inN` is the test of membership in the array `N` (289-292). -/
def modereachLoop (mode : M) (inN : V → Bool) (magic : M) (call : Aut M V → ℕ → Option (Aut M V)) :
    Aut M V → List ℕ → Option (Aut M V)
  | l, [] => some l
  | l, t :: ts =>
    match l.find? (fun n => n.id = t) with
    | none => none
    | some nd =>
      if nd.mode = mode ∧ inN nd.state then
        match call (updNode l t fun n => { n with mode := magic }) t with
        | none => none
        | some l' => modereachLoop mode inN magic call l' ts
      else modereachLoop mode inN magic call l ts

/-- `forward_modereach`, `/repo/src/automaton.c` 283-302, called on the node with address `id`.
`fuel` bounds the recursion depth; `none` means the bound was too small or a dangling address was
followed. -/
def modereach (mode : M) (inN : V → Bool) (magic : M) : ℕ → Aut M V → ℕ → Option (Aut M V)
  | 0, _, _ => none
  | fuel + 1, l, id =>
    match l.find? (fun n => n.id = id) with
    | none => none
    | some nd => modereachLoop mode inN magic (fun l t => modereach mode inN magic fuel l t) l nd.trans

end Gr1c
