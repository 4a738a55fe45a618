import Verif.ReachGame

/-!
# Model of `rm_sysgoal`, `/repo/src/patching_hotswap.c` 562-912

The strategy is already loaded and expanded to bits (`Verif.AutIO`, `Verif.Compact`), the formulas of
the specification are sets of states. A pointer to a node is its address `id`; following the pointer
looks the address up in the list the C code keeps the node in.
-/

namespace Gr1c

variable {E S : Type} [Fintype E] [DecidableEq E] [Fintype S] [DecidableEq S]

/-- Following a pointer into a list of nodes. -/
def derefNode {M V : Type} (l : Aut M V) (id : ℕ) : Option (ANode M V) := l.find? fun n => n.id = id

/-- The linear search followed by an append, `/repo/src/patching_hotswap.c` 725-731 and 741-747. -/
def addPtr (a : List ℕ) (p : ℕ) : List ℕ := if p ∈ a then a else a ++ [p]

/-- Inner loops of `/repo/src/patching_hotswap.c` 722-733 and 738-749: append the successors whose
mode satisfies `P`. `none`: a pointer leads outside of the list. -/
def collectTrans {M V : Type} (l : Aut M V) (P : M → Bool) : List ℕ → List ℕ → Option (List ℕ)
  | [], a => some a
  | j :: js, a =>
    match derefNode l j with
    | none => none
    | some y => collectTrans l P js (if P y.mode then addPtr a j else a)

/-- The loop of `/repo/src/patching_hotswap.c` 718-754 over the nodes: the arrays `Entry` and `Exit`.
`l` is the whole strategy, `d1` is `(delete_i+1)%spc.num_sgoals`. -/
def collectEE {V : Type} (l : Aut ℤ V) (d d1 : ℤ) :
    Aut ℤ V → List ℕ × List ℕ → Option (List ℕ × List ℕ)
  | [], a => some a
  | x :: xs, (en, ex) =>
    match (if x.mode = d ∨ x.mode = d1 then
        collectTrans l (fun m => m ≠ d1 ∧ m ≠ d) x.trans ex else some ex) with
    | none => none
    | some ex' =>
      match (if x.mode ≠ d then collectTrans l (fun m => m = d) x.trans en else some en) with
      | none => none
      | some en' => collectEE l d d1 xs (en', ex')

/-- The states of the nodes in an array of pointers, `/repo/src/patching_support.c` 507-528. -/
def ptrStates {M V : Type} [DecidableEq V] (l : Aut M V) (a : List ℕ) : Finset V :=
  (a.filterMap fun p => (derefNode l p).map (·.state)).toFinset

/-- `/repo/src/patching_hotswap.c` 818-834: redirect the edges into the `Entry` nodes to the nodes of
the substrategy. First component: strategy, second: substrategy. -/
def connectEntry {V : Type} [DecidableEq V] : List ℕ → Aut ℤ V → Aut ℤ V → SRes (Aut ℤ V × Aut ℤ V)
  | [], st, sub => .ok (st, sub)
  | p :: ps, st, sub =>
    match derefNode st p with
    | none => .ub
    | some en =>
      match sub.find? (fun z => en.state = z.state) with
      | none => .err
      | some z =>
        connectEntry ps (replaceAnodeTrans st p (some z.id))
          (updNode sub z.id fun n => { n with initial := en.initial })

/-- The search in `/repo/src/patching_hotswap.c` 839-845: the first entry of `Exit` that is not NULL
and has the state `s`. Outer `none`: dangling pointer. -/
def matchExit {V : Type} [DecidableEq V] (st : Aut ℤ V) (s : V) :
    List (Option ℕ) → Option (Option (ANode ℤ V))
  | [] => some none
  | none :: ps => matchExit st s ps
  | some p :: ps =>
    match derefNode st p with
    | none => none
    | some x => if s = x.state then some (some x) else matchExit st s ps

/-- The loop of `/repo/src/patching_hotswap.c` 836-864; the first argument is the rest of the list of
addresses of the substrategy, which does not change. The code sets only the matched index of `Exit` to NULL; no
pointer is stored twice (`addPtr`), so clearing all equal entries is the same. -/
def connectExit {V : Type} [DecidableEq V] : List ℕ → List (Option ℕ) → Aut ℤ V → Aut ℤ V →
    SRes (Aut ℤ V × Aut ℤ V)
  | [], _, st, sub => .ok (st, sub)
  | q :: qs, ex, st, sub =>
    match derefNode sub q with
    | none => .ub
    | some z =>
      if z.trans ≠ [] then connectExit qs ex st sub
      else
        match matchExit st z.state ex with
        | none => .ub
        | some none => .err
        | some (some x) =>
          let sub1 := updNode sub q fun n =>
            { n with mode := x.mode, rgrad := x.rgrad, initial := x.initial, trans := x.trans }
          let st1 := updNode st x.id fun n => { n with trans := [] }
          let st2 := replaceAnodeTrans st1 x.id (some q)
          let sub2 := replaceAnodeTrans sub1 x.id (some q)
          connectExit qs (ex.map fun p => if p = some x.id then none else p)
            (deleteAnode st2 (some x.id)) sub2

/-- The loop of `/repo/src/patching_hotswap.c` 866-877: after every deletion it starts again at the
head. -/
def deleteModes {V : Type} (d d1 : ℤ) (st sub : Aut ℤ V) : Aut ℤ V × Aut ℤ V :=
  match _h : st.find? (fun x => x.mode = d ∨ x.mode = d1) with
  | none => (st, sub)
  | some x =>
    deleteModes d d1 (deleteAnode (replaceAnodeTrans st x.id none) (some x.id))
      (replaceAnodeTrans sub x.id none)
termination_by st.length
decreasing_by
  have hne : st ≠ [] := by rintro rfl; simp at _h
  have := deleteAnode_length (replaceAnodeTrans st x.id none) (some x.id)
    (by simpa [replaceAnodeTrans] using hne)
  simpa [replaceAnodeTrans] using this

/-- `/repo/src/patching_hotswap.c` 690-697: `num_del_nodes`, the capacity of both arrays. -/
def numDel {V : Type} (d d1 : ℤ) (st : Aut ℤ V) : ℕ := st.countP fun x => x.mode = d ∨ x.mode = d1

/-- `rm_sysgoal`, `/repo/src/patching_hotswap.c` 562-912, from line 690 on, with the checks of
585-597; `n` is the number of system goals. `err`: NULL is returned. `ub`: the array `Exit` (or
`Entry`) is written beyond its end, or a dangling pointer is used. The calls that fill the BDDs and
the release of memory are left out. -/
def rmSysgoal {m : ℕ} (G : Game E S) (eg : Fin m → Finset (E × S)) (n : ℕ) (d : ℤ) (o : Oracle E S)
    (fuel : ℕ) (st : Aut ℤ (E × S)) : SRes (Aut ℤ (E × S)) :=
  if d < 0 ∨ (n : ℤ) ≤ d then .err
  else if n < 3 then .err
  else
    let d1 := (d + 1) % n
    let cap := numDel d d1 st
    if cap = 0 then .err
    else
      match collectEE st d d1 st ([], []) with
      | none => .ub
      | some (en, ex) =>
        if cap < en.length ∨ cap < ex.length then .ub
        else
          match reachGame G (ptrStates st en) (ptrStates st ex) Finset.univ eg o fuel with
          | .ub => .ub
          | .err => .err
          | .timeout => .timeout
          | .ok [] => .err
          | .ok (z0 :: zs) =>
            let sub := z0 :: zs
            match connectEntry en st sub with
            | .ub => .ub
            | .err => .err
            | .timeout => .timeout
            | .ok (st1, sub1) =>
              match connectExit (sub1.map (·.id)) (ex.map some) st1 sub1 with
              | .ub => .ub
              | .err => .err
              | .timeout => .timeout
              | .ok (st2, sub2) =>
                let (st3, sub3) := deleteModes d d1 st2 sub2
                let sub4 := sub3.map fun z => if z.mode = -1 then { z with mode := d1 } else z
                .ok (st3 ++ sub4)

end Gr1c
