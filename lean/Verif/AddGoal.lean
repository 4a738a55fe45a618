import Verif.RmGoal
import Verif.Metric

/-!
# Model of `add_metric_sysgoal`, `/repo/src/patching_hotswap.c` 37-559

The strategy is already loaded and expanded to bits (`Verif.AutIO`, `Verif.Compact`), the formulas of
the specification and the new goal are sets of states. A pointer to a node is its address `id`;
following the pointer looks the address up in the list the C code keeps the node in, so a pointer to a
node that was freed is noticed (`ub`).
-/

namespace Gr1c

variable {E S : Type} [Fintype E] [DecidableEq E] [Fintype S] [DecidableEq S]

/-- The test of `/repo/src/patching_hotswap.c` 250-256: `a` is `node2->mode`, `b` is `node1->mode`, `i` is
`istar[i]`. -/
def crosses (i a b : ℤ) : Bool := (a < b && a ≤ i && b > i) || (a > b && (b > i || a ≤ i))

/-- The array `Gi[i]`, `/repo/src/patching_hotswap.c` 237-291: the nodes with an edge from a node such that
the modes pass the goal `i`, in the order of the list, each once. -/
def crossNodes {V : Type} (i : ℤ) (st : Aut ℤ V) : List ℕ :=
  (st.filter fun x => st.any fun p => decide (x.id ∈ p.trans) && crosses i p.mode x.mode).map (·.id)

/-- The array `new_reached`, `/repo/src/patching_hotswap.c` 316-330. -/
def deadEnds {V : Type} (sub : Aut ℤ V) : List ℕ := (sub.filter fun z => z.trans = []).map (·.id)

/-- The array `Gi_succ`, `/repo/src/patching_hotswap.c` 338-358. The code collects it in the loop modelled
by `attach`; when it comes to a node, the edges of this node are still those of the loaded strategy. -/
def crossSuccs {V : Type} (gi : List ℕ) (st : Aut ℤ V) : List ℕ :=
  gi.flatMap fun p =>
    match derefNode st p with
    | none => []
    | some g => g.trans.filter fun j => j ∉ gi

/-- The loops of `/repo/src/patching_hotswap.c` 338-393 (nodes of `Gi[0]`, `keep`: their annotation
stays) and 424-452 (nodes of `new_reached`, which take over the annotation): each node takes the edges
and the mode of the node of the component with the same state, which is deleted; pointers to the latter
are redirected. All nodes of the first component have the mode `num_sgoals+1`, those of the second -1,
so setting the mode to this value is taking over the mode. First component of the result: strategy,
second: component. -/
def attach {V : Type} [DecidableEq V] (keep : Bool) : List ℕ → Aut ℤ V → Aut ℤ V → SRes (Aut ℤ V × Aut ℤ V)
  | [], st, sub => .ok (st, sub)
  | p :: ps, st, sub =>
    match derefNode st p with
    | none => .ub
    | some g =>
      match sub.find? (fun z => z.state = g.state) with
      | none => .err
      | some z =>
        let st1 := updNode st p fun x =>
          { x with mode := z.mode, rgrad := if keep then x.rgrad else z.rgrad, trans := z.trans }
        let sub1 := updNode sub z.id fun x => { x with trans := [] }
        attach keep ps (replaceAnodeTrans st1 z.id (some p))
          (deleteAnode (replaceAnodeTrans sub1 z.id (some p)) (some z.id))

/-- The loop of `/repo/src/patching_hotswap.c` 454-485 over the nodes of the second component; the first
argument is the rest of the list of addresses of the component, which does not change. A node without
edges takes over the first node of `Gi[1]` with the same state. The search reads every entry of `Gi[1]`
up to this one, also those whose nodes were deleted before. -/
def takeOver {V : Type} [DecidableEq V] (ex : List ℕ) : List ℕ → Aut ℤ V → Aut ℤ V → SRes (Aut ℤ V × Aut ℤ V)
  | [], st, sub => .ok (st, sub)
  | q :: qs, st, sub =>
    match derefNode sub q with
    | none => .ub
    | some z =>
      if z.trans ≠ [] then takeOver ex qs st sub
      else
        match matchExit st z.state (ex.map some) with
        | none => .ub
        | some none => .err
        | some (some x) =>
          let sub1 := updNode sub q fun n => { n with mode := x.mode, rgrad := x.rgrad, trans := x.trans }
          let st1 := updNode st x.id fun n => { n with trans := [] }
          takeOver ex qs (deleteAnode (replaceAnodeTrans st1 x.id (some q)) (some x.id))
            (replaceAnodeTrans sub1 x.id (some q))

/-- The loop of `/repo/src/patching_hotswap.c` 512-519 for one node: `i` runs from `i1+c-1` down to `i1`. -/
def bumpMode (i1 : ℤ) : ℕ → ℤ → ℤ
  | 0, m => m
  | c + 1, m => bumpMode i1 c (if m = i1 + c then m + 1 else m)

/-- The final modes, `/repo/src/patching_hotswap.c` 500-530; `n` is `spc.num_sgoals`. -/
def newMode (n : ℕ) (i0 i1 m : ℤ) : ℤ :=
  if i0 = n - 1 then (if m = n + 1 then n else if m = -1 then 0 else m)
  else
    let m' := bumpMode i1 (n - i1).toNat m
    if m' = n + 1 then i1 else if m' = -1 then i1 + 1 else m'

/-- `istar[1]`, `/repo/src/patching_hotswap.c` 229-233. -/
def nextGoal (n : ℕ) (i0 : ℤ) : ℤ := if i0 = n - 1 then 0 else i0 + 1

/-- `add_metric_sysgoal` from line 229 on, `/repo/src/patching_hotswap.c`; `n` is the number of system
goals, `i0` is `istar[0]`, `new` the new goal; `o1`, `o2` and `fuel` stand for the two components. `err`: NULL is returned. The
release of memory is left out. -/
def addSysgoal {m : ℕ} (G : Game E S) (eg : Fin m → Finset (E × S)) (n : ℕ) (new : Finset (E × S)) (i0 : ℤ)
    (o1 o2 : Oracle E S) (fuel : ℕ) (st : Aut ℤ (E × S)) : SRes (Aut ℤ (E × S)) :=
  let i1 := nextGoal n i0
  let gi0 := crossNodes i0 st
  let gi1 := crossNodes i1 st
  match reachGame G (ptrStates st gi0) new Finset.univ eg o1 fuel with
  | .ub => .ub
  | .err => .err
  | .timeout => .timeout
  | .ok [] => .err
  | .ok (y0 :: ys) =>
    let sub := (y0 :: ys).map fun z => { z with mode := (n : ℤ) + 1 }
    let reached := deadEnds sub
    match attach true gi0 st sub with
    | .ub => .ub
    | .err => .err
    | .timeout => .timeout
    | .ok (st1, sub1) =>
      let st2 := st1 ++ sub1
      if reached.any fun p => (derefNode st2 p).isNone then .ub          -- 410: states of freed nodes
      else
        match reachGame G (ptrStates st2 reached) (ptrStates st2 gi1) Finset.univ eg o2 fuel with
        | .ub => .ub
        | .err => .err
        | .timeout => .timeout
        | .ok [] => .err
        | .ok (z0 :: zs) =>
          match attach false reached st2 (z0 :: zs) with
          | .ub => .ub
          | .err => .err
          | .timeout => .timeout
          | .ok (st3, sub3) =>
            match takeOver gi1 (sub3.map (·.id)) st3 sub3 with
            | .ub => .ub
            | .err => .err
            | .timeout => .timeout
            | .ok (st4, sub4) =>
              if st4 = [] then .ub                                         -- 487-488
              else
                match forwardPrune (st4 ++ sub4) ((crossSuccs gi0 st).map some) with
                | none => .ub
                | some [] => .err
                | some (x0 :: xs) => .ok ((x0 :: xs).map fun x => { x with mode := newMode n i0 i1 x.mode })

/-- The choice of `istar[0]` by distance, `/repo/src/patching_hotswap.c` 212-216: the first of the least
entries of `Min`; `k` is the next index, `best` the index so far and its entry. -/
def closestFrom : ℕ → ℕ × ℤ → List ℤ → ℕ
  | _, best, [] => best.1
  | k, best, v :: vs => closestFrom (k + 1) (if v < best.2 then (k, v) else best) vs

/-- The array `Min`, `/repo/src/patching_hotswap.c` 202-211: distances from the goals to the new one. -/
def goalDists {ne ns : ℕ} (cover : Bdd (2 * (ne + ns)) → List (CubeArr (2 * (ne + ns))))
    (offw : List (ℕ × ℕ)) (new : Finset (BState ne ns)) : List (Finset (BState ne ns)) → CRes (List ℤ)
  | [] => .ok []
  | g :: gs =>
    match boundsDDset (ne + ns) (cover (bddOf g)) (cover (bddOf new)) offw with
    | .ok mm =>
      match goalDists cover offw new gs with
      | .ok l => .ok (mm.1 :: l)
      | e => e
    | .ub => .ub
    | .null => .null

/-- `istar[0]`, `/repo/src/patching_hotswap.c` 194-227. `null`: NULL is returned. Without goals nothing is
compared and the index is 0 or -1. -/
def pickGoal {ne ns : ℕ} (cover : Bdd (2 * (ne + ns)) → List (CubeArr (2 * (ne + ns))))
    (offw : List (ℕ × ℕ)) (new : Finset (BState ne ns)) (sgs : List (Finset (BState ne ns))) : CRes ℤ :=
  if offw = [] then .ok ((sgs.length : ℤ) - 1)
  else
    match goalDists cover offw new sgs with
    | .ub => .ub
    | .null => .null
    | .ok [] => .ok 0
    | .ok (v :: vs) => .ok (closestFrom 1 (0, v) vs : ℕ)

/-- `add_metric_sysgoal`, `/repo/src/patching_hotswap.c` 37-559, after loading. -/
def addMetricSysgoal {ne ns m : ℕ} (G : Game (Val ne) (Val ns)) (eg : Fin m → Finset (BState ne ns))
    (sgs : List (Finset (BState ne ns))) (cover : Bdd (2 * (ne + ns)) → List (CubeArr (2 * (ne + ns))))
    (offw : List (ℕ × ℕ)) (new : Finset (BState ne ns)) (o1 o2 : Oracle (Val ne) (Val ns)) (fuel : ℕ)
    (st : Aut ℤ (BState ne ns)) : SRes (Aut ℤ (BState ne ns)) :=
  match pickGoal cover offw new sgs with
  | .ub => .ub
  | .null => .err
  | .ok i0 => addSysgoal G eg sgs.length new i0 o1 o2 fuel st

end Gr1c
