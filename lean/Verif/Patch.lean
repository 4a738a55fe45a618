import Verif.RmGoal

/-!
# Model of `patch_localfixpoint`, `/repo/src/patching.c` 69-1069

The strategy is already loaded and expanded to bits, the lines of the change file are already split
into the neighbourhood `N` and a list of commands, and the parts of the transition rules are Boolean
functions. Reading values is the subject of `Verif.CText` and `Verif.Compact`. Annotations are
integers without overflow.
-/

namespace Gr1c

variable {E S : Type} [Fintype E] [DecidableEq E] [Fintype S] [DecidableEq S]

/-- The same oracle with an allocator that also avoids the given addresses: the nodes of the strategy
are in use while the local strategy is built. -/
def Oracle.avoid (o : Oracle E S) (used : List ℕ) : Oracle E S :=
  { o with alloc := fun c ids => o.alloc c (ids ++ used) }

/-! ## One goal mode -/

section
variable {V : Type} [DecidableEq V]

/-- `/repo/src/patching.c` 131-148: add the successors that have mode `g` and lie in `N` to `Entry`,
unless a node with the same state is there. Entries stand for pointers; only address, state and
annotation are read through them, and these do not change while the array is in use.
`none`: a pointer leads outside of the list. -/
def addEntry (st : Aut ℤ V) (g : ℤ) (inN : V → Bool) : List ℕ → Aut ℤ V → Option (Aut ℤ V)
  | [], en => some en
  | j :: js, en =>
    match derefNode st j with
    | none => none
    | some y =>
      addEntry st g inN js
        (if y.mode = g ∧ inN y.state = true ∧ ∀ z ∈ en, z.state ≠ y.state then en ++ [y] else en)

/-- `/repo/src/patching.c` 113-152: the arrays `Entry` and `Exit`. -/
def goalScan (st : Aut ℤ V) (g : ℤ) (inN : V → Bool) :
    Aut ℤ V → Aut ℤ V × Aut ℤ V → Option (Aut ℤ V × Aut ℤ V)
  | [], a => some a
  | x :: xs, (en, ex) =>
    if x.mode = g then
      if inN x.state then goalScan st g inN xs (en, ex ++ [x])
      else
        match addEntry st g inN x.trans en with
        | none => none
        | some en' => goalScan st g inN xs (en', ex)
    else goalScan st g inN xs (en, ex)

/-- `/repo/src/patching.c` 157-165 and 219-227: minimum with -1 standing for "none yet". -/
def minRgrad : List ℤ → ℤ → ℤ
  | [], m => m
  | r :: rs, m => minRgrad rs (if r < m ∨ m = -1 then r else m)

/-- `/repo/src/patching.c` 220-223: maximum, starting from -1. -/
def maxRgrad : List ℤ → ℤ → ℤ
  | [], m => m
  | r :: rs, m => maxRgrad rs (if m < r then r else m)

/-- `/repo/src/patching.c` 169-182: remove the entries with annotation at least `mn`; the last entry
takes the free place. -/
def dropHigh (mn : ℤ) (i : ℕ) (ex : Aut ℤ V) : Aut ℤ V :=
  if h : i < ex.length then
    if mn ≤ ex[i].rgrad then
      (if 1 < ex.length then
        dropHigh mn i ((ex.set i (ex[ex.length - 1]'(by omega))).dropLast)
      else [])
    else dropHigh mn (i + 1) ex
  else ex
termination_by ex.length - i
decreasing_by
  · simp only [List.length_dropLast, List.length_set]; omega
  · omega

/-- `/repo/src/patching.c` 230-244: redirect the edges into the `Entry` nodes to the nodes of the
local strategy `sub`. -/
def patchEntries (sub : Aut ℤ V) : Aut ℤ V → Aut ℤ V → SRes (Aut ℤ V)
  | [], st => .ok st
  | y :: ys, st =>
    match sub.find? (fun z => y.state = z.state) with
    | none => .err
    | some z => patchEntries sub ys (replaceAnodeTrans st y.id (some z.id))

/-- `/repo/src/patching.c` 246-283. First argument: rest of the list of addresses of the local
strategy. `r` is `Exit_rgrad`. `forward_modereach` follows pointers in both lists; its recursion depth
is bounded by the number of nodes, which always suffices. -/
def patchExits (g : ℤ) (inN : V → Bool) (ex : Aut ℤ V) :
    List ℕ → ℤ → Aut ℤ V → Aut ℤ V → SRes (ℤ × Aut ℤ V × Aut ℤ V)
  | [], r, st, sub => .ok (r, st, sub)
  | q :: qs, r, st, sub =>
    match derefNode sub q with
    | none => .ub
    | some z =>
      if z.trans ≠ [] then patchExits g inN ex qs r st sub
      else
        match ex.find? (fun x => z.state = x.state) with
        | none => .err
        | some x =>
          match modereach g inN (-1) (st.length + sub.length + 1) (st ++ sub) x.id with
          | none => .ub
          | some h =>
            patchExits g inN ex qs (if r < x.rgrad then x.rgrad else r)
              (updNode (h.take st.length) x.id fun n => { n with mode := -1 })
              (replaceAnodeTrans
                (updNode (h.drop st.length) q fun n => { n with mode := -2 }) q (some x.id))

/-- `/repo/src/patching.c` 287-301: nodes found by `forward_modereach` get their mode back, the other
nodes of mode `g` in `N` are marked for deletion. -/
def remark (g : ℤ) (inN : V → Bool) (x : ANode ℤ V) : ANode ℤ V :=
  if x.mode = g then (if inN x.state then { x with mode := -2 } else x)
  else (if x.mode = -1 then { x with mode := g } else x)

/-- `/repo/src/patching.c` 312-320: delete the marked nodes of the local strategy; edges to them are
not touched. -/
def deleteMarked (sub : Aut ℤ V) : Aut ℤ V :=
  match _h : sub.find? (fun x => x.mode = -2) with
  | none => sub
  | some x => deleteMarked (deleteAnode sub (some x.id))
termination_by sub.length
decreasing_by
  have hne : sub ≠ [] := by rintro rfl; simp at _h
  exact deleteAnode_length sub (some x.id) hne

/-- `/repo/src/patching.c` 323-325: the first factor `i` with `d * i ≥ r`; first argument: bound on
the number of iterations. -/
def scaleLoop (d r : ℤ) : ℕ → ℕ → Option ℕ
  | 0, _ => none
  | fuel + 1, i => if d * i < r then scaleLoop d r fuel (i + 1) else some i

end

/-- `localfixpoint_goalmode`, `/repo/src/patching.c` 69-348. `aff` are the addresses of the affected
nodes of mode `g`. `err`: NULL is returned. `ub`: the array `Exit` (capacity `N_len`) is written beyond
its end, a dangling pointer is used, the scaling loop does not end (its bound `r + 1` is enough if
`d > 0`; otherwise it runs until an overflow), or NULL is dereferenced in 340. -/
def localFix {m : ℕ} (G : Game E S) (eg : Fin m → Finset (E × S)) (N : List (E × S)) (o : Oracle E S)
    (fuel : ℕ) (g : ℤ) (aff : List ℕ) (st : Aut ℤ (E × S)) : SRes (Aut ℤ (E × S)) :=
  if aff = [] then .ok st                                         -- 103-107
  else
    match goalScan st g (fun s => s ∈ N) st ([], []) with
    | none => .ub
    | some (en, ex0) =>
      if N.length < ex0.length then .ub
      else
        match aff.mapM (derefNode st) with
        | none => .ub
        | some us =>
          let mn := minRgrad (us.map (·.rgrad)) (minRgrad (en.map (·.rgrad)) (-1))
          let ex := dropHigh mn 0 ex0
          match reachGame G (en.map (·.state)).toFinset (ex.map (·.state)).toFinset N.toFinset eg
              (o.avoid (st.map (·.id))) fuel with
          | .ub => .ub
          | .err => .err
          | .timeout => .timeout
          | .ok [] => .err
          | .ok (z0 :: zs) =>
            let sub := z0 :: zs
            let lmax := maxRgrad (sub.map (·.rgrad)) (-1)
            let lmin := minRgrad (sub.map (·.rgrad)) (-1)
            match patchEntries sub en st with
            | .ub => .ub
            | .err => .err
            | .timeout => .timeout
            | .ok st1 =>
              match patchExits g (fun s => s ∈ N) ex (sub.map (·.id)) (-1) st1 sub with
              | .ub => .ub
              | .err => .err
              | .timeout => .timeout
              | .ok (er, st2, sub2) =>
                let st3 := (deleteModes (-2) (-2) (st2.map (remark g fun s => s ∈ N)) []).1
                let sub3 := deleteMarked sub2
                match scaleLoop (mn - er) (lmax - lmin) ((lmax - lmin).toNat + 1) 1 with
                | none => .ub
                | some i =>
                  if st3 = [] then .ub
                  else .ok (st3.map (fun x => { x with rgrad := x.rgrad * i }) ++
                    sub3.map fun z => { z with mode := g, rgrad := z.rgrad + er * i })

/-! ## The change file -/

/-- A command of the change file, `/repo/src/patching.c` 712-997 (`/repo/doc/formats.md` describes the
file): remove or add a controlled edge, remove or add an uncontrolled edge, remove all edges into a
system valuation. -/
inductive Change (E S : Type)
  | restrictSys (s t : E × S)
  | restrictEnv (s : E × S) (e : E)
  | relaxSys (s t : E × S)
  | relaxEnv (s : E × S) (e : E)
  | blockSys (x : S)

/-- The effect on the BDDs `etrans` and `strans`, `/repo/src/patching.c` 873-908 and 983-993. Lines
874-876 are read with the widths of expanded variables (they use the widths from before expansion). -/
def applyChange (G : Game E S) : Change E S → Game E S
  | .restrictSys s t => { G with str := fun a b => (!(a = s) || !(b = t)) && G.str a b }
  | .restrictEnv s e => { G with etr := fun a b => (!(a = s) || !(b = e)) && G.etr a b }
  | .relaxSys s t => { G with str := fun a b => (a = s && b = t) || G.str a b }
  | .relaxEnv s e => { G with etr := fun a b => (a = s && b = e) || G.etr a b }
  | .blockSys x => { G with str := fun a b => G.str a b && !(b.2 = x) }

/-- Search for an edge to a state satisfying `P`, `/repo/src/patching.c` 797-798, 835-838, 951-952.
`none`: dangling pointer. -/
def edgeTo {V : Type} (st : Aut ℤ V) (P : V → Bool) : List ℕ → Option Bool
  | [] => some false
  | j :: js =>
    match derefNode st j with
    | none => none
    | some y => if P y.state then some true else edgeTo st P js

/-- `/repo/src/patching.c` 792-870 and 949-981: go through nodes, record those that are hit together
with their mode; a hit outside of `N` is an error. -/
def markNodes {V : Type} [DecidableEq V] (N : List V) (hit : ANode ℤ V → Option Bool) :
    Aut ℤ V → List (ℤ × ℕ) → SRes (List (ℤ × ℕ))
  | [], a => .ok a
  | x :: xs, a =>
    match hit x with
    | none => .ub
    | some false => markNodes N hit xs a
    | some true => if x.state ∈ N then markNodes N hit xs (a ++ [(x.mode, x.id)]) else .err

/-- The nodes the loops of `/repo/src/patching.c` 791-792, 869 visit: for every goal mode the nodes
with state `s`. -/
def nodesAt {V : Type} [DecidableEq V] (n : ℕ) (st : Aut ℤ V) (s : V) : Aut ℤ V :=
  (List.range n).flatMap fun j : ℕ => st.filter fun x => x.mode = (j : ℤ) ∧ x.state = s

/-- The affected nodes, `/repo/src/patching.c` 790-871 and 948-981; `n` is the number of system goals.
For `blocksys` the arrays are indexed with the mode of the node, whatever it is. -/
def affectedBy (n : ℕ) (N : List (E × S)) (st : Aut ℤ (E × S)) :
    Change E S → List (ℤ × ℕ) → SRes (List (ℤ × ℕ))
  | .restrictSys s t, a => markNodes N (fun x => edgeTo st (fun v => v = t) x.trans) (nodesAt n st s) a
  | .restrictEnv _ _, a => .ok a
  | .relaxSys _ _, a => .ok a
  | .relaxEnv s e, a =>
    markNodes N (fun x => (edgeTo st (fun v => v.1 = e) x.trans).map (!·)) (nodesAt n st s) a
  | .blockSys y, a =>
    markNodes N (fun x =>
      match edgeTo st (fun v => v.2 = y) x.trans with
      | some true => if 0 ≤ x.mode ∧ x.mode < (n : ℤ) then some true else none
      | r => r) st a

/-- The loop over the commands, `/repo/src/patching.c` 706-1005. -/
def processChanges (n : ℕ) (N : List (E × S)) (st : Aut ℤ (E × S)) :
    List (Change E S) → Game E S → List (ℤ × ℕ) → SRes (Game E S × List (ℤ × ℕ))
  | [], G, a => .ok (G, a)
  | c :: cs, G, a =>
    match affectedBy n N st c a with
    | .ub => .ub
    | .err => .err
    | .timeout => .timeout
    | .ok a' => processChanges n N st cs (applyChange G c) a'

/-- `affected[g]`. -/
def affOf (a : List (ℤ × ℕ)) (g : ℤ) : List ℕ := (a.filter fun p => p.1 = g).map (·.2)

/-! ## Local transition rules -/

/-- `/repo/src/patching.c` 577-624 and 637-684: conjunction of the parts that are not constantly true
at some state of `N`. -/
def localRule {T : Type} [Fintype T] (N : List (E × S)) (ps : List (E × S → T → Bool)) :
    E × S → T → Bool :=
  fun s t => ps.all fun p => !(N.any fun v => decide (∃ t', p v t' = false)) || p s t

/-- The game the patching works with before the changes. -/
def localGame (N : List (E × S)) (eps : List (E × S → E → Bool)) (sps : List (E × S → E × S → Bool)) :
    Game E S := ⟨localRule N eps, localRule N sps⟩

/-! ## The whole function -/

/-- The loop over the goal modes, `/repo/src/patching.c` 1023-1034, from mode `g` on, `k` modes left.
`os g` are the oracles of the call for mode `g`. -/
def patchModes {m : ℕ} (G : Game E S) (eg : Fin m → Finset (E × S)) (N : List (E × S))
    (os : ℕ → Oracle E S) (fuel : ℕ) (a : List (ℤ × ℕ)) : ℕ → ℕ → Aut ℤ (E × S) → SRes (Aut ℤ (E × S))
  | 0, _, st => .ok st
  | k + 1, g, st =>
    match localFix G eg N (os g) fuel (g : ℤ) (affOf a (g : ℤ)) st with
    | .ub => .ub
    | .err => .err
    | .timeout => .timeout
    | .ok st' => patchModes G eg N os fuel a k (g + 1) st'

/-- `patch_localfixpoint`, `/repo/src/patching.c` 352-1069, for `n` system goals. `ok []` is the NULL
that `aut_prune_deadends` may return. -/
def patchLocalfixpoint {m : ℕ} (eps : List (E × S → E → Bool)) (sps : List (E × S → E × S → Bool))
    (eg : Fin m → Finset (E × S)) (n : ℕ) (N : List (E × S)) (cs : List (Change E S))
    (os : ℕ → Oracle E S) (fuel : ℕ) (st : Aut ℤ (E × S)) : SRes (Aut ℤ (E × S)) :=
  match processChanges n N st cs (localGame N eps sps) [] with
  | .ub => .ub
  | .err => .err
  | .timeout => .timeout
  | .ok (G, a) =>
    match patchModes G eg N os fuel a n 0 st with
    | .ub => .ub
    | .err => .err
    | .timeout => .timeout
    | .ok st' => .ok (autPruneDeadends st')

end Gr1c
