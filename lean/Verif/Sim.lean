import Verif.Synth
import Verif.PatchMain
import Verif.MetricLemmas

/-!
# Model of `sim_rhc`, `/repo/src/sim.c` 23-417

Simulation of a play by receding horizon control, called by `/repo/exp/grjit.c`. Sets of states are finite sets, as in `Verif.Synth`.
All nodes of `hstacks` have mode 0 and no edges and are only compared by state: such a list is modelled as a list of states.
-/

namespace Gr1c

variable {E S : Type} [Fintype E] [DecidableEq E] [Fintype S] [DecidableEq S]

/-- Choices made outside of the modelled code; the first number counts iterations. -/
structure SimOracle (E S : Type) where
  /-- `malloc` in `insert_anode` -/
  alloc : ℕ → List ℕ → ℕ
  /-- `rand()` -/
  rand : ℕ → ℕ
  /-- `get_env_moves` -/
  moves : ℕ → E × S → List E
  /-- `Cudd_ForeachCube` over values of the system, each cube enumerated with `increment_cube` -/
  order : ℕ → Finset S → List S

/-- `strans_into_W` cofactored by a state and a move of the environment, `/repo/src/sim.c` 115, 157-162 and 244-250. -/
def simAnswers (G : Game E S) (W : Finset (E × S)) (s : E × S) (e : E) : Finset S :=
  Finset.univ.filter fun x => G.str s (e, x) = true ∧ (e, x) ∈ W

/-- What changes while states are looked at: `hstacks`, `next_min`, `next_state` (`none`: not initialised). -/
structure Look (V : Type) where
  hst : List (List V)
  min : ℤ
  next : Option V

section look

variable {V : Type} [DecidableEq V]

/-- A state is met at depth `h` (from 0), `/repo/src/sim.c` 176-196, 200-219, 262-292 and 296-323. `near` is `bounds_state`, `tried` the
list after `MEM+MEM_index`. -/
def simVisit (near : V → ℤ) (tried : List V) (h : ℕ) (l : Look V) (v : V) : Look V :=
  if (l.hst.take (h + 1)).any (fun t => decide (v ∈ t)) then l
  else if v ∈ tried then { l with hst := l.hst.modify h (v :: ·) }
  else if l.min = -1 ∨ near v < l.min then ⟨l.hst.modify h (v :: ·), near v, some v⟩
  else { l with hst := l.hst.modify h (v :: ·) }

end look

variable (o : SimOracle E S) (G : Game E S) (W : Finset (E × S))

/-- The loop over the answers to a move, `/repo/src/sim.c` 169-221 and 256-324. -/
def simAnswer (near : E × S → ℤ) (tried : List (E × S)) (k h : ℕ) (s : E × S) (l : Look (E × S)) (e : E) : Look (E × S) :=
  ((o.order k (simAnswers G W s e)).map (Prod.mk e)).foldl (simVisit near tried h) l

/-- The loop over the states of depth `h - 1`, `/repo/src/sim.c` 234-334. -/
def simLayer (near : E × S → ℤ) (tried : List (E × S)) (k : ℕ) (l : Look (E × S)) (h : ℕ) : Look (E × S) :=
  (l.hst.getD (h - 1) []).foldl (fun l s => (o.moves k s).foldl (simAnswer o G W near tried k h s) l) l

/-- The loop over the depths, `/repo/src/sim.c` 232-339. -/
def simAhead (near : E × S → ℤ) (tried : List (E × S)) (k horizon : ℕ) (l : Look (E × S)) : Look (E × S) :=
  (List.range' 1 (horizon - 1)).foldl (simLayer o G W near tried k) l

/-- The way back from depth `j`, `/repo/src/sim.c` 371-393. `none`: there is no predecessor. -/
def simBack (hst : List (List (E × S))) : ℕ → E × S → Option (E × S)
  | 0, v => some v
  | j + 1, v =>
    match (hst.getD j []).find? (fun p => G.etr p v.1 && G.str p v) with
    | none => none
    | some p => simBack hst j p

/-- The next state of the play, `/repo/src/sim.c` 347-398. `none`: backtracking fails, NULL is returned. -/
def simFirst (horizon : ℕ) (hst : List (List (E × S))) (v : E × S) : Option (E × S) :=
  if 1 < horizon ∧ v ∉ hst.getD 0 [] then
    match (List.range' 1 (horizon - 1)).find? (fun j => decide (v ∈ hst.getD j [])) with
    | none => none
    | some j => simBack G hst j v
  else some v

/-- The variables that outlive an iteration. `mem` is `MEM`: states with the states chosen there. -/
structure Sim (V : Type) where
  play : Aut ℕ V
  cur : V
  goal : ℕ
  mem : List (V × List V)
  hst : List (List V)
  next : Option V

/-- The list at `MEM+MEM_index`, `/repo/src/sim.c` 137-148. -/
def simTried {V : Type} [DecidableEq V] (mem : List (V × List V)) (s : V) : List V :=
  match mem with
  | [] => []
  | p :: r => if p.1 = s then p.2 else simTried r s

/-- Appending to this list, `/repo/src/sim.c` 341-345. -/
def simRemember {V : Type} [DecidableEq V] (mem : List (V × List V)) (s v : V) : List (V × List V) :=
  match mem with
  | [] => [(s, [v])]
  | p :: r => if p.1 = s then (p.1, p.2 ++ [v]) :: r else p :: simRemember r s v

/-- The goal an iteration begins with, `/repo/src/sim.c` 127-135. -/
def simGoal (sgs : List (Finset (E × S))) (g : ℕ) (A : Finset (E × S)) (s : E × S) : ℕ :=
  if s ∈ A then (g + 1) % sgs.length else g

/-- One iteration, `/repo/src/sim.c` 121-405; `k` is `current_it` before line 124. -/
def simStep (near : Finset (E × S) → E × S → ℤ) (sgs : List (Finset (E × S))) (horizon k : ℕ) (σ : Sim (E × S)) : SRes (Sim (E × S)) :=
  match sgs[σ.goal]? with
  | none => .ub
  | some A =>
    match sgs[simGoal sgs σ.goal A σ.cur]? with
    | none => .ub
    | some B =>
      match (o.moves k σ.cur)[o.rand k % (o.moves k σ.cur).length]? with
      | none => .ub                                               -- `rand() % 0`, 154
      | some e =>
        let mem := if σ.cur ∈ A then [] else σ.mem
        let tried := simTried mem σ.cur
        let l := simAhead o G W (near (B ∩ W)) tried k horizon
          (simAnswer o G W (near (B ∩ W)) tried k 0 σ.cur ⟨σ.hst, -1, σ.next⟩ e)
        match l.next with
        | none => .ub                                             -- not initialised, 344
        | some v =>
          match simFirst G horizon l.hst v with
          | none => .err
          | some t =>
            match appendAnodeTrans (insertAnode σ.play (o.alloc k (σ.play.map (·.id))) (k + 1) (-1) false t) k σ.cur (k + 1) t with
            | .ub => .ub
            | .null => .ub
            | .ok play => .ok ⟨play, t, simGoal sgs σ.goal A σ.cur, simRemember mem σ.cur v, l.hst, some t⟩

/-- The main loop, `/repo/src/sim.c` 121-405: `r` iterations from number `k` on. -/
def simLoop (near : Finset (E × S) → E × S → ℤ) (sgs : List (Finset (E × S))) (horizon : ℕ) : ℕ → ℕ → Sim (E × S) → SRes (Sim (E × S))
  | 0, _, σ => .ok σ
  | r + 1, k, σ =>
    match simStep o G W near sgs horizon k σ with
    | .ok σ' => simLoop near sgs horizon r (k + 1) σ'
    | e => e

/-- `sim_rhc`, `/repo/src/sim.c` 23-417, with the metric given by `near`. -/
def simRhc (near : Finset (E × S) → E × S → ℤ) (sgs : List (Finset (E × S))) (horizon : ℕ) (init : E × S) (num : ℕ) :
    SRes (Aut ℕ (E × S)) :=
  if horizon < 1 then .err                                        -- 58-59
  else
    match simLoop o G W near sgs horizon num 0
        ⟨insertAnode [] (o.alloc 0 []) 0 (-1) false init, init, 0, [], List.replicate horizon [], none⟩ with
    | .ok σ => .ok σ.play
    | .ub => .ub
    | .err => .err
    | .timeout => .timeout

/-- `bounds_state` at `/repo/src/sim.c` 189, 211, 283 and 314: the value of `Min`. -/
def simNear {ne ns : ℕ} (cover : Bdd (2 * (ne + ns)) → List (CubeArr (2 * (ne + ns)))) (offw : List (ℕ × ℕ)) (A : Finset (BState ne ns))
    (s : BState ne ns) : ℤ :=
  match boundsState (ne + ns) (cover (bddOf A)) (intVec s) offw with
  | .ok mm => mm.1
  | _ => -1

/-- The oracle from the code over cubes: `get_env_moves`, and `Cudd_ForeachCube` with `increment_cube` over the primed variables of the
system. -/
def simBits {ne ns : ℕ} (malloc : ℕ → List ℕ → ℕ) (rand : ℕ → ℕ)
    (cover : ℕ → Bdd (2 * (ne + ns)) → List (CubeArr (2 * (ne + ns)))) (cube : CubeArr (2 * (ne + ns))) (etrans : Bdd (2 * (ne + ns))) :
    SimOracle (Val ne) (Val ns) where
  alloc := malloc
  rand := rand
  moves k s := ((getEnvMoves ne ns (cover k) cube (stateVec s) etrans).getD []).map (valOf ne)
  order k A := ((enumCover (2 * ne + ns) ns (cover k (fun a => decide ((hiPart a).2 ∈ A)))).getD []).map (valOf ns)

/-- `sim_rhc` with its metric variables, `/repo/src/sim.c` 58-63: without a list of offsets NULL is returned. -/
def simMetric {ne ns : ℕ} (o : SimOracle (Val ne) (Val ns)) (G : Game (Val ne) (Val ns)) (W : Finset (BState ne ns)) (ev sv : VarList)
    (cover : Bdd (2 * (ne + ns)) → List (CubeArr (2 * (ne + ns)))) (vars : List Char)
    (sgs : List (Finset (BState ne ns))) (horizon : ℕ) (init : BState ne ns) (num : ℕ) : SRes (Aut ℕ (BState ne ns)) :=
  match getOffsets ev sv vars with
  | [] => .err
  | offw => simRhc o G W (simNear cover offw) sgs horizon init num

end Gr1c
