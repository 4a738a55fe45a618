import Verif.Sublevels
import Verif.Realizable
import Verif.Automaton

/-!
# Model of `synthesize`, `/repo/src/solve.c` 43-792

Everything that depends on CUDD's current variable order, on the order in which cubes are produced,
or on the allocator is an oracle indexed by a clock, so that the theorems hold for every such
choice. Formulas are already sets of states (see `Verif.BddOps` for that step).
-/

namespace Gr1c

variable {E S : Type} [Fintype E] [DecidableEq E] [Fintype S] [DecidableEq S]

/-- Choices made outside the modelled code. -/
structure Oracle (E S : Type) where
  /-- `malloc` in `insert_anode`: clock, addresses in use. -/
  alloc : ℕ → List ℕ → ℕ
  /-- `Cudd_FirstCube` followed by `initialize_cube`: some point of a nonempty set. -/
  pick : ℕ → Finset (E × S) → E × S
  /-- `get_env_moves`, `/repo/src/solve_support.c` 215-293. Without environment variables the C code
  does not call it and uses one move whatever ENVTRANS says (`/repo/src/solve.c` 540-547): then
  `E = Unit` and this is the constant list `[()]`. -/
  moves : ℕ → E × S → List E
  /-- `Cudd_ForeachCube` over a set of states, each cube enumerated with `increment_cube`. -/
  enum : Finset (E × S) → List (E × S)
  /-- The same for the environment part of a set. -/
  enumEnv : Finset (E × S) → List E

/-- Outcome of a C function that may fail. `ub`: memory error or failed assertion; `err`: the
function prints an error and returns NULL; `timeout`: the fuel of the model ran out. -/
inductive SRes (α : Type)
  | ub | err | timeout
  | ok (a : α)

/-- `/repo/src/solve.c` 200-226: drop the empty level, replace the next one by goal & W, shift the
rest down. `none`: the array has only one entry, `Y[1]` is read out of bounds (and line 218 would
abort). -/
def shiftLevels {m : ℕ} (goalW : Finset (E × S)) : List (Level E S m) → Option (List (Level E S m))
  | _ :: l1 :: rest => some (⟨goalW, l1.X⟩ :: rest)
  | _ => none

/-- `/repo/src/solve.c` 459-467: walk down from the top level while the state is in the set. The
argument is the C variable `j` before the decrement. -/
def levelDown {m : ℕ} (L : List (Level E S m)) (s : E × S) : ℕ → ℕ
  | 0 => 0
  | j + 1 =>
    match L[j]? with
    | none => j + 1
    | some l => if s ∈ l.Y then levelDown L s j else j + 1

/-- `/repo/src/solve.c` 459-467. -/
def levelOf {m : ℕ} (L : List (Level E S m)) (s : E × S) : ℕ := levelDown L s L.length

/-- `/repo/src/solve.c` 457-478: advance the mode past goals that hold now, until a level above 0 is
found or the mode is back at `start`. `none`: the bound on iterations was too small. -/
def advance {n : ℕ} (lv : Fin n → ℕ) (start : Fin n) : ℕ → Fin n → Option (Fin n × ℕ)
  | 0, _ => none
  | k + 1, md =>
    if lv md = 0 then
      (if nextIx md = start then some (start, 0) else advance lv start k (nextIx md))
    else some (md, lv md)

/-- `strans_into_W` conjoined with the primed target set and cofactored by the current state and the
environment move, `/repo/src/solve.c` 233-245 and 563-577: as in C the result does not constrain the
environment part. -/
def cand (G : Game E S) (W T : Finset (E × S)) (s : E × S) (e : E) : Finset (E × S) :=
  Finset.univ.filter fun t => G.str s (e, t.2) = true ∧ (e, t.2) ∈ W ∧ (e, t.2) ∈ T

/-- The loop over environment goals, `/repo/src/solve.c` 595-637 for a fixed `offset`: candidates of
the first goal for which there are any. -/
def firstX {m : ℕ} (G : Game E S) (W : Finset (E × S)) (s : E × S) (e : E)
    (X : Fin m → Finset (E × S)) : Option (Finset (E × S)) :=
  ((List.finRange m).find? fun r => cand G W (X r) s e ≠ ∅).map fun r => cand G W (X r) s e

/-- Choice of the system move, `/repo/src/solve.c` 552-680. -/
def chooseStep {m : ℕ} (G : Game E S) (W : Finset (E × S)) (L : List (Level E S m)) (j : ℕ)
    (s : E × S) (e : E) (pick : Finset (E × S) → E × S) : SRes S :=
  match L[j - 1]? with
  | none => .ub
  | some below =>
    let A := cand G W below.Y s e                                 -- 552-585
    if A ≠ ∅ then .ok (pick A).2
    else if 0 < j then                                            -- 593-645
      match firstX G W s e below.X with                           -- offset 1
      | some B => .ok (pick B).2
      | none =>
        match L[j]? with                                          -- offset 0
        | none => .ub
        | some here =>
          match firstX G W s e here.X with
          | some B => .ok (pick B).2
          | none => .err                                          -- 639-644
    else                                                          -- 646-666
      let B := cand G W Finset.univ s e
      if B ≠ ∅ then .ok (pick B).2 else .err                      -- 675-680

/-- The data the main loop works on. -/
structure SynCfg (E S : Type) (n : ℕ) where
  strat : Aut (Fin n) (E × S)
  stack : List (Fin n × (E × S))
  clk : ℕ

/-- `/repo/src/solve.c` 699-725: insert the target node and push it, unless it exists. -/
def addTarget {n : ℕ} (o : Oracle E S) (nm : Fin n) (t : E × S) (c : SynCfg E S n) : SynCfg E S n :=
  match findAnode c.strat nm t with
  | none =>
    { strat := insertAnode c.strat (o.alloc c.clk (c.strat.map (·.id))) nm (-1) false t
      stack := (nm, t) :: c.stack
      clk := c.clk + 1 }
  | some _ => { c with clk := c.clk + 1 }

/-- The loop over environment moves, `/repo/src/solve.c` 548-739, for the node with mode `md`, state
`s` and level `j`. -/
def expandLoop {m n : ℕ} (G : Game E S) (W : Finset (E × S)) (o : Oracle E S)
    (L : Fin n → List (Level E S m)) (goalW : Fin n → Finset (E × S)) (md : Fin n) (s : E × S)
    (j : ℕ) : List E → SynCfg E S n → SRes (SynCfg E S n)
  | [], c => .ok c
  | e :: es, c =>
    match chooseStep G W (L md) j s e (o.pick c.clk) with
    | .ub => .ub
    | .err => .err
    | .timeout => .timeout
    | .ok x =>
      let t : E × S := (e, x)
      let nm := if t ∈ goalW md then nextIx md else md            -- 687-697
      let c1 := addTarget o nm t c                                 -- 699-725
      match appendAnodeTrans c1.strat md s nm t with               -- 727-736
      | .ub => .ub
      | .null => .err
      | .ok st => expandLoop G W o L goalW md s j es { c1 with strat := st }

/-- `/repo/src/solve.c` 537-739: set the annotation, list the environment moves, add the edges. The
stack has been popped. -/
def expandNode {m n : ℕ} (G : Game E S) (W : Finset (E × S)) (o : Oracle E S)
    (L : Fin n → List (Level E S m)) (goalW : Fin n → Finset (E × S)) (id : ℕ) (md : Fin n)
    (s : E × S) (j : ℕ) (c : SynCfg E S n) : SRes (SynCfg E S n) :=
  expandLoop G W o L goalW md s j (o.moves c.clk s)
    { c with strat := updNode c.strat id fun nd => { nd with rgrad := j } }

/-- Body of the main loop, `/repo/src/solve.c` 452-747, for the top `(lm, s)` of the stack; `c.stack`
is the rest of the stack. -/
def synthIter {m n : ℕ} (G : Game E S) (W : Finset (E × S)) (o : Oracle E S)
    (L : Fin n → List (Level E S m)) (goalW : Fin n → Finset (E × S)) (lm : Fin n) (s : E × S)
    (c : SynCfg E S n) : SRes (SynCfg E S n) :=
  match advance (fun i => levelOf (L i) s) lm n lm with
  | none => .timeout
  | some (md, j) =>
    match findAnode c.strat lm s with
    | none => .ub                                                 -- NULL dereference
    | some node =>
      if node.trans ≠ [] then .ok c                               -- 482-486, 491-495
      else if md = lm then expandNode G W o L goalW node.id md s j c
      else
        let st1 := deleteAnode c.strat (some node.id)             -- 503
        match findAnode st1 md s with
        | none =>                                                 -- 507-527
          let f := o.alloc c.clk (st1.map (·.id))
          let st2 := insertAnode st1 f md (-1) node.initial s
          expandNode G W o L goalW f md s j
            { c with strat := replaceAnodeTrans st2 node.id (some f), clk := c.clk + 1 }
        | some nn =>
          let st2 := replaceAnodeTrans st1 node.id (some nn.id)   -- 529, 533
          if nn.trans ≠ [] then .ok { c with strat := st2 }       -- 528-532
          else expandNode G W o L goalW nn.id md s j { c with strat := st2 }

/-- The main loop, `/repo/src/solve.c` 452-747; `fuel` bounds the number of iterations. -/
def synthLoop {m n : ℕ} (G : Game E S) (W : Finset (E × S)) (o : Oracle E S)
    (L : Fin n → List (Level E S m)) (goalW : Fin n → Finset (E × S)) :
    ℕ → SynCfg E S n → SRes (Aut (Fin n) (E × S))
  | fuel, c =>
    match c.stack with
    | [] => .ok c.strat
    | (lm, s) :: rest =>
      match fuel with
      | 0 => .timeout
      | fuel + 1 =>
        match synthIter G W o L goalW lm s { c with stack := rest } with
        | .ub => .ub
        | .err => .err
        | .timeout => .timeout
        | .ok c' => synthLoop G W o L goalW fuel c'

/-- `/repo/src/solve.c` 327-372: for each initial environment valuation take the system part of some
point of `W` (cofactored by that valuation) & SYSINIT (not cofactored). -/
def pickInit (o : Oracle E S) (W sinit : Finset (E × S)) : ℕ → List E → Option (List (E × S))
  | _, [] => some []
  | c, e :: es =>
    let A : Finset (E × S) := Finset.univ.filter fun t => (e, t.2) ∈ W ∧ t ∈ sinit
    if A = ∅ then none
    else (pickInit o W sinit (c + 1) es).map ((e, (o.pick c A).2) :: ·)

/-- The stack of initial states, `/repo/src/solve.c` 252-426, head first. `none`: an error message is
printed and NULL returned. -/
def initStack (o : Oracle E S) (W : Finset (E × S)) (flag : InitFlag)
    (einit sinit : Option (Finset (E × S))) : Option (List (E × S)) :=
  match flag with
  | .allInit => some (o.enum (initSet einit ∩ initSet sinit)).reverse
  | .allEnvExistSys => pickInit o W (initSet sinit) 0 (o.enumEnv (initSet einit)).reverse
  | .oneSide =>
    match sinit with
    | none => some (o.enum (initSet einit)).reverse
    | some x => if x ∩ W = ∅ then none else some [o.pick 0 (x ∩ W)]
  | .undefined => none

/-- `/repo/src/solve.c` 428-445: insert the stacked states as initial nodes of mode 0. -/
def insertInitial {n : ℕ} (o : Oracle E S) (md : Fin n) : ℕ → List (E × S) →
    Aut (Fin n) (E × S) → Aut (Fin n) (E × S)
  | _, [], st => st
  | c, s :: ss, st =>
    insertInitial o md (c + 1) ss (insertAnode st (o.alloc c (st.map (·.id))) md (-1) true s)

/-- `synthesize`, `/repo/src/solve.c` 43-792, with formulas as sets. A NULL result without error
message (empty strategy) is `ok []`. -/
def synthesize (G : Game E S) (egs sgs : List (Finset (E × S))) (flag : InitFlag)
    (einit sinit : Option (Finset (E × S))) (o : Oracle E S) (fuel : ℕ) :
    SRes (Aut (Fin sgs.length) (E × S)) :=
  match computeWinningSet G egs sgs with
  | none => .ub
  | some W =>
    match computeSublevels G W (withDefaultGoal egs).get sgs.get with
    | none => .err
    | some L0 =>
      if h : 0 < sgs.length then
        -- 200-226; a missing level in any of the arrays is a memory error
        if ∀ i, (shiftLevels (sgs.get i ∩ W) (L0 i)).isSome then
          let L := fun i => (shiftLevels (sgs.get i ∩ W) (L0 i)).getD []
          match initStack o W flag einit sinit with
          | none => .err
          | some ss =>
            synthLoop G W o L (fun i => sgs.get i ∩ W) fuel
              { strat := insertInitial o ⟨0, h⟩ 0 ss []
                stack := ss.map fun s => (⟨0, h⟩, s)
                clk := ss.length }
        else .ub
      else .err

end Gr1c
