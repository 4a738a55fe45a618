import Verif.Synth

/-!
# Model of `synthesize_reachgame_BDD`, `/repo/src/patching_support.c` 19-490

Used by `rg` (`/repo/src/rg_main.c`) and by the patching code. Formulas are already sets of states.
`Entry` are the states from which a strategy is wanted, `Exit` the states to be reached, `N` the set
the play has to stay in. Allocator, choice of cubes and enumeration orders are the oracles of
`Verif.Synth`.
-/

namespace Gr1c

variable {E S : Type} [Fintype E] [DecidableEq E] [Fintype S] [DecidableEq S]

/-- `X_jr`, `/repo/src/patching_support.c` 106-144: greatest fixpoint for environment goal `r` above
the level `Y`. The C loop computes `X := (Exit | (EX Y & N) | (EX X & N & !egoal_r)) & X` from True
until unchanged. -/
def reachX {m : ℕ} (G : Game E S) (Exit N : Finset (E × S)) (eg : Fin m → Finset (E × S))
    (Y : Finset (E × S)) (r : Fin m) : Finset (E × S) :=
  gfpX G (Exit ∪ (pre G Y ∩ N)) (N ∩ (eg r)ᶜ) Finset.univ

/-- The next level, `/repo/src/patching_support.c` 102-169. -/
def reachStep {m : ℕ} (G : Game E S) (Exit N : Finset (E × S)) (eg : Fin m → Finset (E × S))
    (Y : Finset (E × S)) : Finset (E × S) :=
  ((List.finRange m).foldl (fun acc r => acc ∪ reachX G Exit N eg Y r) ∅) ∪ Y

/-- The `while (True)` loop, `/repo/src/patching_support.c` 80-209: the levels after `Y`. Ends when
the level contains `Entry` (173-199; a level equal to the previous one is dropped), fails (`none`)
when the level no longer grows (203-208). -/
def reachFrom {m : ℕ} (G : Game E S) (Entry Exit N : Finset (E × S)) (eg : Fin m → Finset (E × S))
    (Y : Finset (E × S)) : Option (List (Level E S m)) :=
  let Y' := reachStep G Exit N eg Y
  if Entry ∪ Y' = Y' then
    (if Y' = Y then some [] else some [⟨Y', fun r => reachX G Exit N eg Y r⟩])
  else if Y' = Y then none
  else (reachFrom G Entry Exit N eg Y').map (⟨Y', fun r => reachX G Exit N eg Y r⟩ :: ·)
termination_by Fintype.card (E × S) - Y.card
decreasing_by
  have h : Y ⊂ reachStep G Exit N eg Y := by
    rw [Finset.ssubset_iff_subset_ne]
    rename_i hn
    exact ⟨Finset.subset_union_right, fun h => hn h.symm⟩
  have h1 := Finset.card_lt_card h
  have h2 := Finset.card_le_univ (reachStep G Exit N eg Y)
  omega

/-- All levels: level 0 is `Exit` with empty `X` sets, `/repo/src/patching_support.c` 53-78. -/
def reachLevels {m : ℕ} (G : Game E S) (Entry Exit N : Finset (E × S)) (eg : Fin m → Finset (E × S)) :
    Option (List (Level E S m)) :=
  (reachFrom G Entry Exit N eg Exit).map (⟨Exit, fun _ => ∅⟩ :: ·)

/-- First environment goal whose set offers a move, `/repo/src/patching_support.c` 345-377. -/
def firstR {m : ℕ} (G : Game E S) (N : Finset (E × S)) (s : E × S) (e : E)
    (X : Fin m → Finset (E × S)) : Option (Fin m) :=
  (List.finRange m).find? fun r => cand G N (X r) s e ≠ ∅

/-- Choice of the system move, `/repo/src/patching_support.c` 309-424, for a state of level `j > 0`.
`T` is the set behind the C variable `Y_i_primed`; it is returned because the C code does not reset
it before the next environment move. -/
def reachChoose {m : ℕ} (G : Game E S) (N : Finset (E × S)) (L : List (Level E S m)) (j : ℕ)
    (s : E × S) (e : E) (T : Finset (E × S)) (pick : Finset (E × S) → E × S) :
    SRes (S × Finset (E × S)) :=
  let A := cand G N T s e
  if A ≠ ∅ then .ok ((pick A).2, T)
  else
    match L[j - 1]? with                                          -- offset 1
    | none => .ub
    | some below =>
      match firstR G N s e below.X with
      | some r => .ok ((pick (cand G N (below.X r) s e)).2, below.X r)
      | none =>
        match L[j]? with                                          -- offset 0
        | none => .ub
        | some here =>
          match firstR G N s e here.X with
          | some r => .ok ((pick (cand G N (here.X r) s e)).2, here.X r)
          | none => .err                                          -- 378-383

/-- The data the main loop works on; all nodes have mode -1. -/
structure ReachCfg (E S : Type) where
  strat : Aut ℤ (E × S)
  stack : List (E × S)
  clk : ℕ

/-- `/repo/src/patching_support.c` 430-447: insert the target node and push it, unless it exists. -/
def reachAdd (o : Oracle E S) (t : E × S) (c : ReachCfg E S) : ReachCfg E S :=
  match findAnode c.strat (-1) t with
  | none =>
    { strat := insertAnode c.strat (o.alloc c.clk (c.strat.map (·.id))) (-1) (-1) false t
      stack := t :: c.stack
      clk := c.clk + 1 }
  | some _ => { c with clk := c.clk + 1 }

/-- The loop over environment moves, `/repo/src/patching_support.c` 308-459. -/
def reachExpand {m : ℕ} (G : Game E S) (N : Finset (E × S)) (o : Oracle E S) (L : List (Level E S m))
    (s : E × S) (j : ℕ) : List E → Finset (E × S) → ReachCfg E S → SRes (ReachCfg E S)
  | [], _, c => .ok c
  | e :: es, T, c =>
    match reachChoose G N L j s e T (o.pick c.clk) with
    | .ub => .ub
    | .err => .err
    | .timeout => .timeout
    | .ok (x, T') =>
      let t : E × S := (e, x)
      let c1 := reachAdd o t c
      match appendAnodeTrans c1.strat (-1) s (-1) t with
      | .ub => .ub
      | .null => .err
      | .ok st => reachExpand G N o L s j es T' { c1 with strat := st }

/-- Body of the main loop, `/repo/src/patching_support.c` 267-466, for the state `s` on top of the
stack; `c.stack` is the rest. -/
def reachIter {m : ℕ} (G : Game E S) (N : Finset (E × S)) (o : Oracle E S) (L : List (Level E S m))
    (s : E × S) (c : ReachCfg E S) : SRes (ReachCfg E S) :=
  match findAnode c.strat (-1) s with
  | none => .ub                                                   -- NULL dereference in 284
  | some node =>
    let j := levelOf L s                                          -- 268-281
    let st1 := updNode c.strat node.id fun nd => { nd with rgrad := j }
    if node.trans ≠ [] ∨ j = 0 then .ok { c with strat := st1 }   -- 286-289
    else
      match L[j - 1]? with                                        -- 291
      | none => .ub
      | some below => reachExpand G N o L s j (o.moves c.clk s) below.Y { c with strat := st1 }

/-- The main loop, `/repo/src/patching_support.c` 267-466; `fuel` bounds the number of iterations. -/
def reachLoop {m : ℕ} (G : Game E S) (N : Finset (E × S)) (o : Oracle E S) (L : List (Level E S m)) :
    ℕ → ReachCfg E S → SRes (Aut ℤ (E × S))
  | fuel, c =>
    match c.stack with
    | [] => .ok c.strat
    | s :: rest =>
      match fuel with
      | 0 => .timeout
      | fuel + 1 =>
        match reachIter G N o L s { c with stack := rest } with
        | .ub => .ub
        | .err => .err
        | .timeout => .timeout
        | .ok c' => reachLoop G N o L fuel c'

/-- `/repo/src/patching_support.c` 254-265: insert the stacked states into the strategy. -/
def reachInsert (o : Oracle E S) : ℕ → List (E × S) → Aut ℤ (E × S) → Aut ℤ (E × S)
  | _, [], st => st
  | c, s :: ss, st =>
    reachInsert o (c + 1) ss (insertAnode st (o.alloc c (st.map (·.id))) (-1) (-1) false s)

/-- `synthesize_reachgame_BDD`, `/repo/src/patching_support.c` 19-490. In C a NULL result stands both
for failure and for the empty strategy, so failure is `ok []`; `err` are the NULL results with an
error message. -/
def reachGame {m : ℕ} (G : Game E S) (Entry Exit N : Finset (E × S)) (eg : Fin m → Finset (E × S))
    (o : Oracle E S) (fuel : ℕ) : SRes (Aut ℤ (E × S)) :=
  match reachLevels G Entry Exit N eg with
  | none => .ok []
  | some L =>
    let ss := (o.enum Entry).reverse                              -- 229-250
    reachLoop G N o L fuel
      { strat := reachInsert o 0 ss []
        stack := ss
        clk := ss.length }

/-- The call in the main function of `rg`, `/repo/src/rg_main.c` 447-539: the default environment
goal, `Entry` is ENVINIT & SYSINIT (a missing part is True), `Exit` is the first system goal or False,
no restriction. More than one system goal is rejected earlier. -/
def rgSynthesize (G : Game E S) (egs : List (Finset (E × S))) (sgoal : Option (Finset (E × S)))
    (einit sinit : Option (Finset (E × S))) (o : Oracle E S) (fuel : ℕ) : SRes (Aut ℤ (E × S)) :=
  reachGame G (initSet einit ∩ initSet sinit) (sgoal.getD ∅) Finset.univ (withDefaultGoal egs).get o fuel

end Gr1c
