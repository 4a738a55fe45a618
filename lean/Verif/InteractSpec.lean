import Verif.InteractLemmas
import Verif.GameLemmas

/-!
# Specification of the interactive mode

Commands as described in `/repo/doc/interaction.md`, with states and moves instead of vectors, and what they
should answer. Nothing here refers to the fixpoint computations or to Boolean functions.
-/

namespace Gr1c

variable {ne ns m n : ℕ}

/-- Commands with their arguments. `cutE` and `cutS` are `restrict` with an environment and with a system
edge, `addE` and `addS` are `relax`, `noE` and `noS` are `blockenv` and `blocksys`, `rewin` and `relevels`
are `refresh winning` and `refresh levels`. -/
inductive ACmd (ne ns n : ℕ)
  | winning (s : BState ne ns)
  | envnext (s : BState ne ns)
  | sysnext (s : BState ne ns) (e : Val ne) (i : Fin n)
  | sysnexta (s : BState ne ns) (e : Val ne)
  | cutE (s : BState ne ns) (e : Val ne)
  | addE (s : BState ne ns) (e : Val ne)
  | cutS (s t : BState ne ns)
  | addS (s t : BState ne ns)
  | clear
  | noE (e : Val ne)
  | noS (x : Val ns)
  | getindex (s : BState ne ns) (i : Fin n)
  | rewin
  | relevels

/-- The command with its vector of bits. -/
def ACmd.enc : ACmd ne ns n → ICmd
  | .winning s => .winning (stateVec s)
  | .envnext s => .envnext (stateVec s)
  | .sysnext s e i => .sysnext (stateVec s ++ vec e) i.val
  | .sysnexta s e => .sysnexta (stateVec s ++ vec e)
  | .cutE s e => .restrict (stateVec s ++ vec e)
  | .addE s e => .relax (stateVec s ++ vec e)
  | .cutS s t => .restrict (stateVec s ++ stateVec t)
  | .addS s t => .relax (stateVec s ++ stateVec t)
  | .clear => .clear
  | .noE e => .blkenv (vec e)
  | .noS x => .blksys (vec x)
  | .getindex s i => .getindex (stateVec s) i.val
  | .rewin => .rewin
  | .relevels => .relevels

/-- The effect on the game; `G0` is the game of the specification. -/
def ACmd.edit (G0 G : Game (Val ne) (Val ns)) : ACmd ne ns n → Game (Val ne) (Val ns)
  | .cutE s e => { G with etr := fun u f => G.etr u f && !decide (u = s ∧ f = e) }
  | .addE s e => { G with etr := fun u f => G.etr u f || decide (u = s ∧ f = e) }
  | .cutS s t => { G with str := fun u v => G.str u v && !decide (u = s ∧ v = t) }
  | .addS s t => { G with str := fun u v => G.str u v || decide (u = s ∧ v = t) }
  | .noE e => { G with etr := fun u f => G.etr u f && !decide (f = e) }
  | .noS x => { G with str := fun u v => G.str u v && !decide (v.2 = x) }
  | .clear => G0
  | _ => G

/-- The games that matter: the current one, the one of the last `refresh winning` (or levels), and the one of
the last `refresh levels`. -/
structure Games (ne ns : ℕ) where
  cur : Game (Val ne) (Val ns)
  win : Game (Val ne) (Val ns)
  lev : Game (Val ne) (Val ns)

def ACmd.next (G0 : Game (Val ne) (Val ns)) (g : Games ne ns) (c : ACmd ne ns n) : Games ne ns :=
  match c with
  | .rewin => { g with win := g.cur }
  | .relevels => ⟨g.cur, g.cur, g.cur⟩
  | c => { g with cur := c.edit G0 g.cur }

section Levels
variable {E S : Type}

/-- Some strategy wins from `s`. -/
def CanWin (G : Game E S) (eg : Fin m → Finset (E × S)) (sg : Fin n → Finset (E × S)) (s : E × S) : Prop :=
  ∃ σ : Strategy E S, Wins G eg sg σ s

/-- Whatever the environment does, the system has a move into `T`. -/
def Steers (G : Game E S) (s : E × S) (T : Set (E × S)) : Prop :=
  ∀ e, G.etr s e = true → ∃ x, G.str s (e, x) = true ∧ (e, x) ∈ T

/-- Levels: nothing is within level 0; a state is within level `k + 1` if for some environment goal `r` it
is in a set `X` whose members are goal states, or can be steered to level `k`, or violate `r` and can be
steered to stay in `X`. -/
def WithinLevel (G : Game E S) (eg : Fin m → Finset (E × S)) (goal : Set (E × S)) : ℕ → Set (E × S)
  | 0 => ∅
  | k + 1 => {s | ∃ r : Fin m, ∃ X : Set (E × S), s ∈ X ∧
      ∀ t ∈ X, t ∈ goal ∨ Steers G t (WithinLevel G eg goal k) ∨ (t ∉ eg r ∧ Steers G t X)}

end Levels

/-- The goal states from which the system can go on winning. -/
def goodGoal (G : Game (Val ne) (Val ns)) (sp : ISpec ne ns m n) (i : Fin n) : Set (BState ne ns) :=
  {s | s ∈ sp.sg i ∧ CanWin G sp.eg sp.sg s}

/-- `j` is the reachability index of `s` for goal `i`. -/
def IsIndex (G : Game (Val ne) (Val ns)) (sp : ISpec ne ns m n) (i : Fin n) (s : BState ne ns) (j : ℕ) : Prop :=
  s ∈ WithinLevel G sp.eg (goodGoal G sp i) j ∧ ∀ k < j, s ∉ WithinLevel G sp.eg (goodGoal G sp i) k

/-- The rows list the valuations of `A`, each one once. -/
def Lists {k : ℕ} (o : IOut) (A : Set (Val k)) : Prop :=
  ∃ l : List (Val k), o = .rows (l.map vec) ∧ l.Nodup ∧ ∀ x, x ∈ l ↔ x ∈ A

/-- The answer to a command. The index and the list of `sysnext` are only specified if winning set and
levels were computed for the same game. -/
def ACmd.Answer (sp : ISpec ne ns m n) (g : Games ne ns) (o : IOut) : ACmd ne ns n → Prop
  | .winning s => ∃ b, o = .truth b ∧ (b = true ↔ CanWin g.win sp.eg sp.sg s)
  | .envnext s => if 0 < ne then Lists o {e | g.cur.etr s e = true} else o = .noEnv
  | .sysnexta s e => Lists o {x | g.cur.str s (e, x) = true}
  | .getindex s i =>
    (¬ CanWin g.win sp.eg sp.sg s → o = .inf) ∧
    (CanWin g.win sp.eg sp.sg s → ∃ j, o = .index j ∧ (g.win = g.lev → IsIndex g.win sp i s j))
  | .sysnext s e i =>
    ∃ A : Set (Val ns), Lists o A ∧
      (∀ x ∈ A, g.cur.str s (e, x) = true ∧ CanWin g.win sp.eg sp.sg (e, x)) ∧
      (g.win = g.lev → ∀ j, IsIndex g.win sp i s j →
        ((∃ x, g.cur.str s (e, x) = true ∧ (e, x) ∈ WithinLevel g.win sp.eg (goodGoal g.win sp i) (j - 1)) →
          A = {x | g.cur.str s (e, x) = true ∧
            (e, x) ∈ WithinLevel g.win sp.eg (goodGoal g.win sp i) (j - 1)}) ∧
        ((¬ ∃ x, g.cur.str s (e, x) = true ∧ (e, x) ∈ WithinLevel g.win sp.eg (goodGoal g.win sp i) (j - 1)) →
          A = {x | g.cur.str s (e, x) = true ∧
            (e, x) ∈ WithinLevel g.win sp.eg (goodGoal g.win sp i) j}))
  | _ => o = .nothing

/-- A sequence of answers. -/
def Answers (sp : ISpec ne ns m n) (G0 : Game (Val ne) (Val ns)) :
    Games ne ns → List (ACmd ne ns n) → List IOut → Prop
  | _, [], os => os = []
  | _, _ :: _, [] => False
  | g, c :: cs, o :: os => c.Answer sp g o ∧ Answers sp G0 (c.next G0 g) cs os

/-- Every `sysnext` is asked for a winning state, with up to date levels. -/
def Asks (sp : ISpec ne ns m n) (G0 : Game (Val ne) (Val ns)) : Games ne ns → List (ACmd ne ns n) → Prop
  | _, [] => True
  | g, c :: cs =>
    (match c with
      | .sysnext s _ _ => g.win = g.lev ∧ CanWin g.win sp.eg sp.sg s
      | _ => True) ∧ Asks sp G0 (c.next G0 g) cs

/-! ## Text of commands -/

/-- Name of a command, `/repo/doc/interaction.md`. -/
def ACmd.word : ACmd ne ns n → List Char
  | .winning _ => "winning ".toList
  | .envnext _ => "envnext ".toList
  | .sysnext _ _ _ => "sysnext ".toList
  | .sysnexta _ _ => "sysnexta ".toList
  | .cutE _ _ => "restrict ".toList
  | .addE _ _ => "relax ".toList
  | .cutS _ _ => "restrict ".toList
  | .addS _ _ => "relax ".toList
  | .clear => "clear".toList
  | .noE _ => "blockenv ".toList
  | .noS _ => "blocksys ".toList
  | .getindex _ _ => "getindex ".toList
  | .rewin => "refresh winning".toList
  | .relevels => "refresh levels".toList

/-- The bits of a valuation as integers. -/
def bitInts {k : ℕ} (v : Val k) : List ℤ := List.ofFn fun i => if v i then 1 else 0

def stateInts (s : BState ne ns) : List ℤ := bitInts s.1 ++ bitInts s.2

/-- The numbers following the name. -/
def ACmd.nums : ACmd ne ns n → List ℤ
  | .winning s => stateInts s
  | .envnext s => stateInts s
  | .sysnext s e i => stateInts s ++ bitInts e ++ [(i.val : ℤ)]
  | .sysnexta s e => stateInts s ++ bitInts e
  | .cutE s e => stateInts s ++ bitInts e
  | .addE s e => stateInts s ++ bitInts e
  | .cutS s t => stateInts s ++ stateInts t
  | .addS s t => stateInts s ++ stateInts t
  | .noE e => bitInts e
  | .noS x => bitInts x
  | .getindex s i => stateInts s ++ [(i.val : ℤ)]
  | _ => []

end Gr1c
