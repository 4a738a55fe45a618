import Verif.SimBitsProps
import Verif.PatchMainEx

/-!
# Examples for C65

Plays of `sim_rhc` in two small games, and the states in which the C code is undefined.
-/

namespace Gr1c
namespace SimEx

/-- Is this the result? -/
def isOk {α : Type} [DecidableEq α] (r : SRes α) (a : α) : Bool :=
  match r with
  | .ok b => decide (b = a)
  | _ => false

theorem of_isOk {α : Type} [DecidableEq α] {r : SRes α} {a : α} (h : isOk r a = true) : r = .ok a := by
  unfold isOk at h
  split at h
  · exact congrArg _ (of_decide_eq_true h)
  · cases h

/-- The choices: moves and answers in ascending order, `rand()` as given. -/
def oracle {m n : ℕ} (G : Game (Fin m) (Fin n)) (r : ℕ → ℕ) : SimOracle (Fin m) (Fin n) where
  alloc _ l := l.sum + 1
  rand := r
  moves _ s := (List.finRange m).filter fun e => G.etr s e
  order _ A := (List.finRange n).filter fun x => decide (x ∈ A)

theorem oracle_valid {m n : ℕ} (G : Game (Fin m) (Fin n)) (r : ℕ → ℕ) : (oracle G r).Valid G where
  fresh _ l h := by
    have : l.sum + 1 ≤ l.sum := List.le_sum_of_mem h
    omega
  moves _ s e := by simp [oracle]
  order _ A x := by simp [oracle]

/-- Distance by the value of the system. -/
def near {m n : ℕ} (A : Finset (Fin m × Fin n)) (v : Fin m × Fin n) : ℤ :=
  if h : A.Nonempty then ((A.inf' h fun g => ((g.2.val : ℤ) - v.2.val).natAbs : ℕ) : ℤ) else -1

theorem near_ok {m n : ℕ} (A : Finset (Fin m × Fin n)) : NearOk (near A) := by
  unfold NearOk near
  by_cases h : A.Nonempty
  · left
    intro v
    rw [dif_pos h]
    omega
  · right
    intro v
    rw [dif_neg h]

/-! ## The system must change its value in each step -/

def toggle : Game (Fin 1) (Fin 2) := ⟨fun _ _ => true, fun s t => decide (s.2 ≠ t.2)⟩

/-- Goals 0 and 1. -/
def goals : List (Finset (Fin 1 × Fin 2)) := [{(0, 0)}, {(0, 1)}]

def tplay : ℕ → Fin 1 × Fin 2
  | 1 => (0, 1)
  | _ => (0, 0)

def tids : ℕ → ℕ
  | 0 => 1
  | 1 => 2
  | 2 => 4
  | _ => 8

theorem toggle_run : simRhc (oracle toggle fun _ => 0) toggle Finset.univ near goals 1 (0, 0) 3 = .ok (playNodes tids tplay 3 []) :=
  of_isOk (by decide +kernel)

theorem toggle_play : SimPlay 3 tplay (playNodes tids tplay 3 []) := ⟨tids, by decide, rfl⟩

/-- **The full statement of `rhc_play_partial` is false.** In the third step the value stays 0, which is illegal: the only answer was
already stored in the first step. -/
theorem sim_stutters : ¬ ∀ (o : SimOracle (Fin 1) (Fin 2)) (n num : ℕ) (a : Aut ℕ (Fin 1 × Fin 2)) (σ : ℕ → Fin 1 × Fin 2),
    o.Valid toggle → simRhc o toggle Finset.univ near goals n (0, 0) num = .ok a → SimPlay num σ a →
    ∀ k < num, LegalIn toggle Finset.univ (σ k) (σ (k + 1)) := by
  intro h
  have := (h _ 1 3 _ _ (oracle_valid toggle _) toggle_run toggle_play 2 (by decide)).2.1
  exact absurd this (by decide)

/-- What the theorems say about this play. -/
example : tplay 0 = (0, 0) ∧
    (∀ k < 3, tplay (k + 1) ∈ Finset.univ ∧ (LegalIn toggle Finset.univ (tplay k) (tplay (k + 1)) ∨ 0 < k ∧ tplay (k + 1) = tplay k)) ∧
    ((Finset.range 3).filter fun k => tplay (k + 1) ≠ tplay k).card ≤ 1 * (Finset.univ : Finset (Fin 1 × Fin 2)).card :=
  (rhc_play_partial (oracle_valid toggle _) near_ok toggle_run).2 _ toggle_play

example : ∃ k < 3, ¬ LegalIn toggle Finset.univ (tplay k) (tplay (k + 1)) :=
  rhc_illegal (oracle_valid toggle _) near_ok toggle_run (fun s _ h => absurd h.2.1 (by simp [toggle])) (by decide) toggle_play

example : ∃ (d : ℕ → Fin 1) (γ : ℕ → ℕ), SeeksGoals 3 goals tplay γ ∧ ∀ k < 3, toggle.etr (tplay k) (d k) = true ∧
    ∃ B, goals[γ (k + 1)]? = some B ∧
      ((∃ u, FreshAnswer toggle Finset.univ tplay d k u) → FreshAnswer toggle Finset.univ tplay d k (tplay (k + 1)) ∧
        ∀ u, FreshAnswer toggle Finset.univ tplay d k u → near (B ∩ Finset.univ) (tplay (k + 1)) ≤ near (B ∩ Finset.univ) u) ∧
      ((¬ ∃ u, FreshAnswer toggle Finset.univ tplay d k u) → tplay (k + 1) = tplay k) :=
  rhc_greedy (oracle_valid toggle _) near_ok toggle_run toggle_play

/-! ## A walk over five cells against wind

The environment chooses whether there is wind; with wind the cell may not increase. -/

def walk : Game (Fin 2) (Fin 5) :=
  ⟨fun s e => decide (s.1 = 0 ∨ e = 0), fun s t => decide (t.2.val ≤ s.2.val + (1 - t.1.val) ∧ s.2.val ≤ t.2.val + 1)⟩

/-- Cells 4 and 0. -/
def ends : List (Finset (Fin 2 × Fin 5)) := [{(0, 4), (1, 4)}, {(0, 0), (1, 0)}]

def wplay : ℕ → Fin 2 × Fin 5
  | 0 => (0, 2)
  | 1 => (0, 3)
  | 2 => (1, 3)
  | _ => (0, 4)

def wids : ℕ → ℕ
  | 0 => 1
  | 1 => 2
  | 2 => 4
  | _ => 8

/-- Two steps ahead, wind in the second step: the goal is reached in the third. -/
theorem walk_run : simRhc (oracle walk fun k => k) walk Finset.univ near ends 2 (0, 2) 3 = .ok (playNodes wids wplay 3 []) :=
  of_isOk (by decide +kernel)

theorem walk_play : SimPlay 3 wplay (playNodes wids wplay 3 []) := ⟨wids, by decide, rfl⟩

example : LegalIn walk Finset.univ (0, 2) (wplay 1) ∧ ∃ γ A B v, ends[0]? = some A ∧ ((0, 2) ∈ A → γ = 1 % ends.length) ∧
    ((0, 2) ∉ A → γ = 0) ∧ ends[γ]? = some B ∧ (∃ j < 2, PathIn walk Finset.univ j (wplay 1) v) ∧
    ∀ t u, LegalIn walk Finset.univ (0, 2) t → t.1 = (wplay 1).1 → (∃ j < 2, PathIn walk Finset.univ j t u) →
      near (B ∩ Finset.univ) v ≤ near (B ∩ Finset.univ) u :=
  rhc_first_step (oracle_valid walk _) near_ok walk_run (by decide) walk_play

/-- The play is legal as long as new states are met. -/
example : ∀ k < 3, LegalIn walk Finset.univ (wplay k) (wplay (k + 1)) := by
  intro k hk
  rcases (((rhc_play_partial (oracle_valid walk _) near_ok walk_run).2 _ walk_play).2.1 k hk).2 with h | ⟨h0, h⟩
  · exact h
  · interval_cases k
    · exact absurd h (by decide)
    · exact absurd h (by decide)

/-- Every number of iterations gives a play. -/
example (num : ℕ) : ∃ a, simRhc (oracle walk fun k => k) walk Finset.univ near ends 2 (0, 2) num = .ok a :=
  rhc_returns (oracle_valid walk _) near_ok (by decide) (by decide) (by decide +kernel) (by decide +kernel)
    (fun e _ => ⟨(e, 2), ⟨by revert e; decide +kernel, by revert e; decide +kernel, Finset.mem_univ _⟩, rfl⟩)

/-- A blocked environment: `rand() % 0`. -/
def blocked : Game (Fin 1) (Fin 2) := ⟨fun _ _ => false, fun _ _ => true⟩

theorem sim_blocked : simRhc (oracle blocked fun _ => 0) blocked Finset.univ near goals 1 (0, 0) 1 = .ub :=
  rhc_unanswered (oracle_valid blocked _) near_ok (by decide) (by decide) (fun t h => by cases h.1)

example : simRhc (oracle blocked fun _ => 0) blocked Finset.univ near goals 0 (0, 0) 1 = .err :=
  (rhc_null (oracle_valid blocked _) near_ok).2 (by decide)

/-! ## Over bits

No variable of the environment, the bits `a0`, `a1` of an integer `a`. -/

def etB : Bdd (2 * (0 + 2)) := fun _ => true

/-- The value may change by at most 1. -/
def stB : Bdd (2 * (0 + 2)) := fun a =>
  let v := (a 0).toNat + 2 * (a 1).toNat
  let w := (a 2).toNat + 2 * (a 3).toNat
  decide (w ≤ v + 1 ∧ v ≤ w + 1)

def at' (v : ℕ) : BState 0 2 := (fun i => i.elim0, fun i => v.testBit i.val)

def bvars : VarList := [("a0".toList, 0), ("a1".toList, 0)]

theorem boffsets : getOffsets [] bvars "a".toList = [(0, 2)] := by decide +kernel

/-- The hypotheses of `sim_metric_first` can be met: a play from 0 towards 3, two steps ahead. -/
example (rand : ℕ → ℕ) (cover : ℕ → Bdd (2 * (0 + 2)) → List (CubeArr (2 * (0 + 2)))) (hcov : ∀ c f, IsCover f (cover c f)) :
    ∃ a σ, simMetric (simBits (fun _ l => l.sum + 1) rand cover (fun _ => 0) etB) (bitGame etB stB) Finset.univ [] bvars (cover 0) "a".toList
      [{at' 3}] 2 (at' 0) 4 = .ok a ∧ SimPlay 4 σ a ∧ LegalIn (bitGame etB stB) Finset.univ (at' 0) (σ 1) := by
  have hfr : ∀ (c : ℕ) (ids : List ℕ), (fun (_ : ℕ) (l : List ℕ) => l.sum + 1) c ids ∉ ids := by
    intro c l h
    have : l.sum + 1 ≤ l.sum := List.le_sum_of_mem h
    omega
  have hE : NoPrimedSys etB := fun _ _ _ _ => rfl
  have hv := simBits_valid (fun _ l => l.sum + 1) hfr rand cover hcov (fun _ => 0) etB stB hE
  have hl : LayoutOk (0 + 2) (getOffsets [] bvars "a".toList) := by
    rw [boffsets]
    intro p hp
    rw [List.mem_singleton] at hp
    subst hp
    decide
  have hn := simNear_ok (cover 0) (hcov 0) _ hl
  obtain ⟨a, ha⟩ := rhc_returns (num := 4) (n := 2) (sgs := [{at' 3}]) (W := Finset.univ) (init := at' 0) hv hn (by decide) (by simp)
    (fun _ _ => ⟨fun i => i.elim0, rfl⟩) ⟨fun i => i.elim0, rfl⟩
    (fun e _ => ⟨(e, fun _ => false), ⟨rfl, by
      have : e = fun i => i.elim0 := funext fun i => i.elim0
      rw [this]
      decide +kernel, Finset.mem_univ _⟩, rfl⟩)
  have hm : simMetric (simBits (fun _ l => l.sum + 1) rand cover (fun _ => 0) etB) (bitGame etB stB) Finset.univ [] bvars (cover 0)
      "a".toList [{at' 3}] 2 (at' 0) 4 = .ok a := by
    unfold simMetric
    rw [boffsets] at ha ⊢
    exact ha
  obtain ⟨⟨σ, hσ⟩, -⟩ := rhc_play_partial hv hn ha
  exact ⟨a, σ, hm, hσ, (sim_metric_first _ hfr rand cover hcov _ etB stB hE _ _ _ _ hl _ _ _ _ a hm (by decide) hσ).1⟩

/-- Covers exist. -/
example : ∀ (c : ℕ) (f : Bdd (2 * (0 + 2))), IsCover f (mintermCover f) := fun _ f => mintermCover_isCover f

end SimEx

/-- **C65, metric variables.** Without a word, or with a word that begins the name of no variable, nothing is simulated and NULL is
returned. -/
theorem sim_metric_unknown {ne ns : ℕ} (o : SimOracle (Val ne) (Val ns)) (G : Game (Val ne) (Val ns)) (W : Finset (BState ne ns))
    (ev sv : VarList) (cover : Bdd (2 * (ne + ns)) → List (CubeArr (2 * (ne + ns)))) {ws : List (List Char)} {m : List Char}
    (hw : BlankWords ws m) (h : ws = [] ∨ ∃ n ∈ ws, ∀ v ∈ ev ++ sv, ¬ n <+: v.1) (sgs : List (Finset (BState ne ns))) (horizon : ℕ)
    (init : BState ne ns) (num : ℕ) : simMetric o G W ev sv cover m sgs horizon init num = .err := by
  have e : getOffsets ev sv m = [] := by
    rcases h with rfl | h
    · unfold getOffsets
      rw [blank_words hw]
      rfl
    · exact patch_unknown_metric ev sv hw h
  unfold simMetric
  rw [e]

example : BlankWords ["q".toList] "q".toList ∧ ∃ n ∈ ["q".toList], ∀ v ∈ ([("x".toList, 1)] : VarList) ++ [], ¬ n <+: v.1 :=
  ⟨.cons 0 (by decide) (by decide) (Or.inl rfl) (.nil 0), by decide⟩


end Gr1c
