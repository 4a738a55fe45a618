import Verif.FixLemmas
import Mathlib.Order.Lattice.Nat
import Mathlib.Tactic.IntervalCases
import Mathlib.Tactic.Ring

/-!
# Helper lemmas: ranks, liveness of ranked plays, adversary construction
-/

namespace Gr1c

set_option linter.unusedSectionVars false

variable {E S : Type} [Fintype E] [DecidableEq E] [Fintype S] [DecidableEq S]
variable {m n : ℕ}

/-! ## Levels and ranks of the middle fixpoint -/

/-- The `k`-th iterate of the middle loop. -/
def ylev (G : Game E S) (eg : Fin m → Finset (E × S)) (goal : Finset (E × S)) (k : ℕ) :
    Finset (E × S) := (stepY G eg goal)^[k] ∅

/-- The greatest fixpoint for environment goal `r` used to build level `k+1`. -/
def xlev (G : Game E S) (eg : Fin m → Finset (E × S)) (goal : Finset (E × S)) (k : ℕ)
    (r : Fin m) : Finset (E × S) := nuX G (goal ∪ pre G (ylev G eg goal k)) (eg r)ᶜ

theorem ylev_zero (G : Game E S) (eg : Fin m → Finset (E × S)) (goal : Finset (E × S)) :
    ylev G eg goal 0 = ∅ := rfl

theorem ylev_succ (G : Game E S) (eg : Fin m → Finset (E × S)) (goal : Finset (E × S)) (k : ℕ) :
    ylev G eg goal (k + 1) = stepY G eg goal (ylev G eg goal k) := by
  unfold ylev; rw [Function.iterate_succ_apply']

theorem mem_ylev_succ {G : Game E S} {eg : Fin m → Finset (E × S)} {goal : Finset (E × S)} {k : ℕ}
    {s : E × S} :
    s ∈ ylev G eg goal (k + 1) ↔ (∃ r, s ∈ xlev G eg goal k r) ∨ s ∈ ylev G eg goal k := by
  rw [ylev_succ, mem_stepY]; rfl

theorem ylev_mono_succ (G : Game E S) (eg : Fin m → Finset (E × S)) (goal : Finset (E × S)) (k : ℕ) :
    ylev G eg goal k ⊆ ylev G eg goal (k + 1) := fun _ hs => mem_ylev_succ.2 (Or.inr hs)

theorem ylev_mono (G : Game E S) (eg : Fin m → Finset (E × S)) (goal : Finset (E × S)) :
    Monotone (ylev G eg goal) := monotone_nat_of_le_succ (ylev_mono_succ G eg goal)

theorem xlev_subset_ylev (G : Game E S) (eg : Fin m → Finset (E × S)) (goal : Finset (E × S)) (k : ℕ)
    (r : Fin m) : xlev G eg goal k r ⊆ ylev G eg goal (k + 1) :=
  fun _ hs => mem_ylev_succ.2 (Or.inl ⟨r, hs⟩)

theorem lfpY_eq_iterate (G : Game E S) (eg : Fin m → Finset (E × S)) (goal Y : Finset (E × S)) :
    ∃ k, lfpY G eg goal Y = (stepY G eg goal)^[k] Y := by
  fun_induction lfpY G eg goal Y with
  | case1 Y Y' h => exact ⟨1, rfl⟩
  | case2 Y Y' h ih =>
    obtain ⟨k, hk⟩ := ih
    exact ⟨k + 1, by rw [Function.iterate_succ_apply]; exact hk⟩

theorem muY_eq_ylev (G : Game E S) (eg : Fin m → Finset (E × S)) (goal : Finset (E × S)) :
    ∃ k, muY G eg goal = ylev G eg goal k := lfpY_eq_iterate G eg goal ∅

theorem ylev_subset_muY (G : Game E S) (eg : Fin m → Finset (E × S)) (goal : Finset (E × S)) (k : ℕ) :
    ylev G eg goal k ⊆ muY G eg goal := by
  induction k with
  | zero => exact Finset.empty_subset _
  | succ k ih =>
    rw [ylev_succ]
    exact (stepY_mono subset_rfl ih).trans (muY_fixed G eg goal).subset

/-- Least level containing `s`. -/
noncomputable def lev (G : Game E S) (eg : Fin m → Finset (E × S)) (goal : Finset (E × S))
    (s : E × S) : ℕ := sInf {k | s ∈ ylev G eg goal k}

theorem mem_ylev_lev {G : Game E S} {eg : Fin m → Finset (E × S)} {goal : Finset (E × S)} {s : E × S}
    (h : s ∈ muY G eg goal) : s ∈ ylev G eg goal (lev G eg goal s) := by
  obtain ⟨k, hk⟩ := muY_eq_ylev G eg goal
  exact Nat.sInf_mem (s := {k | s ∈ ylev G eg goal k}) ⟨k, (hk ▸ h : s ∈ ylev G eg goal k)⟩

theorem lev_le {G : Game E S} {eg : Fin m → Finset (E × S)} {goal : Finset (E × S)} {s : E × S} {k : ℕ}
    (h : s ∈ ylev G eg goal k) : lev G eg goal s ≤ k := Nat.sInf_le h

theorem lev_pos {G : Game E S} {eg : Fin m → Finset (E × S)} {goal : Finset (E × S)} {s : E × S}
    (h : s ∈ muY G eg goal) : 0 < lev G eg goal s := by
  rcases Nat.eq_zero_or_pos (lev G eg goal s) with h0 | h0
  · have := mem_ylev_lev h
    rw [h0, ylev_zero] at this
    simp at this
  · exact h0

/-- Least environment goal whose fixpoint at the least level contains `s`. -/
noncomputable def rix (G : Game E S) (eg : Fin m → Finset (E × S)) (goal : Finset (E × S))
    (s : E × S) : ℕ := sInf {r | ∃ h : r < m, s ∈ xlev G eg goal (lev G eg goal s - 1) ⟨r, h⟩}

theorem mem_xlev_rix {G : Game E S} {eg : Fin m → Finset (E × S)} {goal : Finset (E × S)} {s : E × S}
    (h : s ∈ muY G eg goal) :
    ∃ hr : rix G eg goal s < m, s ∈ xlev G eg goal (lev G eg goal s - 1) ⟨rix G eg goal s, hr⟩ := by
  have hp := lev_pos h
  have hm := mem_ylev_lev h
  obtain ⟨k, hk⟩ : ∃ k, lev G eg goal s = k + 1 := ⟨lev G eg goal s - 1, by omega⟩
  rw [hk, mem_ylev_succ] at hm
  rcases hm with ⟨r, hr⟩ | hm
  · apply Nat.sInf_mem (s := {r | ∃ h : r < m, s ∈ xlev G eg goal (lev G eg goal s - 1) ⟨r, h⟩})
    exact ⟨r.val, r.isLt, by rw [hk]; exact hr⟩
  · have := lev_le hm
    omega

/-- Combined rank: level first, then environment goal index. -/
noncomputable def rank (G : Game E S) (eg : Fin m → Finset (E × S)) (goal : Finset (E × S))
    (s : E × S) : ℕ := lev G eg goal s * m + rix G eg goal s

theorem rank_mod {G : Game E S} {eg : Fin m → Finset (E × S)} {goal : Finset (E × S)} {s : E × S}
    (h : s ∈ muY G eg goal) : rank G eg goal s % m = rix G eg goal s := by
  obtain ⟨hr, -⟩ := mem_xlev_rix h
  unfold rank
  rw [Nat.mul_comm, Nat.mul_add_mod, Nat.mod_eq_of_lt hr]

theorem rank_lt_of_lev {G : Game E S} {eg : Fin m → Finset (E × S)} {goal : Finset (E × S)}
    {s t : E × S} (ht : t ∈ muY G eg goal) (h : lev G eg goal t < lev G eg goal s) :
    rank G eg goal t < rank G eg goal s := by
  obtain ⟨hr, -⟩ := mem_xlev_rix ht
  unfold rank
  calc lev G eg goal t * m + rix G eg goal t < lev G eg goal t * m + m := by omega
    _ = (lev G eg goal t + 1) * m := by rw [Nat.add_mul, Nat.one_mul]
    _ ≤ lev G eg goal s * m := Nat.mul_le_mul_right _ h
    _ ≤ _ := Nat.le_add_right _ _

theorem rank_le_of_xlev {G : Game E S} {eg : Fin m → Finset (E × S)} {goal : Finset (E × S)}
    {s t : E × S} (hs : s ∈ muY G eg goal) {r : Fin m} (hr : r.val ≤ rix G eg goal s)
    (ht : t ∈ xlev G eg goal (lev G eg goal s - 1) r) :
    t ∈ muY G eg goal ∧ rank G eg goal t ≤ rank G eg goal s := by
  have hp := lev_pos hs
  have ht1 := xlev_subset_ylev _ _ _ _ _ ht
  have htm := ylev_subset_muY _ _ _ _ ht1
  have hl := lev_le ht1
  refine ⟨htm, ?_⟩
  rcases Nat.lt_or_ge (lev G eg goal t) (lev G eg goal s) with h | h
  · exact (rank_lt_of_lev htm h).le
  · have heq : lev G eg goal t = lev G eg goal s := by omega
    unfold rank
    have : rix G eg goal t ≤ r.val := Nat.sInf_le ⟨r.isLt, by rw [heq]; exact ht⟩
    rw [heq]
    omega

/-- What a state at its least level offers: it can be driven one level down, or it violates the
environment goal of its rank and can be kept in the same fixpoint. -/
theorem lev_cases {G : Game E S} {eg : Fin m → Finset (E × S)} {goal : Finset (E × S)} {s : E × S}
    (hs : s ∈ muY G eg goal) (hg : s ∉ goal) (hr : rix G eg goal s < m) :
    s ∈ pre G (ylev G eg goal (lev G eg goal s - 1)) ∨
    (s ∈ pre G (xlev G eg goal (lev G eg goal s - 1) ⟨rix G eg goal s, hr⟩) ∧
      s ∉ eg ⟨rix G eg goal s, hr⟩) := by
  obtain ⟨_, hx⟩ := mem_xlev_rix hs
  unfold xlev at hx
  rw [nuX_eq] at hx
  rcases Finset.mem_union.1 hx with h | h
  · rcases Finset.mem_union.1 h with h | h
    · exact absurd h hg
    · exact Or.inl h
  · rw [Finset.mem_inter, Finset.mem_compl] at h
    exact Or.inr h

/-- The system can always answer so that the rank does not grow, and drops if the state satisfies
the environment goal of its rank. -/
theorem rank_step {G : Game E S} {eg : Fin m → Finset (E × S)} {goal : Finset (E × S)} {s : E × S}
    (hs : s ∈ muY G eg goal) (hg : s ∉ goal) (hr : rix G eg goal s < m) {e' : E}
    (he : G.etr s e' = true) :
    ∃ x', G.str s (e', x') = true ∧ (e', x') ∈ muY G eg goal ∧
      rank G eg goal (e', x') ≤ rank G eg goal s ∧
      (s ∈ eg ⟨rix G eg goal s, hr⟩ → rank G eg goal (e', x') < rank G eg goal s) := by
  have hp := lev_pos hs
  rcases lev_cases hs hg hr with h | ⟨h, hne⟩
  · obtain ⟨x', h1, h2⟩ := mem_pre.1 h e' he
    have hm := ylev_subset_muY _ _ _ _ h2
    have hlt : rank G eg goal (e', x') < rank G eg goal s :=
      rank_lt_of_lev hm (by have := lev_le h2; omega)
    exact ⟨x', h1, hm, hlt.le, fun _ => hlt⟩
  · obtain ⟨x', h1, h2⟩ := mem_pre.1 h e' he
    obtain ⟨h3, h4⟩ := rank_le_of_xlev hs (r := ⟨rix G eg goal s, hr⟩) le_rfl h2
    exact ⟨x', h1, h3, h4, fun h => absurd h hne⟩

/-! ## Liveness of ranked plays -/

/-- A sequence of naturals that does not grow from some point on is eventually constant. -/
theorem eventually_const (f : ℕ → ℕ) (N : ℕ) (h : ∀ k, N ≤ k → f (k + 1) ≤ f k) :
    ∃ M, N ≤ M ∧ ∀ k, M ≤ k → f (k + 1) = f k := by
  by_contra hcon
  push Not at hcon
  have key : ∀ v M, N ≤ M → f M ≤ v → False := by
    intro v
    induction v with
    | zero =>
      intro M hM hv
      obtain ⟨k, hk, hne⟩ := hcon M hM
      have hanti : ∀ d, f (M + d) ≤ f M := by
        intro d
        induction d with
        | zero => exact le_rfl
        | succ d ih => exact (h (M + d) (by omega)).trans ih
      have h1 := hanti (k - M)
      have h2 := hanti (k + 1 - M)
      rw [show M + (k - M) = k by omega] at h1
      rw [show M + (k + 1 - M) = k + 1 by omega] at h2
      omega
    | succ v ih =>
      intro M hM hv
      obtain ⟨k, hk, hne⟩ := hcon M hM
      have hanti : ∀ d, f (M + d) ≤ f M := by
        intro d
        induction d with
        | zero => exact le_rfl
        | succ d ih => exact (h (M + d) (by omega)).trans ih
      have h1 := hanti (k - M)
      rw [show M + (k - M) = k by omega] at h1
      have h2 := h k (by omega)
      exact ih (k + 1) (by omega) (by omega)
  exact key (f N) N le_rfl le_rfl

/-- Number of goal advances needed to get from `k` to `i`. -/
noncomputable def dist (i k : Fin n) : ℕ := sInf {d | (nextIx^[d]) k = i}

theorem dist_spec (i k : Fin n) : (nextIx^[dist i k]) k = i :=
  Nat.sInf_mem (s := {d | (nextIx^[d]) k = i}) (nextIx_reach i k)

theorem dist_le {i k : Fin n} {d : ℕ} (h : (nextIx^[d]) k = i) : dist i k ≤ d := Nat.sInf_le h

/-- Advancing from `k` without passing `i` brings the mode closer to `i`. -/
theorem dist_advance {i k : Fin n} {d : ℕ} (hd : ∀ c, c < d → (nextIx^[c]) k ≠ i) :
    dist i ((nextIx^[d]) k) + d ≤ dist i k := by
  have h1 : d ≤ dist i k := by
    by_contra hlt
    exact hd _ (by omega) (dist_spec i k)
  have h2 : dist i ((nextIx^[d]) k) ≤ dist i k - d := by
    apply dist_le
    rw [← Function.iterate_add_apply, show dist i k - d + d = dist i k by omega]
    exact dist_spec i k
  omega

/-- `Adv sg i t i'`: on reaching `t` in goal mode `i` the mode becomes `i'` by advancing at least
once, each time over a goal that `t` satisfies. -/
def Adv (sg : Fin n → Finset (E × S)) (i : Fin n) (t : E × S) (i' : Fin n) : Prop :=
  ∃ d, 1 ≤ d ∧ (nextIx^[d]) i = i' ∧ ∀ c, c < d → t ∈ sg ((nextIx^[c]) i)

/-- One step of a ranked play: either the pursued goal is hit and the mode advances, or the mode
stays and, unless the current state was itself a goal state, the rank behaves. -/
def RankedStep (eg : Fin m → Finset (E × S)) (sg : Fin n → Finset (E × S)) (hm : 0 < m)
    (ρ : Fin n → E × S → ℕ) (i : Fin n) (s : E × S) (i' : Fin n) (t : E × S) : Prop :=
  (t ∈ sg i ∧ Adv sg i t i') ∨
  (t ∉ sg i ∧ i' = i ∧ (s ∉ sg i → ρ i t ≤ ρ i s ∧
    (s ∈ eg ⟨ρ i s % m, Nat.mod_lt _ hm⟩ → ρ i t < ρ i s)))

theorem live_of_ranked (eg : Fin m → Finset (E × S)) (sg : Fin n → Finset (E × S)) (hm : 0 < m)
    (ρ : Fin n → E × S → ℕ) (md : ℕ → Fin n) (π : ℕ → E × S)
    (hstep : ∀ k, RankedStep eg sg hm ρ (md k) (π k) (md (k + 1)) (π (k + 1))) :
    Live eg sg π := by
  intro henv i N
  by_contra hcon
  push Not at hcon
  -- the distance of the mode to `i` does not grow after N and drops at each hit
  have hd : ∀ k, N ≤ k → dist i (md (k + 1)) ≤ dist i (md k) ∧
      (π (k + 1) ∈ sg (md k) → dist i (md (k + 1)) < dist i (md k)) := by
    intro k hk
    rcases hstep k with ⟨hhit, d, hd1, hd2, hd3⟩ | ⟨hno, hmd, -⟩
    · have hnp : ∀ c, c < d → (nextIx^[c]) (md k) ≠ i := by
        intro c hc heq
        have := hd3 c hc
        rw [heq] at this
        exact hcon (k + 1) (by omega) this
      have := dist_advance hnp
      rw [hd2] at this
      exact ⟨by omega, fun _ => by omega⟩
    · rw [hmd]
      exact ⟨le_rfl, fun h => absurd h hno⟩
  obtain ⟨M, hMN, hM⟩ := eventually_const (fun k => dist i (md k)) N (fun k hk => (hd k hk).1)
  -- so after M there are no hits and the mode is constant
  have hno : ∀ k, M ≤ k → π (k + 1) ∉ sg (md k) := by
    intro k hk hin
    have h1 := (hd k (by omega)).2 hin
    have h2 : dist i (md (k + 1)) = dist i (md k) := hM k hk
    omega
  have hmd : ∀ k, M ≤ k → md (k + 1) = md k := by
    intro k hk
    rcases hstep k with ⟨h, -⟩ | ⟨-, h, -⟩
    · exact absurd h (hno k hk)
    · exact h
  have hmdc : ∀ d, md (M + d) = md M := by
    intro d
    induction d with
    | zero => rfl
    | succ d ih => rw [← ih]; exact hmd (M + d) (by omega)
  have hout : ∀ k, M + 1 ≤ k → π k ∉ sg (md M) := by
    intro k hk
    have := hno (k - 1) (by omega)
    rw [show k - 1 + 1 = k by omega] at this
    have h2 := hmdc (k - 1 - M)
    rw [show M + (k - 1 - M) = k - 1 by omega] at h2
    rwa [h2] at this
  have hρ : ∀ k, M + 1 ≤ k → ρ (md M) (π (k + 1)) ≤ ρ (md M) (π k) ∧
      (π k ∈ eg ⟨ρ (md M) (π k) % m, Nat.mod_lt _ hm⟩ →
        ρ (md M) (π (k + 1)) < ρ (md M) (π k)) := by
    intro k hk
    have h2 := hmdc (k - M)
    rw [show M + (k - M) = k by omega] at h2
    rcases hstep k with ⟨h, -⟩ | ⟨-, -, h⟩
    · exact absurd h (hno k (by omega))
    · rw [h2] at h
      exact h (hout k hk)
  obtain ⟨K, hK1, hK⟩ := eventually_const (fun k => ρ (md M) (π k)) (M + 1) (fun k hk => (hρ k hk).1)
  have hconst : ∀ d, ρ (md M) (π (K + d)) = ρ (md M) (π K) := by
    intro d
    induction d with
    | zero => rfl
    | succ d ih => rw [← ih]; exact hK (K + d) (by omega)
  obtain ⟨k, hk, hin⟩ := henv ⟨ρ (md M) (π K) % m, Nat.mod_lt _ hm⟩ K
  have h1 := hconst (k - K)
  rw [show K + (k - K) = k by omega] at h1
  have h2 := (hρ k (by omega)).2 (by rw [h1]; exact hin)
  have h3 : ρ (md M) (π (k + 1)) = ρ (md M) (π k) := hK k hk
  omega

/-! ## From a memory strategy to a history strategy -/

/-- Goal mode after a history (latest state first): advance by one on each hit. -/
def modeOf (sg : Fin n → Finset (E × S)) (i0 : Fin n) : List (E × S) → Fin n
  | [] => i0
  | [_] => i0
  | t :: h => if t ∈ sg (modeOf sg i0 h) then nextIx (modeOf sg i0 h) else modeOf sg i0 h

theorem modeOf_cons {sg : Fin n → Finset (E × S)} {i0 : Fin n} {t s : E × S} {h : List (E × S)} :
    modeOf sg i0 (t :: s :: h) =
      if t ∈ sg (modeOf sg i0 (s :: h)) then nextIx (modeOf sg i0 (s :: h))
      else modeOf sg i0 (s :: h) := rfl

theorem pref_cons (π : ℕ → E × S) (k : ℕ) : ∃ h, pref π k = π k :: h := by
  cases k with
  | zero => exact ⟨[], rfl⟩
  | succ k => exact ⟨pref π k, rfl⟩

theorem consistent_inv {G : Game E S} {σ : Strategy E S} {s0 t s : E × S} {h : List (E × S)}
    (hc : Consistent G σ s0 (t :: s :: h)) :
    Consistent G σ s0 (s :: h) ∧ G.etr s t.1 = true ∧ σ (s :: h) t.1 = some t.2 := by
  cases hc with
  | step h1 h2 h3 => exact ⟨h1, h2, h3⟩

/-- Sound direction: the computed set is winning. -/
theorem wins_of_mem {G : Game E S} {eg : Fin m → Finset (E × S)} {sg : Fin n → Finset (E × S)}
    {W : Finset (E × S)} (hm : 0 < m) (hn : 0 < n) (hW : winningSet G eg sg = some W)
    {s0 : E × S} (hs0 : s0 ∈ W) : ∃ σ, Wins G eg sg σ s0 := by
  classical
  have hWeq := winningSet_eq hm hW
  have hpre := pre_winningSet hm hn hW
  set goal : Fin n → Finset (E × S) := fun i => sg i ∩ pre G W with hgoal
  set ρ : Fin n → E × S → ℕ := fun i => rank G eg (goal i) with hρ
  -- one good answer per mode, state and environment move
  have hex : ∀ (i : Fin n) (s : E × S) (e' : E), s ∈ W → G.etr s e' = true →
      ∃ x', G.str s (e', x') = true ∧ (e', x') ∈ W ∧
        (s ∉ sg i → ρ i (e', x') ≤ ρ i s ∧
          (s ∈ eg ⟨ρ i s % m, Nat.mod_lt _ hm⟩ → ρ i (e', x') < ρ i s)) := by
    intro i s e' hs he
    by_cases hg : s ∈ sg i
    · rw [← hpre] at hs
      obtain ⟨x', h1, h2⟩ := mem_pre.1 hs e' he
      exact ⟨x', h1, h2, fun h => absurd hg h⟩
    · have hs' : s ∈ muY G eg (goal i) := by rw [← hWeq i]; exact hs
      obtain ⟨hr, -⟩ := mem_xlev_rix hs'
      have hng : s ∉ goal i := fun h => hg (Finset.mem_inter.1 h).1
      obtain ⟨x', h1, h2, h3, h4⟩ := rank_step hs' hng hr he
      rw [← hWeq i] at h2
      refine ⟨x', h1, h2, fun _ => ⟨h3, fun hin => h4 ?_⟩⟩
      have := rank_mod hs'
      simp only [hρ] at hin
      convert hin using 3
      exact this.symm
  have : Nonempty S := ⟨s0.2⟩
  choose! mv hmv using hex
  set i0 : Fin n := ⟨0, hn⟩
  set σ : Strategy E S := fun h e' => match h with
    | [] => none
    | s :: h => some (mv (modeOf sg i0 (s :: h)) s e') with hσ
  have hin : ∀ l, Consistent G σ s0 l → ∀ s h, l = s :: h → s ∈ W := by
    intro l hl
    induction hl with
    | start => intro s h heq; simp only [List.cons.injEq] at heq; rw [← heq.1]; exact hs0
    | step h1 h2 h3 ih =>
      intro s h heq
      simp only [List.cons.injEq] at heq
      have hw := ih _ _ rfl
      simp only [hσ, Option.some.injEq] at h3
      rw [← heq.1, ← h3]
      exact (hmv _ _ _ hw h2).2.1
  refine ⟨σ, ?_, ?_⟩
  · intro s h hc e' he
    exact ⟨_, rfl, (hmv _ _ _ (hin _ hc s h rfl) he).1⟩
  · intro π hπ
    apply live_of_ranked eg sg hm ρ (fun k => modeOf sg i0 (pref π k)) π
    intro k
    have hc := hπ (k + 1)
    obtain ⟨h, hh⟩ := pref_cons π k
    have hk : pref π (k + 1) = π (k + 1) :: π k :: h := by rw [← hh]; rfl
    rw [hk] at hc
    obtain ⟨hc1, hc2, hc3⟩ := consistent_inv hc
    have hw := hin _ hc1 _ _ rfl
    simp only [hσ, Option.some.injEq] at hc3
    have hgood := (hmv (modeOf sg i0 (π k :: h)) _ _ hw hc2).2.2
    rw [hc3] at hgood
    simp only [hh, hk, modeOf_cons]
    unfold RankedStep
    by_cases hhit : π (k + 1) ∈ sg (modeOf sg i0 (π k :: h))
    · left
      refine ⟨hhit, 1, le_rfl, ?_, ?_⟩
      · simp [hhit]
      · intro c hc; interval_cases c; exact hhit
    · right
      refine ⟨hhit, by simp [hhit], hgood⟩

/-! ## Adversary -/

theorem gfpX_eq_iterate (G : Game E S) (base ne X : Finset (E × S)) :
    ∃ k, gfpX G base ne X = (fun X => (base ∪ (pre G X ∩ ne)) ∩ X)^[k] X := by
  fun_induction gfpX G base ne X with
  | case1 X X' h => exact ⟨1, rfl⟩
  | case2 X X' h ih =>
    obtain ⟨k, hk⟩ := ih
    exact ⟨k + 1, by rw [Function.iterate_succ_apply]; exact hk⟩

/-- Outside a greatest fixpoint, the environment has a rank that it can decrease until it reaches
its goal. -/
theorem adversary_rank (G : Game E S) (base g : Finset (E × S)) :
    ∃ rk : E × S → ℕ, ∀ t, t ∉ nuX G base gᶜ → t ∈ g ∨ ∃ e', G.etr t e' = true ∧
      ∀ x', G.str t (e', x') = true → (e', x') ∉ nuX G base gᶜ ∧ rk (e', x') < rk t := by
  set F : Finset (E × S) → Finset (E × S) := fun X => (base ∪ (pre G X ∩ gᶜ)) ∩ X with hF
  have hA : ∀ k, nuX G base gᶜ ⊆ F^[k] Finset.univ := by
    intro k
    induction k with
    | zero => exact Finset.subset_univ _
    | succ k ih =>
      rw [Function.iterate_succ_apply']
      refine Finset.subset_inter ?_ ih
      refine (nuX_post G base gᶜ).trans (Finset.union_subset_union_right ?_)
      exact Finset.inter_subset_inter_right (pre_mono ih)
  refine ⟨fun t => sInf {k | t ∉ F^[k] Finset.univ}, ?_⟩
  intro t ht
  obtain ⟨K, hK⟩ := gfpX_eq_iterate G base gᶜ Finset.univ
  have hne : {k | t ∉ F^[k] Finset.univ}.Nonempty := ⟨K, by
    have : nuX G base gᶜ = F^[K] Finset.univ := hK
    rw [this] at ht
    exact ht⟩
  have hmem := Nat.sInf_mem hne
  set r := sInf {k | t ∉ F^[k] Finset.univ} with hr
  have hpos : r ≠ 0 := by
    intro h0
    rw [h0] at hmem
    simp at hmem
  obtain ⟨q, hq⟩ : ∃ q, r = q + 1 := ⟨r - 1, by omega⟩
  have hin : t ∈ F^[q] Finset.univ := by
    by_contra hcon
    have : r ≤ q := Nat.sInf_le hcon
    omega
  rw [hq] at hmem
  simp only [Set.mem_ofPred_eq, Function.iterate_succ_apply'] at hmem
  by_cases hg : t ∈ g
  · exact Or.inl hg
  · right
    have hnp : t ∉ pre G (F^[q] Finset.univ) := by
      intro hp
      apply hmem
      refine Finset.mem_inter.2 ⟨Finset.mem_union_right _ (Finset.mem_inter.2 ⟨hp, ?_⟩), hin⟩
      simpa using hg
    rw [mem_pre] at hnp
    push Not at hnp
    obtain ⟨e', he, hall⟩ := hnp
    refine ⟨e', he, fun x' hx => ?_⟩
    have hout := hall x' hx
    refine ⟨fun h => hout (hA q h), ?_⟩
    have : sInf {k | (e', x') ∉ F^[k] Finset.univ} ≤ q := Nat.sInf_le hout
    show sInf {k | (e', x') ∉ F^[k] Finset.univ} < r
    omega

/-- A suffix of a winning strategy is winning from the state reached. -/
theorem consistent_shift {G : Game E S} {σ : Strategy E S} {s0 s : E × S} {h : List (E × S)}
    (hc : Consistent G σ s0 (s :: h)) {l : List (E × S)}
    (hl : Consistent G (fun l e => σ (l ++ h) e) s l) : Consistent G σ s0 (l ++ h) := by
  induction hl with
  | start => exact hc
  | step h1 h2 h3 ih => exact Consistent.step ih h2 h3

theorem wins_shift {G : Game E S} {eg : Fin m → Finset (E × S)} {sg : Fin n → Finset (E × S)}
    {σ : Strategy E S} {s0 s : E × S} {h : List (E × S)} (hw : Wins G eg sg σ s0)
    (hc : Consistent G σ s0 (s :: h)) : Wins G eg sg (fun l e => σ (l ++ h) e) s := by
  refine ⟨?_, ?_⟩
  · intro t l hl e' he
    exact hw.1 t (l ++ h) (consistent_shift hc hl) e' he
  · intro π hπ
    -- prepend the history to the play
    have hcs : ∀ k, Consistent G σ s0 (pref π k ++ h) := fun k => consistent_shift hc (hπ k)
    set p := h.length with hp
    set π' : ℕ → E × S := fun k => if hk : k < p then h.reverse[k]'(by simp; omega)
      else π (k - p) with hπ'
    have hpre1 : ∀ k, k ≤ p → (∀ d, d < k → ∃ hd : d < p, π' d = h.reverse[d]'(by simp; omega)) := by
      intro k hk d hd
      refine ⟨by omega, ?_⟩
      simp only [hπ']
      rw [dif_pos (by omega)]
    have hfin : ∀ k, k < p → pref π' k = h.drop (p - 1 - k) := by
      intro k
      induction k with
      | zero =>
        intro hk
        simp only [pref, hπ']
        rw [dif_pos hk]
        have hlast : h.drop (p - 1) = [h[p - 1]'(by omega)] := by
          rw [List.drop_eq_getElem_cons (by omega)]
          simp only [List.cons.injEq, true_and]
          apply List.drop_eq_nil_of_le
          omega
        rw [show p - 1 - 0 = p - 1 by omega, hlast]
        simp [List.getElem_reverse, hp]
      | succ k ih =>
        intro hk
        have ih' := ih (by omega)
        show π' (k + 1) :: pref π' k = _
        rw [ih']
        conv_rhs => rw [List.drop_eq_getElem_cons (i := p - 1 - (k + 1)) (by omega)]
        rw [show p - 1 - (k + 1) + 1 = p - 1 - k by omega]
        congr 1
        simp only [hπ']
        rw [dif_pos hk, List.getElem_reverse]
    have hinf : ∀ k, pref π' (k + p) = pref π k ++ h := by
      intro k
      induction k with
      | zero =>
        have h0 : π' p = π 0 := by simp [hπ']
        rw [Nat.zero_add]
        rcases Nat.eq_zero_or_pos p with hp0 | hp0
        · have : h = [] := List.length_eq_zero_iff.1 (hp ▸ hp0)
          subst this
          simp only [List.append_nil]
          rw [hp0] at h0 ⊢
          simp [pref, h0]
        · obtain ⟨q, hq⟩ : ∃ q, p = q + 1 := ⟨p - 1, by omega⟩
          rw [hq]
          show π' (q + 1) :: pref π' q = _
          rw [← hq, h0, hfin q (by omega), show p - 1 - q = 0 by omega]
          simp [pref]
      | succ k ih =>
        rw [show k + 1 + p = (k + p) + 1 by omega]
        show π' (k + p + 1) :: pref π' (k + p) = _
        rw [ih]
        have : π' (k + p + 1) = π (k + 1) := by
          simp only [hπ']
          rw [dif_neg (by omega), show k + p + 1 - p = k + 1 by omega]
        rw [this]
        rfl
    -- every prefix of a consistent history is consistent
    have hdrop : ∀ (l : List (E × S)) (d : ℕ), d < l.length → Consistent G σ s0 l →
        Consistent G σ s0 (l.drop d) := by
      intro l d hd hl
      induction hl generalizing d with
      | start =>
        simp only [List.length_cons, List.length_nil] at hd
        have : d = 0 := by omega
        subst this
        exact Consistent.start
      | step h1 h2 h3 ih =>
        cases d with
        | zero => exact Consistent.step h1 h2 h3
        | succ d => exact ih d (by simpa using hd)
    have hall : ∀ k, Consistent G σ s0 (pref π' k) := by
      intro k
      rcases Nat.lt_or_ge k p with hk | hk
      · rw [hfin k hk]
        have h0 := hdrop (s :: h) (p - 1 - k + 1) (by simp; omega) hc
        simpa using h0
      · have := hinf (k - p)
        rw [show k - p + p = k by omega] at this
        rw [this]
        exact hcs _
    have hlive := hw.2 π' hall
    have hshift : ∀ k, π' (k + p) = π k := by
      intro k
      simp [hπ']
    intro henv i N
    have henv' : ∀ j, InfOften π' (eg j) := by
      intro j N
      obtain ⟨k, hk, hin⟩ := henv j N
      exact ⟨k + p, by omega, by rw [hshift]; exact hin⟩
    obtain ⟨k, hk, hin⟩ := hlive henv' i (N + p)
    refine ⟨k - p, by omega, ?_⟩
    rw [← hshift, show k - p + p = k by omega]
    exact hin

theorem muY_sub_nuX {G : Game E S} {eg : Fin m → Finset (E × S)} {goal : Finset (E × S)} (j : Fin m) :
    muY G eg goal ⊆ nuX G (goal ∪ pre G (muY G eg goal)) (eg j)ᶜ := by
  intro u hu
  apply base_subset_nuX
  rw [← muY_fixed] at hu
  rcases mem_stepY.1 hu with ⟨r, hr⟩ | hr
  · have hr' := hr
    rw [nuX_eq] at hr
    rcases Finset.mem_union.1 hr with h | h
    · exact h
    · refine Finset.mem_union_right _ (pre_mono ?_ (Finset.mem_inter.1 h).1)
      intro v hv
      rw [← muY_fixed]
      exact mem_stepY.2 (Or.inl ⟨r, hv⟩)
  · -- `hr` gives nothing new: use the least level
    have hp := lev_pos hr
    obtain ⟨hlt, hx⟩ := mem_xlev_rix hr
    unfold xlev at hx
    rw [nuX_eq] at hx
    rcases Finset.mem_union.1 hx with h | h
    · rcases Finset.mem_union.1 h with h | h
      · exact Finset.mem_union_left _ h
      · exact Finset.mem_union_right _ (pre_mono (ylev_subset_muY _ _ _ _) h)
    · refine Finset.mem_union_right _ (pre_mono ?_ (Finset.mem_inter.1 h).1)
      exact (xlev_subset_ylev G eg goal _ _).trans (ylev_subset_muY _ _ _ _)

theorem nuX_sub_muY {G : Game E S} {eg : Fin m → Finset (E × S)} {goal : Finset (E × S)} (j : Fin m) :
    nuX G (goal ∪ pre G (muY G eg goal)) (eg j)ᶜ ⊆ muY G eg goal := by
  intro u hu
  rw [← muY_fixed]
  exact mem_stepY.2 (Or.inl ⟨j, hu⟩)

/-- Complete direction: a state from which some strategy wins is in the computed set. -/
theorem mem_of_wins {G : Game E S} {eg : Fin m → Finset (E × S)} {sg : Fin n → Finset (E × S)}
    {W : Finset (E × S)} (hm : 0 < m) (hW : winningSet G eg sg = some W)
    {s0 : E × S} {σ0 : Strategy E S} (hwin : Wins G eg sg σ0 s0) : s0 ∈ W := by
  classical
  set V : Finset (E × S) := Finset.univ.filter (fun s => ∃ σ, Wins G eg sg σ s) with hV
  have hVm : ∀ s, s ∈ V ↔ ∃ σ, Wins G eg sg σ s := fun s => by simp [hV]
  suffices hsub : ∀ i, V ⊆ muY G eg (sg i ∩ pre G V) by
    exact winningSet_greatest hW hsub ((hVm s0).2 ⟨σ0, hwin⟩)
  have hVpre : V ⊆ pre G V := by
    intro s hs
    obtain ⟨σ, hσ⟩ := (hVm s).1 hs
    refine mem_pre.2 fun e' he => ?_
    obtain ⟨x', h1, h2⟩ := hσ.1 s [] Consistent.start e' he
    refine ⟨x', h2, (hVm _).2 ⟨_, wins_shift hσ (Consistent.step Consistent.start he h1)⟩⟩
  intro i s hs
  by_contra hnot
  set M := muY G eg (sg i ∩ pre G V) with hM
  obtain ⟨σ, hσ⟩ := (hVm s).1 hs
  -- environment ranks
  have hrk : ∀ j : Fin m, ∃ rk : E × S → ℕ, ∀ t, t ∉ M → t ∈ eg j ∨ ∃ e', G.etr t e' = true ∧
      ∀ x', G.str t (e', x') = true → (e', x') ∉ M ∧ rk (e', x') < rk t := by
    intro j
    obtain ⟨rk, h⟩ := adversary_rank G ((sg i ∩ pre G V) ∪ pre G M) (eg j)
    have heq : nuX G ((sg i ∩ pre G V) ∪ pre G M) (eg j)ᶜ = M :=
      (nuX_sub_muY j).antisymm (muY_sub_nuX j)
    rw [heq] at h
    exact ⟨rk, h⟩
  choose rk hrk using hrk
  -- an escaping environment move
  have hesc : ∀ t, t ∉ M → ∃ e', G.etr t e' = true ∧ ∀ x', G.str t (e', x') = true → (e', x') ∉ M := by
    intro t ht
    have : t ∉ pre G M := fun h => ht (pre_muY_subset _ _ _ hm h)
    rw [mem_pre] at this
    push Not at this
    exact this
  -- the environment's choice for target j
  have hchoice : ∀ (j : Fin m) (t : E × S), t ∉ M → ∃ e', G.etr t e' = true ∧
      ∀ x', G.str t (e', x') = true → (e', x') ∉ M ∧ (t ∉ eg j → rk j (e', x') < rk j t) := by
    intro j t ht
    by_cases hj : t ∈ eg j
    · obtain ⟨e', h1, h2⟩ := hesc t ht
      exact ⟨e', h1, fun x' hx => ⟨h2 x' hx, fun h => absurd hj h⟩⟩
    · rcases hrk j t ht with h | ⟨e', h1, h2⟩
      · exact absurd h hj
      · exact ⟨e', h1, fun x' hx => ⟨(h2 x' hx).1, fun _ => (h2 x' hx).2⟩⟩
  have : Nonempty E := ⟨s0.1⟩
  choose! ev hev using hchoice
  -- configurations: latest state, earlier history, target
  set C := (E × S) × List (E × S) × Fin m
  set nx : C → C := fun c =>
    ((ev c.2.2 c.1, (σ (c.1 :: c.2.1) (ev c.2.2 c.1)).getD c.1.2), c.1 :: c.2.1,
      if c.1 ∈ eg c.2.2 then nextIx c.2.2 else c.2.2) with hnx
  set cf : ℕ → C := fun k => nx^[k] (s, [], ⟨0, hm⟩) with hcf
  have hcs : ∀ k, cf (k + 1) = nx (cf k) := fun k => by
    simp only [hcf, Function.iterate_succ_apply']
  set π : ℕ → E × S := fun k => (cf k).1 with hπ
  have hpref : ∀ k, pref π k = (cf k).1 :: (cf k).2.1 := by
    intro k
    induction k with
    | zero => rfl
    | succ k ih =>
      show π (k + 1) :: pref π k = _
      rw [ih, hcs k]
      simp only [hπ, hcs k, hnx]
  have hinv : ∀ k, Consistent G σ s ((cf k).1 :: (cf k).2.1) ∧ (cf k).1 ∉ M ∧
      (∀ j, j = (cf k).2.2 → (cf k).1 ∉ eg j → rk j (cf (k + 1)).1 < rk j (cf k).1) := by
    intro k
    have hcore : ∀ k, Consistent G σ s ((cf k).1 :: (cf k).2.1) → (cf k).1 ∉ M →
        (Consistent G σ s ((cf (k + 1)).1 :: (cf (k + 1)).2.1) ∧ (cf (k + 1)).1 ∉ M ∧
          (∀ j, j = (cf k).2.2 → (cf k).1 ∉ eg j → rk j (cf (k + 1)).1 < rk j (cf k).1)) := by
      intro k h1 h2
      obtain ⟨he, hx⟩ := hev (cf k).2.2 (cf k).1 h2
      obtain ⟨x', hx1, hx2⟩ := hσ.1 _ _ h1 _ he
      have hfst : (cf (k + 1)).1 = (ev (cf k).2.2 (cf k).1, x') := by
        rw [hcs k]; simp only [hnx]; rw [hx1]; rfl
      have hsnd : (cf (k + 1)).2.1 = (cf k).1 :: (cf k).2.1 := by
        rw [hcs k]
      rw [hfst, hsnd]
      refine ⟨Consistent.step h1 he hx1, (hx x' hx2).1, ?_⟩
      intro j hj
      rw [hj]
      exact (hx x' hx2).2
    have hbase : ∀ k, Consistent G σ s ((cf k).1 :: (cf k).2.1) ∧ (cf k).1 ∉ M := by
      intro k
      induction k with
      | zero => exact ⟨Consistent.start, hnot⟩
      | succ k ih =>
        obtain ⟨a, b, -⟩ := hcore k ih.1 ih.2
        exact ⟨a, b⟩
    exact ⟨(hbase k).1, (hbase k).2, (hcore k (hbase k).1 (hbase k).2).2.2⟩
  have hlive := hσ.2 π (fun k => by rw [hpref]; exact (hinv k).1)
  -- all environment goals recur
  have henv : ∀ j, InfOften π (eg j) := by
    intro a N
    by_contra hcon
    push Not at hcon
    have hd : ∀ k, N ≤ k → dist a (cf (k + 1)).2.2 ≤ dist a (cf k).2.2 ∧
        ((cf k).1 ∈ eg (cf k).2.2 → dist a (cf (k + 1)).2.2 < dist a (cf k).2.2) := by
      intro k hk
      have htg : (cf (k + 1)).2.2 =
          if (cf k).1 ∈ eg (cf k).2.2 then nextIx (cf k).2.2 else (cf k).2.2 := by rw [hcs k]
      by_cases hin : (cf k).1 ∈ eg (cf k).2.2
      · rw [if_pos hin] at htg
        have hne : ∀ c, c < 1 → (nextIx^[c]) (cf k).2.2 ≠ a := by
          intro c hc heq
          interval_cases c
          simp only [Function.iterate_zero, id_eq] at heq
          rw [heq] at hin
          exact hcon k hk hin
        have := dist_advance hne
        rw [Function.iterate_one, ← htg] at this
        exact ⟨by omega, fun _ => by omega⟩
      · rw [if_neg hin] at htg
        rw [htg]
        exact ⟨le_rfl, fun h => absurd h hin⟩
    obtain ⟨K, hK1, hK⟩ := eventually_const (fun k => dist a (cf k).2.2) N (fun k hk => (hd k hk).1)
    have hnohit : ∀ k, K ≤ k → (cf k).1 ∉ eg (cf k).2.2 := by
      intro k hk hin
      have h1 := (hd k (by omega)).2 hin
      have h2 : dist a (cf (k + 1)).2.2 = dist a (cf k).2.2 := hK k hk
      omega
    have htc : ∀ d, (cf (K + d)).2.2 = (cf K).2.2 := by
      intro d
      induction d with
      | zero => rfl
      | succ d ih =>
        rw [← ih, show K + (d + 1) = (K + d) + 1 by omega, hcs (K + d)]
        simp only [hnx]
        rw [if_neg (hnohit (K + d) (by omega))]
    have hdec : ∀ d, rk (cf K).2.2 (cf (K + d)).1 + d ≤ rk (cf K).2.2 (cf K).1 := by
      intro d
      induction d with
      | zero => simp
      | succ d ih =>
        have h1 := (hinv (K + d)).2.2 (cf K).2.2 (htc d).symm
          (by have := hnohit (K + d) (by omega); rwa [htc d] at this)
        rw [show K + (d + 1) = (K + d) + 1 by omega]
        omega
    have := hdec (rk (cf K).2.2 (cf K).1 + 1)
    omega
  -- so goal i recurs, although the play never leaves V and never enters M
  obtain ⟨k, -, hk⟩ := hlive henv i 0
  have hVk : (cf k).1 ∈ V := (hVm _).2 ⟨_, wins_shift hσ (hinv k).1⟩
  refine (hinv k).2.1 (goal_subset_muY _ _ _ hm ?_)
  exact Finset.mem_inter.2 ⟨hk, hVpre hVk⟩

end Gr1c
