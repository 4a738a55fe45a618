import Verif.GameLemmas

/-!
# Properties of the winning set: C01, C02, C09, C10 and part of C07

Statements only use the specification half of `Verif.Game` (plays, strategies, `Wins`) and the
modelled entry point `computeWinningSet`.
-/

namespace Gr1c

set_option linter.unusedSectionVars false

variable {E S : Type} [Fintype E] [DecidableEq E] [Fintype S] [DecidableEq S]

/-- The strategy `σ` wins from `s` for goal lists. -/
abbrev WinsL (G : Game E S) (egs sgs : List (Finset (E × S))) (σ : Strategy E S) (s : E × S) : Prop :=
  Wins G egs.get sgs.get σ s

private theorem withDefault_pos (egs : List (Finset (E × S))) : 0 < (withDefaultGoal egs).length := by
  unfold withDefaultGoal
  split
  · simp
  · exact List.length_pos_iff.2 (by assumption)

private theorem live_mono {egs egs' sgs sgs' : List (Finset (E × S))} {π : ℕ → E × S}
    (he : ∀ Q ∈ egs, ∃ Q' ∈ egs', Q' ⊆ Q) (hs : ∀ P' ∈ sgs', ∃ P ∈ sgs, P ⊆ P')
    (h : Live egs.get sgs.get π) : Live egs'.get sgs'.get π := by
  intro henv i N
  have henv' : ∀ j, InfOften π (egs.get j) := by
    intro j N
    obtain ⟨Q', hQ', hsub⟩ := he (egs.get j) (List.get_mem _ _)
    obtain ⟨j', rfl⟩ := List.mem_iff_get.1 hQ'
    obtain ⟨k, hk, hin⟩ := henv j' N
    exact ⟨k, hk, hsub hin⟩
  obtain ⟨P, hP, hsub⟩ := hs (sgs'.get i) (List.get_mem _ _)
  obtain ⟨i', rfl⟩ := List.mem_iff_get.1 hP
  obtain ⟨k, hk, hin⟩ := h henv' i' N
  exact ⟨k, hk, hsub hin⟩

private theorem live_default {egs sgs : List (Finset (E × S))} {π : ℕ → E × S} :
    Live (withDefaultGoal egs).get sgs.get π ↔ Live egs.get sgs.get π := by
  by_cases h : egs = []
  · subst h
    have hd : withDefaultGoal ([] : List (Finset (E × S))) = [Finset.univ] := rfl
    rw [hd]
    constructor
    · intro h _
      apply h
      intro j N
      refine ⟨N, le_rfl, ?_⟩
      have hj := List.get_mem [(Finset.univ : Finset (E × S))] j
      rw [List.mem_singleton] at hj
      rw [hj]
      exact Finset.mem_univ _
    · intro h _
      exact h (fun j => absurd j.isLt (by simp))
  · have hd : withDefaultGoal egs = egs := if_neg h
    rw [hd]

private theorem winsL_default {G : Game E S} {egs sgs : List (Finset (E × S))} {σ : Strategy E S}
    {s : E × S} : WinsL G (withDefaultGoal egs) sgs σ s ↔ WinsL G egs sgs σ s := by
  unfold WinsL Wins
  simp only [live_default]

private theorem winning_pos {G : Game E S} {m : ℕ} {eg : Fin m → Finset (E × S)}
    {sgs : List (Finset (E × S))} {W : Finset (E × S)} (h : winningSet G eg sgs.get = some W) :
    0 < sgs.length := by
  unfold winningSet at h
  split at h
  · assumption
  · simp at h

/-! ## C01 -/

/-- **C01.** From every state of the computed winning set the system has a strategy that always has
a legal answer and satisfies the liveness condition on every consistent infinite play. -/
theorem winning_set_sound (G : Game E S) (egs sgs : List (Finset (E × S))) (W : Finset (E × S))
    (hW : computeWinningSet G egs sgs = some W) (s : E × S) (hs : s ∈ W) :
    ∃ σ, WinsL G egs sgs σ s := by
  obtain ⟨σ, hσ⟩ := wins_of_mem (withDefault_pos egs) (winning_pos hW) hW hs
  exact ⟨σ, winsL_default.1 hσ⟩

/-! ## C02 -/

/-- **C02.** A state outside the computed winning set is not won by any system strategy: against
each strategy there is a consistent history with a legal environment move to which the strategy has
no legal answer, or a consistent infinite play on which all environment goals recur and some system
goal does not. -/
theorem winning_set_complete (G : Game E S) (egs sgs : List (Finset (E × S))) (W : Finset (E × S))
    (hW : computeWinningSet G egs sgs = some W) (s : E × S) (hs : s ∉ W) (σ : Strategy E S) :
    (∃ t h e', Consistent G σ s (t :: h) ∧ G.etr t e' = true ∧
      ∀ x', σ (t :: h) e' = some x' → G.str t (e', x') = false) ∨
    (∃ π : ℕ → E × S, (∀ k, Consistent G σ s (pref π k)) ∧
      (∀ Q ∈ egs, InfOften π Q) ∧ ∃ P ∈ sgs, ¬ InfOften π P) := by
  by_contra hcon
  push Not at hcon
  obtain ⟨h1, h2⟩ := hcon
  apply hs
  refine mem_of_wins (σ0 := σ) (withDefault_pos egs) hW (winsL_default.2 ⟨?_, ?_⟩)
  · intro t h hc e' he
    obtain ⟨x', hx, hne⟩ := h1 t h e' hc he
    exact ⟨x', hx, by simpa using hne⟩
  · intro π hπ henv i
    refine h2 π hπ ?_ _ (List.get_mem _ _)
    intro Q hQ
    obtain ⟨j, rfl⟩ := List.mem_iff_get.1 hQ
    exact henv j

/-- C01 and C02 together: membership is exactly winnability. -/
theorem winning_set_exact (G : Game E S) (egs sgs : List (Finset (E × S))) (W : Finset (E × S))
    (hW : computeWinningSet G egs sgs = some W) (s : E × S) :
    s ∈ W ↔ ∃ σ, WinsL G egs sgs σ s := by
  refine ⟨winning_set_sound G egs sgs W hW s, ?_⟩
  rintro ⟨σ, hσ⟩
  exact mem_of_wins (σ0 := σ) (withDefault_pos egs) hW (winsL_default.2 hσ)

/-- The fixpoint is defined exactly when there is at least one system goal. -/
theorem winning_set_defined (G : Game E S) (egs sgs : List (Finset (E × S))) :
    (∃ W, computeWinningSet G egs sgs = some W) ↔ sgs ≠ [] := by
  unfold computeWinningSet winningSet
  constructor
  · rintro ⟨W, hW⟩ rfl
    simp at hW
  · intro h
    rw [dif_pos (List.length_pos_iff.2 h)]
    exact ⟨_, rfl⟩

/-! ## C10 -/

/-- **C10.** Allowing the system more, allowing the environment less, asking for fewer or weaker
system goals, and assuming more or stronger environment goals never removes a winning state. -/
theorem winning_set_mono (G G' : Game E S) (egs egs' sgs sgs' : List (Finset (E × S)))
    (W W' : Finset (E × S))
    (hW : computeWinningSet G egs sgs = some W) (hW' : computeWinningSet G' egs' sgs' = some W')
    (hstr : ∀ s t, G.str s t = true → G'.str s t = true)
    (hetr : ∀ s e, G'.etr s e = true → G.etr s e = true)
    (heg : ∀ Q ∈ egs, ∃ Q' ∈ egs', Q' ⊆ Q) (hsg : ∀ P' ∈ sgs', ∃ P ∈ sgs, P ⊆ P') :
    W ⊆ W' := by
  intro s hs
  rw [winning_set_exact G' egs' sgs' W' hW']
  obtain ⟨σ, hσ⟩ := (winning_set_exact G egs sgs W hW s).1 hs
  have hcons : ∀ l, Consistent G' σ s l → Consistent G σ s l := by
    intro l hl
    induction hl with
    | start => exact Consistent.start
    | step _ h2 h3 ih => exact Consistent.step ih (hetr _ _ h2) h3
  refine ⟨σ, ?_, ?_⟩
  · intro t h hc e' he
    obtain ⟨x', h1, h2⟩ := hσ.1 t h (hcons _ hc) e' (hetr _ _ he)
    exact ⟨x', h1, hstr _ _ h2⟩
  · intro π hπ
    exact live_mono heg hsg (hσ.2 π (fun k => hcons _ (hπ k)))

/-! ## C09 -/

/-- **C09.** The computed set depends on the goals only as sets: reordering or repeating them
changes nothing. -/
theorem winning_set_goal_order (G : Game E S) (egs egs' sgs sgs' : List (Finset (E × S)))
    (he : ∀ Q, Q ∈ egs ↔ Q ∈ egs') (hs : ∀ P, P ∈ sgs ↔ P ∈ sgs') :
    computeWinningSet G egs sgs = computeWinningSet G egs' sgs' := by
  by_cases hemp : sgs = []
  · have hemp' : sgs' = [] := by
      rw [List.eq_nil_iff_forall_not_mem]
      intro P hP
      have := (hs P).2 hP
      rw [hemp] at this
      simp at this
    subst hemp hemp'
    simp [computeWinningSet, winningSet]
  · have hemp' : sgs' ≠ [] := by
      rintro rfl
      apply hemp
      rw [List.eq_nil_iff_forall_not_mem]
      intro P hP
      have := (hs P).1 hP
      simp at this
    obtain ⟨W, hW⟩ := (winning_set_defined G egs sgs).2 hemp
    obtain ⟨W', hW'⟩ := (winning_set_defined G egs' sgs').2 hemp'
    rw [hW, hW']
    congr 1
    apply Finset.Subset.antisymm
    · exact winning_set_mono G G egs egs' sgs sgs' W W' hW hW' (fun _ _ h => h) (fun _ _ h => h)
        (fun Q hQ => ⟨Q, (he Q).1 hQ, subset_rfl⟩) (fun P hP => ⟨P, (hs P).2 hP, subset_rfl⟩)
    · exact winning_set_mono G G egs' egs sgs' sgs W' W hW' hW (fun _ _ h => h) (fun _ _ h => h)
        (fun Q hQ => ⟨Q, (he Q).2 hQ, subset_rfl⟩) (fun P hP => ⟨P, (hs P).1 hP, subset_rfl⟩)

/-- **C09**, second half: at the end of the outer loop all per-goal sets are equal, so it does not
matter which of them is returned. -/
theorem winning_set_all_goals_agree {m n : ℕ} (G : Game E S) (eg : Fin m → Finset (E × S))
    (sg : Fin n → Finset (E × S)) (hm : 0 < m) (W : Finset (E × S))
    (hW : winningSet G eg sg = some W) (i : Fin n) :
    gfpZ G eg sg (fun _ => Finset.univ) i = W := by
  unfold winningSet at hW
  split at hW
  · simp only [Option.some.injEq] at hW
    rw [← hW]
    exact gfpZ_const G eg sg hm _ _
  · simp at hW

/-! ## Examples

A request/grant game: `e` = request, `x` = grant; the system may not grant unless the last state
had a request, the environment is free; environment goal: request, system goal: grant, and a second
system goal: no grant. -/

namespace Ex

/-- Grants only after a request. -/
def G1 : Game Bool Bool := ⟨fun _ _ => true, fun s t => !t.2 || s.1⟩
/-- Same, but the environment must keep a request that was not granted. -/
def G2 : Game Bool Bool := ⟨fun s e => !(s.1 && !s.2) || e, fun s t => !t.2 || s.1⟩
/-- States with a request. -/
def req : Finset (Bool × Bool) := Finset.univ.filter fun s => s.1
/-- States with a grant. -/
def grant : Finset (Bool × Bool) := Finset.univ.filter fun s => s.2
/-- States without a grant. -/
def nogrant : Finset (Bool × Bool) := Finset.univ.filter fun s => !s.2
/-- A game where a state can be lost: once `x` is false it stays false. -/
def G3 : Game Bool Bool := ⟨fun _ _ => true, fun s t => !t.2 || s.2⟩

-- C01/C02: hypotheses are met by non-trivial winning sets (all states, some states, no states).
example : computeWinningSet G1 [req] [grant, nogrant] = some Finset.univ := by decide +kernel
example : computeWinningSet G1 [] [grant, nogrant] = some ∅ := by decide +kernel
example : computeWinningSet G3 [] [grant] = some {(true, true), (false, true)} := by decide +kernel
example : ∃ σ, WinsL G1 [req] [grant, nogrant] σ (false, false) :=
  winning_set_sound G1 _ _ Finset.univ (by decide +kernel) _ (by decide)
example : ¬ ∃ σ, WinsL G3 [] [grant] σ (true, false) := by
  rw [← winning_set_exact G3 [] [grant] {(true, true), (false, true)} (by decide +kernel)]
  decide

-- C09: reordering and repeating.
example : computeWinningSet G3 [req, req] [grant, req] = computeWinningSet G3 [req] [req, grant, req] :=
  winning_set_goal_order _ _ _ _ _ (by simp) (by intro P; simp; tauto)
example : gfpZ G3 [req].get [grant, req].get (fun _ => Finset.univ) ⟨1, by decide⟩ =
    {(true, true), (false, true)} :=
  winning_set_all_goals_agree _ _ _ (by decide) _ (by decide +kernel) _

-- C10: a strict increase.
example : computeWinningSet G1 [] [grant, nogrant] = some ∅ ∧
    computeWinningSet G1 [req] [grant] = some Finset.univ := by decide +kernel
example : (∅ : Finset (Bool × Bool)) ⊆ Finset.univ :=
  winning_set_mono G1 G1 [] [req] [grant, nogrant] [grant] _ _ (by decide +kernel)
    (by decide +kernel) (fun _ _ h => h) (fun _ _ h => h) (by simp)
    (fun P hP => ⟨P, by simp at hP; simp [hP], subset_rfl⟩)

end Ex

end Gr1c
