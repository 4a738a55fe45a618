import Verif.SublevelLemmas
import Verif.WinProps

/-!
# C08: the sublevel sets stratify the winning set
-/

namespace Gr1c

set_option linter.unusedSectionVars false

variable {E S : Type} [Fintype E] [DecidableEq E] [Fintype S] [DecidableEq S]

/-- `s` can be driven into `T` in one step, whatever legal move the environment makes. -/
def Drives (G : Game E S) (s : E × S) (T : Finset (E × S)) : Prop :=
  ∀ e', G.etr s e' = true → ∃ x', G.str s (e', x') = true ∧ (e', x') ∈ T

/-- Specification of one step of the stratification. `prev` and `cur` are consecutive levels, `X`
the sets stored with `cur`: the union of `X` is what `cur` adds, and a state of `X r` is a goal
state in the winning set, or can be driven into `prev`, or violates environment goal `r` and can be
kept in `X r`. -/
def LevelOk {m : ℕ} (G : Game E S) (eg : Fin m → Finset (E × S)) (goal : Finset (E × S))
    (prev : Finset (E × S)) (cur : Level E S m) : Prop :=
  prev ⊂ cur.Y ∧ (∀ s, s ∈ cur.Y ↔ s ∈ prev ∨ ∃ r, s ∈ cur.X r) ∧
  ∀ r, ∀ s ∈ cur.X r, s ∈ goal ∨ Drives G s prev ∨ (s ∉ eg r ∧ Drives G s (cur.X r))

/-- **C08.** The level arrays start with the empty set, each level strictly extends the previous
one by states of the three kinds described by `LevelOk`, and the last level is the winning set. -/
theorem sublevels_stratify (G : Game E S) (egs sgs : List (Finset (E × S))) (W : Finset (E × S))
    (hW : computeWinningSet G egs sgs = some W) :
    ∃ L, computeSublevels G W (withDefaultGoal egs).get sgs.get = some L ∧
      ∀ i, ∃ h : 0 < (L i).length,
        ((L i)[0]).Y = ∅ ∧
        ((L i)[(L i).length - 1]).Y = W ∧
        ∀ (j : ℕ) (hj : j + 1 < (L i).length),
          LevelOk G (withDefaultGoal egs).get (sgs.get i ∩ W) ((L i)[j]).Y ((L i)[j + 1]) := by
  have hn : 0 < sgs.length := by
    refine List.length_pos_iff.2 ?_
    exact (winning_set_defined G egs sgs).1 ⟨W, hW⟩
  have hm : 0 < (withDefaultGoal egs).length := by
    unfold withDefaultGoal
    split
    · simp
    · exact List.length_pos_iff.2 (by assumption)
  refine ⟨_, if_pos hn, fun i => ⟨sublevels_length_pos _ _ _, rfl, ?_, ?_⟩⟩
  · rw [sublevels_Y, sublevels_last]
    exact muY_goal_W hm hn hW i
  · intro j hj
    refine ⟨?_, ?_, ?_⟩
    · rw [sublevels_Y, sublevels_Y]
      exact sublevels_strict _ _ _ _ hj
    · intro s
      rw [sublevels_Y, sublevels_Y, mem_ylev_succ]
      simp only [sublevels_X]
      tauto
    · intro r s hs
      rw [sublevels_X] at hs
      have hx := hs
      unfold xlev at hs
      rw [nuX_eq] at hs
      rw [sublevels_Y, sublevels_X]
      rcases Finset.mem_union.1 hs with h | h
      · rcases Finset.mem_union.1 h with h | h
        · exact Or.inl h
        · exact Or.inr (Or.inl (fun e' he => mem_pre.1 h e' he))
      · obtain ⟨h1, h2⟩ := Finset.mem_inter.1 h
        exact Or.inr (Or.inr ⟨Finset.mem_compl.1 h2, fun e' he => mem_pre.1 h1 e' he⟩)

/-- Membership in the winning set is membership in some level, for every system goal. -/
theorem sublevels_cover (G : Game E S) (egs sgs : List (Finset (E × S))) (W : Finset (E × S))
    (hW : computeWinningSet G egs sgs = some W) (L)
    (hL : computeSublevels G W (withDefaultGoal egs).get sgs.get = some L) (i) (s : E × S) :
    s ∈ W ↔ ∃ (j : ℕ) (h : j < (L i).length), s ∈ ((L i)[j]).Y := by
  obtain ⟨L', hL', hall⟩ := sublevels_stratify G egs sgs W hW
  rw [hL] at hL'
  obtain rfl : L = L' := by simpa using hL'
  obtain ⟨hpos, -, hlast, hstep⟩ := hall i
  constructor
  · intro hs
    exact ⟨(L i).length - 1, by omega, hlast ▸ hs⟩
  · rintro ⟨j, hj, hs⟩
    have key : ∀ d, ∀ (h : j + d < (L i).length), s ∈ ((L i)[j + d]).Y := by
      intro d
      induction d with
      | zero => intro _; exact hs
      | succ d ih => intro h; exact (hstep (j + d) h).1.subset (ih (by omega))
    have := key ((L i).length - 1 - j) (by omega)
    have he : j + ((L i).length - 1 - j) = (L i).length - 1 := by omega
    simp only [he] at this
    exact hlast ▸ this

namespace Ex

/-- A chain: the grant can be reached only through the state with a request and no grant. -/
def G4 : Game Bool Bool := ⟨fun s e => !s.1 || e, fun s t => !t.2 || s.1⟩

example : computeWinningSet G4 [req] [grant] = some Finset.univ := by decide +kernel
-- three levels: 0, goal and blocking states, everything
example : ((sublevels G4 [req].get (grant ∩ Finset.univ)).map fun l => l.Y.card) = [0, 2, 4] := by
  decide +kernel
end Ex

end Gr1c
