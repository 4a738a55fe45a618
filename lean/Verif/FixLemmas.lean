import Verif.Game

/-!
# Helper lemmas: what the solver loops compute

Characterises each loop of `Verif.Game` as an extremal fixpoint.
-/

namespace Gr1c

variable {E S : Type} [Fintype E] [DecidableEq E] [Fintype S] [DecidableEq S]
variable {m n : ℕ}

theorem mem_pre {G : Game E S} {C : Finset (E × S)} {s : E × S} :
    s ∈ pre G C ↔ ∀ e', G.etr s e' = true → ∃ x', G.str s (e', x') = true ∧ (e', x') ∈ C := by
  simp [pre]

theorem pre_mono {G : Game E S} {A B : Finset (E × S)} (h : A ⊆ B) : pre G A ⊆ pre G B := by
  intro s hs
  rw [mem_pre] at *
  intro e' he
  obtain ⟨x', h1, h2⟩ := hs e' he
  exact ⟨x', h1, h h2⟩

theorem gfpX_post (G : Game E S) (base ne X : Finset (E × S)) :
    gfpX G base ne X ⊆ base ∪ (pre G (gfpX G base ne X) ∩ ne) := by
  fun_induction gfpX G base ne X with
  | case1 X X' =>
    rename_i h
    rw [h]
    intro a ha
    rw [← h] at ha
    exact (Finset.mem_inter.1 ha).1
  | case2 X X' h => rename_i ih; exact ih

theorem gfpX_subset (G : Game E S) (base ne X : Finset (E × S)) : gfpX G base ne X ⊆ X := by
  fun_induction gfpX G base ne X with
  | case1 X X' => rename_i h; exact h.subset
  | case2 X X' h => rename_i ih; exact ih.trans Finset.inter_subset_right

theorem gfpX_greatest {G : Game E S} {base ne X T : Finset (E × S)}
    (hT : T ⊆ base ∪ (pre G T ∩ ne)) (hX : T ⊆ X) : T ⊆ gfpX G base ne X := by
  fun_induction gfpX G base ne X with
  | case1 X X' h => exact h ▸ hX
  | case2 X X' h ih =>
    apply ih
    apply Finset.subset_inter _ hX
    refine hT.trans (Finset.union_subset_union_right ?_)
    exact Finset.inter_subset_inter_right (pre_mono hX)

/-- Greatest fixpoint computed by the innermost loop, started from `True`. -/
def nuX (G : Game E S) (base ne : Finset (E × S)) : Finset (E × S) := gfpX G base ne Finset.univ

theorem nuX_greatest {G : Game E S} {base ne T : Finset (E × S)}
    (hT : T ⊆ base ∪ (pre G T ∩ ne)) : T ⊆ nuX G base ne :=
  gfpX_greatest hT (Finset.subset_univ _)

theorem nuX_post (G : Game E S) (base ne : Finset (E × S)) :
    nuX G base ne ⊆ base ∪ (pre G (nuX G base ne) ∩ ne) := gfpX_post _ _ _ _

theorem nuX_eq (G : Game E S) (base ne : Finset (E × S)) :
    nuX G base ne = base ∪ (pre G (nuX G base ne) ∩ ne) := by
  apply Finset.Subset.antisymm (nuX_post _ _ _)
  apply nuX_greatest
  apply Finset.union_subset_union_right
  exact Finset.inter_subset_inter_right (pre_mono (nuX_post _ _ _))

theorem nuX_mono {G : Game E S} {b b' ne ne' : Finset (E × S)} (hb : b ⊆ b') (hn : ne ⊆ ne') :
    nuX G b ne ⊆ nuX G b' ne' := by
  apply nuX_greatest
  refine (nuX_post G b ne).trans ?_
  exact Finset.union_subset_union hb (Finset.inter_subset_inter_left hn)

theorem base_subset_nuX (G : Game E S) (base ne : Finset (E × S)) : base ⊆ nuX G base ne := by
  rw [nuX_eq]; exact Finset.subset_union_left

theorem mem_foldl_union {α ι : Type} [DecidableEq α] (l : List ι) (f : ι → Finset α)
    (acc : Finset α) (a : α) :
    a ∈ l.foldl (fun acc j => acc ∪ f j) acc ↔ a ∈ acc ∨ ∃ j ∈ l, a ∈ f j := by
  induction l generalizing acc with
  | nil => simp
  | cons x l ih =>
    rw [List.foldl_cons, ih]
    simp only [Finset.mem_union, List.mem_cons, exists_eq_or_imp]
    tauto

theorem mem_stepY {G : Game E S} {eg : Fin m → Finset (E × S)} {goal Y : Finset (E × S)}
    {a : E × S} :
    a ∈ stepY G eg goal Y ↔ (∃ j, a ∈ nuX G (goal ∪ pre G Y) (eg j)ᶜ) ∨ a ∈ Y := by
  unfold stepY nuX
  rw [Finset.mem_union,
    mem_foldl_union (List.finRange m) (fun j => gfpX G (goal ∪ pre G Y) (eg j)ᶜ Finset.univ)]
  simp

theorem stepY_mono {G : Game E S} {eg : Fin m → Finset (E × S)} {goal goal' Y Y' : Finset (E × S)}
    (hg : goal ⊆ goal') (hY : Y ⊆ Y') : stepY G eg goal Y ⊆ stepY G eg goal' Y' := by
  intro a ha
  rw [mem_stepY] at *
  rcases ha with ⟨j, hj⟩ | h
  · exact Or.inl ⟨j, nuX_mono (Finset.union_subset_union hg (pre_mono hY)) subset_rfl hj⟩
  · exact Or.inr (hY h)

theorem lfpY_fixed (G : Game E S) (eg : Fin m → Finset (E × S)) (goal Y : Finset (E × S)) :
    stepY G eg goal (lfpY G eg goal Y) = lfpY G eg goal Y := by
  fun_induction lfpY G eg goal Y with
  | case1 Y Y' h =>
    have : stepY G eg goal Y = Y := h
    show stepY G eg goal (stepY G eg goal Y) = stepY G eg goal Y
    rw [this, this]
  | case2 Y Y' h ih => exact ih

theorem subset_lfpY (G : Game E S) (eg : Fin m → Finset (E × S)) (goal Y : Finset (E × S)) :
    Y ⊆ lfpY G eg goal Y := by
  fun_induction lfpY G eg goal Y with
  | case1 Y Y' => rename_i h; exact Finset.subset_union_right
  | case2 Y Y' h => rename_i ih; exact Finset.subset_union_right.trans ih

theorem lfpY_least {G : Game E S} {eg : Fin m → Finset (E × S)} {goal Y T : Finset (E × S)}
    (hT : stepY G eg goal T ⊆ T) (hY : Y ⊆ T) : lfpY G eg goal Y ⊆ T := by
  fun_induction lfpY G eg goal Y with
  | case1 Y Y' h => exact (stepY_mono subset_rfl hY).trans hT
  | case2 Y Y' h ih => exact ih ((stepY_mono subset_rfl hY).trans hT)

/-- Least fixpoint computed by the middle loop, started from `False`. -/
def muY (G : Game E S) (eg : Fin m → Finset (E × S)) (goal : Finset (E × S)) : Finset (E × S) :=
  lfpY G eg goal ∅

theorem muY_fixed (G : Game E S) (eg : Fin m → Finset (E × S)) (goal : Finset (E × S)) :
    stepY G eg goal (muY G eg goal) = muY G eg goal := lfpY_fixed _ _ _ _

theorem muY_least {G : Game E S} {eg : Fin m → Finset (E × S)} {goal T : Finset (E × S)}
    (hT : ∀ j, nuX G (goal ∪ pre G T) (eg j)ᶜ ⊆ T) : muY G eg goal ⊆ T := by
  apply lfpY_least _ (Finset.empty_subset _)
  intro a ha
  rw [mem_stepY] at ha
  rcases ha with ⟨j, hj⟩ | h
  · exact hT j hj
  · exact h

theorem muY_closed (G : Game E S) (eg : Fin m → Finset (E × S)) (goal : Finset (E × S)) (j : Fin m) :
    nuX G (goal ∪ pre G (muY G eg goal)) (eg j)ᶜ ⊆ muY G eg goal := by
  intro a ha
  rw [← muY_fixed, mem_stepY]
  exact Or.inl ⟨j, ha⟩

theorem muY_mono {G : Game E S} {eg : Fin m → Finset (E × S)} {goal goal' : Finset (E × S)}
    (hg : goal ⊆ goal') : muY G eg goal ⊆ muY G eg goal' := by
  apply muY_least
  intro j
  exact (nuX_mono (Finset.union_subset_union_left hg) subset_rfl).trans (muY_closed G eg goal' j)

theorem goal_subset_muY (G : Game E S) (eg : Fin m → Finset (E × S)) (goal : Finset (E × S))
    (hm : 0 < m) : goal ⊆ muY G eg goal :=
  (Finset.subset_union_left.trans (base_subset_nuX _ _ _)).trans (muY_closed G eg goal ⟨0, hm⟩)

theorem pre_muY_subset (G : Game E S) (eg : Fin m → Finset (E × S)) (goal : Finset (E × S))
    (hm : 0 < m) : pre G (muY G eg goal) ⊆ muY G eg goal :=
  (Finset.subset_union_right.trans (base_subset_nuX _ _ _)).trans (muY_closed G eg goal ⟨0, hm⟩)

theorem gfpZ_post (G : Game E S) (eg : Fin m → Finset (E × S)) (sg Z : Fin n → Finset (E × S))
    (i : Fin n) :
    gfpZ G eg sg Z i ⊆ muY G eg (sg i ∩ pre G (gfpZ G eg sg Z (nextIx i))) := by
  fun_induction gfpZ G eg sg Z with
  | case1 Z Z' =>
    rename_i h
    rw [h]
    intro a ha
    rw [← h] at ha
    exact (Finset.mem_inter.1 ha).1
  | case2 Z Z' h => rename_i ih; exact ih

theorem gfpZ_greatest {G : Game E S} {eg : Fin m → Finset (E × S)} {sg Z T : Fin n → Finset (E × S)}
    (hT : ∀ i, T i ⊆ muY G eg (sg i ∩ pre G (T (nextIx i)))) (hZ : ∀ i, T i ⊆ Z i) (i : Fin n) :
    T i ⊆ gfpZ G eg sg Z i := by
  fun_induction gfpZ G eg sg Z with
  | case1 Z Z' h => exact h ▸ hZ i
  | case2 Z Z' h ih =>
    apply ih
    intro i
    apply Finset.subset_inter _ (hZ i)
    refine (hT i).trans (muY_mono ?_)
    exact Finset.inter_subset_inter_left (pre_mono (hZ _))

theorem nextIx_val {i : Fin n} : (nextIx i).val = if i.val + 1 = n then 0 else i.val + 1 := by
  unfold nextIx
  have := i.isLt
  split_ifs <;> simp_all <;> omega

/-- `k` applications of `nextIx`. -/
theorem nextIx_iter_val (i : Fin n) (k : ℕ) : ((nextIx^[k]) i).val = (i.val + k) % n := by
  induction k with
  | zero => simp [Nat.mod_eq_of_lt i.isLt]
  | succ k ih =>
    rw [Function.iterate_succ_apply', nextIx_val, ih]
    have hn : 0 < n := i.pos
    have h1 : (i.val + k) % n < n := Nat.mod_lt _ hn
    rw [show i.val + (k + 1) = (i.val + k) + 1 by omega, Nat.add_mod (i.val + k) 1 n]
    split_ifs with h
    · rcases Nat.lt_or_ge 1 n with h2 | h2
      · rw [Nat.mod_eq_of_lt h2, h, Nat.mod_self]
      · have : n = 1 := by omega
        subst this; simp [Nat.mod_one]
    · have h2 : 1 < n := by omega
      rw [Nat.mod_eq_of_lt h2, Nat.mod_eq_of_lt (a := (i.val + k) % n + 1) (by omega)]

theorem nextIx_reach (i k : Fin n) : ∃ d, (nextIx^[d]) k = i := by
  refine ⟨n - k.val + i.val, ?_⟩
  apply Fin.ext
  rw [nextIx_iter_val]
  have := k.isLt
  have := i.isLt
  rw [show k.val + (n - k.val + i.val) = i.val + n by omega, Nat.add_mod_right,
    Nat.mod_eq_of_lt i.isLt]

/-- All per-goal sets of the outer fixpoint coincide. -/
theorem gfpZ_const (G : Game E S) (eg : Fin m → Finset (E × S)) (sg : Fin n → Finset (E × S))
    (hm : 0 < m) (i k : Fin n) :
    gfpZ G eg sg (fun _ => Finset.univ) i = gfpZ G eg sg (fun _ => Finset.univ) k := by
  set Z := gfpZ G eg sg (fun _ => Finset.univ) with hZ
  set U : Finset (E × S) := Finset.univ.biUnion Z with hU
  have hZU : ∀ i, Z i ⊆ U := fun i => Finset.subset_biUnion_of_mem Z (Finset.mem_univ i)
  set M : Fin n → Finset (E × S) := fun i => muY G eg (sg i ∩ pre G U) with hM
  have hown : ∀ i, Z i ⊆ M i := by
    intro i
    refine (gfpZ_post G eg sg _ i).trans (muY_mono ?_)
    exact Finset.inter_subset_inter_left (pre_mono (hZU _))
  have hstep : ∀ i k, Z (nextIx k) ⊆ M i → Z k ⊆ M i := by
    intro i k h
    refine (gfpZ_post G eg sg _ k).trans ?_
    have hpre : pre G (M i) ⊆ M i := pre_muY_subset G eg _ hm
    apply muY_least
    intro j
    refine (nuX_mono ?_ subset_rfl).trans (muY_closed G eg _ j)
    refine Finset.union_subset ?_ Finset.subset_union_right
    refine Finset.inter_subset_right.trans ?_
    exact (pre_mono h).trans Finset.subset_union_right
  have hall : ∀ i d k, (nextIx^[d]) k = i → Z k ⊆ M i := by
    intro i d
    induction d with
    | zero => intro k hk; simp at hk; subst hk; exact hown _
    | succ d ih =>
      intro k hk
      rw [Function.iterate_succ_apply] at hk
      exact hstep i k (ih _ hk)
  have hUM : ∀ i, U ⊆ M i := by
    intro i
    apply Finset.biUnion_subset.2
    intro k _
    obtain ⟨d, hd⟩ := nextIx_reach i k
    exact hall i d k hd
  have hUZ : ∀ i, U ⊆ Z i := fun i =>
    gfpZ_greatest (T := fun _ => U) hUM (fun _ => Finset.subset_univ _) i
  have : ∀ i, Z i = U := fun i => Finset.Subset.antisymm (hZU i) (hUZ i)
  rw [this i, this k]

/-- The winning set in terms of the middle fixpoints: `W` is the greatest set with
`W ⊆ muY (g_i ∩ EX W)` for every goal. -/
theorem winningSet_post {G : Game E S} {eg : Fin m → Finset (E × S)} {sg : Fin n → Finset (E × S)}
    {W : Finset (E × S)} (hm : 0 < m) (hW : winningSet G eg sg = some W) (i : Fin n) :
    W ⊆ muY G eg (sg i ∩ pre G W) := by
  unfold winningSet at hW
  split_ifs at hW with hn
  simp only [Option.some.injEq] at hW
  have h := gfpZ_post G eg sg (fun _ => Finset.univ) i
  rw [gfpZ_const G eg sg hm i ⟨0, hn⟩, gfpZ_const G eg sg hm (nextIx i) ⟨0, hn⟩, hW] at h
  exact h

theorem winningSet_greatest {G : Game E S} {eg : Fin m → Finset (E × S)}
    {sg : Fin n → Finset (E × S)} {W T : Finset (E × S)}
    (hW : winningSet G eg sg = some W) (hT : ∀ i, T ⊆ muY G eg (sg i ∩ pre G T)) : T ⊆ W := by
  unfold winningSet at hW
  split_ifs at hW with hn
  simp only [Option.some.injEq] at hW
  rw [← hW]
  exact gfpZ_greatest (T := fun _ => T) hT (fun _ => Finset.subset_univ _) _

theorem winningSet_eq {G : Game E S} {eg : Fin m → Finset (E × S)} {sg : Fin n → Finset (E × S)}
    {W : Finset (E × S)} (hm : 0 < m) (hW : winningSet G eg sg = some W) (i : Fin n) :
    W = muY G eg (sg i ∩ pre G W) := by
  apply Finset.Subset.antisymm (winningSet_post hm hW i)
  -- the right-hand side, united over all goals, is again a post-fixpoint
  have hsub : ∀ k, W ⊆ muY G eg (sg k ∩ pre G W) := winningSet_post hm hW
  set U : Finset (E × S) := Finset.univ.biUnion fun k => muY G eg (sg k ∩ pre G W)
  have hWU : W ⊆ U := (hsub i).trans (Finset.subset_biUnion_of_mem
    (fun k => muY G eg (sg k ∩ pre G W)) (Finset.mem_univ i))
  have hU : ∀ k, U ⊆ muY G eg (sg k ∩ pre G U) := by
    intro k
    apply Finset.biUnion_subset.2
    intro l _
    apply muY_least
    intro j
    refine (nuX_mono ?_ subset_rfl).trans (muY_closed G eg _ j)
    refine Finset.union_subset ?_ Finset.subset_union_right
    refine Finset.inter_subset_right.trans ((pre_mono ?_).trans Finset.subset_union_right)
    exact (hsub k).trans (muY_mono (Finset.inter_subset_inter_left (pre_mono hWU)))
  have hUW : U ⊆ W := winningSet_greatest hW hU
  exact (Finset.subset_biUnion_of_mem (fun k => muY G eg (sg k ∩ pre G W))
    (Finset.mem_univ i)).trans hUW

theorem pre_winningSet {G : Game E S} {eg : Fin m → Finset (E × S)} {sg : Fin n → Finset (E × S)}
    {W : Finset (E × S)} (hm : 0 < m) (hn : 0 < n) (hW : winningSet G eg sg = some W) :
    pre G W = W := by
  apply Finset.Subset.antisymm
  · have h := winningSet_eq hm hW ⟨0, hn⟩
    intro a ha
    rw [h] at ha ⊢
    exact pre_muY_subset G eg _ hm ha
  · have h := winningSet_post hm hW ⟨0, hn⟩
    refine h.trans ?_
    apply muY_least
    intro j a ha
    rw [nuX_eq] at ha
    -- every way of being in the set gives a move into `W`
    have hpreW : pre G W ⊆ W := by
      intro a ha
      have h := winningSet_eq hm hW ⟨0, hn⟩
      rw [h] at ha ⊢
      exact pre_muY_subset G eg _ hm ha
    have hnu : nuX G (sg ⟨0, hn⟩ ∩ pre G W ∪ pre G (pre G W)) (eg j)ᶜ ⊆ W := by
      have h1 := muY_closed G eg (sg ⟨0, hn⟩ ∩ pre G W) j
      rw [← winningSet_eq hm hW ⟨0, hn⟩] at h1
      refine (nuX_mono ?_ subset_rfl).trans h1
      exact Finset.union_subset_union_right (pre_mono hpreW)
    rcases Finset.mem_union.1 ha with h1 | h1
    · rcases Finset.mem_union.1 h1 with h2 | h2
      · exact (Finset.mem_inter.1 h2).2
      · exact pre_mono hpreW h2
    · exact pre_mono hnu (Finset.mem_inter.1 h1).1

end Gr1c
