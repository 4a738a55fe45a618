import Verif.AddGoalModes
import Verif.RmGoalProps
import Verif.SynthAnnotProps
import Verif.MetricProps

/-!
# C63: adding a system goal to a strategy (`add_metric_sysgoal`)
-/

namespace Gr1c

set_option linter.unusedSectionVars false

variable {E S : Type} [Fintype E] [DecidableEq E] [Fintype S] [DecidableEq S]
variable {m n : ℕ} {G : Game E S} {eg : Fin m → Finset (E × S)} {sg : Fin n → Finset (E × S)}

/-! ## Edges of the result -/

section Edges

variable {new X1 X2 E2 : Finset (E × S)} {i0 : Fin n} {o1 o2 : Oracle E S} {fuel : ℕ} {st R B1 B2 : Aut ℤ (E × S)}
  {φ : ℕ → ℕ} {src : ℕ → ANode ℤ (E × S)} {gi0 gi1 : List ℕ} {i1 : ℤ}

private theorem succ_st (hsh : AddShape n i0.val i1 st B1 B2 R gi0 gi1 φ src)
    (hcl : ∀ x ∈ st, ∀ j ∈ x.trans, ∃ y ∈ st, y.id = j) {b c : ANode ℤ (E × S)} (hb : b ∈ st)
    (hc : c ∈ st ++ labelled n B1 ++ B2) (hbc : c.id ∈ b.trans) : c ∈ st := by
  obtain ⟨y, y1, y2⟩ := hcl b hb _ hbc
  exact eq_of_id_eq hsh.uids (List.mem_append_left _ (List.mem_append_left _ y1)) hc y2 ▸ y1

private theorem succ_1 (hsh : AddShape n i0.val i1 st B1 B2 R gi0 gi1 φ src)
    (hcl : ∀ x ∈ B1, ∀ j ∈ x.trans, ∃ y ∈ B1, y.id = j) {b c : ANode ℤ (E × S)} (hb : b ∈ labelled n B1)
    (hc : c ∈ st ++ labelled n B1 ++ B2) (hbc : c.id ∈ b.trans) : c ∈ labelled n B1 := by
  obtain ⟨z, z1, rfl⟩ := labelled_mem hb
  obtain ⟨y, y1, y2⟩ := hcl z z1 _ hbc
  have hy : ({ y with mode := (n : ℤ) + 1 } : ANode ℤ (E × S)) ∈ labelled n B1 := List.mem_map_of_mem y1
  exact eq_of_id_eq hsh.uids (List.mem_append_left _ (List.mem_append_right _ hy)) hc y2 ▸ hy

private theorem succ_2 (hsh : AddShape n i0.val i1 st B1 B2 R gi0 gi1 φ src)
    (hcl : ∀ x ∈ B2, ∀ j ∈ x.trans, ∃ y ∈ B2, y.id = j) {b c : ANode ℤ (E × S)} (hb : b ∈ B2)
    (hc : c ∈ st ++ labelled n B1 ++ B2) (hbc : c.id ∈ b.trans) : c ∈ B2 := by
  obtain ⟨y, y1, y2⟩ := hcl b hb _ hbc
  exact eq_of_id_eq hsh.uids (List.mem_append_right _ y1) hc y2 ▸ y1

private theorem disj_st1 (hsh : AddShape n i0.val i1 st B1 B2 R gi0 gi1 φ src) {b : ANode ℤ (E × S)} (hb : b ∈ st)
    (h1 : b ∈ labelled n B1) : False := by
  have := hsh.uids
  unfold Aut.ids at this
  rw [List.map_append, List.map_append, List.nodup_append, List.nodup_append] at this
  exact this.1.2.2 _ (List.mem_map_of_mem hb) _ (List.mem_map_of_mem h1) rfl

private theorem disj_st2 (hsh : AddShape n i0.val i1 st B1 B2 R gi0 gi1 φ src) {b : ANode ℤ (E × S)} (hb : b ∈ st)
    (h1 : b ∈ B2) : False := by
  have := hsh.uids
  unfold Aut.ids at this
  rw [List.map_append, List.map_append, List.nodup_append] at this
  exact this.2.2 _ (List.mem_append_left _ (List.mem_map_of_mem hb)) _ (List.mem_map_of_mem h1) rfl

private theorem disj_12 (hsh : AddShape n i0.val i1 st B1 B2 R gi0 gi1 φ src) {b : ANode ℤ (E × S)} (hb : b ∈ labelled n B1)
    (h1 : b ∈ B2) : False := by
  have := hsh.uids
  unfold Aut.ids at this
  rw [List.map_append, List.map_append, List.nodup_append] at this
  exact this.2.2 _ (List.mem_append_right _ (List.mem_map_of_mem hb)) _ (List.mem_map_of_mem h1) rfl

/-- Every edge is legal. -/
private theorem legal_of_shape (hsh : AddShape n i0.val i1 st B1 B2 R gi0 gi1 φ src)
    (hcl : ∀ x ∈ st, ∀ j ∈ x.trans, ∃ y ∈ st, y.id = j) (hlg : LegalEdges G st)
    (ho1 : o1.Valid G) (ho2 : o2.Valid G)
    (h1 : reachGame G X1 new Finset.univ eg o1 fuel = .ok B1) (h1n : B1 ≠ [])
    (h2 : reachGame G E2 X2 Finset.univ eg o2 fuel = .ok B2) (h2n : B2 ≠ []) : LegalEdges G R := by
  obtain ⟨-, -, -, b1⟩ := reach_answers (Finset.subset_univ _) ho1 h1 h1n
  obtain ⟨-, -, -, b2⟩ := reach_answers (Finset.subset_univ _) ho2 h2 h2n
  intro y hy y' hy' he
  obtain ⟨c, c1, c2, -, c4⟩ := hsh.edge y hy y' hy' he
  rw [hsh.state y hy, ← c4]
  rcases List.mem_append.1 (hsh.mem y hy) with hm | hm
  · rcases List.mem_append.1 hm with hm | hm
    · exact hlg _ hm c (succ_st hsh hcl hm c1 c2) c2
    · have hc := succ_1 hsh (fun x hx => (b1 x hx).2.2.1) hm c1 c2
      obtain ⟨z, z1, z2⟩ := labelled_mem hm
      obtain ⟨w, w1, w2⟩ := labelled_mem hc
      rw [z2] at c2 ⊢
      rw [w2] at c2 ⊢
      exact (b1 z z1).2.2.2.2.1 w w1 c2
  · exact (b2 _ hm).2.2.2.2.1 c (succ_2 hsh (fun x hx => (b2 x hx).2.2.1) hm c1 c2) c2

end Edges

/-- **C63, safety.** Whatever strategy, new goal and place are given, a result of `add_metric_sysgoal`
has distinct addresses, edges that lead to nodes of the result, modes that are indices of the enlarged
list of goals, and only edges that are legal for environment and system. -/
theorem add_sysgoal_safe {new : Finset (E × S)} {o1 o2 : Oracle E S} {fuel : ℕ} {st R : Aut ℤ (E × S)}
    (hids : (st.map (·.id)).Nodup) (hcl : ∀ x ∈ st, ∀ j ∈ x.trans, ∃ y ∈ st, y.id = j)
    (hmo : ∀ x ∈ st, ∃ i : Fin n, x.mode = (i.val : ℤ)) (hlg : LegalEdges G st)
    (ho1 : o1.Valid G) (ho2 : o2.Valid G)
    (hf1 : ∀ c l, ∀ x ∈ st, o1.alloc c l ≠ x.id) (hf2 : ∀ c l, ∀ x ∈ st, o2.alloc c l ≠ x.id)
    (hf12 : ∀ c l c' l', o1.alloc c l ≠ o2.alloc c' l') (i0 : Fin n)
    (h : addSysgoal G eg n new i0.val o1 o2 fuel st = .ok R) :
    (R.map (·.id)).Nodup ∧ (∀ y ∈ R, ∀ j ∈ y.trans, ∃ y' ∈ R, y'.id = j) ∧
      (∀ y ∈ R, ∃ i : Fin (n + 1), y.mode = (i.val : ℤ)) ∧ LegalEdges G R := by
  obtain ⟨B1, B2, X1, X2, E2, φ, src, b1n, b2n, hr1, hr2, -, -, -, hsh⟩ := add_shape hids hcl ho1 ho2
    (fun c l hc => by obtain ⟨x, x1, x2⟩ := mem_ids.1 hc; exact hf1 c l x x1 x2.symm)
    (fun c l hc => by obtain ⟨x, x1, x2⟩ := mem_ids.1 hc; exact hf2 c l x x1 x2.symm) hf12 h
  refine ⟨hsh.ids, hsh.closed, ?_, legal_of_shape hsh hcl hlg ho1 ho2 hr1 b1n hr2 b2n⟩
  obtain ⟨-, -, -, b2⟩ := reach_answers (Finset.subset_univ _) ho2 hr2 b2n
  have hi := i0.isLt
  intro y hy
  rw [hsh.mode y hy]
  rcases List.mem_append.1 (hsh.mem y hy) with hm | hm
  · rcases List.mem_append.1 hm with hm | hm
    · obtain ⟨i, hi'⟩ := hmo _ hm
      have := i.isLt
      rw [hi', newMode_old i0 (by omega) (by omega)]
      split
      · exact ⟨⟨i.val, by omega⟩, rfl⟩
      · exact ⟨⟨i.val + 1, by omega⟩, by push_cast; rfl⟩
    · obtain ⟨z, z1, z2⟩ := labelled_mem hm
      rw [z2, newMode_first]
      exact ⟨⟨i0.val + 1, by omega⟩, by push_cast; rfl⟩
  · rw [(b2 _ hm).1, newMode_second]
    split
    · exact ⟨⟨0, by omega⟩, rfl⟩
    · exact ⟨⟨i0.val + 2, by omega⟩, by push_cast; rfl⟩

private theorem exit_step {P : ℕ → Prop} {k : ℕ} (h0 : P k) (h : ¬ ∀ j, P (k + j)) : ∃ k', k ≤ k' ∧ P k' ∧ ¬ P (k' + 1) := by
  by_contra hcon
  push Not at hcon
  apply h
  intro j
  induction j with
  | zero => exact h0
  | succ j ih => exact hcon (k + j) (by omega) ih

/-- A run of the given strategy that seeks goal `j` for ever never sees it. -/
private theorem must_cross {st : Aut ℤ (E × S)} (hS : SeeksInOrder G eg sg st) (hw : Waits sg st) (i0 : Fin n)
    (ρ : ℕ → ANode ℤ (E × S)) (hρ : IsRun st ρ) (henv : ∀ r, InfOften (fun k => (ρ k).state) (eg r)) :
    ∃ k, crosses i0.val (ρ k).mode (ρ (k + 1)).mode = true := by
  by_contra hcon
  push Not at hcon
  have hmo := fun k => hS.modes (ρ k) (hρ k).1
  choose μ hμ using hmo
  have hi0 := i0.isLt
  set f : ℕ → ℕ := fun k => if (μ k).val ≤ i0.val then i0.val - (μ k).val else i0.val + n - (μ k).val with hf
  have hstep : ∀ k, f (k + 1) ≤ f k := by
    intro k
    have h1 : ¬ crosses i0.val (ρ k).mode (ρ (k + 1)).mode = true := hcon k
    rw [hμ, hμ, crosses_iff] at h1
    have a1 := (μ k).isLt
    have a2 := (μ (k + 1)).isLt
    simp only [hf]
    split <;> split <;> omega
  obtain ⟨M, -, hM⟩ := eventually_const f 0 (fun k _ => hstep k)
  have hconst : ∀ k, M ≤ k → μ (k + 1) = μ k := by
    intro k hk
    have h1 := hM k hk
    have a1 := (μ k).isLt
    have a2 := (μ (k + 1)).isLt
    apply Fin.ext
    simp only [hf] at h1
    split at h1 <;> split at h1 <;> omega
  have hall : ∀ j, μ (M + j) = μ M := by
    intro j
    induction j with
    | zero => rfl
    | succ j ih => rw [← ih]; exact hconst (M + j) (by omega)
  obtain ⟨k, hk, hk'⟩ := hS.live ρ hρ henv (μ M) M
  obtain ⟨j, rfl⟩ := Nat.exists_eq_add_of_le hk
  exact hw (ρ (M + j)) (hρ _).1 (μ M) (by rw [hμ, hall]) hk'

private theorem pass_edge {st : Aut ℤ (E × S)} (hS : SeeksInOrder G eg sg st) : ∀ x ∈ st, ∀ y ∈ st, y.id ∈ x.trans →
    ∀ l : Fin n, crosses l.val x.mode y.mode = true → y.state ∈ sg l := by
  intro x hx y hy he l hl
  obtain ⟨i, j, e1, e2, e3⟩ := hS.order x hx y hy he
  rw [e1, e2] at hl
  exact passes_iff e3 l hl

/-- The nodes that pass `i0` seek the next goal. -/
private theorem mode_gi0 {st : Aut ℤ (E × S)} (hS : SeeksInOrder G eg sg st) {i0 : Fin n}
    (hap : Apart (sg i0) (sg (nextIx i0)) st) : ∀ c ∈ st, c.id ∈ crossNodes i0.val st → c.mode = (nextIx i0).val := by
  have hpass := pass_edge hS
  have hmo := hS.modes
  have hi0 := i0.isLt
  have hi1 := (nextIx i0).isLt
  have hi1v := nextIx_val (i := i0)
  intro c hc hg
  obtain ⟨w, w1, w2, w3⟩ := (mem_crossNodes hS.ids hc).1 hg
  by_contra hne
  obtain ⟨i, e1⟩ := hmo w w1
  obtain ⟨j, e2⟩ := hmo c hc
  have l1 := i.isLt
  have l2 := j.isLt
  refine hap c hc (hpass w w1 c hc w2 i0 w3) (hpass w w1 c hc w2 (nextIx i0) ?_)
  rw [e1, e2, crosses_iff] at w3 ⊢
  rw [e2] at hne
  split at hi1v <;> omega

private theorem mode_gi1 {st : Aut ℤ (E × S)} (hS : SeeksInOrder G eg sg st) {i0 : Fin n}
    (hap : Apart (sg i0) (sg (nextIx i0)) st) : ∀ c ∈ st, c.id ∈ crossNodes ((nextIx i0).val : ℤ) st →
    c.mode ≠ (nextIx i0).val ∧ c.id ∉ crossNodes i0.val st := by
  intro c hc hg
  obtain ⟨w, w1, w2, w3⟩ := (mem_crossNodes hS.ids hc).1 hg
  have hne : c.mode ≠ (nextIx i0).val := by
    rw [crosses_iff] at w3
    omega
  exact ⟨hne, fun h0 => hne (mode_gi0 hS hap c hc h0)⟩

/-- **C63, liveness.** The given strategy seeks the goals in order, no node seeks a goal its state
satisfies, and no state of it satisfies both the goal after which the new one is inserted and the next
one. Then every infinite run of the result is live for the enlarged list of goals: if each environment
goal holds infinitely often, so does each old system goal and the new one. Allocations do not reuse
addresses in use. -/
theorem add_sysgoal_runs {new : Finset (E × S)} {o1 o2 : Oracle E S} {fuel : ℕ} {st R : Aut ℤ (E × S)}
    (hS : SeeksInOrder G eg sg st) (hw : Waits sg st) (ho1 : o1.Valid G) (ho2 : o2.Valid G)
    (hf1 : ∀ c l, ∀ x ∈ st, o1.alloc c l ≠ x.id) (hf2 : ∀ c l, ∀ x ∈ st, o2.alloc c l ≠ x.id)
    (hf12 : ∀ c l c' l', o1.alloc c l ≠ o2.alloc c' l') (i0 : Fin n)
    (hap : Apart (sg i0) (sg (nextIx i0)) st)
    (h : addSysgoal G eg n new i0.val o1 o2 fuel st = .ok R) :
    ∀ ρ, IsRun R ρ → Live eg (insertGoal sg i0 new) (fun k => (ρ k).state) := by
  obtain ⟨B1, B2, X1, X2, E2, φ, src, b1n, b2n, hr1, hr2, -, -, -, hsh⟩ := add_shape hS.ids hS.closed ho1 ho2
    (fun c l hc => by obtain ⟨x, x1, x2⟩ := mem_ids.1 hc; exact hf1 c l x x1 x2.symm)
    (fun c l hc => by obtain ⟨x, x1, x2⟩ := mem_ids.1 hc; exact hf2 c l x x1 x2.symm) hf12 h
  have hleg := legal_of_shape hsh hS.closed hS.legal ho1 ho2 hr1 b1n hr2 b2n
  obtain ⟨-, -, -, b1⟩ := reach_answers (Finset.subset_univ _) ho1 hr1 b1n
  obtain ⟨-, -, -, b2⟩ := reach_answers (Finset.subset_univ _) ho2 hr2 b2n
  rw [nextGoal_cast] at hsh
  have hpass := pass_edge hS
  have hmo := hS.modes
  have hi0 := i0.isLt
  have hi1 := (nextIx i0).isLt
  have hi1v := nextIx_val (i := i0)
  have hg0 := mode_gi0 hS hap
  have hg1 := mode_gi1 hS hap
  intro ρ hρ henv
  set b : ℕ → ANode ℤ (E × S) := fun k => src (ρ k).id with hb
  have hstate : ∀ k, (ρ k).state = (b k).state := fun k => hsh.state (ρ k) (hρ k).1
  have hmemU : ∀ k, b k ∈ st ∨ b k ∈ labelled n B1 ∨ b k ∈ B2 := by
    intro k
    rcases List.mem_append.1 (hsh.mem (ρ k) (hρ k).1) with hm | hm
    · rcases List.mem_append.1 hm with hm | hm
      · exact Or.inl hm
      · exact Or.inr (Or.inl hm)
    · exact Or.inr (Or.inr hm)
  have hedge : ∀ k, ∃ c ∈ st ++ labelled n B1 ++ B2, c.id ∈ (b k).trans ∧ sig φ src c = b (k + 1) ∧ c.state = (ρ (k + 1)).state := by
    intro k
    obtain ⟨c, c1, c2, c3, c4⟩ := hsh.edge (ρ k) (hρ k).1 (ρ (k + 1)) (hρ (k + 1)).1 (hρ k).2
    exact ⟨c, c1, c2, by unfold sig; rw [c3], c4⟩
  have hst : ∀ k, b k ∈ st → ∃ c ∈ st, c.id ∈ (b k).trans ∧ c.state = (ρ (k + 1)).state ∧
      ((c.id ∉ crossNodes i0.val st ∧ b (k + 1) = c) ∨ (c.id ∈ crossNodes i0.val st ∧ b (k + 1) ∈ labelled n B1)) := by
    intro k hk
    obtain ⟨c, c1, c2, c3, c4⟩ := hedge k
    have hc := succ_st hsh hS.closed hk c1 c2
    refine ⟨c, hc, c2, c4, ?_⟩
    by_cases hg : c.id ∈ crossNodes i0.val st
    · exact Or.inr ⟨hg, c3 ▸ (hsh.s2 c hc hg).1⟩
    · exact Or.inl ⟨hg, by rw [← c3, hsh.s1 c hc hg]⟩
  have h1 : ∀ k, b k ∈ labelled n B1 → ∃ c ∈ labelled n B1, c.id ∈ (b k).trans ∧
      (b (k + 1) = c ∨ (b (k + 1) ∈ B2 ∧ (ρ (k + 1)).state ∈ new)) := by
    intro k hk
    obtain ⟨c, c1, c2, c3, c4⟩ := hedge k
    have hc := succ_1 hsh (fun x hx => (b1 x hx).2.2.1) hk c1 c2
    refine ⟨c, hc, c2, ?_⟩
    by_cases ht : c.trans = []
    · refine Or.inr ⟨c3 ▸ (hsh.s4 c hc ht).1, ?_⟩
      by_contra hnew
      rw [← c4] at hnew
      obtain ⟨z, z1, rfl⟩ := labelled_mem hc
      have hl := hleg (ρ (k + 1)) (hρ (k + 1)).1 (ρ (k + 2)) (hρ (k + 2)).1 (hρ (k + 1)).2
      rw [← c4] at hl
      obtain ⟨y, ⟨-, y2, -⟩, -⟩ := ((b1 z z1).2.2.2.2.2 hnew).2 _ hl.1
      have ht' : z.trans = [] := ht
      rw [ht'] at y2
      simp at y2
    · exact Or.inl (by rw [← c3, hsh.s3 c hc ht])
  have h2 : ∀ k, b k ∈ B2 → ∃ c ∈ B2, c.id ∈ (b k).trans ∧
      (b (k + 1) = c ∨ (b (k + 1) ∈ st ∧ (b (k + 1)).id ∈ crossNodes ((nextIx i0).val : ℤ) st)) := by
    intro k hk
    obtain ⟨c, c1, c2, c3, c4⟩ := hedge k
    have hc := succ_2 hsh (fun x hx => (b2 x hx).2.2.1) hk c1 c2
    refine ⟨c, hc, c2, ?_⟩
    rcases hsh.s5 c hc with ⟨e, -⟩ | ⟨-, x, x1, x2, x3, x4⟩
    · exact Or.inl (by rw [← c3, e])
    · right
      have := hsh.s1 x x1 (hg1 x x1 x2).2
      rw [← c3, x4, this]
      exact ⟨x1, x2⟩
  have henv' : ∀ k r, InfOften (fun j => (ρ (k + j)).state) (eg r) := by
    intro k r N
    obtain ⟨j, j1, j2⟩ := henv r (k + N)
    exact ⟨j - k, by omega, by
      change (ρ (k + (j - k))).state ∈ eg r
      rw [show k + (j - k) = j by omega]; exact j2⟩
  -- no part is kept for ever
  have leave1 : ∀ k, b k ∈ labelled n B1 → ∃ k', k ≤ k' ∧ b (k' + 1) ∈ B2 ∧ (ρ (k' + 1)).state ∈ new := by
    intro k hk
    obtain ⟨k', e1, e2, e3⟩ := exit_step (P := fun k => b k ∈ labelled n B1) hk (by
      intro hall
      have hrun : ∀ j, ({ b (k + j) with mode := -1 } : ANode ℤ (E × S)) ∈ B1 ∧
          (b (k + (j + 1))).id ∈ (b (k + j)).trans := by
        intro j
        obtain ⟨z, z1, z2⟩ := labelled_mem (hall j)
        constructor
        · rw [z2]
          have := (b1 z z1).1
          have hz : ({ ({ z with mode := (n : ℤ) + 1 } : ANode ℤ (E × S)) with mode := -1 } : ANode ℤ (E × S)) = z := by
            rw [← this]
          rw [hz]
          exact z1
        · obtain ⟨c, c1, c2, c3⟩ := h1 (k + j) (hall j)
          rcases c3 with c3 | ⟨c3, -⟩
          · change (b (k + j + 1)).id ∈ _
            rw [c3]; exact c2
          · exact absurd c3 (fun h => disj_12 hsh (hall (j + 1)) h)
      obtain ⟨r, K, hK⟩ := reach_live (Finset.subset_univ _) ho1 hr1 (fun j => { b (k + j) with mode := -1 }) hrun
      obtain ⟨j, j1, j2⟩ := henv' k r K
      refine hK j j1 ?_
      change (b (k + j)).state ∈ eg r
      rw [← hstate]; exact j2)
    obtain ⟨c, c1, c2, c3⟩ := h1 k' e2
    rcases c3 with c3 | c3
    · exact absurd (c3 ▸ c1) e3
    · exact ⟨k', e1, c3⟩
  have leave2 : ∀ k, b k ∈ B2 → ∃ k', k ≤ k' ∧ b (k' + 1) ∈ st ∧ (b (k' + 1)).id ∈ crossNodes ((nextIx i0).val : ℤ) st := by
    intro k hk
    obtain ⟨k', e1, e2, e3⟩ := exit_step (P := fun k => b k ∈ B2) hk (by
      intro hall
      obtain ⟨r, K, hK⟩ := reach_live (Finset.subset_univ _) ho2 hr2 (fun j => b (k + j)) (by
        intro j
        refine ⟨hall j, ?_⟩
        obtain ⟨c, c1, c2, c3⟩ := h2 (k + j) (hall j)
        rcases c3 with c3 | ⟨c3, -⟩
        · change (b (k + j + 1)).id ∈ _
          rw [c3]; exact c2
        · exact absurd (hall (j + 1)) (fun h => disj_st2 hsh c3 h))
      obtain ⟨j, j1, j2⟩ := henv' k r K
      refine hK j j1 ?_
      change (b (k + j)).state ∈ eg r
      rw [← hstate]; exact j2)
    obtain ⟨c, c1, c2, c3⟩ := h2 k' e2
    rcases c3 with c3 | c3
    · exact absurd (c3 ▸ c1) e3
    · exact ⟨k', e1, c3⟩
  have leave0' : ∀ k, ¬ ∀ j, b (k + j) ∈ st := by
    intro k hall
    have hcs : ∀ j, b (k + j + 1) ∈ st ∧ (b (k + j + 1)).id ∈ (b (k + j)).trans ∧ (b (k + j + 1)).id ∉ crossNodes i0.val st := by
      intro j
      obtain ⟨c, c1, c2, c3, c4⟩ := hst (k + j) (hall j)
      rcases c4 with ⟨c4, c5⟩ | ⟨-, c5⟩
      · rw [c5]; exact ⟨c1, c2, c4⟩
      · exact absurd (hall (j + 1)) (fun h => disj_st1 hsh h c5)
    obtain ⟨j, hj⟩ := must_cross hS hw i0 (fun j => b (k + j)) (fun j => ⟨hall j, (hcs j).2.1⟩) (by
      intro r N
      obtain ⟨j, j1, j2⟩ := henv' k r N
      refine ⟨j, j1, ?_⟩
      change (b (k + j)).state ∈ eg r
      rw [← hstate]; exact j2)
    exact (hcs j).2.2 ((mem_crossNodes hS.ids (hcs j).1).2 ⟨b (k + j), hall j, (hcs j).2.1, hj⟩)
  have leave0 : ∀ k, b k ∈ st → ∃ k', k ≤ k' ∧ b (k' + 1) ∈ labelled n B1 := by
    intro k hk
    obtain ⟨k', e1, e2, e3⟩ := exit_step (P := fun k => b k ∈ st) hk (leave0' k)
    obtain ⟨c, c1, -, -, c3⟩ := hst k' e2
    rcases c3 with ⟨-, c3⟩ | ⟨-, c3⟩
    · exact absurd (c3 ▸ c1) e3
    · exact ⟨k', e1, c3⟩
  have to1 : ∀ N, ∃ k, N ≤ k ∧ b k ∈ labelled n B1 := by
    intro N
    rcases hmemU N with hm | hm | hm
    · obtain ⟨k, e1, e2⟩ := leave0 N hm
      exact ⟨k + 1, by omega, e2⟩
    · exact ⟨N, le_rfl, hm⟩
    · obtain ⟨k, e1, e2, -⟩ := leave2 N hm
      obtain ⟨k', e3, e4⟩ := leave0 (k + 1) e2
      exact ⟨k' + 1, by omega, e4⟩
  have hnew : InfOften (fun k => (ρ k).state) new := by
    intro N
    obtain ⟨k, e1, e2⟩ := to1 N
    obtain ⟨k', e3, -, e4⟩ := leave1 k e2
    exact ⟨k' + 1, by omega, e4⟩
  have hold : ∀ l : Fin n, InfOften (fun k => (ρ k).state) (sg l) := by
    intro l N
    by_contra hcon
    push Not at hcon
    obtain ⟨k, e1, e2⟩ := to1 N
    obtain ⟨k', e3, e4, -⟩ := leave1 k e2
    obtain ⟨k0, e5, e6, e7⟩ := leave2 (k' + 1) e4
    apply leave0' (k0 + 1)
    have hl := l.isLt
    have inv : ∀ j, b (k0 + 1 + j) ∈ st ∧ (b (k0 + 1 + j)).mode ≠ (nextIx i0).val ∧
        crosses l.val (nextIx i0).val (b (k0 + 1 + j)).mode = false := by
      intro j
      induction j with
      | zero =>
        refine ⟨e6, (hg1 _ e6 e7).1, ?_⟩
        obtain ⟨w, w1, w2, w3⟩ := (mem_crossNodes hS.ids e6).1 e7
        by_contra hc
        rw [Bool.not_eq_false] at hc
        refine hcon (k0 + 1) (by omega) ?_
        rw [hstate]
        refine hpass w w1 _ e6 w2 l ?_
        obtain ⟨i, q1⟩ := hmo w w1
        obtain ⟨j, q2⟩ := hmo _ e6
        have l1 := i.isLt
        have l2 := j.isLt
        simp only [Nat.add_zero] at hc
        rw [q1, q2, crosses_iff] at w3
        rw [q2, crosses_iff] at hc
        rw [q1, q2, crosses_iff]
        omega
      | succ j ih =>
        obtain ⟨i1', i2, i3⟩ := ih
        obtain ⟨c, c1, c2, c3, c4⟩ := hst _ i1'
        obtain ⟨i, q1⟩ := hmo _ i1'
        obtain ⟨j', q2⟩ := hmo c c1
        have l1 := i.isLt
        have l2 := j'.isLt
        have hno : crosses l.val (b (k0 + 1 + j)).mode c.mode = false := by
          by_contra hc
          rw [Bool.not_eq_false] at hc
          refine hcon (k0 + 1 + j + 1) (by omega) ?_
          change (ρ (k0 + 1 + j + 1)).state ∈ _
          rw [← c3]
          exact hpass _ i1' c c1 c2 l hc
        rw [q1] at i2
        have hno' : ¬ crosses l.val (b (k0 + 1 + j)).mode c.mode = true := by simp [hno]
        have i3' : ¬ crosses l.val (nextIx i0).val (b (k0 + 1 + j)).mode = true := by simp [i3]
        rw [q1, crosses_iff] at i3'
        rw [q1, q2, crosses_iff] at hno'
        rcases c4 with ⟨c4, c5⟩ | ⟨c4, -⟩
        · rw [show k0 + 1 + (j + 1) = k0 + 1 + j + 1 by omega, c5]
          refine ⟨c1, ?_, ?_⟩
          · intro hc
            apply c4
            refine (mem_crossNodes hS.ids c1).2 ⟨_, i1', c2, ?_⟩
            rw [q2] at hc
            rw [q1, q2, crosses_iff]
            split at hi1v <;> omega
          · rw [← Bool.not_eq_true, q2, crosses_iff]
            omega
        · exfalso
          have := hg0 c c1 c4
          rw [q2] at this
          omega
    exact fun j => (inv j).1
  intro l
  unfold insertGoal
  split
  · exact hold _
  · split
    · exact hnew
    · exact hold _

/-- **C63, order.** Under the assumptions of `add_sysgoal_runs`, and if no edge of the given strategy
leads from a node that seeks the next goal to a state that satisfies the goal before it, the result seeks
the goals of the enlarged list in order: along every edge into a state where the environment can move the
mode moves on over goals that the state satisfies. -/
theorem add_sysgoal_order {new : Finset (E × S)} {o1 o2 : Oracle E S} {fuel : ℕ} {st R : Aut ℤ (E × S)}
    (hS : SeeksInOrder G eg sg st) (ho1 : o1.Valid G) (ho2 : o2.Valid G)
    (hf1 : ∀ c l, ∀ x ∈ st, o1.alloc c l ≠ x.id) (hf2 : ∀ c l, ∀ x ∈ st, o2.alloc c l ≠ x.id)
    (hf12 : ∀ c l c' l', o1.alloc c l ≠ o2.alloc c' l') (i0 : Fin n)
    (hap : Apart (sg i0) (sg (nextIx i0)) st)
    (hdir : ∀ x ∈ st, x.mode = ((nextIx i0).val : ℤ) → ∀ c ∈ st, c.id ∈ x.trans → c.state ∉ sg i0)
    (h : addSysgoal G eg n new i0.val o1 o2 fuel st = .ok R) :
    ∀ y ∈ R, ∀ y' ∈ R, y'.id ∈ y.trans → (∃ e, G.etr y'.state e = true) →
      ∃ i j : Fin (n + 1), y.mode = (i.val : ℤ) ∧ y'.mode = (j.val : ℤ) ∧ Passes (insertGoal sg i0 new) i y'.state j := by
  obtain ⟨B1, B2, X1, X2, E2, φ, src, b1n, b2n, hr1, hr2, -, -, -, hsh⟩ := add_shape hS.ids hS.closed ho1 ho2
    (fun c l hc => by obtain ⟨x, x1, x2⟩ := mem_ids.1 hc; exact hf1 c l x x1 x2.symm)
    (fun c l hc => by obtain ⟨x, x1, x2⟩ := mem_ids.1 hc; exact hf2 c l x x1 x2.symm) hf12 h
  obtain ⟨-, -, -, b1⟩ := reach_answers (Finset.subset_univ _) ho1 hr1 b1n
  obtain ⟨-, -, -, b2⟩ := reach_answers (Finset.subset_univ _) ho2 hr2 b2n
  have hpass := pass_edge hS
  have hmo := hS.modes
  have hi0 := i0.isLt
  have hi1 := (nextIx i0).isLt
  have hi1v := nextIx_val (i := i0)
  have hg0 := mode_gi0 hS hap
  have hg1 := mode_gi1 hS hap
  have hmode := hsh.mode
  rw [nextGoal_cast] at hsh
  intro y hy y' hy' he henv
  obtain ⟨c, c1, c2, c3, c4⟩ := hsh.edge y hy y' hy' he
  have c3' : src y'.id = sig φ src c := by unfold sig; rw [c3]
  have m1 := hmode y hy
  have m2 := hmode y' hy'
  rw [c3'] at m2
  rw [← c4] at henv ⊢
  -- the goals of the enlarged list
  have hins : ∀ l : Fin (n + 1), ∀ t : E × S, (∀ h : l.val ≤ i0.val, t ∈ sg ⟨l.val, by omega⟩) → (l.val = i0.val + 1 → t ∈ new) →
      (∀ h : i0.val + 1 < l.val, t ∈ sg ⟨l.val - 1, by have := l.isLt; omega⟩) → t ∈ insertGoal sg i0 new l := by
    intro l t q1 q2 q3
    unfold insertGoal
    split
    · rename_i hh; exact q1 hh
    · split
      · rename_i hh; exact q2 hh
      · exact q3 (by omega)
  rcases List.mem_append.1 (hsh.mem y hy) with hm | hm
  · rcases List.mem_append.1 hm with hm | hm
    · have hc := succ_st hsh hS.closed hm c1 c2
      obtain ⟨i, q1⟩ := hmo _ hm
      obtain ⟨j, q2⟩ := hmo c hc
      have l1 := i.isLt
      have l2 := j.isLt
      have hcr := fun l : Fin n => hpass _ hm c hc c2 l
      rw [q1, newMode_old i0 (by omega) (by omega)] at m1
      by_cases hg : c.id ∈ crossNodes i0.val st
      · obtain ⟨z, z1, z2⟩ := labelled_mem (hsh.s2 c hc hg).1
        rw [z2, newMode_first] at m2
        have hj := hg0 c hc hg
        have hi : i.val ≠ (nextIx i0).val := by
          intro hi
          obtain ⟨w, w1, w2, w3⟩ := (mem_crossNodes hS.ids hc).1 hg
          exact hdir _ hm (by rw [q1]; exact_mod_cast hi) c hc c2 (hpass w w1 c hc w2 i0 w3)
        refine ⟨⟨if i.val ≤ i0.val then i.val else i.val + 1, by split <;> omega⟩, ⟨i0.val + 1, by omega⟩, ?_, ?_, passes_of ?_⟩
        · rw [m1]
          by_cases hh : i.val ≤ i0.val
          · rw [if_pos (by omega)]; simp [hh]
          · rw [if_neg (by omega)]; simp [hh]
        · rw [m2]; push_cast; rfl
        · intro l hl
          have hl' := l.isLt
          rw [crosses_iff] at hl
          simp only at hl
          refine hins l _ (fun hh => hcr _ ?_) (fun hh => ?_) (fun hh => hcr _ ?_)
          · rw [q1, hj, crosses_iff]; simp only
            split at hi1v <;> split at hl <;> omega
          · exfalso; omega
          · rw [q1, hj, crosses_iff]; simp only
            split at hi1v <;> split at hl <;> omega
      · rw [hsh.s1 c hc hg, q2, newMode_old i0 (by omega) (by omega)] at m2
        have hno : ¬ crosses i0.val (src y.id).mode c.mode = true := fun hh =>
          hg ((mem_crossNodes hS.ids hc).2 ⟨_, hm, c2, hh⟩)
        rw [q1, q2, crosses_iff] at hno
        refine ⟨⟨if i.val ≤ i0.val then i.val else i.val + 1, by split <;> omega⟩,
          ⟨if j.val ≤ i0.val then j.val else j.val + 1, by split <;> omega⟩, ?_, ?_, passes_of ?_⟩
        · rw [m1]
          by_cases hh : i.val ≤ i0.val
          · rw [if_pos (by omega)]; simp [hh]
          · rw [if_neg (by omega)]; simp [hh]
        · rw [m2]
          by_cases hh : j.val ≤ i0.val
          · rw [if_pos (by omega)]; simp [hh]
          · rw [if_neg (by omega)]; simp [hh]
        · intro l hl
          have hl' := l.isLt
          rw [crosses_iff] at hl
          simp only at hl
          refine hins l _ (fun hh => hcr _ ?_) (fun hh => ?_) (fun hh => hcr _ ?_)
          · rw [q1, q2, crosses_iff]; simp only
            split at hl <;> split at hl <;> omega
          · exfalso
            split at hl <;> split at hl <;> omega
          · rw [q1, q2, crosses_iff]; simp only
            split at hl <;> split at hl <;> omega
    · have hc := succ_1 hsh (fun x hx => (b1 x hx).2.2.1) hm c1 c2
      obtain ⟨z, z1, z2⟩ := labelled_mem hm
      rw [z2, newMode_first] at m1
      obtain ⟨w, w1, w2⟩ := labelled_mem hc
      by_cases ht : c.trans = []
      · have hnew : c.state ∈ new := by
          by_contra hnew
          obtain ⟨e, he'⟩ := henv
          rw [w2] at hnew he' ht
          obtain ⟨v, ⟨-, v2, -⟩, -⟩ := ((b1 w w1).2.2.2.2.2 hnew).2 _ he'
          have ht' : w.trans = [] := ht
          rw [ht'] at v2
          simp at v2
        rw [(b2 _ (hsh.s4 c hc ht).1).1, newMode_second] at m2
        refine ⟨⟨i0.val + 1, by omega⟩, ⟨if i0.val + 1 = n then 0 else i0.val + 2, by split <;> omega⟩, ?_, ?_, passes_of ?_⟩
        · rw [m1]; push_cast; rfl
        · rw [m2]
          by_cases hh : i0.val + 1 = n
          · rw [if_pos (by omega)]; simp [hh]
          · rw [if_neg (by omega)]; simp [hh]
        · intro l hl
          have hl' := l.isLt
          rw [crosses_iff] at hl
          simp only at hl
          refine hins l _ (fun hh => ?_) (fun _ => hnew) (fun hh => ?_) <;> exfalso <;> split at hl <;> omega
      · rw [hsh.s3 c hc ht, w2, newMode_first] at m2
        refine ⟨⟨i0.val + 1, by omega⟩, ⟨i0.val + 1, by omega⟩, by rw [m1]; push_cast; rfl, by rw [m2]; push_cast; rfl, ?_⟩
        exact ⟨0, rfl, fun _ h => absurd h (Nat.not_lt_zero _)⟩
  · have hc := succ_2 hsh (fun x hx => (b2 x hx).2.2.1) hm c1 c2
    rw [(b2 _ hm).1, newMode_second] at m1
    have hfin : y.mode = (((⟨if i0.val + 1 = n then 0 else i0.val + 2, by split <;> omega⟩ : Fin (n + 1)).val : ℕ) : ℤ) := by
      rw [m1]
      by_cases hh : i0.val + 1 = n
      · rw [if_pos (by omega)]; simp [hh]
      · rw [if_neg (by omega)]; simp [hh]
    rcases hsh.s5 c hc with ⟨e, -⟩ | ⟨-, x, x1, x2, x3, x4⟩
    · rw [e, (b2 c hc).1, newMode_second, ← m1] at m2
      exact ⟨_, _, hfin, m2.trans hfin, 0, rfl, fun _ h => absurd h (Nat.not_lt_zero _)⟩
    · obtain ⟨hx1, hx0⟩ := hg1 x x1 x2
      obtain ⟨j, q2⟩ := hmo x x1
      have l2 := j.isLt
      obtain ⟨w, w1, w2, w3⟩ := (mem_crossNodes hS.ids x1).1 x2
      obtain ⟨i, q1⟩ := hmo w w1
      have l1 := i.isLt
      have hcr := fun l : Fin n => hpass w w1 x x1 w2 l
      rw [x4, hsh.s1 x x1 hx0, q2, newMode_old i0 (by omega) (by omega)] at m2
      rw [q1, q2, crosses_iff] at w3
      rw [← x3]
      refine ⟨_, ⟨if j.val ≤ i0.val then j.val else j.val + 1, by split <;> omega⟩, hfin, ?_, passes_of ?_⟩
      · rw [m2]
        by_cases hh : j.val ≤ i0.val
        · rw [if_pos (by omega)]; simp [hh]
        · rw [if_neg (by omega)]; simp [hh]
      · intro l hl
        have hl' := l.isLt
        rw [crosses_iff] at hl
        simp only at hl
        refine hins l _ (fun hh => hcr _ ?_) (fun hh => ?_) (fun hh => hcr _ ?_)
        · rw [q1, q2, crosses_iff]; simp only
          split at hi1v <;> split at hl <;> split at hl <;> omega
        · exfalso
          split at hi1v <;> split at hl <;> split at hl <;> omega
        · rw [q1, q2, crosses_iff]; simp only
          split at hi1v <;> split at hl <;> split at hl <;> omega

/-- **C63, answers.** If the given strategy answers every move of the environment and no state of it
satisfies both the new goal and the goal sought after it, the result answers every move too. -/
theorem add_sysgoal_answers {new : Finset (E × S)} {o1 o2 : Oracle E S} {fuel : ℕ} {st R : Aut ℤ (E × S)}
    (hS : SeeksInOrder G eg sg st) (ho1 : o1.Valid G) (ho2 : o2.Valid G)
    (hf1 : ∀ c l, ∀ x ∈ st, o1.alloc c l ≠ x.id) (hf2 : ∀ c l, ∀ x ∈ st, o2.alloc c l ≠ x.id)
    (hf12 : ∀ c l c' l', o1.alloc c l ≠ o2.alloc c' l') (i0 : Fin n)
    (hnew : Apart (sg (nextIx i0)) new st) (hans : AnswersAll G st)
    (h : addSysgoal G eg n new i0.val o1 o2 fuel st = .ok R) : AnswersAll G R := by
  obtain ⟨B1, B2, X1, X2, E2, φ, src, b1n, b2n, hr1, hr2, -, hX2, -, hsh⟩ := add_shape hS.ids hS.closed ho1 ho2
    (fun c l hc => by obtain ⟨x, x1, x2⟩ := mem_ids.1 hc; exact hf1 c l x x1 x2.symm)
    (fun c l hc => by obtain ⟨x, x1, x2⟩ := mem_ids.1 hc; exact hf2 c l x x1 x2.symm) hf12 h
  obtain ⟨-, -, -, b1⟩ := reach_answers (Finset.subset_univ _) ho1 hr1 b1n
  obtain ⟨-, -, -, b2⟩ := reach_answers (Finset.subset_univ _) ho2 hr2 b2n
  have hpass := pass_edge hS
  rw [nextGoal_cast] at hsh hX2
  intro y hy e he
  rw [hsh.state y hy] at he
  -- it is enough to have exactly one successor in the part the node comes from
  have key : (∃! c, c ∈ st ++ labelled n B1 ++ B2 ∧ c.id ∈ (src y.id).trans ∧ c.state.1 = e) →
      ∃! y', y' ∈ R ∧ y'.id ∈ y.trans ∧ y'.state.1 = e := by
    rintro ⟨c, ⟨c1, c2, c3⟩, cu⟩
    obtain ⟨y', v1, v2, v3, v4⟩ := hsh.back y hy c c1 c2
    refine ⟨y', ⟨v1, v2, by rw [← v4]; exact c3⟩, ?_⟩
    rintro y'' ⟨u1, u2, u3⟩
    obtain ⟨c', d1, d2, d3, d4⟩ := hsh.edge y hy y'' u1 u2
    have := cu c' ⟨d1, d2, by rw [d4]; exact u3⟩
    subst this
    exact eq_of_id_eq hsh.ids u1 v1 (by rw [v3, d3])
  apply key
  rcases List.mem_append.1 (hsh.mem y hy) with hm | hm
  · rcases List.mem_append.1 hm with hm | hm
    · obtain ⟨c, ⟨c1, c2, c3⟩, cu⟩ := hans _ hm e he
      refine ⟨c, ⟨List.mem_append_left _ (List.mem_append_left _ c1), c2, c3⟩, ?_⟩
      rintro c' ⟨d1, d2, d3⟩
      exact cu c' ⟨succ_st hsh hS.closed hm d1 d2, d2, d3⟩
    · have ht : (src y.id).trans ≠ [] := by
        intro ht
        have := (hsh.s4 _ hm ht).1
        rw [hsh.idem y hy] at this
        exact disj_12 hsh hm this
      obtain ⟨z, z1, z2⟩ := labelled_mem hm
      have htz : z.trans ≠ [] := by rw [z2] at ht; exact ht
      have hz : z.state ∉ new := fun hh => htz ((b1 z z1).2.2.2.1 hh)
      rw [z2] at he
      obtain ⟨c, ⟨c1, c2, c3⟩, cu⟩ := ((b1 z z1).2.2.2.2.2 hz).2 e he
      refine ⟨{ c with mode := (n : ℤ) + 1 }, ⟨List.mem_append_left _ (List.mem_append_right _ (List.mem_map_of_mem c1)),
        by rw [z2]; exact c2, c3⟩, ?_⟩
      rintro c' ⟨d1, d2, d3⟩
      obtain ⟨w, w1, rfl⟩ := labelled_mem (succ_1 hsh (fun x hx => (b1 x hx).2.2.1) hm d1 d2)
      rw [z2] at d2
      rw [cu w ⟨w1, d2, d3⟩]
  · have hnx : (src y.id).state ∉ X2 := by
      intro hx
      have ht := (b2 _ hm).2.2.2.1 hx
      obtain ⟨x, x1, x2, x3⟩ := (hX2 _).1 hx
      obtain ⟨w, w1, w2, w3⟩ := (mem_crossNodes hS.ids x1).1 x2
      rcases hsh.s5 _ hm with ⟨-, h5 | ⟨z, z1, z2, z3⟩⟩ | ⟨-, v, v1, v2, v3, v4⟩
      · exact h5 ht
      · refine hnew x x1 (hpass w w1 x x1 w2 _ w3) ?_
        by_contra hn
        rw [x3, ← z3] at hn
        rw [← z3] at he
        obtain ⟨u, ⟨-, u2, -⟩, -⟩ := ((b1 z z1).2.2.2.2.2 hn).2 _ he
        rw [z2] at u2
        simp at u2
      · rw [hsh.idem y hy] at v4
        by_cases hg : v.id ∈ crossNodes i0.val st
        · exact disj_12 hsh (v4 ▸ (hsh.s2 v v1 hg).1) hm
        · rw [hsh.s1 v v1 hg] at v4
          exact disj_st2 hsh v1 (v4 ▸ hm)
    obtain ⟨c, ⟨c1, c2, c3⟩, cu⟩ := ((b2 _ hm).2.2.2.2.2 hnx).2 e he
    refine ⟨c, ⟨List.mem_append_right _ c1, c2, c3⟩, ?_⟩
    rintro c' ⟨d1, d2, d3⟩
    exact cu c' ⟨succ_2 hsh (fun x hx => (b2 x hx).2.2.1) hm d1 d2, d2, d3⟩

/-- **C63, initial nodes.** An initial node of the result is one of the given strategy, with the same
address and state; if no initial state satisfies the goal after the place of insertion, all of them are
kept. -/
theorem add_sysgoal_initial {new : Finset (E × S)} {o1 o2 : Oracle E S} {fuel : ℕ} {st R : Aut ℤ (E × S)}
    (hS : SeeksInOrder G eg sg st) (ho1 : o1.Valid G) (ho2 : o2.Valid G)
    (hf1 : ∀ c l, ∀ x ∈ st, o1.alloc c l ≠ x.id) (hf2 : ∀ c l, ∀ x ∈ st, o2.alloc c l ≠ x.id)
    (hf12 : ∀ c l c' l', o1.alloc c l ≠ o2.alloc c' l') (i0 : Fin n)
    (h : addSysgoal G eg n new i0.val o1 o2 fuel st = .ok R) :
    (∀ y ∈ R, y.initial = true → ∃ x ∈ st, x.initial = true ∧ x.state = y.state ∧ x.id = y.id) ∧
    ∀ x ∈ st, x.initial = true → x.state ∉ sg (nextIx i0) → ∃ y ∈ R, y.initial = true ∧ y.state = x.state ∧ y.id = x.id := by
  obtain ⟨B1, B2, X1, X2, E2, φ, src, b1n, b2n, hr1, hr2, -, hX2, -, hsh⟩ := add_shape hS.ids hS.closed ho1 ho2
    (fun c l hc => by obtain ⟨x, x1, x2⟩ := mem_ids.1 hc; exact hf1 c l x x1 x2.symm)
    (fun c l hc => by obtain ⟨x, x1, x2⟩ := mem_ids.1 hc; exact hf2 c l x x1 x2.symm) hf12 h
  refine ⟨hsh.init, fun x hx hi hn => hsh.kept x hx hi ?_⟩
  intro hg
  rw [nextGoal_cast] at hg
  obtain ⟨w, w1, w2, w3⟩ := (mem_crossNodes hS.ids hx).1 hg
  exact hn (pass_edge hS w w1 x hx w2 _ w3)

/-- Without a node that passes the goal `i0` nothing is built. -/
private theorem add_no_entry {new : Finset (E × S)} {i0 : ℤ} {o1 o2 : Oracle E S} {fuel : ℕ} {st : Aut ℤ (E × S)}
    (ho1 : o1.Valid G) (hc : crossNodes i0 st = []) : addSysgoal G eg n new i0 o1 o2 fuel st = .err := by
  have hr : reachGame G (ptrStates st []) new Finset.univ eg o1 fuel = .ok [] := by
    unfold reachGame
    cases hl : reachLevels G (ptrStates st []) new Finset.univ eg with
    | none => rfl
    | some L =>
      simp only
      have : o1.enum (ptrStates st []) = [] := by
        rw [List.eq_nil_iff_forall_not_mem]
        intro s hs
        rw [ho1.enum_mem] at hs
        simp [ptrStates] at hs
      rw [this]
      simp only [List.reverse_nil, reachInsert]
      unfold reachLoop
      rfl
  unfold addSysgoal
  simp only [hc, hr]

/-- **C63, one goal.** A strategy for a single system goal is always refused. -/
theorem add_sysgoal_single {new : Finset (E × S)} {o1 o2 : Oracle E S} {fuel : ℕ} {st : Aut ℤ (E × S)}
    (ho1 : o1.Valid G) (hmo : ∀ x ∈ st, x.mode = 0) : addSysgoal G eg 1 new 0 o1 o2 fuel st = .err := by
  apply add_no_entry ho1
  unfold crossNodes
  rw [List.filter_eq_nil_iff.2 ?_]
  · rfl
  · intro x hx
    simp only [List.any_eq_true, Bool.and_eq_true, not_exists, not_and]
    rintro w hw -
    rw [hmo x hx, hmo w hw]
    decide

/-! ## Strategies of gr1c itself -/

/-- The strategies made by `synthesize` wait, if two of the goals have no common state in them. -/
theorem synthesize_waits {egs sgs : List (Finset (E × S))} {flag : InitFlag}
    {einit sinit : Option (Finset (E × S))} {o : Oracle E S} {W : Finset (E × S)} (ho : o.Valid G)
    (hr : checkRealizable G egs sgs flag einit sinit = some (some W)) {fuel : ℕ}
    {st : Aut (Fin sgs.length) (E × S)} (h : synthesize G egs sgs flag einit sinit o fuel = .ok st)
    {i j : Fin sgs.length} (hap : Apart (sgs.get i) (sgs.get j) (intModes st)) : Waits sgs.get (intModes st) := by
  intro y hy k hk hs
  have hy' := hy
  unfold intModes at hy'
  obtain ⟨x, x1, rfl⟩ := List.mem_map.1 hy'
  have hkm : k = x.mode := by
    apply Fin.ext
    have : ((x.mode.val : ℕ) : ℤ) = k.val := hk
    omega
  subst hkm
  obtain ⟨a1, a2⟩ := (synthesize_annotated ho hr h).2 x x1
  have hall := a2.1 (a1.2 hs)
  exact hap _ hy (hall i) (hall j)

/-- **C63 for the strategies of gr1c itself.** If the strategy was made by `synthesize` after a positive
verdict and no state of it satisfies both the goal after which the new one is inserted and the next one,
the result has only legal edges, and on each of its infinite runs on which the environment goals hold
infinitely often so does every system goal and the new one. If moreover no state of the strategy satisfies
both the new goal and the next one, the result answers every move of the environment. -/
theorem add_sysgoal_synthesized {egs sgs : List (Finset (E × S))} {flag : InitFlag}
    {einit sinit : Option (Finset (E × S))} {o o1 o2 : Oracle E S} {W new : Finset (E × S)} (ho : o.Valid G)
    (ho1 : o1.Valid G) (ho2 : o2.Valid G) (hr : checkRealizable G egs sgs flag einit sinit = some (some W))
    {fuel fuel' : ℕ} {st : Aut (Fin sgs.length) (E × S)} {R : Aut ℤ (E × S)}
    (h : synthesize G egs sgs flag einit sinit o fuel = .ok st)
    (hf1 : ∀ c l, ∀ x ∈ st, o1.alloc c l ≠ x.id) (hf2 : ∀ c l, ∀ x ∈ st, o2.alloc c l ≠ x.id)
    (hf12 : ∀ c l c' l', o1.alloc c l ≠ o2.alloc c' l') (i0 : Fin sgs.length)
    (hap : Apart (sgs.get i0) (sgs.get (nextIx i0)) (intModes st))
    (hadd : addSysgoal G (withDefaultGoal egs).get sgs.length new i0.val o1 o2 fuel' (intModes st) = .ok R) :
    LegalEdges G R ∧
    (∀ ρ, IsRun R ρ → (∀ A ∈ egs, InfOften (fun k => (ρ k).state) A) →
      (∀ i, InfOften (fun k => (ρ k).state) (sgs.get i)) ∧ InfOften (fun k => (ρ k).state) new) ∧
    (Apart (sgs.get (nextIx i0)) new (intModes st) → AnswersAll G R) := by
  obtain ⟨hS, hans⟩ := synthesize_seeks ho hr h
  have hf : ∀ o' : Oracle E S, (∀ c l, ∀ x ∈ st, o'.alloc c l ≠ x.id) → ∀ c l, ∀ x ∈ intModes st, o'.alloc c l ≠ x.id := by
    intro o' hf c l x hx
    unfold intModes at hx
    obtain ⟨w, w1, rfl⟩ := List.mem_map.1 hx
    exact hf c l w w1
  refine ⟨(add_sysgoal_safe hS.ids hS.closed hS.modes hS.legal ho1 ho2 (hf o1 hf1) (hf o2 hf2) hf12 i0 hadd).2.2.2, ?_, fun hn =>
    add_sysgoal_answers hS ho1 ho2 (hf o1 hf1) (hf o2 hf2) hf12 i0 hn hans hadd⟩
  intro ρ hρ henv
  have hlive := add_sysgoal_runs hS (synthesize_waits ho hr h hap) ho1 ho2 (hf o1 hf1) (hf o2 hf2) hf12 i0 hap hadd ρ hρ (by
    intro r
    by_cases he : egs = []
    · have hall : ∀ A ∈ withDefaultGoal egs, A = Finset.univ := by
        unfold withDefaultGoal
        rw [if_pos he]
        simp
      rw [hall _ (List.get_mem _ r)]
      exact fun N => ⟨N, le_rfl, Finset.mem_univ _⟩
    · have hall : ∀ A ∈ withDefaultGoal egs, A ∈ egs := by
        unfold withDefaultGoal
        rw [if_neg he]
        simp
      exact henv _ (hall _ (List.get_mem _ r)))
  have hi0 := i0.isLt
  constructor
  · intro i
    have hi := i.isLt
    by_cases hle : i.val ≤ i0.val
    · have := hlive ⟨i.val, by omega⟩
      unfold insertGoal at this
      rwa [dif_pos hle] at this
    · have := hlive ⟨i.val + 1, by omega⟩
      unfold insertGoal at this
      rw [dif_neg (by simp only; omega), dif_neg (by simp only; omega)] at this
      exact this
  · have := hlive ⟨i0.val + 1, by omega⟩
    unfold insertGoal at this
    rw [dif_neg (by simp only; omega), dif_pos rfl] at this
    exact this

/-! ## Where the goal is inserted -/

private theorem closest_spec (L : List ℤ) : ∀ (vs pre : List ℤ) (b : ℕ) (v : ℤ), L = pre ++ vs → L[b]? = some v → b < pre.length →
    (∀ j w, pre[j]? = some w → v ≤ w ∧ (j < b → v < w)) →
    ∃ r u, closestFrom pre.length (b, v) vs = r ∧ L[r]? = some u ∧ ∀ j w, L[j]? = some w → u ≤ w ∧ (j < r → u < w) := by
  intro vs
  induction vs with
  | nil =>
    intro pre b v hL hb hlt hmin
    rw [List.append_nil] at hL
    subst hL
    exact ⟨b, v, rfl, hb, hmin⟩
  | cons x xs ih =>
    intro pre b v hL hb hlt hmin
    have hx : L[pre.length]? = some x := by rw [hL]; simp
    have hL' : L = (pre ++ [x]) ++ xs := by rw [hL]; simp
    unfold closestFrom
    have hsplit : ∀ j w, (pre ++ [x])[j]? = some w → (pre[j]? = some w ∧ j < pre.length) ∨ (j = pre.length ∧ w = x) := by
      intro j w hj
      by_cases hjl : j < pre.length
      · left
        rw [List.getElem?_append_left hjl] at hj
        exact ⟨hj, hjl⟩
      · right
        rw [List.getElem?_append_right (by omega)] at hj
        have : j - pre.length = 0 := by
          by_contra hne
          rw [List.getElem?_eq_none (by simp; omega)] at hj
          simp at hj
        rw [this] at hj
        simp at hj
        exact ⟨by omega, hj.symm⟩
    have hlen : pre.length + 1 = (pre ++ [x]).length := by simp
    by_cases hxv : x < v
    · simp only [if_pos hxv]
      rw [hlen]
      refine ih (pre ++ [x]) pre.length x hL' hx (by simp) ?_
      intro j w hj
      rcases hsplit j w hj with ⟨h1, h2⟩ | ⟨h1, h2⟩
      · have := (hmin j w h1).1
        exact ⟨by omega, fun _ => by omega⟩
      · exact ⟨by omega, fun h => by omega⟩
    · simp only [if_neg hxv]
      rw [hlen]
      refine ih (pre ++ [x]) b v hL' hb (by simp; omega) ?_
      intro j w hj
      rcases hsplit j w hj with ⟨h1, h2⟩ | ⟨h1, h2⟩
      · exact hmin j w h1
      · exact ⟨by omega, fun h => by omega⟩

section Choice

variable {ne ns : ℕ}

private theorem goalDists_ok (cover : Bdd (2 * (ne + ns)) → List (CubeArr (2 * (ne + ns)))) (hcov : ∀ f, IsCover f (cover f))
    (offw : List (ℕ × ℕ)) (hl : LayoutOk (ne + ns) offw) (new : Finset (BState ne ns)) : ∀ sgs : List (Finset (BState ne ns)),
    ∃ L, goalDists cover offw new sgs = .ok L ∧ L.length = sgs.length ∧
      ∀ (j : ℕ) (g : Finset (BState ne ns)) (v : ℤ), sgs[j]? = some g → L[j]? = some v → (g = ∅ ∨ new = ∅ → v = -1) ∧
        ∀ hn : new.Nonempty, g ≠ ∅ → (∃ s ∈ g, setDist offw new hn s = v) ∧ ∀ s ∈ g, v ≤ setDist offw new hn s := by
  intro sgs
  induction sgs with
  | nil => exact ⟨[], rfl, rfl, by simp⟩
  | cons g gs ih =>
    obtain ⟨L, e1, e2, e3⟩ := ih
    obtain ⟨mm, m1, m2, m3⟩ := bounds_DDset_exact g new (cover (bddOf g)) (cover (bddOf new)) (hcov _) (hcov _) offw hl
    refine ⟨mm.1 :: L, ?_, by simp [e2], ?_⟩
    · unfold goalDists
      rw [m1]
      simp only [e1]
    · intro j g' v hj hv
      cases j with
      | zero =>
        simp only [List.getElem?_cons_zero, Option.some.injEq] at hj hv
        subst hj
        subst hv
        refine ⟨fun h => by rw [m2 h], fun hn hg => ?_⟩
        have hb := m3 hn hg
        exact ⟨hb.least, fun s hs => (hb.bounds s hs).1⟩
      | succ j =>
        simp only [List.getElem?_cons_succ] at hj hv
        exact e3 j g' v hj hv

private theorem pick_spec (cover : Bdd (2 * (ne + ns)) → List (CubeArr (2 * (ne + ns)))) (hcov : ∀ f, IsCover f (cover f))
    (offw : List (ℕ × ℕ)) (hl : LayoutOk (ne + ns) offw) (hoff : offw ≠ []) (new : Finset (BState ne ns))
    (sgs : List (Finset (BState ne ns))) (hs : sgs ≠ []) :
    ∃ L, ∃ r : ℕ, ∃ u, goalDists cover offw new sgs = .ok L ∧ L.length = sgs.length ∧ pickGoal cover offw new sgs = .ok r ∧
      L[r]? = some u ∧ ∀ j w, L[j]? = some w → u ≤ w ∧ (j < r → u < w) := by
  obtain ⟨L, e1, e2, -⟩ := goalDists_ok cover hcov offw hl new sgs
  cases L with
  | nil =>
    have : sgs.length = 0 := by rw [← e2]; rfl
    exact absurd (List.length_eq_zero_iff.1 this) hs
  | cons v vs =>
    obtain ⟨r, u, q1, q2, q3⟩ := closest_spec (v :: vs) vs [v] 0 v rfl rfl (by simp) (by
      intro j w hj
      cases j with
      | zero => simp at hj; exact ⟨by omega, fun h => by omega⟩
      | succ j => simp at hj)
    refine ⟨v :: vs, r, u, e1, e2, ?_, q2, q3⟩
    unfold pickGoal
    rw [if_neg hoff, e1]
    simp only
    rw [← q1]
    rfl

/-- **C63, place.** With metric variables the new goal is inserted after the first of the goals that
contain a state nearest to the new goal in the Manhattan metric; without metric variables after the last
goal. (All goals and the new one are nonempty.) -/
theorem pick_goal_closest (cover : Bdd (2 * (ne + ns)) → List (CubeArr (2 * (ne + ns)))) (hcov : ∀ f, IsCover f (cover f))
    (offw : List (ℕ × ℕ)) (hl : LayoutOk (ne + ns) offw) (new : Finset (BState ne ns)) (hn : new.Nonempty)
    (sgs : List (Finset (BState ne ns))) (hs : sgs ≠ []) (hg : ∀ g ∈ sgs, g ≠ ∅) :
    ∃ r : Fin sgs.length, pickGoal cover offw new sgs = .ok (r.val : ℤ) ∧
      (offw = [] → r.val + 1 = sgs.length) ∧
      (offw ≠ [] → ∃ s ∈ sgs.get r, ∀ j : Fin sgs.length, ∀ t ∈ sgs.get j,
        setDist offw new hn s ≤ setDist offw new hn t ∧ (j < r → setDist offw new hn s < setDist offw new hn t)) := by
  by_cases hoff : offw = []
  · have hpos : 0 < sgs.length := List.length_pos_iff.2 hs
    refine ⟨⟨sgs.length - 1, by omega⟩, ?_, fun _ => by simp only; omega, fun h => absurd hoff h⟩
    unfold pickGoal
    rw [if_pos hoff]
    simp only [CRes.ok.injEq]
    omega
  · obtain ⟨L, r, u, e1, e2, e3, e4, e5⟩ := pick_spec cover hcov offw hl hoff new sgs hs
    obtain ⟨L', f1, -, f3⟩ := goalDists_ok cover hcov offw hl new sgs
    rw [f1] at e1
    cases e1
    have hr : r < sgs.length := by
      rw [← e2]
      exact (List.getElem?_eq_some_iff.1 e4).1
    refine ⟨⟨r, hr⟩, e3, fun h => absurd h hoff, fun _ => ?_⟩
    obtain ⟨⟨s, s1, s2⟩, -⟩ := (f3 r (sgs.get ⟨r, hr⟩) u (by simp) e4).2 hn (hg _ (List.get_mem _ _))
    refine ⟨s, s1, ?_⟩
    intro j t ht
    have hj : j.val < L.length := by rw [e2]; exact j.isLt
    have hv := (f3 j.val (sgs.get j) L[j.val] (by simp) (by simp)).2 hn (hg _ (List.get_mem _ _))
    have h1 := hv.2 t ht
    have h2 := e5 j.val L[j.val] (by simp)
    rw [s2]
    exact ⟨by omega, fun hjr => by have := h2.2 hjr; omega⟩

/-- **Defect.** A goal that no state satisfies has the marker -1 as its distance and so is taken for the
closest one: with metric variables, if some goal is empty, the new goal is inserted after the first empty
goal, wherever the others are. -/
theorem pick_goal_empty (cover : Bdd (2 * (ne + ns)) → List (CubeArr (2 * (ne + ns)))) (hcov : ∀ f, IsCover f (cover f))
    (offw : List (ℕ × ℕ)) (hl : LayoutOk (ne + ns) offw) (hoff : offw ≠ []) (new : Finset (BState ne ns)) (hn : new.Nonempty)
    (sgs : List (Finset (BState ne ns))) (he : ∃ g ∈ sgs, g = ∅) :
    ∃ r : Fin sgs.length, pickGoal cover offw new sgs = .ok (r.val : ℤ) ∧ sgs.get r = ∅ ∧ ∀ j < r, sgs.get j ≠ ∅ := by
  obtain ⟨g, g1, g2⟩ := he
  obtain ⟨L, r, u, e1, e2, e3, e4, e5⟩ := pick_spec cover hcov offw hl hoff new sgs (List.ne_nil_of_mem g1)
  obtain ⟨L', f1, -, f3⟩ := goalDists_ok cover hcov offw hl new sgs
  rw [f1] at e1
  cases e1
  have hr : r < sgs.length := by
    rw [← e2]
    exact (List.getElem?_eq_some_iff.1 e4).1
  have hval : ∀ j : Fin sgs.length, ∃ w, L[j.val]? = some w ∧ (sgs.get j = ∅ → w = -1) ∧ (sgs.get j ≠ ∅ → 0 ≤ w) := by
    intro j
    have hj : j.val < L.length := by rw [e2]; exact j.isLt
    refine ⟨L[j.val], by simp, fun h => (f3 j.val (sgs.get j) _ (by simp) (by simp)).1 (Or.inl h), fun h => ?_⟩
    obtain ⟨⟨s, -, s2⟩, -⟩ := (f3 j.val (sgs.get j) L[j.val] (by simp) (by simp)).2 hn h
    rw [← s2]
    exact setDist_nonneg _ _ _ _
  obtain ⟨k, hk⟩ := List.get_of_mem g1
  obtain ⟨w, w1, w2, -⟩ := hval k
  have hu : u ≤ -1 := by
    have := (e5 k.val w w1).1
    rw [w2 (by rw [hk, g2])] at this
    exact this
  refine ⟨⟨r, hr⟩, e3, ?_, ?_⟩
  · by_contra hne
    obtain ⟨w', v1, -, v3⟩ := hval ⟨r, hr⟩
    have h0 := v3 hne
    simp only at v1
    rw [e4] at v1
    cases v1
    omega
  · intro j hj hje
    obtain ⟨w', v1, v2, -⟩ := hval j
    have := (e5 j.val w' v1).2 hj
    rw [v2 hje] at this
    obtain ⟨w'', u1, u2, u3⟩ := hval ⟨r, hr⟩
    simp only at u1
    rw [e4] at u1
    cases u1
    by_cases hre : sgs.get ⟨r, hr⟩ = ∅
    · have := u2 hre; omega
    · have := u3 hre; omega

/-- **C63, the whole function.** The new goal is inserted after the goal chosen as above into a strategy
made by `synthesize`; no state of the strategy satisfies two consecutive goals. Then the result has only
legal edges and on each of its infinite runs on which the environment goals hold infinitely often so does
every system goal and the new one.Missing from the full claim (the result is always a strategy
for the enlarged list of goals): strategies with a state that satisfies two consecutive goals, states of the
next goal that satisfy the new one, and results other than an automaton. The claim is false there, see the
defects below. The hypotheses on the oracles also exclude that `malloc` returns for the second component an
address it returned for the first one. -/
theorem add_metric_sysgoal_correct_partial {G : Game (Val ne) (Val ns)} {egs sgs : List (Finset (BState ne ns))} {flag : InitFlag}
    {einit sinit : Option (Finset (BState ne ns))} {o o1 o2 : Oracle (Val ne) (Val ns)} {W new : Finset (BState ne ns)}
    (cover : Bdd (2 * (ne + ns)) → List (CubeArr (2 * (ne + ns)))) (hcov : ∀ f, IsCover f (cover f))
    (offw : List (ℕ × ℕ)) (hl : LayoutOk (ne + ns) offw) (hn : new.Nonempty) (hg : ∀ g ∈ sgs, g ≠ ∅) (hs : sgs ≠ [])
    (ho : o.Valid G) (ho1 : o1.Valid G) (ho2 : o2.Valid G)
    (hr : checkRealizable G egs sgs flag einit sinit = some (some W))
    {fuel fuel' : ℕ} {st : Aut (Fin sgs.length) (BState ne ns)} {R : Aut ℤ (BState ne ns)}
    (h : synthesize G egs sgs flag einit sinit o fuel = .ok st)
    (hf1 : ∀ c l, ∀ x ∈ st, o1.alloc c l ≠ x.id) (hf2 : ∀ c l, ∀ x ∈ st, o2.alloc c l ≠ x.id)
    (hf12 : ∀ c l c' l', o1.alloc c l ≠ o2.alloc c' l')
    (hap : ∀ i : Fin sgs.length, Apart (sgs.get i) (sgs.get (nextIx i)) (intModes st))
    (hadd : addMetricSysgoal G (withDefaultGoal egs).get sgs cover offw new o1 o2 fuel' (intModes st) = .ok R) :
    ∃ r : Fin sgs.length,
      ((offw = [] → r.val + 1 = sgs.length) ∧
        (offw ≠ [] → ∃ s ∈ sgs.get r, ∀ j : Fin sgs.length, ∀ t ∈ sgs.get j,
          setDist offw new hn s ≤ setDist offw new hn t ∧ (j < r → setDist offw new hn s < setDist offw new hn t))) ∧
      LegalEdges G R ∧
      (∀ ρ, IsRun R ρ → (∀ A ∈ egs, InfOften (fun k => (ρ k).state) A) →
        (∀ i, InfOften (fun k => (ρ k).state) (sgs.get i)) ∧ InfOften (fun k => (ρ k).state) new) ∧
      (Apart (sgs.get (nextIx r)) new (intModes st) → AnswersAll G R) := by
  obtain ⟨r, r1, r2, r3⟩ := pick_goal_closest cover hcov offw hl new hn sgs hs hg
  unfold addMetricSysgoal at hadd
  rw [r1] at hadd
  simp only at hadd
  exact ⟨r, ⟨r2, r3⟩, add_sysgoal_synthesized ho ho1 ho2 hr h hf1 hf2 hf12 r (hap r) hadd⟩

end Choice


/-! ## Examples and defects -/

namespace AddEx

open RmEx

/-- A graph whose states are chosen by the system. -/
def sgraph (k : ℕ) (succ : Fin k → List (Fin k)) : Game Unit (Fin k) :=
  ⟨fun _ _ => true, fun s t => t.2 ∈ succ s.2⟩

/-- The states with the given numbers. -/
def sgoal (k : ℕ) (l : List (Fin k)) : Finset (Unit × Fin k) := Finset.univ.filter fun s => s.2 ∈ l

/-- The same oracle, except that addresses are at least 200, even for `p = 0` and odd for `p = 1`. -/
def par (o : Oracle E S) (p : ℕ) : Oracle E S := { o with alloc := fun _ l => 2 * (l.foldr max 0 + 100) + p }

theorem par_valid {o : Oracle E S} (h : o.Valid G) (p : ℕ) : (par o p).Valid G := by
  refine ⟨?_, h.pick, h.moves_nodup, h.moves_mem, h.enum_nodup, h.enum_mem, h.enumEnv_nodup, h.enumEnv_mem⟩
  intro c ids hc
  have hle : ∀ l : List ℕ, ∀ i ∈ l, i ≤ l.foldr max 0 := by
    intro l
    induction l with
    | nil => simp
    | cons a l ih =>
      intro i hi
      rcases List.mem_cons.1 hi with rfl | hi
      · simp
      · have := ih i hi
        simp only [List.foldr_cons]
        omega
  have := hle ids _ hc
  simp only [par] at this
  omega

theorem par_disjoint (o o' : Oracle E S) : ∀ c l c' l', (par o 0).alloc c l ≠ (par o' 1).alloc c' l' := by
  intro c l c' l'
  simp only [par]
  omega

theorem par_fresh {M V : Type} (o : Oracle E S) (p : ℕ) (st : Aut M V) (h : ∀ x ∈ st, x.id < 200) (c : ℕ) (l : List ℕ) :
    ∀ x ∈ st, (par o p).alloc c l ≠ x.id := by
  intro x hx
  have := h x hx
  simp only [par]
  omega

/-- The oracle of a graph of the system. -/
def sorc {k : ℕ} (G : Game Unit (Fin k)) (d : Fin k) : Oracle Unit (Fin k) :=
  stdOracle G ((List.finRange k).map fun x => ((), x)) [()] ((), d)

theorem sorc_valid {k : ℕ} (G : Game Unit (Fin k)) (d : Fin k) : (sorc G d).Valid G :=
  stdOracle_valid G _ _ _ ((List.nodup_finRange k).map fun a b h => (Prod.mk.inj h).2)
    (fun s => List.mem_map.2 ⟨s.2, List.mem_finRange _, rfl⟩) (by simp) (by simp)

/-- The cycle 0 → 1 → 2 → 3 → 0 with goals {1}, {3}. -/
def sA : List (Finset (Fin 4 × Unit)) := [goal 4 [1], goal 4 [3]]

/-- The strategy `synthesize` returns. -/
def stA : Aut (Fin 2) (Fin 4 × Unit) :=
  [⟨4, (3, ()), 0, 2, false, [1]⟩, ⟨3, (2, ()), 1, 1, false, [4]⟩, ⟨2, (1, ()), 1, 2, false, [3]⟩,
    ⟨1, (0, ()), 0, 1, true, [2]⟩]

theorem stA_synth : synthesize Gc [] sA .allInit none (some (goal 4 [0])) (orc Gc 0 0) 100 = .ok stA := by decide +kernel

theorem stA_real : checkRealizable Gc [] sA .allInit none (some (goal 4 [0])) = some (some Finset.univ) := by
  decide +kernel

/-- The strategy with the goal {2} after the goal {1}. -/
def RA : Aut ℤ (Fin 4 × Unit) :=
  [⟨2, (1, ()), 1, 2, false, [600]⟩, ⟨1, (0, ()), 0, 1, true, [2]⟩, ⟨600, (2, ()), 2, 1, false, [603]⟩,
    ⟨603, (3, ()), 0, 2, false, [1]⟩]

theorem RA_added : addSysgoal Gc (withDefaultGoal []).get 2 (goal 4 [2]) 0 (par (orc Gc 0 0) 0) (par (orc Gc 0 0) 1) 100
    (intModes stA) = .ok RA := by decide +kernel

theorem stA_apart : Apart (goal 4 [1]) (goal 4 [3]) (intModes stA) := by unfold Apart; decide +kernel

theorem stA_apart2 : Apart (goal 4 [3]) (goal 4 [2]) (intModes stA) := by unfold Apart; decide +kernel

/-- The hypotheses of the theorems above hold for the cycle: the new automaton answers every move and on
each run the states 1, 2 and 3 occur infinitely often. -/
example : LegalEdges Gc RA ∧ AnswersAll Gc RA ∧ ∀ ρ, IsRun RA ρ →
    (∀ i, InfOften (fun k => (ρ k).state) (sA.get i)) ∧ InfOften (fun k => (ρ k).state) (goal 4 [2]) := by
  obtain ⟨h1, h2, h3⟩ := add_sysgoal_synthesized (orc_valid Gc 0 0) (par_valid (orc_valid Gc 0 0) 0)
    (par_valid (orc_valid Gc 0 0) 1) stA_real stA_synth (par_fresh _ 0 stA (by decide)) (par_fresh _ 1 stA (by decide))
    (par_disjoint _ _) (0 : Fin 2) stA_apart RA_added
  exact ⟨h1, h3 stA_apart2, fun ρ hρ => h2 ρ hρ (by simp)⟩

/-- There are such runs. -/
example : ∃ ρ, IsRun RA ρ := by
  let nd : Fin 4 → ANode ℤ (Fin 4 × Unit) := fun i =>
    match i with
    | 0 => ⟨2, (1, ()), 1, 2, false, [600]⟩
    | 1 => ⟨600, (2, ()), 2, 1, false, [603]⟩
    | 2 => ⟨603, (3, ()), 0, 2, false, [1]⟩
    | 3 => ⟨1, (0, ()), 0, 1, true, [2]⟩
  refine ⟨fun k => nd (Fin.ofNat 4 k), fun k => ?_⟩
  have h : ∀ i : Fin 4, nd i ∈ RA ∧ (nd (i + 1)).id ∈ (nd i).trans := by decide +kernel
  have e : Fin.ofNat 4 (k + 1) = Fin.ofNat 4 k + 1 := by
    apply Fin.ext
    simp [Fin.val_add]
  refine ⟨(h _).1, ?_⟩
  change (nd (Fin.ofNat 4 (k + 1))).id ∈ _
  rw [e]
  exact (h _).2

/-- The modes are right as well. -/
example : ∀ y ∈ RA, ∀ y' ∈ RA, y'.id ∈ y.trans → ∃ i j : Fin 3, y.mode = (i.val : ℤ) ∧ y'.mode = (j.val : ℤ) ∧
    Passes (insertGoal sA.get (0 : Fin 2) (goal 4 [2])) i y'.state j := by
  intro y hy y' hy' he
  obtain ⟨hS, -⟩ := synthesize_seeks (orc_valid Gc 0 0) stA_real stA_synth
  have hf : ∀ p c l, ∀ x ∈ intModes stA, (par (orc Gc 0 0) p).alloc c l ≠ x.id := fun p c l =>
    par_fresh _ p (intModes stA) (by decide) c l
  exact add_sysgoal_order hS (par_valid (orc_valid Gc 0 0) 0) (par_valid (orc_valid Gc 0 0) 1) (hf 0) (hf 1)
    (par_disjoint _ _) (0 : Fin 2) stA_apart (by decide +kernel) RA_added y hy y' hy' he
    (by
      have : ∀ s : Fin 4 × Unit, ∃ e, Gc.etr s e = true := by decide +kernel
      exact this _)

/-- The cycle with the initial state 3. -/
def stB : Aut (Fin 2) (Fin 4 × Unit) :=
  [⟨4, (2, ()), 1, 1, false, [1]⟩, ⟨3, (1, ()), 1, 2, false, [4]⟩, ⟨2, (0, ()), 0, 1, false, [3]⟩,
    ⟨1, (3, ()), 0, 2, true, [2]⟩]

/-- From 2 the environment goes to 3 or 4, and from there to 0; the goals are {1} and {3, 4}. -/
def G5 : Game (Fin 5) Unit := graph 5 fun s => if s = 2 then [3, 4] else if s = 3 then [0] else if s = 4 then [0] else [s + 1]
def s5 : List (Finset (Fin 5 × Unit)) := [goal 5 [1], goal 5 [3, 4]]
def st5 : Aut (Fin 2) (Fin 5 × Unit) :=
  [⟨5, (4, ()), 0, 2, false, [1]⟩, ⟨4, (3, ()), 0, 2, false, [1]⟩, ⟨3, (2, ()), 1, 1, false, [4, 5]⟩,
    ⟨2, (1, ()), 1, 2, false, [3]⟩, ⟨1, (0, ()), 0, 1, true, [2]⟩]

/-- The system goes from 0 to 1 or 2 and from there back; the goals are {0}, {0} and {1}. -/
def G3 : Game Unit (Fin 3) := sgraph 3 fun s => if s = 0 then [1, 2] else [0]
def s3 : List (Finset (Unit × Fin 3)) := [sgoal 3 [0], sgoal 3 [0], sgoal 3 [1]]
def st3 : Aut (Fin 3) (Unit × Fin 3) := [⟨2, ((), 1), 0, 1, false, [1]⟩, ⟨1, ((), 0), 2, 1, true, [2]⟩]
def R3 : Aut ℤ (Unit × Fin 3) := [⟨600, ((), 2), 2, 1, false, [603]⟩, ⟨603, ((), 0), 1, 1, false, [600]⟩]

/-- The system goes from 0 to 1 or 2, from 2 to 1, from 1 to 0; the goals are {0} and {1}. -/
def G4 : Game Unit (Fin 3) := sgraph 3 fun s => if s = 0 then [1, 2] else if s = 1 then [0] else [1]
def s4 : List (Finset (Unit × Fin 3)) := [sgoal 3 [0], sgoal 3 [1]]
def st4 : Aut (Fin 2) (Unit × Fin 3) := [⟨2, ((), 1), 0, 1, false, [1]⟩, ⟨1, ((), 0), 1, 1, true, [2]⟩]

end AddEx

open RmEx AddEx in
/-- **Defect.** If a state that satisfies the goal `i0` satisfies the new goal too, the node that stands for
it is freed and then read. The strategy is one `synthesize` returns for a realizable specification. -/
theorem add_sysgoal_holds_ub : ∃ W, checkRealizable Gc [] sA .allInit none (some (goal 4 [0])) = some (some W) ∧
    synthesize Gc [] sA .allInit none (some (goal 4 [0])) (orc Gc 0 0) 100 = .ok stA ∧
    addSysgoal Gc (withDefaultGoal []).get 2 (goal 4 [1]) 0 (par (orc Gc 0 0) 0) (par (orc Gc 0 0) 1) 100
      (intModes stA) = .ub :=
  ⟨_, stA_real, stA_synth, by decide +kernel⟩

open RmEx AddEx in
/-- **Defect.** If a state that satisfies the next goal satisfies the new goal too, the result may have a
node without successor: here no move out of state 3 is answered. -/
theorem add_sysgoal_unanswered : ∃ W R, checkRealizable Gc [] sA .allInit none (some (goal 4 [0])) = some (some W) ∧
    synthesize Gc [] sA .allInit none (some (goal 4 [0])) (orc Gc 0 0) 100 = .ok stA ∧
    AnswersAll Gc (intModes stA) ∧
    addSysgoal Gc (withDefaultGoal []).get 2 (goal 4 [3]) 0 (par (orc Gc 0 0) 0) (par (orc Gc 0 0) 1) 100
      (intModes stA) = .ok R ∧ ¬ AnswersAll Gc R := by
  refine ⟨_, [⟨2, (1, ()), 1, 2, false, [600]⟩, ⟨1, (0, ()), 0, 1, true, [2]⟩, ⟨1400, (3, ()), 2, 0, false, []⟩,
    ⟨600, (2, ()), 1, 1, false, [1400]⟩], stA_real, stA_synth,
    (synthesize_seeks (orc_valid Gc 0 0) stA_real stA_synth).2, by decide +kernel, ?_⟩
  intro hA
  obtain ⟨u, ⟨-, hu, -⟩, -⟩ := hA ⟨1400, (3, ()), 2, 0, false, []⟩ (by simp) 0 (by decide)
  simp at hu

open RmEx AddEx in
/-- **Defect.** The initial mark of a node is lost if its state satisfies the goal after the new one: here
the only initial state is 3 and the result has no initial node. -/
theorem add_sysgoal_initial_lost : ∃ W R, checkRealizable Gc [] sA .allInit none (some (goal 4 [3])) = some (some W) ∧
    synthesize Gc [] sA .allInit none (some (goal 4 [3])) (orc Gc 3 0) 100 = .ok stB ∧
    (∃ x ∈ stB, x.initial = true) ∧
    addSysgoal Gc (withDefaultGoal []).get 2 (goal 4 [2]) 0 (par (orc Gc 3 0) 0) (par (orc Gc 3 0) 1) 100
      (intModes stB) = .ok R ∧ ∀ y ∈ R, y.initial = false :=
  ⟨Finset.univ, [⟨3, (1, ()), 1, 2, false, [600]⟩, ⟨2, (0, ()), 0, 1, false, [3]⟩, ⟨600, (2, ()), 2, 1, false, [603]⟩,
    ⟨603, (3, ()), 0, 2, false, [2]⟩], by decide +kernel, by decide +kernel, by decide, by decide +kernel, by decide⟩

open RmEx AddEx in
/-- **Defect.** If the next goal is entered in two states, freed nodes are read. -/
theorem add_sysgoal_exits_ub : ∃ W, checkRealizable G5 [] s5 .allInit none (some (goal 5 [0])) = some (some W) ∧
    synthesize G5 [] s5 .allInit none (some (goal 5 [0])) (orc G5 0 0) 100 = .ok st5 ∧
    Apart (goal 5 [1]) (goal 5 [3, 4]) (intModes st5) ∧ Apart (goal 5 [3, 4]) (goal 5 [2]) (intModes st5) ∧
    Apart (goal 5 [1]) (goal 5 [2]) (intModes st5) ∧
    addSysgoal G5 (withDefaultGoal []).get 2 (goal 5 [2]) 0 (par (orc G5 0 0) 0) (par (orc G5 0 0) 1) 100
      (intModes st5) = .ub :=
  ⟨Finset.univ, by decide +kernel, by decide +kernel, by unfold Apart; decide +kernel, by unfold Apart; decide +kernel,
    by unfold Apart; decide +kernel, by decide +kernel⟩

open RmEx AddEx in
/-- **Defect.** A successor of a state of the goal `i0` may be a node that is deleted later; it is kept in
the list of nodes from which the result is searched, and freed memory is read. -/
theorem add_sysgoal_succ_ub : ∃ W, checkRealizable G4 [] s4 .allInit none (some (sgoal 3 [0])) = some (some W) ∧
    synthesize G4 [] s4 .allInit none (some (sgoal 3 [0])) (sorc G4 0) 100 = .ok st4 ∧
    Apart (sgoal 3 [0]) (sgoal 3 [1]) (intModes st4) ∧ Apart (sgoal 3 [1]) (sgoal 3 [2]) (intModes st4) ∧
    Apart (sgoal 3 [0]) (sgoal 3 [2]) (intModes st4) ∧
    addSysgoal G4 (withDefaultGoal []).get 2 (sgoal 3 [2]) 0 (par (sorc G4 0) 0) (par (sorc G4 0) 1) 100
      (intModes st4) = .ub :=
  ⟨Finset.univ, by decide +kernel, by decide +kernel, by unfold Apart; decide +kernel, by unfold Apart; decide +kernel,
    by unfold Apart; decide +kernel, by decide +kernel⟩

open RmEx AddEx in
/-- **Defect.** If a state satisfies the goal `i0` and the next one, another goal may be lost: here the
result alternates between 0 and 2 for ever and the goal {1} is never reached; nor is there an initial
node. -/
theorem add_sysgoal_goal_lost : ∃ W ρ, checkRealizable G3 [] s3 .allInit none (some (sgoal 3 [0])) = some (some W) ∧
    synthesize G3 [] s3 .allInit none (some (sgoal 3 [0])) (sorc G3 0) 100 = .ok st3 ∧
    addSysgoal G3 (withDefaultGoal []).get 3 (sgoal 3 [2]) 0 (par (sorc G3 0) 0) (par (sorc G3 0) 1) 100
      (intModes st3) = .ok R3 ∧
    IsRun R3 ρ ∧ (∀ A ∈ ([] : List (Finset (Unit × Fin 3))), InfOften (fun k => (ρ k).state) A) ∧
    ¬ InfOften (fun k => (ρ k).state) (sgoal 3 [1]) ∧ ∀ y ∈ R3, y.initial = false := by
  let nd : Bool → ANode ℤ (Unit × Fin 3) := fun b => if b then ⟨600, ((), 2), 2, 1, false, [603]⟩ else ⟨603, ((), 0), 1, 1, false, [600]⟩
  have hnd : ∀ b, nd b ∈ R3 ∧ (nd !b).id ∈ (nd b).trans ∧ (nd b).state ∉ sgoal 3 [1] := by decide +kernel
  refine ⟨Finset.univ, fun k => nd (k % 2 == 0), by decide +kernel, by decide +kernel, by decide +kernel, fun k => ?_,
    by simp, ?_, by decide⟩
  · refine ⟨(hnd _).1, ?_⟩
    have : ((k + 1) % 2 == 0) = !(k % 2 == 0) := by
      rcases Nat.mod_two_eq_zero_or_one k with h | h
      · have : (k + 1) % 2 = 1 := by omega
        simp [h, this]
      · have : (k + 1) % 2 = 0 := by omega
        simp [h, this]
    simp only [this]
    exact (hnd _).2.1
  · intro h
    obtain ⟨m, -, hm⟩ := h 0
    exact (hnd _).2.2 hm

namespace AddEx

/-- One variable of two bits; goals {3} and {0}, new goal {1}: the second goal is nearer. -/
example : pickGoal mintermCover [(0, 2)] {MetEx.st 1} [{MetEx.st 3}, {MetEx.st 0}] = .ok 1 := by
  obtain ⟨r, h1, -, h2⟩ := pick_goal_closest (ne := 0) (ns := 2) mintermCover mintermCover_isCover [(0, 2)] (by unfold LayoutOk; decide)
    {MetEx.st 1} (Finset.singleton_nonempty _) [{MetEx.st 3}, {MetEx.st 0}] (by simp) (by simp)
  obtain ⟨s, s1, s2⟩ := h2 (by simp)
  rw [h1]
  have hr : r.val < 2 := r.isLt
  have : r.val = 0 ∨ r.val = 1 := by omega
  rcases this with h | h
  · exfalso
    obtain rfl : r = ⟨0, by decide⟩ := Fin.ext h
    have hs : s = MetEx.st 3 := by simpa using s1
    subst hs
    have := (s2 ⟨1, by decide⟩ (MetEx.st 0) (by simp)).1
    revert this
    unfold setDist
    decide +kernel
  · rw [h]; rfl

/-- An empty goal is preferred to one at distance 1. -/
example : pickGoal mintermCover [(0, 2)] {MetEx.st 1} [{MetEx.st 0}, ∅] = .ok 1 := by
  obtain ⟨r, h1, h2, -⟩ := pick_goal_empty (ne := 0) (ns := 2) mintermCover mintermCover_isCover [(0, 2)] (by unfold LayoutOk; decide) (by simp)
    {MetEx.st 1} (Finset.singleton_nonempty _) [{MetEx.st 0}, ∅] ⟨∅, by simp, rfl⟩
  rw [h1]
  have hr : r.val < 2 := r.isLt
  have : r.val = 0 ∨ r.val = 1 := by omega
  rcases this with h | h
  · obtain rfl : r = ⟨0, by decide⟩ := Fin.ext h
    simp at h2
  · rw [h]; rfl

end AddEx

end Gr1c
