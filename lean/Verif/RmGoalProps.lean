import Verif.RmGoalShape

/-!
# C48: removal of a system goal
-/

namespace Gr1c

set_option linter.unusedSectionVars false

variable {E S : Type} [Fintype E] [DecidableEq E] [Fintype S] [DecidableEq S] {m n : ℕ}
  {G : Game E S} {eg : Fin m → Finset (E × S)} {sg : Fin n → Finset (E × S)} {o : Oracle E S}

/-! ## Edges of the result -/

namespace RmShape

variable {st B R : Aut ℤ (E × S)} {d d1 : ℤ} {en ex : List ℕ} {ι : ℕ → Bool} {f : ℕ → ℕ}
  {τ : ℕ → Option (ANode ℤ (E × S))} {D : List ℕ}

theorem kept_unique (h : RmShape st B R d d1 en ex ι f τ D) {y x x' : ANode ℤ (E × S)}
    (h1 : KeptNode st B d d1 f τ D y x) (h2 : KeptNode st B d d1 f τ D y x') : x = x' := by
  rcases h1.id_eq with ⟨a1, a2⟩ | ⟨z, z1, z2, z3⟩ <;> rcases h2.id_eq with ⟨b1, b2⟩ | ⟨w, w1, w2, w3⟩
  · exact eq_of_id_eq h.stat.sids h1.mem h2.mem (a1.symm.trans b1)
  · exact absurd (a1.symm.trans w2) (h.stat.disj x h1.mem w w1)
  · exact absurd (b1.symm.trans z2) (h.stat.disj x' h2.mem z z1)
  · have : z = w := eq_of_id_eq h.stat.bids z1 w1 (z2.symm.trans w2)
    subst this
    rw [z3] at w3
    exact Option.some.inj w3

/-- The node of the result with the address of a node of the substrategy. -/
theorem of_bid (h : RmShape st B R d d1 en ex ι f τ D) {y z : ANode ℤ (E × S)} (hy : y ∈ R) (hz : z ∈ B)
    (hid : y.id = z.id) : y.state = z.state ∧
      (FreshNode B d1 ι τ y z ∨ ∃ x, KeptNode st B d d1 f τ D y x ∧ x.id ∈ ex ∧ z.trans = []) := by
  rcases h.classes y hy with ⟨x, hx⟩ | ⟨w, hw⟩
  · rcases hx.id_eq with ⟨a1, a2⟩ | ⟨w, w1, w2, w3⟩
    · exact absurd (a1.symm.trans hid) (h.stat.disj x hx.mem z hz)
    · have : w = z := eq_of_id_eq h.stat.bids w1 hz (w2.symm.trans hid)
      subst this
      obtain ⟨t1, t2, t3, t4, t5⟩ := h.tau w w1 x w3
      exact ⟨hx.state_eq.trans t3, Or.inr ⟨x, hx, t2, t5⟩⟩
  · have : w = z := eq_of_id_eq h.stat.bids hw.mem hz (hw.id_eq.symm.trans hid)
    subst this
    exact ⟨hw.state_eq, Or.inl hw⟩

/-- An edge of the result that leaves a kept node comes from an edge of the given strategy. -/
theorem edge_kept (h : RmShape st B R d d1 en ex ι f τ D)
    (hcl : ∀ x ∈ st, ∀ j ∈ x.trans, ∃ y ∈ st, y.id = j) {y y' x : ANode ℤ (E × S)} (hy' : y' ∈ R)
    (hx : KeptNode st B d d1 f τ D y x) (he : y'.id ∈ y.trans) :
    ∃ x' ∈ st, x'.id ∈ x.trans ∧ f x'.id = y'.id ∧ y'.state = x'.state ∧
      (KeptNode st B d d1 f τ D y' x' ∨ (x'.mode = d ∧ ((∃ z, FreshNode B d1 ι τ y' z) ∨
        ∃ x'', KeptNode st B d d1 f τ D y' x'' ∧ x''.id ∈ ex))) := by
  rw [hx.trans_eq] at he
  obtain ⟨he, hD⟩ := List.mem_filter.1 he
  obtain ⟨j, hj, hfj⟩ := List.mem_map.1 he
  simp only [decide_eq_true_eq] at hD
  obtain ⟨x', x1, rfl⟩ := hcl x hx.mem j hj
  refine ⟨x', x1, hj, hfj, ?_⟩
  rcases h.tgt x' x1 with ⟨t1, z, z1, z2, z3⟩ | ⟨z, z1, z2⟩ | ⟨t1, t2, t3⟩
  · obtain ⟨s1, s2⟩ := h.of_bid hy' z1 (hfj.symm.trans z2.symm)
    refine ⟨s1.trans z3, Or.inr ⟨?_, ?_⟩⟩
    · obtain ⟨u, -, -, -, v, v1, v2, v3⟩ := (h.en_iff _).1 t1
      rw [eq_of_id_eq h.stat.sids v1 x1 v2] at v3
      exact v3
    · rcases s2 with s2 | ⟨x'', s2, s3, -⟩
      · exact Or.inl ⟨z, s2⟩
      · exact Or.inr ⟨x'', s2, s3⟩
  · obtain ⟨t1, t2, t3, t4, t5⟩ := h.tau z z1 x' z2
    obtain ⟨s1, s2⟩ := h.of_bid hy' z1 (hfj.symm.trans t4)
    refine ⟨s1.trans t3.symm, Or.inl ?_⟩
    rcases s2 with s2 | ⟨x'', s2, s3, -⟩
    · rw [s2.tau] at z2
      simp at z2
    · rcases s2.id_eq with ⟨a1, -⟩ | ⟨w, w1, w2, w3⟩
      · exact absurd (a1.symm.trans (hfj.symm.trans t4)) (h.stat.disj x'' s2.mem z z1)
      · have : w = z := eq_of_id_eq h.stat.bids w1 z1 (w2.symm.trans (hfj.symm.trans t4))
        subst this
        rw [z2] at w3
        rw [Option.some.inj w3]
        exact s2
  · have hid : y'.id = x'.id := hfj.symm.trans t3
    have hk : KeptNode st B d d1 f τ D y' x' := by
      rcases h.classes y' hy' with ⟨x'', hx''⟩ | ⟨w, hw⟩
      · rcases hx''.id_eq with ⟨a1, -⟩ | ⟨w, w1, w2, w3⟩
        · rw [← eq_of_id_eq h.stat.sids hx''.mem x1 (a1.symm.trans hid)]
          exact hx''
        · exact absurd (hid.symm.trans w2) (h.stat.disj x' x1 w w1)
      · exact absurd (hid.symm.trans hw.id_eq) (h.stat.disj x' x1 w hw.mem)
    exact ⟨hk.state_eq, Or.inl hk⟩

/-- An edge of the result that leaves a new node is an edge of the substrategy. -/
theorem edge_fresh (h : RmShape st B R d d1 en ex ι f τ D) {y y' z : ANode ℤ (E × S)} (hy' : y' ∈ R)
    (hz : FreshNode B d1 ι τ y z) (he : y'.id ∈ y.trans) :
    ∃ z' ∈ B, z'.id ∈ z.trans ∧ y'.id = z'.id ∧ y'.state = z'.state ∧
      (FreshNode B d1 ι τ y' z' ∨ ∃ x', KeptNode st B d d1 f τ D y' x' ∧ x'.id ∈ ex) := by
  rw [hz.trans_eq] at he
  obtain ⟨z', z1, z2⟩ := h.stat.bclosed z hz.mem _ he
  obtain ⟨s1, s2⟩ := h.of_bid hy' z1 z2.symm
  refine ⟨z', z1, z2 ▸ he, z2.symm, s1, ?_⟩
  rcases s2 with s2 | ⟨x', s2, s3, -⟩
  · exact Or.inl s2
  · exact Or.inr ⟨x', s2, s3⟩

end RmShape

/-! ## Modes along edges -/

/-- Like `Passes`, with at least one step, and goal `d` not counted. -/
private def PassExc (sg : Fin n → Finset (E × S)) (d i : Fin n) (t : E × S) (j : Fin n) : Prop :=
  ∃ k, 1 ≤ k ∧ (nextIx^[k]) i = j ∧ ∀ c, c < k → (nextIx^[c]) i = d ∨ t ∈ sg ((nextIx^[c]) i)

private theorem passExc_trans {d i j l : Fin n} {t : E × S} (h1 : PassExc sg d i t j)
    (h2 : Passes sg j t l) : PassExc sg d i t l := by
  obtain ⟨a, a1, a2, a3⟩ := h1
  obtain ⟨b, b1, b2⟩ := h2
  refine ⟨b + a, by omega, by rw [Function.iterate_add_apply, a2, b1], ?_⟩
  intro c hc
  by_cases hca : c < a
  · exact a3 c hca
  · right
    have := b2 (c - a) (by omega)
    rw [← a2, ← Function.iterate_add_apply, show c - a + a = c by omega] at this
    exact this

private theorem passExc_of_passes {d i j : Fin n} {t : E × S} (h : Passes sg i t j) (hne : i ≠ j) :
    PassExc sg d i t j := by
  obtain ⟨a, a1, a2⟩ := h
  refine ⟨a, ?_, a1, fun c hc => Or.inr (a2 c hc)⟩
  rcases Nat.eq_zero_or_pos a with rfl | h
  · exact absurd a1 hne
  · exact h

private theorem passExc_next {d i : Fin n} {t : E × S} (h : PassExc sg d i t d) :
    PassExc sg d i t (nextIx d) := by
  obtain ⟨a, a1, a2, a3⟩ := h
  refine ⟨a + 1, by omega, by rw [Function.iterate_succ_apply', a2], ?_⟩
  intro c hc
  rcases Nat.lt_succ_iff_lt_or_eq.1 hc with hc | rfl
  · exact a3 c hc
  · exact Or.inl a2

private theorem fin_cast_inj {i j : Fin n} (h : (i.val : ℤ) = (j.val : ℤ)) : i = j :=
  Fin.ext (by exact_mod_cast h)

private theorem nextIx_cast (d : Fin n) : (((nextIx d).val : ℕ) : ℤ) = ((d.val : ℤ) + 1) % n := by
  rw [nextIx_val]
  have := d.isLt
  split
  · rename_i h
    rw [show ((d.val : ℤ) + 1) = n by exact_mod_cast h]
    simp
  · rename_i h
    rw [Int.emod_eq_of_lt (by omega) (by omega)]
    push_cast
    rfl

private theorem mode_ne_neg {st : Aut ℤ (E × S)} (hS : SeeksInOrder G eg sg st) :
    ∀ x ∈ st, x.mode ≠ -1 := by
  intro x hx hc
  obtain ⟨i, hi⟩ := hS.modes x hx
  omega

private theorem ex_passes {st B R : Aut ℤ (E × S)} {d : Fin n} {en ex : List ℕ} {ι : ℕ → Bool} {f : ℕ → ℕ}
    {τ : ℕ → Option (ANode ℤ (E × S))} {D : List ℕ} (hS : SeeksInOrder G eg sg st)
    (h : RmShape st B R (d.val : ℤ) (((d.val : ℤ) + 1) % n) en ex ι f τ D) {x : ANode ℤ (E × S)}
    (hx : x ∈ st) (hxe : x.id ∈ ex) {j : Fin n} (hj : x.mode = (j.val : ℤ)) :
    PassExc sg d (nextIx d) x.state j ∧ j ≠ d := by
  obtain ⟨u, u1, u2, u3, v, v1, v2, v3, v4⟩ := (h.ex_iff _).1 hxe
  have hvx : v = x := eq_of_id_eq hS.ids v1 hx v2
  subst hvx
  obtain ⟨a, b, hab1, hab2, hp⟩ := hS.order u u1 v v1 u3
  have hbj : b = j := fin_cast_inj (hab2.symm.trans hj)
  subst hbj
  have hbd : b ≠ d := by
    rintro rfl
    exact v4 hab2
  have hbd1 : b ≠ nextIx d := by
    rintro rfl
    exact v3 (hab2.trans (nextIx_cast d))
  refine ⟨?_, hbd⟩
  rcases u2 with u2 | u2
  · have : a = d := fin_cast_inj (hab1.symm.trans u2)
    subst this
    obtain ⟨k, k1, k2⟩ := hp
    have hk2 : 2 ≤ k := by
      by_contra hc
      have : k = 0 ∨ k = 1 := by omega
      rcases this with rfl | rfl
      · exact hbd k1.symm
      · exact hbd1 k1.symm
    obtain ⟨k, rfl⟩ : ∃ k', k = k' + 1 := ⟨k - 1, by omega⟩
    refine ⟨k, by omega, ?_, fun c hc => Or.inr ?_⟩
    · rw [← Function.iterate_succ_apply]
      exact k1
    · rw [← Function.iterate_succ_apply]
      exact k2 (c + 1) (by omega)
  · have : a = nextIx d := fin_cast_inj (hab1.symm.trans (u2.trans (nextIx_cast d).symm))
    subst this
    exact passExc_of_passes hp (fun hc => hbd1 hc.symm)

/-- One edge of the result: the mode moves on over goals that hold, or the edge is one of the given
strategy or of the substrategy and the mode stays. -/
private theorem rm_edge {st B R : Aut ℤ (E × S)} {d : Fin n} {en ex : List ℕ} {ι : ℕ → Bool} {f : ℕ → ℕ}
    {τ : ℕ → Option (ANode ℤ (E × S))} {D : List ℕ} (hS : SeeksInOrder G eg sg st)
    (h : RmShape st B R (d.val : ℤ) (((d.val : ℤ) + 1) % n) en ex ι f τ D) {y y' : ANode ℤ (E × S)}
    (hy : y ∈ R) (hy' : y' ∈ R) (he : y'.id ∈ y.trans) :
    ∃ i j : Fin n, y.mode = (i.val : ℤ) ∧ y'.mode = (j.val : ℤ) ∧
      (PassExc sg d i y'.state j ∨
        (i = j ∧ i ≠ nextIx d ∧ ∀ x, KeptNode st B (d.val : ℤ) (((d.val : ℤ) + 1) % n) f τ D y x →
          ∃ x' ∈ st, x'.id ∈ x.trans ∧ KeptNode st B (d.val : ℤ) (((d.val : ℤ) + 1) % n) f τ D y' x') ∨
        (i = j ∧ i = nextIx d ∧ ∀ z, FreshNode B (((d.val : ℤ) + 1) % n) ι τ y z →
          ∃ z' ∈ B, z'.id ∈ z.trans ∧ FreshNode B (((d.val : ℤ) + 1) % n) ι τ y' z')) := by
  rcases h.classes y hy with ⟨x, hx⟩ | ⟨z, hz⟩
  · obtain ⟨x', x1, x2, -, x3, x4⟩ := h.edge_kept hS.closed hy' hx he
    obtain ⟨i, j, hi, hj, hp⟩ := hS.order x hx.mem x' x1 x2
    have hid : i ≠ d := by rintro rfl; exact hx.mode1 hi
    have hid1 : i ≠ nextIx d := by rintro rfl; exact hx.mode2 (hi.trans (nextIx_cast d))
    rcases x4 with x4 | ⟨x4, x5⟩
    · refine ⟨i, j, hx.mode_eq.trans hi, x4.mode_eq.trans hj, ?_⟩
      by_cases hij : i = j
      · refine Or.inr (Or.inl ⟨hij, hid1, fun w hw => ?_⟩)
        rw [h.kept_unique hw hx]
        exact ⟨x', x1, x2, x4⟩
      · rw [x3]
        exact Or.inl (passExc_of_passes hp hij)
    · have hjd : j = d := fin_cast_inj (hj.symm.trans x4)
      subst hjd
      have hp1 := passExc_next (passExc_of_passes (d := j) hp hid)
      rcases x5 with ⟨z, hz⟩ | ⟨x'', hx'', hxe⟩
      · refine ⟨i, nextIx j, hx.mode_eq.trans hi, hz.mode_eq.trans (nextIx_cast j).symm, Or.inl ?_⟩
        rw [x3]
        exact hp1
      · obtain ⟨l, hl⟩ := hS.modes x'' hx''.mem
        obtain ⟨q1, q2⟩ := ex_passes hS h hx''.mem hxe hl
        refine ⟨i, l, hx.mode_eq.trans hi, hx''.mode_eq.trans hl, Or.inl ?_⟩
        have hst : x''.state = y'.state := hx''.state_eq.symm
        rw [hst] at q1
        rw [x3] at q1 ⊢
        obtain ⟨a, a1, a2, a3⟩ := hp1
        obtain ⟨b, b1, b2, b3⟩ := q1
        refine ⟨b + a, by omega, by rw [Function.iterate_add_apply, a2, b2], ?_⟩
        intro c hc
        by_cases hca : c < a
        · exact a3 c hca
        · have := b3 (c - a) (by omega)
          rw [← a2, ← Function.iterate_add_apply, show c - a + a = c by omega] at this
          exact this
  · obtain ⟨z', z1, z2, -, z3, z4⟩ := h.edge_fresh hy' hz he
    rcases z4 with z4 | ⟨x', hx', hxe⟩
    · refine ⟨nextIx d, nextIx d, hz.mode_eq.trans (nextIx_cast d).symm,
        z4.mode_eq.trans (nextIx_cast d).symm, Or.inr (Or.inr ⟨rfl, rfl, fun w hw => ?_⟩)⟩
      rw [eq_of_id_eq h.stat.bids hw.mem hz.mem (hw.id_eq.symm.trans hz.id_eq)]
      exact ⟨z', z1, z2, z4⟩
    · obtain ⟨l, hl⟩ := hS.modes x' hx'.mem
      obtain ⟨q1, q2⟩ := ex_passes hS h hx'.mem hxe hl
      refine ⟨nextIx d, l, hz.mode_eq.trans (nextIx_cast d).symm, hx'.mode_eq.trans hl, Or.inl ?_⟩
      rw [hx'.state_eq]
      exact q1

/-! ## C48 -/

/-- **C48.** If `rm_sysgoal` is given a strategy of the documented form and returns an automaton, then
addresses are distinct, every edge is legal for environment and system, and every infinite run
satisfies the liveness part for all goals but the removed one: if each environment goal holds
infinitely often, so does each remaining system goal. Allocations of the substrategy do not reuse
addresses of the loaded strategy. -/
theorem rm_sysgoal_runs {st R : Aut ℤ (E × S)} (hS : SeeksInOrder G eg sg st) (ho : o.Valid G)
    (hfresh : ∀ c l, ∀ x ∈ st, o.alloc c l ≠ x.id) (d : Fin n) {fuel : ℕ}
    (h : rmSysgoal G eg n (d.val : ℤ) o fuel st = .ok R) :
    (R.map (·.id)).Nodup ∧ LegalEdges G R ∧
      ∀ ρ, IsRun R ρ → (∀ r, InfOften (fun k => (ρ k).state) (eg r)) →
        ∀ i, i ≠ d → InfOften (fun k => (ρ k).state) (sg i) := by
  obtain ⟨-, -, -, B, en, ex, ι, f, τ, D, hreach, hBne, hsh⟩ := rm_shape (n := n) hS.ids (mode_ne_neg hS) ho
    (fun c l hc => by obtain ⟨x, x1, x2⟩ := mem_ids.1 hc; exact hfresh c l x x1 x2.symm) h
  obtain ⟨-, -, -, b4⟩ := reach_answers (Finset.subset_univ _) ho hreach hBne
  refine ⟨hsh.ids, ?_, ?_⟩
  · intro y hy y' hy' he
    rcases hsh.classes y hy with ⟨x, hx⟩ | ⟨z, hz⟩
    · obtain ⟨x', x1, x2, -, x3, -⟩ := hsh.edge_kept hS.closed hy' hx he
      rw [hx.state_eq, x3]
      exact hS.legal x hx.mem x' x1 x2
    · obtain ⟨z', z1, z2, -, z3, -⟩ := hsh.edge_fresh hy' hz he
      rw [hz.state_eq, z3]
      exact (b4 z hz.mem).2.2.2.2.1 z' z1 z2
  · intro ρ hρ henv g hg
    by_contra hcon
    unfold InfOften at hcon
    push Not at hcon
    obtain ⟨N, hN⟩ := hcon
    have hedge := fun k => rm_edge hS hsh (hρ k).1 (hρ (k + 1)).1 (hρ k).2
    have hmd : ∀ k, ∃ i : Fin n, (ρ k).mode = (i.val : ℤ) := fun k => by
      obtain ⟨i, j, hi, -⟩ := hedge k
      exact ⟨i, hi⟩
    choose md hmd using hmd
    -- the distance to `g` never grows and drops at every step over a goal
    have hstep : ∀ k, N ≤ k → dist g (md (k + 1)) ≤ dist g (md k) ∧
        (PassExc sg d (md k) (ρ (k + 1)).state (md (k + 1)) → dist g (md (k + 1)) < dist g (md k)) := by
      intro k hk
      have hpass : PassExc sg d (md k) (ρ (k + 1)).state (md (k + 1)) →
          dist g (md (k + 1)) < dist g (md k) := by
        rintro ⟨a, a1, a2, a3⟩
        have := dist_advance (i := g) (k := md k) (d := a) (by
          intro c hc heq
          rcases a3 c hc with h' | h'
          · exact hg (heq.symm.trans h')
          · rw [heq] at h'
            exact hN (k + 1) (by omega) h')
        rw [a2] at this
        omega
      refine ⟨?_, hpass⟩
      obtain ⟨i, j, hi, hj, hc⟩ := hedge k
      have hik : i = md k := fin_cast_inj (hi.symm.trans (hmd k))
      have hjk : j = md (k + 1) := fin_cast_inj (hj.symm.trans (hmd (k + 1)))
      subst hik hjk
      rcases hc with hc | ⟨hc, -⟩ | ⟨hc, -⟩
      · exact (hpass hc).le
      · rw [← hc]
      · rw [← hc]
    obtain ⟨K, hK1, hK⟩ := eventually_const (fun k => dist g (md k)) N (fun k hk => (hstep k hk).1)
    have hno : ∀ k, K ≤ k → ¬ PassExc sg d (md k) (ρ (k + 1)).state (md (k + 1)) := by
      intro k hk hc
      have h1 := (hstep k (by omega)).2 hc
      have h2 : dist g (md (k + 1)) = dist g (md k) := hK k hk
      omega
    have hmode : ∀ k, K ≤ k → md (k + 1) = md k := by
      intro k hk
      obtain ⟨i, j, hi, hj, hc⟩ := hedge k
      have hik : i = md k := fin_cast_inj (hi.symm.trans (hmd k))
      have hjk : j = md (k + 1) := fin_cast_inj (hj.symm.trans (hmd (k + 1)))
      subst hik hjk
      rcases hc with hc | ⟨hc, -⟩ | ⟨hc, -⟩
      · exact absurd hc (hno k hk)
      · exact hc.symm
      · exact hc.symm
    have hconst : ∀ a, md (K + a) = md K := by
      intro a
      induction a with
      | zero => rfl
      | succ a ih => rw [← ih]; exact hmode (K + a) (by omega)
    by_cases hd1 : md K = nextIx d
    · -- the run stays in the substrategy
      have hfr : ∀ a, ∃ z, FreshNode B (((d.val : ℤ) + 1) % n) ι τ (ρ (K + a)) z := by
        intro a
        rcases hsh.classes _ (hρ (K + a)).1 with ⟨x, hx⟩ | hz
        · exfalso
          apply hx.mode2
          rw [← hx.mode_eq, hmd, hconst, hd1, nextIx_cast]
        · exact hz
      choose z hz using hfr
      obtain ⟨r, K', hr⟩ := reach_live (Finset.subset_univ _) ho hreach z (by
        intro a
        refine ⟨(hz a).mem, ?_⟩
        obtain ⟨i, j, hi, hj, hc⟩ := hedge (K + a)
        have hik : i = md (K + a) := fin_cast_inj (hi.symm.trans (hmd _))
        have hjk : j = md (K + a + 1) := fin_cast_inj (hj.symm.trans (hmd _))
        subst hik hjk
        rcases hc with hc | ⟨-, hc, -⟩ | ⟨-, -, hc⟩
        · exact absurd hc (hno _ (by omega))
        · exact absurd ((hconst a).trans hd1) hc
        · obtain ⟨z', z1, z2, z3⟩ := hc _ (hz a)
          have h2 := hz (a + 1)
          rw [← z3.id_eq, show K + a + 1 = K + (a + 1) by omega, h2.id_eq] at z2
          exact z2)
      obtain ⟨k, hk1, hk2⟩ := henv r (K + K')
      have := hr (k - K) (by omega)
      rw [← (hz (k - K)).state_eq, show K + (k - K) = k by omega] at this
      exact this hk2
    · -- the run stays in the kept part
      have hkp : ∀ a, ∃ x, KeptNode st B (d.val : ℤ) (((d.val : ℤ) + 1) % n) f τ D (ρ (K + a)) x := by
        intro a
        rcases hsh.classes _ (hρ (K + a)).1 with hx | ⟨z, hz⟩
        · exact hx
        · exfalso
          apply hd1
          apply fin_cast_inj
          rw [← hconst a, ← hmd, hz.mode_eq, nextIx_cast]
      choose x hx using hkp
      have hrun : IsRun st x := by
        intro a
        refine ⟨(hx a).mem, ?_⟩
        obtain ⟨i, j, hi, hj, hc⟩ := hedge (K + a)
        have hik : i = md (K + a) := fin_cast_inj (hi.symm.trans (hmd _))
        have hjk : j = md (K + a + 1) := fin_cast_inj (hj.symm.trans (hmd _))
        subst hik hjk
        rcases hc with hc | ⟨-, -, hc⟩ | ⟨-, hc, -⟩
        · exact absurd hc (hno _ (by omega))
        · obtain ⟨x', x1, x2, x3⟩ := hc _ (hx a)
          have h2 := hx (a + 1)
          rw [show K + (a + 1) = K + a + 1 by omega] at h2
          rw [← hsh.kept_unique x3 h2]
          exact x2
        · exact absurd ((hconst a).symm.trans hc) hd1
      have hl := hS.live x hrun (by
        intro r M
        obtain ⟨k, hk1, hk2⟩ := henv r (K + M)
        refine ⟨k - K, by omega, ?_⟩
        change (x (k - K)).state ∈ eg r
        rw [← (hx (k - K)).state_eq, show K + (k - K) = k by omega]
        exact hk2) g N
      obtain ⟨k, hk1, hk2⟩ := hl
      refine hN (K + k) (by omega) ?_
      rw [(hx k).state_eq]
      exact hk2

/-- **C48, no dead ends.** If moreover every node of the given strategy answers every move of the
environment and no edge from the kept part leads into a node of the successor mode, then every node of
the result has exactly one edge for every legal move of the environment. -/
theorem rm_sysgoal_answers {st R : Aut ℤ (E × S)} (hS : SeeksInOrder G eg sg st) (ho : o.Valid G)
    (hfresh : ∀ c l, ∀ x ∈ st, o.alloc c l ≠ x.id) (d : Fin n) {fuel : ℕ}
    (h : rmSysgoal G eg n (d.val : ℤ) o fuel st = .ok R) (hans : AnswersAll G st)
    (hskip : NoSkip (d.val : ℤ) (((d.val : ℤ) + 1) % n) st) : AnswersAll G R := by
  obtain ⟨-, -, -, B, en, ex, ι, f, τ, D, hreach, hBne, hsh⟩ := rm_shape (n := n) hS.ids (mode_ne_neg hS) ho
    (fun c l hc => by obtain ⟨x, x1, x2⟩ := mem_ids.1 hc; exact hfresh c l x x1 x2.symm) h
  obtain ⟨-, -, -, b4⟩ := reach_answers (Finset.subset_univ _) ho hreach hBne
  -- a node of the substrategy lives on
  have hbnode : ∀ z ∈ B, ∃ y ∈ R, y.id = z.id ∧ y.state = z.state := by
    intro z hz
    cases hz' : τ z.id with
    | none =>
      obtain ⟨y, y1, y2⟩ := hsh.fresh z hz hz'
      exact ⟨y, y1, y2.id_eq, y2.state_eq⟩
    | some x =>
      obtain ⟨t1, t2, t3, t4, -⟩ := hsh.tau z hz x hz'
      obtain ⟨u, -, -, -, v, v1, v2, v3, v4⟩ := (hsh.ex_iff _).1 t2
      have hvx : v = x := eq_of_id_eq hS.ids v1 t1 v2
      subst hvx
      obtain ⟨y, y1, y2⟩ := hsh.kept v t1 v4 v3
      refine ⟨y, y1, ?_, y2.state_eq.trans t3⟩
      rcases y2.id_eq with ⟨-, hun⟩ | ⟨w, w1, w2, w3⟩
      · exact absurd hz' (hun z hz)
      · obtain ⟨-, -, -, t4', -⟩ := hsh.tau w w1 v w3
        rw [w2, ← t4', t4]
  intro y hy e he
  rcases hsh.classes y hy with ⟨x, hx⟩ | ⟨z, hz⟩
  · rw [hx.state_eq] at he
    obtain ⟨x', ⟨x1, x2, x3⟩, xu⟩ := hans x hx.mem e he
    have hex : ∃ y' ∈ R, y'.id = f x'.id ∧ y'.state = x'.state ∧ f x'.id ∉ D := by
      have hBD : ∀ z ∈ B, z.id ∉ D := by
        intro z hz hc
        obtain ⟨u, u1, u2, -⟩ := (hsh.D_iff _).1 hc
        exact hsh.stat.disj u u1 z hz u2
      rcases hsh.tgt x' x1 with ⟨t1, z, z1, z2, z3⟩ | ⟨z, z1, z2⟩ | ⟨t1, t2, t3⟩
      · obtain ⟨y', y1, y2, y3⟩ := hbnode z z1
        exact ⟨y', y1, y2.trans z2, y3.trans z3, z2 ▸ hBD z z1⟩
      · obtain ⟨t1, t2, t3, t4, t5⟩ := hsh.tau z z1 x' z2
        obtain ⟨y', y1, y2, y3⟩ := hbnode z z1
        exact ⟨y', y1, y2.trans t4.symm, y3.trans t3.symm, t4 ▸ hBD z z1⟩
      · have hm1 : x'.mode ≠ (d.val : ℤ) := by
          intro hc
          exact t2 ((hsh.en_iff _).2 ⟨x, hx.mem, hx.mode1, x2, x', x1, rfl, hc⟩)
        have hm2 : x'.mode ≠ (((d.val : ℤ) + 1) % n) :=
          hskip x hx.mem hx.mode1 hx.mode2 x' x1 x2
        obtain ⟨y', y1, y2⟩ := hsh.kept x' x1 hm1 hm2
        refine ⟨y', y1, ?_, y2.state_eq, ?_⟩
        · rcases y2.id_eq with ⟨hid, -⟩ | ⟨w, w1, w2, w3⟩
          · rw [hid, t3]
          · exact absurd w3 (t1 w w1)
        · rw [t3]
          intro hc
          obtain ⟨u, u1, u2, u3⟩ := (hsh.D_iff _).1 hc
          rw [eq_of_id_eq hS.ids u1 x1 u2] at u3
          rcases u3 with u3 | u3
          · exact hm1 u3
          · exact hm2 u3
    obtain ⟨y', y1, y2, y3, y4⟩ := hex
    refine ⟨y', ⟨y1, ?_, by rw [y3]; exact x3⟩, ?_⟩
    · rw [hx.trans_eq, List.mem_filter, y2]
      exact ⟨List.mem_map_of_mem x2, by simpa using y4⟩
    · rintro w ⟨w1, w2, w3⟩
      obtain ⟨v, v1, v2, v3, v4, -⟩ := hsh.edge_kept hS.closed w1 hx w2
      have : v = x' := xu v ⟨v1, v2, by rw [← v4]; exact w3⟩
      subst this
      exact eq_of_id_eq hsh.ids w1 y1 (by rw [← v3, y2])
  · rw [hz.state_eq] at he
    have hne : z.state ∉ ptrStates st ex := by
      intro hc
      exact hsh.term z hz.mem hz.tau ((b4 z hz.mem).2.2.2.1 hc)
    obtain ⟨z', ⟨z1, z2, z3⟩, zu⟩ := ((b4 z hz.mem).2.2.2.2.2 hne).2 e he
    obtain ⟨y', y1, y2, y3⟩ := hbnode z' z1
    refine ⟨y', ⟨y1, by rw [hz.trans_eq, y2]; exact z2, by rw [y3]; exact z3⟩, ?_⟩
    rintro w ⟨w1, w2, w3⟩
    obtain ⟨v, v1, v2, v3, v4, -⟩ := hsh.edge_fresh w1 hz w2
    have : v = z' := zu v ⟨v1, v2, by rw [← v4]; exact w3⟩
    subst this
    exact eq_of_id_eq hsh.ids w1 y1 (by rw [v3, y2])

/-- **C48, initial nodes.** If no initial node has one of the two modes, as the documentation asks,
the initial nodes of the result are those of the given strategy, with the same states and modes. -/
theorem rm_sysgoal_initial {st R : Aut ℤ (E × S)} (hS : SeeksInOrder G eg sg st) (ho : o.Valid G)
    (hfresh : ∀ c l, ∀ x ∈ st, o.alloc c l ≠ x.id) (d : Fin n) {fuel : ℕ}
    (h : rmSysgoal G eg n (d.val : ℤ) o fuel st = .ok R)
    (hinit : ∀ x ∈ st, x.initial = true → x.mode ≠ (d.val : ℤ) ∧ x.mode ≠ (((d.val : ℤ) + 1) % n))
    (s : E × S) (i : ℤ) :
    (∃ y ∈ R, y.initial = true ∧ y.state = s ∧ y.mode = i) ↔
      ∃ x ∈ st, x.initial = true ∧ x.state = s ∧ x.mode = i := by
  obtain ⟨-, -, -, B, en, ex, ι, f, τ, D, hreach, hBne, hsh⟩ := rm_shape (n := n) hS.ids (mode_ne_neg hS) ho
    (fun c l hc => by obtain ⟨x, x1, x2⟩ := mem_ids.1 hc; exact hfresh c l x x1 x2.symm) h
  constructor
  · rintro ⟨y, y1, y2, y3, y4⟩
    rcases hsh.classes y y1 with ⟨x, hx⟩ | ⟨z, hz⟩
    · exact ⟨x, hx.mem, hx.init_eq ▸ y2, hx.state_eq ▸ y3, hx.mode_eq ▸ y4⟩
    · exfalso
      have := hsh.noinit (by
        intro x hx hm
        by_contra hc
        exact (hinit x hx (by simpa using hc)).1 hm) z hz.mem
      rw [← hz.init_eq, y2] at this
      simp at this
  · rintro ⟨x, x1, x2, x3, x4⟩
    obtain ⟨y, y1, y2⟩ := hsh.kept x x1 (hinit x x1 x2).1 (hinit x x1 x2).2
    exact ⟨y, y1, y2.init_eq.trans x2, y2.state_eq.trans x3, y2.mode_eq.trans x4⟩

/-! ## The outcome of a call -/

private theorem ee_lists {st : Aut ℤ (E × S)} {d d1 : ℤ} {en ex : List ℕ} (hids : (Aut.ids st).Nodup)
    (h : collectEE st d d1 st ([], []) = some (en, ex)) :
    en.length = (EntryNodes d st).length ∧ ex.length = (ExitNodes d d1 st).length ∧
      ptrStates st en = nodeStates (EntryNodes d st) ∧ ptrStates st ex = nodeStates (ExitNodes d d1 st) := by
  obtain ⟨c1, c2, c3, c4⟩ := collectEE_spec hids _ _ _ h
  simp only [List.not_mem_nil, false_or, List.nodup_nil, forall_const] at c1 c2 c3 c4
  have hen : ∀ y ∈ st, y.id ∈ en ↔ y ∈ EntryNodes d st := by
    intro y hy
    rw [c1]
    unfold EntryNodes
    simp only [List.mem_filter, decide_eq_true_eq]
    constructor
    · rintro ⟨x, x1, x2, x3, w, w1, w2, w3⟩
      rw [eq_of_id_eq hids w1 hy w2] at w3
      exact ⟨hy, w3, x, x1, x2, x3⟩
    · rintro ⟨_, w3, x, x1, x2, x3⟩
      exact ⟨x, x1, x2, x3, y, hy, rfl, w3⟩
  have hex : ∀ y ∈ st, y.id ∈ ex ↔ y ∈ ExitNodes d d1 st := by
    intro y hy
    rw [c2]
    unfold ExitNodes
    simp only [List.mem_filter, decide_eq_true_eq]
    constructor
    · rintro ⟨x, x1, x2, x3, w, w1, w2, w3, w4⟩
      rw [eq_of_id_eq hids w1 hy w2] at w3 w4
      exact ⟨hy, w4, w3, x, x1, x2, x3⟩
    · rintro ⟨_, w4, w3, x, x1, x2, x3⟩
      exact ⟨x, x1, x2, x3, y, hy, rfl, w3, w4⟩
  have hlen : ∀ (a : List ℕ) (l : Aut ℤ (E × S)), a.Nodup → l.Sublist st →
      (∀ y ∈ st, y.id ∈ a ↔ y ∈ l) → (∀ p ∈ a, ∃ y ∈ st, y.id = p) →
      a.length = l.length ∧ ptrStates st a = nodeStates l := by
    intro a l ha hl h1 h2
    constructor
    · have : a.Perm (l.map (·.id)) := by
        rw [List.perm_ext_iff_of_nodup ha ((hl.map _).nodup hids)]
        intro p
        constructor
        · intro hp
          obtain ⟨y, y1, rfl⟩ := h2 p hp
          exact List.mem_map_of_mem ((h1 y y1).1 hp)
        · intro hp
          obtain ⟨y, y1, rfl⟩ := List.mem_map.1 hp
          exact (h1 y (hl.subset y1)).2 y1
      simpa using this.length_eq
    · ext s
      rw [mem_ptrStates hids]
      unfold nodeStates
      simp only [List.mem_toFinset, List.mem_map]
      constructor
      · rintro ⟨x, x1, x2, x3⟩
        exact ⟨x, (h1 x x1).1 x2, x3⟩
      · rintro ⟨x, x1, x2⟩
        exact ⟨x, hl.subset x1, (h1 x (hl.subset x1)).2 x1, x2⟩
  obtain ⟨e1, e2⟩ := hlen en _ c3 List.filter_sublist hen (fun p hp => by
    obtain ⟨x, -, -, -, y, y1, y2, -⟩ := (c1 p).1 hp
    exact ⟨y, y1, y2⟩)
  obtain ⟨e3, e4⟩ := hlen ex _ c4 List.filter_sublist hex (fun p hp => by
    obtain ⟨x, -, -, -, y, y1, y2, -⟩ := (c2 p).1 hp
    exact ⟨y, y1, y2⟩)
  exact ⟨e1, e3, e2, e4⟩

/-- The outcome of `rm_sysgoal` on a strategy with distinct addresses and no dangling edges, at least
three goals, and an environment that is never blocked. Without nodes of the two modes it returns NULL.
With more exits than nodes to delete it writes beyond the end of the array `Exit`. Otherwise it returns
an automaton if there is an entry and from every entry the system can force the play to an exit (or
violate an environment goal), and NULL if not. -/
theorem rm_sysgoal_outcome {st : Aut ℤ (E × S)} (hids : (st.map (·.id)).Nodup)
    (hcl : ∀ x ∈ st, ∀ j ∈ x.trans, ∃ y ∈ st, y.id = j) (ho : o.Valid G)
    (hfresh : ∀ c l, ∀ x ∈ st, o.alloc c l ≠ x.id) (hn : 3 ≤ n) (hm : 0 < m) (d : Fin n) {d1 : ℤ}
    (hd1 : d1 = ((d.val : ℤ) + 1) % n) (henv : ∀ s, ∃ e, G.etr s e = true) {fuel : ℕ}
    (hf : Fintype.card E * Fintype.card S ≤ fuel) :
    (DelNodes (d.val : ℤ) d1 st = [] → rmSysgoal G eg n (d.val : ℤ) o fuel st = .err) ∧
    (DelNodes (d.val : ℤ) d1 st ≠ [] →
      (DelNodes (d.val : ℤ) d1 st).length < (ExitNodes (d.val : ℤ) d1 st).length →
      rmSysgoal G eg n (d.val : ℤ) o fuel st = .ub) ∧
    (DelNodes (d.val : ℤ) d1 st ≠ [] →
      (ExitNodes (d.val : ℤ) d1 st).length ≤ (DelNodes (d.val : ℤ) d1 st).length →
      (∃ R, rmSysgoal G eg n (d.val : ℤ) o fuel st = .ok R ∧ EntryNodes (d.val : ℤ) st ≠ [] ∧
        ∀ x ∈ EntryNodes (d.val : ℤ) st, ReachWinnable G (List.ofFn eg)
          (nodeStates (ExitNodes (d.val : ℤ) d1 st)) Finset.univ x.state) ∨
      (rmSysgoal G eg n (d.val : ℤ) o fuel st = .err ∧ ¬ (EntryNodes (d.val : ℤ) st ≠ [] ∧
        ∀ x ∈ EntryNodes (d.val : ℤ) st, ReachWinnable G (List.ofFn eg)
          (nodeStates (ExitNodes (d.val : ℤ) d1 st)) Finset.univ x.state))) := by
  have hcap : numDel (d.val : ℤ) d1 st = (DelNodes (d.val : ℤ) d1 st).length := by
    unfold numDel DelNodes
    rw [List.countP_eq_length_filter]
  have hdl := d.isLt
  have hd : ¬ ((d.val : ℤ) < 0 ∨ (n : ℤ) ≤ (d.val : ℤ)) := by omega
  have hn' : ¬ n < 3 := by omega
  obtain ⟨⟨en, ex⟩, hEE⟩ := collectEE_some (l := st) (d := (d.val : ℤ)) (d1 := d1) st ([], []) (by
    intro x hx j hj
    exact mem_ids.2 (hcl x hx j hj))
  obtain ⟨l1, l2, l3, l4⟩ := ee_lists hids hEE
  have hele : (EntryNodes (d.val : ℤ) st).length ≤ (DelNodes (d.val : ℤ) d1 st).length := by
    unfold EntryNodes DelNodes
    apply List.Sublist.length_le
    apply List.monotone_filter_right
    intro x hx
    simp only [decide_eq_true_eq] at hx ⊢
    exact Or.inl hx.1
  refine ⟨?_, ?_, ?_⟩
  · intro h0
    unfold rmSysgoal
    rw [if_neg hd, if_neg hn', ← hd1]
    simp only
    rw [if_pos (by rw [hcap, h0]; rfl)]
  · intro h0 h1
    unfold rmSysgoal
    rw [if_neg hd, if_neg hn', ← hd1]
    simp only
    rw [if_neg (by rw [hcap]; simpa using h0), hEE]
    simp only
    rw [if_pos (Or.inr (by rw [hcap, l2]; exact h1))]
  · intro h0 h1
    obtain ⟨B, hB, hBne⟩ := reach_exact (G := G) (Entry := ptrStates st en) (Exit := ptrStates st ex)
      (N := Finset.univ) (eg := eg) (Finset.subset_univ _) hm ho hf
    have hcond : B ≠ [] ↔ (EntryNodes (d.val : ℤ) st ≠ [] ∧ ∀ x ∈ EntryNodes (d.val : ℤ) st,
          ReachWinnable G (List.ofFn eg) (nodeStates (ExitNodes (d.val : ℤ) d1 st)) Finset.univ x.state) := by
      rw [hBne, l3, l4]
      unfold nodeStates
      constructor
      · rintro ⟨⟨s, hs⟩, h2⟩
        refine ⟨?_, fun x hx => h2 _ (by simp only [List.mem_toFinset]; exact List.mem_map_of_mem hx)⟩
        intro hc
        rw [hc] at hs
        simp at hs
      · rintro ⟨h2, h3⟩
        obtain ⟨x, hx⟩ := List.exists_mem_of_ne_nil _ h2
        refine ⟨⟨x.state, by simp only [List.mem_toFinset]; exact List.mem_map_of_mem hx⟩, ?_⟩
        intro s hs
        simp only [List.mem_toFinset, List.mem_map] at hs
        obtain ⟨x, x1, rfl⟩ := hs
        exact h3 x x1
    unfold rmSysgoal
    rw [if_neg hd, if_neg hn', ← hd1]
    simp only
    rw [if_neg (by rw [hcap]; simpa using h0), hEE]
    simp only
    rw [if_neg (by rw [hcap, l1, l2]; omega), hB]
    cases B with
    | nil =>
      refine Or.inr ⟨rfl, ?_⟩
      rw [← hcond]
      simp
    | cons z0 zs =>
      refine Or.inl ?_
      simp only
      obtain ⟨b1, b2, b3, b4⟩ := reach_answers (Finset.subset_univ _) ho hB (by simp)
      obtain ⟨c1, c2, -, -⟩ := collectEE_spec hids _ _ _ hEE
      simp only [List.not_mem_nil, false_or] at c1 c2
      have hdisj : ∀ x ∈ st, ∀ z ∈ z0 :: zs, x.id ≠ z.id := by
        intro x hx z hz hc
        obtain ⟨c, l, hcl⟩ := reach_alloc hB z hz
        exact hfresh c l x hx (hcl.symm.trans hc.symm)
      have hstat : CStat st (z0 :: zs) en ex := by
        refine ⟨hids, b1, hdisj, fun z hz => (b4 z hz).2.2.1, ?_, ?_⟩
        · intro p hp hp'
          obtain ⟨x, -, -, -, y, y1, y2, y3, y4⟩ := (c2 p).1 hp
          obtain ⟨x', -, -, -, y', z1, z2, z3⟩ := (c1 p).1 hp'
          rw [eq_of_id_eq hids z1 y1 (z2.trans y2.symm)] at z3
          exact y4 z3
        · intro p hp
          obtain ⟨x, -, -, -, y, y1, y2, -⟩ := (c2 p).1 hp
          exact ⟨y, y1, y2⟩
      have hself : ∃ ι : ℕ → Bool, z0 :: zs = (z0 :: zs).map fun z => { z with initial := ι z.id } := by
        refine ⟨fun _ => false, ?_⟩
        conv_lhs => rw [← List.map_id (z0 :: zs)]
        apply List.map_congr_left
        intro z hz
        rw [← reach_noInit hB z hz]
        rfl
      obtain ⟨⟨st1, sub1⟩, hen⟩ := connectEntry_ok (B := z0 :: zs) en st (z0 :: zs) hself hids (by
        intro p hp
        obtain ⟨x, -, -, -, y, y1, y2, -⟩ := (c1 p).1 hp
        obtain ⟨z, z1, z2⟩ := b3 y.state ((mem_ptrStates hids).2 ⟨y, y1, y2 ▸ hp, rfl⟩)
        exact ⟨y, y1, y2, z, z1, z2⟩)
      rw [hen]
      simp only
      obtain ⟨f0, ι, e1, e2, e3, e4, e5⟩ := connectEntry_spec (B := z0 :: zs) en st _ st1 sub1 hen (by
        intro p hp hc
        obtain ⟨x, -, -, -, y, y1, y2, -⟩ := (c1 p).1 hp
        obtain ⟨z, z1, z2⟩ := mem_ids.1 hc
        exact hdisj y y1 z z1 (y2.trans z2.symm)) hself
      have hinv0 : CInv st (z0 :: zs) ι en ex f0 (fun _ => none) (ex.map some) st1 sub1 := by
        refine ⟨?_, ?_, ?_, ?_, ?_, ?_⟩
        · rw [e1]; simp
        · rw [e2]; rfl
        · intro z _ x hx; simp at hx
        · intro p; simp
        · intro y hy
          by_cases hye : y.id ∈ en
          · obtain ⟨z, z1, z2, x, x1, x2, x3⟩ := e4 _ hye
            rw [eq_of_id_eq hids x1 hy x2] at x3
            exact Or.inl ⟨hye, z, z1, z2, x3.symm⟩
          · exact Or.inr (Or.inr ⟨by simp, hye, e3 _ hye⟩)
        · intro z hz
          apply e3
          intro hc
          obtain ⟨x, -, -, -, y, y1, y2, -⟩ := (c1 _).1 hc
          exact hdisj y y1 z hz y2
      have hsids : sub1.map (·.id) = Aut.ids (z0 :: zs) := hinv0.ids_sub
      obtain ⟨⟨st2, sub2⟩, hex⟩ := connectExit_ok hstat b2 (by
        intro z hz hzt
        by_contra hc
        have hzx : z.state ∉ ptrStates st ex := by
          intro hc'
          obtain ⟨x, x1, x2, x3⟩ := (mem_ptrStates hids).1 hc'
          exact hc ⟨x, x1, x2, x3⟩
        obtain ⟨e, he⟩ := henv z.state
        obtain ⟨w, ⟨-, w2, -⟩, -⟩ := ((b4 z hz).2.2.2.2.2 hzx).2 e he
        rw [hzt] at w2
        simp at w2) (sub1.map (·.id)) _ _ _ _ _ hinv0 (by rw [hsids]; exact b1)
        (by intro q hq; rw [hsids] at hq; exact ⟨hq, rfl⟩)
      rw [hex]
      exact ⟨_, rfl, hcond.1 (by simp)⟩

/-! ## Strategies made by `synthesize` -/

/-- The automaton as it is after writing and loading, with integer modes. -/
def intModes {V : Type} (st : Aut (Fin n) V) : Aut ℤ V :=
  st.map fun x => ⟨x.id, x.state, (x.mode.val : ℤ), x.rgrad, x.initial, x.trans⟩

/-- The strategies made by `synthesize` after a positive verdict have the documented form and answer
every move of the environment. -/
theorem synthesize_seeks {egs sgs : List (Finset (E × S))} {flag : InitFlag}
    {einit sinit : Option (Finset (E × S))} {o : Oracle E S} {W : Finset (E × S)} (ho : o.Valid G)
    (hr : checkRealizable G egs sgs flag einit sinit = some (some W)) {fuel : ℕ}
    {st : Aut (Fin sgs.length) (E × S)} (h : synthesize G egs sgs flag einit sinit o fuel = .ok st) :
    SeeksInOrder G (withDefaultGoal egs).get sgs.get (intModes st) ∧ AnswersAll G (intModes st) := by
  obtain ⟨h1, -, h2⟩ := synthesize_answers ho hr h
  have hback : ∀ y ∈ intModes st, ∃ x ∈ st, y.id = x.id ∧ y.state = x.state ∧ y.trans = x.trans ∧
      y.mode = (x.mode.val : ℤ) := by
    intro y hy
    unfold intModes at hy
    obtain ⟨x, x1, rfl⟩ := List.mem_map.1 hy
    exact ⟨x, x1, rfl, rfl, rfl, rfl⟩
  have hforth : ∀ x ∈ st, ∃ y ∈ intModes st, y.id = x.id ∧ y.state = x.state := by
    intro x hx
    exact ⟨_, List.mem_map.2 ⟨x, hx, rfl⟩, rfl, rfl⟩
  refine ⟨⟨?_, ?_, ?_, ?_, ?_, ?_⟩, ?_⟩
  · unfold intModes
    rw [List.map_map]
    exact h1
  · intro y hy j hj
    obtain ⟨x, x1, x2, x3, x4, x5⟩ := hback y hy
    obtain ⟨w, w1, w2⟩ := (h2 x x1).2.2.1 j (x4 ▸ hj)
    obtain ⟨v, v1, v2, -⟩ := hforth w w1
    exact ⟨v, v1, v2.trans w2⟩
  · intro y hy
    obtain ⟨x, x1, x2, x3, x4, x5⟩ := hback y hy
    exact ⟨x.mode, x5⟩
  · intro y hy y' hy' he
    obtain ⟨x, x1, x2, x3, x4, x5⟩ := hback y hy
    obtain ⟨x', x1', x2', x3', x4', x5'⟩ := hback y' hy'
    rw [x3, x3']
    exact (h2 x x1).2.2.2.1 x' x1' (by rw [← x2', ← x4]; exact he)
  · intro y hy y' hy' he
    obtain ⟨x, x1, x2, x3, x4, x5⟩ := hback y hy
    obtain ⟨x', x1', x2', x3', x4', x5'⟩ := hback y' hy'
    refine ⟨x.mode, x'.mode, x5, x5', ?_⟩
    rw [x3']
    exact synthesize_in_order ho hr h x1 x1' (by rw [← x2', ← x4]; exact he)
  · intro ρ hρ henv
    choose x hx using fun k => hback (ρ k) (hρ k).1
    have hst : (fun k => (ρ k).state) = fun k => (x k).state := funext fun k => (hx k).2.2.1
    rw [hst] at henv ⊢
    have := synthesize_live ho hr h x (by
      intro k
      refine ⟨(hx k).1, ?_⟩
      rw [← (hx k).2.2.2.1, ← (hx (k + 1)).2.1]
      exact (hρ k).2) (by
      intro A hA
      obtain ⟨i, hi⟩ := List.get_of_mem (l := withDefaultGoal egs) (a := A) (by
        unfold withDefaultGoal
        rw [if_neg (List.ne_nil_of_mem hA)]
        exact hA)
      rw [← hi]
      exact henv i)
    intro i
    exact this _ (List.get_mem sgs i)
  · intro y hy e he
    obtain ⟨x, x1, x2, x3, x4, x5⟩ := hback y hy
    rw [x3] at he
    obtain ⟨w, ⟨w1, w2, w3⟩, wu⟩ := (h2 x x1).2.2.2.2 e he
    refine ⟨⟨w.id, w.state, (w.mode.val : ℤ), w.rgrad, w.initial, w.trans⟩,
      ⟨List.mem_map.2 ⟨w, w1, rfl⟩, by rw [x4]; exact w2, w3⟩, ?_⟩
    rintro v ⟨v1, v2, v3⟩
    unfold intModes at v1
    obtain ⟨u, u1, rfl⟩ := List.mem_map.1 v1
    rw [wu u ⟨u1, by rw [← x4]; exact v2, v3⟩]

/-- **C48 for the strategies of gr1c itself.** If the strategy was made by `synthesize` after a
positive verdict, no further assumption on it is needed. -/
theorem rm_sysgoal_synthesized {egs sgs : List (Finset (E × S))} {flag : InitFlag}
    {einit sinit : Option (Finset (E × S))} {o o' : Oracle E S} {W : Finset (E × S)} (ho : o.Valid G)
    (ho' : o'.Valid G) (hr : checkRealizable G egs sgs flag einit sinit = some (some W))
    {fuel fuel' : ℕ} {st : Aut (Fin sgs.length) (E × S)} {R : Aut ℤ (E × S)}
    (h : synthesize G egs sgs flag einit sinit o fuel = .ok st)
    (hfresh : ∀ c l, ∀ x ∈ st, o'.alloc c l ≠ x.id) (d : Fin sgs.length)
    (hrm : rmSysgoal G (withDefaultGoal egs).get sgs.length (d.val : ℤ) o' fuel' (intModes st) = .ok R) :
    LegalEdges G R ∧ ∀ ρ, IsRun R ρ → (∀ A ∈ egs, InfOften (fun k => (ρ k).state) A) →
      ∀ i, i ≠ d → InfOften (fun k => (ρ k).state) (sgs.get i) := by
  obtain ⟨h1, -⟩ := synthesize_seeks ho hr h
  obtain ⟨-, h2, h3⟩ := rm_sysgoal_runs h1 ho' (by
    intro c l x hx
    unfold intModes at hx
    obtain ⟨w, w1, rfl⟩ := List.mem_map.1 hx
    exact hfresh c l w w1) d hrm
  refine ⟨h2, fun ρ hρ henv => h3 ρ hρ ?_⟩
  intro r
  by_cases he : egs = []
  · have hall : ∀ A ∈ withDefaultGoal egs, A = Finset.univ := by
      unfold withDefaultGoal
      rw [if_pos he]
      simp
    rw [hall _ (List.get_mem _ r)]
    exact fun N => ⟨N, le_rfl, Finset.mem_univ _⟩
  · have hall : ∀ A ∈ withDefaultGoal egs, A ∈ egs := by
      unfold withDefaultGoal
      rw [if_neg he]
      simp
    exact henv _ (hall _ (List.get_mem _ r))

/-! ## Concrete strategies and the defects -/

namespace RmEx

/-- A graph whose states are chosen by the environment. -/
def graph (k : ℕ) (succ : Fin k → List (Fin k)) : Game (Fin k) Unit :=
  ⟨fun s e => e ∈ succ s.1, fun _ _ => true⟩

/-- The states with the given numbers. -/
def goal (k : ℕ) (l : List (Fin k)) : Finset (Fin k × Unit) := Finset.univ.filter fun s => s.1 ∈ l

/-- Addresses above `base`. -/
def orc {k : ℕ} (G : Game (Fin k) Unit) (d : Fin k) (base : ℕ) : Oracle (Fin k) Unit :=
  let o := stdOracle G ((List.finRange k).map fun e => (e, ())) (List.finRange k) (d, ())
  { o with alloc := fun c l => o.alloc c l + base }

theorem orc_valid {k : ℕ} (G : Game (Fin k) Unit) (d : Fin k) (base : ℕ) : (orc G d base).Valid G := by
  have h := stdOracle_valid G ((List.finRange k).map fun e => (e, ())) (List.finRange k) (d, ())
    ((List.nodup_finRange k).map fun a b h => (Prod.mk.inj h).1)
    (fun s => List.mem_map.2 ⟨s.1, List.mem_finRange _, rfl⟩) (List.nodup_finRange k) List.mem_finRange
  refine ⟨?_, h.pick, h.moves_nodup, h.moves_mem, h.enum_nodup, h.enum_mem, h.enumEnv_nodup, h.enumEnv_mem⟩
  intro c ids hc
  have hle : ∀ l : List ℕ, ∀ i ∈ l, i ≤ l.foldr max 0 := by
    intro l
    induction l with
    | nil => simp
    | cons a l ih =>
      intro i hi
      rcases List.mem_cons.1 hi with rfl | hi
      · simp
      · have := ih i hi
        simp only [List.foldr_cons]
        omega
  have := hle ids _ hc
  simp only [orc, stdOracle] at this
  omega

theorem orc_fresh {k : ℕ} (G : Game (Fin k) Unit) (d : Fin k) (base c : ℕ) (l : List ℕ) :
    base < (orc G d base).alloc c l := by
  simp only [orc, stdOracle]
  omega

/-- Mode, address, state, edges of every node. -/
def view {V : Type} (r : SRes (Aut ℤ V)) : Option (List (ℤ × ℕ × V × List ℕ)) :=
  match r with
  | .ok st => some (st.map fun x => (x.mode, x.id, x.state, x.trans))
  | _ => none

/-- The cycle 0 → 1 → 2 → 3 → 0 with goals {1}, {2}, {3}. -/
def Gc : Game (Fin 4) Unit := graph 4 fun s => [s + 1]
def sc : List (Finset (Fin 4 × Unit)) := [goal 4 [1], goal 4 [2], goal 4 [3]]
def ic : Option (Finset (Fin 4 × Unit)) := some (goal 4 [0])

/-- The strategy `synthesize` returns. -/
def stc : Aut (Fin 3) (Fin 4 × Unit) :=
  [⟨4, (3, ()), 0, 2, false, [1]⟩, ⟨3, (2, ()), 2, 1, false, [4]⟩, ⟨2, (1, ()), 1, 1, false, [3]⟩,
    ⟨1, (0, ()), 0, 1, true, [2]⟩]

theorem stc_synth : synthesize Gc [] sc .allInit none ic (orc Gc 0 0) 100 = .ok stc := by decide +kernel

theorem stc_real : ∃ W, checkRealizable Gc [] sc .allInit none ic = some (some W) :=
  ⟨Finset.univ, by decide +kernel⟩

theorem fresh_of_le {k n : ℕ} (G : Game (Fin k) Unit) (d : Fin k) (st : Aut (Fin n) (Fin k × Unit))
    (base : ℕ) (h : ∀ x ∈ st, x.id ≤ base) (c : ℕ) (l : List ℕ) :
    ∀ x ∈ st, (orc G d base).alloc c l ≠ x.id := by
  intro x hx hc
  have h1 := orc_fresh G d base c l
  have h2 := h x hx
  omega

set_option synthInstance.maxSize 1000 in
/-- The result for the cycle: the goal {2} is removed, the detour to state 3 is built anew. -/
theorem stc_removed : view (rmSysgoal Gc (withDefaultGoal []).get 3 1 (orc Gc 0 100) 100 (intModes stc)) =
    some [(0, 1, (0, ()), [101]), (0, 303, (3, ()), [1]), (2, 202, (2, ()), [303]), (2, 101, (1, ()), [202])] := by
  decide +kernel

theorem ok_of_view {V : Type} {r : SRes (Aut ℤ V)} (h : (view r).isSome = true) : ∃ R, r = .ok R := by
  cases r <;> simp [view] at h ⊢

/-- The hypotheses of the theorems above hold for the cycle: every run of the new automaton passes
through 1 and 3 infinitely often, and the automaton still answers every move. -/
example : ∃ R, rmSysgoal Gc (withDefaultGoal []).get 3 1 (orc Gc 0 100) 100 (intModes stc) = .ok R ∧
    AnswersAll Gc R ∧
    ∀ ρ, IsRun R ρ → ∀ i, i ≠ (1 : Fin 3) → InfOften (fun k => (ρ k).state) (sc.get i) := by
  obtain ⟨R, hR⟩ := ok_of_view (r := rmSysgoal Gc (withDefaultGoal []).get 3 1 (orc Gc 0 100) 100
    (intModes stc)) (by rw [stc_removed]; rfl)
  obtain ⟨W, hW⟩ := stc_real
  obtain ⟨hs, ha⟩ := synthesize_seeks (orc_valid Gc 0 0) hW stc_synth
  refine ⟨R, hR, ?_, ?_⟩
  · refine rm_sysgoal_answers hs (orc_valid Gc 0 100) ?_ (1 : Fin 3) hR ha ?_
    · intro c l x hx
      obtain ⟨y, hy, rfl⟩ := List.mem_map.1 hx
      exact fresh_of_le Gc 0 stc 100 (by decide) c l y hy
    · unfold NoSkip
      decide +kernel
  · intro ρ hρ
    exact (rm_sysgoal_synthesized (orc_valid Gc 0 0) (orc_valid Gc 0 100) hW stc_synth
      (fresh_of_le Gc 0 stc 100 (by decide)) (1 : Fin 3) hR).2 ρ hρ (by simp)

/-- From 0 the environment goes to 1, 2 or 3, then to 4, then back to 0; the goals are {4}, {0} and
{1, 2, 3}. -/
def Go : Game (Fin 5) Unit :=
  graph 5 fun s => if s = 0 then [1, 2, 3] else if s = 4 then [0] else [4]
def so : List (Finset (Fin 5 × Unit)) := [goal 5 [4], goal 5 [0], goal 5 [1, 2, 3]]
def io : Option (Finset (Fin 5 × Unit)) := some (goal 5 [1])

/-- The strategy `synthesize` returns. -/
def sto : Aut (Fin 3) (Fin 5 × Unit) :=
  [⟨5, (3, ()), 0, 1, false, [2]⟩, ⟨4, (2, ()), 0, 1, false, [2]⟩, ⟨3, (0, ()), 2, 1, false, [1, 4, 5]⟩,
    ⟨2, (4, ()), 1, 1, false, [3]⟩, ⟨1, (1, ()), 0, 1, true, [2]⟩]

/-- From 0 the environment goes to 1 or 2; the way back is 1 → 3 → 4 → 0 or 2 → 4 → 0; the goals are
{1, 2}, {2, 3} and {4}. Entering 2 from mode 0 passes the goals 0 and 1 at once. -/
def Gs : Game (Fin 5) Unit :=
  graph 5 fun s => if s = 0 then [1, 2] else if s = 1 then [3] else if s = 4 then [0] else [4]
def ss : List (Finset (Fin 5 × Unit)) := [goal 5 [1, 2], goal 5 [2, 3], goal 5 [4]]
def is : Option (Finset (Fin 5 × Unit)) := some (goal 5 [0])

/-- The strategy `synthesize` returns. -/
def sts : Aut (Fin 3) (Fin 5 × Unit) :=
  [⟨5, (3, ()), 2, 1, false, [4]⟩, ⟨4, (4, ()), 0, 2, false, [1]⟩, ⟨3, (2, ()), 2, 1, false, [4]⟩,
    ⟨2, (1, ()), 1, 1, false, [5]⟩, ⟨1, (0, ()), 0, 1, true, [2, 3]⟩]

end RmEx

private theorem cons_of_map {V : Type} {R : Aut ℤ V} {a : ℤ × ℕ × V × List ℕ} {l : List (ℤ × ℕ × V × List ℕ)}
    (h : (R.map fun x => (x.mode, x.id, x.state, x.trans)) = a :: l) :
    ∃ x R', R = x :: R' ∧ (x.mode = a.1 ∧ x.id = a.2.1 ∧ x.state = a.2.2.1 ∧ x.trans = a.2.2.2) ∧
      (R'.map fun x => (x.mode, x.id, x.state, x.trans)) = l := by
  cases R with
  | nil => simp at h
  | cons x R' =>
    simp only [List.map_cons, List.cons.injEq] at h
    exact ⟨x, R', rfl, by simp [← h.1], h.2⟩

/-- **Defect.** `rm_sysgoal` allocates the array `Exit` for as many nodes as are deleted (lines
704-717) and then stores one entry for every node that stays and has an edge from a deleted node
(lines 719-735). Here two nodes are deleted and three entries are stored: the array is overrun. The
strategy is one that `synthesize` returns for a realizable specification, and it has the form
`patching.h` asks for. -/
theorem rm_sysgoal_overflow : ∃ W, checkRealizable RmEx.Go [] RmEx.so .allInit none RmEx.io = some (some W) ∧
    synthesize RmEx.Go [] RmEx.so .allInit none RmEx.io (RmEx.orc RmEx.Go 0 0) 100 = .ok RmEx.sto ∧
    SeeksInOrder RmEx.Go (withDefaultGoal []).get RmEx.so.get (intModes RmEx.sto) ∧
    rmSysgoal RmEx.Go (withDefaultGoal []).get 3 1 (RmEx.orc RmEx.Go 0 100) 100 (intModes RmEx.sto) = .ub := by
  have h1 : checkRealizable RmEx.Go [] RmEx.so .allInit none RmEx.io = some (some Finset.univ) := by
    decide +kernel
  have h2 : synthesize RmEx.Go [] RmEx.so .allInit none RmEx.io (RmEx.orc RmEx.Go 0 0) 100 = .ok RmEx.sto := by
    decide +kernel
  exact ⟨_, h1, h2, (synthesize_seeks (RmEx.orc_valid RmEx.Go 0 0) h1 h2).1, by decide +kernel⟩

set_option synthInstance.maxSize 1000 in
/-- **Defect.** When entering a state satisfies the goal before the removed one and the removed goal
too, the strategy goes from a kept node straight to a node of the mode after it. Such a node is
deleted and its edge is not reconnected (only nodes of mode `delete_i` are put in `Entry`, lines
736-749). Here the strategy returned by `synthesize` answers every move, and in the result of
`rm_sysgoal` the move to state 2 from state 0 has no answer. -/
theorem rm_sysgoal_skip_unanswered : ∃ W R,
    checkRealizable RmEx.Gs [] RmEx.ss .allInit none RmEx.is = some (some W) ∧
    synthesize RmEx.Gs [] RmEx.ss .allInit none RmEx.is (RmEx.orc RmEx.Gs 0 0) 100 = .ok RmEx.sts ∧
    SeeksInOrder RmEx.Gs (withDefaultGoal []).get RmEx.ss.get (intModes RmEx.sts) ∧
    AnswersAll RmEx.Gs (intModes RmEx.sts) ∧
    rmSysgoal RmEx.Gs (withDefaultGoal []).get 3 1 (RmEx.orc RmEx.Gs 0 100) 100 (intModes RmEx.sts) = .ok R ∧
    ¬ AnswersAll RmEx.Gs R := by
  have h1 : checkRealizable RmEx.Gs [] RmEx.ss .allInit none RmEx.is = some (some Finset.univ) := by
    decide +kernel
  have h2 : synthesize RmEx.Gs [] RmEx.ss .allInit none RmEx.is (RmEx.orc RmEx.Gs 0 0) 100 = .ok RmEx.sts := by
    decide +kernel
  have hv : RmEx.view (rmSysgoal RmEx.Gs (withDefaultGoal []).get 3 1 (RmEx.orc RmEx.Gs 0 100) 100
      (intModes RmEx.sts)) = some [(0, 1, (0, ()), [101]), (0, 303, (4, ()), [1]), (2, 202, (3, ()), [303]),
      (2, 101, (1, ()), [202])] := by decide +kernel
  obtain ⟨R, hR⟩ := RmEx.ok_of_view (by rw [hv]; rfl)
  obtain ⟨h3, h4⟩ := synthesize_seeks (RmEx.orc_valid RmEx.Gs 0 0) h1 h2
  refine ⟨_, R, h1, h2, h3, h4, hR, ?_⟩
  intro hA
  rw [hR] at hv
  simp only [RmEx.view, Option.some.injEq] at hv
  obtain ⟨x, R1, rfl, ⟨_, _, hx, _⟩, hv⟩ := cons_of_map hv
  obtain ⟨y, R2, rfl, ⟨_, _, hy, _⟩, hv⟩ := cons_of_map hv
  obtain ⟨z, R3, rfl, ⟨_, _, hz, _⟩, hv⟩ := cons_of_map hv
  obtain ⟨w, R4, rfl, ⟨_, _, hw, _⟩, hv⟩ := cons_of_map hv
  cases List.map_eq_nil_iff.1 hv
  obtain ⟨u, ⟨hu, _, hue⟩, _⟩ := hA x (by simp) 2 (by rw [hx]; decide)
  simp only [List.mem_cons, List.not_mem_nil, or_false] at hu
  rcases hu with rfl | rfl | rfl | rfl
  · rw [hx] at hue; exact absurd hue (by decide)
  · rw [hy] at hue; exact absurd hue (by decide)
  · rw [hz] at hue; exact absurd hue (by decide)
  · rw [hw] at hue; exact absurd hue (by decide)

/-- **Defect.** An initial node of a removed mode is deleted unless it is also an `Entry` node (lines
818-834 copy the flag for `Entry` nodes only). On the cycle the only initial node has mode 0; after the
removal of goal 0 no node is initial. -/
theorem rm_sysgoal_initial_lost : ∃ W R,
    checkRealizable RmEx.Gc [] RmEx.sc .allInit none RmEx.ic = some (some W) ∧
    synthesize RmEx.Gc [] RmEx.sc .allInit none RmEx.ic (RmEx.orc RmEx.Gc 0 0) 100 = .ok RmEx.stc ∧
    (∃ x ∈ RmEx.stc, x.initial = true) ∧
    rmSysgoal RmEx.Gc (withDefaultGoal []).get 3 0 (RmEx.orc RmEx.Gc 0 100) 100 (intModes RmEx.stc) = .ok R ∧
    ∀ y ∈ R, y.initial = false := by
  obtain ⟨W, hW⟩ := RmEx.stc_real
  have key : (match rmSysgoal RmEx.Gc (withDefaultGoal []).get 3 0 (RmEx.orc RmEx.Gc 0 100) 100
      (intModes RmEx.stc) with
      | .ok R => decide (∀ y ∈ R, y.initial = false)
      | _ => false) = true := by decide +kernel
  cases hR : rmSysgoal RmEx.Gc (withDefaultGoal []).get 3 0 (RmEx.orc RmEx.Gc 0 100) 100
      (intModes RmEx.stc) with
  | ok R =>
    rw [hR] at key
    exact ⟨W, R, hW, RmEx.stc_synth, by decide, rfl, of_decide_eq_true key⟩
  | ub => rw [hR] at key; cases key
  | err => rw [hR] at key; cases key
  | timeout => rw [hR] at key; cases key

end Gr1c
