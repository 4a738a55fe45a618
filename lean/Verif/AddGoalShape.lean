import Verif.AddGoalGlue
import Verif.RmGoalShape
import Verif.ReachProps

/-!
# The shape of the result of `add_metric_sysgoal`
-/

namespace Gr1c

set_option linter.unusedSectionVars false

variable {E S : Type} [Fintype E] [DecidableEq E] [Fintype S] [DecidableEq S]

/-- The first component with its mode. -/
def labelled (n : ℕ) (B : Aut ℤ (E × S)) : Aut ℤ (E × S) := B.map fun z => { z with mode := (n : ℤ) + 1 }

/-- The result `R`: made of the strategy `st` and the components `B1`, `B2`. -/
structure AddShape (n : ℕ) (i0 i1 : ℤ) (st B1 B2 R : Aut ℤ (E × S)) (gi0 gi1 : List ℕ) (φ : ℕ → ℕ)
    (src : ℕ → ANode ℤ (E × S)) : Prop where
  ids : (Aut.ids R).Nodup
  uids : (Aut.ids (st ++ labelled n B1 ++ B2)).Nodup
  closed : ∀ y ∈ R, ∀ j ∈ y.trans, ∃ y' ∈ R, y'.id = j
  mem : ∀ y ∈ R, src y.id ∈ st ++ labelled n B1 ++ B2
  state : ∀ y ∈ R, y.state = (src y.id).state
  mode : ∀ y ∈ R, y.mode = newMode n i0 i1 (src y.id).mode
  idem : ∀ y ∈ R, sig φ src (src y.id) = src y.id
  edge : ∀ y ∈ R, ∀ y' ∈ R, y'.id ∈ y.trans → ∃ c ∈ st ++ labelled n B1 ++ B2, c.id ∈ (src y.id).trans ∧ φ c.id = y'.id ∧
    c.state = y'.state
  back : ∀ y ∈ R, ∀ c ∈ st ++ labelled n B1 ++ B2, c.id ∈ (src y.id).trans → ∃ y' ∈ R, y'.id ∈ y.trans ∧ y'.id = φ c.id ∧
    c.state = y'.state
  init : ∀ y ∈ R, y.initial = true → ∃ x ∈ st, x.initial = true ∧ x.state = y.state ∧ x.id = y.id
  kept : ∀ x ∈ st, x.initial = true → x.id ∉ gi1 → ∃ y ∈ R, y.initial = true ∧ y.state = x.state ∧ y.id = x.id
  s1 : ∀ c ∈ st, c.id ∉ gi0 → sig φ src c = c
  s2 : ∀ c ∈ st, c.id ∈ gi0 → sig φ src c ∈ labelled n B1 ∧ (sig φ src c).trans ≠ [] ∧ (sig φ src c).state = c.state
  s3 : ∀ c ∈ labelled n B1, c.trans ≠ [] → sig φ src c = c
  s4 : ∀ c ∈ labelled n B1, c.trans = [] → sig φ src c ∈ B2 ∧ (sig φ src c).state = c.state
  s5 : ∀ c ∈ B2, (sig φ src c = c ∧ (c.trans ≠ [] ∨ ∃ z ∈ B1, z.trans = [] ∧ z.state = c.state)) ∨
    (c.trans = [] ∧ ∃ x ∈ st, x.id ∈ gi1 ∧ x.state = c.state ∧ sig φ src c = sig φ src x)

theorem labelled_mem {n : ℕ} {B : Aut ℤ (E × S)} {c : ANode ℤ (E × S)} (h : c ∈ labelled n B) :
    ∃ z ∈ B, c = { z with mode := (n : ℤ) + 1 } := by
  unfold labelled at h
  obtain ⟨z, z1, z2⟩ := List.mem_map.1 h
  exact ⟨z, z1, z2.symm⟩

theorem labelled_ids (n : ℕ) (B : Aut ℤ (E × S)) : Aut.ids (labelled n B) = Aut.ids B := by
  unfold labelled Aut.ids
  rw [List.map_map]; rfl

variable {m : ℕ} {G : Game E S} {eg : Fin m → Finset (E × S)}

theorem add_shape {n : ℕ} {new : Finset (E × S)} {i0 : ℤ} {o1 o2 : Oracle E S} {fuel : ℕ} {st R : Aut ℤ (E × S)}
    (hids : (Aut.ids st).Nodup) (hcl : ∀ x ∈ st, ∀ j ∈ x.trans, ∃ y ∈ st, y.id = j)
    (ho1 : o1.Valid G) (ho2 : o2.Valid G) (hf1 : ∀ c l, o1.alloc c l ∉ Aut.ids st) (hf2 : ∀ c l, o2.alloc c l ∉ Aut.ids st)
    (hf12 : ∀ c l c' l', o1.alloc c l ≠ o2.alloc c' l')
    (h : addSysgoal G eg n new i0 o1 o2 fuel st = .ok R) :
    ∃ B1 B2 X1 X2 E2 φ src, B1 ≠ [] ∧ B2 ≠ [] ∧ reachGame G X1 new Finset.univ eg o1 fuel = .ok B1 ∧
      reachGame G E2 X2 Finset.univ eg o2 fuel = .ok B2 ∧
      (∀ s, s ∈ X1 ↔ ∃ x ∈ st, x.id ∈ crossNodes i0 st ∧ x.state = s) ∧
      (∀ s, s ∈ X2 ↔ ∃ x ∈ st, x.id ∈ crossNodes (nextGoal n i0) st ∧ x.state = s) ∧
      (∀ s ∈ E2, ∃ c ∈ st ++ B1, c.state = s) ∧
      AddShape n i0 (nextGoal n i0) st B1 B2 R (crossNodes i0 st) (crossNodes (nextGoal n i0) st) φ src := by
  unfold addSysgoal at h
  simp only at h
  set i1 := nextGoal n i0 with hi1
  set gi0 := crossNodes i0 st with hgi0
  set gi1 := crossNodes i1 st with hgi1
  have hgsub : ∀ i, (crossNodes i st).Sublist (Aut.ids st) := by
    intro i
    unfold crossNodes Aut.ids
    exact List.Sublist.map _ List.filter_sublist
  split at h
  all_goals try (simp at h; done)
  rename_i y0 ys hr1
  set B1 := y0 :: ys with hB1
  change (match attach true gi0 st (labelled n B1) with
    | .ub => _
    | .err => _
    | .timeout => _
    | .ok (st1, sub1) => _) = _ at h
  have hB1ne : B1 ≠ [] := by simp [hB1]
  obtain ⟨b11, b12, b13, b14⟩ := reach_answers (Finset.subset_univ _) ho1 hr1 hB1ne
  have hB1ids : (Aut.ids (labelled n B1)).Nodup := by rw [labelled_ids]; exact b11
  have hB1al : ∀ i ∈ Aut.ids (labelled n B1), ∃ c l, i = o1.alloc c l := by
    intro i hi
    rw [labelled_ids] at hi
    obtain ⟨z, z1, rfl⟩ := mem_ids.1 hi
    exact reach_alloc hr1 z z1
  have hB1cl : ∀ c ∈ labelled n B1, ∀ j ∈ c.trans, ∃ y ∈ labelled n B1, y.id = j := by
    intro c hc j hj
    obtain ⟨z, z1, rfl⟩ := labelled_mem hc
    obtain ⟨w, w1, w2⟩ := (b14 z z1).2.2.1 j hj
    exact ⟨_, List.mem_map_of_mem w1, w2⟩
  have hst0 : Glue st st id (fun i => (derefNode st i).getD y0) :=
    Glue.refl hids (fun c hc => by rw [derefNode_of_mem hids hc]; rfl)
  have hdisj1 : ∀ c ∈ st, c.id ∉ Aut.ids (labelled n B1) := by
    intro c hc hi
    obtain ⟨a, l, e⟩ := hB1al _ hi
    exact hf1 a l (mem_ids.2 ⟨c, hc, e⟩)
  have hg1 := hst0.append hB1ids hdisj1 hcl hB1cl
  have hU1ids : (Aut.ids (st ++ labelled n B1)).Nodup := hg1.nodup
  -- the start: nothing moved
  generalize hφ1 : (fun i => if i ∈ Aut.ids (labelled n B1) then i else id i) = φ1 at hg1
  generalize hsrc1 : (fun i => (derefNode (labelled n B1) i).getD ((derefNode st i).getD y0)) = src1 at hg1
  have hφ1id : ∀ i, φ1 i = i := by intro i; rw [← hφ1]; simp
  have hsrc1id : ∀ c ∈ st ++ labelled n B1, src1 c.id = c := by
    intro c hc
    have e1 := hg1.back c hc
    rw [hφ1id] at e1
    exact eq_of_id_eq hU1ids (hg1.mem c hc) hc e1
  have hsig1 : ∀ c ∈ st ++ labelled n B1, sig φ1 src1 c = c := by
    intro c hc; unfold sig; rw [hφ1id, hsrc1id c hc]
  have honly1 : ∀ i, Only (st ++ labelled n B1) φ1 i := by
    intro i c hc e; rw [hφ1id] at e; exact e
  cases ha1 : attach true gi0 st (labelled n B1) with
  | ub => rw [ha1] at h; simp at h
  | err => rw [ha1] at h; simp at h
  | timeout => rw [ha1] at h; simp at h
  | ok r1 =>
    obtain ⟨st1, sub1⟩ := r1
    rw [ha1] at h
    simp only at h
    have hg0nd : gi0.Nodup := hids.sublist (hgsub i0)
    have hg1nd : gi1.Nodup := hids.sublist (hgsub i1)
    obtain ⟨φ2, src2, hg2, p1, p2, p3, p4, p5, p6⟩ := attach_glue gi0 st (labelled n B1) st1 sub1 φ1 src1 hg1 hg0nd
      (fun p hp => ⟨(hgsub i0).subset hp, honly1 p⟩) ha1
    split at h
    · simp at h
    · rename_i hdang
      have hreach : ∀ p ∈ deadEnds (labelled n B1), p ∈ Aut.ids (st1 ++ sub1) := by
        intro p hp
        simp only [Bool.not_eq_true, List.any_eq_false, Option.isNone_iff_eq_none] at hdang
        cases hd : derefNode (st1 ++ sub1) p with
        | none => exact absurd hd (hdang p hp)
        | some y =>
          obtain ⟨y1, y2⟩ := derefNode_some hd
          exact mem_ids.2 ⟨y, y1, y2⟩
      have hreachB : ∀ p, p ∈ deadEnds (labelled n B1) ↔ ∃ c ∈ labelled n B1, c.trans = [] ∧ c.id = p := by
        intro p
        unfold deadEnds
        simp only [List.mem_map, List.mem_filter, decide_eq_true_eq]
        constructor
        · rintro ⟨c, ⟨c1, c2⟩, c3⟩; exact ⟨c, c1, c2, c3⟩
        · rintro ⟨c, c1, c2, c3⟩; exact ⟨c, ⟨c1, c2⟩, c3⟩
      have hreachsub : ∀ p ∈ deadEnds (labelled n B1), p ∈ Aut.ids sub1 := by
        intro p hp
        obtain ⟨c, c1, -, c3⟩ := (hreachB p).1 hp
        have := hreach p hp
        unfold Aut.ids at this
        rw [List.map_append, List.mem_append] at this
        rcases this with h' | h'
        · exfalso
          change p ∈ Aut.ids st1 at h'
          rw [p1] at h'
          obtain ⟨x, x1, x2⟩ := mem_ids.1 h'
          exact hdisj1 x x1 (by rw [x2, ← c3]; exact mem_ids.2 ⟨c, c1, rfl⟩)
        · exact h'
      -- states of nodes in the list
      have hstate2 : ∀ c ∈ st ++ labelled n B1, ∀ y ∈ st1 ++ sub1, y.id = c.id → y.state = c.state := by
        intro c hc y hy e
        obtain ⟨c', c1, c2, -, c3⟩ := hg2.own y hy
        rw [← c3, eq_of_id_eq hU1ids c1 hc (c2.trans e)]
      split at h
      all_goals try (simp at h; done)
      rename_i z0 zs hr2
      set B2 := z0 :: zs with hB2
      have hB2ne : B2 ≠ [] := by simp [hB2]
      obtain ⟨b21, b22, b23, b24⟩ := reach_answers (Finset.subset_univ _) ho2 hr2 hB2ne
      have hB2al : ∀ i ∈ Aut.ids B2, ∃ c l, i = o2.alloc c l := by
        intro i hi
        obtain ⟨z, z1, rfl⟩ := mem_ids.1 hi
        exact reach_alloc hr2 z z1
      have hB2cl : ∀ c ∈ B2, ∀ j ∈ c.trans, ∃ y ∈ B2, y.id = j := fun c hc => (b24 c hc).2.2.1
      have hdisj2 : ∀ c ∈ st ++ labelled n B1, c.id ∉ Aut.ids B2 := by
        intro c hc hi
        obtain ⟨a, l, e⟩ := hB2al _ hi
        rcases List.mem_append.1 hc with hc | hc
        · exact hf2 a l (mem_ids.2 ⟨c, hc, e⟩)
        · obtain ⟨a', l', e'⟩ := hB1al c.id (mem_ids.2 ⟨c, hc, rfl⟩)
          exact hf12 a' l' a l (e'.symm.trans e)
      have hU1cl : ∀ c ∈ st ++ labelled n B1, ∀ j ∈ c.trans, ∃ y ∈ st ++ labelled n B1, y.id = j := by
        intro c hc j hj
        rcases List.mem_append.1 hc with hc | hc
        · obtain ⟨y, y1, y2⟩ := hcl c hc j hj
          exact ⟨y, List.mem_append_left _ y1, y2⟩
        · obtain ⟨y, y1, y2⟩ := hB1cl c hc j hj
          exact ⟨y, List.mem_append_right _ y1, y2⟩
      have hg3 := hg2.append b21 hdisj2 hU1cl hB2cl
      have hUids : (Aut.ids (st ++ labelled n B1 ++ B2)).Nodup := by
        unfold Aut.ids
        rw [List.map_append, List.nodup_append]
        refine ⟨hU1ids, b21, ?_⟩
        rintro i hi j hj rfl
        obtain ⟨c, c1, rfl⟩ := List.mem_map.1 hi
        exact hdisj2 c c1 hj
      have hφ3U : ∀ c ∈ st ++ labelled n B1, (fun i => if i ∈ Aut.ids B2 then i else φ2 i) c.id = φ2 c.id :=
        fun c hc => if_neg (hdisj2 c hc)
      have hsig3U : ∀ c ∈ st ++ labelled n B1, sig (fun i => if i ∈ Aut.ids B2 then i else φ2 i)
          (fun i => (derefNode B2 i).getD (src2 i)) c = sig φ2 src2 c := by
        intro c hc
        unfold sig
        rw [hφ3U c hc]
        obtain ⟨y, y1, y2, -⟩ := hg2.tgt c hc
        have : derefNode B2 (φ2 c.id) = none := by
          cases hd : derefNode B2 (φ2 c.id) with
          | none => rfl
          | some b =>
            obtain ⟨b1, b2⟩ := derefNode_some hd
            obtain ⟨c', c1, c2, -⟩ := hg2.own y y1
            exact absurd (mem_ids.2 ⟨b, b1, by rw [b2, ← y2, c2]⟩) (hdisj2 c' c1)
        change (derefNode B2 (φ2 c.id)).getD (src2 (φ2 c.id)) = _
        rw [this]; rfl
      have hsig3B : ∀ c ∈ B2, sig (fun i => if i ∈ Aut.ids B2 then i else φ2 i)
          (fun i => (derefNode B2 i).getD (src2 i)) c = c := by
        intro c hc
        unfold sig
        simp only [if_pos (mem_ids.2 ⟨c, hc, rfl⟩ : c.id ∈ Aut.ids B2), derefNode_of_mem b21 hc, Option.getD_some]
      have honly3 : ∀ i, Only (st ++ labelled n B1) φ2 i → i ∉ Aut.ids B2 →
          Only (st ++ labelled n B1 ++ B2) (fun i => if i ∈ Aut.ids B2 then i else φ2 i) i := by
        intro i hi hn c hc e
        rcases List.mem_append.1 hc with hc | hc
        · rw [hφ3U c hc] at e; exact hi c hc e
        · simp only [if_pos (mem_ids.2 ⟨c, hc, rfl⟩ : c.id ∈ Aut.ids B2)] at e
          exact e
      have honly3B : ∀ i ∈ Aut.ids B2, Only (st ++ labelled n B1 ++ B2) (fun i => if i ∈ Aut.ids B2 then i else φ2 i) i := by
        intro i hi c hc e
        rcases List.mem_append.1 hc with hc | hc
        · exfalso
          rw [hφ3U c hc] at e
          obtain ⟨y, y1, y2, -⟩ := hg2.tgt c hc
          obtain ⟨c', c1, c2, -⟩ := hg2.own y y1
          exact hdisj2 c' c1 (by rw [c2, y2, e]; exact hi)
        · simp only [if_pos (mem_ids.2 ⟨c, hc, rfl⟩ : c.id ∈ Aut.ids B2)] at e
          exact e
      generalize (fun i => if i ∈ Aut.ids B2 then i else φ2 i) = φ3 at hg3 hφ3U hsig3U hsig3B honly3 honly3B
      generalize (fun i => (derefNode B2 i).getD (src2 i)) = src3 at hg3 hsig3U hsig3B
      have hreachnd : (deadEnds (labelled n B1)).Nodup := by
        unfold deadEnds
        exact hB1ids.sublist (List.Sublist.map _ List.filter_sublist)
      have hreach0 : ∀ p ∈ deadEnds (labelled n B1), p ∉ gi0 := by
        intro p hp hp0
        obtain ⟨c, c1, -, c3⟩ := (hreachB p).1 hp
        obtain ⟨x, x1, x2⟩ := mem_ids.1 ((hgsub i0).subset hp0)
        exact hdisj1 x x1 (by rw [x2, ← c3]; exact mem_ids.2 ⟨c, c1, rfl⟩)
      have hreach2 : ∀ p ∈ deadEnds (labelled n B1), p ∉ Aut.ids B2 := by
        intro p hp
        obtain ⟨c, c1, -, c3⟩ := (hreachB p).1 hp
        rw [← c3]
        exact hdisj2 c (List.mem_append_right _ c1)
      cases ha2 : attach false (deadEnds (labelled n B1)) (st1 ++ sub1) B2 with
      | ub => 
        change (match attach false (deadEnds (labelled n B1)) (st1 ++ sub1) B2 with
          | .ub => _
          | .err => _
          | .timeout => _
          | .ok (st3, sub3) => _) = _ at h
        rw [ha2] at h; simp at h
      | err =>
        change (match attach false (deadEnds (labelled n B1)) (st1 ++ sub1) B2 with
          | .ub => _
          | .err => _
          | .timeout => _
          | .ok (st3, sub3) => _) = _ at h
        rw [ha2] at h; simp at h
      | timeout =>
        change (match attach false (deadEnds (labelled n B1)) (st1 ++ sub1) B2 with
          | .ub => _
          | .err => _
          | .timeout => _
          | .ok (st3, sub3) => _) = _ at h
        rw [ha2] at h; simp at h
      | ok r2 =>
        obtain ⟨st3, sub3⟩ := r2
        change (match attach false (deadEnds (labelled n B1)) (st1 ++ sub1) B2 with
          | .ub => _
          | .err => _
          | .timeout => _
          | .ok (st3, sub3) => _) = _ at h
        rw [ha2] at h
        simp only at h
        obtain ⟨φ4, src4, hg4, q1, q2, q3, q4, q5, q6⟩ := attach_glue _ (st1 ++ sub1) B2 st3 sub3 φ3 src3 hg3 hreachnd
          (fun p hp => ⟨hreach p hp, honly3 p (p5 p (hreach0 p hp) (honly1 p)) (hreach2 p hp)⟩) ha2
        cases ha3 : takeOver gi1 (sub3.map (·.id)) st3 sub3 with
        | ub => rw [ha3] at h; simp at h
        | err => rw [ha3] at h; simp at h
        | timeout => rw [ha3] at h; simp at h
        | ok r3 =>
          obtain ⟨st4, sub4⟩ := r3
          rw [ha3] at h
          simp only at h
          have hsub3nd : (Aut.ids sub3).Nodup := b21.sublist q2
          obtain ⟨φ5, src5, hg5, t1, t2, t3, t4, t5⟩ := takeOver_glue _ st3 sub3 st4 sub4 φ4 src4 hg4 hsub3nd
            (fun q hq => ⟨hq, q5 q (fun hc => hreach2 q hc (q2.subset hq)) (honly3B q (q2.subset hq))⟩) ha3
          split at h
          · simp at h
          · split at h
            all_goals try (simp at h; done)
            rename_i x0 xs hfp
            have hUcl : ∀ c ∈ st ++ labelled n B1 ++ B2, ∀ j ∈ c.trans, ∃ y ∈ st ++ labelled n B1 ++ B2, y.id = j := by
              intro c hc j hj
              rcases List.mem_append.1 hc with hc | hc
              · obtain ⟨y, y1, y2⟩ := hU1cl c hc j hj
                exact ⟨y, List.mem_append_left _ y1, y2⟩
              · obtain ⟨y, y1, y2⟩ := hB2cl c hc j hj
                exact ⟨y, List.mem_append_right _ y1, y2⟩
            have hlcl : Closed (st4 ++ sub4) := by
              intro y hy j hj
              rw [hg5.trans y hy] at hj
              obtain ⟨j', j1, rfl⟩ := List.mem_map.1 hj
              obtain ⟨c, c1, rfl⟩ := hUcl _ (hg5.mem y hy) j' j1
              obtain ⟨y', y1, y2, -⟩ := hg5.tgt c c1
              exact mem_ids.2 ⟨y', y1, y2⟩
            obtain ⟨f1, f2, f3⟩ := forwardPrune_weak hg5.nodup hlcl hfp
            set P := x0 :: xs with hP
            have hR : R = P.map fun x => { x with mode := newMode n i0 i1 x.mode } := by
              simp only [SRes.ok.injEq] at h; exact h.symm
            have hRb : ∀ y ∈ R, ∃ w ∈ P, w ∈ st4 ++ sub4 ∧ y.id = w.id ∧ y.state = w.state ∧ y.trans = w.trans ∧ y.initial = w.initial ∧
                y.mode = newMode n i0 i1 w.mode := by
              intro y hy
              rw [hR] at hy
              obtain ⟨w, w1, rfl⟩ := List.mem_map.1 hy
              exact ⟨w, w1, f1.subset w1, rfl, rfl, rfl, rfl, rfl⟩
            have hRf : ∀ w ∈ P, ∃ y ∈ R, y.id = w.id ∧ y.state = w.state ∧ y.initial = w.initial := by
              intro w hw
              exact ⟨{ w with mode := newMode n i0 i1 w.mode }, by rw [hR]; exact List.mem_map_of_mem hw, rfl, rfl, rfl⟩
            have hRids : Aut.ids R = Aut.ids P := by
              rw [hR]; unfold Aut.ids; rw [List.map_map]; rfl
            have hPids : (Aut.ids P).Nodup := hg5.nodup.sublist (List.Sublist.map _ f1)
            have hsub3B : ∀ i ∈ Aut.ids sub3, i ∈ Aut.ids B2 := fun i hi => q2.subset hi
            have hnotq : ∀ c ∈ st ++ labelled n B1, c.id ∉ sub3.map (·.id) :=
              fun c hc hi => hdisj2 c hc (hsub3B _ hi)
            refine ⟨B1, B2, _, _, _, φ5, src5, hB1ne, hB2ne, hr1, hr2, ?_, ?_, ?_, ?_⟩
            · intro s; exact mem_ptrStates hids
            · intro s
              rw [mem_ptrStates hg2.nodup]
              constructor
              · rintro ⟨y, y1, y2, y3⟩
                obtain ⟨x, x1, x2⟩ := mem_ids.1 ((hgsub i1).subset y2)
                exact ⟨x, x1, by rw [x2]; exact y2, by rw [← hstate2 x (List.mem_append_left _ x1) y y1 x2.symm]; exact y3⟩
              · rintro ⟨x, x1, x2, x3⟩
                obtain ⟨y, y1, y2⟩ := mem_ids.1 (show x.id ∈ Aut.ids st1 by rw [p1]; exact mem_ids.2 ⟨x, x1, rfl⟩)
                exact ⟨y, List.mem_append_left _ y1, by rw [y2]; exact x2, by
                  rw [hstate2 x (List.mem_append_left _ x1) y (List.mem_append_left _ y1) y2]; exact x3⟩
            · intro s hs
              obtain ⟨y, y1, -, y3⟩ := (mem_ptrStates hg2.nodup).1 hs
              obtain ⟨c, c1, -, -, c3⟩ := hg2.own y y1
              rcases List.mem_append.1 c1 with c1 | c1
              · exact ⟨c, List.mem_append_left _ c1, c3.trans y3⟩
              · obtain ⟨z, z1, rfl⟩ := labelled_mem c1
                exact ⟨z, List.mem_append_right _ z1, c3.trans y3⟩
            · refine ⟨?_, hUids, ?_, ?_, ?_, ?_, ?_, ?_, ?_, ?_, ?_, ?_, ?_, ?_, ?_, ?_⟩
              · rw [hRids]; exact hPids
              · intro y hy j hj
                obtain ⟨w, w1, w2, w3, w4, w5, -⟩ := hRb y hy
                rw [w5] at hj
                obtain ⟨w', v1, v2⟩ := mem_ids.1 (f2 w w1 j hj)
                obtain ⟨y', u1, u2, -⟩ := hRf w' v1
                exact ⟨y', u1, u2.trans v2⟩
              · intro y hy
                obtain ⟨w, w1, w2, w3, w4, w5, -⟩ := hRb y hy
                rw [w3]; exact hg5.mem w w2
              · intro y hy
                obtain ⟨w, w1, w2, w3, w4, w5, -⟩ := hRb y hy
                rw [w3, w4]; exact hg5.state w w2
              · intro y hy
                obtain ⟨w, w1, w2, w3, w4, w5, w6, w7⟩ := hRb y hy
                rw [w3, w7, hg5.mode w w2]
              · intro y hy
                obtain ⟨w, w1, w2, w3, w4, w5, -⟩ := hRb y hy
                unfold sig
                rw [w3, hg5.back w w2]
              · intro y hy y' hy' he
                obtain ⟨w, w1, w2, w3, w4, w5, -⟩ := hRb y hy
                obtain ⟨w', w1', w2', w3', w4', w5', -⟩ := hRb y' hy'
                rw [w5, hg5.trans w w2, List.mem_map] at he
                obtain ⟨j, j1, j2⟩ := he
                obtain ⟨c, c1, rfl⟩ := hUcl _ (hg5.mem w w2) j j1
                refine ⟨c, c1, by rw [w3]; exact j1, j2, ?_⟩
                obtain ⟨v, v1, v2, v3⟩ := hg5.tgt c c1
                rw [w4', ← v3, eq_of_id_eq hg5.nodup v1 w2' (by rw [v2, j2, w3'])]
              · intro y hy c hc hct
                obtain ⟨w, w1, w2, w3, w4, w5, -⟩ := hRb y hy
                rw [w3] at hct
                have hmem : φ5 c.id ∈ w.trans := by rw [hg5.trans w w2]; exact List.mem_map_of_mem hct
                obtain ⟨w', v1, v2⟩ := mem_ids.1 (f2 w w1 _ hmem)
                obtain ⟨y', u1, u2, u3, -⟩ := hRf w' v1
                refine ⟨y', u1, by rw [w5, u2, v2]; exact hmem, u2.trans v2, ?_⟩
                obtain ⟨v, r1, r2, r3⟩ := hg5.tgt c hc
                rw [u3, ← r3, eq_of_id_eq hg5.nodup r1 (f1.subset v1) (by rw [r2, v2])]
              · intro y hy hyi
                obtain ⟨w, w1, w2, w3, w4, w5, w6, -⟩ := hRb y hy
                obtain ⟨c, c1, c2, c3, c4⟩ := hg5.own w w2
                rw [w6, ← c3] at hyi
                rcases List.mem_append.1 c1 with c1 | c1
                · rcases List.mem_append.1 c1 with c1 | c1
                  · exact ⟨c, c1, hyi, by rw [c4, w4], by rw [c2, w3]⟩
                  · obtain ⟨z, z1, rfl⟩ := labelled_mem c1
                    exact absurd hyi (by simp [reach_noInit hr1 z z1])
                · exact absurd hyi (by simp [reach_noInit hr2 c c1])
              · intro x hx hxi hx1
                have hx3 : x.id ∈ Aut.ids st3 := by
                  rw [q1]
                  unfold Aut.ids
                  rw [List.map_append, List.mem_append]
                  left
                  change x.id ∈ Aut.ids st1
                  rw [p1]
                  exact mem_ids.2 ⟨x, hx, rfl⟩
                obtain ⟨w, w1, w2⟩ := mem_ids.1 (t5 x.id hx3 hx1)
                have w1' : w ∈ st4 ++ sub4 := List.mem_append_left _ w1
                obtain ⟨c, c1, c2, c3, c4⟩ := hg5.own w w1'
                have hcx : c = x := eq_of_id_eq hUids c1 (List.mem_append_left _ (List.mem_append_left _ hx)) (c2.trans w2)
                subst hcx
                obtain ⟨y, y1, y2, y3, y4⟩ := hRf w (f3 w w1' (by rw [← c3]; exact hxi))
                exact ⟨y, y1, by rw [y4, ← c3]; exact hxi, by rw [y3, c4], by rw [y2, w2]⟩
              · intro c hc hc0
                have hcU : c ∈ st ++ labelled n B1 := List.mem_append_left _ hc
                have hcU' := List.mem_append_left B2 hcU
                rw [t3 c hcU' (hnotq c hcU), q3 c hcU' (fun hd => by
                  obtain ⟨z, z1, -, z3⟩ := (hreachB c.id).1 hd
                  exact hdisj1 c hc (by rw [← z3]; exact mem_ids.2 ⟨z, z1, rfl⟩)), hsig3U c hcU, p3 c hcU hc0, hsig1 c hcU]
              · intro c hc hc0
                have hcU : c ∈ st ++ labelled n B1 := List.mem_append_left _ hc
                have hcU' := List.mem_append_left B2 hcU
                rw [t3 c hcU' (hnotq c hcU), q3 c hcU' (fun hd => by
                  obtain ⟨z, z1, -, z3⟩ := (hreachB c.id).1 hd
                  exact hdisj1 c hc (by rw [← z3]; exact mem_ids.2 ⟨z, z1, rfl⟩)), hsig3U c hcU]
                obtain ⟨i, i1', i2, i3, i4⟩ := p4 c hcU hc0
                obtain ⟨z, z1, rfl⟩ := mem_ids.1 i1'
                rw [hsrc1id z (List.mem_append_right _ z1)] at i3 i4
                rw [i3]
                refine ⟨z1, fun ht => i2 (hreachsub _ ((hreachB _).2 ⟨z, z1, ht, rfl⟩)), i4⟩
              · intro c hc ht
                have hcU : c ∈ st ++ labelled n B1 := List.mem_append_right _ hc
                have hcU' := List.mem_append_left B2 hcU
                rw [t3 c hcU' (hnotq c hcU), q3 c hcU' (fun hd => by
                  obtain ⟨z, z1, z2, z3⟩ := (hreachB c.id).1 hd
                  rw [eq_of_id_eq hB1ids z1 hc z3] at z2
                  exact ht z2), hsig3U c hcU, p3 c hcU (fun hg => by
                    obtain ⟨x, x1, x2⟩ := mem_ids.1 ((hgsub i0).subset hg)
                    exact hdisj1 x x1 (by rw [x2]; exact mem_ids.2 ⟨c, hc, rfl⟩)), hsig1 c hcU]
              · intro c hc ht
                have hcU : c ∈ st ++ labelled n B1 := List.mem_append_right _ hc
                have hcU' := List.mem_append_left B2 hcU
                rw [t3 c hcU' (hnotq c hcU)]
                obtain ⟨i, i1', i2, i3, i4⟩ := q4 c hcU' ((hreachB _).2 ⟨c, hc, ht, rfl⟩)
                obtain ⟨z, z1, rfl⟩ := mem_ids.1 i1'
                have hz : src3 z.id = z := by
                  have := hsig3B z z1
                  unfold sig at this
                  rwa [hg3.fix z (List.mem_append_right _ z1)] at this
                rw [hz] at i3 i4
                rw [i3]
                exact ⟨z1, i4⟩
              · intro c hc
                have hcU' : c ∈ st ++ labelled n B1 ++ B2 := List.mem_append_right _ hc
                have hcid : c.id ∈ Aut.ids B2 := mem_ids.2 ⟨c, hc, rfl⟩
                have hs4 : sig φ4 src4 c = c := by
                  rw [q3 c hcU' (fun hd => hreach2 _ hd hcid), hsig3B c hc]
                by_cases hin : c.id ∈ sub3.map (·.id)
                · rcases t4 c hcU' hin with ⟨g1, g2⟩ | ⟨g1, x, x1, x2, x3, x4, x5⟩
                  · rw [hs4] at g1 g2
                    exact Or.inl ⟨g1, Or.inl g2⟩
                  · rw [hs4] at g1
                    refine Or.inr ⟨g1, ?_⟩
                    obtain ⟨x', v1, v2⟩ := mem_ids.1 ((hgsub i1).subset x2)
                    have hx' : x' = x := eq_of_id_eq hUids (List.mem_append_left _ (List.mem_append_left _ v1)) x1 v2
                    subst hx'
                    refine ⟨x', v1, x2, x4, ?_⟩
                    rw [x5, t3 x' x1 (hnotq x' (List.mem_append_left _ v1))]
                · left
                  refine ⟨by rw [t3 c hcU' hin, hs4], Or.inr ?_⟩
                  obtain ⟨c', c1, c2, c3⟩ := q6 c.id hcid hin
                  obtain ⟨z, z1, z2, z3⟩ := (hreachB _).1 c2
                  have hz' : z = c' := eq_of_id_eq hUids (List.mem_append_left _ (List.mem_append_right _ z1)) c1 z3
                  subst hz'
                  have hz : src3 c.id = c := by
                    have := hsig3B c hc
                    unfold sig at this
                    rwa [hg3.fix c (List.mem_append_right _ hc)] at this
                  rw [hz] at c3
                  obtain ⟨z', v1, rfl⟩ := labelled_mem z1
                  exact ⟨z', v1, z2, c3.symm⟩

end Gr1c
