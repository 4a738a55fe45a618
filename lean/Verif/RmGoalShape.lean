import Verif.RmGoalInv
import Verif.RmGoalSpec
import Verif.ReachProps

/-!
# The shape of the automaton returned by `rm_sysgoal`
-/

namespace Gr1c

set_option linter.unusedSectionVars false

variable {E S : Type} [Fintype E] [DecidableEq E] [Fintype S] [DecidableEq S] {m n : ℕ}
  {G : Game E S} {eg : Fin m → Finset (E × S)} {o : Oracle E S}

/-! ## Addresses of the substrategy come from the allocator -/

/-- Every address was returned by the allocator. -/
private def FromAlloc (o : Oracle E S) (st : Aut ℤ (E × S)) : Prop :=
  ∀ x ∈ st, ∃ c l, x.id = o.alloc c l

private theorem fromAlloc_insert {st : Aut ℤ (E × S)} (h : FromAlloc o st) (c : ℕ) (l : List ℕ)
    (md : ℤ) (r : ℤ) (b : Bool) (s : E × S) : FromAlloc o (insertAnode st (o.alloc c l) md r b s) := by
  intro x hx
  unfold insertAnode at hx
  rcases List.mem_cons.1 hx with rfl | hx
  · exact ⟨c, l, rfl⟩
  · exact h x hx

private theorem fromAlloc_upd {st : Aut ℤ (E × S)} (h : FromAlloc o st) (i : ℕ)
    (f : ANode ℤ (E × S) → ANode ℤ (E × S)) (hf : ∀ x, (f x).id = x.id) : FromAlloc o (updNode st i f) := by
  intro x hx
  unfold updNode at hx
  obtain ⟨y, y1, rfl⟩ := List.mem_map.1 hx
  split
  · rw [hf]; exact h y y1
  · exact h y y1

private theorem fromAlloc_append {st st' : Aut ℤ (E × S)} (h : FromAlloc o st) {a b : ℤ} {s t : E × S}
    (hr : appendAnodeTrans st a s b t = .ok st') : FromAlloc o st' := by
  unfold appendAnodeTrans at hr
  split at hr
  · simp at hr
  · split at hr
    · simp at hr
    · simp only [AppendRes.ok.injEq] at hr
      subst hr
      exact fromAlloc_upd h _ _ (fun _ => rfl)

private theorem fromAlloc_reachInsert : ∀ (ss : List (E × S)) (c : ℕ) (st : Aut ℤ (E × S)),
    FromAlloc o st → FromAlloc o (reachInsert o c ss st) := by
  intro ss
  induction ss with
  | nil => intro c st h; exact h
  | cons s ss ih => intro c st h; exact ih _ _ (fromAlloc_insert h _ _ _ _ _ _)

private theorem fromAlloc_reachExpand {N : Finset (E × S)} {L : List (Level E S m)} {s : E × S} {j : ℕ} :
    ∀ (es : List E) (T : Finset (E × S)) (c c' : ReachCfg E S), FromAlloc o c.strat →
      reachExpand G N o L s j es T c = .ok c' → FromAlloc o c'.strat := by
  intro es
  induction es with
  | nil => intro T c c' h hr; simp only [reachExpand, SRes.ok.injEq] at hr; subst hr; exact h
  | cons e es ih =>
    intro T c c' h hr
    simp only [reachExpand] at hr
    split at hr
    · simp at hr
    · simp at hr
    · simp at hr
    · split at hr
      · simp at hr
      · simp at hr
      · rename_i hap
        refine ih _ _ _ ?_ hr
        refine fromAlloc_append ?_ hap
        unfold reachAdd
        split
        · exact fromAlloc_insert h _ _ _ _ _ _
        · exact h

private theorem fromAlloc_reachLoop {N : Finset (E × S)} {L : List (Level E S m)} :
    ∀ (fuel : ℕ) (c : ReachCfg E S) (st : Aut ℤ (E × S)), FromAlloc o c.strat →
      reachLoop G N o L fuel c = .ok st → FromAlloc o st := by
  intro fuel
  induction fuel with
  | zero =>
    intro c st h hr
    unfold reachLoop at hr
    split at hr
    · simp only [SRes.ok.injEq] at hr; subst hr; exact h
    · simp at hr
  | succ fuel ih =>
    intro c st h hr
    unfold reachLoop at hr
    cases hst : c.stack with
    | nil => rw [hst] at hr; simp only [SRes.ok.injEq] at hr; subst hr; exact h
    | cons s rest =>
      rw [hst] at hr
      simp only at hr
      cases hit : reachIter G N o L s { c with stack := rest } with
      | ub => rw [hit] at hr; simp at hr
      | err => rw [hit] at hr; simp at hr
      | timeout => rw [hit] at hr; simp at hr
      | ok c' =>
        rw [hit] at hr
        refine ih c' st ?_ hr
        unfold reachIter at hit
        split at hit
        · simp at hit
        · simp only at hit
          split at hit
          · simp only [SRes.ok.injEq] at hit
            subst hit
            exact fromAlloc_upd h _ _ (fun _ => rfl)
          · split at hit
            · simp at hit
            · refine fromAlloc_reachExpand _ _ _ _ ?_ hit
              exact fromAlloc_upd h _ _ (fun _ => rfl)

theorem reach_alloc {Entry Exit N : Finset (E × S)} {fuel : ℕ} {st : Aut ℤ (E × S)}
    (h : reachGame G Entry Exit N eg o fuel = .ok st) : ∀ x ∈ st, ∃ c l, x.id = o.alloc c l := by
  unfold reachGame at h
  split at h
  · simp only [SRes.ok.injEq] at h; subst h; simp
  · refine fromAlloc_reachLoop (N := N) fuel _ st ?_ h
    exact fromAlloc_reachInsert _ _ _ (by intro x hx; simp at hx)

/-- The substrategy has no initial nodes. -/
private def NoInit (st : Aut ℤ (E × S)) : Prop := ∀ x ∈ st, x.initial = false

private theorem noInit_insert {st : Aut ℤ (E × S)} (h : NoInit st) (i : ℕ)
    (md : ℤ) (r : ℤ) (s : E × S) : NoInit (insertAnode st i md r false s) := by
  intro x hx
  unfold insertAnode at hx
  rcases List.mem_cons.1 hx with rfl | hx
  · rfl
  · exact h x hx

private theorem noInit_upd {st : Aut ℤ (E × S)} (h : NoInit st) (i : ℕ)
    (f : ANode ℤ (E × S) → ANode ℤ (E × S)) (hf : ∀ x, (f x).initial = x.initial) :
    NoInit (updNode st i f) := by
  intro x hx
  unfold updNode at hx
  obtain ⟨y, y1, rfl⟩ := List.mem_map.1 hx
  split
  · rw [hf]; exact h y y1
  · exact h y y1

private theorem noInit_append {st st' : Aut ℤ (E × S)} (h : NoInit st) {a b : ℤ} {s t : E × S}
    (hr : appendAnodeTrans st a s b t = .ok st') : NoInit st' := by
  unfold appendAnodeTrans at hr
  split at hr
  · simp at hr
  · split at hr
    · simp at hr
    · simp only [AppendRes.ok.injEq] at hr
      subst hr
      exact noInit_upd h _ _ (fun _ => rfl)

private theorem noInit_reachInsert : ∀ (ss : List (E × S)) (c : ℕ) (st : Aut ℤ (E × S)),
    NoInit st → NoInit (reachInsert o c ss st) := by
  intro ss
  induction ss with
  | nil => intro c st h; exact h
  | cons s ss ih => intro c st h; exact ih _ _ (noInit_insert h _ _ _ _)

private theorem noInit_reachExpand {N : Finset (E × S)} {L : List (Level E S m)} {s : E × S} {j : ℕ} :
    ∀ (es : List E) (T : Finset (E × S)) (c c' : ReachCfg E S), NoInit c.strat →
      reachExpand G N o L s j es T c = .ok c' → NoInit c'.strat := by
  intro es
  induction es with
  | nil => intro T c c' h hr; simp only [reachExpand, SRes.ok.injEq] at hr; subst hr; exact h
  | cons e es ih =>
    intro T c c' h hr
    simp only [reachExpand] at hr
    split at hr
    · simp at hr
    · simp at hr
    · simp at hr
    · split at hr
      · simp at hr
      · simp at hr
      · rename_i hap
        refine ih _ _ _ ?_ hr
        refine noInit_append ?_ hap
        unfold reachAdd
        split
        · exact noInit_insert h _ _ _ _
        · exact h

private theorem noInit_reachLoop {N : Finset (E × S)} {L : List (Level E S m)} :
    ∀ (fuel : ℕ) (c : ReachCfg E S) (st : Aut ℤ (E × S)), NoInit c.strat →
      reachLoop G N o L fuel c = .ok st → NoInit st := by
  intro fuel
  induction fuel with
  | zero =>
    intro c st h hr
    unfold reachLoop at hr
    split at hr
    · simp only [SRes.ok.injEq] at hr; subst hr; exact h
    · simp at hr
  | succ fuel ih =>
    intro c st h hr
    unfold reachLoop at hr
    cases hst : c.stack with
    | nil => rw [hst] at hr; simp only [SRes.ok.injEq] at hr; subst hr; exact h
    | cons s rest =>
      rw [hst] at hr
      simp only at hr
      cases hit : reachIter G N o L s { c with stack := rest } with
      | ub => rw [hit] at hr; simp at hr
      | err => rw [hit] at hr; simp at hr
      | timeout => rw [hit] at hr; simp at hr
      | ok c' =>
        rw [hit] at hr
        refine ih c' st ?_ hr
        unfold reachIter at hit
        split at hit
        · simp at hit
        · simp only at hit
          split at hit
          · simp only [SRes.ok.injEq] at hit
            subst hit
            exact noInit_upd h _ _ (fun _ => rfl)
          · split at hit
            · simp at hit
            · refine noInit_reachExpand _ _ _ _ ?_ hit
              exact noInit_upd h _ _ (fun _ => rfl)

theorem reach_noInit {Entry Exit N : Finset (E × S)} {fuel : ℕ} {st : Aut ℤ (E × S)}
    (h : reachGame G Entry Exit N eg o fuel = .ok st) : ∀ x ∈ st, x.initial = false := by
  unfold reachGame at h
  split at h
  · simp only [SRes.ok.injEq] at h; subst h; simp
  · refine noInit_reachLoop (N := N) fuel _ st ?_ h
    exact noInit_reachInsert _ _ _ (by intro x hx; simp at hx)

/-! ## The shape of the result -/

/-- `y` is what became of the node `x` of the given strategy. -/
structure KeptNode (st B : Aut ℤ (E × S)) (d d1 : ℤ) (f : ℕ → ℕ) (τ : ℕ → Option (ANode ℤ (E × S)))
    (D : List ℕ) (y x : ANode ℤ (E × S)) : Prop where
  mem : x ∈ st
  mode1 : x.mode ≠ d
  mode2 : x.mode ≠ d1
  state_eq : y.state = x.state
  mode_eq : y.mode = x.mode
  init_eq : y.initial = x.initial
  trans_eq : y.trans = (x.trans.map f).filter fun j => j ∉ D
  id_eq : (y.id = x.id ∧ ∀ z ∈ B, τ z.id ≠ some x) ∨ ∃ z ∈ B, y.id = z.id ∧ τ z.id = some x

/-- `y` is what became of the node `z` of the substrategy, which took over no other node. -/
structure FreshNode (B : Aut ℤ (E × S)) (d1 : ℤ) (ι : ℕ → Bool) (τ : ℕ → Option (ANode ℤ (E × S)))
    (y z : ANode ℤ (E × S)) : Prop where
  mem : z ∈ B
  tau : τ z.id = none
  id_eq : y.id = z.id
  state_eq : y.state = z.state
  mode_eq : y.mode = d1
  init_eq : y.initial = ι z.id
  trans_eq : y.trans = z.trans

/-- Everything known about a successful call. -/
structure RmShape (st B R : Aut ℤ (E × S)) (d d1 : ℤ) (en ex : List ℕ) (ι : ℕ → Bool) (f : ℕ → ℕ)
    (τ : ℕ → Option (ANode ℤ (E × S))) (D : List ℕ) : Prop where
  stat : CStat st B en ex
  en_iff : ∀ p, p ∈ en ↔ ∃ x ∈ st, x.mode ≠ d ∧ p ∈ x.trans ∧ ∃ y ∈ st, y.id = p ∧ y.mode = d
  ex_iff : ∀ p, p ∈ ex ↔ ∃ x ∈ st, (x.mode = d ∨ x.mode = d1) ∧ p ∈ x.trans ∧
    ∃ y ∈ st, y.id = p ∧ y.mode ≠ d1 ∧ y.mode ≠ d
  tau : ∀ z ∈ B, ∀ x, τ z.id = some x →
    x ∈ st ∧ x.id ∈ ex ∧ x.state = z.state ∧ f x.id = z.id ∧ z.trans = []
  tgt : ∀ y ∈ st, (y.id ∈ en ∧ ∃ z ∈ B, z.id = f y.id ∧ z.state = y.state) ∨
    (∃ z ∈ B, τ z.id = some y) ∨ ((∀ z ∈ B, τ z.id ≠ some y) ∧ y.id ∉ en ∧ f y.id = y.id)
  term : ∀ z ∈ B, τ z.id = none → z.trans ≠ []
  noinit : (∀ x ∈ st, x.mode = d → x.initial = false) → ∀ z ∈ B, ι z.id = false
  D_iff : ∀ j, j ∈ D ↔ ∃ x ∈ st, x.id = j ∧ (x.mode = d ∨ x.mode = d1)
  ids : (Aut.ids R).Nodup
  classes : ∀ y ∈ R, (∃ x, KeptNode st B d d1 f τ D y x) ∨ ∃ z, FreshNode B d1 ι τ y z
  kept : ∀ x ∈ st, x.mode ≠ d → x.mode ≠ d1 → ∃ y ∈ R, KeptNode st B d d1 f τ D y x
  fresh : ∀ z ∈ B, τ z.id = none → ∃ y ∈ R, FreshNode B d1 ι τ y z

theorem rm_shape {st R : Aut ℤ (E × S)} {d : ℤ} (hids : (Aut.ids st).Nodup)
    (hmode : ∀ x ∈ st, x.mode ≠ -1) (ho : o.Valid G)
    (hfresh : ∀ c l, o.alloc c l ∉ Aut.ids st) {fuel : ℕ}
    (h : rmSysgoal G eg n d o fuel st = .ok R) :
    0 ≤ d ∧ d < n ∧ 3 ≤ n ∧ ∃ B en ex ι f τ D,
      reachGame G (ptrStates st en) (ptrStates st ex) Finset.univ eg o fuel = .ok B ∧ B ≠ [] ∧
      RmShape st B R d ((d + 1) % n) en ex ι f τ D := by
  unfold rmSysgoal at h
  split at h
  · simp at h
  rename_i hd
  split at h
  · simp at h
  rename_i hn
  simp only at h
  split at h
  · simp at h
  refine ⟨by omega, by omega, by omega, ?_⟩
  set d1 : ℤ := (d + 1) % n with hd1
  split at h
  · simp at h
  rename_i r en ex hEE
  split at h
  · simp at h
  split at h
  · simp at h
  · simp at h
  · simp at h
  · simp at h
  rename_i z0 zs hreach
  set B := z0 :: zs with hB
  split at h
  · simp at h
  · simp at h
  · simp at h
  rename_i st1 sub1 hentry
  split at h
  · simp at h
  · simp at h
  · simp at h
  rename_i st2 sub2 hexit
  obtain ⟨c1, c2, -, -⟩ := collectEE_spec hids _ _ _ hEE
  simp only [List.not_mem_nil, false_or] at c1 c2
  have hBne : B ≠ [] := by rw [hB]; simp
  obtain ⟨b1, b2, b3, b4⟩ := reach_answers (Finset.subset_univ _) ho hreach hBne
  have hdisj : ∀ x ∈ st, ∀ z ∈ B, x.id ≠ z.id := by
    intro x hx z hz hc
    obtain ⟨c, l, hcl⟩ := reach_alloc hreach z hz
    exact hfresh c l (by rw [← hcl, ← hc]; exact mem_ids.2 ⟨x, hx, rfl⟩)
  have hstat : CStat st B en ex := by
    refine ⟨hids, b1, hdisj, fun z hz => (b4 z hz).2.2.1, ?_, ?_⟩
    · intro p hp hp'
      obtain ⟨x, -, -, -, y, y1, y2, y3, y4⟩ := (c2 p).1 hp
      obtain ⟨x', -, -, -, y', z1, z2, z3⟩ := (c1 p).1 hp'
      rw [eq_of_id_eq hids z1 y1 (z2.trans y2.symm)] at z3
      exact y4 z3
    · intro p hp
      obtain ⟨x, -, -, -, y, y1, y2, -⟩ := (c2 p).1 hp
      exact ⟨y, y1, y2⟩
  obtain ⟨f0, ι, e1, e2, e3, e4, e5⟩ := connectEntry_spec (B := B) en st B st1 sub1 hentry (by
    intro p hp hc
    obtain ⟨x, -, -, -, y, y1, y2, -⟩ := (c1 p).1 hp
    obtain ⟨z, z1, z2⟩ := mem_ids.1 hc
    exact hdisj y y1 z z1 (y2.trans z2.symm)) ⟨fun i => ((B.find? fun z => z.id = i).map (·.initial)).getD false, by
      conv_lhs => rw [← List.map_id B]
      apply List.map_congr_left
      intro z hz
      have : B.find? (fun w => w.id = z.id) = some z := derefNode_of_mem b1 hz
      simp only [this]
      rfl⟩
  have hinv0 : CInv st B ι en ex f0 (fun _ => none) (ex.map some) st1 sub1 := by
    refine ⟨?_, ?_, ?_, ?_, ?_, ?_⟩
    · rw [e1]; simp
    · rw [e2]; rfl
    · intro z _ x hx; simp at hx
    · intro p; simp
    · intro y hy
      by_cases hye : y.id ∈ en
      · obtain ⟨z, z1, z2, x, x1, x2, x3⟩ := e4 _ hye
        rw [eq_of_id_eq hids x1 hy x2] at x3
        exact Or.inl ⟨hye, z, z1, z2, x3.symm⟩
      · exact Or.inr (Or.inr ⟨by simp, hye, e3 _ hye⟩)
    · intro z hz
      apply e3
      intro hc
      obtain ⟨x, -, -, -, y, y1, y2, -⟩ := (c1 _).1 hc
      exact hdisj y y1 z hz y2
  have hsids : sub1.map (·.id) = Aut.ids B := hinv0.ids_sub
  obtain ⟨f, τ, ex', hinv, hterm⟩ := connectExit_spec hstat _ _ _ _ _ _ _ _ hinv0
    (by rw [hsids]; exact b1)
    (by intro q hq; rw [hsids] at hq; exact ⟨hq, rfl⟩)
    (by intro z hz hc; rw [hsids] at hc; exact absurd (mem_ids.2 ⟨z, hz, rfl⟩) hc) hexit
  rw [deleteModes_spec _ _ (hinv.ids_st hstat)] at h
  simp only [SRes.ok.injEq] at h
  set D := Aut.ids (st2.filter fun x => x.mode = d ∨ x.mode = d1) with hD
  have htm : ∀ z ∈ B, ∀ x, τ z.id = some x → x.mode ≠ d ∧ x.mode ≠ d1 := by
    intro z hz x hx
    obtain ⟨x1, x2, -⟩ := hinv.tau z hz x hx
    obtain ⟨u, -, -, -, y, y1, y2, y3, y4⟩ := (c2 _).1 x2
    rw [eq_of_id_eq hids y1 x1 y2] at y3 y4
    exact ⟨y4, y3⟩
  have hDiff : ∀ j, j ∈ D ↔ ∃ x ∈ st, x.id = j ∧ (x.mode = d ∨ x.mode = d1) := by
    intro j
    rw [hD, mem_ids, hinv.st_eq]
    constructor
    · rintro ⟨y, y1, y2⟩
      obtain ⟨y1, y3⟩ := List.mem_filter.1 y1
      obtain ⟨x, x1, rfl⟩ := List.mem_map.1 y1
      exact ⟨x, (List.mem_filter.1 x1).1, y2, of_decide_eq_true (p := x.mode = d ∨ x.mode = d1) y3⟩
    · rintro ⟨x, x1, x2, x3⟩
      refine ⟨x.redirect f, List.mem_filter.2 ⟨List.mem_map_of_mem (List.mem_filter.2 ⟨x1, ?_⟩), ?_⟩, x2⟩
      · simp only [decide_eq_true_eq]
        intro z hz hc
        rcases x3 with x3 | x3
        · exact (htm z hz x hc).1 x3
        · exact (htm z hz x hc).2 x3
      · exact decide_eq_true (p := x.mode = d ∨ x.mode = d1) x3
  have hRmem : ∀ y, y ∈ R ↔
      (∃ x ∈ st, (∀ z ∈ B, τ z.id ≠ some x) ∧ (x.mode ≠ d ∧ x.mode ≠ d1) ∧ y = (x.redirect f).cut D) ∨
      (∃ z ∈ B, y = (fun w : ANode ℤ (E × S) => if w.mode = -1 then { w with mode := d1 } else w)
        ((growNode ι f τ z).cut D)) := by
    intro y
    rw [← h, List.mem_append, hinv.st_eq, hinv.sub_eq]
    simp only [List.mem_map, List.mem_filter, decide_eq_true_eq, not_or]
    constructor
    · rintro (⟨x', ⟨⟨x, ⟨x1, x2⟩, rfl⟩, x3⟩, rfl⟩ | ⟨w, ⟨z', ⟨z, z1, rfl⟩, rfl⟩, rfl⟩)
      · exact Or.inl ⟨x, x1, x2, x3, rfl⟩
      · exact Or.inr ⟨z, z1, rfl⟩
    · rintro (⟨x, x1, x2, x3, rfl⟩ | ⟨z, z1, rfl⟩)
      · exact Or.inl ⟨_, ⟨⟨x, ⟨x1, x2⟩, rfl⟩, x3⟩, rfl⟩
      · exact Or.inr ⟨_, ⟨_, ⟨z, z1, rfl⟩, rfl⟩, rfl⟩
  have hKept1 : ∀ x ∈ st, (∀ z ∈ B, τ z.id ≠ some x) → (x.mode ≠ d ∧ x.mode ≠ d1) →
      KeptNode st B d d1 f τ D ((x.redirect f).cut D) x := by
    intro x hx hun hm
    exact ⟨hx, hm.1, hm.2, rfl, rfl, rfl, rfl, Or.inl ⟨rfl, hun⟩⟩
  have hKept2 : ∀ z ∈ B, ∀ x, τ z.id = some x → KeptNode st B d d1 f τ D
      ((fun w : ANode ℤ (E × S) => if w.mode = -1 then { w with mode := d1 } else w)
        ((growNode ι f τ z).cut D)) x := by
    intro z hz x hx
    obtain ⟨x1, x2, x3, x4, x5⟩ := hinv.tau z hz x hx
    have hg : growNode ι f τ z = { z with mode := x.mode, rgrad := x.rgrad, initial := x.initial, trans := x.trans.map f } := by
      unfold growNode; rw [hx]
    have hm : ((growNode ι f τ z).cut D).mode ≠ -1 := by
      rw [hg]; exact hmode x x1
    rw [show (fun w : ANode ℤ (E × S) => if w.mode = -1 then { w with mode := d1 } else w)
        ((growNode ι f τ z).cut D) = (growNode ι f τ z).cut D from if_neg hm, hg]
    exact ⟨x1, (htm z hz x hx).1, (htm z hz x hx).2, x3.symm, rfl, rfl, rfl, Or.inr ⟨z, hz, rfl, hx⟩⟩
  have hFresh : ∀ z ∈ B, τ z.id = none → FreshNode B d1 ι τ
      ((fun w : ANode ℤ (E × S) => if w.mode = -1 then { w with mode := d1 } else w)
        ((growNode ι f τ z).cut D)) z := by
    intro z hz hx
    have hg : growNode ι f τ z = { z with initial := ι z.id } := by
      unfold growNode; rw [hx]
    have hm : ((growNode ι f τ z).cut D).mode = -1 := by
      rw [hg]; exact (b4 z hz).1
    rw [show (fun w : ANode ℤ (E × S) => if w.mode = -1 then { w with mode := d1 } else w)
        ((growNode ι f τ z).cut D) = { (growNode ι f τ z).cut D with mode := d1 } from if_pos hm, hg]
    refine ⟨hz, hx, rfl, rfl, rfl, rfl, ?_⟩
    change z.trans.filter (fun j => decide (j ∉ D)) = z.trans
    rw [List.filter_eq_self]
    intro j hj
    obtain ⟨w, w1, w2⟩ := hstat.bclosed z hz j hj
    simp only [decide_eq_true_eq]
    intro hc
    obtain ⟨x, x1, x2, -⟩ := (hDiff j).1 hc
    exact hdisj x x1 w w1 (x2.trans w2.symm)
  refine ⟨B, en, ex, ι, f, τ, D, hreach, hBne, hstat, c1, c2, hinv.tau, hinv.tgt, hterm, ?_, hDiff, ?_, ?_, ?_, ?_⟩
  · intro hin z hz
    have := e5 (reach_noInit hreach) (by
      intro x hx hxe
      obtain ⟨u, -, -, -, y, y1, y2, y3⟩ := (c1 _).1 hxe
      rw [eq_of_id_eq hids y1 hx y2] at y3
      exact hin x hx y3) { z with initial := ι z.id } (by rw [e2]; exact List.mem_map_of_mem hz)
    exact this
  · rw [← h]
    unfold Aut.ids
    rw [List.map_append, List.nodup_append]
    refine ⟨?_, ?_, ?_⟩
    · rw [List.map_map]
      exact (hinv.ids_st hstat).sublist (List.filter_sublist.map _)
    · rw [List.map_map, List.map_map, show ((fun x : ANode ℤ (E × S) => x.id) ∘
        (fun z : ANode ℤ (E × S) => if z.mode = -1 then { z with mode := d1 } else z)) ∘ ANode.cut D =
          (fun x => x.id) from ?_]
      · change (Aut.ids sub2).Nodup
        rw [hinv.ids_sub]
        exact b1
      · funext w
        simp only [Function.comp_apply]
        split <;> rfl
    · rintro i hi j hj rfl
      obtain ⟨y, y1, y2⟩ := List.mem_map.1 hi
      obtain ⟨y', y1', y2'⟩ := List.mem_map.1 hj
      obtain ⟨w, w1, rfl⟩ := List.mem_map.1 y1
      obtain ⟨w1, -⟩ := List.mem_filter.1 w1
      rw [hinv.st_eq] at w1
      obtain ⟨x, x1, rfl⟩ := List.mem_map.1 w1
      obtain ⟨v, v1, rfl⟩ := List.mem_map.1 y1'
      obtain ⟨v', v1', rfl⟩ := List.mem_map.1 v1
      rw [hinv.sub_eq] at v1'
      obtain ⟨z, z1, rfl⟩ := List.mem_map.1 v1'
      have hid : (if ((growNode ι f τ z).cut D).mode = -1 then
          { (growNode ι f τ z).cut D with mode := d1 } else (growNode ι f τ z).cut D).id = z.id := by
        split
        · exact growNode_id _ _ _ _
        · exact growNode_id _ _ _ _
      rw [hid] at y2'
      exact hdisj x (List.mem_filter.1 x1).1 z z1 (y2.trans y2'.symm)
  · intro y hy
    rcases (hRmem y).1 hy with ⟨x, x1, x2, x3, rfl⟩ | ⟨z, z1, rfl⟩
    · exact Or.inl ⟨x, hKept1 x x1 x2 x3⟩
    · cases hx : τ z.id with
      | none => exact Or.inr ⟨z, hFresh z z1 hx⟩
      | some x => exact Or.inl ⟨x, hKept2 z z1 x hx⟩
  · intro x hx hm1 hm2
    by_cases hun : ∀ z ∈ B, τ z.id ≠ some x
    · exact ⟨_, (hRmem _).2 (Or.inl ⟨x, hx, hun, ⟨hm1, hm2⟩, rfl⟩), hKept1 x hx hun ⟨hm1, hm2⟩⟩
    · push Not at hun
      obtain ⟨z, z1, z2⟩ := hun
      exact ⟨_, (hRmem _).2 (Or.inr ⟨z, z1, rfl⟩), hKept2 z z1 x z2⟩
  · intro z hz hx
    exact ⟨_, (hRmem _).2 (Or.inr ⟨z, hz, rfl⟩), hFresh z hz hx⟩

end Gr1c
