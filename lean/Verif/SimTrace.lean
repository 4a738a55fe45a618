import Verif.SimLemmas
import Verif.AutomatonProps
import Mathlib.Algebra.BigOperators.Group.Finset.Basic
import Mathlib.Data.Finset.Card

/-!
# Lemmas about the iterations of `sim_rhc`
-/

namespace Gr1c

/-! ## The nodes of the play -/

theorem append_play {V : Type} [DecidableEq V] {nd : ANode ℕ V} {tl : Aut ℕ V} {k f : ℕ} {t : V} (hm : nd.mode = k)
    (hnd : (Aut.ids (nd :: tl)).Nodup) (hf : f ∉ (nd :: tl).map (·.id)) :
    appendAnodeTrans (insertAnode (nd :: tl) f (k + 1) (-1) false t) k nd.state (k + 1) t =
      .ok (⟨f, t, k + 1, -1, false, []⟩ :: { nd with trans := nd.trans ++ [f] } :: tl) := by
  subst hm
  have := (append_anode_trans_exact [(⟨f, t, nd.mode + 1, -1, false, []⟩ : ANode ℕ V)] tl nd (nd.mode + 1) t
    (by
      simp only [Aut.ids] at hnd ⊢
      exact List.nodup_cons.2 ⟨hf, hnd⟩)
    (by
      intro n hn
      simp only [List.mem_singleton] at hn
      subst hn
      simp)).1 [] ⟨f, t, nd.mode + 1, -1, false, []⟩ (nd :: tl) rfl rfl rfl (by simp)
  exact this

theorem playNodes_head {V : Type} (ids : ℕ → ℕ) (σ : ℕ → V) (k : ℕ) :
    ∃ tl, ∀ out, playNodes ids σ k out = ⟨ids k, σ k, k, -1, false, out⟩ :: tl := by
  cases k with
  | zero => exact ⟨[], fun _ => rfl⟩
  | succ k => exact ⟨_, fun _ => rfl⟩

theorem playNodes_ids {V : Type} (ids : ℕ → ℕ) (σ : ℕ → V) (k : ℕ) (out : List ℕ) {x : ℕ} :
    x ∈ (playNodes ids σ k out).map (·.id) ↔ ∃ i ≤ k, ids i = x := by
  induction k generalizing out with
  | zero =>
    simp only [playNodes, List.map_cons, List.map_nil, List.mem_singleton]
    exact ⟨fun h => ⟨0, le_rfl, h.symm⟩, fun ⟨i, hi, h⟩ => by rw [Nat.le_zero.1 hi] at h; exact h.symm⟩
  | succ k ih =>
    simp only [playNodes, List.map_cons, List.mem_cons, ih]
    constructor
    · rintro (h | ⟨i, hi, h⟩)
      · exact ⟨_, le_rfl, h.symm⟩
      · exact ⟨i, by omega, h⟩
    · rintro ⟨i, hi, h⟩
      rcases Nat.lt_or_ge k i with h' | h'
      · left
        rw [← h, show i = k + 1 by omega]
      · exact Or.inr ⟨i, h', h⟩

theorem playNodes_nodup {V : Type} {ids : ℕ → ℕ} {σ : ℕ → V} {k : ℕ} {out : List ℕ}
    (h : ∀ i ≤ k, ∀ j ≤ k, ids i = ids j → i = j) : (Aut.ids (playNodes ids σ k out)).Nodup := by
  induction k generalizing out with
  | zero => simp [playNodes, Aut.ids]
  | succ k ih =>
    simp only [playNodes, Aut.ids, List.map_cons]
    refine List.nodup_cons.2 ⟨fun hc => ?_, ih (fun i hi j hj => h i (by omega) j (by omega))⟩
    obtain ⟨i, hi, he⟩ := (playNodes_ids ids σ k _).1 hc
    have := h i (by omega) (k + 1) le_rfl he
    omega

theorem playNodes_inj {V : Type} {ids ids' : ℕ → ℕ} {σ σ' : ℕ → V} {k : ℕ} {out out' : List ℕ}
    (h : playNodes ids σ k out = playNodes ids' σ' k out') : ∀ i ≤ k, σ i = σ' i := by
  induction k generalizing out out' with
  | zero =>
    intro i hi
    simp only [playNodes, List.cons.injEq, ANode.mk.injEq] at h
    rw [Nat.le_zero.1 hi]
    exact h.1.2.1
  | succ k ih =>
    intro i hi
    simp only [playNodes, List.cons.injEq, ANode.mk.injEq] at h
    rcases Nat.lt_or_ge k i with h' | h'
    · rw [show i = k + 1 by omega]
      exact h.1.2.1
    · exact ih h.2 i h'

section

variable {E S : Type} [Fintype E] [DecidableEq E] [Fintype S] [DecidableEq S]
variable {o : SimOracle E S} {G : Game E S} {W : Finset (E × S)} {near : Finset (E × S) → E × S → ℤ} {sgs : List (Finset (E × S))}
  {n : ℕ}

/-- The state before the first iteration. -/
def simStart (o : SimOracle E S) (n : ℕ) (init : E × S) : Sim (E × S) :=
  ⟨insertAnode [] (o.alloc 0 []) 0 (-1) false init, init, 0, [], List.replicate n [], none⟩

theorem loop_trace {r k : ℕ} {σ σ' : Sim (E × S)} (h : simLoop o G W near sgs n r k σ = .ok σ') :
    ∃ f : ℕ → Sim (E × S), f 0 = σ ∧ f r = σ' ∧ ∀ i < r, simStep o G W near sgs n (k + i) (f i) = .ok (f (i + 1)) := by
  induction r generalizing k σ with
  | zero =>
    injection h with h
    exact ⟨fun _ => σ, rfl, h, fun i hi => by omega⟩
  | succ r ih =>
    unfold simLoop at h
    cases hs : simStep o G W near sgs n k σ with
    | ok σ1 =>
      rw [hs] at h
      obtain ⟨f, f1, f2, f3⟩ := ih h
      refine ⟨fun i => if i = 0 then σ else f (i - 1), by simp, by simpa using f2, ?_⟩
      intro i hi
      cases i with
      | zero => simpa [f1] using hs
      | succ i =>
        have := f3 i (by omega)
        rw [show k + 1 + i = k + (i + 1) by omega] at this
        simpa using this
    | ub => rw [hs] at h; cases h
    | err => rw [hs] at h; cases h
    | timeout => rw [hs] at h; cases h

theorem rhc_trace {init : E × S} {num : ℕ} {a : Aut ℕ (E × S)} (h : simRhc o G W near sgs n init num = .ok a) :
    0 < n ∧ ∃ f : ℕ → Sim (E × S), f 0 = simStart o n init ∧ (f num).play = a ∧
      ∀ i < num, simStep o G W near sgs n i (f i) = .ok (f (i + 1)) := by
  unfold simRhc at h
  by_cases hn : n < 1
  · rw [if_pos hn] at h; cases h
  · rw [if_neg hn] at h
    cases hl : simLoop o G W near sgs n num 0 (simStart o n init) with
    | ok σ =>
      rw [show simLoop o G W near sgs n num 0
        ⟨insertAnode [] (o.alloc 0 []) 0 (-1) false init, init, 0, [], List.replicate n [], none⟩ = .ok σ from hl] at h
      cases h
      obtain ⟨f, f1, f2, f3⟩ := loop_trace hl
      exact ⟨by omega, f, f1, by rw [f2], fun i hi => by simpa using f3 i hi⟩
    | ub =>
      rw [show simLoop o G W near sgs n num 0
        ⟨insertAnode [] (o.alloc 0 []) 0 (-1) false init, init, 0, [], List.replicate n [], none⟩ = .ub from hl] at h
      cases h
    | err =>
      rw [show simLoop o G W near sgs n num 0
        ⟨insertAnode [] (o.alloc 0 []) 0 (-1) false init, init, 0, [], List.replicate n [], none⟩ = .err from hl] at h
      cases h
    | timeout =>
      rw [show simLoop o G W near sgs n num 0
        ⟨insertAnode [] (o.alloc 0 []) 0 (-1) false init, init, 0, [], List.replicate n [], none⟩ = .timeout from hl] at h
      cases h

theorem getD_replicate_nil {V : Type} (n j : ℕ) : (List.replicate n ([] : List V)).getD j [] = [] := by
  rw [List.getD_eq_getElem?_getD, List.getElem?_replicate]
  split <;> rfl

omit [Fintype E] [Fintype S] in
theorem start_inv (init : E × S) (P : E × S → Prop) : SimInv G W n true P (simStart o n init) where
  len := by simp [simStart]
  bot v h := by simp only [simStart, InAt, getD_replicate_nil] at h; simp at h
  up j v h := by simp only [simStart, InAt, getD_replicate_nil] at h; simp at h
  nodup j := by simp only [simStart, getD_replicate_nil]; exact List.nodup_nil
  inW j v h := by simp only [simStart, InAt, getD_replicate_nil] at h; simp at h
  empty _ j v h := by simp only [simStart, InAt, getD_replicate_nil] at h; simp at h
  none _ := rfl
  next h := by cases h
  tried s v h := by simp [simStart, simTried] at h
  stored j _ v h := by simp only [simStart, InAt, getD_replicate_nil] at h; simp at h

/-- A run of `num` iterations. -/
structure Ran (o : SimOracle E S) (G : Game E S) (W : Finset (E × S)) (near : Finset (E × S) → E × S → ℤ) (sgs : List (Finset (E × S)))
    (n num : ℕ) (init : E × S) (f : ℕ → Sim (E × S)) (d : ℕ → E) : Prop where
  start : f 0 = simStart o n init
  inv : ∀ k ≤ num, SimInv G W n (decide (k = 0)) (fun u => ∃ i < k, LegalIn G W (f i).cur u ∧ u.1 = d i) (f k)
  step : ∀ k < num, ∃ A B tried v l, Iterated G W near sgs n (f k) (f (k + 1)) A B (d k) tried v l
  app : ∀ k < num, appendAnodeTrans (insertAnode (f k).play (o.alloc k ((f k).play.map (·.id))) (k + 1) (-1) false (f (k + 1)).cur)
    k (f k).cur (k + 1) (f (k + 1)).cur = .ok (f (k + 1)).play

theorem iterated_inv {first : Bool} {P P' : E × S → Prop} {σ σ' : Sim (E × S)} {A B : Finset (E × S)} {e : E} {tried : List (E × S)}
    {v : E × S} {l : Look (E × S)} (hi : SimInv G W n first P σ) (hit : Iterated G W near sgs n σ σ' A B e tried v l)
    (hP : ∀ u, P u → P' u) (hP' : ∀ u, LegalIn G W σ.cur u → u.1 = e → P' u) : SimInv G W n false P' σ' := by
  have h := (iterated_next (P' := fun _ => True) hi hit (fun _ _ => trivial) (fun _ _ => trivial)).1
  refine ⟨h.len, ?_, h.up, h.nodup, h.inW, h.empty, h.none, h.next, h.tried, h.stored⟩
  intro u hu
  rw [hit.hst] at hu
  rcases hit.look.bot u hu with h | h
  · exact hP u (hi.bot u h)
  · exact hP' u h.1 h.2

theorem rhc_ran (ho : o.Valid G) (hn : ∀ A, NearOk (near A)) {init : E × S} {num : ℕ} {a : Aut ℕ (E × S)}
    (h : simRhc o G W near sgs n init num = .ok a) : 0 < n ∧ ∃ f d, Ran o G W near sgs n num init f d ∧ (f num).play = a := by
  obtain ⟨h1, f, f0, fa, fs⟩ := rhc_trace h
  refine ⟨h1, f, ?_⟩
  have inv : ∀ k ≤ num, SimInv G W n (decide (k = 0)) (fun _ => True) (f k) := by
    intro k
    induction k with
    | zero => intro _; rw [f0]; exact start_inv init _
    | succ k ih =>
      intro hk
      obtain ⟨⟨A, B, e, tried, v, l, hit⟩, -⟩ := step_ok ho hn h1 (ih (by omega)) (fs k (by omega))
      exact (iterated_inv (ih (by omega)) hit (fun _ _ => trivial) (fun _ _ _ => trivial))
  have st : ∀ k < num, ∃ e A B tried v l, Iterated G W near sgs n (f k) (f (k + 1)) A B e tried v l := by
    intro k hk
    obtain ⟨⟨A, B, e, tried, v, l, hit⟩, -⟩ := step_ok ho hn h1 (inv k (by omega)) (fs k hk)
    exact ⟨e, A, B, tried, v, l, hit⟩
  haveI : Nonempty E := ⟨init.1⟩
  choose! d hd using st
  refine ⟨d, ⟨f0, ?_, hd, ?_⟩, fa⟩
  · intro k
    induction k with
    | zero => intro _; rw [f0]; exact start_inv init _
    | succ k ih =>
      intro hk
      obtain ⟨A, B, tried, v, l, hit⟩ := hd k (by omega)
      refine iterated_inv (ih (by omega)) hit ?_ ?_
      · rintro u ⟨i, i1, i2⟩
        exact ⟨i, by omega, i2⟩
      · intro u u1 u2
        exact ⟨k, by omega, u1, u2⟩
  · intro k hk
    exact (step_ok ho hn h1 (inv k (by omega)) (fs k hk)).2

namespace Ran

variable {num : ℕ} {init : E × S} {f : ℕ → Sim (E × S)} {d : ℕ → E} (hr : Ran o G W near sgs n num init f d)
include hr

theorem cur0 : (f 0).cur = init := by rw [hr.start]; rfl

/-- The state of the play is at depth 0. -/
theorem at0 {k : ℕ} (hk : k < num) : InAt (f (k + 1)).hst 0 (f (k + 1)).cur :=
  ((hr.inv (k + 1) hk).next (by simp)).2

theorem cases_step {k : ℕ} (hk : k < num) : ∃ A B tried v l, Iterated G W near sgs n (f k) (f (k + 1)) A B (d k) tried v l ∧
      (((f (k + 1)).cur = (f k).cur ∧ 0 < k ∧ (∀ u, ¬ Considered (f k).hst tried (f (k + 1)).hst u)) ∨
        (Considered (f k).hst tried (f (k + 1)).hst v ∧
          (∀ u, Considered (f k).hst tried (f (k + 1)).hst u → near (B ∩ W) v ≤ near (B ∩ W) u) ∧
          total (f k).hst < total (f (k + 1)).hst ∧ (∃ j < n, PathIn G W j (f (k + 1)).cur v) ∧
          (InAt (f (k + 1)).hst 0 v → (f (k + 1)).cur = v) ∧ LegalIn G W (f k).cur (f (k + 1)).cur ∧ (f (k + 1)).cur.1 = d k)) ∧
      total (f k).hst ≤ total (f (k + 1)).hst := by
  obtain ⟨A, B, tried, v, l, hit⟩ := hr.step k hk
  obtain ⟨-, -, h3, h4⟩ := iterated_next (P' := fun _ => True) (hr.inv k (by omega)) hit (fun _ _ => trivial) (fun _ _ => trivial)
  refine ⟨A, B, tried, v, l, hit, ?_, h4⟩
  rcases h3 with ⟨a, b, c⟩ | h3
  · exact Or.inl ⟨a, by have := of_decide_eq_false b; omega, c⟩
  · exact Or.inr h3

theorem changes_le : ∀ k ≤ num, ((Finset.range k).filter fun i => (f (i + 1)).cur ≠ (f i).cur).card ≤ total (f k).hst := by
  intro k
  induction k with
  | zero => intro _; simp
  | succ k ih =>
    intro hk
    obtain ⟨A, B, tried, v, l, -, h1, h2⟩ := hr.cases_step (k := k) (by omega)
    rw [Finset.range_add_one, Finset.filter_insert]
    have := ih (by omega)
    split
    · rename_i hne
      rw [Finset.card_insert_of_notMem (by simp)]
      rcases h1 with h1 | h1
      · exact absurd h1.1 hne
      · have := h1.2.2.1
        omega
    · omega

theorem total_le {k : ℕ} (hk : k ≤ num) : total (f k).hst ≤ n * W.card := by
  have hi := hr.inv k hk
  have : ∀ x ∈ (f k).hst.map List.length, x ≤ W.card := by
    intro x hx
    obtain ⟨t, ht, rfl⟩ := List.mem_map.1 hx
    obtain ⟨j, hj, rfl⟩ := List.mem_iff_getElem.1 ht
    have e : (f k).hst.getD j [] = (f k).hst[j] := by rw [List.getD_eq_getElem?_getD, List.getElem?_eq_getElem hj]; rfl
    have hnd := hi.nodup j
    rw [e] at hnd
    rw [← List.toFinset_card_of_nodup hnd]
    refine Finset.card_le_card fun u hu => hi.inW j u ?_
    unfold InAt
    rw [e]
    exact List.mem_toFinset.1 hu
  have := List.sum_le_card_nsmul _ _ this
  rw [List.length_map, hi.len] at this
  simpa [total] using this

theorem play (ho : o.Valid G) : ∃ ids : ℕ → ℕ, ∀ k ≤ num, (∀ i ≤ k, ∀ j ≤ k, ids i = ids j → i = j) ∧
    (f k).play = playNodes ids (fun i => (f i).cur) k [] := by
  refine ⟨fun k => match k with | 0 => o.alloc 0 [] | k + 1 => o.alloc k ((f k).play.map (·.id)), ?_⟩
  generalize hids : (fun k => match k with | 0 => o.alloc 0 [] | k + 1 => o.alloc k ((f k).play.map (·.id)) : ℕ → ℕ) = ids
  have e0 : ids 0 = o.alloc 0 [] := by rw [← hids]
  have e1 : ∀ k, ids (k + 1) = o.alloc k ((f k).play.map (·.id)) := by intro k; rw [← hids]
  intro k
  induction k with
  | zero =>
    intro _
    refine ⟨fun i hi j hj _ => by omega, ?_⟩
    rw [hr.start]
    simp only [simStart, insertAnode, playNodes, e0, hr.start]
  | succ k ih =>
    intro hk
    obtain ⟨i1, i2⟩ := ih (by omega)
    have hfresh : ids (k + 1) ∉ (playNodes ids (fun i => (f i).cur) k []).map (·.id) := by
      rw [e1, i2]
      exact ho.fresh _ _
    constructor
    · intro i hi j hj he
      rcases Nat.lt_or_ge k i with hi' | hi' <;> rcases Nat.lt_or_ge k j with hj' | hj'
      · omega
      · rw [show i = k + 1 by omega] at he
        exact absurd ((playNodes_ids _ _ _ _).2 ⟨j, hj', he.symm⟩) hfresh
      · rw [show j = k + 1 by omega] at he
        exact absurd ((playNodes_ids _ _ _ _).2 ⟨i, hi', he⟩) hfresh
      · exact i1 i hi' j hj' he
    · have ha := hr.app k (by omega)
      rw [← e1, i2] at ha
      obtain ⟨tl, htl⟩ := playNodes_head ids (fun i => (f i).cur) k
      have hnd := playNodes_nodup (σ := fun i => (f i).cur) (out := []) i1
      rw [htl []] at ha hfresh hnd
      have := append_play (t := (f (k + 1)).cur) (k := k) rfl hnd hfresh
      have := ha.symm.trans this
      injection this with this
      rw [this]
      simp only [playNodes, htl [ids (k + 1)], List.nil_append]

end Ran

end

end Gr1c
