import Verif.ReachLemmas

/-!
# Invariant of the main loop of the reachability game
-/

namespace Gr1c

set_option linter.unusedSectionVars false

variable {E S : Type} [Fintype E] [DecidableEq E] [Fintype S] [DecidableEq S] {m : ℕ}
  {G : Game E S} {Entry Exit N : Finset (E × S)} {eg : Fin m → Finset (E × S)}
  {L : List (Level E S m)}

/-! ## Progress -/

/-- The level search returns the least level containing the state. -/
theorem reach_levelOf (hL : reachLevels G Entry Exit N eg = some L) {s : E × S}
    (hs : s ∈ rlev G Exit N eg (L.length - 1)) :
    levelOf L s < L.length ∧ s ∈ rlev G Exit N eg (levelOf L s) ∧
      ∀ i, s ∈ rlev G Exit N eg i → levelOf L s ≤ i := by
  obtain ⟨hpos, hY, -, -, -⟩ := reachLevels_spec hL
  obtain ⟨h1, h2, h3⟩ := levelDown_spec L s L.length le_rfl
  unfold levelOf
  generalize levelDown L s L.length = j at h1 h2 h3 ⊢
  have hj : j < L.length := by
    by_contra hge
    have hjl : j = L.length := by omega
    obtain ⟨hi, hn⟩ := h3 (by omega)
    rw [hY _ hi, hjl] at hn
    exact hn hs
  refine ⟨hj, ?_, ?_⟩
  · have := h2 j hj le_rfl hj
    rwa [hY j hj] at this
  · intro i hi
    by_contra hlt
    obtain ⟨hi', hn⟩ := h3 (by omega)
    rw [hY _ hi'] at hn
    exact hn (rlev_mono (by omega) hi)

/-- Least environment goal whose set above level `k` contains the state. -/
noncomputable def rrix (G : Game E S) (Exit N : Finset (E × S)) (eg : Fin m → Finset (E × S)) (k : ℕ)
    (s : E × S) : ℕ :=
  sInf {r | ∃ h : r < m, s ∈ reachX G Exit N eg (rlev G Exit N eg k) ⟨r, h⟩}

theorem rrix_spec {k : ℕ} {s : E × S} (h : ∃ r, s ∈ reachX G Exit N eg (rlev G Exit N eg k) r) :
    ∃ hr : rrix G Exit N eg k s < m,
      s ∈ reachX G Exit N eg (rlev G Exit N eg k) ⟨rrix G Exit N eg k s, hr⟩ := by
  obtain ⟨r, hr⟩ := h
  exact Nat.sInf_mem (s := {r | ∃ h : r < m, s ∈ reachX G Exit N eg (rlev G Exit N eg k) ⟨r, h⟩})
    ⟨r.val, r.isLt, hr⟩

theorem rrix_le {k : ℕ} {s : E × S} {r : Fin m} (h : s ∈ reachX G Exit N eg (rlev G Exit N eg k) r) :
    rrix G Exit N eg k s ≤ r.val := Nat.sInf_le ⟨r.isLt, h⟩

/-- What an edge from `s` to `t` achieves: a lower level, or the same level and an environment goal
with no larger index while the goal of `s` does not hold. -/
def RProg (G : Game E S) (Exit N : Finset (E × S)) (eg : Fin m → Finset (E × S))
    (L : List (Level E S m)) (s t : E × S) : Prop :=
  levelOf L t < levelOf L s ∨
  (levelOf L t = levelOf L s ∧
    rrix G Exit N eg (levelOf L t - 1) t ≤ rrix G Exit N eg (levelOf L s - 1) s ∧
    ∃ h : rrix G Exit N eg (levelOf L s - 1) s < m, s ∉ eg ⟨_, h⟩)

/-- An edge answering `e`. -/
def REdge (G : Game E S) (Exit N : Finset (E × S)) (eg : Fin m → Finset (E × S))
    (L : List (Level E S m)) (s : E × S) (e : E) (t : E × S) : Prop :=
  t.1 = e ∧ G.str s t = true ∧ t ∈ rlev G Exit N eg (L.length - 1) ∧ RProg G Exit N eg L s t

/-- What is known of the persistent target set. -/
def TOk (G : Game E S) (Exit N : Finset (E × S)) (eg : Fin m → Finset (E × S)) (k : ℕ) (s : E × S)
    (T : Finset (E × S)) : Prop :=
  T = rlev G Exit N eg k ∨
  (s ∉ pre G (rlev G Exit N eg k) ∧
    (T ⊆ rlev G Exit N eg k ∨
      ∃ r : Fin m, r.val ≤ rrix G Exit N eg k s ∧ T = reachX G Exit N eg (rlev G Exit N eg k) r))

theorem firstR_some {s : E × S} {e : E} {X : Fin m → Finset (E × S)} {r : Fin m}
    (h : firstR G N s e X = some r) :
    cand G N (X r) s e ≠ ∅ ∧ ∀ r', cand G N (X r') s e ≠ ∅ → r ≤ r' := by
  obtain ⟨h1, h2⟩ := find_finRange h
  exact ⟨by simpa using h1, fun r' hr' => h2 r' (by simpa using hr')⟩

theorem firstR_none {s : E × S} {e : E} {X : Fin m → Finset (E × S)}
    (h : firstR G N s e X = none) (r : Fin m) : cand G N (X r) s e = ∅ := by
  unfold firstR at h
  rw [List.find?_eq_none] at h
  simpa using h r (List.mem_finRange r)

/-- The choice always succeeds, is legal and makes progress. -/
theorem reachChoose_ok (hX : Exit ⊆ N) (hL : reachLevels G Entry Exit N eg = some L) {s : E × S}
    (hs : s ∈ rlev G Exit N eg (L.length - 1)) (hj : levelOf L s ≠ 0) {e : E} (he : G.etr s e = true)
    {T : Finset (E × S)} (hT : TOk G Exit N eg (levelOf L s - 1) s T) {pick : Finset (E × S) → E × S}
    (hpick : ∀ A : Finset (E × S), A.Nonempty → pick A ∈ A) :
    ∃ x T', reachChoose G N L (levelOf L s) s e T pick = .ok (x, T') ∧
      REdge G Exit N eg L s e (e, x) ∧ TOk G Exit N eg (levelOf L s - 1) s T' := by
  obtain ⟨hpos, hY, hX0, hLX, -⟩ := reachLevels_spec hL
  obtain ⟨hlt, hin, hmin⟩ := reach_levelOf hL hs
  obtain ⟨k, hk⟩ : ∃ k, levelOf L s = k + 1 := ⟨levelOf L s - 1, by omega⟩
  rw [hk] at hT hlt hin ⊢
  rw [show k + 1 - 1 = k by omega] at hT ⊢
  have hnk : s ∉ rlev G Exit N eg k := fun h => by have := hmin k h; omega
  have hnE : s ∉ Exit := fun h => hnk (exit_subset_rlev k h)
  have hex : ∃ r, s ∈ reachX G Exit N eg (rlev G Exit N eg k) r := by
    rw [rlev_succ] at hin
    rcases mem_reachStep.1 hin with h | h
    · exact h
    · exact absurd h hnk
  obtain ⟨hrm, hrs⟩ := rrix_spec hex
  have hcase : s ∈ pre G (rlev G Exit N eg k) ∨
      (s ∉ pre G (rlev G Exit N eg k) ∧
        s ∈ pre G (reachX G Exit N eg (rlev G Exit N eg k) ⟨rrix G Exit N eg k s, hrm⟩) ∧
        s ∉ eg ⟨rrix G Exit N eg k s, hrm⟩) := by
    by_cases hp : s ∈ pre G (rlev G Exit N eg k)
    · exact Or.inl hp
    · rcases reachX_cases hrs with h | h | h
      · exact absurd h hnE
      · exact absurd h.1 hp
      · exact Or.inr ⟨hp, h.1, h.2.2⟩
  have pickm : ∀ {T : Finset (E × S)}, cand G N T s e ≠ ∅ →
      G.str s (e, (pick (cand G N T s e)).2) = true ∧ (e, (pick (cand G N T s e)).2) ∈ N ∧
      (e, (pick (cand G N T s e)).2) ∈ T := fun hne =>
    mem_cand.1 (hpick _ (Finset.nonempty_iff_ne_empty.2 hne))
  have hyN := rlev_subset_N (G := G) (eg := eg) hX
  have htop : ∀ {i : ℕ} {t : E × S}, i < L.length → t ∈ rlev G Exit N eg i →
      t ∈ rlev G Exit N eg (L.length - 1) := fun hi ht => rlev_mono (by omega) ht
  -- a step into the lower level
  have down : ∀ {t : E × S}, G.str s t = true → t ∈ rlev G Exit N eg k →
      REdge G Exit N eg L s t.1 t := by
    intro t h1 h2
    have htt := htop (by omega) h2
    refine ⟨rfl, h1, htt, Or.inl ?_⟩
    have := (reach_levelOf hL htt).2.2 k h2
    omega
  -- a step into one of the sets of this level
  have side : ∀ {t : E × S} {r : Fin m}, s ∉ eg ⟨rrix G Exit N eg k s, hrm⟩ →
      r.val ≤ rrix G Exit N eg k s → G.str s t = true →
      t ∈ reachX G Exit N eg (rlev G Exit N eg k) r → REdge G Exit N eg L s t.1 t := by
    intro t r hne hr h1 h2
    have h3 := reachX_subset_rlev k r h2
    have htt := htop hlt h3
    have hle := (reach_levelOf hL htt).2.2 _ h3
    refine ⟨rfl, h1, htt, ?_⟩
    by_cases heq : levelOf L t = k + 1
    · right
      rw [heq, hk]
      refine ⟨rfl, (rrix_le h2).trans hr, hrm, hne⟩
    · left; omega
  unfold reachChoose
  simp only
  by_cases hA : cand G N T s e ≠ ∅
  · rw [if_pos hA]
    refine ⟨_, _, rfl, ?_, hT⟩
    obtain ⟨p1, p2, p3⟩ := pickm hA
    rcases hT with rfl | ⟨hp, hT | ⟨r, hr, rfl⟩⟩
    · exact down p1 p3
    · exact down p1 (hT p3)
    · rcases hcase with h | h
      · exact absurd h hp
      · exact side h.2.2 hr p1 p3
  · rw [if_neg hA]
    have hnp : s ∉ pre G (rlev G Exit N eg k) := by
      rcases hT with rfl | ⟨hp, _⟩
      · intro hp
        exact hA (cand_ne (hyN k) hp he)
      · exact hp
    obtain ⟨-, hpre, hne⟩ : _ ∧ _ ∧ _ := hcase.resolve_left hnp
    rw [show k + 1 - 1 = k by omega, List.getElem?_eq_getElem (show k < L.length by omega)]
    simp only
    cases hf : firstR G N s e (L[k]'(by omega)).X with
    | some r =>
      simp only
      obtain ⟨f1, _⟩ := firstR_some hf
      obtain ⟨p1, p2, p3⟩ := pickm f1
      have hsub : (L[k]'(by omega)).X r ⊆ rlev G Exit N eg k := by
        cases k with
        | zero => rw [hX0 hpos r]; exact Finset.empty_subset _
        | succ k =>
          rw [hLX k (by omega) r]
          exact reachX_subset_rlev k r
      exact ⟨_, _, rfl, down p1 (hsub p3), Or.inr ⟨hnp, Or.inl hsub⟩⟩
    | none =>
      simp only
      rw [List.getElem?_eq_getElem hlt]
      simp only
      have hXk : ∀ r, (L[k + 1]'hlt).X r = reachX G Exit N eg (rlev G Exit N eg k) r := hLX k hlt
      have hxN : ∀ r, reachX G Exit N eg (rlev G Exit N eg k) r ⊆ N := fun r =>
        (reachX_subset_rlev k r).trans (hyN _)
      cases hg : firstR G N s e (L[k + 1]'hlt).X with
      | some r =>
        simp only
        obtain ⟨f1, f2⟩ := firstR_some hg
        obtain ⟨p1, p2, p3⟩ := pickm f1
        have hr : r.val ≤ rrix G Exit N eg k s := by
          have := f2 ⟨rrix G Exit N eg k s, hrm⟩ (by
            rw [hXk]; exact cand_ne (hxN _) hpre he)
          exact this
        refine ⟨_, _, rfl, ?_, Or.inr ⟨hnp, Or.inr ⟨r, hr, hXk r⟩⟩⟩
        generalize pick (cand G N ((L[k + 1]'hlt).X r) s e) = q at p1 p3 ⊢
        rw [hXk] at p3
        exact side hne hr p1 p3
      | none =>
        exfalso
        have := firstR_none hg ⟨rrix G Exit N eg k s, hrm⟩
        rw [hXk] at this
        exact cand_ne (hxN _) hpre he this

/-! ## The invariant -/

/-- The outgoing edges `tr` of state `s` answer exactly the moves `es`. -/
def REdges (G : Game E S) (Exit N : Finset (E × S)) (eg : Fin m → Finset (E × S))
    (L : List (Level E S m)) (st : Aut ℤ (E × S)) (s : E × S) (es : List E) (tr : List ℕ) : Prop :=
  List.Forall₂ (fun e j => ∃ t, (j, ((-1 : ℤ), t)) ∈ Aut.idk st ∧ REdge G Exit N eg L s e t) es tr

/-- A node is either waiting on the stack or finished. -/
def RGood (G : Game E S) (Exit N : Finset (E × S)) (eg : Fin m → Finset (E × S))
    (L : List (Level E S m)) (st : Aut ℤ (E × S)) (stack : List (E × S)) (nd : ANode ℤ (E × S)) : Prop :=
  (nd.trans = [] ∧ nd.state ∈ stack) ∨
  (nd.rgrad = levelOf L nd.state ∧
    ((nd.trans = [] ∧ nd.state ∈ Exit) ∨
     (nd.state ∉ Exit ∧ ∃ es : List E, (es.Nodup ∧ ∀ e, e ∈ es ↔ G.etr nd.state e = true) ∧
        REdges G Exit N eg L st nd.state es nd.trans)))

/-- The part of the invariant not concerning edges. -/
structure RCore (G : Game E S) (Exit N : Finset (E × S)) (eg : Fin m → Finset (E × S))
    (L : List (Level E S m)) (c : ReachCfg E S) : Prop where
  ids : (Aut.ids c.strat).Nodup
  keys : (c.strat.map ANode.key).Nodup
  mode : ∀ nd ∈ c.strat, nd.mode = -1 ∧ nd.initial = false
  win : ∀ nd ∈ c.strat, nd.state ∈ rlev G Exit N eg (L.length - 1)
  stk : ∀ s ∈ c.stack, ∃ nd ∈ c.strat, nd.key = (-1, s)
  stkN : c.stack.Nodup

theorem REdges.mono {st st' : Aut ℤ (E × S)} {s : E × S} {es : List E} {tr : List ℕ}
    (h : REdges G Exit N eg L st s es tr) (hsub : ∀ x ∈ Aut.idk st, x ∈ Aut.idk st') :
    REdges G Exit N eg L st' s es tr := by
  unfold REdges at *
  exact h.imp fun e j ⟨k', h1, h2⟩ => ⟨k', hsub _ h1, h2⟩

theorem RGood.mono {st st' : Aut ℤ (E × S)} {stack stack' : List (E × S)} {nd : ANode ℤ (E × S)}
    (h : RGood G Exit N eg L st stack nd) (hsub : ∀ x ∈ Aut.idk st, x ∈ Aut.idk st')
    (hs : ∀ k ∈ stack, k ∈ stack') : RGood G Exit N eg L st' stack' nd := by
  rcases h with ⟨h1, h2⟩ | ⟨h1, h2 | ⟨h2, es, h3, h4⟩⟩
  · exact Or.inl ⟨h1, hs _ h2⟩
  · exact Or.inr ⟨h1, Or.inl h2⟩
  · exact Or.inr ⟨h1, Or.inr ⟨h2, es, h3, h4.mono hsub⟩⟩

/-- Changes of the strategy that keep addresses, modes, states and flags. -/
theorem RCore.upd {c : ReachCfg E S} (hc : RCore G Exit N eg L c) (id : ℕ)
    (f : ANode ℤ (E × S) → ANode ℤ (E × S))
    (hf : ∀ nd, (f nd).id = nd.id ∧ (f nd).key = nd.key ∧ (f nd).initial = nd.initial) :
    RCore G Exit N eg L { c with strat := updNode c.strat id f } := by
  have hidk : Aut.idk (updNode c.strat id f) = Aut.idk c.strat :=
    idk_updNode _ _ _ fun nd => ⟨(hf nd).1, (hf nd).2.1⟩
  have hk : ∀ nd, (f nd).mode = nd.mode ∧ (f nd).state = nd.state := fun nd =>
    ⟨congrArg Prod.fst (hf nd).2.1, congrArg Prod.snd (hf nd).2.1⟩
  refine ⟨by rw [ids_of_idk, hidk, ← ids_of_idk]; exact hc.ids,
    by rw [keys_of_idk, hidk, ← keys_of_idk]; exact hc.keys, ?_, ?_, ?_, hc.stkN⟩
  · intro nd hnd
    obtain ⟨nd0, h0, rfl⟩ := mem_updNode.1 hnd
    split
    · rw [(hk nd0).1, (hf nd0).2.2]; exact hc.mode nd0 h0
    · exact hc.mode nd0 h0
  · intro nd hnd
    obtain ⟨nd0, h0, rfl⟩ := mem_updNode.1 hnd
    split
    · rw [(hk nd0).2]; exact hc.win nd0 h0
    · exact hc.win nd0 h0
  · intro s hs
    obtain ⟨nd, h1, h2⟩ := hc.stk s hs
    obtain ⟨nd', h3, h4, h5⟩ := mem_idk.1 (hidk.symm ▸ mem_idk.2 ⟨nd, h1, rfl, h2⟩)
    exact ⟨nd', h3, h5⟩

/-- One pass over the environment moves. -/
theorem reachExpand_ok (hX : Exit ⊆ N) {o : Oracle E S} (ho : o.Valid G)
    (hL : reachLevels G Entry Exit N eg = some L) {s : E × S}
    (hs : s ∈ rlev G Exit N eg (L.length - 1)) (hj : levelOf L s ≠ 0) (es : List E) :
    ∀ (done : List E) (T : Finset (E × S)) (c : ReachCfg E S),
    (∀ e ∈ es, G.etr s e = true) → TOk G Exit N eg (levelOf L s - 1) s T → RCore G Exit N eg L c →
    (∀ nd ∈ c.strat, nd.key ≠ (-1, s) → RGood G Exit N eg L c.strat c.stack nd) →
    (∃ nd ∈ c.strat, nd.key = (-1, s) ∧ nd.rgrad = levelOf L s ∧
      REdges G Exit N eg L c.strat s done nd.trans) →
    ∃ c', reachExpand G N o L s (levelOf L s) es T c = .ok c' ∧ RCore G Exit N eg L c' ∧
      (∀ nd ∈ c'.strat, nd.key ≠ (-1, s) → RGood G Exit N eg L c'.strat c'.stack nd) ∧
      (∃ nd ∈ c'.strat, nd.key = (-1, s) ∧ nd.rgrad = levelOf L s ∧
        REdges G Exit N eg L c'.strat s (done ++ es) nd.trans) ∧
      (∀ x ∈ Aut.idk c.strat, x ∈ Aut.idk c'.strat) ∧
      c.strat.length + c'.stack.length = c'.strat.length + c.stack.length := by
  induction es with
  | nil =>
    intro done T c _ _ hc hg hk
    refine ⟨c, rfl, hc, hg, ?_, fun k h => h, rfl⟩
    rw [List.append_nil]; exact hk
  | cons e es ih =>
    intro done T c hes hT hc hg hk
    obtain ⟨x, T', hx, hedge, hT'⟩ := reachChoose_ok hX hL hs hj (hes e (by simp)) hT
      (pick := o.pick c.clk) (ho.pick c.clk)
    unfold reachExpand
    rw [hx]
    simp only
    set t : E × S := (e, x) with ht
    set c1 : ReachCfg E S := reachAdd o t c with hc1def
    have hc1 : RCore G Exit N eg L c1 ∧
        (∀ nd ∈ c1.strat, nd.key ≠ (-1, s) → RGood G Exit N eg L c1.strat c1.stack nd) ∧
        (∃ nd ∈ c1.strat, nd.key = (-1, s) ∧ nd.rgrad = levelOf L s ∧
          REdges G Exit N eg L c1.strat s done nd.trans) ∧
        (∃ nd ∈ c1.strat, nd.key = (-1, t)) ∧ (∀ x ∈ Aut.idk c.strat, x ∈ Aut.idk c1.strat) ∧
        c.strat.length + c1.stack.length = c1.strat.length + c.stack.length := by
      cases hf : findAnode c.strat (-1) t with
      | some tn =>
        unfold reachAdd at hc1def
        rw [hf] at hc1def
        obtain ⟨h1, h2⟩ := findAnode_some hf
        rw [hc1def]
        exact ⟨⟨hc.ids, hc.keys, hc.mode, hc.win, hc.stk, hc.stkN⟩, hg, hk, ⟨tn, h1, h2⟩, fun k h => h, rfl⟩
      | none =>
        unfold reachAdd at hc1def
        rw [hf] at hc1def
        rw [hc1def]
        have hnone := findAnode_none_iff.1 hf
        set new : ANode ℤ (E × S) :=
          { id := o.alloc c.clk (c.strat.map (·.id)), state := t, mode := -1, rgrad := -1,
            initial := false, trans := [] } with hnew
        have hins : insertAnode c.strat (o.alloc c.clk (c.strat.map (·.id))) (-1) (-1) false t =
          new :: c.strat := rfl
        simp only [hins]
        have hidk : ∀ y ∈ Aut.idk c.strat, y ∈ Aut.idk (new :: c.strat) := by
          intro y hy
          unfold Aut.idk
          rw [List.map_cons]
          exact List.mem_cons_of_mem _ hy
        have hnotin : t ∉ c.stack := by
          intro h
          obtain ⟨nd, h1, h2⟩ := hc.stk _ h
          exact hnone nd h1 h2
        refine ⟨⟨?_, ?_, ?_, ?_, ?_, ?_⟩, ?_, ?_, ⟨new, by simp, rfl⟩, hidk, ?_⟩
        · show (Aut.ids (new :: c.strat)).Nodup
          unfold Aut.ids
          rw [List.map_cons, List.nodup_cons]
          exact ⟨ho.alloc _ _, hc.ids⟩
        · show ((new :: c.strat).map ANode.key).Nodup
          rw [List.map_cons, List.nodup_cons]
          refine ⟨?_, hc.keys⟩
          intro h
          rw [List.mem_map] at h
          obtain ⟨nd, h1, h2⟩ := h
          exact hnone nd h1 h2
        · intro nd hnd
          rcases List.mem_cons.1 hnd with rfl | hnd
          · exact ⟨rfl, rfl⟩
          · exact hc.mode nd hnd
        · intro nd hnd
          rcases List.mem_cons.1 hnd with rfl | hnd
          · exact hedge.2.2.1
          · exact hc.win nd hnd
        · intro k hk'
          rcases List.mem_cons.1 hk' with rfl | hk'
          · exact ⟨new, by simp, rfl⟩
          · obtain ⟨nd, h1, h2⟩ := hc.stk k hk'
            exact ⟨nd, List.mem_cons_of_mem _ h1, h2⟩
        · show (t :: c.stack).Nodup
          rw [List.nodup_cons]
          exact ⟨hnotin, hc.stkN⟩
        · intro nd hnd hne
          rcases List.mem_cons.1 hnd with rfl | hnd
          · exact Or.inl ⟨rfl, by simp [hnew]⟩
          · exact (hg nd hnd hne).mono hidk (fun k h => List.mem_cons_of_mem _ h)
        · obtain ⟨nd, h1, h2, h3, h4⟩ := hk
          exact ⟨nd, List.mem_cons_of_mem _ h1, h2, h3, h4.mono hidk⟩
        · simp only [List.length_cons]; omega
    obtain ⟨k1, k2, ⟨base, b1, b2, b2', b3⟩, ⟨tn, t1, t2⟩, k5, k7⟩ := hc1
    have hfb : findAnode c1.strat (-1) s = some base := findAnode_of_mem k1.keys b1 b2
    have hft : findAnode c1.strat (-1) t = some tn := findAnode_of_mem k1.keys t1 t2
    unfold appendAnodeTrans
    rw [hfb, hft]
    simp only
    set st2 := updNode c1.strat base.id fun nd => { nd with trans := nd.trans ++ [tn.id] } with hst2
    have hidk2 : Aut.idk st2 = Aut.idk c1.strat := idk_updNode _ _ _ fun nd => ⟨rfl, rfl⟩
    have hlen2 : st2.length = c1.strat.length := by rw [hst2]; simp [updNode]
    obtain ⟨c', e1, e2, e3, e4, e5, e7⟩ := ih (done ++ [e]) T' { c1 with strat := st2 }
      (fun e' he' => hes e' (by simp [he'])) hT'
      (k1.upd base.id _ fun nd => ⟨rfl, rfl, rfl⟩)
      (by
        intro nd hnd hne
        obtain ⟨nd0, hnd0, rfl⟩ := mem_updNode.1 hnd
        by_cases hid : nd0.id = base.id
        · exfalso
          rw [if_pos hid] at hne
          apply hne
          rw [eq_of_id_eq k1.ids hnd0 b1 hid]
          exact b2
        · rw [if_neg hid] at hne ⊢
          exact (k2 nd0 hnd0 hne).mono (fun y hy => by rw [hidk2]; exact hy) (fun k h => h))
      (by
        refine ⟨{ base with trans := base.trans ++ [tn.id] }, mem_updNode.2 ⟨base, b1, if_pos rfl⟩, b2, b2', ?_⟩
        have b4 : REdges G Exit N eg L st2 s done base.trans :=
          b3.mono (fun y hy => by rw [hidk2]; exact hy)
        unfold REdges at b4 ⊢
        refine List.rel_append b4 (List.Forall₂.cons ⟨t, ?_, hedge⟩ List.Forall₂.nil)
        rw [hidk2]
        exact mem_idk.2 ⟨tn, t1, rfl, t2⟩)
    refine ⟨c', e1, e2, e3, ?_, ?_, ?_⟩
    · rw [List.append_assoc] at e4
      exact e4
    · intro y hy
      apply e5
      show y ∈ Aut.idk st2
      rw [hidk2]
      exact k5 y hy
    · simp only at e7
      rw [hlen2] at e7
      omega

/-- One iteration of the main loop. -/
theorem reachIter_ok (hX : Exit ⊆ N) {o : Oracle E S} (ho : o.Valid G)
    (hL : reachLevels G Entry Exit N eg = some L) (s : E × S) (c : ReachCfg E S)
    (hc : RCore G Exit N eg L { c with stack := s :: c.stack })
    (hg : ∀ x ∈ c.strat, RGood G Exit N eg L c.strat (s :: c.stack) x) :
    ∃ c', reachIter G N o L s c = .ok c' ∧ RCore G Exit N eg L c' ∧
      (∀ x ∈ c'.strat, RGood G Exit N eg L c'.strat c'.stack x) ∧
      (∀ x ∈ Aut.idk c.strat, x ∈ Aut.idk c'.strat) ∧
      c.strat.length + c'.stack.length = c'.strat.length + c.stack.length := by
  obtain ⟨node, hn1, hn2⟩ := hc.stk s (by simp)
  have hn1' : node ∈ c.strat := hn1
  have hnst : node.state = s := congrArg Prod.snd hn2
  have hf : findAnode c.strat (-1) s = some node := findAnode_of_mem hc.keys hn1 hn2
  have hs : s ∈ rlev G Exit N eg (L.length - 1) := hnst ▸ hc.win node hn1
  have hsn : s ∉ c.stack := (List.nodup_cons.1 hc.stkN).1
  have hc0 : RCore G Exit N eg L c :=
    ⟨hc.ids, hc.keys, hc.mode, hc.win, fun k h => hc.stk k (List.mem_cons_of_mem _ h),
      (List.nodup_cons.1 hc.stkN).2⟩
  have hid : ∀ x ∈ c.strat, x.id = node.id → x.key = (-1, s) := fun x hx h => by
    rw [eq_of_id_eq hc.ids hx hn1 h]; exact hn2
  have hkey : ∀ x ∈ c.strat, x.key = (-1, s) → x = node := fun x hx h =>
    eq_of_key_eq hc.keys hx hn1 (by rw [h, hn2])
  unfold reachIter
  rw [hf]
  simp only
  set st1 := updNode c.strat node.id fun nd => { nd with rgrad := (levelOf L s : ℤ) } with hst1
  have hidk1 : Aut.idk st1 = Aut.idk c.strat := idk_updNode _ _ _ fun nd => ⟨rfl, rfl⟩
  have hlen1 : st1.length = c.strat.length := by rw [hst1]; simp [updNode]
  have hc1 : RCore G Exit N eg L { c with strat := st1 } := hc0.upd node.id _ fun nd => ⟨rfl, rfl, rfl⟩
  have hgood1 : ∀ x ∈ st1, x.key ≠ (-1, s) → RGood G Exit N eg L st1 c.stack x := by
    intro x hx hne
    obtain ⟨y, hy, rfl⟩ := mem_updNode.1 hx
    by_cases hyid : y.id = node.id
    · rw [if_pos hyid] at hne
      exact absurd (hid y hy hyid) hne
    · rw [if_neg hyid] at hne ⊢
      rcases hg y hy with ⟨g1, g2⟩ | g
      · refine Or.inl ⟨g1, ?_⟩
        rcases List.mem_cons.1 g2 with h | h
        · exfalso
          apply hne
          have := (hc.mode y hy).1
          unfold ANode.key
          rw [this, h]
        · exact h
      · exact RGood.mono (stack := []) (Or.inr g) (fun z hz => by rw [hidk1]; exact hz) (by simp)
  have hmem1 : { node with rgrad := (levelOf L s : ℤ) } ∈ st1 := mem_updNode.2 ⟨node, hn1, if_pos rfl⟩
  have huniq : ∀ x ∈ st1, x.key = (-1, s) → x = { node with rgrad := (levelOf L s : ℤ) } := by
    intro x hx hk
    exact eq_of_key_eq hc1.keys hx hmem1 (by rw [hk]; exact hn2.symm)
  by_cases hcond : node.trans ≠ [] ∨ levelOf L s = 0
  · rw [if_pos hcond]
    refine ⟨_, rfl, hc1, ?_, fun x hx => by rw [hidk1]; exact hx, by simp [hlen1]⟩
    intro x hx
    by_cases hk : x.key = (-1, s)
    · rw [huniq x hx hk]
      right
      refine ⟨by rw [hnst], ?_⟩
      rcases hg node hn1 with ⟨g1, g2⟩ | ⟨g1, ⟨g2, g3⟩ | ⟨g2, es, g3, g4⟩⟩
      · left
        refine ⟨g1, ?_⟩
        have h0 : levelOf L s = 0 := hcond.resolve_left (not_not.2 g1)
        have := (reach_levelOf hL hs).2.1
        rw [h0] at this
        rw [hnst]
        exact this
      · exact Or.inl ⟨g2, g3⟩
      · exact Or.inr ⟨g2, es, g3, g4.mono fun z hz => by rw [hidk1]; exact hz⟩
    · exact hgood1 x hx hk
  · rw [if_neg hcond]
    push Not at hcond
    obtain ⟨htr, hj⟩ := hcond
    obtain ⟨hpos, hY, -, -, -⟩ := reachLevels_spec hL
    obtain ⟨hlt, hin, hmin⟩ := reach_levelOf hL hs
    rw [List.getElem?_eq_getElem (show levelOf L s - 1 < L.length by omega)]
    simp only
    rw [hY]
    obtain ⟨c', e1, e2, e3, ⟨nd', n1, n2, n2', n3⟩, e5, e7⟩ := reachExpand_ok hX ho hL hs hj
      (o.moves c.clk s) [] (rlev G Exit N eg (levelOf L s - 1)) { c with strat := st1 }
      (fun e he => (ho.moves_mem _ _ _).1 he) (Or.inl rfl) hc1 hgood1
      ⟨_, hmem1, hn2, rfl, by
        show REdges G Exit N eg L st1 s [] node.trans
        rw [htr]; exact List.Forall₂.nil⟩
    rw [List.nil_append] at n3
    have hst' : nd'.state = s := congrArg Prod.snd n2
    refine ⟨c', e1, e2, ?_, ?_, ?_⟩
    · intro x hx
      by_cases hk : x.key = (-1, s)
      · have hxn : x = nd' := eq_of_key_eq e2.keys hx n1 (by rw [hk, n2])
        subst hxn
        refine Or.inr ⟨by rw [n2', hst'], Or.inr ⟨?_, _, ⟨ho.moves_nodup c.clk s, fun e => ?_⟩, ?_⟩⟩
        · rw [hst']
          intro h
          have := hmin 0 h
          omega
        · rw [hst']; exact ho.moves_mem _ _ _
        · rw [hst']; exact n3
      · exact e3 x hx hk
    · intro x hx
      apply e5
      show x ∈ Aut.idk st1
      rw [hidk1]; exact hx
    · simp only at e7
      rw [hlen1] at e7
      exact e7

theorem RCore.length_le {c : ReachCfg E S} (hc : RCore G Exit N eg L c) :
    c.strat.length ≤ Fintype.card E * Fintype.card S := by
  have h1 : (c.strat.map (·.state)).Nodup := by
    rw [List.nodup_map_iff_inj_on hc.keys.of_map]
    intro a ha b hb hab
    apply eq_of_key_eq hc.keys ha hb
    unfold ANode.key
    rw [(hc.mode a ha).1, (hc.mode b hb).1, hab]
  have := h1.length_le_card
  simpa [Fintype.card_prod] using this

/-- The whole main loop. -/
theorem reachLoop_ok (hX : Exit ⊆ N) {o : Oracle E S} (ho : o.Valid G)
    (hL : reachLevels G Entry Exit N eg = some L) : ∀ (fuel : ℕ) (c : ReachCfg E S),
    RCore G Exit N eg L c → (∀ x ∈ c.strat, RGood G Exit N eg L c.strat c.stack x) →
    Fintype.card E * Fintype.card S + c.stack.length ≤ fuel + c.strat.length →
    ∃ st k, reachLoop G N o L fuel c = .ok st ∧ RCore G Exit N eg L ⟨st, [], k⟩ ∧
      (∀ x ∈ st, RGood G Exit N eg L st [] x) ∧ ∀ x ∈ Aut.idk c.strat, x ∈ Aut.idk st := by
  intro fuel
  induction fuel with
  | zero =>
    intro c hc hg hf
    have := hc.length_le
    have hs : c.stack = [] := List.length_eq_zero_iff.1 (by omega)
    refine ⟨c.strat, c.clk, ?_, ?_, ?_, fun x h => h⟩
    · unfold reachLoop; rw [hs]
    · rw [← hs]; exact hc
    · rw [← hs]; exact hg
  | succ fuel ih =>
    intro c hc hg hf
    cases hs : c.stack with
    | nil =>
      refine ⟨c.strat, c.clk, ?_, ?_, ?_, fun x h => h⟩
      · unfold reachLoop; rw [hs]
      · rw [← hs]; exact hc
      · rw [← hs]; exact hg
    | cons s rest =>
      have hcs : ({ c with stack := s :: rest } : ReachCfg E S) = c := by rw [← hs]
      obtain ⟨c', e1, e2, e3, e4, e5⟩ := reachIter_ok hX ho hL s { c with stack := rest }
        (hcs.symm ▸ hc) (by rw [← hs]; exact hg)
      simp only at e5
      rw [hs, List.length_cons] at hf
      obtain ⟨st, k, q1, q2, q3, q4⟩ := ih c' e2 e3 (by omega)
      refine ⟨st, k, ?_, q2, q3, fun x hx => q4 x (e4 x hx)⟩
      unfold reachLoop
      rw [hs]
      simp only
      rw [e1]
      exact q1

theorem reachInsert_spec {o : Oracle E S} (ho : o.Valid G) : ∀ (ss : List (E × S)) (c : ℕ)
    (st : Aut ℤ (E × S)), ss.Nodup → (Aut.ids st).Nodup →
    (∀ s ∈ ss, ∀ x ∈ st, x.key ≠ (-1, s)) → (st.map ANode.key).Nodup →
    (Aut.ids (reachInsert o c ss st)).Nodup ∧
    ((reachInsert o c ss st).map ANode.key).Nodup ∧
    (∀ x, x ∈ reachInsert o c ss st →
      x ∈ st ∨ (x.trans = [] ∧ x.initial = false ∧ x.mode = -1 ∧ x.state ∈ ss)) ∧
    (∀ x ∈ st, x ∈ reachInsert o c ss st) ∧
    (∀ s ∈ ss, ∃ x ∈ reachInsert o c ss st, x.key = (-1, s)) ∧
    (reachInsert o c ss st).length = ss.length + st.length := by
  intro ss
  induction ss with
  | nil =>
    intro c st _ h1 _ h2
    exact ⟨h1, h2, fun x h => Or.inl h, fun x h => h, by simp, by simp [reachInsert]⟩
  | cons s ss ih =>
    intro c st hnd h1 hk h2
    unfold reachInsert
    set new : ANode ℤ (E × S) :=
      { id := o.alloc c (st.map (·.id)), state := s, mode := -1, rgrad := -1, initial := false, trans := [] }
      with hnew
    have hins : insertAnode st (o.alloc c (st.map (·.id))) (-1) (-1) false s = new :: st := rfl
    rw [hins]
    obtain ⟨hs, hnd'⟩ := List.nodup_cons.1 hnd
    obtain ⟨g1, g2, g3, g4, g5, g6⟩ := ih (c + 1) (new :: st) hnd'
      (by unfold Aut.ids; rw [List.map_cons, List.nodup_cons]; exact ⟨ho.alloc _ _, h1⟩)
      (by
        intro s' hs' x hx
        rcases List.mem_cons.1 hx with rfl | hx
        · intro h
          have : s = s' := congrArg Prod.snd h
          exact hs (this ▸ hs')
        · exact hk s' (List.mem_cons_of_mem _ hs') x hx)
      (by
        rw [List.map_cons, List.nodup_cons]
        refine ⟨?_, h2⟩
        intro h
        obtain ⟨x, q1, q2⟩ := List.mem_map.1 h
        exact hk s (by simp) x q1 q2)
    refine ⟨g1, g2, ?_, fun x hx => g4 x (List.mem_cons_of_mem _ hx), ?_, ?_⟩
    · intro x hx
      rcases g3 x hx with h | ⟨q1, q2, q3, q4⟩
      · rcases List.mem_cons.1 h with rfl | h
        · exact Or.inr ⟨rfl, rfl, rfl, by simp [hnew]⟩
        · exact Or.inl h
      · exact Or.inr ⟨q1, q2, q3, List.mem_cons_of_mem _ q4⟩
    · intro s' hs'
      rcases List.mem_cons.1 hs' with rfl | hs'
      · exact ⟨new, g4 new (by simp), rfl⟩
      · exact g5 s' hs'
    · rw [g6]; simp only [List.length_cons]; omega

/-- Everything known about a run in which the levels contain `Entry`. -/
theorem reachGame_run (hX : Exit ⊆ N) {o : Oracle E S} (ho : o.Valid G)
    (hL : reachLevels G Entry Exit N eg = some L) {fuel : ℕ}
    (hf : Fintype.card E * Fintype.card S ≤ fuel) :
    ∃ st k, reachGame G Entry Exit N eg o fuel = .ok st ∧ RCore G Exit N eg L ⟨st, [], k⟩ ∧
      (∀ x ∈ st, RGood G Exit N eg L st [] x) ∧ ∀ s ∈ Entry, ∃ x ∈ st, x.state = s := by
  obtain ⟨-, -, -, -, hEn⟩ := reachLevels_spec hL
  have hnd : (o.enum Entry).reverse.Nodup := List.nodup_reverse.2 (ho.enum_nodup _)
  have hmem : ∀ s, s ∈ (o.enum Entry).reverse ↔ s ∈ Entry := fun s => by
    rw [List.mem_reverse, ho.enum_mem]
  unfold reachGame
  rw [hL]
  simp only
  generalize (o.enum Entry).reverse = ss at hnd hmem
  obtain ⟨g1, g2, g3, g4, g5, g6⟩ := reachInsert_spec ho ss 0 [] hnd (by simp [Aut.ids]) (by simp) (by simp)
  have g3' : ∀ x ∈ reachInsert o 0 ss [], x.trans = [] ∧ x.initial = false ∧ x.mode = -1 ∧ x.state ∈ ss := by
    intro x hx
    rcases g3 x hx with h | h
    · simp at h
    · exact h
  obtain ⟨st, k, q1, q2, q3, q4⟩ := reachLoop_ok hX ho hL fuel
    { strat := reachInsert o 0 ss [], stack := ss, clk := ss.length }
    ⟨g1, g2, fun x hx => ⟨(g3' x hx).2.2.1, (g3' x hx).2.1⟩,
      fun x hx => hEn ((hmem _).1 (g3' x hx).2.2.2), g5, hnd⟩
    (fun x hx => Or.inl ⟨(g3' x hx).1, (g3' x hx).2.2.2⟩)
    (by simp only [g6, List.length_nil]; omega)
  refine ⟨st, k, q1, q2, q3, ?_⟩
  intro s hs
  obtain ⟨x, x1, x2⟩ := g5 s ((hmem s).2 hs)
  obtain ⟨y, y1, y2, y3⟩ := mem_idk.1 (q4 (x.id, (-1, s)) (mem_idk.2 ⟨x, x1, rfl, x2⟩))
  exact ⟨y, y1, congrArg Prod.snd y3⟩

theorem reachLoop_fuel {o : Oracle E S} : ∀ (fuel fuel' : ℕ) (c : ReachCfg E S) (st : Aut ℤ (E × S)),
    reachLoop G N o L fuel c = .ok st → fuel ≤ fuel' → reachLoop G N o L fuel' c = .ok st := by
  intro fuel
  induction fuel with
  | zero =>
    intro fuel' c st h _
    unfold reachLoop at h ⊢
    cases hs : c.stack with
    | nil => rw [hs] at h; exact h
    | cons k rest => rw [hs] at h; simp at h
  | succ fuel ih =>
    intro fuel' c st h hle
    obtain ⟨f', rfl⟩ : ∃ f', fuel' = f' + 1 := ⟨fuel' - 1, by omega⟩
    unfold reachLoop at h ⊢
    cases hs : c.stack with
    | nil => rw [hs] at h; exact h
    | cons k rest =>
      rw [hs] at h
      simp only at h ⊢
      cases hi : reachIter G N o L k { c with stack := rest } with
      | ub => rw [hi] at h; simp at h
      | err => rw [hi] at h; simp at h
      | timeout => rw [hi] at h; simp at h
      | ok c' =>
        rw [hi] at h
        simp only at h ⊢
        exact ih f' c' st h (by omega)

/-- A successful run does not depend on the fuel. -/
theorem reachGame_fuel {o : Oracle E S} {fuel fuel' : ℕ} {st : Aut ℤ (E × S)}
    (h : reachGame G Entry Exit N eg o fuel = .ok st) (hle : fuel ≤ fuel') :
    reachGame G Entry Exit N eg o fuel' = .ok st := by
  unfold reachGame at h ⊢
  cases hl : reachLevels G Entry Exit N eg with
  | none => rw [hl] at h; exact h
  | some L => rw [hl] at h; exact reachLoop_fuel _ _ _ _ h hle

end Gr1c
