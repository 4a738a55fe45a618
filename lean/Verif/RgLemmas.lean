import Verif.Rg
import Verif.RgSpec
import Verif.ReachProps
import Verif.MainLemmas
import Verif.CliProps

/-!
# Lemmas for `rg`
-/

namespace Gr1c

set_option linter.unusedSectionVars false

/-! ## States of the strategy -/

section states

variable {E S : Type} [Fintype E] [DecidableEq E] [Fintype S] [DecidableEq S] {m : ℕ}
  {G : Game E S} {Entry Exit N : Finset (E × S)} {eg : Fin m → Finset (E × S)} {o : Oracle E S}
  {P : E × S → Prop}

theorem reachChoose_legal (ho : o.Valid G) {L : List (Level E S m)} {j k : ℕ} {s : E × S} {e : E} {x : S}
    {T T' : Finset (E × S)} (h : reachChoose G N L j s e T (o.pick k) = .ok (x, T')) : G.str s (e, x) = true := by
  have hc : ∀ T, cand G N T s e ≠ ∅ → G.str s (e, (o.pick k (cand G N T s e)).2) = true := by
    intro T hT
    have := ho.pick k _ (Finset.nonempty_iff_ne_empty.2 hT)
    exact (Finset.mem_filter.1 this).2.1
  have hf : ∀ (X : Fin m → Finset (E × S)) r, firstR G N s e X = some r →
      G.str s (e, (o.pick k (cand G N (X r) s e)).2) = true := by
    intro X r hr
    unfold firstR at hr
    have := List.find?_some hr
    exact hc _ (by simpa using this)
  unfold reachChoose at h
  simp only at h
  split at h
  · rename_i hA; cases h; exact hc _ hA
  · split at h
    · cases h
    · split at h
      · rename_i r hr; cases h; exact hf _ _ hr
      · split at h
        · cases h
        · split at h
          · rename_i r hr; cases h; exact hf _ _ hr
          · cases h

/-- All nodes and stack entries have states in `P`, and no node is marked as initial. -/
def ReachIn (P : E × S → Prop) (c : ReachCfg E S) : Prop :=
  (∀ x ∈ c.strat, P x.state ∧ x.initial = false) ∧ ∀ s ∈ c.stack, P s

theorem updNode_in {st : Aut ℤ (E × S)} {id : ℕ} {f : ANode ℤ (E × S) → ANode ℤ (E × S)}
    (hf : ∀ x, (f x).state = x.state ∧ (f x).initial = x.initial) (h : ∀ x ∈ st, P x.state ∧ x.initial = false) :
    ∀ x ∈ updNode st id f, P x.state ∧ x.initial = false := by
  intro x hx
  obtain ⟨y, hy, rfl⟩ := mem_updNode.1 hx
  split
  · rw [(hf y).1, (hf y).2]; exact h y hy
  · exact h y hy

theorem insertAnode_in {st : Aut ℤ (E × S)} {id : ℕ} {md r : ℤ} {s : E × S} (hs : P s)
    (h : ∀ x ∈ st, P x.state ∧ x.initial = false) :
    ∀ x ∈ insertAnode st id md r false s, P x.state ∧ x.initial = false := by
  intro x hx
  unfold insertAnode at hx
  rcases List.mem_cons.1 hx with rfl | hx
  · exact ⟨hs, rfl⟩
  · exact h x hx

theorem reachExpand_in (ho : o.Valid G) {L : List (Level E S m)}
    (hP : ∀ s e x, P s → G.etr s e = true → G.str s (e, x) = true → P (e, x)) {s : E × S} (hs : P s) {j : ℕ} :
    ∀ {es : List E} {T : Finset (E × S)} {c c' : ReachCfg E S}, (∀ e ∈ es, G.etr s e = true) → ReachIn P c →
      reachExpand G N o L s j es T c = .ok c' → ReachIn P c'
  | [], T, c, c', _, hc, h => by
    simp only [reachExpand] at h
    cases h; exact hc
  | e :: es, T, c, c', he, hc, h => by
    simp only [reachExpand] at h
    split at h
    · cases h
    · cases h
    · cases h
    · rename_i x T' hx
      have ht : P (e, x) := hP s e x hs (he e List.mem_cons_self) (reachChoose_legal ho hx)
      have h1 : ReachIn P (reachAdd o (e, x) c) := by
        unfold reachAdd
        split
        · refine ⟨insertAnode_in ht hc.1, ?_⟩
          intro s' hs'
          rcases List.mem_cons.1 hs' with rfl | hs'
          · exact ht
          · exact hc.2 s' hs'
        · exact hc
      split at h
      · cases h
      · cases h
      · rename_i st hst
        refine reachExpand_in (c := { reachAdd o (e, x) c with strat := st }) ho hP hs (fun e' h' => he e' (List.mem_cons_of_mem _ h')) ⟨?_, h1.2⟩ h
        unfold appendAnodeTrans at hst
        split at hst
        · cases hst
        · split at hst
          · cases hst
          · cases hst; exact updNode_in (fun _ => ⟨rfl, rfl⟩) h1.1

theorem reachLoop_in (ho : o.Valid G) {L : List (Level E S m)}
    (hP : ∀ s e x, P s → G.etr s e = true → G.str s (e, x) = true → P (e, x)) :
    ∀ {fuel : ℕ} {c : ReachCfg E S} {st : Aut ℤ (E × S)}, ReachIn P c →
      reachLoop G N o L fuel c = .ok st → ∀ x ∈ st, P x.state ∧ x.initial = false
  | fuel, ⟨strat, [], k⟩, st, hc, h => by
    rw [reachLoop] at h
    cases h; exact hc.1
  | 0, ⟨strat, s :: rest, k⟩, st, hc, h => by
    rw [reachLoop] at h
    cases h
  | fuel + 1, ⟨strat, s :: rest, k⟩, st, hc, h => by
    rw [reachLoop] at h
    simp only at h
    split at h
    · cases h
    · cases h
    · cases h
    · rename_i c' hc'
      refine reachLoop_in ho hP ?_ h
      have hs : P s := hc.2 s List.mem_cons_self
      have hr : ∀ t ∈ rest, P t := fun t ht => hc.2 t (List.mem_cons_of_mem _ ht)
      unfold reachIter at hc'
      split at hc'
      · cases hc'
      · rename_i node _
        simp only at hc'
        split at hc'
        · cases hc'
          exact ⟨updNode_in (fun _ => ⟨rfl, rfl⟩) hc.1, hr⟩
        · split at hc'
          · cases hc'
          · refine reachExpand_in ho hP hs (fun e he => ((ho.moves_mem _ _ _).1 he)) ?_ hc'
            exact ⟨updNode_in (fun _ => ⟨rfl, rfl⟩) hc.1, hr⟩

theorem reachInsert_in : ∀ {ss : List (E × S)} {k : ℕ} {st : Aut ℤ (E × S)}, (∀ s ∈ ss, P s) →
    (∀ x ∈ st, P x.state ∧ x.initial = false) → ∀ x ∈ reachInsert o k ss st, P x.state ∧ x.initial = false
  | [], _, _, _, h => h
  | s :: ss, k, st, hs, h => by
    rw [reachInsert]
    exact reachInsert_in (ss := ss) (fun t ht => hs t (List.mem_cons_of_mem _ ht))
      (insertAnode_in (hs s List.mem_cons_self) h)

/-- States of a strategy are reached from `Entry` by legal moves, and no node is marked as initial. -/
theorem reachGame_in (ho : o.Valid G)
    (hP : ∀ s e x, P s → G.etr s e = true → G.str s (e, x) = true → P (e, x)) (hE : ∀ s ∈ Entry, P s)
    {fuel : ℕ} {st : Aut ℤ (E × S)} (h : reachGame G Entry Exit N eg o fuel = .ok st) :
    ∀ x ∈ st, P x.state ∧ x.initial = false := by
  unfold reachGame at h
  split at h
  · cases h; intro x hx; cases hx
  · have hs : ∀ s ∈ (o.enum Entry).reverse, P s := by
      intro s hs
      rw [List.mem_reverse, ho.enum_mem] at hs
      exact hE s hs
    refine reachLoop_in ho hP ?_ h
    exact ⟨reachInsert_in hs (fun x hx => by cases hx), hs⟩

end states

/-! ## Embedding -/

section embed

variable {E S E' S' : Type} [Fintype E] [DecidableEq E] [Fintype S] [DecidableEq S]
  [Fintype E'] [DecidableEq E'] [Fintype S'] [DecidableEq S']
  {G : Game E S} {H : Game E' S'} {ιe : E → E'} {ιs : S → S'}

/-- Winning a reachability game without restriction is the same in both games. -/
theorem embed_reachWinnable (h : Embeds G H ιe ιs) {egs : List (Finset (E × S))} {egs' : List (Finset (E' × S'))}
    (he : List.Forall₂ (GoalRel ιe ιs) egs egs') {Exit : Finset (E × S)} {Exit' : Finset (E' × S')}
    (hX : GoalRel ιe ιs Exit Exit') (s0 : E × S) :
    ReachWinnable H egs' Exit' Finset.univ (Prod.map ιe ιs s0) ↔ ReachWinnable G egs Exit Finset.univ s0 := by
  have hinj : Function.Injective (Prod.map ιe ιs) := h.inje.prodMap h.injs
  have : Nonempty E := ⟨s0.1⟩
  have : Nonempty S := ⟨s0.2⟩
  have : Nonempty (E × S) := ⟨s0⟩
  set ι := Prod.map ιe ιs with hι
  have havoid : ∀ hist : List (E × S), (∀ t ∈ hist.map ι, t ∉ Exit') ↔ ∀ t ∈ hist, t ∉ Exit := by
    intro hist
    simp only [List.mem_map, forall_exists_index, and_imp, forall_apply_eq_imp_iff₂]
    exact forall₂_congr fun t _ => not_congr (hX t)
  constructor
  · rintro ⟨σ', hσ1, hσ2⟩
    set σ : Strategy E S := fun hist e => (σ' (hist.map ι) (ιe e)).map (Function.invFun ιs) with hσ
    have hcons : ∀ hist, Consistent G σ s0 hist → (∀ t ∈ hist.tail, t ∉ Exit) →
        Consistent H σ' (ι s0) (hist.map ι) := by
      intro hist hc
      induction hc with
      | start => exact fun _ => .start
      | @step s hh e' x' hprev hetr hans ih =>
        intro hav
        have hav' : ∀ t ∈ s :: hh, t ∉ Exit := hav
        have ih' := ih fun t ht => hav' t (List.mem_of_mem_tail ht)
        have het : H.etr (ι s) (ιe e') = true := (h.etr s (ιe e')).2 ⟨e', rfl, hetr⟩
        obtain ⟨y, hy1, hy2⟩ := (hσ1 (ι s) (hh.map ι) ih' ((havoid _).2 hav')).2 (ιe e') het
        obtain ⟨x, hx, _⟩ := (h.str s e' y).1 hy2
        have : σ (s :: hh) e' = some x := by
          simp only [hσ, List.map_cons]
          rw [hy1, hx]
          simp [Function.leftInverse_invFun h.injs x]
        rw [this] at hans
        simp only [Option.some.injEq] at hans
        subst hans
        exact Consistent.step (e' := ιe e') (x' := ιs x) ih' het (by rw [← hx]; exact hy1)
    refine ⟨σ, ?_, ?_⟩
    · intro s hh hc hav
      refine ⟨Finset.mem_univ _, fun e' hetr => ?_⟩
      have het : H.etr (ι s) (ιe e') = true := (h.etr s (ιe e')).2 ⟨e', rfl, hetr⟩
      obtain ⟨y, hy1, hy2⟩ := (hσ1 (ι s) (hh.map ι) (hcons _ hc fun t ht => hav t (List.mem_of_mem_tail ht))
        ((havoid (s :: hh)).2 hav)).2 (ιe e') het
      obtain ⟨x, hx, hstr⟩ := (h.str s e' y).1 hy2
      refine ⟨x, ?_, hstr⟩
      simp only [hσ, List.map_cons]
      rw [hy1, hx]
      simp [Function.leftInverse_invFun h.injs x]
    · intro π hπ hno
      have hin : ∀ k, ∀ t ∈ pref π k, ∃ i, t = π i := by
        intro k
        induction k with
        | zero => intro t ht; exact ⟨0, by simpa [pref] using ht⟩
        | succ k ih =>
          intro t ht
          rcases List.mem_cons.1 ht with rfl | ht
          · exact ⟨_, rfl⟩
          · exact ih t ht
      obtain ⟨Q', hQ', K, hK⟩ := hσ2 (fun k => ι (π k)) (fun k => by
        rw [pref_map]
        refine hcons _ (hπ k) fun t ht => ?_
        obtain ⟨i, rfl⟩ := hin k t (List.mem_of_mem_tail ht)
        exact hno i) (fun k hk => hno k ((hX _).1 hk))
      obtain ⟨Q, hQ, hr⟩ := forall₂_back he Q' hQ'
      exact ⟨Q, hQ, K, fun k hk hm => hK k hk ((hr _).2 hm)⟩
  · rintro ⟨σ, hσ1, hσ2⟩
    set inv := Function.invFun ι with hinv
    have hli : ∀ s, inv (ι s) = s := Function.leftInverse_invFun hinj
    have hlie : ∀ e, Function.invFun ιe (ιe e) = e := Function.leftInverse_invFun h.inje
    set σ' : Strategy E' S' := fun hist e' => (σ (hist.map inv) (Function.invFun ιe e')).map ιs with hσ'
    have hmap : ∀ hist : List (E × S), (hist.map ι).map inv = hist := by
      intro hist
      rw [List.map_map]
      conv_rhs => rw [← List.map_id hist]
      apply List.map_congr_left
      intro s _
      exact hli s
    have hcons : ∀ hist', Consistent H σ' (ι s0) hist' →
        ∃ hist, hist' = hist.map ι ∧ Consistent G σ s0 hist := by
      intro hist' hc
      induction hc with
      | start => exact ⟨[s0], rfl, .start⟩
      | @step s' hh' e' x' hprev hetr hans ih =>
        obtain ⟨hist, heq, hc⟩ := ih
        cases hist with
        | nil => simp at heq
        | cons s hh =>
          simp only [List.map_cons, List.cons.injEq] at heq
          obtain ⟨rfl, rfl⟩ := heq
          obtain ⟨e, rfl, hetr'⟩ := (h.etr s e').1 hetr
          simp only [hσ', List.map_cons, hli, hlie, hmap] at hans
          cases hx : σ (s :: hh) e with
          | none => rw [hx] at hans; simp at hans
          | some x =>
            rw [hx] at hans
            simp only [Option.map_some, Option.some.injEq] at hans
            subst hans
            exact ⟨(e, x) :: s :: hh, rfl, .step hc hetr' hx⟩
    refine ⟨σ', ?_, ?_⟩
    · intro s' hh' hc' hav
      refine ⟨Finset.mem_univ _, fun e' hetr => ?_⟩
      obtain ⟨hist, heq, hc⟩ := hcons _ hc'
      cases hist with
      | nil => simp at heq
      | cons s hh =>
        rw [heq] at hav
        simp only [List.map_cons, List.cons.injEq] at heq
        obtain ⟨rfl, rfl⟩ := heq
        obtain ⟨e, rfl, hetr'⟩ := (h.etr s e').1 hetr
        obtain ⟨x, hx, hstr⟩ := (hσ1 s hh hc ((havoid _).1 hav)).2 e hetr'
        refine ⟨ιs x, ?_, (h.str s e (ιs x)).2 ⟨x, rfl, hstr⟩⟩
        simp only [hσ', List.map_cons, hli, hlie, hmap, hx, Option.map_some]
    · intro π' hπ' hno
      have hin : ∀ k, ∃ s, π' k = ι s := by
        intro k
        obtain ⟨hist, heq, hc⟩ := hcons _ (hπ' k)
        cases hist with
        | nil => cases k <;> simp [pref] at heq
        | cons s hh =>
          refine ⟨s, ?_⟩
          cases k <;> simp only [pref, List.map_cons, List.cons.injEq] at heq <;> exact heq.1
      choose π hπ using hin
      have hπeq : π' = fun k => ι (π k) := funext hπ
      obtain ⟨Q, hQ, K, hK⟩ := hσ2 π (fun k => by
        obtain ⟨hist, heq, hc⟩ := hcons _ (hπ' k)
        rw [hπeq, pref_map] at heq
        have : pref π k = hist := by
          have := congrArg (List.map inv) heq
          rwa [hmap, hmap] at this
        rw [this]
        exact hc) (fun k hk => hno k (by rw [hπ k]; exact (hX _).2 hk))
      obtain ⟨Q', hQ', hr⟩ := forall₂_fwd he Q hQ
      exact ⟨Q', hQ', K, fun k hk hm => hK k hk ((hr _).1 (show ι (π k) ∈ Q' by rw [← hπ k]; exact hm))⟩

/-- A strategy whose states are all in the image of an embedding is one for the embedded game. -/
theorem reachStrategy_pullback (hE : Embeds G H ιe ιs) {egs : List (Finset (E × S))}
    {egs' : List (Finset (E' × S'))} (he : List.Forall₂ (GoalRel ιe ιs) egs egs')
    {Entry Exit : Finset (E × S)} {Entry' Exit' : Finset (E' × S')} (hX : GoalRel ιe ιs Exit Exit')
    (hN : GoalRel ιe ιs Entry Entry') {st : Aut ℤ (E × S)}
    (h : ReachStrategyFor H egs' Entry' Exit' (withStates (Prod.map ιe ιs) st)) :
    ReachStrategyFor G egs Entry Exit st := by
  have hmem : ∀ x ∈ st, (⟨x.id, Prod.map ιe ιs x.state, x.mode, x.rgrad, x.initial, x.trans⟩ : ANode ℤ (E' × S')) ∈
      withStates (Prod.map ιe ιs) st := fun x hx => List.mem_map.2 ⟨x, hx, rfl⟩
  have hback : ∀ y ∈ withStates (Prod.map ιe ιs) st, ∃ x ∈ st,
      (⟨x.id, Prod.map ιe ιs x.state, x.mode, x.rgrad, x.initial, x.trans⟩ : ANode ℤ (E' × S')) = y :=
    fun y hy => List.mem_map.1 hy
  have hinj : Function.Injective (Prod.map ιe ιs) := hE.inje.prodMap hE.injs
  have hids : (st.map (·.id)).Nodup := by
    have := h.ids
    simpa [withStates, List.map_map, Function.comp_def] using this
  refine ⟨hids, ?_, ?_, ?_, ?_, ?_, ?_, ?_, ?_⟩
  · have := h.states
    have h1 : (withStates (Prod.map ιe ιs) st).map (·.state) = (st.map (·.state)).map (Prod.map ιe ιs) := by
      simp [withStates, List.map_map, Function.comp_def]
    rw [h1] at this
    exact this.of_map
  · exact fun x hx => h.modes _ (hmem x hx)
  · intro s hs
    obtain ⟨y, hy, h1⟩ := h.entry _ ((hN s).2 hs)
    obtain ⟨x, hx, rfl⟩ := hback y hy
    exact ⟨x, hx, hinj h1⟩
  · intro x hx j hj
    obtain ⟨y, hy, h1⟩ := h.edges _ (hmem x hx) j hj
    obtain ⟨z, hz, rfl⟩ := hback y hy
    exact ⟨z, hz, h1⟩
  · intro x hx y hy hxy
    obtain ⟨h1, h2⟩ := h.legal _ (hmem x hx) _ (hmem y hy) hxy
    have h1' : H.etr (Prod.map ιe ιs x.state) (ιe y.state.1) = true := h1
    have h2' : H.str (Prod.map ιe ιs x.state) (ιe y.state.1, ιs y.state.2) = true := h2
    obtain ⟨e, e1, e2⟩ := (hE.etr _ _).1 h1'
    obtain ⟨z, z1, z2⟩ := (hE.str _ _ _).1 h2'
    rw [← hE.inje e1] at e2
    rw [← hE.injs z1] at z2
    exact ⟨e2, z2⟩
  · exact fun x hx hs => h.ends _ (hmem x hx) ((hX _).2 hs)
  · intro x hx hs e hxe
    obtain ⟨y, ⟨h1, h2, h3⟩, h4⟩ := h.answers _ (hmem x hx) (fun hc => hs ((hX _).1 hc)) (ιe e)
      ((hE.etr _ _).2 ⟨e, rfl, hxe⟩)
    obtain ⟨z, hz, rfl⟩ := hback y h1
    refine ⟨z, ⟨hz, h2, hE.inje h3⟩, ?_⟩
    rintro w ⟨w1, w2, w3⟩
    have := h4 _ ⟨hmem w w1, w2, by simp [w3]⟩
    have hid : w.id = z.id := by injection this
    exact List.inj_on_of_nodup_map hids w1 hz hid
  · intro ρ hρ
    obtain ⟨Q', hQ', K, hK⟩ := h.live
      (fun k => ⟨(ρ k).id, Prod.map ιe ιs (ρ k).state, (ρ k).mode, (ρ k).rgrad, (ρ k).initial, (ρ k).trans⟩)
      (fun k => ⟨hmem _ (hρ k).1, (hρ k).2⟩)
    obtain ⟨Q, hQ, hr⟩ := forall₂_back he Q' hQ'
    exact ⟨Q, hQ, K, fun k hk hm => hK k hk ((hr _).2 hm)⟩

end embed

/-! ## The strategy over bits -/

section bits

variable {E S : Type} [Fintype E] [DecidableEq E] [Fintype S] [DecidableEq S] {G : Game E S}
  {egs : List (Finset (E × S))} {sgoal ei si : Option (Finset (E × S))} {o : Oracle E S}

theorem rg_strategy (ho : o.Valid G) {fuel : ℕ} {st : Aut ℤ (E × S)}
    (h : rgSynthesize G egs sgoal ei si o fuel = .ok st) (hne : st ≠ []) :
    ReachStrategyFor G egs (initSet ei ∩ initSet si) (sgoal.getD ∅) st := by
  obtain ⟨h1, h2, h3, h4⟩ := reach_answers (Finset.subset_univ _) ho h hne
  refine ⟨h1, h2, fun x hx => (h4 x hx).1, h3, fun x hx => (h4 x hx).2.2.1, fun x hx => (h4 x hx).2.2.2.2.1,
    fun x hx => (h4 x hx).2.2.2.1, fun x hx hs => ((h4 x hx).2.2.2.2.2 hs).2, fun ρ hρ => ?_⟩
  obtain ⟨r, K, hK⟩ := reach_live (Finset.subset_univ _) ho h ρ hρ
  by_cases he : egs = []
  · exfalso
    subst he
    have : (withDefaultGoal ([] : List (Finset (E × S)))).get r = Finset.univ := by
      have : ∀ Q ∈ withDefaultGoal ([] : List (Finset (E × S))), Q = Finset.univ := by
        unfold withDefaultGoal; simp
      exact this _ (List.get_mem _ _)
    exact hK K le_rfl (by rw [this]; exact Finset.mem_univ _)
  · have hm : (withDefaultGoal egs).get r ∈ egs := by
      have := List.get_mem (withDefaultGoal egs) r
      unfold withDefaultGoal at this ⊢
      simpa only [if_neg he] using this
    exact ⟨_, hm, K, hK⟩

end bits

/-! ## From the BDDs to the output -/

section written

variable {evars svars : Decls}

/-- A bound on the iterations of the main loop of `synthesize_reachgame_BDD`. -/
def rgBound (evars svars : Decls) : ℕ := 2 ^ totalWidth evars * 2 ^ totalWidth svars

theorem rg_bits {w : World} {sp : FSpec}
    {B : BitSpec (expDecls evars).length (expDecls svars).length}
    (hB : RepresentsWith evars svars .allInit sp sp.sgoals B) (hw : w.Sensible)
    (henv : evars ≠ [] ∨ ∀ f ∈ sp.etrans, f = .const 1) (hfuel : rgBound evars svars ≤ w.fuel) :
    ∃ st : Aut ℤ (IState evars svars),
      rgSynthesize B.game B.egs B.sgs.head? B.ei B.si (w.oracle _ _ B.game) w.fuel =
        .ok (withStates (Prod.map (encVal evars) (encVal svars)) st) ∧
      (st ≠ [] ↔ RgSolvable evars svars sp) ∧
      (st ≠ [] → RgStrategy evars svars sp st ∧ ∀ x ∈ st, x.initial = false) := by
  have ho := oracle_ok hB hw henv
  have hExit : GoalRel (encVal evars) (encVal svars) (rgExit evars svars sp) (B.sgs.head?.getD ∅) := by
    have := hB.sgs
    unfold rgExit
    generalize sp.sgoals.map fmStates = l at this ⊢
    generalize B.sgs = l' at this ⊢
    cases this with
    | nil => intro s; simp
    | cons h _ => exact h
  have hEntry : GoalRel (encVal evars) (encVal svars) (rgEntry evars svars sp) (initSet B.ei ∩ initSet B.si) := by
    intro s
    unfold rgEntry
    rw [Finset.mem_inter, Finset.mem_inter]
    exact and_congr (hB.ei s) (hB.si s)
  have hImg : ∀ s' ∈ initSet B.ei ∩ initSet B.si, ∃ s : IState evars svars,
      Prod.map (encVal evars) (encVal svars) s = s' := by
    intro s' hs'
    rw [Finset.mem_inter] at hs'
    exact hB.both (by decide) s' hs'.1 hs'.2
  obtain ⟨st, h1, h2⟩ := rg_exact B.egs B.sgs.head? B.ei B.si ho (fuel := w.fuel) (by
    rw [card_val, card_val, expDecls_length, expDecls_length]; exact hfuel)
  have hin := reachGame_in ho (P := fun s' => ∃ s : IState evars svars,
      Prod.map (encVal evars) (encVal svars) s = s') (by
    rintro _ e x ⟨s, rfl⟩ h1 h2
    obtain ⟨e0, rfl, -⟩ := (hB.emb.etr _ _).1 h1
    obtain ⟨x0, rfl, -⟩ := (hB.emb.str _ _ _).1 h2
    exact ⟨(e0, x0), rfl⟩) hImg h1
  obtain ⟨st0, rfl⟩ := pullback_aut _ st fun x hx => (hin x hx).1
  have hnil : withStates (Prod.map (encVal evars) (encVal svars)) st0 ≠ [] ↔ st0 ≠ [] := by
    unfold withStates; simp
  refine ⟨st0, h1, ?_, fun hne => ⟨reachStrategy_pullback hB.emb hB.egs hExit hEntry
    (rg_strategy ho h1 (hnil.2 hne)), fun x hx => ?_⟩⟩
  · rw [← hnil, h2]
    have hmem : ∀ (f : Option (Finset (XState evars svars))) (s : XState evars svars),
        (∀ A, f = some A → s ∈ A) ↔ s ∈ initSet f := by
      intro f s
      unfold initSet
      cases f <;> simp
    simp only [hmem]
    unfold RgSolvable
    constructor
    · rintro ⟨⟨s', h3, h4⟩, h5⟩
      obtain ⟨s, rfl⟩ := hImg s' (Finset.mem_inter.2 ⟨h3, h4⟩)
      refine ⟨⟨s, (hEntry s).1 (Finset.mem_inter.2 ⟨h3, h4⟩)⟩, fun t ht => ?_⟩
      have := Finset.mem_inter.1 ((hEntry t).2 ht)
      exact (embed_reachWinnable hB.emb hB.egs hExit t).1 (h5 _ this.1 this.2)
    · rintro ⟨⟨s, hs⟩, h5⟩
      refine ⟨⟨_, Finset.mem_inter.1 ((hEntry s).2 hs)⟩, fun s' h3 h4 => ?_⟩
      obtain ⟨t, rfl⟩ := hImg s' (Finset.mem_inter.2 ⟨h3, h4⟩)
      exact (embed_reachWinnable hB.emb hB.egs hExit t).2
        (h5 t ((hEntry t).1 (Finset.mem_inter.2 ⟨h3, h4⟩)))
  · exact (hin _ (List.mem_map.2 ⟨x, hx, rfl⟩)).2

theorem rg_written {w : World} {c : Cfg} {sp : FSpec} (hF : Fresh evars svars)
    (hp : PfxFree (evars ++ svars)) (hI : IntDecls (evars ++ svars))
    {B : BitSpec (expDecls evars).length (expDecls svars).length}
    (hB : RepresentsWith evars svars .allInit sp sp.sgoals B) (hw : w.Sensible)
    (henv : evars ≠ [] ∨ ∀ f ∈ sp.etrans, f = .const 1) (hfuel : rgBound evars svars ≤ w.fuel)
    (hs : RgSolvable evars svars sp) :
    ∃ st : Aut ℤ (IState evars svars), RgStrategy evars svars sp st ∧ st ≠ [] ∧ (∀ x ∈ st, x.initial = false) ∧
      rgSynthAndWrite w c (expDecls evars).tree (expDecls svars).tree
        (Decls.tree ((evars ++ svars).filter fun d => 0 ≤ d.2)) B =
        if (match c.output with | some f => w.canWrite f | none => true) then
          .exit 0 (some ⟨c.output, c.format, evars, svars, withStates stateValues st⟩)
        else .exit (-1) none := by
  obtain ⟨st, h1, h2, h3⟩ := rg_bits hB hw henv hfuel
  have hne := h2.2 hs
  refine ⟨st, (h3 hne).1, hne, (h3 hne).2, ?_⟩
  unfold rgSynthAndWrite
  rw [h1]
  have hne' : withStates (Prod.map (encVal evars) (encVal svars)) st ≠ [] := by
    unfold withStates; simpa using hne
  simp only [if_neg hne', varListOf_tree]
  have hcomp := compact_states (evars := evars) (svars := svars) hp hI
    (withStates bitVector (withStates (Prod.map (encVal evars) (encVal svars)) st)) (by
      intro x hx
      obtain ⟨y, -, rfl⟩ := List.mem_map.1 hx
      exact vector_ok y.state)
  unfold withStates intVars at hcomp
  unfold withStates
  rw [hcomp]
  simp only
  congr 4
  simp only [List.map_map]
  apply List.map_congr_left
  intro x _
  simp only [Function.comp]
  congr 1
  exact decode_vector hF x.state

theorem rg_fails {w : World} {c : Cfg} {sp : FSpec}
    {B : BitSpec (expDecls evars).length (expDecls svars).length}
    (hB : RepresentsWith evars svars .allInit sp sp.sgoals B) (hw : w.Sensible)
    (henv : evars ≠ [] ∨ ∀ f ∈ sp.etrans, f = .const 1) (hfuel : rgBound evars svars ≤ w.fuel)
    (hs : ¬ RgSolvable evars svars sp) {ev sv nb : PTree} : rgSynthAndWrite w c ev sv nb B = .exit (-1) none := by
  obtain ⟨st, h1, h2, -⟩ := rg_bits hB hw henv hfuel
  have : st = [] := by by_contra h; exact hs (h2.1 h)
  subst this
  unfold rgSynthAndWrite
  rw [h1]
  rfl

end written

/-! ## Command line -/

theorem rgOptLoop_nil (b : Bool) (c : Cfg) : rgOptLoop b c [] = .go c := by
  rw [rgOptLoop]

theorem rgOptLoop_long (c : Cfg) (more : List Char) (rest : List Arg) :
    rgOptLoop true c (('-' :: '-' :: more) :: rest) =
      if more = [] then rgOptLoop false c rest
      else if hasPfx "help" more then rgOptLoop true { c with help := true } rest
      else if hasPfx "version" more then .version
      else .usage := by
  rw [rgOptLoop]; rfl

theorem rgOptLoop_short (c : Cfg) (f : Char) (hf : f ≠ '-') (more : List Char) (rest : List Arg) :
    rgOptLoop true c (('-' :: f :: more) :: rest) =
      if more ≠ [] ∧ ¬ (f = 'v' ∧ more.head? = some 'v') then .usage
      else if f = 'V' then .version
      else if f = 't' ∨ f = 'n' ∨ f = 'o' then
        match rest with
        | [] => .usage
        | x :: rest' =>
          match rgArgFlag c f x with
          | none => .usage
          | some c' => rgOptLoop true c' rest'
      else
        match rgPlainFlag c f more with
        | none => .usage
        | some c' => rgOptLoop true c' rest := by
  have : argKind true ('-' :: f :: more) = .short f more := by simp [argKind, hf]
  rw [rgOptLoop, this]
  cases rest <;> rfl

theorem rgOptLoop_file (b : Bool) (c : Cfg) (a : Arg) (rest : List Arg) (h : b = false ∨ a.head? ≠ some '-') :
    rgOptLoop b c (a :: rest) = rgOptLoop b (if c.input = none then { c with input := some a } else c) rest := by
  have : argKind b a = .other := by
    rcases h with rfl | h
    · rfl
    · match a with
      | [] => cases b <;> rfl
      | [x] => cases b <;> simp [argKind] at h ⊢; exact h
      | x :: f :: more => cases b <;> simp [argKind] at h ⊢; exact fun e => absurd e h
  rw [rgOptLoop, this]

/-- Reading one option. -/
theorem rgOptLoop_spelled {o : Opt} {w : List Arg} (h : Spelled true o w) (ho : RgOpt o) (c : Cfg)
    (rest : List Arg) : rgOptLoop true c (w ++ rest) = rgOptLoop true (c.set o) rest := by
  cases h with
  | flag h =>
    simp only [flagWords, List.mem_cons, Prod.mk.injEq, List.not_mem_nil, or_false] at h
    rcases h with ⟨rfl, rfl⟩ | ⟨rfl, rfl⟩ | ⟨rfl, rfl⟩ | ⟨rfl, rfl⟩ | ⟨rfl, rfl⟩ | ⟨rfl, rfl⟩ | ⟨rfl, rfl⟩ |
      ⟨rfl, rfl⟩ | ⟨rfl, rfl⟩ | ⟨rfl, rfl⟩
    · exact rgOptLoop_short c 'h' (by decide) [] rest
    · exact rgOptLoop_long c "help".toList rest
    · exact rgOptLoop_short c 'v' (by decide) [] rest
    · exact rgOptLoop_short c 'v' (by decide) ['v'] rest
    · exact rgOptLoop_short c 'l' (by decide) [] rest
    · exact rgOptLoop_short c 's' (by decide) [] rest
    · exact rgOptLoop_short c 'p' (by decide) [] rest
    · exact ho.elim
    · exact ho.elim
    · exact ho.elim
  | flagMore x _ h hw =>
    simp only [looseWords, List.mem_cons, List.not_mem_nil, or_false] at hw
    rcases hw with rfl | rfl
    · have : o = .help := by
        simp only [flagWords, List.mem_cons, Prod.mk.injEq, List.not_mem_nil, or_false] at h
        revert h; simp
      subst this
      exact rgOptLoop_long c ("help".toList ++ x) rest
    · have : o = .verbose true := by
        simp only [flagWords, List.mem_cons, Prod.mk.injEq, List.not_mem_nil, or_false] at h
        revert h; simp
      subst this
      exact rgOptLoop_short c 'v' (by decide) ('v' :: x) rest
  | format x _ h =>
    refine (rgOptLoop_short c 't' (by decide) [] (_ :: rest)).trans ?_
    simp only [fmtWords, List.mem_cons, Prod.mk.injEq, List.not_mem_nil, or_false] at h
    rcases h with ⟨rfl, rfl⟩ | ⟨rfl, rfl⟩ | ⟨rfl, rfl⟩ | ⟨rfl, rfl⟩ | ⟨rfl, rfl⟩ <;> rfl
  | @init i w a x _ h ha =>
    refine (rgOptLoop_short c 'n' (by decide) [] (_ :: rest)).trans ?_
    have hi : i = .allInit := ho
    subst hi
    simp only [initWords, List.mem_cons, Prod.mk.injEq, List.not_mem_nil, or_false, reduceCtorEq, false_and, true_and,
      false_or] at h
    subst h
    have : rgArgFlag c 'n' a = some { c with init := .allInit } := by
      simp only [rgArgFlag, ha]; rfl
    simp only [this]; rfl
  | output a => exact rgOptLoop_short c 'o' (by decide) [] (a :: rest)

theorem rgOptLoop_opts {os : List Opt} {ws : List Arg} (h : Opts true os ws) (ho : ∀ o ∈ os, RgOpt o) (c : Cfg)
    (rest : List Arg) : rgOptLoop true c (ws ++ rest) = rgOptLoop true (os.foldl Cfg.set c) rest := by
  induction h generalizing c with
  | nil => rfl
  | cons h _ ih =>
    rw [List.append_assoc, rgOptLoop_spelled h (ho _ List.mem_cons_self),
      ih fun o h => ho o (List.mem_cons_of_mem _ h)]
    rfl

theorem rgOptLoop_tail {f : Option Arg} {t : List Arg} (h : Tail f t) (c : Cfg) (hc : c.input = none) :
    rgOptLoop true c t = .go { c with input := f } := by
  cases h with
  | nothing => rw [rgOptLoop_nil]; cases c; simp_all
  | dashes => rw [rgOptLoop_long, if_pos rfl, rgOptLoop_nil]; cases c; simp_all
  | file a h => rw [rgOptLoop_file true c a [] (Or.inr h), if_pos hc, rgOptLoop_nil]
  | dashesFile a =>
    rw [rgOptLoop_long, if_pos rfl, rgOptLoop_file false c a [] (Or.inl rfl), if_pos hc, rgOptLoop_nil]

theorem lastOf_init {os : List Opt} (h : ∀ o ∈ os, RgOpt o) : lastOf Opt.init? .allInit os = .allInit := by
  induction os with
  | nil => rfl
  | cons o os ih =>
    rw [lastOf_cons]
    have h1 := h o List.mem_cons_self
    have : (Opt.init? o).getD .allInit = .allInit := by
      cases o <;> first | rfl | exact h1
    rw [this]
    exact ih fun o h' => h o (List.mem_cons_of_mem _ h')

/-- Command lines of `rg` are understood. -/
theorem rg_cli {os : List Opt} {f : Option Arg} {args : List Arg} (h : RgCmdLine os f args) :
    rgOptLoop true Cfg.rgDefault args = .go (rgMeaning os f) := by
  obtain ⟨⟨ws, t, h1, h2, rfl⟩, h3⟩ := h
  rw [rgOptLoop_opts h1.loosen h3, rgOptLoop_tail h2 _ (by rw [foldl_input]; rfl), foldl_meaning _ _ (by decide)]
  unfold rgMeaning
  rw [meaning_eq]
  unfold meaningFrom
  simp only [Cfg.rgDefault, lastOf_init h3, Cfg.default]

end Gr1c
