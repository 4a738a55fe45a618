import Verif.SynthProps

/-!
# The states that occur in a synthesized automaton

Every state is an initial one or reached by legal moves; no assumption on the winning set is used.
-/

namespace Gr1c

variable {E S : Type} [Fintype E] [DecidableEq E] [Fintype S] [DecidableEq S] {m n : ℕ}

/-- All nodes and all stack entries have states in `P`. -/
def StatesIn (P : E × S → Prop) (c : SynCfg E S n) : Prop :=
  (∀ x ∈ c.strat, P x.state) ∧ ∀ k ∈ c.stack, P k.2

variable {G : Game E S} {W : Finset (E × S)} {o : Oracle E S} {P : E × S → Prop}

theorem chooseStep_legal (ho : o.Valid G) {L : List (Level E S m)} {j k : ℕ} {s : E × S} {e : E} {x : S}
    (h : chooseStep G W L j s e (o.pick k) = .ok x) : G.str s (e, x) = true := by
  have hc : ∀ T, cand G W T s e ≠ ∅ → G.str s (e, (o.pick k (cand G W T s e)).2) = true := by
    intro T hT
    have := ho.pick k _ (Finset.nonempty_iff_ne_empty.2 hT)
    exact (Finset.mem_filter.1 this).2.1
  have hf : ∀ X B, firstX G W s e (X : Fin m → Finset (E × S)) = some B →
      G.str s (e, (o.pick k B).2) = true := by
    intro X B hB
    unfold firstX at hB
    obtain ⟨r, hr, rfl⟩ := Option.map_eq_some_iff.1 hB
    have := List.find?_some hr
    exact hc _ (by simpa using this)
  unfold chooseStep at h
  split at h
  · cases h
  · rename_i below _
    simp only at h
    split at h
    · rename_i hA; cases h; exact hc _ hA
    · split at h
      · split at h
        · rename_i B hB; cases h; exact hf _ _ hB
        · split at h
          · cases h
          · split at h
            · rename_i B hB; cases h; exact hf _ _ hB
            · cases h
      · split at h
        · rename_i hB; cases h; exact hc _ hB
        · cases h

theorem updNode_states {st : Aut (Fin n) (E × S)} {id : ℕ} {f : ANode (Fin n) (E × S) → ANode (Fin n) (E × S)}
    (hf : ∀ x, (f x).state = x.state) (h : ∀ x ∈ st, P x.state) : ∀ x ∈ updNode st id f, P x.state := by
  intro x hx
  obtain ⟨y, hy, rfl⟩ := mem_updNode.1 hx
  split
  · rw [hf]; exact h y hy
  · exact h y hy

theorem expandLoop_states (ho : o.Valid G) {L : Fin n → List (Level E S m)} {gw : Fin n → Finset (E × S)}
    (hP : ∀ s e x, P s → G.etr s e = true → G.str s (e, x) = true → P (e, x)) {md : Fin n} {s : E × S}
    (hs : P s) {j : ℕ} : ∀ (es : List E) (c c' : SynCfg E S n), (∀ e ∈ es, G.etr s e = true) → StatesIn P c →
      expandLoop G W o L gw md s j es c = .ok c' → StatesIn P c' := by
  intro es
  induction es with
  | nil => intro c c' _ hc h; simp only [expandLoop, SRes.ok.injEq] at h; exact h ▸ hc
  | cons e es ih =>
    intro c c' hes hc h
    unfold expandLoop at h
    split at h
    · cases h
    · cases h
    · cases h
    · rename_i x hx
      have hx' : P (e, x) := hP s e x hs (hes e (by simp)) (chooseStep_legal ho hx)
      simp only at h
      set t : E × S := (e, x)
      set nm := (if t ∈ gw md then nextIx md else md)
      have h1 : StatesIn P (addTarget o nm t c) := by
        unfold addTarget
        split
        · refine ⟨fun y hy => ?_, fun k hk => ?_⟩
          · simp only [insertAnode, List.mem_cons] at hy
            rcases hy with rfl | hy
            · exact hx'
            · exact hc.1 y hy
          · simp only [List.mem_cons] at hk
            rcases hk with rfl | hk
            · exact hx'
            · exact hc.2 k hk
        · exact hc
      split at h
      · cases h
      · cases h
      · rename_i st hst
        refine ih _ _ (fun e he => hes e (List.mem_cons_of_mem _ he)) ?_ h
        refine ⟨?_, h1.2⟩
        unfold appendAnodeTrans at hst
        split at hst
        · cases hst
        · split at hst
          · cases hst
          · cases hst
            exact updNode_states (fun _ => rfl) h1.1

theorem expandNode_states (ho : o.Valid G) {L : Fin n → List (Level E S m)} {gw : Fin n → Finset (E × S)}
    (hP : ∀ s e x, P s → G.etr s e = true → G.str s (e, x) = true → P (e, x)) {md : Fin n} {s : E × S}
    (hs : P s) {j id : ℕ} (c c' : SynCfg E S n) (hc : StatesIn P c)
    (h : expandNode G W o L gw id md s j c = .ok c') : StatesIn P c' :=
  expandLoop_states ho hP hs _ _ _ (fun e he => (ho.moves_mem _ _ _).1 he)
    (by exact ⟨updNode_states (fun _ => rfl) hc.1, hc.2⟩) h

theorem deleteAnode_sub {M V : Type} {l : Aut M V} {t : ℕ} : ∀ x ∈ deleteAnode l (some t), x ∈ l := by
  have hr : ∀ (l r : Aut M V), deleteRest l t = some r → ∀ x ∈ r, x ∈ l := by
    intro l
    induction l with
    | nil => intro r h; simp [deleteRest] at h
    | cons a l ih =>
      intro r h x hx
      unfold deleteRest at h
      split at h
      · simp only [Option.some.injEq] at h; subst h; exact List.mem_cons_of_mem _ hx
      · obtain ⟨r', h1, rfl⟩ := Option.map_eq_some_iff.1 h
        rcases List.mem_cons.1 hx with rfl | hx
        · exact List.mem_cons_self
        · exact List.mem_cons_of_mem _ (ih r' h1 x hx)
  intro x hx
  cases l with
  | nil => simp [deleteAnode] at hx
  | cons a l =>
    simp only [deleteAnode] at hx
    split at hx
    · exact List.mem_cons_of_mem _ hx
    · split at hx
      · rename_i r h1
        rcases List.mem_cons.1 hx with rfl | hx
        · exact List.mem_cons_self
        · exact List.mem_cons_of_mem _ (hr l r h1 x hx)
      · cases hx

omit [Fintype E] [DecidableEq E] [Fintype S] [DecidableEq S] in
theorem replaceAnodeTrans_states {st : Aut (Fin n) (E × S)} {old : ℕ} {new : Option ℕ}
    (h : ∀ x ∈ st, P x.state) : ∀ x ∈ replaceAnodeTrans st old new, P x.state := by
  intro x hx
  unfold replaceAnodeTrans at hx
  obtain ⟨y, hy, rfl⟩ := List.mem_map.1 hx
  exact h y hy

theorem synthIter_states (ho : o.Valid G) {L : Fin n → List (Level E S m)} {gw : Fin n → Finset (E × S)}
    (hP : ∀ s e x, P s → G.etr s e = true → G.str s (e, x) = true → P (e, x)) {lm : Fin n} {s : E × S}
    (hs : P s) (c c' : SynCfg E S n) (hc : StatesIn P c) (h : synthIter G W o L gw lm s c = .ok c') :
    StatesIn P c' := by
  unfold synthIter at h
  split at h
  · cases h
  · split at h
    · cases h
    · rename_i node _
      split at h
      · cases h; exact hc
      · split at h
        · exact expandNode_states ho hP hs _ _ hc h
        · simp only at h
          have h1 : ∀ x ∈ deleteAnode c.strat (some node.id), P x.state := fun x hx => hc.1 x (deleteAnode_sub x hx)
          split at h
          · refine expandNode_states ho hP hs _ _ ?_ h
            refine ⟨replaceAnodeTrans_states ?_, hc.2⟩
            intro x hx
            rcases List.mem_cons.1 hx with rfl | hx
            · exact hs
            · exact h1 x hx
          · split at h
            · cases h; exact ⟨replaceAnodeTrans_states h1, hc.2⟩
            · exact expandNode_states ho hP hs _ _ (by exact ⟨replaceAnodeTrans_states h1, hc.2⟩) h

theorem synthLoop_states (ho : o.Valid G) {L : Fin n → List (Level E S m)} {gw : Fin n → Finset (E × S)}
    (hP : ∀ s e x, P s → G.etr s e = true → G.str s (e, x) = true → P (e, x)) :
    ∀ (fuel : ℕ) (c : SynCfg E S n) (st : Aut (Fin n) (E × S)), StatesIn P c →
      synthLoop G W o L gw fuel c = .ok st → ∀ x ∈ st, P x.state := by
  intro fuel
  induction fuel with
  | zero =>
    intro c st hc h
    unfold synthLoop at h
    split at h
    · cases h; exact hc.1
    · cases h
  | succ fuel ih =>
    intro c st hc h
    unfold synthLoop at h
    split at h
    · cases h; exact hc.1
    · rename_i lm s rest hst
      simp only at h
      have hs : P s := hc.2 (lm, s) (by rw [hst]; simp)
      split at h
      · cases h
      · cases h
      · cases h
      · rename_i c' hc'
        refine ih c' st (synthIter_states ho hP hs _ _ ?_ hc') h
        refine ⟨hc.1, fun k hk => hc.2 k ?_⟩
        rw [hst]; exact List.mem_cons_of_mem _ hk

omit [Fintype E] [DecidableEq E] [Fintype S] [DecidableEq S] in
theorem insertInitial_states {i0 : Fin n} (ss : List (E × S)) : ∀ (k : ℕ) (st : Aut (Fin n) (E × S)),
    (∀ s ∈ ss, P s) → (∀ x ∈ st, P x.state) → ∀ x ∈ insertInitial o i0 k ss st, P x.state := by
  induction ss with
  | nil => intro k st _ h; exact h
  | cons s ss ih =>
    intro k st hs h
    apply ih _ _ (fun s h => hs s (List.mem_cons_of_mem _ h))
    intro x hx
    rcases List.mem_cons.1 hx with rfl | hx
    · exact hs s List.mem_cons_self
    · exact h x hx

/-- **C04.** If `P` holds of all states that the initial formulas allow and is kept by legal moves, it
holds of the state of every node. -/
theorem synthesize_states {egs sgs : List (Finset (E × S))} {flag : InitFlag}
    {einit sinit : Option (Finset (E × S))} (ho : o.Valid G) (hok : InitOk flag einit sinit)
    (hP : ∀ s e x, P s → G.etr s e = true → G.str s (e, x) = true → P (e, x))
    (h0 : ∀ s, InitAllowed flag einit sinit s → P s) {fuel : ℕ}
    {st : Aut (Fin sgs.length) (E × S)} (h : synthesize G egs sgs flag einit sinit o fuel = .ok st) :
    ∀ x ∈ st, P x.state := by
  unfold synthesize at h
  split at h
  · cases h
  · split at h
    · cases h
    · split at h
      · split at h
        · simp only at h
          split at h
          · cases h
          · rename_i ss hss
            have hs : ∀ s ∈ ss, P s := fun s hs => h0 s ((stack_required ho hok hss).1 s hs)
            refine synthLoop_states ho hP _ _ _ ⟨insertInitial_states ss _ _ hs (by simp), ?_⟩ h
            intro k hk
            obtain ⟨s, h1, rfl⟩ := List.mem_map.1 hk
            exact hs s h1
        · cases h
      · cases h

end Gr1c
