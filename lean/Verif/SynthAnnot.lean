import Verif.SynthProps

/-!
# The annotation of a synthesized automaton

Invariant of the main loop of `synthesize`: a node that has been expanded carries the level of its
state for its own goal mode, and its mode is the one found by `advance`. The property theorems are in
`Verif.SynthAnnotProps`.
-/

namespace Gr1c

variable {E S : Type} [Fintype E] [DecidableEq E] [Fintype S] [DecidableEq S] {m n : ℕ}

variable {G : Game E S} {W : Finset (E × S)} {o : Oracle E S} {D : Fin n → E × S → ℤ → Prop}

/-- A node is settled (`D` holds of its mode, state and annotation) or waits on the stack. -/
def Settled (D : Fin n → E × S → ℤ → Prop) (stack : List (Fin n × (E × S))) (x : ANode (Fin n) (E × S)) :
    Prop :=
  D x.mode x.state x.rgrad ∨ (x.trans = [] ∧ x.key ∈ stack)

theorem expandLoop_settled (ho : o.Valid G) {L : Fin n → List (Level E S m)} {gw : Fin n → Finset (E × S)}
    {md : Fin n} {s : E × S} {j : ℕ} : ∀ (es : List E) (c c' : SynCfg E S n), (Aut.ids c.strat).Nodup →
      (∀ x ∈ c.strat, Settled D c.stack x) →
      (∀ x ∈ c.strat, x.key = (md, s) → D x.mode x.state x.rgrad) → (∃ x ∈ c.strat, x.key = (md, s)) →
      expandLoop G W o L gw md s j es c = .ok c' → ∀ x ∈ c'.strat, Settled D c'.stack x := by
  intro es
  induction es with
  | nil => intro c c' _ hc _ _ h; simp only [expandLoop, SRes.ok.injEq] at h; exact h ▸ hc
  | cons e es ih =>
    intro c c' hids hc hk hex h
    unfold expandLoop at h
    split at h
    · cases h
    · cases h
    · cases h
    · rename_i x hx
      simp only at h
      set t : E × S := (e, x)
      set nm := (if t ∈ gw md then nextIx md else md)
      have h1 : (Aut.ids (addTarget o nm t c).strat).Nodup ∧
          (∀ y ∈ (addTarget o nm t c).strat, Settled D (addTarget o nm t c).stack y) ∧
          (∀ y ∈ (addTarget o nm t c).strat, y.key = (md, s) → D y.mode y.state y.rgrad) ∧
          (∃ y ∈ (addTarget o nm t c).strat, y.key = (md, s)) := by
        unfold addTarget
        split
        · rename_i hf
          refine ⟨?_, ?_, ?_, ?_⟩
          · simp only [insertAnode, Aut.ids, List.map_cons, List.nodup_cons]
            exact ⟨ho.alloc _ _, hids⟩
          · intro y hy
            simp only [insertAnode, List.mem_cons] at hy
            rcases hy with rfl | hy
            · exact Or.inr ⟨rfl, List.mem_cons_self⟩
            · rcases hc y hy with q | ⟨q1, q2⟩
              · exact Or.inl q
              · exact Or.inr ⟨q1, List.mem_cons_of_mem _ q2⟩
          · intro y hy hyk
            simp only [insertAnode, List.mem_cons] at hy
            rcases hy with rfl | hy
            · obtain ⟨z, z1, z2⟩ := hex
              exact absurd (z2.trans hyk.symm) (findAnode_none_iff.1 hf z z1)
            · exact hk y hy hyk
          · obtain ⟨z, z1, z2⟩ := hex
            exact ⟨z, List.mem_cons_of_mem _ z1, z2⟩
        · exact ⟨hids, hc, hk, hex⟩
      obtain ⟨hids1, hc1, hk1, hex1⟩ := h1
      split at h
      · cases h
      · cases h
      · rename_i st hst
        unfold appendAnodeTrans at hst
        split at hst
        · cases hst
        · rename_i b hb
          split at hst
          · cases hst
          · rename_i w hw
            cases hst
            obtain ⟨b1, b2⟩ := findAnode_some hb
            refine ih _ _ ?_ ?_ ?_ ?_ h
            · simp only
              rw [ids_updNode _ _ _ fun _ => by rfl]
              exact hids1
            · intro y hy
              obtain ⟨z, z1, rfl⟩ := mem_updNode.1 hy
              split
              · rename_i hz
                exact Or.inl (hk1 z z1 (by rw [eq_of_id_eq hids1 z1 b1 hz, b2]))
              · exact hc1 z z1
            · intro y hy hyk
              obtain ⟨z, z1, rfl⟩ := mem_updNode.1 hy
              split at hyk <;> split <;> first
                | exact hk1 z z1 hyk
                | contradiction
            · obtain ⟨z, z1, z2⟩ := hex1
              refine ⟨_, mem_updNode.2 ⟨z, z1, rfl⟩, ?_⟩
              split
              · exact z2
              · exact z2

theorem expandNode_settled (ho : o.Valid G) {L : Fin n → List (Level E S m)} {gw : Fin n → Finset (E × S)}
    {md : Fin n} {s : E × S} {j : ℕ} (c c' : SynCfg E S n) (a : ANode (Fin n) (E × S)) (ha : a ∈ c.strat)
    (hak : a.key = (md, s)) (hids : (Aut.ids c.strat).Nodup) (hkeys : (c.strat.map ANode.key).Nodup)
    (hc : ∀ x ∈ c.strat, x.key ≠ (md, s) → Settled D c.stack x) (hD : D md s j)
    (h : expandNode G W o L gw a.id md s j c = .ok c') : ∀ x ∈ c'.strat, Settled D c'.stack x := by
  unfold expandNode at h
  refine expandLoop_settled ho _ _ _ ?_ ?_ ?_ ?_ h
  · simp only
    rw [ids_updNode _ _ _ fun _ => by rfl]
    exact hids
  · intro x hx
    obtain ⟨z, z1, rfl⟩ := mem_updNode.1 hx
    split
    · rename_i hz
      have hzk : z.key = (md, s) := by rw [eq_of_id_eq hids z1 ha hz, hak]
      refine Or.inl ?_
      have e1 : z.mode = md := congrArg Prod.fst hzk
      have e2 : z.state = s := congrArg Prod.snd hzk
      simp only [e1, e2]
      exact hD
    · rename_i hz
      exact hc z z1 fun hk => hz (by rw [eq_of_key_eq hkeys z1 ha (hk.trans hak.symm)])
  · intro x hx hk
    obtain ⟨z, z1, rfl⟩ := mem_updNode.1 hx
    have hzk : z.key = (md, s) := by
      split at hk
      · exact hk
      · exact hk
    have e1 : z.mode = md := congrArg Prod.fst hzk
    have e2 : z.state = s := congrArg Prod.snd hzk
    have e3 : z = a := eq_of_key_eq hkeys z1 ha (hzk.trans hak.symm)
    rw [if_pos (by rw [e3])]
    simp only [e1, e2]
    exact hD
  · refine ⟨_, mem_updNode.2 ⟨a, ha, rfl⟩, ?_⟩
    rw [if_pos rfl]
    exact hak

theorem settled_retarget {stack : List (Fin n × (E × S))} {st : Aut (Fin n) (E × S)} {p q : ℕ} {k : Fin n × (E × S)}
    (h : ∀ x ∈ st, x.key ≠ k → Settled D stack x) :
    ∀ x ∈ replaceAnodeTrans st p (some q), x.key ≠ k → Settled D stack x := by
  intro x hx hk
  rw [replaceAnodeTrans_some] at hx
  obtain ⟨y, hy, rfl⟩ := List.mem_map.1 hx
  rcases h y hy hk with h | ⟨h1, h2⟩
  · exact Or.inl h
  · exact Or.inr ⟨by simp [h1], h2⟩

theorem synthIter_settled (ho : o.Valid G) {L : Fin n → List (Level E S m)} {gw : Fin n → Finset (E × S)}
    {lm : Fin n} {s : E × S} (c c' : SynCfg E S n) (hids : (Aut.ids c.strat).Nodup)
    (hkeys : (c.strat.map ANode.key).Nodup)
    (hD : ∀ md j, advance (fun i => levelOf (L i) s) lm n lm = some (md, j) → D md s j)
    (hc : ∀ x ∈ c.strat, Settled D ((lm, s) :: c.stack) x) (h : synthIter G W o L gw lm s c = .ok c') :
    ∀ x ∈ c'.strat, Settled D c'.stack x := by
  have hne : ∀ x ∈ c.strat, x.key ≠ (lm, s) → Settled D c.stack x := by
    intro x hx hk
    rcases hc x hx with h | ⟨h1, h2⟩
    · exact Or.inl h
    · rcases List.mem_cons.1 h2 with h2 | h2
      · exact absurd h2 hk
      · exact Or.inr ⟨h1, h2⟩
  have htr : ∀ x ∈ c.strat, x.trans ≠ [] → D x.mode x.state x.rgrad := by
    intro x hx ht
    rcases hc x hx with h | ⟨h1, h2⟩
    · exact h
    · exact absurd h1 ht
  unfold synthIter at h
  split at h
  · cases h
  · rename_i md j hadv
    have hDj := hD md j hadv
    split at h
    · cases h
    · rename_i a hfa
      obtain ⟨a1, a2⟩ := findAnode_some hfa
      split at h
      · rename_i hat
        cases h
        intro x hx
        by_cases hk : x.key = (lm, s)
        · rw [eq_of_key_eq hkeys hx a1 (hk.trans a2.symm)]
          exact Or.inl (htr a a1 hat)
        · exact hne x hx hk
      · split at h
        · rename_i hml
          subst hml
          exact expandNode_settled ho _ _ a a1 a2 hids hkeys hne hDj h
        · simp only at h
          set st1 := deleteAnode c.strat (some a.id) with hst1
          have hst1eq : st1 = c.strat.filter fun x => x.id ≠ a.id := by
            rw [hst1, deleteAnode_eq _ hids, if_pos (mem_ids.2 ⟨a, a1, rfl⟩)]
          have hsub1 : st1.Sublist c.strat := by rw [hst1eq]; exact List.filter_sublist
          have hids1 : (Aut.ids st1).Nodup := (hsub1.map _).nodup hids
          have hkeys1 : (st1.map ANode.key).Nodup := (hsub1.map _).nodup hkeys
          have hkne : ∀ x ∈ st1, x.key ≠ (lm, s) := by
            intro x hx hk
            rw [hst1eq] at hx
            obtain ⟨x1, x2⟩ := List.mem_filter.1 hx
            have := eq_of_key_eq hkeys x1 a1 (hk.trans a2.symm)
            simp [this] at x2
          have hs1 : ∀ x ∈ st1, Settled D c.stack x := fun x hx => hne x (hsub1.subset hx) (hkne x hx)
          split at h
          · rename_i hf
            refine expandNode_settled ho _ _ { id := o.alloc c.clk (st1.map (·.id)), state := s, mode := md, rgrad := -1, initial := a.initial, trans := [] } ?_ rfl ?_ ?_ ?_ hDj h
            · rw [replaceAnodeTrans_some]
              exact List.mem_map.2 ⟨_, List.mem_cons_self, rfl⟩
            · simp only
              rw [replaceAnodeTrans_some]
              simp only [Aut.ids, List.map_map]
              change (((insertAnode st1 _ md (-1) a.initial s).map fun x => x.id)).Nodup
              simp only [insertAnode, List.map_cons, List.nodup_cons]
              exact ⟨ho.alloc _ _, hids1⟩
            · simp only
              rw [replaceAnodeTrans_some]
              rw [List.map_map]
              change (((insertAnode st1 _ md (-1) a.initial s).map fun x => x.key)).Nodup
              simp only [insertAnode, List.map_cons, List.nodup_cons]
              refine ⟨fun hmem => ?_, hkeys1⟩
              obtain ⟨x, x1, x2⟩ := List.mem_map.1 hmem
              exact findAnode_none_iff.1 hf x x1 x2
            · refine settled_retarget ?_
              intro x hx hk
              rcases List.mem_cons.1 hx with rfl | hx
              · exact absurd rfl hk
              · exact hs1 x hx
          · rename_i nn hnn
            obtain ⟨b1, b2⟩ := findAnode_some hnn
            split at h
            · cases h
              intro x hx
              rw [replaceAnodeTrans_some] at hx
              obtain ⟨y, hy, rfl⟩ := List.mem_map.1 hx
              rcases hs1 y hy with h | ⟨h1, h2⟩
              · exact Or.inl h
              · exact Or.inr ⟨by simp [h1], h2⟩
            · refine expandNode_settled ho _ _ { nn with trans := nn.trans.map fun x => if x = a.id then nn.id else x } ?_ b2 ?_ ?_ ?_ hDj h
              · rw [replaceAnodeTrans_some]
                exact List.mem_map.2 ⟨_, b1, rfl⟩
              · simp only
                rw [replaceAnodeTrans_some]
                simp only [Aut.ids, List.map_map]
                exact hids1
              · simp only
                rw [replaceAnodeTrans_some]
                rw [List.map_map]
                exact hkeys1
              · exact settled_retarget fun x hx _ => hs1 x hx

variable {eg : Fin m → Finset (E × S)} {sg : Fin n → Finset (E × S)} {hm : 0 < m}

theorem synthLoop_settled (ho : o.Valid G) {L : Fin n → List (Level E S m)}
    (hmu : ∀ i, muY G eg (sg i ∩ W) = W) (hpre : pre G W = W)
    (hL : ∀ i, shiftLevels (sg i ∩ W) (sublevels G eg (sg i ∩ W)) = some (L i))
    (hD : ∀ lm s md j, s ∈ W → advance (fun i => levelOf (L i) s) lm n lm = some (md, j) → D md s j) :
    ∀ (fuel : ℕ) (c : SynCfg E S n) (st : Aut (Fin n) (E × S)), Core W c →
    (∀ x ∈ c.strat, Good G eg sg W hm c.strat c.stack x) → (∀ x ∈ c.strat, Settled D c.stack x) →
    synthLoop G W o L (fun i => sg i ∩ W) fuel c = .ok st → ∀ x ∈ st, D x.mode x.state x.rgrad := by
  have hend : ∀ (c : SynCfg E S n), c.stack = [] → (∀ x ∈ c.strat, Settled D c.stack x) →
      ∀ x ∈ c.strat, D x.mode x.state x.rgrad := by
    intro c hs hc x hx
    rcases hc x hx with h | ⟨h1, h2⟩
    · exact h
    · rw [hs] at h2; simp at h2
  intro fuel
  induction fuel with
  | zero =>
    intro c st _ _ hc h
    unfold synthLoop at h
    split at h
    · rename_i hs; cases h; exact hend c hs hc
    · cases h
  | succ fuel ih =>
    intro c st hcore hg hc h
    unfold synthLoop at h
    split at h
    · rename_i hs; cases h; exact hend c hs hc
    · rename_i lm s rest hst
      simp only at h
      have hcs : ({ c with stack := (lm, s) :: rest } : SynCfg E S n) = c := by rw [← hst]
      obtain ⟨c', e1, e2, e3, -⟩ := synthIter_ok (hm := hm) ho hmu hpre hL lm s { c with stack := rest }
        (hcs.symm ▸ hcore) (by rw [← hst]; exact hg)
      rw [e1] at h
      refine ih c' st e2 e3 ?_ h
      refine synthIter_settled ho { c with stack := rest } c' hcore.ids hcore.keys (fun md j hadv => hD lm s md j ?_ hadv) (by rw [← hst]; exact hc) e1
      obtain ⟨x, x1, x2⟩ := hcore.stk (lm, s) (by rw [hst]; simp)
      have x3 : x.state = s := congrArg Prod.snd x2
      exact x3 ▸ hcore.win x x1

/-- Every node of a synthesized automaton is settled, for any `D` that `advance` establishes. -/
theorem synthesize_settled {egs sgs : List (Finset (E × S))} {flag : InitFlag}
    {einit sinit : Option (Finset (E × S))} {D : Fin sgs.length → E × S → ℤ → Prop} (ho : o.Valid G)
    (hr : checkRealizable G egs sgs flag einit sinit = some (some W)) {fuel : ℕ}
    {st : Aut (Fin sgs.length) (E × S)} (h : synthesize G egs sgs flag einit sinit o fuel = .ok st)
    (hD : ∀ L : Fin sgs.length → List (Level E S (withDefaultGoal egs).length),
      (∀ i, muY G (withDefaultGoal egs).get (sgs.get i ∩ W) = W) →
      (∀ i, shiftLevels (sgs.get i ∩ W) (sublevels G (withDefaultGoal egs).get (sgs.get i ∩ W)) = some (L i)) →
      ∀ lm s md j, s ∈ W → advance (fun i => levelOf (L i) s) lm sgs.length lm = some (md, j) → D md s j) :
    ∀ x ∈ st, D x.mode x.state x.rgrad := by
  have hm := withDefaultGoal_pos egs
  unfold checkRealizable at hr
  cases hcw : computeWinningSet G egs sgs with
  | none => rw [hcw] at hr; simp at hr
  | some W0 =>
    rw [hcw] at hr
    simp only [Option.map_some, Option.some.injEq] at hr
    have hW0 : W0 = W := by
      cases flag <;> simp only [checkRealizableInternal] at hr
      · simp at hr
      · split at hr <;> simp_all
      · split at hr <;> simp_all
      · cases sinit <;> simp only at hr <;> split at hr <;> simp_all
    subst hW0
    obtain ⟨hn, ⟨ss, hss⟩, hsome⟩ := synthesize_ok_inv hcw h
    have hwin : winningSet G (withDefaultGoal egs).get sgs.get = some W0 := hcw
    have hmu := muY_goal_W hm hn hwin
    have hpre := pre_winningSet hm hn hwin
    obtain ⟨hnd, hinW⟩ := initStack_spec ho hr hss
    have hL : ∀ i, shiftLevels (sgs.get i ∩ W0) (sublevels G (withDefaultGoal egs).get (sgs.get i ∩ W0)) =
        some ((shiftLevels (sgs.get i ∩ W0)
          (sublevels G (withDefaultGoal egs).get (sgs.get i ∩ W0))).getD []) := by
      intro i
      obtain ⟨l, hl⟩ := Option.isSome_iff_exists.1 (hsome i)
      rw [hl]; rfl
    unfold synthesize at h
    rw [hcw] at h
    simp only [computeSublevels, if_pos hn, dif_pos hn] at h
    rw [if_pos hsome, hss] at h
    simp only at h
    obtain ⟨g1, g2, g3, g4, g5⟩ := insertInitial_spec ho (⟨0, hn⟩ : Fin sgs.length) ss 0 [] hnd (by simp [Aut.ids])
      (by simp) (by simp)
    have g3' : ∀ x ∈ insertInitial o (⟨0, hn⟩ : Fin sgs.length) 0 ss [],
        x.trans = [] ∧ x.key ∈ ss.map fun s => ((⟨0, hn⟩ : Fin sgs.length), s) := by
      intro x hx
      rcases g3 x hx with h | ⟨q1, q2, q3, q4⟩
      · simp at h
      · refine ⟨q1, List.mem_map.2 ⟨x.state, q4, ?_⟩⟩
        unfold ANode.key
        rw [q3]
    refine synthLoop_settled (hm := hm) ho hmu hpre hL (hD _ hmu hL) fuel _ st ⟨g1, g2, ?_, ?_, ?_⟩
      (fun x hx => Or.inl (g3' x hx)) (fun x hx => Or.inr (g3' x hx)) h
    · intro x hx
      rcases g3 x hx with h | ⟨q1, q2, q3, q4⟩
      · simp at h
      · exact hinW _ q4
    · intro k hk
      obtain ⟨s, hs, rfl⟩ := List.mem_map.1 hk
      obtain ⟨x, x1, x2, _⟩ := g5 s hs
      exact ⟨x, x1, x2⟩
    · refine hnd.map ?_
      intro a b hab
      exact congrArg Prod.snd hab

end Gr1c
