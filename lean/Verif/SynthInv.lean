import Verif.SynthLemmas

/-!
# Invariant of the main loop of `synthesize`
-/

namespace Gr1c

set_option linter.unusedSectionVars false

variable {E S : Type} [Fintype E] [DecidableEq E] [Fintype S] [DecidableEq S] {m n : ℕ}

/-! ## Validity of the oracles -/

/-- What is assumed of the oracles: fresh addresses, `Cudd_FirstCube` finds a point of a nonempty
set, environment moves and enumerations are exact and without repetition (C11, C12). -/
structure Oracle.Valid (o : Oracle E S) (G : Game E S) : Prop where
  alloc : ∀ c ids, o.alloc c ids ∉ ids
  pick : ∀ c A, A.Nonempty → o.pick c A ∈ A
  moves_nodup : ∀ c s, (o.moves c s).Nodup
  moves_mem : ∀ c s e, e ∈ o.moves c s ↔ G.etr s e = true
  enum_nodup : ∀ A, (o.enum A).Nodup
  enum_mem : ∀ A s, s ∈ o.enum A ↔ s ∈ A
  enumEnv_nodup : ∀ A, (o.enumEnv A).Nodup
  enumEnv_mem : ∀ A e, e ∈ o.enumEnv A ↔ ∃ x, (e, x) ∈ A

/-! ## Mode advance -/

theorem nextIx_iter_self (i : Fin n) : (nextIx^[n]) i = i := by
  apply Fin.ext
  rw [nextIx_iter_val, Nat.add_mod_right, Nat.mod_eq_of_lt i.isLt]

theorem advance_spec (lv : Fin n → ℕ) (start : Fin n) :
    ∃ md j, advance lv start n start = some (md, j) ∧ j = lv md ∧
      (j = 0 → md = start ∧ ∀ i, lv i = 0) ∧
      (md = start ∨ (∃ d, 1 ≤ d ∧ (nextIx^[d]) start = md ∧ ∀ c, c < d → lv ((nextIx^[c]) start) = 0)) := by
  have key : ∀ k d, d + k = n → d < n → (∀ c, c < d → lv ((nextIx^[c]) start) = 0) →
      ∃ md j, advance lv start k ((nextIx^[d]) start) = some (md, j) ∧ j = lv md ∧
      (j = 0 → md = start ∧ ∀ i, lv i = 0) ∧
      (md = start ∨ (∃ d, 1 ≤ d ∧ (nextIx^[d]) start = md ∧ ∀ c, c < d → lv ((nextIx^[c]) start) = 0)) := by
    intro k
    induction k with
    | zero => intro d h1 h2; omega
    | succ k ih =>
      intro d h1 h2 h3
      unfold advance
      by_cases hz : lv ((nextIx^[d]) start) = 0
      · rw [if_pos hz]
        have h3' : ∀ c, c < d + 1 → lv ((nextIx^[c]) start) = 0 := by
          intro c hc
          by_cases hcd : c = d
          · rw [hcd]; exact hz
          · exact h3 c (by omega)
        have hlast : d + 1 = n → nextIx ((nextIx^[d]) start) = start := by
          intro h
          rw [← Function.iterate_succ_apply' nextIx d start]
          show (nextIx^[d + 1]) start = start
          rw [h, nextIx_iter_self]
        have h0 : lv start = 0 := h3' 0 (by omega)
        by_cases hs : nextIx ((nextIx^[d]) start) = start
        · rw [if_pos hs]
          refine ⟨start, 0, rfl, h0.symm, fun _ => ⟨rfl, ?_⟩, Or.inl rfl⟩
          have hper : ∀ q c, c < d + 1 → (nextIx^[c + q * (d + 1)]) start = (nextIx^[c]) start := by
            intro q
            induction q with
            | zero => intro c _; simp
            | succ q ihq =>
              intro c hc
              rw [show c + (q + 1) * (d + 1) = (c + q * (d + 1)) + (d + 1) by ring,
                Function.iterate_add_apply, show d + 1 = d.succ from rfl, Function.iterate_succ_apply',
                hs]
              exact ihq c hc
          intro i
          obtain ⟨k', hk'⟩ := nextIx_reach i start
          rw [← hk', ← Nat.mod_add_div k' (d + 1), Nat.mul_comm, hper _ _ (Nat.mod_lt _ (by omega))]
          exact h3' _ (Nat.mod_lt _ (by omega))
        · rw [if_neg hs, ← Function.iterate_succ_apply' nextIx d start]
          have hne : d + 1 ≠ n := fun h => hs (hlast h)
          exact ih (d + 1) (by omega) (by omega) h3'
      · rw [if_neg hz]
        refine ⟨_, _, rfl, rfl, fun h => absurd h hz, ?_⟩
        rcases Nat.eq_zero_or_pos d with rfl | hd
        · exact Or.inl rfl
        · exact Or.inr ⟨d, hd, rfl, h3⟩
  exact key n 0 (by omega) start.pos (fun c hc => by omega)

/-! ## Lookup -/

/-- Mode and state of a node. -/
def ANode.key {M V : Type} (nd : ANode M V) : M × V := (nd.mode, nd.state)

/-- Address and key of every node. -/
def Aut.idk {M V : Type} (st : Aut M V) : List (ℕ × (M × V)) := st.map fun nd => (nd.id, nd.key)

section Aut
variable {M V : Type} [DecidableEq M] [DecidableEq V]

theorem findAnode_some {l : Aut M V} {a : M} {v : V} {nd : ANode M V} (h : findAnode l a v = some nd) :
    nd ∈ l ∧ nd.key = (a, v) := by
  induction l with
  | nil => simp [findAnode] at h
  | cons b tl ih =>
    unfold findAnode at h
    split at h
    · split at h
      · simp only [Option.some.injEq] at h
        subst h
        rename_i h1 h2
        exact ⟨by simp, by simp [ANode.key, h1, h2]⟩
      · exact ⟨List.mem_cons_of_mem _ (ih h).1, (ih h).2⟩
    · exact ⟨List.mem_cons_of_mem _ (ih h).1, (ih h).2⟩

theorem findAnode_none_iff {l : Aut M V} {a : M} {v : V} :
    findAnode l a v = none ↔ ∀ nd ∈ l, nd.key ≠ (a, v) := by
  induction l with
  | nil => simp [findAnode]
  | cons b tl ih =>
    unfold findAnode
    by_cases h1 : b.mode = a
    · rw [if_pos h1]
      by_cases h2 : b.state = v
      · rw [if_pos h2]
        simp only [reduceCtorEq, false_iff]
        intro h
        exact h b (by simp) (by simp [ANode.key, h1, h2])
      · rw [if_neg h2, ih]
        simp only [List.mem_cons, forall_eq_or_imp, iff_and_self]
        intro _ he
        simp only [ANode.key, Prod.mk.injEq] at he
        exact h2 he.2
    · rw [if_neg h1, ih]
      simp only [List.mem_cons, forall_eq_or_imp, iff_and_self]
      intro _ he
      simp only [ANode.key, Prod.mk.injEq] at he
      exact h1 he.1

theorem eq_of_key_eq {l : Aut M V} (h : (l.map ANode.key).Nodup) {a b : ANode M V} (ha : a ∈ l) (hb : b ∈ l)
    (he : a.key = b.key) : a = b := List.inj_on_of_nodup_map h ha hb he

theorem findAnode_of_mem {l : Aut M V} (h : (l.map ANode.key).Nodup) {nd : ANode M V} (hn : nd ∈ l)
    {a : M} {v : V} (hk : nd.key = (a, v)) : findAnode l a v = some nd := by
  cases hf : findAnode l a v with
  | none => exact absurd hk (findAnode_none_iff.1 hf nd hn)
  | some nd' =>
    obtain ⟨h1, h2⟩ := findAnode_some hf
    rw [eq_of_key_eq h h1 hn (by rw [h2, hk])]

theorem mem_updNode {l : Aut M V} {id : ℕ} {f : ANode M V → ANode M V} {nd' : ANode M V} :
    nd' ∈ updNode l id f ↔ ∃ nd ∈ l, (if nd.id = id then f nd else nd) = nd' := by
  unfold updNode; rw [List.mem_map]

theorem idk_updNode (l : Aut M V) (id : ℕ) (f : ANode M V → ANode M V)
    (hf : ∀ nd, (f nd).id = nd.id ∧ (f nd).key = nd.key) : Aut.idk (updNode l id f) = Aut.idk l := by
  unfold Aut.idk updNode
  rw [List.map_map]
  apply List.map_congr_left
  intro nd _
  simp only [Function.comp]
  split
  · rw [(hf nd).1, (hf nd).2]
  · rfl

theorem ids_of_idk (l : Aut M V) : Aut.ids l = (Aut.idk l).map Prod.fst := by
  unfold Aut.ids Aut.idk; rw [List.map_map]; rfl

theorem keys_of_idk (l : Aut M V) : l.map ANode.key = (Aut.idk l).map Prod.snd := by
  unfold Aut.idk; rw [List.map_map]; rfl

theorem mem_idk {l : Aut M V} {j : ℕ} {k : M × V} : (j, k) ∈ Aut.idk l ↔ ∃ nd ∈ l, nd.id = j ∧ nd.key = k := by
  unfold Aut.idk
  rw [List.mem_map]
  constructor
  · rintro ⟨nd, h1, h2⟩
    simp only [Prod.mk.injEq] at h2
    exact ⟨nd, h1, h2⟩
  · rintro ⟨nd, h1, h2, h3⟩
    exact ⟨nd, h1, by rw [h2, h3]⟩

theorem idk_unique {l : Aut M V} (h : (Aut.ids l).Nodup) {j : ℕ} {k k' : M × V} (h1 : (j, k) ∈ Aut.idk l)
    (h2 : (j, k') ∈ Aut.idk l) : k = k' := by
  obtain ⟨a, ha, ha1, ha2⟩ := mem_idk.1 h1
  obtain ⟨b, hb, hb1, hb2⟩ := mem_idk.1 h2
  rw [← ha2, ← hb2, eq_of_id_eq h ha hb (by rw [ha1, hb1])]

end Aut

/-! ## The invariant -/

section Inv
variable (G : Game E S) (eg : Fin m → Finset (E × S)) (sg : Fin n → Finset (E × S)) (W : Finset (E × S))
  (hm : 0 < m)

/-- An edge from key `k` answering `e` with key `k'`. -/
def EdgeOk (k : Fin n × (E × S)) (e : E) (k' : Fin n × (E × S)) : Prop :=
  k'.2.1 = e ∧ G.str k.2 k'.2 = true ∧
    RankedStep eg sg hm (fun i => rank G eg (sg i ∩ W)) k.1 k.2 k'.1 k'.2

/-- The outgoing edges `tr` of key `k` answer exactly the moves `es`. -/
def EdgesOk (st : Aut (Fin n) (E × S)) (k : Fin n × (E × S)) (es : List E) (tr : List ℕ) : Prop :=
  List.Forall₂ (fun e j => ∃ k', (j, k') ∈ Aut.idk st ∧ EdgeOk G eg sg W hm k e k') es tr

/-- A node is either waiting on the stack or fully expanded. -/
def Good (st : Aut (Fin n) (E × S)) (stack : List (Fin n × (E × S))) (nd : ANode (Fin n) (E × S)) : Prop :=
  (nd.trans = [] ∧ nd.key ∈ stack) ∨
  ∃ es : List E, (es.Nodup ∧ ∀ e, e ∈ es ↔ G.etr nd.state e = true) ∧
    EdgesOk G eg sg W hm st nd.key es nd.trans

/-- The part of the invariant not concerning edges. -/
structure Core (c : SynCfg E S n) : Prop where
  ids : (Aut.ids c.strat).Nodup
  keys : (c.strat.map ANode.key).Nodup
  win : ∀ nd ∈ c.strat, nd.state ∈ W
  stk : ∀ k ∈ c.stack, ∃ nd ∈ c.strat, nd.key = k
  stkN : c.stack.Nodup

variable {G eg sg W hm}

theorem EdgesOk.mono {st st' : Aut (Fin n) (E × S)} {k : Fin n × (E × S)} {es : List E} {tr : List ℕ}
    (h : EdgesOk G eg sg W hm st k es tr) (hsub : ∀ x ∈ Aut.idk st, x ∈ Aut.idk st') :
    EdgesOk G eg sg W hm st' k es tr := by
  unfold EdgesOk at *
  exact h.imp fun e j ⟨k', h1, h2⟩ => ⟨k', hsub _ h1, h2⟩

theorem Good.mono {st st' : Aut (Fin n) (E × S)} {stack stack' : List (Fin n × (E × S))}
    {nd : ANode (Fin n) (E × S)} (h : Good G eg sg W hm st stack nd)
    (hsub : ∀ x ∈ Aut.idk st, x ∈ Aut.idk st') (hs : ∀ k ∈ stack, k ∈ stack') :
    Good G eg sg W hm st' stack' nd := by
  rcases h with ⟨h1, h2⟩ | ⟨es, h1, h2⟩
  · exact Or.inl ⟨h1, hs _ h2⟩
  · exact Or.inr ⟨es, h1, h2.mono hsub⟩

/-- Nodes survive with their key and initial flag, and expanded nodes stay expanded; new nodes are
not initial. -/
def Ext (st st' : Aut (Fin n) (E × S)) : Prop :=
  (∀ nd ∈ st, ∃ nd' ∈ st', nd'.key = nd.key ∧ nd'.initial = nd.initial ∧
    (nd.trans ≠ [] → nd'.trans ≠ [])) ∧
  (∀ nd' ∈ st', nd'.initial = true → ∃ nd ∈ st, nd.key = nd'.key ∧ nd.initial = true)

theorem Ext.refl (st : Aut (Fin n) (E × S)) : Ext st st :=
  ⟨fun nd h => ⟨nd, h, rfl, rfl, fun h => h⟩, fun nd h hi => ⟨nd, h, rfl, hi⟩⟩

theorem Ext.trans {a b c : Aut (Fin n) (E × S)} (h1 : Ext a b) (h2 : Ext b c) : Ext a c := by
  refine ⟨fun nd h => ?_, fun nd h hi => ?_⟩
  · obtain ⟨x, hx, k1, i1, t1⟩ := h1.1 nd h
    obtain ⟨y, hy, k2, i2, t2⟩ := h2.1 x hx
    exact ⟨y, hy, by rw [k2, k1], by rw [i2, i1], fun h => t2 (t1 h)⟩
  · obtain ⟨x, hx, k1, i1⟩ := h2.2 nd h hi
    obtain ⟨y, hy, k2, i2⟩ := h1.2 x hx i1
    exact ⟨y, hy, by rw [k2, k1], i2⟩

theorem ext_updNode (st : Aut (Fin n) (E × S)) (id : ℕ) (f : ANode (Fin n) (E × S) → ANode (Fin n) (E × S))
    (hf : ∀ nd, (f nd).key = nd.key ∧ (f nd).initial = nd.initial ∧ (nd.trans ≠ [] → (f nd).trans ≠ [])) :
    Ext st (updNode st id f) := by
  refine ⟨fun nd h => ⟨_, mem_updNode.2 ⟨nd, h, rfl⟩, ?_⟩, fun nd' h hi => ?_⟩
  · split
    · exact hf nd
    · exact ⟨rfl, rfl, fun h => h⟩
  · obtain ⟨nd, hnd, rfl⟩ := mem_updNode.1 h
    refine ⟨nd, hnd, ?_⟩
    split at hi
    · rename_i hid
      rw [if_pos hid]
      exact ⟨(hf nd).1.symm, by rw [← (hf nd).2.1]; exact hi⟩
    · rename_i hid
      rw [if_neg hid]
      exact ⟨rfl, hi⟩

/-- One pass over the environment moves. -/
theorem expandLoop_ok {o : Oracle E S} (ho : o.Valid G) {L : Fin n → List (Level E S m)}
    (hmu : ∀ i, muY G eg (sg i ∩ W) = W) (hpre : pre G W = W)
    (hL : ∀ i, shiftLevels (sg i ∩ W) (sublevels G eg (sg i ∩ W)) = some (L i))
    (md : Fin n) (s : E × S) (hs : s ∈ W) (es : List E) : ∀ (done : List E) (c : SynCfg E S n),
    (∀ e ∈ es, G.etr s e = true) → Core W c →
    (∀ nd ∈ c.strat, nd.key ≠ (md, s) → Good G eg sg W hm c.strat c.stack nd) →
    (∃ nd ∈ c.strat, nd.key = (md, s) ∧ EdgesOk G eg sg W hm c.strat (md, s) done nd.trans) →
    ∃ c', expandLoop G W o L (fun i => sg i ∩ W) md s (levelOf (L md) s) es c = .ok c' ∧
      Core W c' ∧
      (∀ nd ∈ c'.strat, nd.key ≠ (md, s) → Good G eg sg W hm c'.strat c'.stack nd) ∧
      (∃ nd ∈ c'.strat, nd.key = (md, s) ∧
        EdgesOk G eg sg W hm c'.strat (md, s) (done ++ es) nd.trans) ∧
      Ext c.strat c'.strat ∧ (∀ k ∈ c.stack, k ∈ c'.stack) ∧
      c'.stack.length ≤ c.stack.length + es.length := by
  induction es with
  | nil =>
    intro done c _ hc hg hk
    refine ⟨c, rfl, hc, hg, ?_, Ext.refl _, fun k h => h, by simp⟩
    rw [List.append_nil]; exact hk
  | cons e es ih =>
    intro done c hes hc hg hk
    obtain ⟨x, hx, hx1, hx2, hx3⟩ := chooseStep_ok hm (hmu md) hpre (hL md) hs (hes e (by simp))
      (pick := o.pick c.clk) (ho.pick c.clk)
    unfold expandLoop
    rw [hx]
    simp only
    -- the target key and the edge to it
    set t : E × S := (e, x) with ht
    set nm := (if t ∈ sg md ∩ W then nextIx md else md) with hnm
    have hedge : EdgeOk G eg sg W hm (md, s) e (nm, t) := by
      refine ⟨rfl, hx1, ?_⟩
      by_cases htg : t ∈ sg md
      · have htg' : t ∈ sg md ∩ W := Finset.mem_inter.2 ⟨htg, hx2⟩
        left
        refine ⟨htg, 1, le_rfl, ?_, ?_⟩
        · rw [hnm, if_pos htg']; rfl
        · intro d hd
          obtain rfl : d = 0 := by omega
          exact htg
      · right
        refine ⟨htg, ?_, hx3 htg⟩
        rw [hnm, if_neg (fun h => htg (Finset.mem_inter.1 h).1)]
    -- after the possible insertion
    set c1 : SynCfg E S n := addTarget o nm t c with hc1def
    have hc1 : Core W c1 ∧
        (∀ nd ∈ c1.strat, nd.key ≠ (md, s) → Good G eg sg W hm c1.strat c1.stack nd) ∧
        (∃ nd ∈ c1.strat, nd.key = (md, s) ∧ EdgesOk G eg sg W hm c1.strat (md, s) done nd.trans) ∧
        (∃ nd ∈ c1.strat, nd.key = (nm, t)) ∧ Ext c.strat c1.strat ∧
        (∀ k ∈ c.stack, k ∈ c1.stack) ∧ c1.stack.length ≤ c.stack.length + 1 := by
      cases hf : findAnode c.strat nm t with
      | some tn =>
        unfold addTarget at hc1def
        rw [hf] at hc1def
        obtain ⟨h1, h2⟩ := findAnode_some hf
        rw [hc1def]
        exact ⟨⟨hc.ids, hc.keys, hc.win, hc.stk, hc.stkN⟩, hg, hk, ⟨tn, h1, h2⟩, Ext.refl _, fun k h => h,
          by simp⟩
      | none =>
        unfold addTarget at hc1def
        rw [hf] at hc1def
        rw [hc1def]
        have hnone := findAnode_none_iff.1 hf
        set new : ANode (Fin n) (E × S) :=
          { id := o.alloc c.clk (c.strat.map (·.id)), state := t, mode := nm, rgrad := -1,
            initial := false, trans := [] } with hnew
        have hins : insertAnode c.strat (o.alloc c.clk (c.strat.map (·.id))) nm (-1) false t =
          new :: c.strat := rfl
        simp only [hins]
        have hidk : ∀ y ∈ Aut.idk c.strat, y ∈ Aut.idk (new :: c.strat) := by
          intro y hy
          unfold Aut.idk
          rw [List.map_cons]
          exact List.mem_cons_of_mem _ hy
        have hnotin : (nm, t) ∉ c.stack := by
          intro h
          obtain ⟨nd, h1, h2⟩ := hc.stk _ h
          exact hnone nd h1 h2
        refine ⟨⟨?_, ?_, ?_, ?_, ?_⟩, ?_, ?_, ⟨new, by simp, rfl⟩, ?_, fun k h => List.mem_cons_of_mem _ h,
          by simp⟩
        · show (Aut.ids (new :: c.strat)).Nodup
          unfold Aut.ids
          rw [List.map_cons, List.nodup_cons]
          exact ⟨ho.alloc _ _, hc.ids⟩
        · show ((new :: c.strat).map ANode.key).Nodup
          rw [List.map_cons, List.nodup_cons]
          refine ⟨?_, hc.keys⟩
          intro h
          rw [List.mem_map] at h
          obtain ⟨nd, h1, h2⟩ := h
          exact hnone nd h1 h2
        · intro nd hnd
          rcases List.mem_cons.1 hnd with rfl | hnd
          · exact hx2
          · exact hc.win nd hnd
        · intro k hk'
          rcases List.mem_cons.1 hk' with rfl | hk'
          · exact ⟨new, by simp, rfl⟩
          · obtain ⟨nd, h1, h2⟩ := hc.stk k hk'
            exact ⟨nd, List.mem_cons_of_mem _ h1, h2⟩
        · show ((nm, t) :: c.stack).Nodup
          rw [List.nodup_cons]
          exact ⟨hnotin, hc.stkN⟩
        · intro nd hnd hne
          rcases List.mem_cons.1 hnd with rfl | hnd
          · exact Or.inl ⟨rfl, by simp [ANode.key, hnew]⟩
          · exact (hg nd hnd hne).mono hidk (fun k h => List.mem_cons_of_mem _ h)
        · obtain ⟨nd, h1, h2, h3⟩ := hk
          exact ⟨nd, List.mem_cons_of_mem _ h1, h2, h3.mono hidk⟩
        · refine ⟨fun nd h => ⟨nd, List.mem_cons_of_mem _ h, rfl, rfl, fun h => h⟩, fun nd h hi => ?_⟩
          rcases List.mem_cons.1 h with rfl | h
          · simp [hnew] at hi
          · exact ⟨nd, h, rfl, hi⟩
    obtain ⟨k1, k2, ⟨base, b1, b2, b3⟩, ⟨tn, t1, t2⟩, k5, k6, k7⟩ := hc1
    have hfb : findAnode c1.strat md s = some base := findAnode_of_mem k1.keys b1 b2
    have hft : findAnode c1.strat nm t = some tn := findAnode_of_mem k1.keys t1 t2
    unfold appendAnodeTrans
    rw [hfb, hft]
    simp only
    set st2 := updNode c1.strat base.id fun nd => { nd with trans := nd.trans ++ [tn.id] } with hst2
    have hidk2 : Aut.idk st2 = Aut.idk c1.strat := idk_updNode _ _ _ fun nd => ⟨rfl, rfl⟩
    have hext2 : Ext c1.strat st2 := ext_updNode _ _ _ fun nd => ⟨rfl, rfl, fun h => by simp⟩
    obtain ⟨c', e1, e2, e3, e4, e5, e6, e7⟩ := ih (done ++ [e]) { c1 with strat := st2 }
      (fun e' he' => hes e' (by simp [he']))
      ⟨by rw [ids_of_idk, hidk2, ← ids_of_idk]; exact k1.ids,
        by rw [keys_of_idk, hidk2, ← keys_of_idk]; exact k1.keys,
        by
          intro nd hnd
          obtain ⟨nd0, hnd0, rfl⟩ := mem_updNode.1 hnd
          split
          · exact k1.win nd0 hnd0
          · exact k1.win nd0 hnd0,
        by
          intro k hk'
          obtain ⟨nd, h1, h2⟩ := k1.stk k hk'
          obtain ⟨nd', h3, h4, _⟩ := hext2.1 nd h1
          exact ⟨nd', h3, by rw [h4, h2]⟩,
        k1.stkN⟩
      (by
        intro nd hnd hne
        obtain ⟨nd0, hnd0, rfl⟩ := mem_updNode.1 hnd
        by_cases hid : nd0.id = base.id
        · exfalso
          rw [if_pos hid] at hne
          apply hne
          rw [eq_of_id_eq k1.ids hnd0 b1 hid]
          exact b2
        · rw [if_neg hid] at hne ⊢
          exact (k2 nd0 hnd0 hne).mono (fun y hy => by rw [hidk2]; exact hy) (fun k h => h))
      (by
        refine ⟨{ base with trans := base.trans ++ [tn.id] }, mem_updNode.2 ⟨base, b1, if_pos rfl⟩, b2, ?_⟩
        unfold EdgesOk at b3 ⊢
        have b4 : EdgesOk G eg sg W hm st2 (md, s) done base.trans :=
          EdgesOk.mono b3 (fun y hy => by rw [hidk2]; exact hy)
        refine List.rel_append b4 (List.Forall₂.cons ⟨(nm, t), ?_, hedge⟩ List.Forall₂.nil)
        rw [hidk2]
        exact mem_idk.2 ⟨tn, t1, rfl, t2⟩)
    refine ⟨c', e1, e2, e3, ?_, (k5.trans hext2).trans e5, fun k h => e6 k (k6 k h), ?_⟩
    swap
    · simp only [List.length_cons] at e7 ⊢; omega
    rw [List.append_assoc] at e4
    exact e4


/-- Nodes survive with their key; expanded nodes stay expanded. -/
def Keep (st st' : Aut (Fin n) (E × S)) : Prop :=
  ∀ nd ∈ st, nd.trans ≠ [] → ∃ nd' ∈ st', nd'.key = nd.key ∧ nd'.trans ≠ []

/-- Setting the annotation and adding the edges of one node. -/
theorem expandNode_ok {o : Oracle E S} (ho : o.Valid G) {L : Fin n → List (Level E S m)}
    (hmu : ∀ i, muY G eg (sg i ∩ W) = W) (hpre : pre G W = W)
    (hL : ∀ i, shiftLevels (sg i ∩ W) (sublevels G eg (sg i ∩ W)) = some (L i))
    (md : Fin n) (s : E × S) (c : SynCfg E S n) (nd : ANode (Fin n) (E × S)) (hnd : nd ∈ c.strat)
    (hkey : nd.key = (md, s)) (htr : nd.trans = []) (hc : Core W c)
    (hg : ∀ x ∈ c.strat, x.key ≠ (md, s) → Good G eg sg W hm c.strat c.stack x) :
    ∃ c', expandNode G W o L (fun i => sg i ∩ W) nd.id md s (levelOf (L md) s) c = .ok c' ∧
      Core W c' ∧ (∀ x ∈ c'.strat, Good G eg sg W hm c'.strat c'.stack x) ∧
      Ext c.strat c'.strat ∧ (∀ k ∈ c.stack, k ∈ c'.stack) ∧
      ((c'.stack.length ≤ c.stack.length) ∨
        ((∃ x ∈ c'.strat, x.key = (md, s) ∧ x.trans ≠ []) ∧
          c'.stack.length ≤ c.stack.length + Fintype.card E)) := by
  set st2 := updNode c.strat nd.id fun x => { x with rgrad := levelOf (L md) s } with hst2
  have hidk2 : Aut.idk st2 = Aut.idk c.strat := idk_updNode _ _ _ fun x => ⟨rfl, rfl⟩
  have hext2 : Ext c.strat st2 := ext_updNode _ _ _ fun x => ⟨rfl, rfl, fun h => h⟩
  have hsW : s ∈ W := by
    have := hc.win nd hnd
    have h2 : nd.state = s := congrArg Prod.snd hkey
    rwa [h2] at this
  obtain ⟨c', e1, e2, e3, ⟨nd', n1, n2, n3⟩, e5, e6, e7⟩ := expandLoop_ok (hm := hm) ho hmu hpre hL md s
    hsW (o.moves c.clk s) [] { c with strat := st2 }
    (fun e he => (ho.moves_mem _ _ _).1 he)
    ⟨by rw [ids_of_idk, hidk2, ← ids_of_idk]; exact hc.ids,
      by rw [keys_of_idk, hidk2, ← keys_of_idk]; exact hc.keys,
      by
        intro x hx
        obtain ⟨x0, hx0, rfl⟩ := mem_updNode.1 hx
        split
        · exact hc.win x0 hx0
        · exact hc.win x0 hx0,
      by
        intro k hk
        obtain ⟨x, h1, h2⟩ := hc.stk k hk
        obtain ⟨x', h3, h4, _⟩ := hext2.1 x h1
        exact ⟨x', h3, by rw [h4, h2]⟩,
      hc.stkN⟩
    (by
      intro x hx hne
      obtain ⟨x0, hx0, rfl⟩ := mem_updNode.1 hx
      by_cases hid : x0.id = nd.id
      · exfalso
        rw [if_pos hid] at hne
        apply hne
        rw [eq_of_id_eq hc.ids hx0 hnd hid]
        exact hkey
      · rw [if_neg hid] at hne ⊢
        exact (hg x0 hx0 hne).mono (fun y hy => by rw [hidk2]; exact hy) (fun k h => h))
    ⟨{ nd with rgrad := levelOf (L md) s }, mem_updNode.2 ⟨nd, hnd, if_pos rfl⟩, hkey, by
      show EdgesOk G eg sg W hm st2 (md, s) [] nd.trans
      rw [htr]; exact List.Forall₂.nil⟩
  rw [List.nil_append] at n3
  have hst' : nd'.state = s := congrArg Prod.snd n2
  refine ⟨c', e1, e2, ?_, hext2.trans e5, e6, ?_⟩
  · intro x hx
    by_cases hk : x.key = (md, s)
    · have hxn : x = nd' := eq_of_key_eq e2.keys hx n1 (by rw [hk, n2])
      subst hxn
      refine Or.inr ⟨_, ⟨ho.moves_nodup c.clk s, fun e => ?_⟩, by rw [n2]; exact n3⟩
      rw [hst']; exact ho.moves_mem _ _ _
    · exact e3 x hx hk
  · by_cases hem : o.moves c.clk s = []
    · left
      rw [hem] at e7
      simpa using e7
    · right
      refine ⟨⟨nd', n1, n2, ?_⟩, ?_⟩
      · intro h
        rw [h] at n3
        have := List.Forall₂.length_eq n3
        exact hem (List.length_eq_zero_iff.1 (by simpa using this))
      · have := (ho.moves_nodup c.clk s).length_le_card
        simp only at e7
        omega

/-- Redirecting an edge past goals that hold at its target. -/
theorem EdgeOk.redirect {k : Fin n × (E × S)} {e : E} {lm md : Fin n} {s : E × S}
    (h : EdgeOk G eg sg W hm k e (lm, s)) {d : ℕ} (hd : 1 ≤ d) (hmd : (nextIx^[d]) lm = md)
    (hgoal : ∀ c, c < d → s ∈ sg ((nextIx^[c]) lm)) : EdgeOk G eg sg W hm k e (md, s) := by
  obtain ⟨h1, h2, h3⟩ := h
  refine ⟨h1, h2, ?_⟩
  have h0 : s ∈ sg lm := hgoal 0 (by omega)
  rcases h3 with ⟨g1, d', g2, g3, g4⟩ | ⟨g1, g2, _⟩
  · refine Or.inl ⟨g1, d + d', by omega, ?_, ?_⟩
    · rw [Function.iterate_add_apply, g3]; exact hmd
    · intro c hc
      by_cases hcd : c < d'
      · exact g4 c hcd
      · have := hgoal (c - d') (by omega)
        simp only at g3
        rw [← g3, ← Function.iterate_add_apply, Nat.sub_add_cancel (by omega)] at this
        exact this
  · simp only at g1 g2
    rw [← g2] at g1
    exact absurd h0 g1

/-- The node with its edges to `old` replaced by edges to `new`. -/
def retarget (old new : ℕ) (x : ANode (Fin n) (E × S)) : ANode (Fin n) (E × S) :=
  { x with trans := x.trans.map fun j => if j = old then new else j }

theorem idk_map_retarget (st : Aut (Fin n) (E × S)) (old new : ℕ) :
    Aut.idk (st.map (retarget old new)) = Aut.idk st := by
  unfold Aut.idk
  rw [List.map_map]
  rfl

theorem Good.retarget {st st3 : Aut (Fin n) (E × S)} (hids : (Aut.ids st).Nodup)
    {a : ANode (Fin n) (E × S)} (ha : a ∈ st) {lm md : Fin n} {s : E × S} (hka : a.key = (lm, s)) {new : ℕ}
    (hidk : ∀ j k, (j, k) ∈ Aut.idk st → j ≠ a.id → (j, k) ∈ Aut.idk st3)
    (hnew : (new, (md, s)) ∈ Aut.idk st3) {rest : List (Fin n × (E × S))}
    {d : ℕ} (hd : 1 ≤ d) (hmd : (nextIx^[d]) lm = md)
    (hgoal : ∀ c, c < d → s ∈ sg ((nextIx^[c]) lm))
    {x : ANode (Fin n) (E × S)} (hx : Good G eg sg W hm st ((lm, s) :: rest) x) (hxk : x.key ≠ (lm, s)) :
    Good G eg sg W hm st3 rest (retarget a.id new x) := by
  rcases hx with ⟨h1, h2⟩ | ⟨es, h1, h2⟩
  · refine Or.inl ⟨?_, ?_⟩
    · simp [Gr1c.retarget, h1]
    · rcases List.mem_cons.1 h2 with h | h
      · exact absurd h hxk
      · exact h
  · refine Or.inr ⟨es, h1, ?_⟩
    unfold EdgesOk at h2 ⊢
    show List.Forall₂ _ es (x.trans.map _)
    rw [List.forall₂_map_right_iff]
    refine h2.imp fun e j ⟨k', q1, q2⟩ => ?_
    by_cases hj : j = a.id
    · rw [if_pos hj]
      refine ⟨(md, s), hnew, ?_⟩
      have : k' = (lm, s) := idk_unique hids q1 (mem_idk.2 ⟨a, ha, hj.symm, hka⟩)
      rw [this] at q2
      exact q2.redirect hd hmd hgoal
    · rw [if_neg hj]
      exact ⟨k', hidk j k' q1 hj, q2⟩

/-- What one iteration of the main loop does to the nodes. -/
structure IterRel (sg : Fin n → Finset (E × S)) (lm : Fin n) (s : E × S) (c c' : SynCfg E S n) : Prop where
  keep : Keep c.strat c'.strat
  init : ∀ x ∈ c'.strat, x.initial = true → ∃ y ∈ c.strat, y.state = x.state ∧ y.initial = true
  fate : ∀ y ∈ c.strat, (∃ x ∈ c'.strat, x.key = y.key ∧ x.initial = y.initial ∧
      (y.key = (lm, s) → y.trans = [] → s ∉ sg lm ∨ ∀ i, s ∈ sg i)) ∨
    (y.key = (lm, s) ∧ ∃ md, s ∈ sg lm ∧ s ∉ sg md ∧ ∃ x ∈ c'.strat, x.key = (md, s) ∧
      (x.initial = y.initial ∨ ∃ z ∈ c.strat, z.key = (md, s)))
  size : c'.stack.length ≤ c.stack.length ∨
    (∃ k, (∀ x ∈ c.strat, x.key = k → x.trans = []) ∧ (∃ x ∈ c'.strat, x.key = k ∧ x.trans ≠ []) ∧
      c'.stack.length ≤ c.stack.length + Fintype.card E)

/-- One iteration of the main loop. -/
theorem synthIter_ok {o : Oracle E S} (ho : o.Valid G) {L : Fin n → List (Level E S m)}
    (hmu : ∀ i, muY G eg (sg i ∩ W) = W) (hpre : pre G W = W)
    (hL : ∀ i, shiftLevels (sg i ∩ W) (sublevels G eg (sg i ∩ W)) = some (L i))
    (lm : Fin n) (s : E × S) (c : SynCfg E S n)
    (hc : Core W { c with stack := (lm, s) :: c.stack })
    (hg : ∀ x ∈ c.strat, Good G eg sg W hm c.strat ((lm, s) :: c.stack) x) :
    ∃ c', synthIter G W o L (fun i => sg i ∩ W) lm s c = .ok c' ∧ Core W c' ∧
      (∀ x ∈ c'.strat, Good G eg sg W hm c'.strat c'.stack x) ∧ IterRel sg lm s c c' := by
  obtain ⟨md, j, ha, hj, hj0, hadv⟩ := advance_spec (fun i => levelOf (L i) s) lm
  obtain ⟨a, ha1, ha2⟩ := hc.stk (lm, s) (by simp)
  simp only at ha1
  have hids : (Aut.ids c.strat).Nodup := hc.ids
  have hkeys : (c.strat.map ANode.key).Nodup := hc.keys
  have hwin : ∀ nd ∈ c.strat, nd.state ∈ W := hc.win
  have hstk : ∀ k ∈ c.stack, ∃ nd ∈ c.strat, nd.key = k := fun k hk => hc.stk k (List.mem_cons_of_mem _ hk)
  have hstkN : c.stack.Nodup := (List.nodup_cons.1 hc.stkN).2
  have hnotstk : (lm, s) ∉ c.stack := (List.nodup_cons.1 hc.stkN).1
  have hcore : Core W c := ⟨hids, hkeys, hwin, hstk, hstkN⟩
  have hsW : s ∈ W := by
    have := hwin a ha1
    have h2 : a.state = s := congrArg Prod.snd ha2
    rwa [h2] at this
  have hfa : findAnode c.strat lm s = some a := findAnode_of_mem hkeys ha1 ha2
  have hlv : ∀ i, levelOf (L i) s = 0 ↔ s ∈ sg i := by
    intro i
    rw [(levelOf_spec hm (hL i) ((hmu i).symm ▸ hsW)).1, Finset.mem_inter]
    exact ⟨fun h => h.1, fun h => ⟨h, hsW⟩⟩
  have hgne : ∀ x ∈ c.strat, x.key ≠ (lm, s) → Good G eg sg W hm c.strat c.stack x := by
    intro x hx hne
    rcases hg x hx with ⟨h1, h2⟩ | h
    · rcases List.mem_cons.1 h2 with h | h
      · exact absurd h hne
      · exact Or.inl ⟨h1, h⟩
    · exact Or.inr h
  unfold synthIter
  rw [ha]
  simp only
  rw [hfa]
  simp only
  by_cases htr : a.trans ≠ []
  · rw [if_pos htr]
    refine ⟨c, rfl, hcore, ?_, ⟨fun nd h h' => ⟨nd, h, rfl, h'⟩, fun x h h' => ⟨x, h, rfl, h'⟩,
      fun y h => Or.inl ⟨y, h, rfl, rfl, fun hk ht => ?_⟩, Or.inl le_rfl⟩⟩
    swap
    · rw [eq_of_key_eq hkeys h ha1 (by rw [hk, ha2])] at ht
      exact absurd ht htr
    intro x hx
    by_cases hk : x.key = (lm, s)
    · have hxa : x = a := eq_of_key_eq hkeys hx ha1 (by rw [hk, ha2])
      rcases hg x hx with ⟨h1, _⟩ | h
      · rw [hxa] at h1; exact absurd h1 htr
      · exact Or.inr h
    · exact hgne x hx hk
  rw [if_neg htr]
  simp only [ne_eq, not_not] at htr
  by_cases hmd : md = lm
  · subst hmd
    rw [if_pos rfl, hj]
    obtain ⟨c', e1, e2, e3, e4, e5, e6⟩ := expandNode_ok (hm := hm) ho hmu hpre hL md s c a ha1 ha2 htr hcore hgne
    refine ⟨c', e1, e2, e3, ⟨?_, ?_, ?_, ?_⟩⟩
    · intro nd h h'
      obtain ⟨x, x1, x2, _, x4⟩ := e4.1 nd h
      exact ⟨x, x1, x2, x4 h'⟩
    · intro x hx hi
      obtain ⟨y, y1, y2, y3⟩ := e4.2 x hx hi
      exact ⟨y, y1, congrArg Prod.snd y2, y3⟩
    · intro y hy
      obtain ⟨x, x1, x2, x3, _⟩ := e4.1 y hy
      refine Or.inl ⟨x, x1, x2, x3, fun _ _ => ?_⟩
      by_cases h0 : s ∈ sg md
      · exact Or.inr fun i => (hlv i).1 ((hj0 (hj.trans ((hlv md).2 h0))).2 i)
      · exact Or.inl h0
    · rcases e6 with h | ⟨h1, h2⟩
      · exact Or.inl h
      · refine Or.inr ⟨(md, s), ?_, h1, h2⟩
        intro x hx hk
        rw [eq_of_key_eq hkeys hx ha1 (by rw [hk, ha2]), htr]
  rw [if_neg hmd]
  rcases hadv with h | ⟨d, hd1, hd2, hd3⟩
  · exact absurd h hmd
  have hgoal : ∀ q, q < d → s ∈ sg ((nextIx^[q]) lm) := fun q hq => (hlv _).1 (hd3 q hq)
  have hslm : s ∈ sg lm := hgoal 0 (by omega)
  have hsmd : s ∉ sg md := fun h => hmd (hj0 (hj.trans ((hlv md).2 h))).1
  set st1 := deleteAnode c.strat (some a.id) with hst1
  have hst1eq : st1 = c.strat.filter fun x => x.id ≠ a.id := by
    rw [hst1, deleteAnode_eq _ hids, if_pos (mem_ids.2 ⟨a, ha1, rfl⟩)]
  have hmem1 : ∀ x, x ∈ st1 ↔ x ∈ c.strat ∧ x.id ≠ a.id := by
    intro x; rw [hst1eq]; simp
  have hsub1 : st1.Sublist c.strat := by rw [hst1eq]; exact List.filter_sublist
  have hids1 : (Aut.ids st1).Nodup := (hsub1.map _).nodup hids
  have hkeys1 : (st1.map ANode.key).Nodup := (hsub1.map _).nodup hkeys
  have hidne : ∀ x ∈ c.strat, x.key ≠ (lm, s) → x.id ≠ a.id := by
    intro x hx hne h
    apply hne
    rw [eq_of_id_eq hids hx ha1 h, ha2]
  have hkne : ∀ x ∈ st1, x.key ≠ (lm, s) := by
    intro x hx h
    obtain ⟨h1, h2⟩ := (hmem1 x).1 hx
    exact h2 (by rw [eq_of_key_eq hkeys h1 ha1 (by rw [h, ha2])])
  have hidk1 : ∀ j k, (j, k) ∈ Aut.idk c.strat → j ≠ a.id → (j, k) ∈ Aut.idk st1 := by
    intro j k h hne
    obtain ⟨x, x1, x2, x3⟩ := mem_idk.1 h
    exact mem_idk.2 ⟨x, (hmem1 x).2 ⟨x1, by rw [x2]; exact hne⟩, x2, x3⟩
  have hstk1 : ∀ k ∈ c.stack, ∃ x ∈ st1, x.key = k := by
    intro k hk
    obtain ⟨x, x1, x2⟩ := hstk k hk
    refine ⟨x, (hmem1 x).2 ⟨x1, hidne x x1 ?_⟩, x2⟩
    rintro h
    rw [x2] at h
    rw [h] at hk
    exact hnotstk hk
  cases hf : findAnode st1 md s with
  | none =>
    simp only
    have hnone := findAnode_none_iff.1 hf
    set f := o.alloc c.clk (st1.map (·.id)) with hfdef
    have hfresh : f ∉ Aut.ids st1 := ho.alloc _ _
    set new : ANode (Fin n) (E × S) :=
      { id := f, state := s, mode := md, rgrad := -1, initial := a.initial, trans := [] } with hnew
    have hins : insertAnode st1 f md (-1) a.initial s = new :: st1 := rfl
    rw [hins, replaceAnodeTrans_some]
    set st3 : Aut (Fin n) (E × S) := (new :: st1).map (retarget a.id f) with hst3
    have hst3' : (List.map (fun x : ANode (Fin n) (E × S) =>
        { x with trans := x.trans.map fun y => if y = a.id then f else y }) (new :: st1)) = st3 := rfl
    rw [hst3']
    have hidk3 : Aut.idk st3 = Aut.idk (new :: st1) := idk_map_retarget _ _ _
    have hmem3 : ∀ x, x ∈ st3 ↔ x = new ∨ ∃ y ∈ st1, retarget a.id f y = x := by
      intro x
      rw [hst3, List.mem_map]
      constructor
      · rintro ⟨y, hy, rfl⟩
        rcases List.mem_cons.1 hy with rfl | hy
        · exact Or.inl rfl
        · exact Or.inr ⟨y, hy, rfl⟩
      · rintro (rfl | ⟨y, hy, rfl⟩)
        · exact ⟨new, by simp, rfl⟩
        · exact ⟨y, List.mem_cons_of_mem _ hy, rfl⟩
    have hcore3 : Core W { c with strat := st3, clk := c.clk + 1 } := by
      refine ⟨?_, ?_, ?_, ?_, hstkN⟩
      · rw [ids_of_idk, hidk3, ← ids_of_idk]
        show (Aut.ids (new :: st1)).Nodup
        unfold Aut.ids
        rw [List.map_cons, List.nodup_cons]
        exact ⟨hfresh, hids1⟩
      · rw [keys_of_idk, hidk3, ← keys_of_idk]
        show ((new :: st1).map ANode.key).Nodup
        rw [List.map_cons, List.nodup_cons]
        refine ⟨?_, hkeys1⟩
        intro h
        rw [List.mem_map] at h
        obtain ⟨x, h1, h2⟩ := h
        exact hnone x h1 h2
      · intro x hx
        rcases (hmem3 x).1 hx with rfl | ⟨y, hy, rfl⟩
        · exact hsW
        · exact hwin y ((hmem1 y).1 hy).1
      · intro k hk
        obtain ⟨x, x1, x2⟩ := hstk1 k hk
        exact ⟨_, (hmem3 _).2 (Or.inr ⟨x, x1, rfl⟩), x2⟩
    have hgood3 : ∀ x ∈ st3, x.key ≠ (md, s) → Good G eg sg W hm st3 c.stack x := by
      intro x hx hne
      rcases (hmem3 x).1 hx with rfl | ⟨y, hy, rfl⟩
      · exact absurd rfl hne
      · refine Good.retarget hids ha1 ha2 ?_ ?_ hd1 hd2 hgoal (hg y ((hmem1 y).1 hy).1) (hkne y hy)
        · intro j k h hne
          rw [hidk3]
          unfold Aut.idk
          rw [List.map_cons]
          exact List.mem_cons_of_mem _ (hidk1 j k h hne)
        · rw [hidk3]
          exact mem_idk.2 ⟨new, by simp, rfl, rfl⟩
    rw [hj]
    obtain ⟨c', e1, e2, e3, e4, e5, e6⟩ := expandNode_ok (hm := hm) ho hmu hpre hL md s
      { c with strat := st3, clk := c.clk + 1 } new ((hmem3 new).2 (Or.inl rfl)) rfl rfl hcore3 hgood3
    refine ⟨c', e1, e2, e3, ⟨?_, ?_, ?_, ?_⟩⟩
    · intro nd h h'
      have hne : nd.id ≠ a.id := by
        intro hid
        rw [eq_of_id_eq hids h ha1 hid] at h'
        exact h' htr
      obtain ⟨x, x1, x2, _, x4⟩ := e4.1 (retarget a.id f nd) ((hmem3 _).2 (Or.inr ⟨nd, (hmem1 nd).2 ⟨h, hne⟩, rfl⟩))
      exact ⟨x, x1, x2, x4 (by simpa [retarget] using h')⟩
    · intro x hx hi
      obtain ⟨y, y1, y2, y3⟩ := e4.2 x hx hi
      rcases (hmem3 y).1 y1 with rfl | ⟨z, hz, rfl⟩
      · exact ⟨a, ha1, by
          have q1 : a.state = s := congrArg Prod.snd ha2
          have q2 : s = x.state := congrArg Prod.snd y2
          rw [q1, q2], y3⟩
      · exact ⟨z, ((hmem1 z).1 hz).1, congrArg Prod.snd y2, y3⟩
    · intro y hy
      by_cases hya : y.key = (lm, s)
      · right
        have hyeq : y = a := eq_of_key_eq hkeys hy ha1 (by rw [hya, ha2])
        obtain ⟨x, x1, x2, x3, _⟩ := e4.1 new ((hmem3 new).2 (Or.inl rfl))
        refine ⟨hya, md, hslm, hsmd, x, x1, x2, Or.inl ?_⟩
        rw [x3, hyeq]
      · obtain ⟨x, x1, x2, x3, _⟩ := e4.1 (retarget a.id f y)
          ((hmem3 _).2 (Or.inr ⟨y, (hmem1 y).2 ⟨hy, hidne y hy hya⟩, rfl⟩))
        exact Or.inl ⟨x, x1, x2, x3, fun h => absurd h hya⟩
    · rcases e6 with h | ⟨h1, h2⟩
      · exact Or.inl h
      · refine Or.inr ⟨(md, s), ?_, h1, h2⟩
        intro x hx hk
        exfalso
        refine hnone x ((hmem1 x).2 ⟨hx, hidne x hx ?_⟩) hk
        rw [hk]
        intro h
        exact hmd (congrArg Prod.fst h)
  | some nn =>
    obtain ⟨hn1, hn2⟩ := findAnode_some hf
    simp only
    rw [replaceAnodeTrans_some]
    set st3 : Aut (Fin n) (E × S) := st1.map (retarget a.id nn.id) with hst3
    have hst3' : (List.map (fun x : ANode (Fin n) (E × S) =>
        { x with trans := x.trans.map fun y => if y = a.id then nn.id else y }) st1) = st3 := rfl
    rw [hst3']
    have hidk3 : Aut.idk st3 = Aut.idk st1 := idk_map_retarget _ _ _
    have hmem3 : ∀ x, x ∈ st3 ↔ ∃ y ∈ st1, retarget a.id nn.id y = x := by
      intro x
      rw [hst3, List.mem_map]
    have hcore3 : Core W { c with strat := st3 } := by
      refine ⟨?_, ?_, ?_, ?_, hstkN⟩
      · rw [ids_of_idk, hidk3, ← ids_of_idk]
        exact hids1
      · rw [keys_of_idk, hidk3, ← keys_of_idk]
        exact hkeys1
      · intro x hx
        obtain ⟨y, hy, rfl⟩ := (hmem3 x).1 hx
        exact hwin y ((hmem1 y).1 hy).1
      · intro k hk
        obtain ⟨x, x1, x2⟩ := hstk1 k hk
        exact ⟨_, (hmem3 _).2 ⟨x, x1, rfl⟩, x2⟩
    have hgood3 : ∀ x ∈ st3, Good G eg sg W hm st3 c.stack x := by
      intro x hx
      obtain ⟨y, hy, rfl⟩ := (hmem3 x).1 hx
      refine Good.retarget hids ha1 ha2 ?_ ?_ hd1 hd2 hgoal (hg y ((hmem1 y).1 hy).1) (hkne y hy)
      · intro j k h hne
        rw [hidk3]
        exact hidk1 j k h hne
      · rw [hidk3]
        exact mem_idk.2 ⟨nn, hn1, rfl, hn2⟩
    have hkeep3 : ∀ nd ∈ c.strat, nd.trans ≠ [] → retarget a.id nn.id nd ∈ st3 := by
      intro nd h h'
      refine (hmem3 _).2 ⟨nd, (hmem1 nd).2 ⟨h, ?_⟩, rfl⟩
      intro hid
      rw [eq_of_id_eq hids h ha1 hid] at h'
      exact h' htr
    by_cases hnt : nn.trans ≠ []
    · rw [if_pos hnt]
      refine ⟨_, rfl, hcore3, hgood3, ⟨?_, ?_, ?_, Or.inl le_rfl⟩⟩
      · intro nd h h'
        exact ⟨_, hkeep3 nd h h', rfl, by simpa [retarget] using h'⟩
      · intro x hx hi
        obtain ⟨y, hy, rfl⟩ := (hmem3 x).1 hx
        exact ⟨y, ((hmem1 y).1 hy).1, rfl, hi⟩
      · intro y hy
        by_cases hya : y.key = (lm, s)
        · exact Or.inr ⟨hya, md, hslm, hsmd, _, (hmem3 _).2 ⟨nn, hn1, rfl⟩, hn2,
            Or.inr ⟨nn, ((hmem1 nn).1 hn1).1, hn2⟩⟩
        · exact Or.inl ⟨_, (hmem3 _).2 ⟨y, (hmem1 y).2 ⟨hy, hidne y hy hya⟩, rfl⟩, rfl, rfl,
            fun h => absurd h hya⟩
    · rw [if_neg hnt]
      simp only [ne_eq, not_not] at hnt
      rw [hj]
      obtain ⟨c', e1, e2, e3, e4, e5, e6⟩ := expandNode_ok (hm := hm) ho hmu hpre hL md s
        { c with strat := st3 } (retarget a.id nn.id nn) ((hmem3 _).2 ⟨nn, hn1, rfl⟩) hn2
        (by simp [retarget, hnt]) hcore3 (fun x hx _ => hgood3 x hx)
      refine ⟨c', e1, e2, e3, ⟨?_, ?_, ?_, ?_⟩⟩
      · intro nd h h'
        obtain ⟨x, x1, x2, _, x4⟩ := e4.1 _ (hkeep3 nd h h')
        exact ⟨x, x1, x2, x4 (by simpa [retarget] using h')⟩
      · intro x hx hi
        obtain ⟨y, y1, y2, y3⟩ := e4.2 x hx hi
        obtain ⟨z, hz, rfl⟩ := (hmem3 y).1 y1
        exact ⟨z, ((hmem1 z).1 hz).1, congrArg Prod.snd y2, y3⟩
      · intro y hy
        by_cases hya : y.key = (lm, s)
        · obtain ⟨x, x1, x2, _, _⟩ := e4.1 _ ((hmem3 _).2 ⟨nn, hn1, rfl⟩)
          exact Or.inr ⟨hya, md, hslm, hsmd, x, x1, x2.trans hn2, Or.inr ⟨nn, ((hmem1 nn).1 hn1).1, hn2⟩⟩
        · obtain ⟨x, x1, x2, x3, _⟩ := e4.1 (retarget a.id nn.id y)
            ((hmem3 _).2 ⟨y, (hmem1 y).2 ⟨hy, hidne y hy hya⟩, rfl⟩)
          exact Or.inl ⟨x, x1, x2, x3, fun h => absurd h hya⟩
      · rcases e6 with h | ⟨h1, h2⟩
        · exact Or.inl h
        · refine Or.inr ⟨(md, s), ?_, h1, h2⟩
          intro x hx hk
          have : x = nn := eq_of_key_eq hkeys hx ((hmem1 nn).1 hn1).1 (by rw [hk, hn2])
          rw [this, hnt]

/-- Number of (mode, state) pairs without outgoing edges so far. -/
def unexp (st : Aut (Fin n) (E × S)) : ℕ :=
  (Finset.univ.filter fun k : Fin n × (E × S) => ∀ x ∈ st, x.key = k → x.trans = []).card

theorem unexp_le (st : Aut (Fin n) (E × S)) : unexp st ≤ n * (Fintype.card E * Fintype.card S) := by
  unfold unexp
  refine (Finset.card_le_univ _).trans ?_
  simp [Fintype.card_prod]

theorem unexp_keep {st st' : Aut (Fin n) (E × S)} (h : Keep st st') :
    unexp st' ≤ unexp st := by
  unfold unexp
  apply Finset.card_le_card
  intro k hk'
  simp only [Finset.mem_filter, Finset.mem_univ, true_and] at hk' ⊢
  intro x hx hxk
  by_contra hne
  obtain ⟨x', h1, h2, h3⟩ := h x hx hne
  exact h3 (hk' x' h1 (by rw [h2, hxk]))

theorem unexp_lt {st st' : Aut (Fin n) (E × S)} (h : Keep st st') {k : Fin n × (E × S)}
    (h1 : ∀ x ∈ st, x.key = k → x.trans = []) (h2 : ∃ x ∈ st', x.key = k ∧ x.trans ≠ []) :
    unexp st' < unexp st := by
  unfold unexp
  apply Finset.card_lt_card
  rw [Finset.ssubset_iff_of_subset]
  · refine ⟨k, by simpa using h1, ?_⟩
    simp only [Finset.mem_filter, Finset.mem_univ, true_and]
    intro hcon
    obtain ⟨x, q1, q2, q3⟩ := h2
    exact q3 (hcon x q1 q2)
  · intro k hk'
    simp only [Finset.mem_filter, Finset.mem_univ, true_and] at hk' ⊢
    intro x hx hxk
    by_contra hne
    obtain ⟨x', h1, h2, h3⟩ := h x hx hne
    exact h3 (hk' x' h1 (by rw [h2, hxk]))

/-- The whole main loop, with a bound on the number of iterations and any property of the strategy
that iterations preserve. -/
theorem synthLoop_ok {o : Oracle E S} (ho : o.Valid G) {L : Fin n → List (Level E S m)}
    (hmu : ∀ i, muY G eg (sg i ∩ W) = W) (hpre : pre G W = W)
    (hL : ∀ i, shiftLevels (sg i ∩ W) (sublevels G eg (sg i ∩ W)) = some (L i))
    (P : SynCfg E S n → Prop)
    (hP : ∀ lm s c c', IterRel sg lm s c c' → P { c with stack := (lm, s) :: c.stack } → P c') :
    ∀ (fuel : ℕ) (c : SynCfg E S n), Core W c →
    (∀ x ∈ c.strat, Good G eg sg W hm c.strat c.stack x) → P c →
    unexp c.strat * (Fintype.card E + 1) + c.stack.length ≤ fuel →
    ∃ st, synthLoop G W o L (fun i => sg i ∩ W) fuel c = .ok st ∧ (Aut.ids st).Nodup ∧
      (st.map ANode.key).Nodup ∧ (∀ x ∈ st, x.state ∈ W) ∧
      (∀ x ∈ st, Good G eg sg W hm st [] x) ∧ (∃ k, P ⟨st, [], k⟩) := by
  intro fuel
  induction fuel with
  | zero =>
    intro c hc hg hp hf
    have hs : c.stack = [] := List.length_eq_zero_iff.1 (by omega)
    refine ⟨c.strat, ?_, hc.ids, hc.keys, hc.win, ?_, c.clk, by rw [← hs]; exact hp⟩
    · unfold synthLoop; rw [hs]
    · rw [← hs]; exact hg
  | succ fuel ih =>
    intro c hc hg hp hf
    cases hs : c.stack with
    | nil =>
      refine ⟨c.strat, ?_, hc.ids, hc.keys, hc.win, ?_, c.clk, by rw [← hs]; exact hp⟩
      · unfold synthLoop; rw [hs]
      · rw [← hs]; exact hg
    | cons k rest =>
      obtain ⟨lm, s⟩ := k
      have hcs : ({ c with stack := (lm, s) :: rest } : SynCfg E S n) = c := by rw [← hs]
      obtain ⟨c', e1, e2, e3, e4⟩ := synthIter_ok (hm := hm) ho hmu hpre hL lm s { c with stack := rest }
        (hcs.symm ▸ hc)
        (by rw [← hs]; exact hg)
      have hle : unexp c'.strat * (Fintype.card E + 1) + c'.stack.length ≤ fuel := by
        have h0 := unexp_keep e4.keep
        simp only at h0
        rw [hs, List.length_cons] at hf
        rcases e4.size with h | ⟨k, h1, h2, h3⟩
        · simp only at h
          have := Nat.mul_le_mul_right (Fintype.card E + 1) h0
          omega
        · have h4 := unexp_lt e4.keep h1 h2
          simp only at h3 h4
          have := Nat.mul_le_mul_right (Fintype.card E + 1) (Nat.succ_le_of_lt h4)
          rw [Nat.succ_mul] at this
          omega
      obtain ⟨st, q1, q2⟩ := ih c' e2 e3 (hP _ _ _ _ e4 (hcs.symm ▸ hp)) hle
      refine ⟨st, ?_, q2⟩
      unfold synthLoop
      rw [hs]
      simp only
      rw [e1]
      exact q1

/-! ## Initial nodes -/

theorem insertInitial_spec {o : Oracle E S} (ho : o.Valid G) (i0 : Fin n) : ∀ (ss : List (E × S)) (c : ℕ)
    (st : Aut (Fin n) (E × S)), ss.Nodup → (Aut.ids st).Nodup →
    (∀ s ∈ ss, ∀ x ∈ st, x.key ≠ (i0, s)) → (st.map ANode.key).Nodup →
    (Aut.ids (insertInitial o i0 c ss st)).Nodup ∧
    ((insertInitial o i0 c ss st).map ANode.key).Nodup ∧
    (∀ x, x ∈ insertInitial o i0 c ss st → x ∈ st ∨ (x.trans = [] ∧ x.initial = true ∧ x.mode = i0 ∧ x.state ∈ ss)) ∧
    (∀ x ∈ st, x ∈ insertInitial o i0 c ss st) ∧
    (∀ s ∈ ss, ∃ x ∈ insertInitial o i0 c ss st, x.key = (i0, s) ∧ x.initial = true) := by
  intro ss
  induction ss with
  | nil =>
    intro c st _ h1 _ h2
    exact ⟨h1, h2, fun x h => Or.inl h, fun x h => h, by simp⟩
  | cons s ss ih =>
    intro c st hnd h1 hk h2
    unfold insertInitial
    set new : ANode (Fin n) (E × S) :=
      { id := o.alloc c (st.map (·.id)), state := s, mode := i0, rgrad := -1, initial := true, trans := [] }
      with hnew
    have hins : insertAnode st (o.alloc c (st.map (·.id))) i0 (-1) true s = new :: st := rfl
    rw [hins]
    obtain ⟨hs, hnd'⟩ := List.nodup_cons.1 hnd
    obtain ⟨g1, g2, g3, g4, g5⟩ := ih (c + 1) (new :: st) hnd'
      (by unfold Aut.ids; rw [List.map_cons, List.nodup_cons]; exact ⟨ho.alloc _ _, h1⟩)
      (by
        intro s' hs' x hx
        rcases List.mem_cons.1 hx with rfl | hx
        · intro h
          have : s = s' := congrArg Prod.snd h
          exact hs (this ▸ hs')
        · exact hk s' (List.mem_cons_of_mem _ hs') x hx)
      (by
        rw [List.map_cons, List.nodup_cons]
        refine ⟨?_, h2⟩
        intro h
        obtain ⟨x, q1, q2⟩ := List.mem_map.1 h
        exact hk s (by simp) x q1 q2)
    refine ⟨g1, g2, ?_, fun x hx => g4 x (List.mem_cons_of_mem _ hx), ?_⟩
    · intro x hx
      rcases g3 x hx with h | ⟨q1, q2, q3, q4⟩
      · rcases List.mem_cons.1 h with rfl | h
        · exact Or.inr ⟨rfl, rfl, rfl, by simp [hnew]⟩
        · exact Or.inl h
      · exact Or.inr ⟨q1, q2, q3, List.mem_cons_of_mem _ q4⟩
    · intro s' hs'
      rcases List.mem_cons.1 hs' with rfl | hs'
      · exact ⟨new, g4 new (by simp), rfl, rfl⟩
      · exact g5 s' hs'


theorem synthLoop_fuel {o : Oracle E S} {L : Fin n → List (Level E S m)}
    {gw : Fin n → Finset (E × S)} : ∀ (fuel fuel' : ℕ) (c : SynCfg E S n) (st : Aut (Fin n) (E × S)),
    synthLoop G W o L gw fuel c = .ok st → fuel ≤ fuel' → synthLoop G W o L gw fuel' c = .ok st := by
  intro fuel
  induction fuel with
  | zero =>
    intro fuel' c st h _
    unfold synthLoop at h ⊢
    cases hs : c.stack with
    | nil => rw [hs] at h; exact h
    | cons k rest => rw [hs] at h; simp at h
  | succ fuel ih =>
    intro fuel' c st h hle
    obtain ⟨f', rfl⟩ : ∃ f', fuel' = f' + 1 := ⟨fuel' - 1, by omega⟩
    unfold synthLoop at h ⊢
    cases hs : c.stack with
    | nil => rw [hs] at h; exact h
    | cons k rest =>
      rw [hs] at h
      simp only at h ⊢
      cases hi : synthIter G W o L gw k.1 k.2 { c with stack := rest } with
      | ub => rw [hi] at h; simp at h
      | err => rw [hi] at h; simp at h
      | timeout => rw [hi] at h; simp at h
      | ok c' =>
        rw [hi] at h
        simp only at h ⊢
        exact ih f' c' st h (by omega)

/-! ## Initial states -/

theorem pickInit_spec {o : Oracle E S} (ho : o.Valid G) (sinit : Finset (E × S)) : ∀ (es : List E) (c : ℕ)
    (ss : List (E × S)), pickInit o W sinit c es = some ss →
    ss.map Prod.fst = es ∧ (∀ s ∈ ss, s ∈ W) ∧ (∀ s ∈ ss, ∃ e', (e', s.2) ∈ sinit) := by
  intro es
  induction es with
  | nil =>
    intro c ss h
    simp only [pickInit, Option.some.injEq] at h
    subst h
    simp
  | cons e es ih =>
    intro c ss h
    unfold pickInit at h
    simp only at h
    split at h
    · simp at h
    · rename_i hne
      cases hr : pickInit o W sinit (c + 1) es with
      | none => rw [hr] at h; simp at h
      | some ss' =>
        rw [hr] at h
        simp only [Option.map_some, Option.some.injEq] at h
        obtain ⟨h1, h2, h3⟩ := ih (c + 1) ss' hr
        have hp := ho.pick c _ (Finset.nonempty_iff_ne_empty.2 hne)
        set q := o.pick c (Finset.univ.filter fun t : E × S => (e, t.2) ∈ W ∧ t ∈ sinit)
        rw [Finset.mem_filter] at hp
        subst h
        refine ⟨by simp [h1], ?_, ?_⟩
        · intro s hs
          rcases List.mem_cons.1 hs with rfl | hs
          · exact hp.2.1
          · exact h2 s hs
        · intro s hs
          rcases List.mem_cons.1 hs with rfl | hs
          · exact ⟨q.1, hp.2.2⟩
          · exact h3 s hs

theorem pickInit_some {o : Oracle E S} (sinit : Finset (E × S)) : ∀ (es : List E) (c : ℕ),
    (∀ e ∈ es, ∃ t, (e, t.2) ∈ W ∧ t ∈ sinit) → ∃ ss, pickInit o W sinit c es = some ss := by
  intro es
  induction es with
  | nil => intro c _; exact ⟨[], rfl⟩
  | cons e es ih =>
    intro c h
    obtain ⟨ss, hss⟩ := ih (c + 1) fun e' he' => h e' (List.mem_cons_of_mem _ he')
    obtain ⟨t, ht⟩ := h e (by simp)
    have hne : (Finset.univ.filter fun t : E × S => (e, t.2) ∈ W ∧ t ∈ sinit) ≠ ∅ :=
      Finset.nonempty_iff_ne_empty.1 ⟨t, Finset.mem_filter.2 ⟨Finset.mem_univ _, ht⟩⟩
    unfold pickInit
    simp only
    rw [if_neg hne, hss]
    exact ⟨_, rfl⟩

theorem initStack_spec {o : Oracle E S} (ho : o.Valid G) {flag : InitFlag}
    {einit sinit : Option (Finset (E × S))} {W' : Finset (E × S)}
    (hr : checkRealizableInternal W flag einit sinit = some W')
    {ss : List (E × S)} (h : initStack o W flag einit sinit = some ss) :
    ss.Nodup ∧ ∀ s ∈ ss, s ∈ W := by
  cases flag with
  | undefined => simp [initStack] at h
  | allInit =>
    simp only [initStack, Option.some.injEq] at h
    subst h
    refine ⟨List.nodup_reverse.2 (ho.enum_nodup _), ?_⟩
    intro s hs
    rw [List.mem_reverse, ho.enum_mem] at hs
    simp only [checkRealizableInternal] at hr
    split at hr
    · simp at hr
    · rename_i hn
      push Not at hn
      rw [hn.2] at hs
      exact (Finset.mem_inter.1 hs).2
  | allEnvExistSys =>
    simp only [initStack] at h
    obtain ⟨h1, h2, _⟩ := pickInit_spec ho _ _ _ _ h
    refine ⟨?_, h2⟩
    have : (ss.map Prod.fst).Nodup := by rw [h1]; exact List.nodup_reverse.2 (ho.enumEnv_nodup _)
    exact this.of_map
  | oneSide =>
    cases sinit with
    | none =>
      simp only [initStack, Option.some.injEq] at h
      subst h
      refine ⟨List.nodup_reverse.2 (ho.enum_nodup _), ?_⟩
      intro s hs
      rw [List.mem_reverse, ho.enum_mem] at hs
      simp only [checkRealizableInternal] at hr
      split at hr
      · simp at hr
      · rename_i hn
        push Not at hn
        rw [← hn] at hs
        exact (Finset.mem_inter.1 hs).2
    | some A =>
      simp only [initStack] at h
      split at h
      · simp at h
      · rename_i hne
        simp only [Option.some.injEq] at h
        subst h
        refine ⟨by simp, ?_⟩
        intro s hs
        rw [List.mem_singleton] at hs
        subst hs
        exact (Finset.mem_inter.1 (ho.pick 0 _ (Finset.nonempty_iff_ne_empty.2 hne))).2

/-- The levels exist when the winning set is not empty. -/
theorem shift_isSome {goal : Finset (E × S)} (h : (muY G eg goal).Nonempty) :
    (shiftLevels goal (sublevels G eg goal)).isSome := by
  obtain ⟨s, hs⟩ := h
  have h1 := lev_lt_length hs
  have h2 := lev_pos hs
  match hK : sublevels G eg goal with
  | [] => rw [hK] at h1; simp at h1
  | [_] => rw [hK] at h1; simp at h1; omega
  | _ :: _ :: _ => rfl

end Inv

section Main
variable {G : Game E S} {egs sgs : List (Finset (E × S))}

theorem withDefaultGoal_pos (egs : List (Finset (E × S))) : 0 < (withDefaultGoal egs).length := by
  unfold withDefaultGoal
  split
  · simp
  · rename_i h; exact List.length_pos_iff.2 h

/-- Bound on the number of iterations of the main loop. -/
def iterBound (E S : Type) [Fintype E] [Fintype S] (n k : ℕ) : ℕ :=
  n * (Fintype.card E * Fintype.card S) * (Fintype.card E + 1) + k

/-- Everything known about a run of `synthesize` after a positive verdict. -/
theorem synthesize_run {o : Oracle E S} (ho : o.Valid G) {flag : InitFlag}
    {einit sinit : Option (Finset (E × S))} {W : Finset (E × S)} (hn : 0 < sgs.length)
    (hr : checkRealizable G egs sgs flag einit sinit = some (some W)) (hW : W.Nonempty)
    {ss : List (E × S)} (hss : initStack o W flag einit sinit = some ss)
    (P : SynCfg E S sgs.length → Prop)
    (hP : ∀ lm s c c', IterRel sgs.get lm s c c' → P { c with stack := (lm, s) :: c.stack } → P c')
    (hP0 : ∀ st k, (∀ x ∈ st, x.trans = [] ∧ x.initial = true ∧ x.mode = ⟨0, hn⟩ ∧ x.state ∈ ss) →
      (∀ s ∈ ss, ∃ x ∈ st, x.key = (⟨0, hn⟩, s) ∧ x.initial = true) →
      P ⟨st, ss.map fun s => (⟨0, hn⟩, s), k⟩)
    {fuel : ℕ} (hf : iterBound E S sgs.length ss.length ≤ fuel) :
    ∃ st, synthesize G egs sgs flag einit sinit o fuel = .ok st ∧ (Aut.ids st).Nodup ∧
      (st.map ANode.key).Nodup ∧ (∀ x ∈ st, x.state ∈ W) ∧
      (∀ x ∈ st, Good G (withDefaultGoal egs).get sgs.get W (withDefaultGoal_pos egs) st [] x) ∧
      (∃ k, P ⟨st, [], k⟩) := by
  have hm := withDefaultGoal_pos egs
  unfold checkRealizable at hr
  cases hcw : computeWinningSet G egs sgs with
  | none => rw [hcw] at hr; simp at hr
  | some W0 =>
    rw [hcw] at hr
    simp only [Option.map_some, Option.some.injEq] at hr
    have hW0 : W0 = W := by
      cases flag <;> simp only [checkRealizableInternal] at hr
      · simp at hr
      · split at hr <;> simp_all
      · split at hr <;> simp_all
      · cases sinit <;> simp only at hr <;> split at hr <;> simp_all
    subst hW0
    have hwin : winningSet G (withDefaultGoal egs).get sgs.get = some W0 := hcw
    have hmu := muY_goal_W hm hn hwin
    have hpre := pre_winningSet hm hn hwin
    have hsome : ∀ i, (shiftLevels (sgs.get i ∩ W0)
        (sublevels G (withDefaultGoal egs).get (sgs.get i ∩ W0))).isSome := fun i =>
      shift_isSome (by rw [hmu i]; exact hW)
    obtain ⟨hnd, hinW⟩ := initStack_spec ho hr hss
    unfold synthesize
    rw [hcw]
    simp only [computeSublevels, if_pos hn, dif_pos hn]
    rw [if_pos hsome, hss]
    simp only
    obtain ⟨g1, g2, g3, g4, g5⟩ := insertInitial_spec ho (⟨0, hn⟩ : Fin sgs.length) ss 0 [] hnd (by simp [Aut.ids])
      (by simp) (by simp)
    have g3' : ∀ x ∈ insertInitial o (⟨0, hn⟩ : Fin sgs.length) 0 ss [],
        x.trans = [] ∧ x.initial = true ∧ x.mode = ⟨0, hn⟩ ∧ x.state ∈ ss := by
      intro x hx
      rcases g3 x hx with h | h
      · simp at h
      · exact h
    have hL : ∀ i, shiftLevels (sgs.get i ∩ W0) (sublevels G (withDefaultGoal egs).get (sgs.get i ∩ W0)) =
        some ((shiftLevels (sgs.get i ∩ W0)
          (sublevels G (withDefaultGoal egs).get (sgs.get i ∩ W0))).getD []) := by
      intro i
      obtain ⟨l, hl⟩ := Option.isSome_iff_exists.1 (hsome i)
      rw [hl]; rfl
    refine synthLoop_ok (hm := hm) ho hmu hpre hL P hP fuel _ ⟨g1, g2, ?_, ?_, ?_⟩ ?_ ?_ ?_
    · intro x hx
      exact hinW _ (g3' x hx).2.2.2
    · intro k hk
      obtain ⟨s, hs, rfl⟩ := List.mem_map.1 hk
      obtain ⟨x, x1, x2, _⟩ := g5 s hs
      exact ⟨x, x1, x2⟩
    · refine hnd.map ?_
      intro a b hab
      exact congrArg Prod.snd hab
    · intro x hx
      obtain ⟨q1, q2, q3, q4⟩ := g3' x hx
      refine Or.inl ⟨q1, List.mem_map.2 ⟨x.state, q4, ?_⟩⟩
      unfold ANode.key
      rw [q3]
    · exact hP0 _ _ g3' g5
    · have := Nat.mul_le_mul_right (Fintype.card E + 1)
        (unexp_le (insertInitial o (⟨0, hn⟩ : Fin sgs.length) 0 ss []))
      unfold iterBound at hf
      simp only [List.length_map]
      omega

theorem shift_nonempty {m : ℕ} {eg : Fin m → Finset (E × S)} {goal : Finset (E × S)}
    (h : (shiftLevels goal (sublevels G eg goal)).isSome) : (muY G eg goal).Nonempty := by
  have hlen : 0 + 1 < (sublevels G eg goal).length := by
    match hK : sublevels G eg goal with
    | [] => rw [hK] at h; simp [shiftLevels] at h
    | [_] => rw [hK] at h; simp [shiftLevels] at h
    | _ :: _ :: _ => simp
  have h1 := sublevels_strict G eg goal 0 hlen
  rw [ylev_zero] at h1
  obtain ⟨s, hs, _⟩ := Finset.exists_of_ssubset h1
  exact ⟨s, ylev_subset_muY G eg goal 1 hs⟩

/-- A successful run does not depend on the fuel. -/
theorem synthesize_fuel {o : Oracle E S} {flag : InitFlag} {einit sinit : Option (Finset (E × S))}
    {fuel fuel' : ℕ} {st : Aut (Fin sgs.length) (E × S)}
    (h : synthesize G egs sgs flag einit sinit o fuel = .ok st) (hle : fuel ≤ fuel') :
    synthesize G egs sgs flag einit sinit o fuel' = .ok st := by
  unfold synthesize at h ⊢
  cases hcw : computeWinningSet G egs sgs with
  | none => rw [hcw] at h; simp at h
  | some W =>
    rw [hcw] at h
    simp only at h ⊢
    by_cases hn : 0 < sgs.length
    · simp only [computeSublevels, if_pos hn, dif_pos hn] at h ⊢
      by_cases hs : ∀ i, (shiftLevels (sgs.get i ∩ W) (sublevels G (withDefaultGoal egs).get (sgs.get i ∩ W))).isSome
      · rw [if_pos hs] at h ⊢
        cases hi : initStack o W flag einit sinit with
        | none => rw [hi] at h; simp at h
        | some ss =>
          rw [hi] at h
          exact synthLoop_fuel _ _ _ _ h hle
      · rw [if_neg hs] at h; simp at h
    · simp only [computeSublevels, if_neg hn] at h
      simp at h

/-- What a successful run tells about the winning set and the initial stack. -/
theorem synthesize_ok_inv {o : Oracle E S} {flag : InitFlag} {einit sinit : Option (Finset (E × S))}
    {fuel : ℕ} {st : Aut (Fin sgs.length) (E × S)} {W : Finset (E × S)}
    (hcw : computeWinningSet G egs sgs = some W)
    (h : synthesize G egs sgs flag einit sinit o fuel = .ok st) :
    0 < sgs.length ∧ (∃ ss, initStack o W flag einit sinit = some ss) ∧
    ∀ i, (shiftLevels (sgs.get i ∩ W) (sublevels G (withDefaultGoal egs).get (sgs.get i ∩ W))).isSome := by
  unfold synthesize at h
  rw [hcw] at h
  simp only at h
  by_cases hn : 0 < sgs.length
  · simp only [computeSublevels, if_pos hn, dif_pos hn] at h
    by_cases hs : ∀ i, (shiftLevels (sgs.get i ∩ W) (sublevels G (withDefaultGoal egs).get (sgs.get i ∩ W))).isSome
    · rw [if_pos hs] at h
      cases hi : initStack o W flag einit sinit with
      | none => rw [hi] at h; simp at h
      | some ss => exact ⟨hn, ⟨ss, rfl⟩, hs⟩
    · rw [if_neg hs] at h; simp at h
  · simp only [computeSublevels, if_neg hn] at h
    simp at h

end Main

end Gr1c
