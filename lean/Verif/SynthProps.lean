import Verif.SynthInv
import Verif.RealizableProps

/-!
# C04 - C07: properties of the synthesized automaton
-/

namespace Gr1c

set_option linter.unusedSectionVars false

variable {E S : Type} [Fintype E] [DecidableEq E] [Fintype S] [DecidableEq S]
  {G : Game E S} {egs sgs : List (Finset (E × S))} {flag : InitFlag}
  {einit sinit : Option (Finset (E × S))} {o : Oracle E S} {W : Finset (E × S)}

private theorem verdict_W (hr : checkRealizable G egs sgs flag einit sinit = some (some W)) :
    computeWinningSet G egs sgs = some W := by
  unfold checkRealizable at hr
  cases hcw : computeWinningSet G egs sgs with
  | none => rw [hcw] at hr; simp at hr
  | some W0 =>
    rw [hcw] at hr
    simp only [Option.map_some, Option.some.injEq] at hr
    cases flag <;> simp only [checkRealizableInternal] at hr
    · simp at hr
    · split at hr <;> simp_all
    · split at hr <;> simp_all
    · cases sinit <;> simp only at hr <;> split at hr <;> simp_all

/-- Facts about any successful run, for a preserved property `P`. -/
private theorem run_facts (ho : o.Valid G)
    (hr : checkRealizable G egs sgs flag einit sinit = some (some W)) {fuel : ℕ}
    {st : Aut (Fin sgs.length) (E × S)} (h : synthesize G egs sgs flag einit sinit o fuel = .ok st) :
    ∃ (hn : 0 < sgs.length) (ss : List (E × S)), initStack o W flag einit sinit = some ss ∧
      (Aut.ids st).Nodup ∧ (st.map ANode.key).Nodup ∧ (∀ x ∈ st, x.state ∈ W) ∧
      (∀ x ∈ st, Good G (withDefaultGoal egs).get sgs.get W (withDefaultGoal_pos egs) st [] x) ∧
      ∀ P : SynCfg E S sgs.length → Prop,
        (∀ lm s c c', IterRel sgs.get lm s c c' → P { c with stack := (lm, s) :: c.stack } → P c') →
        (∀ st k, (∀ x ∈ st, x.trans = [] ∧ x.initial = true ∧ x.mode = ⟨0, hn⟩ ∧ x.state ∈ ss) →
          (∀ s ∈ ss, ∃ x ∈ st, x.key = (⟨0, hn⟩, s) ∧ x.initial = true) →
          P ⟨st, ss.map fun s => (⟨0, hn⟩, s), k⟩) → ∃ k, P ⟨st, [], k⟩ := by
  have hcw := verdict_W hr
  obtain ⟨hn, ⟨ss, hss⟩, hsome⟩ := synthesize_ok_inv hcw h
  have hwin : winningSet G (withDefaultGoal egs).get sgs.get = some W := hcw
  have hW : W.Nonempty := by
    have := shift_nonempty (hsome ⟨0, hn⟩)
    rwa [muY_goal_W (withDefaultGoal_pos egs) hn hwin] at this
  have key : ∀ P : SynCfg E S sgs.length → Prop,
      (∀ lm s c c', IterRel sgs.get lm s c c' → P { c with stack := (lm, s) :: c.stack } → P c') →
      (∀ st k, (∀ x ∈ st, x.trans = [] ∧ x.initial = true ∧ x.mode = ⟨0, hn⟩ ∧ x.state ∈ ss) →
        (∀ s ∈ ss, ∃ x ∈ st, x.key = (⟨0, hn⟩, s) ∧ x.initial = true) →
        P ⟨st, ss.map fun s => (⟨0, hn⟩, s), k⟩) → (Aut.ids st).Nodup ∧
      (st.map ANode.key).Nodup ∧ (∀ x ∈ st, x.state ∈ W) ∧
      (∀ x ∈ st, Good G (withDefaultGoal egs).get sgs.get W (withDefaultGoal_pos egs) st [] x) ∧
      (∃ k, P ⟨st, [], k⟩) := by
    intro P hP hP0
    obtain ⟨st', h1, h2⟩ := synthesize_run ho hn hr hW hss P hP hP0
      (fuel := max fuel (iterBound E S sgs.length ss.length)) (le_max_right _ _)
    have h3 := synthesize_fuel h (le_max_left fuel (iterBound E S sgs.length ss.length))
    rw [h3] at h1
    cases h1
    exact h2
  obtain ⟨a, b, c, d, _⟩ := key (fun _ => True) (fun _ _ _ _ _ _ => trivial) (fun _ _ _ _ => trivial)
  exact ⟨hn, ss, hss, a, b, c, d, fun P hP hP0 => (key P hP hP0).2.2.2.2⟩

/-! ## C04 -/

/-- **C04.** After a positive verdict, in the automaton returned by `synthesize` node addresses are
distinct, no (mode, state) pair occurs twice, and every node has a winning state, only edges to
existing nodes, only legal edges, and exactly one edge for every legal environment move. Holds for
every behaviour of the allocator, every choice of cubes and every order of moves. -/
theorem synthesize_answers (ho : o.Valid G)
    (hr : checkRealizable G egs sgs flag einit sinit = some (some W)) {fuel : ℕ}
    {st : Aut (Fin sgs.length) (E × S)} (h : synthesize G egs sgs flag einit sinit o fuel = .ok st) :
    (st.map (·.id)).Nodup ∧ (st.map fun x => (x.mode, x.state)).Nodup ∧
    ∀ x ∈ st, Winnable G egs sgs x.state ∧ x.trans.Nodup ∧
      (∀ j ∈ x.trans, ∃ y ∈ st, y.id = j) ∧
      (∀ y ∈ st, y.id ∈ x.trans → G.etr x.state y.state.1 = true ∧ G.str x.state y.state = true) ∧
      (∀ e, G.etr x.state e = true → ∃! y, y ∈ st ∧ y.id ∈ x.trans ∧ y.state.1 = e) := by
  obtain ⟨hn, ss, _, h1, h2, h3, h4, _⟩ := run_facts ho hr h
  refine ⟨h1, h2, ?_⟩
  intro x hx
  have hwinn := (winning_set_exact G egs sgs W (verdict_W hr) x.state).1 (h3 x hx)
  rcases h4 x hx with ⟨_, hbad⟩ | ⟨es, ⟨es1, es2⟩, hE⟩
  · simp at hbad
  unfold EdgesOk at hE
  -- the edge of an address
  have hfst : ∀ {e : E} {j : ℕ} {y : ANode (Fin sgs.length) (E × S)}, y ∈ st → y.id = j →
      (∃ k', (j, k') ∈ Aut.idk st ∧ EdgeOk G (withDefaultGoal egs).get sgs.get W
        (withDefaultGoal_pos egs) x.key e k') → y.state.1 = e ∧ G.str x.state y.state = true := by
    rintro e j y hy rfl ⟨k', q1, q2, q3, _⟩
    have : k' = y.key := idk_unique h1 q1 (mem_idk.2 ⟨y, hy, rfl, rfl⟩)
    rw [this] at q2 q3
    exact ⟨q2, q3⟩
  have hsome : ∀ {e : E} {j : ℕ}, (∃ k', (j, k') ∈ Aut.idk st ∧ EdgeOk G (withDefaultGoal egs).get sgs.get W
        (withDefaultGoal_pos egs) x.key e k') → ∃ y ∈ st, y.id = j := by
    rintro e j ⟨k', q1, _⟩
    obtain ⟨y, y1, y2, _⟩ := mem_idk.1 q1
    exact ⟨y, y1, y2⟩
  have hlen := hE.length_eq
  have hget := List.forall₂_iff_get.1 hE
  have hedge : ∀ j ∈ x.trans, ∃ i, ∃ (hi : i < es.length) (hi' : i < x.trans.length), x.trans[i] = j := by
    intro j hj
    obtain ⟨i, hi, rfl⟩ := List.getElem_of_mem hj
    exact ⟨i, by omega, hi, rfl⟩
  refine ⟨hwinn, ?_, ?_, ?_, ?_⟩
  · rw [List.nodup_iff_injective_get]
    intro a b hab
    have ha := hget.2 a.val (by omega) a.isLt
    have hb := hget.2 b.val (by omega) b.isLt
    obtain ⟨y, y1, y2⟩ := hsome ha
    have e1 := (hfst y1 y2 ha).1
    have e2 := (hfst y1 (by rw [y2]; exact hab) hb).1
    have := (List.nodup_iff_injective_get.1 es1) (a₁ := ⟨a.val, by omega⟩) (a₂ := ⟨b.val, by omega⟩)
      (by rw [← e1, ← e2])
    exact Fin.ext (Fin.mk.inj_iff.1 this)
  · intro j hj
    obtain ⟨i, hi, hi', rfl⟩ := hedge j hj
    exact hsome (hget.2 i hi hi')
  · intro y hy hj
    obtain ⟨i, hi, hi', hij⟩ := hedge _ hj
    obtain ⟨q1, q2⟩ := hfst hy hij.symm (hget.2 i hi hi')
    refine ⟨?_, q2⟩
    rw [q1]
    exact (es2 _).1 (List.get_mem _ _)
  · intro e he
    obtain ⟨i, hi, rfl⟩ := List.getElem_of_mem ((es2 e).2 he)
    have hi' : i < x.trans.length := by omega
    obtain ⟨y, y1, y2⟩ := hsome (hget.2 i hi hi')
    have q1 := (hfst y1 y2 (hget.2 i hi hi')).1
    refine ⟨y, ⟨y1, ?_, q1⟩, ?_⟩
    · rw [y2]; exact List.get_mem _ _
    · rintro y' ⟨z1, z2, z3⟩
      obtain ⟨i2, hi2, hi2', hij⟩ := hedge _ z2
      have q2 := (hfst z1 hij.symm (hget.2 i2 hi2 hi2')).1
      have : (⟨i2, hi2⟩ : Fin es.length) = ⟨i, hi⟩ :=
        (List.nodup_iff_injective_get.1 es1) (by rw [← q2, z3]; rfl)
      have hii : i2 = i := congrArg Fin.val this
      subst hii
      exact eq_of_id_eq h1 z1 y1 (by rw [← hij, y2]; rfl)

/-- Goals are sought in order: along every edge of the automaton the mode moves on zero or more times,
each time over a system goal that the target state satisfies. -/
theorem synthesize_in_order (ho : o.Valid G)
    (hr : checkRealizable G egs sgs flag einit sinit = some (some W)) {fuel : ℕ}
    {st : Aut (Fin sgs.length) (E × S)} (h : synthesize G egs sgs flag einit sinit o fuel = .ok st)
    {x y : ANode (Fin sgs.length) (E × S)} (hx : x ∈ st) (hy : y ∈ st) (he : y.id ∈ x.trans) :
    ∃ k, (nextIx^[k]) x.mode = y.mode ∧ ∀ c, c < k → y.state ∈ sgs.get ((nextIx^[c]) x.mode) := by
  obtain ⟨hn, ss, _, h1, h2, h3, h4, _⟩ := run_facts ho hr h
  rcases h4 x hx with ⟨_, hbad⟩ | ⟨es, _, hE⟩
  · simp at hbad
  unfold EdgesOk at hE
  obtain ⟨i, hi, hij⟩ := List.getElem_of_mem he
  obtain ⟨k', q1, q2, q3, q4⟩ := (List.forall₂_iff_get.1 hE).2 i (by rw [hE.length_eq]; exact hi) hi
  have hk' : k' = y.key := idk_unique h1 q1 (mem_idk.2 ⟨y, hy, hij.symm, rfl⟩)
  rw [hk'] at q4
  rcases q4 with ⟨-, k, -, hk1, hk2⟩ | ⟨-, hmode, -⟩
  · exact ⟨k, hk1, hk2⟩
  · exact ⟨0, hmode.symm, by simp⟩

/-! ## C05 -/

/-- **C05.** Every infinite run of the automaton, from any node, satisfies the liveness part of the
specification: if each environment goal holds infinitely often, so does each system goal. -/
theorem synthesize_live (ho : o.Valid G)
    (hr : checkRealizable G egs sgs flag einit sinit = some (some W)) {fuel : ℕ}
    {st : Aut (Fin sgs.length) (E × S)} (h : synthesize G egs sgs flag einit sinit o fuel = .ok st)
    (ρ : ℕ → ANode (Fin sgs.length) (E × S)) (hρ : ∀ k, ρ k ∈ st ∧ (ρ (k + 1)).id ∈ (ρ k).trans)
    (henv : ∀ A ∈ egs, InfOften (fun k => (ρ k).state) A) :
    ∀ B ∈ sgs, InfOften (fun k => (ρ k).state) B := by
  obtain ⟨hn, ss, _, h1, h2, h3, h4, _⟩ := run_facts ho hr h
  have hlive := live_of_ranked (withDefaultGoal egs).get sgs.get (withDefaultGoal_pos egs)
    (fun i => rank G (withDefaultGoal egs).get (sgs.get i ∩ W)) (fun k => (ρ k).mode)
    (fun k => (ρ k).state) (by
      intro k
      rcases h4 (ρ k) (hρ k).1 with ⟨_, hbad⟩ | ⟨es, _, hE⟩
      · simp at hbad
      unfold EdgesOk at hE
      obtain ⟨i, hi, hij⟩ := List.getElem_of_mem (hρ k).2
      have hq := (List.forall₂_iff_get.1 hE).2 i (by rw [hE.length_eq]; exact hi) hi
      obtain ⟨k', q1, q2, q3, q4⟩ := hq
      have hk' : k' = (ρ (k + 1)).key := idk_unique h1 q1 (mem_idk.2 ⟨_, (hρ (k + 1)).1, hij.symm, rfl⟩)
      rw [hk'] at q4
      exact q4)
  have henv' : ∀ j, InfOften (fun k => (ρ k).state) ((withDefaultGoal egs).get j) := by
    intro j
    have hj := List.get_mem (withDefaultGoal egs) j
    by_cases he : egs = []
    · have : (withDefaultGoal egs) = [Finset.univ] := by rw [withDefaultGoal, if_pos he]
      have hall : ∀ A ∈ withDefaultGoal egs, A = Finset.univ := by rw [this]; simp
      have hj2 := hall _ hj
      intro N
      exact ⟨N, le_rfl, by rw [hj2]; exact Finset.mem_univ _⟩
    · have : (withDefaultGoal egs) = egs := by rw [withDefaultGoal, if_neg he]
      have hall : ∀ A ∈ withDefaultGoal egs, A ∈ egs := by rw [this]; simp
      exact henv _ (hall _ hj)
  intro B hB
  obtain ⟨i, rfl⟩ := List.get_of_mem hB
  exact hlive henv' i

/-! ## C06 -/

/-- Which initial nodes each interpretation of the initial formulas asks for
(`/repo/doc/spc_format.md` 61-77); `I s`: there is an initial node with state `s`. -/
def InitRequired (flag : InitFlag) (einit sinit : Option (Finset (E × S))) (I : E × S → Prop) : Prop :=
  match flag with
  | .allInit => ∀ s, s ∈ initSet einit → s ∈ initSet sinit → I s
  | .allEnvExistSys => ∀ e, (∃ x, (e, x) ∈ initSet einit) → ∃ x, (e, x) ∈ initSet sinit ∧ I (e, x)
  | .oneSide =>
    match sinit with
    | none => ∀ s, s ∈ initSet einit → I s
    | some A => ∃ s, s ∈ A ∧ I s
  | .undefined => True

/-- A state allowed as initial by the formulas. -/
def InitAllowed (flag : InitFlag) (einit sinit : Option (Finset (E × S))) (s : E × S) : Prop :=
  match flag with
  | .allInit => s ∈ initSet einit ∧ s ∈ initSet sinit
  | .allEnvExistSys => s ∈ initSet einit ∧ s ∈ initSet sinit
  | .oneSide =>
    match sinit with
    | none => s ∈ initSet einit
    | some A => s ∈ A
  | .undefined => True

theorem stack_required (ho : o.Valid G) (hok : InitOk flag einit sinit) {ss : List (E × S)}
    (hss : initStack o W flag einit sinit = some ss) :
    (∀ s ∈ ss, InitAllowed flag einit sinit s) ∧
    ∀ I : E × S → Prop, (∀ s ∈ ss, I s) → InitRequired flag einit sinit I := by
  cases flag with
  | undefined => simp [initStack] at hss
  | allInit =>
    simp only [initStack, Option.some.injEq] at hss
    subst hss
    refine ⟨fun s hs => ?_, fun I hI s h1 h2 => hI s ?_⟩
    · rw [List.mem_reverse, ho.enum_mem] at hs
      exact Finset.mem_inter.1 hs
    · rw [List.mem_reverse, ho.enum_mem]
      exact Finset.mem_inter.2 ⟨h1, h2⟩
  | allEnvExistSys =>
    simp only [initStack] at hss
    obtain ⟨h1, h2, h3⟩ := pickInit_spec ho _ _ _ _ hss
    obtain ⟨k1, k2, _⟩ := hok
    have hsin : ∀ s ∈ ss, s ∈ initSet sinit := by
      intro s hs
      obtain ⟨e', he'⟩ := h3 s hs
      exact k2 e' s.1 s.2 he'
    refine ⟨fun s hs => ⟨?_, hsin s hs⟩, fun I hI e he => ?_⟩
    · have : s.1 ∈ ss.map Prod.fst := List.mem_map.2 ⟨s, hs, rfl⟩
      rw [h1, List.mem_reverse, ho.enumEnv_mem] at this
      obtain ⟨x, hx⟩ := this
      exact k1 s.1 x s.2 hx
    · have : e ∈ ss.map Prod.fst := by
        rw [h1, List.mem_reverse, ho.enumEnv_mem]; exact he
      obtain ⟨s, hs, rfl⟩ := List.mem_map.1 this
      exact ⟨s.2, hsin s hs, hI s hs⟩
  | oneSide =>
    cases sinit with
    | none =>
      simp only [initStack, Option.some.injEq] at hss
      subst hss
      refine ⟨fun s hs => ?_, fun I hI s h1 => hI s ?_⟩
      · rw [List.mem_reverse, ho.enum_mem] at hs
        exact hs
      · rw [List.mem_reverse, ho.enum_mem]
        exact h1
    | some A =>
      simp only [initStack] at hss
      split at hss
      · simp at hss
      · rename_i hne
        simp only [Option.some.injEq] at hss
        subst hss
        have hp := (Finset.mem_inter.1 (ho.pick 0 _ (Finset.nonempty_iff_ne_empty.2 hne))).1
        refine ⟨fun s hs => ?_, fun I hI => ⟨_, hp, hI _ (by simp)⟩⟩
        rw [List.mem_singleton] at hs
        subst hs
        exact hp

/-- Nodes marked initial have a state the initial formulas allow, and every initial state that the
interpretation asks for is the state of some node (not necessarily marked initial). -/
theorem synthesize_initial_states (ho : o.Valid G) (hok : InitOk flag einit sinit)
    (hr : checkRealizable G egs sgs flag einit sinit = some (some W)) {fuel : ℕ}
    {st : Aut (Fin sgs.length) (E × S)} (h : synthesize G egs sgs flag einit sinit o fuel = .ok st) :
    (∀ x ∈ st, x.initial = true → InitAllowed flag einit sinit x.state) ∧
    InitRequired flag einit sinit (fun s => ∃ x ∈ st, x.state = s) := by
  obtain ⟨hn, ss, hss, _, _, _, _, hP⟩ := run_facts ho hr h
  obtain ⟨q1, q2⟩ := stack_required ho hok hss
  obtain ⟨_, p⟩ := hP (fun c => (∀ x ∈ c.strat, x.initial = true → x.state ∈ ss) ∧
      ∀ s ∈ ss, ∃ x ∈ c.strat, x.state = s)
    (by
      rintro lm s c c' hrel ⟨a, b⟩
      refine ⟨fun x hx hi => ?_, fun s' hs' => ?_⟩
      · obtain ⟨y, y1, y2, y3⟩ := hrel.init x hx hi
        rw [← y2]; exact a y y1 y3
      · obtain ⟨y, y1, y2⟩ := b s' hs'
        rcases hrel.fate y y1 with ⟨x, x1, x2, _⟩ | ⟨k1, md, _, _, x, x1, x2, _⟩
        · exact ⟨x, x1, (congrArg Prod.snd x2).trans y2⟩
        · exact ⟨x, x1, ((congrArg Prod.snd x2).trans (congrArg Prod.snd k1).symm).trans y2⟩)
    (by
      intro st k h1 h2
      refine ⟨fun x hx _ => (h1 x hx).2.2.2, fun s hs => ?_⟩
      obtain ⟨x, x1, x2, _⟩ := h2 s hs
      exact ⟨x, x1, congrArg Prod.snd x2⟩)
  exact ⟨fun x hx hi => q1 _ (p.1 x hx hi), q2 _ p.2⟩

/-- **C06.** Some node is marked initial, whatever the number of goals: the first state that is taken from the stack
keeps its mark. -/
theorem synthesize_some_initial (ho : o.Valid G)
    (hr : checkRealizable G egs sgs flag einit sinit = some (some W)) {fuel : ℕ}
    {st : Aut (Fin sgs.length) (E × S)} (h : synthesize G egs sgs flag einit sinit o fuel = .ok st) (hne : st ≠ []) :
    ∃ x ∈ st, x.initial = true := by
  obtain ⟨hn, ss, hss, _, _, _, _, hP⟩ := run_facts ho hr h
  obtain ⟨_, p⟩ := hP (fun c => (c.strat = [] ∧ c.stack = []) ∨
      (∃ x ∈ c.strat, x.initial = true ∧ (x.state ∉ sgs.get x.mode ∨ ∀ k, x.state ∈ sgs.get k)) ∨
      (c.stack ≠ [] ∧ (∀ x ∈ c.strat, x.trans = [] ∧ x.initial = true ∧ x.mode = ⟨0, hn⟩) ∧
        ∀ k ∈ c.stack, ∃ x ∈ c.strat, x.key = k))
    (by
      rintro lm s c c' hrel (⟨-, h0⟩ | ⟨y, y1, y2, y4⟩ | ⟨-, h1, h2⟩)
      · simp at h0
      · right; left
        rcases hrel.fate y y1 with ⟨x, x1, x2, x3, _⟩ | ⟨k1, md, g1, g2, _⟩
        · refine ⟨x, x1, by rw [x3, y2], ?_⟩
          have e1 : x.mode = y.mode := congrArg Prod.fst x2
          have e2 : x.state = y.state := congrArg Prod.snd x2
          rw [e1, e2]; exact y4
        · exfalso
          have e1 : y.mode = lm := congrArg Prod.fst k1
          have e2 : y.state = s := congrArg Prod.snd k1
          rw [e1, e2] at y4
          rcases y4 with h | h
          · exact h g1
          · exact g2 (h md)
      · right; left
        obtain ⟨y, y1, y2⟩ := h2 (lm, s) (List.mem_cons_self ..)
        obtain ⟨i1, i2, i3⟩ := h1 y y1
        have e1 : y.mode = lm := congrArg Prod.fst y2
        have e2 : y.state = s := congrArg Prod.snd y2
        rcases hrel.fate y y1 with ⟨x, x1, x2, x3, x4⟩ | ⟨k1, md, g1, g2, x, x1, x2, x3⟩
        · refine ⟨x, x1, by rw [x3, i2], ?_⟩
          have d1 : x.mode = lm := (congrArg Prod.fst x2).trans e1
          have d2 : x.state = s := (congrArg Prod.snd x2).trans e2
          rw [d1, d2]; exact x4 y2 i1
        · have d1 : x.mode = md := congrArg Prod.fst x2
          have d2 : x.state = s := congrArg Prod.snd x2
          refine ⟨x, x1, ?_, Or.inl (by rw [d1, d2]; exact g2)⟩
          rcases x3 with x3 | ⟨z, z1, z2⟩
          · rw [x3, i2]
          · exfalso
            have f1 : z.mode = md := congrArg Prod.fst z2
            rw [(h1 z z1).2.2, ← i3, e1] at f1
            rw [f1] at g1
            exact g2 g1)
    (by
      intro st k h1 h2
      by_cases h0 : ss = []
      · left
        refine ⟨List.eq_nil_iff_forall_not_mem.2 fun x hx => ?_, by simp [h0]⟩
        have := (h1 x hx).2.2.2
        rw [h0] at this
        simp at this
      · right; right
        refine ⟨by simpa using h0, fun x hx => ⟨(h1 x hx).1, (h1 x hx).2.1, (h1 x hx).2.2.1⟩, ?_⟩
        intro k hk
        obtain ⟨s, hs, rfl⟩ := List.mem_map.1 hk
        obtain ⟨x, x1, x2, -⟩ := h2 s hs
        exact ⟨x, x1, x2⟩)
  rcases p with ⟨p, -⟩ | ⟨x, x1, x2, -⟩ | ⟨p, -⟩
  · exact absurd p hne
  · exact ⟨x, x1, x2⟩
  · exact absurd rfl p

/-- **C06, partial.** Every initial state that the interpretation asks for has a node marked
initial, provided each allowed initial state that satisfies the first system goal satisfies all of
them (in particular whenever there is only one system goal), or a single initial state is picked
(ONE_SIDE_INIT with SYSINIT). Missing from the full statement: several system goals without that
proviso, where it is false, see `synthesize_initial_lost`. -/
theorem synthesize_initial_partial (ho : o.Valid G) (hok : InitOk flag einit sinit)
    (hr : checkRealizable G egs sgs flag einit sinit = some (some W)) {fuel : ℕ}
    {st : Aut (Fin sgs.length) (E × S)} (h : synthesize G egs sgs flag einit sinit o fuel = .ok st)
    (hset : (∀ s, InitAllowed flag einit sinit s → ∀ B, sgs.head? = some B → s ∈ B → ∀ B' ∈ sgs, s ∈ B') ∨
      (flag = .oneSide ∧ sinit ≠ none)) :
    InitRequired flag einit sinit (fun s => ∃ x ∈ st, x.state = s ∧ x.initial = true) := by
  obtain ⟨hn, ss, hss, _, _, _, _, hP⟩ := run_facts ho hr h
  obtain ⟨q1, q2⟩ := stack_required ho hok hss
  -- settled nodes keep their mode
  have hstep : ∀ s0 lm s (c c' : SynCfg E S sgs.length), IterRel sgs.get lm s c c' →
      (∃ x ∈ c.strat, x.initial = true ∧ x.state = s0 ∧ (s0 ∉ sgs.get x.mode ∨ ∀ k, s0 ∈ sgs.get k)) →
      ∃ x ∈ c'.strat, x.initial = true ∧ x.state = s0 ∧ (s0 ∉ sgs.get x.mode ∨ ∀ k, s0 ∈ sgs.get k) := by
    rintro s0 lm s c c' hrel ⟨y, y1, y2, y3, y4⟩
    rcases hrel.fate y y1 with ⟨x, x1, x2, x3, _⟩ | ⟨k1, md, g1, g2, _⟩
    · refine ⟨x, x1, by rw [x3, y2], (congrArg Prod.snd x2).trans y3, ?_⟩
      have : x.mode = y.mode := congrArg Prod.fst x2
      rw [this]; exact y4
    · exfalso
      have e1 : y.mode = lm := congrArg Prod.fst k1
      have e2 : s0 = s := y3.symm.trans (congrArg Prod.snd k1)
      rw [e1, e2] at y4
      rcases y4 with h | h
      · exact h g1
      · exact g2 (h md)
  apply q2
  intro s0 hs0
  rcases hset with hset | ⟨hf, hsn⟩
  · obtain ⟨_, x, x1, x2, x3, _⟩ := hP (fun c => ∃ x ∈ c.strat, x.initial = true ∧ x.state = s0 ∧
        (s0 ∉ sgs.get x.mode ∨ ∀ k, s0 ∈ sgs.get k))
      (fun lm s c c' hrel hp => hstep s0 lm s c c' hrel hp)
      (by
        intro st k h1 h2
        obtain ⟨x, x1, x2, x3⟩ := h2 s0 hs0
        refine ⟨x, x1, x3, congrArg Prod.snd x2, ?_⟩
        have hx : x.mode = ⟨0, hn⟩ := congrArg Prod.fst x2
        rw [hx]
        by_cases hg : s0 ∈ sgs.get ⟨0, hn⟩
        · right
          intro k
          refine hset s0 (q1 s0 hs0) (sgs.get ⟨0, hn⟩) ?_ hg _ (List.get_mem _ _)
          cases sgs with
          | nil => simp at hn
          | cons a l => rfl
        · exact Or.inl hg)
    exact ⟨x, x1, x3, x2⟩
  · subst hf
    obtain ⟨A, rfl⟩ := Option.ne_none_iff_exists'.1 hsn
    have hone : ss = [s0] := by
      simp only [initStack] at hss
      split at hss
      · simp at hss
      · simp only [Option.some.injEq] at hss
        subst hss
        rw [List.mem_singleton] at hs0
        rw [hs0]
    subst hone
    obtain ⟨_, hp⟩ := hP (fun c => (∃ x ∈ c.strat, x.initial = true ∧ x.state = s0 ∧
        (s0 ∉ sgs.get x.mode ∨ ∀ k, s0 ∈ sgs.get k)) ∨
        (c.stack = [(⟨0, hn⟩, s0)] ∧ (∀ x ∈ c.strat, x.key = (⟨0, hn⟩, s0)) ∧
          ∃ x ∈ c.strat, x.key = (⟨0, hn⟩, s0) ∧ x.initial = true ∧ x.trans = []))
      (by
        rintro lm s c c' hrel (hp | ⟨p1, p2, y, y1, y2, y3, y4⟩)
        · exact Or.inl (hstep s0 lm s c c' hrel hp)
        · left
          simp only [List.cons.injEq, Prod.mk.injEq] at p1
          obtain ⟨⟨rfl, rfl⟩, _⟩ := p1
          rcases hrel.fate y y1 with ⟨x, x1, x2, x3, x4⟩ | ⟨_, md, g1, g2, x, x1, x2, x3⟩
          · have hx := x2.trans y2
            refine ⟨x, x1, by rw [x3, y3], congrArg Prod.snd hx, ?_⟩
            have : x.mode = ⟨0, hn⟩ := congrArg Prod.fst hx
            rw [this]
            exact x4 y2 y4
          · refine ⟨x, x1, ?_, congrArg Prod.snd x2, Or.inl ?_⟩
            · rcases x3 with h | ⟨z, z1, z2⟩
              · rw [h, y3]
              · exfalso
                have hz := (p2 z z1).symm.trans z2
                have : (⟨0, hn⟩ : Fin sgs.length) = md := congrArg Prod.fst hz
                rw [← this] at g2
                exact g2 g1
            · have : x.mode = md := congrArg Prod.fst x2
              rw [this]
              exact g2)
      (by
        intro st k h1 h2
        obtain ⟨x, x1, x2, x3⟩ := h2 s0 (by simp)
        refine Or.inr ⟨by simp, fun z hz => ?_, x, x1, x2, x3, (h1 x x1).1⟩
        obtain ⟨_, _, q3, q4⟩ := h1 z hz
        rw [List.mem_singleton] at q4
        unfold ANode.key
        rw [q3, q4])
    rcases hp with ⟨x, x1, x2, x3, _⟩ | ⟨hbad, _⟩
    · exact ⟨x, x1, x3, x2⟩
    · simp at hbad

/-! ## C07 -/

/-- **C07.** With a number of iterations of the main loop bounded by
`n * |states| * (|environment valuations| + 1)` plus the number of initial states, `synthesize`
after a positive verdict does not run out of iterations: the bound is explicit and the result no
longer depends on the fuel. (The fixpoint loops themselves are total functions in the model:
`gfpX`, `lfpY`, `gfpZ`, `sublevelsFrom` are defined by well-founded recursion on the same
comparisons that stop the C loops.) -/
theorem synthesize_terminates (ho : o.Valid G)
    (hr : checkRealizable G egs sgs flag einit sinit = some (some W)) {fuel : ℕ}
    (hf : sgs.length * (Fintype.card E * Fintype.card S) * (Fintype.card E + 1) +
      Fintype.card E * Fintype.card S ≤ fuel) :
    synthesize G egs sgs flag einit sinit o fuel ≠ .timeout := by
  have hcw := verdict_W hr
  have hwin : winningSet G (withDefaultGoal egs).get sgs.get = some W := hcw
  by_cases hn : 0 < sgs.length
  · by_cases hW : W.Nonempty
    · cases hss : initStack o W flag einit sinit with
      | none =>
        unfold synthesize
        rw [hcw]
        simp only [computeSublevels, if_pos hn, dif_pos hn]
        split
        · rw [hss]; simp
        · simp
      | some ss =>
        have hnd : ss.Nodup := by
          unfold checkRealizable at hr
          rw [hcw] at hr
          simp only [Option.map_some, Option.some.injEq] at hr
          exact (initStack_spec ho hr hss).1
        have hlen := hnd.length_le_card
        rw [Fintype.card_prod] at hlen
        obtain ⟨st, h, _⟩ := synthesize_run ho hn hr hW hss (fun _ => True) (fun _ _ _ _ _ _ => trivial)
          (fun _ _ _ _ => trivial) (fuel := fuel) (by unfold iterBound; omega)
        rw [h]; simp
    · unfold synthesize
      rw [hcw]
      simp only [computeSublevels, if_pos hn, dif_pos hn]
      split
      · rename_i hs
        exfalso
        apply hW
        have := shift_nonempty (hs ⟨0, hn⟩)
        rwa [muY_goal_W (withDefaultGoal_pos egs) hn hwin] at this
      · simp
  · unfold synthesize
    rw [hcw]
    simp [computeSublevels, hn]

/-- After a positive verdict, with initial formulas as the form check asks and a nonempty winning
set, `synthesize` succeeds: no error return, no memory error, no missing system move. -/
theorem synthesize_succeeds (ho : o.Valid G) (hok : InitOk flag einit sinit)
    (hr : checkRealizable G egs sgs flag einit sinit = some (some W)) (hne : ∃ s, Winnable G egs sgs s)
    {fuel : ℕ} (hf : sgs.length * (Fintype.card E * Fintype.card S) * (Fintype.card E + 1) +
      Fintype.card E * Fintype.card S ≤ fuel) :
    ∃ st, synthesize G egs sgs flag einit sinit o fuel = .ok st := by
  have hcw := verdict_W hr
  have hwin : winningSet G (withDefaultGoal egs).get sgs.get = some W := hcw
  have hn : 0 < sgs.length := by
    unfold winningSet at hwin
    split at hwin
    · assumption
    · simp at hwin
  have hW : W.Nonempty := by
    obtain ⟨s, hs⟩ := hne
    exact ⟨s, (winning_set_exact G egs sgs W hcw s).2 hs⟩
  have hr' : checkRealizableInternal W flag einit sinit = some W := by
    unfold checkRealizable at hr
    rw [hcw] at hr
    simpa using hr
  have hss : ∃ ss, initStack o W flag einit sinit = some ss := by
    cases flag with
    | undefined => simp [checkRealizableInternal] at hr'
    | allInit => exact ⟨_, rfl⟩
    | allEnvExistSys =>
      obtain ⟨k1, k2, ⟨d, z⟩, k3⟩ := hok
      unfold initStack
      simp only
      apply pickInit_some
      intro e he
      rw [List.mem_reverse, ho.enumEnv_mem] at he
      obtain ⟨x, hx⟩ := he
      simp only [checkRealizableInternal] at hr'
      split at hr'
      · simp at hr'
      · rename_i hq
        push Not at hq
        have hin : (e, z) ∈ existsSys (initSet sinit ∩ initSet einit) := by
          simp only [existsSys, Finset.mem_filter, Finset.mem_univ, true_and]
          exact ⟨z, Finset.mem_inter.2 ⟨k2 d e z k3, k1 e x z hx⟩⟩
        rw [← hq] at hin
        simp only [existsSys, Finset.mem_filter, Finset.mem_univ, true_and] at hin
        obtain ⟨y, hy⟩ := hin
        obtain ⟨h1, h2⟩ := Finset.mem_inter.1 hy
        exact ⟨(e, y), h2, (Finset.mem_inter.1 h1).1⟩
    | oneSide =>
      cases sinit with
      | none => exact ⟨_, rfl⟩
      | some A =>
        by_cases hq : A ∩ W = ∅
        · simp [checkRealizableInternal, initSet, hq] at hr'
        · unfold initStack
          simp only
          rw [if_neg hq]
          exact ⟨_, rfl⟩
  obtain ⟨ss, hss⟩ := hss
  have hlen := (initStack_spec ho hr' hss).1.length_le_card
  rw [Fintype.card_prod] at hlen
  obtain ⟨st, h, _⟩ := synthesize_run ho hn hr hW hss (fun _ => True) (fun _ _ _ _ _ _ => trivial)
    (fun _ _ _ _ => trivial) (fuel := fuel) (by unfold iterBound; omega)
  exact ⟨st, h⟩

/-- With an empty winning set `synthesize` makes a memory error (`Y[i][1]` does not exist,
`/repo/src/solve.c` 207-218), whatever the initial formulas. -/
theorem synthesize_empty_ub (hn : sgs ≠ []) (hcw : computeWinningSet G egs sgs = some ∅) (fuel : ℕ) :
    synthesize G egs sgs flag einit sinit o fuel = .ub := by
  have hpos : 0 < sgs.length := List.length_pos_iff.2 hn
  have hwin : winningSet G (withDefaultGoal egs).get sgs.get = some ∅ := hcw
  unfold synthesize
  rw [hcw]
  simp only [computeSublevels, if_pos hpos, dif_pos hpos]
  by_cases hs : ∀ i, (shiftLevels (sgs.get i ∩ ∅) (sublevels G (withDefaultGoal egs).get (sgs.get i ∩ ∅))).isSome
  · exfalso
    have := shift_nonempty (hs ⟨0, hpos⟩)
    rw [muY_goal_W (withDefaultGoal_pos egs) hpos hwin] at this
    simp at this
  · rw [if_neg hs]

/-! ## A concrete oracle, examples, and the lost initial flag -/

/-- Choices in the order of two given lists. -/
def stdOracle (G : Game E S) (all : List (E × S)) (allE : List E) (d : E × S) : Oracle E S where
  alloc := fun _ ids => ids.foldr max 0 + 1
  pick := fun _ A => (all.find? fun s => s ∈ A).getD d
  moves := fun _ s => allE.filter fun e => G.etr s e
  enum := fun A => all.filter fun s => s ∈ A
  enumEnv := fun A => allE.filter fun e => ∃ x, (e, x) ∈ A

theorem stdOracle_valid (G : Game E S) (all : List (E × S)) (allE : List E) (d : E × S)
    (h1 : all.Nodup) (h2 : ∀ s, s ∈ all) (h3 : allE.Nodup) (h4 : ∀ e, e ∈ allE) :
    (stdOracle G all allE d).Valid G where
  alloc := by
    intro c ids h
    have : ∀ l : List ℕ, ∀ i ∈ l, i ≤ l.foldr max 0 := by
      intro l
      induction l with
      | nil => simp
      | cons a l ih =>
        intro i hi
        rcases List.mem_cons.1 hi with rfl | hi
        · simp
        · have := ih i hi
          simp only [List.foldr_cons]
          omega
    have := this ids _ h
    simp only [stdOracle] at this
    omega
  pick := by
    rintro c A ⟨s, hs⟩
    simp only [stdOracle]
    cases hf : all.find? fun s => s ∈ A with
    | none =>
      have := List.find?_eq_none.1 hf s (h2 s)
      simp [hs] at this
    | some t => simpa using List.find?_some hf
  moves_nodup := fun c s => h3.filter _
  moves_mem := fun c s e => by simp [stdOracle, h4]
  enum_nodup := fun A => h1.filter _
  enum_mem := fun A s => by simp [stdOracle, h2]
  enumEnv_nodup := fun A => h3.filter _
  enumEnv_mem := fun A e => by simp [stdOracle, h4]

namespace Ex

/-- No environment variable, one system variable, no transition constraints. -/
def G5 : Game Unit Bool := ⟨fun _ _ => true, fun _ _ => true⟩

/-- The cubes in the order of `increment_cube`. -/
def o5 : Oracle Unit Bool := stdOracle G5 [((), false), ((), true)] [()] ((), false)

theorem o5_valid : o5.Valid G5 := stdOracle_valid _ _ _ _ (by decide) (by decide) (by decide) (by decide)

/-- `!x` and `x`. -/
def off : Finset (Unit × Bool) := {((), false)}
def on : Finset (Unit × Bool) := {((), true)}

/-- Mode, state and initial flag of every node. -/
def view {n : ℕ} (r : SRes (Aut (Fin n) (E × S))) : Option (List (ℕ × (E × S) × Bool)) :=
  match r with
  | .ok st => some (st.map fun x => (x.mode.val, x.state, x.initial))
  | _ => none


example : checkRealizable G5 [] [off, on] .allInit none none = some (some Finset.univ) := by decide +kernel
example : InitOk .allInit (none : Option (Finset (Unit × Bool))) none := ⟨((), true), by decide⟩
-- one goal: both initial states keep their flag
example : view (synthesize G5 [] [on] .allInit none none o5 30) =
    some [(0, ((), false), true), (0, ((), true), true)] := by decide +kernel
example : ∀ s, InitAllowed .allInit (none : Option (Finset (Unit × Bool))) none s →
    ∀ B, [on].head? = some B → s ∈ B → ∀ B' ∈ [on], s ∈ B' := by
  intro s _ B hB hs B' hB'
  simp only [List.head?_cons, Option.some.injEq, List.mem_singleton] at hB hB'
  rw [hB', hB]; exact hs
-- two goals: the automaton alternates between the two states
example : view (synthesize G5 [] [off, on] .allInit none none o5 30) =
    some [(1, ((), false), false), (0, ((), true), true)] := by decide +kernel

/-- With an environment variable: the system must copy requests (see `WinProps`). -/
def o3 : Oracle Bool Bool := stdOracle G3 [(false, false), (false, true), (true, false), (true, true)]
  [false, true] (false, false)

theorem o3_valid : o3.Valid G3 := stdOracle_valid _ _ _ _ (by decide) (by decide) (by decide) (by decide)

example : view (synthesize G3 [] [grant] .allEnvExistSys none none o3 60) =
    some [(0, (false, true), true), (0, (true, true), true)] := by decide +kernel
example : InitOk .allEnvExistSys (none : Option (Finset (Bool × Bool))) none :=
  ⟨by decide, by decide, (true, true), by decide⟩

/-- A game in which the system can never move. -/
def G6 : Game Bool Bool := ⟨fun _ _ => true, fun _ _ => false⟩

example : computeWinningSet G6 [] [grant] = some ∅ := by decide +kernel

end Ex

/-- C06 is false in general: two system goals `!x` and `x`, no constraints, ALL_INIT. Both states are
initial, but when the stacked pair (mode 0, `!x`) is moved to mode 1 it meets the node (1, `!x`)
created while expanding the other initial state, and its initial flag is dropped
(`/repo/src/solve.c` 502-533). -/
theorem synthesize_initial_lost :
    ∃ (G : Game Unit Bool) (sgs : List (Finset (Unit × Bool))) (o : Oracle Unit Bool)
      (W : Finset (Unit × Bool)) (st : Aut (Fin sgs.length) (Unit × Bool)),
      o.Valid G ∧ InitOk .allInit (none : Option (Finset (Unit × Bool))) none ∧
      checkRealizable G [] sgs .allInit none none = some (some W) ∧
      synthesize G [] sgs .allInit none none o 30 = .ok st ∧
      ¬ InitRequired .allInit none none (fun s => ∃ x ∈ st, x.state = s ∧ x.initial = true) := by
  have hv : Ex.view (synthesize Ex.G5 [] [Ex.off, Ex.on] .allInit none none Ex.o5 30) =
    some [(1, ((), false), false), (0, ((), true), true)] := by decide +kernel
  cases hs : synthesize Ex.G5 [] [Ex.off, Ex.on] .allInit none none Ex.o5 30 with
  | ub => rw [hs] at hv; simp [Ex.view] at hv
  | err => rw [hs] at hv; simp [Ex.view] at hv
  | timeout => rw [hs] at hv; simp [Ex.view] at hv
  | ok st =>
    refine ⟨Ex.G5, [Ex.off, Ex.on], Ex.o5, Finset.univ, st, Ex.o5_valid, ⟨((), true), by decide⟩,
      by decide +kernel, hs, ?_⟩
    intro hreq
    obtain ⟨x, x1, x2, x3⟩ := hreq ((), false) (by decide) (by decide)
    rw [hs] at hv
    simp only [Ex.view, Option.some.injEq] at hv
    have : (x.mode.val, x.state, x.initial) ∈ st.map fun x => (x.mode.val, x.state, x.initial) :=
      List.mem_map.2 ⟨x, x1, rfl⟩
    rw [hv, x2, x3] at this
    simp at this

/-- A specification that is reported realizable and on which `synthesize` makes a memory error:
ONE_SIDE_INIT, unsatisfiable ENVINIT, no winning state. -/
theorem synthesize_crash :
    ∃ (G : Game Bool Bool) (sgs : List (Finset (Bool × Bool))) (W : Finset (Bool × Bool)),
      checkRealizable G [] sgs .oneSide (some ∅) none = some (some W) ∧
      ∀ o fuel, synthesize G [] sgs .oneSide (some ∅) none o fuel = .ub :=
  ⟨Ex.G6, [Ex.grant], ∅, by decide +kernel, fun _ _ =>
    synthesize_empty_ub (by simp) (by decide +kernel) _⟩

end Gr1c
