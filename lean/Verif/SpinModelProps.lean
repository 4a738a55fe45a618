import Verif.SpinText
import Verif.SynthProps

/-!
# C58: what Spin verifies of the Promela model
-/

namespace Gr1c

section verdict

variable {M : Type} {evars svars : Decls}

/-! ## Specification -/

/-- The text is a Promela file with the given macros and program, and the comment in it is the formula `φ`. -/
structure SpinReads (text : List Char) (ms : List PMacro) (P : PProgram) (φ : Ltl) : Prop where
  file : PmlFile text ms P
  formula : ∃ a w b, text = a ++ "/* LTL formula\n".toList ++ w ++ "*/".toList ++ b ∧ LtlText w φ

/-- An infinite run of a strategy from the first node that is marked as initial. -/
structure RunFromFirst (st : Aut M (IState evars svars)) (ρ : ℕ → ANode M (IState evars svars)) : Prop where
  start : st.find? (·.initial) = some (ρ 0)
  step : ∀ k, ρ (k + 1) ∈ st ∧ (ρ (k + 1)).id ∈ (ρ k).trans

/-- Every legal move of the environment is answered at every node. -/
def AnswersLegal (sp : FSpec) (st : Aut M (IState evars svars)) : Prop :=
  ∀ x ∈ st, ∀ e, (intGame evars svars sp).etr x.state e = true → ∃ y ∈ st, y.id ∈ x.trans ∧ y.state.1 = e

/-- The formulas of a specification can come from the parser. -/
def ParsedSpec (sp : FSpec) : Prop := ∀ f ∈ sp.all, ∃ primes, Parsable primes f

/-! ## Proof -/

theorem spinFm_of {sp : FSpec} (hty : TypedSpec evars svars sp) (hp : ParsedSpec sp) : ∀ f ∈ sp.all, SpinFm evars svars f := by
  intro f hf
  refine ⟨hp f hf, ?_⟩
  have key : ∀ {us ps : Decls}, (∀ d ∈ us, d ∈ evars ++ svars) → (∀ d ∈ ps, d ∈ evars ++ svars) → Typed us ps f →
      ∀ x ∈ f.bvars ++ f.zvars, ∃ y ∈ evars ++ svars, y.1 = x.2 := by
    intro us ps hu hp ht x hx
    have sub : ∀ d ∈ (if x.1 then ps else us), d ∈ evars ++ svars := by
      intro d hd
      split_ifs at hd
      · exact hp d hd
      · exact hu d hd
    rcases List.mem_append.1 hx with hx | hx
    · obtain ⟨d, h1, h2, -⟩ := ht.1 x hx
      exact ⟨d, sub d h1, h2⟩
    · obtain ⟨d, h1, h2, -⟩ := ht.2 x hx
      exact ⟨d, sub d h1, h2⟩
  have all : ∀ d ∈ evars ++ svars, d ∈ evars ++ svars := fun _ h => h
  have none : ∀ d ∈ ([] : Decls), d ∈ evars ++ svars := by simp
  have env : ∀ d ∈ evars, d ∈ evars ++ svars := fun d h => List.mem_append_left _ h
  unfold FSpec.all at hf
  simp only [List.mem_append, Option.mem_toList] at hf
  rcases hf with ((((hf | hf) | hf) | hf) | hf) | hf
  · exact key all none (hty.einit f hf)
  · exact key all none (hty.sinit f hf)
  · exact key all env (hty.etrans f hf)
  · exact key all all (hty.strans f hf)
  · exact key all none (hty.egoals f hf)
  · exact key all none (hty.sgoals f hf)

/-- A play without faults is a run. -/
theorem play_run {st : Aut M (IState evars svars)} {d : ℕ → PlayState evars svars} {m : ℕ → DVal evars × SysMove svars}
    (hp : IsPlay st d m) {sp : FSpec} (ha : AnswersLegal sp st) (hs : ∀ r, (intGame evars svars sp).etr (d r).s (d (r + 1)).s.1 = true) :
    ∃ ρ, RunFromFirst st ρ ∧ ∀ r, (d r).s = (ρ r).state ∧ (d r).bad = false := by
  have inv : ∀ r, ∃ x, st[(d r).k]? = some x ∧ (d r).s = x.state ∧ (d r).bad = false ∧
      ∀ y, st[(d (r + 1)).k]? = some y → y ∈ st ∧ y.id ∈ x.trans := by
    have step : ∀ r x, st[(d r).k]? = some x → (d r).s = x.state → (d r).bad = false →
        (∃ y, st[(d (r + 1)).k]? = some y ∧ (d (r + 1)).s = y.state ∧ y ∈ st ∧ y.id ∈ x.trans) ∧ (d (r + 1)).bad = false := by
      intro r x h1 h2 h3
      have hm := hp.move r
      have hn := hp.next r
      have he := hs r
      cases hmr : m r with
      | mk e b =>
        rw [hmr] at hm hn
        rw [hn, h2] at he
        cases b with
        | edge k' v =>
          obtain ⟨x', y, g1, g2, g3, g4⟩ := hm
          rw [h1, Option.some.injEq] at g1
          subst g1
          rw [hn]
          exact ⟨⟨y, g2, g4.symm, List.mem_of_getElem? g2, g3⟩, h3⟩
        | fault =>
          obtain ⟨x', g1, g2⟩ := hm
          rw [h1, Option.some.injEq] at g1
          subst g1
          obtain ⟨y, y1, y2, y3⟩ := ha x (List.mem_of_getElem? h1) e he
          exact absurd y3 (g2 y y1 y2)
    have base : ∀ r, ∃ x, st[(d r).k]? = some x ∧ (d r).s = x.state ∧ (d r).bad = false := by
      intro r
      induction r with
      | zero =>
        obtain ⟨x, h1, -, h2, -, h3⟩ := hp.start
        exact ⟨x, h1, h2, h3⟩
      | succ r ih =>
        obtain ⟨x, h1, h2, h3⟩ := ih
        obtain ⟨⟨y, y1, y2, -⟩, h4⟩ := step r x h1 h2 h3
        exact ⟨y, y1, y2, h4⟩
    intro r
    obtain ⟨x, h1, h2, h3⟩ := base r
    refine ⟨x, h1, h2, h3, ?_⟩
    intro y hy
    obtain ⟨⟨y', y1, -, y2⟩, -⟩ := step r x h1 h2 h3
    rw [hy, Option.some.injEq] at y1
    subst y1
    exact y2
  choose ρ h1 h2 h3 h4 using inv
  refine ⟨ρ, ⟨?_, fun k => h4 k (ρ (k + 1)) (h1 (k + 1))⟩, fun r => ⟨h2 r, h3 r⟩⟩
  obtain ⟨x, g1, g2, -⟩ := hp.start
  rw [h1 0, Option.some.injEq] at g1
  rw [g2, g1]

/-- A run is a play without faults. -/
theorem run_play {st : Aut M (IState evars svars)} {ρ : ℕ → ANode M (IState evars svars)} (hr : RunFromFirst st ρ) :
    ∃ d m, IsPlay st d m ∧ ∀ r, (d r).s = (ρ r).state ∧ (d r).bad = false := by
  have mem : ∀ r, ρ r ∈ st := by
    intro r
    cases r with
    | zero => exact List.mem_of_find?_eq_some hr.start
    | succ r => exact (hr.step r).1
  have idx : ∀ r, ∃ k : ℕ, st[k]? = some (ρ r) := fun r => List.mem_iff_getElem?.1 (mem r)
  choose k hk using idx
  refine ⟨fun r => ⟨(ρ r).state, match r with | 0 => zeroVal svars | r + 1 => (ρ (r + 1)).state.2, k r, false⟩,
    fun r => ((ρ (r + 1)).state.1, .edge (k (r + 1)) (ρ (r + 1)).state.2), ⟨?_, ?_, ?_⟩, fun r => ⟨rfl, rfl⟩⟩
  · exact ⟨ρ 0, hk 0, hr.start, rfl, rfl, rfl⟩
  · intro r
    exact ⟨ρ r, ρ (r + 1), hk r, hk (r + 1), (hr.step r).2, rfl⟩
  · intro r
    rfl

/-! ## Theorems -/

/-- The text of the formula, as printed beside the model too. -/
def formulaText (evars : Decls) (sp : FSpec) : List Char :=
  spinLtl evars.length sp.einit.isSome sp.sinit.isSome sp.egoals.length sp.sgoals.length

/-- **C58.** The verdict of Spin on the text written by `spin_aut_dump`: the file can be read, and the formula in it
holds for the program in it if and only if on all plays of the strategy from its first initial node, in which the
environment chooses any values and unanswered choices are faults, the assumptions imply the guarantees and the absence
of faults. -/
theorem spin_verdict (hv : SpinVars evars svars) {sp : FSpec} (hty : TypedSpec evars svars sp) (hp : ParsedSpec sp)
    {st : Aut M (IState evars svars)} (hid : (st.map (·.id)).Nodup) (hed : ∀ x ∈ st, ∀ j ∈ x.trans, ∃ y ∈ st, y.id = j)
    (hin : ∃ x ∈ st, x.initial = true) (hne : evars ++ svars ≠ []) {ver : List Char} (hver : '*' ∉ ver) {fuel : ℕ}
    (hf : (allMoves evars).length ≤ fuel) :
    ∃ text ms P φ, spinDump ver fuel evars svars sp.toT (withStates stateValues st) = some text ∧ SpinReads text ms P φ ∧
      LtlText (formulaText evars sp) φ ∧
      ∀ fine, (PVerifies P fine ms φ ↔ ∀ d m, IsPlay st d m → (evars ≠ [] → EnvSeen fine sp fun r => (d r).s) →
        (SysSeen fine sp fun r => (d r).s) ∧ ∀ r, (d r).bad = false) := by
  obtain ⟨text, x, h1, h2, h3, u, v, h4⟩ := spin_written hv (spinFm_of hty hp) (a := withStates stateValues st)
    (by
      intro n hn
      obtain ⟨y, -, rfl⟩ := List.mem_map.1 hn
      exact stateValues_move hv _)
    (by
      intro n hn j hj
      obtain ⟨y, hy, rfl⟩ := List.mem_map.1 hn
      obtain ⟨z, hz, rfl⟩ := hed y hy j hj
      exact ⟨_, List.mem_map_of_mem hz, rfl⟩)
    hne
    (by
      obtain ⟨y, hy, hi⟩ := hin
      exact ⟨_, List.mem_map_of_mem hy, hi⟩)
    hver hf
  refine ⟨text, _, _, _, h1, ⟨h3, u, _, v, h4, ltl_text _ _ _ _ _⟩, ltl_text _ _ _ _ _, ?_⟩
  exact fun fine => verifies_plays hv hty h2 hid hed

/-- **C58.** If every legal move is answered (and ENVTRANS is trivial if there are no environment variables), then Spin
accepts exactly the strategies all of whose runs from the first initial node satisfy: assumptions imply guarantees. -/
theorem spin_exact (hv : SpinVars evars svars) {sp : FSpec} (hty : TypedSpec evars svars sp) (hp : ParsedSpec sp)
    {st : Aut M (IState evars svars)} (hid : (st.map (·.id)).Nodup) (hed : ∀ x ∈ st, ∀ j ∈ x.trans, ∃ y ∈ st, y.id = j)
    (hin : ∃ x ∈ st, x.initial = true) (hne : evars ++ svars ≠ []) (ha : AnswersLegal sp st) (h0 : evars = [] → ∀ f ∈ sp.etrans, f = .const 1)
    {ver : List Char} (hver : '*' ∉ ver) {fuel : ℕ} (hf : (allMoves evars).length ≤ fuel) :
    ∃ text ms P φ, spinDump ver fuel evars svars sp.toT (withStates stateValues st) = some text ∧ SpinReads text ms P φ ∧
      LtlText (formulaText evars sp) φ ∧
      ∀ fine, (PVerifies P fine ms φ ↔ ∀ ρ, RunFromFirst st ρ → (evars ≠ [] → EnvSeen fine sp fun r => (ρ r).state) →
        SysSeen fine sp fun r => (ρ r).state) := by
  obtain ⟨text, ms, P, φ, h1, h2, hF, h3⟩ := spin_verdict hv hty hp hid hed hin hne hver hf
  refine ⟨text, ms, P, φ, h1, h2, hF, fun fine => (h3 fine).trans ⟨?_, ?_⟩⟩
  · intro h ρ hr he
    obtain ⟨d, m, hd, hs⟩ := run_play hr
    have e : (fun r => (d r).s) = fun r => (ρ r).state := funext fun r => (hs r).1
    have := h d m hd
    rw [e] at this
    exact (this he).1
  · intro h d m hd he
    have hs : ∀ r, (intGame evars svars sp).etr (d r).s (d (r + 1)).s.1 = true := by
      intro r
      by_cases hem : evars = []
      · simp only [intGame, List.all_eq_true]
        intro f hf
        rw [h0 hem f hf]
        rfl
      · exact (he hem).steps r
    obtain ⟨ρ, hr, hq⟩ := play_run hd ha hs
    have e : (fun r => (d r).s) = fun r => (ρ r).state := funext fun r => (hq r).1
    rw [e] at he ⊢
    exact ⟨h ρ hr he, fun r => (hq r).2⟩

/-- **C58.** What acceptance by Spin guarantees, whatever the strategy: every run from the first initial node on which
the assumptions hold satisfies the guarantees, if steps of `atomic` are not seen or goals have one variable each. -/
theorem spin_sound (hv : SpinVars evars svars) {sp : FSpec} (hty : TypedSpec evars svars sp) (hp : ParsedSpec sp)
    {st : Aut M (IState evars svars)} (hid : (st.map (·.id)).Nodup) (hed : ∀ x ∈ st, ∀ j ∈ x.trans, ∃ y ∈ st, y.id = j)
    (hin : ∃ x ∈ st, x.initial = true) (hne : evars ++ svars ≠ [])
    {ver : List Char} (hver : '*' ∉ ver) {fuel : ℕ} (hf : (allMoves evars).length ≤ fuel) :
    ∃ text ms P φ, spinDump ver fuel evars svars sp.toT (withStates stateValues st) = some text ∧ SpinReads text ms P φ ∧
      ∀ fine, (fine = false ∨ ∀ f ∈ sp.egoals ++ sp.sgoals, OneVar f) → PVerifies P fine ms φ →
        ∀ ρ, RunFromFirst st ρ → EnvMeets sp (fun r => (ρ r).state) → SysMeets sp fun r => (ρ r).state := by
  obtain ⟨text, ms, P, φ, h1, h2, hF, h3⟩ := spin_verdict hv hty hp hid hed hin hne hver hf
  refine ⟨text, ms, P, φ, h1, h2, fun fine ho h ρ hr he => ?_⟩
  obtain ⟨d, m, hd, hs⟩ := run_play hr
  have e : (fun r => (d r).s) = fun r => (ρ r).state := funext fun r => (hs r).1
  have := (h3 fine).1 h d m hd
  rw [e, envSeen_iff hty ho, sysSeen_iff hty ho] at this
  exact (this fun _ => he).1

/-- **C58.** A strategy as synthesized (`SpecStrategy`, C53) is accepted, if steps of `atomic` are not seen or goals have
one variable each. -/
theorem spin_accepts (hv : SpinVars evars svars) {sp : FSpec} (hty : TypedSpec evars svars sp) (hp : ParsedSpec sp)
    {flag : InitFlag} (hfl : flag ≠ .undefined) {st : Aut ℤ (IState evars svars)} (hst : SpecStrategy evars svars flag sp st)
    (hin : ∃ x ∈ st, x.initial = true) (hne : evars ++ svars ≠ []) (h0 : evars = [] → (∀ f ∈ sp.etrans, f = .const 1) ∧ sp.egoals = [])
   
    {ver : List Char} (hver : '*' ∉ ver) {fuel : ℕ} (hf : (allMoves evars).length ≤ fuel) :
    ∃ text ms P φ, spinDump ver fuel evars svars sp.toT (withStates stateValues st) = some text ∧ SpinReads text ms P φ ∧
      LtlText (formulaText evars sp) φ ∧
      ∀ fine, (fine = false ∨ ∀ f ∈ sp.egoals ++ sp.sgoals, OneVar f) → PVerifies P fine ms φ := by
  have ha : AnswersLegal sp st := by
    intro x hx e he
    obtain ⟨y, ⟨y1, y2, y3⟩, -⟩ := hst.answers x hx e he
    exact ⟨y, y1, y2, y3⟩
  obtain ⟨text, ms, P, φ, h1, h2, hF, h3⟩ := spin_exact hv hty hp hst.ids hst.edges hin hne ha (fun h => (h0 h).1) hver hf
  refine ⟨text, ms, P, φ, h1, h2, hF, fun fine ho => (h3 fine).2 fun ρ hr he => ?_⟩
  rw [envSeen_iff hty ho] at he
  rw [sysSeen_iff hty ho]
  have m0 := List.mem_of_find?_eq_some hr.start
  have mem : ∀ r, ρ r ∈ st := by
    intro r
    cases r with
    | zero => exact m0
    | succ r => exact (hr.step r).1
  refine ⟨?_, ?_, ?_⟩
  · intro f hf'
    have hall := hst.allowed (ρ 0) m0 (by have := List.find?_some hr.start; simpa using this)
    rw [hf'] at hall
    have : (ρ 0).state ∈ (fmStates f : Finset (IState evars svars)) := by
      cases flag with
      | undefined => exact absurd rfl hfl
      | allInit => exact hall.2
      | allEnvExistSys => exact hall.2
      | oneSide => exact hall
    simpa [fmStates] using this
  · intro r
    exact (hst.legal (ρ r) (mem r) (ρ (r + 1)) (mem (r + 1)) (hr.step r).2).2
  · intro f hf'
    refine hst.live ρ (fun k => ⟨mem k, (hr.step k).2⟩) ?_ (fmStates f) ?_
    · intro A hA
      obtain ⟨g, hg, rfl⟩ := List.mem_map.1 hA
      by_cases hem : evars = []
      · rw [(h0 hem).2] at hg; simp at hg
      · exact (he hem).goals g hg
    · refine List.mem_map_of_mem ?_
      unfold sysGoals
      split_ifs with h
      · rw [h] at hf'; simp at hf'
      · exact hf'

end verdict

/-! ## Examples and limits -/

namespace PmlEx

/-- Values from a list. -/
def vals (ds : Decls) (b : List ℕ) : DVal ds := fun i => ⟨b.getD i 0 % dcard ds[i], Nat.mod_lt _ (dcard_pos' _)⟩

def x : Name := ['x']
def y : Name := ['y']
def z : Name := ['z']

def dx : Decls := [(x, -1)]
def dy : Decls := [(y, -1)]
def dyz : Decls := [(y, -1), (z, -1)]

theorem word_ok {n : Name} (h : n ∈ [x, y, z]) : IsSpinName n := by
  simp only [List.mem_cons, List.not_mem_nil, or_false] at h
  rcases h with rfl | rfl | rfl <;> exact ⟨_, [], rfl, by decide, by decide, by decide, by decide⟩

theorem vars_ok {e s : Decls} (h : (e ++ s) ∈ [dx ++ dy, dy, dyz]) : SpinVars e s := by
  have key : ∀ l ∈ [dx ++ dy, dy, dyz], (l.map Prod.fst).Nodup ∧ (∀ v ∈ l, v.1 ∈ [x, y, z]) ∧
      (∀ v ∈ l, ∀ w ∈ l, v.1 ≠ w.1 ++ "_next".toList) ∧
      (∀ v ∈ l, v.1 ∉ spinOwn ∧ ¬ "envgoal".toList <+: v.1 ∧ ¬ "sysgoal".toList <+: v.1) ∧ ∀ v ∈ l, -1 ≤ v.2 := by
    decide +kernel
  obtain ⟨h1, h2, h3, h4, h5⟩ := key _ h
  exact ⟨h1, fun v hv => word_ok (h2 v hv), h3, h4, h5⟩


instance (us ps : Decls) (f : Fm) : Decidable (Typed us ps f) := by unfold Typed; infer_instance

theorem writable {n : Name} (h : n ∈ [x, y, z]) : Writable (.ident n) := by
  simp only [List.mem_cons, List.not_mem_nil, or_false] at h
  rcases h with rfl | rfl | rfl <;> decide

/-- A node with values. -/
def node {e s : Decls} (i : ℕ) (ev sv : List ℕ) (init : Bool) (tr : List ℕ) : ANode ℤ (IState e s) :=
  ⟨i, (vals e ev, vals s sv), 0, 0, init, tr⟩

/-! ### Steps of `atomic` -/

/-- The goal is `y & !z`. -/
def sp1 : FSpec := ⟨none, none, [], [], [], [.and (.var false y) (.neg (.var false z))]⟩

/-- The values alternate between `y = z = 0` and `y = z = 1`. -/
def st1 : Aut ℤ (IState [] dyz) := [node 0 [] [0, 0] true [1], node 1 [] [1, 1] false [0]]

theorem typed1 : TypedSpec [] dyz sp1 := by
  exact ⟨by decide, by decide, by decide, by decide, by decide, by decide⟩

theorem parsed1 : ParsedSpec sp1 := by
  intro f hf
  rw [List.mem_singleton.1 hf]
  exact ⟨false, ⟨writable (by decide), by simp⟩, writable (by decide), by simp⟩

theorem run1 {ρ : ℕ → ANode ℤ (IState [] dyz)} (h : RunFromFirst st1 ρ) (k : ℕ) :
    ρ (2 * k) = node 0 [] [0, 0] true [1] ∧ ρ (2 * k + 1) = node 1 [] [1, 1] false [0] := by
  have two : ∀ n, ρ n ∈ st1 → ρ n = node 0 [] [0, 0] true [1] ∨ ρ n = node 1 [] [1, 1] false [0] := by
    intro n hn
    simpa [st1] using hn
  have odd : ∀ n, ρ n = node 0 [] [0, 0] true [1] → ρ (n + 1) = node 1 [] [1, 1] false [0] := by
    intro n hn
    obtain ⟨h1, h2⟩ := h.step n
    rcases two _ h1 with h3 | h3
    · rw [hn, h3] at h2; exact absurd h2 (by decide)
    · exact h3
  have even : ∀ n, ρ n = node 1 [] [1, 1] false [0] → ρ (n + 1) = node 0 [] [0, 0] true [1] := by
    intro n hn
    obtain ⟨h1, h2⟩ := h.step n
    rcases two _ h1 with h3 | h3
    · exact h3
    · rw [hn, h3] at h2; exact absurd h2 (by decide)
  induction k with
  | zero =>
    have h0 : ρ 0 = node 0 [] [0, 0] true [1] := (Option.some.inj h.start).symm
    exact ⟨h0, odd 0 h0⟩
  | succ k ih =>
    have h0 := even _ ih.2
    exact ⟨h0, odd _ h0⟩

/-- A run of the strategy. -/
def rho1 (n : ℕ) : ANode ℤ (IState [] dyz) := if n % 2 = 0 then node 0 [] [0, 0] true [1] else node 1 [] [1, 1] false [0]

theorem rho1_run : RunFromFirst st1 rho1 := by
  refine ⟨rfl, fun k => ?_⟩
  unfold rho1
  rcases Nat.mod_two_eq_zero_or_one k with h | h
  · rw [if_pos h, if_neg (show ¬ (k + 1) % 2 = 0 by omega)]
    exact ⟨by simp [st1], by decide⟩
  · rw [if_neg (show ¬ k % 2 = 0 by omega), if_pos (show (k + 1) % 2 = 0 by omega)]
    exact ⟨by simp [st1], by decide⟩

end PmlEx

open PmlEx in
/-- **C58, limit.** Seen with the steps of `atomic`, a goal with two variables can hold between states: a strategy on
whose only run `y & !z` never holds is accepted for the goal `y & !z`. -/
theorem spin_accepts_wrong : ∃ text ms P φ,
    spinDump "1".toList 1 [] dyz sp1.toT (withStates stateValues st1) = some text ∧ SpinReads text ms P φ ∧
    PVerifies P true ms φ ∧ ¬ PVerifies P false ms φ ∧ RunFromFirst st1 rho1 ∧
    EnvMeets sp1 (fun r => (rho1 r).state) ∧ ¬ SysMeets sp1 fun r => (rho1 r).state := by
  have hid : (st1.map (·.id)).Nodup := by decide
  have hed : ∀ x ∈ st1, ∀ j ∈ x.trans, ∃ y ∈ st1, y.id = j := by decide +kernel
  have hnot : ¬ SysSeen false sp1 fun r => (rho1 r).state := by
    intro h
    obtain ⟨r, -, hr⟩ := h.goals _ (List.mem_singleton.2 rfl) 0
    simp only [Bool.false_eq_true, if_false] at hr
    unfold rho1 at hr
    split_ifs at hr <;> exact absurd hr (by decide +kernel)
  obtain ⟨text, ms, P, φ, h1, h2, hF, h3⟩ := spin_exact (vars_ok (by decide)) typed1 parsed1 hid hed (by decide +kernel) (by decide)
    (by unfold AnswersLegal; decide +kernel) (by decide) (ver := "1".toList) (by decide) (fuel := 1) (by decide)
  refine ⟨text, ms, P, φ, h1, h2, (h3 true).2 ?_, fun h => hnot ((h3 false).1 h _ rho1_run fun h => absurd rfl h), rho1_run,
    ⟨by simp [sp1], fun _ => rfl, by simp [sp1]⟩, ?_⟩
  · intro ρ hr _
    refine ⟨by simp [sp1], fun _ => rfl, ?_⟩
    intro f hf N
    rw [List.mem_singleton.1 hf]
    refine ⟨2 * N, by omega, 1, ?_⟩
    beta_reduce
    rw [(run1 hr N).1, (run1 hr N).2]
    decide +kernel
  · intro h
    refine hnot ⟨h.init, h.steps, fun f hf N => ?_⟩
    obtain ⟨r, h1, h2⟩ := h.goals f hf N
    exact ⟨r, h1, h2⟩

namespace PmlEx

/-- The environment keeps `y` and `z` equal and promises `[]<>(y & !z)`; the system promises `[]<>False`. -/
def sp2 : FSpec := ⟨some (.equiv (.var false y) (.var false z)), none, [.equiv (.var true y) (.var true z)], [],
  [.and (.var false y) (.neg (.var false z))], [.const 0]⟩

def st2 : Aut ℤ (IState dyz []) := [node 0 [0, 0] [] true [0, 1], node 1 [1, 1] [] true [0, 1]]

theorem typed2 : TypedSpec dyz [] sp2 := ⟨by decide, by decide, by decide, by decide, by decide, by decide⟩

theorem parsed2 : ParsedSpec sp2 := by
  intro f hf
  have : f = .equiv (.var false y) (.var false z) ∨ f = .equiv (.var true y) (.var true z) ∨
      f = .and (.var false y) (.neg (.var false z)) ∨ f = .const 0 := by simpa [FSpec.all, sp2] using hf
  rcases this with rfl | rfl | rfl | rfl
  · exact ⟨false, ⟨writable (by decide), by simp⟩, writable (by decide), by simp⟩
  · exact ⟨true, ⟨writable (by decide), by simp⟩, writable (by decide), by simp⟩
  · exact ⟨false, ⟨writable (by decide), by simp⟩, writable (by decide), by simp⟩
  · exact ⟨false, Or.inl rfl⟩

theorem strategy2 : SpecStrategy dyz [] .allInit sp2 st2 := by
  refine ⟨by decide, by decide +kernel, by decide +kernel, ?_, ?_, by unfold InitAllowed; decide +kernel, by unfold InitRequired; decide +kernel⟩
  · intro x hx e he
    have key : ∀ x ∈ st2, ∀ e, (intGame dyz [] sp2).etr x.state e = true →
        (st2.filter fun y => decide (y.id ∈ x.trans ∧ y.state.1 = e)).length = 1 := by decide +kernel
    obtain ⟨y, hy⟩ := List.length_eq_one_iff.1 (key x hx e he)
    have mem : ∀ z, (z ∈ st2 ∧ z.id ∈ x.trans ∧ z.state.1 = e) ↔ z = y := by
      intro z
      have := congrArg (z ∈ ·) hy
      simpa only [List.mem_filter, decide_eq_true_eq, List.mem_singleton, eq_iff_iff] using this
    exact ⟨y, (mem y).2 rfl, fun z hz => (mem z).1 hz⟩
  · intro ρ hρ henv
    obtain ⟨k, -, hk⟩ := henv _ (List.mem_singleton.2 rfl) 0
    have : ∀ x ∈ st2, x.state ∉ (fmStates (.and (.var false y) (.neg (.var false z))) : Finset (IState dyz [])) := by
      decide +kernel
    exact absurd hk (this _ (hρ k).1)

def rho2 (n : ℕ) : ANode ℤ (IState dyz []) := if n % 2 = 0 then node 0 [0, 0] [] true [0, 1] else node 1 [1, 1] [] true [0, 1]

theorem rho2_run : RunFromFirst st2 rho2 := by
  refine ⟨rfl, fun k => ?_⟩
  unfold rho2
  rcases Nat.mod_two_eq_zero_or_one k with h | h
  · rw [if_pos h, if_neg (show ¬ (k + 1) % 2 = 0 by omega)]
    exact ⟨by simp [st2], by decide⟩
  · rw [if_neg (show ¬ k % 2 = 0 by omega), if_pos (show (k + 1) % 2 = 0 by omega)]
    exact ⟨by simp [st2], by decide⟩

end PmlEx

open PmlEx in
/-- **C58, limit.** Seen with the steps of `atomic`, a goal of the environment can hold between states: a correct
strategy is rejected. -/
theorem spin_rejects_right : SpecStrategy dyz [] .allInit sp2 st2 ∧ ∃ text ms P φ,
    spinDump "1".toList 4 dyz [] sp2.toT (withStates stateValues st2) = some text ∧ SpinReads text ms P φ ∧
    PVerifies P false ms φ ∧ ¬ PVerifies P true ms φ := by
  refine ⟨strategy2, ?_⟩
  obtain ⟨text, ms, P, φ, h1, h2, hF, h3⟩ := spin_exact (vars_ok (by decide)) typed2 parsed2 strategy2.ids strategy2.edges
    (by decide +kernel) (by decide) (by unfold AnswersLegal; decide +kernel) (by decide) (ver := "1".toList) (by decide)
    (fuel := 4) (by decide)
  refine ⟨text, ms, P, φ, h1, h2, (h3 false).2 ?_, fun h => ?_⟩
  · intro ρ hr he
    obtain ⟨r, -, hk⟩ := (he (by decide)).goals _ (List.mem_singleton.2 rfl) 1
    have : ∀ x ∈ st2, x.state ∉ (fmStates (.and (.var false y) (.neg (.var false z))) : Finset (IState dyz [])) := by
      decide +kernel
    have hm : ρ r ∈ st2 := by
      cases r with
      | zero => exact List.mem_of_find?_eq_some hr.start
      | succ r => exact (hr.step r).1
    exact absurd hk (this _ hm)
  · have := (h3 true).1 h _ rho2_run fun _ => ⟨by decide +kernel, ?_, ?_⟩
    · obtain ⟨r, -, j, hj⟩ := this.goals _ (List.mem_singleton.2 rfl) 0
      simp [fmStates, Fm.eval] at hj
    · intro r
      have : ∀ x ∈ st2, ∀ y ∈ st2, (intGame dyz [] sp2).etr x.state y.state.1 = true := by decide +kernel
      have hm : ∀ r, rho2 r ∈ st2 := by
        intro r
        unfold rho2
        split_ifs <;> simp [st2]
      exact this _ (hm r) _ (hm (r + 1))
    · intro f hf N
      rw [List.mem_singleton.1 hf]
      refine ⟨2 * N, by omega, 1, ?_⟩
      have e1 : rho2 (2 * N) = node 0 [0, 0] [] true [0, 1] := if_pos (by omega)
      have e2 : rho2 (2 * N + 1) = node 1 [1, 1] [] true [0, 1] := if_neg (by omega)
      beta_reduce
      rw [e1, e2]
      decide +kernel

namespace PmlEx

/-- The goal is `y`. -/
def sp3 : FSpec := ⟨none, none, [], [], [], [.var false y]⟩

/-- At the first initial node `y` holds forever, at the second one never. -/
def st3 : Aut ℤ (IState [] dy) := [node 0 [] [1] true [0], node 1 [] [0] true [1]]

theorem typed3 : TypedSpec [] dy sp3 := ⟨by decide, by decide, by decide, by decide, by decide, by decide⟩

theorem parsed3 : ParsedSpec sp3 := by
  intro f hf
  rw [List.mem_singleton.1 hf]
  exact ⟨false, writable (by decide), by simp⟩

end PmlEx

open PmlEx in
/-- **C58, limit.** Only the first initial node is examined (`d_step` takes the first option): a strategy is accepted
though at the second initial node, which is allowed, it violates the guarantees forever. -/
theorem spin_first_initial_only : ∃ text ms P φ,
    spinDump "1".toList 1 [] dy sp3.toT (withStates stateValues st3) = some text ∧ SpinReads text ms P φ ∧
    (∀ fine, PVerifies P fine ms φ) ∧
    ∃ ρ : ℕ → ANode ℤ (IState [] dy), (ρ 0).initial = true ∧ (∀ k, ρ k ∈ st3 ∧ (ρ (k + 1)).id ∈ (ρ k).trans) ∧
      EnvMeets sp3 (fun r => (ρ r).state) ∧ ¬ SysMeets sp3 fun r => (ρ r).state := by
  obtain ⟨text, ms, P, φ, h1, h2, hF, h3⟩ := spin_exact (vars_ok (by decide)) typed3 parsed3 (st := st3) (by decide)
    (by decide +kernel) (by decide +kernel) (by decide) (by unfold AnswersLegal; decide +kernel) (by decide)
    (ver := "1".toList) (by decide) (fuel := 1) (by decide)
  refine ⟨text, ms, P, φ, h1, h2, fun fine => (h3 fine).2 ?_, fun _ => node 1 [] [0] true [1], rfl,
    fun _ => ⟨by simp [st3], List.mem_singleton.2 rfl⟩, ⟨by simp [sp3], fun _ => rfl, by simp [sp3]⟩, ?_⟩
  · intro ρ hr _
    have e : ∀ r, ρ r = node 0 [] [1] true [0] := by
      intro r
      induction r with
      | zero => exact (Option.some.inj hr.start).symm
      | succ r ih =>
        obtain ⟨g1, g2⟩ := hr.step r
        have : ρ (r + 1) = node 0 [] [1] true [0] ∨ ρ (r + 1) = node 1 [] [0] true [1] := by simpa [st3] using g1
        rcases this with h | h
        · exact h
        · rw [h, ih] at g2; exact absurd g2 (by decide)
    refine ⟨by simp [sp3], fun _ => rfl, ?_⟩
    intro f hf N
    rw [List.mem_singleton.1 hf]
    refine ⟨N, le_rfl, ?_⟩
    beta_reduce
    rw [e N, e (N + 1)]
    cases fine
    · rw [if_neg (by decide)]; decide +kernel
    · exact ⟨0, by decide +kernel⟩
  · intro h
    obtain ⟨r, -, hr⟩ := h.goals _ (List.mem_singleton.2 rfl) 0
    have no : (node 1 [] [0] true [1] : ANode ℤ (IState [] dy)).state ∉ (fmStates (.var false y) : Finset (IState [] dy)) := by
      decide +kernel
    exact no hr

namespace PmlEx

/-- Initially `y` is 0; the environment, which has no variables, promises `[]<>y`, and so does the system. -/
def sp4 : FSpec := ⟨none, some (.neg (.var false y)), [], [], [.var false y], [.var false y]⟩

def st4 : Aut ℤ (IState [] dy) := [node 0 [] [0] true [0]]

theorem typed4 : TypedSpec [] dy sp4 := ⟨by decide, by decide, by decide, by decide, by decide, by decide⟩

theorem parsed4 : ParsedSpec sp4 := by
  intro f hf
  have : f = .neg (.var false y) ∨ f = .var false y := by simpa [FSpec.all, sp4] using hf
  rcases this with rfl | rfl <;> exact ⟨false, writable (by decide), by simp⟩

theorem strategy4 : SpecStrategy [] dy .allInit sp4 st4 := by
  refine ⟨by decide, by decide +kernel, by decide +kernel, ?_, ?_, by unfold InitAllowed; decide +kernel, by unfold InitRequired; decide +kernel⟩
  · intro x hx e _
    rw [List.mem_singleton.1 hx]
    exact ⟨node 0 [] [0] true [0], ⟨by simp [st4], by decide, funext fun i => i.elim0⟩, fun z hz => List.mem_singleton.1 hz.1⟩
  · intro ρ _ h
    exact h

end PmlEx

open PmlEx in
/-- **C58, limit.** Without environment variables the formula has no assumptions: a correct strategy is rejected if the
specification has goals of the environment. -/
theorem spin_no_assumptions : SpecStrategy [] dy .allInit sp4 st4 ∧ ∃ text ms P φ,
    spinDump "1".toList 1 [] dy sp4.toT (withStates stateValues st4) = some text ∧ SpinReads text ms P φ ∧
    ∀ fine, ¬ PVerifies P fine ms φ := by
  refine ⟨strategy4, ?_⟩
  obtain ⟨text, ms, P, φ, h1, h2, hF, h3⟩ := spin_exact (vars_ok (by decide)) typed4 parsed4 strategy4.ids strategy4.edges
    (by decide +kernel) (by decide) (by unfold AnswersLegal; decide +kernel) (by decide)
    (ver := "1".toList) (by decide) (fuel := 1) (by decide)
  refine ⟨text, ms, P, φ, h1, h2, fun fine h => ?_⟩
  have hr : RunFromFirst st4 (fun _ => node 0 [] [0] true [0]) := ⟨rfl, fun _ => ⟨by simp [st4], by decide⟩⟩
  have ho : fine = false ∨ ∀ f ∈ sp4.egoals ++ sp4.sgoals, OneVar f := by
    refine Or.inr fun f hf => ⟨y, ?_⟩
    have : f = .var false y := by simpa [sp4] using hf
    rw [this]
    decide
  have := (h3 fine).1 h _ hr fun h => absurd rfl h
  rw [sysSeen_iff typed4 ho] at this
  obtain ⟨r, -, hr⟩ := this.goals _ (List.mem_singleton.2 rfl) 0
  have no : (node 0 [] [0] true [0] : ANode ℤ (IState [] dy)).state ∉ (fmStates (.var false y) : Finset (IState [] dy)) := by
    decide +kernel
  exact no hr

namespace PmlEx

/-- The environment cannot move once `x` is 1. -/
def sp5 : FSpec := ⟨none, none, [.neg (.var false x)], [], [], []⟩

/-- The strategy has no answer to `x' = 1`. -/
def st5 : Aut ℤ (IState dx dy) := [node 0 [0] [0] true [0]]

theorem typed5 : TypedSpec dx dy sp5 := ⟨by decide, by decide, by decide, by decide, by decide, by decide⟩

theorem parsed5 : ParsedSpec sp5 := by
  intro f hf
  rw [List.mem_singleton.1 hf]
  exact ⟨false, writable (by decide), by simp⟩

end PmlEx

open PmlEx in
/-- **C58, limit.** A missing answer is a fault, but the fault is not reported if the environment is blocked afterwards:
a strategy that does not answer a legal move is accepted. -/
theorem spin_missing_answer : ¬ AnswersLegal sp5 st5 ∧ ∃ text ms P φ,
    spinDump "1".toList 2 dx dy sp5.toT (withStates stateValues st5) = some text ∧ SpinReads text ms P φ ∧
    ∀ fine, PVerifies P fine ms φ := by
  refine ⟨by unfold AnswersLegal; decide +kernel, ?_⟩
  obtain ⟨text, ms, P, φ, h1, h2, hF, h3⟩ := spin_verdict (vars_ok (by decide)) typed5 parsed5 (st := st5) (by decide)
    (by decide +kernel) (by decide +kernel) (by decide) (ver := "1".toList) (by decide) (fuel := 2) (by decide)
  refine ⟨text, ms, P, φ, h1, h2, fun fine => (h3 fine).2 ?_⟩
  intro d m hd he
  have blocked : ∀ s : IState dx dy, s.1 ≠ vals dx [0] → ∀ e, (intGame dx dy sp5).etr s e = false := by decide +kernel
  have all0 : ∀ r, (d r).s.1 = vals dx [0] := by
    intro r
    by_contra h
    have := (he (by decide)).steps r
    rw [blocked _ h] at this
    exact Bool.noConfusion this
  refine ⟨⟨by simp [sp5], fun _ => rfl, by simp [sp5]⟩, ?_⟩
  intro r
  induction r with
  | zero =>
    obtain ⟨_, -, -, -, -, h⟩ := hd.start
    exact h
  | succ r ih =>
    have hm := hd.move r
    have hn := hd.next r
    have h0 := all0 (r + 1)
    cases hmr : m r with
    | mk e b =>
      rw [hmr] at hm hn
      rw [hn] at h0 ⊢
      cases b with
      | edge k v => exact ih
      | fault =>
        obtain ⟨n, g1, g2⟩ := hm
        have hn0 : n = node 0 [0] [0] true [0] := by
          have := List.mem_of_getElem? g1
          simpa [st5] using this
        exact absurd h0.symm (g2 (node 0 [0] [0] true [0]) (by simp [st5]) (by rw [hn0]; decide))

theorem initAlts_none {M : Type} (vs : Decls) {a : Aut M (List ℤ)} (h : ∀ n ∈ a, n.initial = false) (k : ℕ) :
    initAlts vs k a = [] := by
  induction a generalizing k with
  | nil => rfl
  | cons n a ih =>
    have e : initAlts vs k (n :: a) =
      (if n.initial then "\n:: (1) -> current_node=".toList ++ (decimal k ++ assignsText [] vs n.state) else []) ++
        initAlts vs (k + 1) a := rfl
    rw [e, h n (List.mem_cons_self ..), ih (fun m hm => h m (List.mem_cons_of_mem _ hm))]
    rfl

/-- **C58, limit.** If no node is marked initial (as in all strategies of `gr1c rg`), the first selection of the program
has no option, which is not Promela. -/
theorem spin_no_initial {M : Type} {ver : List Char} {fuel : ℕ} {ev sv : Decls} {sp : TSpec} {a : Aut M (List ℤ)}
    (h : ∀ n ∈ a, n.initial = false) {text : List Char} (ht : spinDump ver fuel ev sv sp a = some text) :
    "d_step {\nif\nfi\n};".toList <:+: text := by
  unfold spinDump at ht
  split at ht
  · split at ht
    · rw [initAlts_none _ h, Option.some.injEq] at ht
      rw [← ht]
      have e : "init\n{\nint current_node;\n\nd_step {\nif".toList = "init\n{\nint current_node;\n\n".toList ++ "d_step {\nif".toList := rfl
      have e' : "\nfi\n};\n\n".toList = "\nfi\n};".toList ++ "\n\n".toList := rfl
      have e'' : "d_step {\nif\nfi\n};".toList = "d_step {\nif".toList ++ "\nfi\n};".toList := rfl
      rw [e, e', e'', List.nil_append]
      iterate 5 refine List.infix_append_of_infix_right ?_
      rw [List.append_assoc, List.append_assoc, ← List.append_assoc "d_step {\nif".toList]
      exact List.infix_append' _ _ _
    · cases ht
  · cases ht

example : ∃ text, spinDump "1".toList 1 [] PmlEx.dy PmlEx.sp3.toT
    (withStates stateValues ([PmlEx.node 0 [] [1] false [0]] : Aut ℤ (IState [] PmlEx.dy))) = some text := ⟨_, rfl⟩

end Gr1c
