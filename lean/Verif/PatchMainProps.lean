import Verif.PatchMainLemmas
import Verif.SynthAnnotProps

/-!
# Properties of `gr1c-patch` (C64)

From the command line, the text of the specification and the text of the automaton to the automaton that is written, for `-r` and `-f`;
the statuses; what the program does with options it does not heed.
-/

namespace Gr1c

/-! ## The default environment goal -/

section defaults

variable {E S : Type} [Fintype E] [DecidableEq E] [Fintype S] [DecidableEq S] {G : Game E S} {egs sgs : List (Finset (E × S))}

theorem default_inf {s : ℕ → E × S} (h : ∀ A ∈ egs, InfOften s A) : ∀ A ∈ withDefaultGoal egs, InfOften s A := by
  unfold withDefaultGoal
  split
  · intro A hA
    rw [List.mem_singleton.1 hA]
    exact fun k => ⟨k, le_rfl, Finset.mem_univ _⟩
  · exact h

theorem GoalRemoved.plain {d : ℕ} {st R : Aut ℤ (E × S)} (h : GoalRemoved G (withDefaultGoal egs) sgs d st R) :
    GoalRemoved G egs sgs d st R :=
  ⟨h.ids, h.legal, fun ρ hρ he => h.runs ρ hρ (default_inf he), h.answers, h.initial⟩

theorem GoalAdded.plain {i : Fin sgs.length} {new : Finset (E × S)} {st R : Aut ℤ (E × S)}
    (h : GoalAdded G (withDefaultGoal egs) sgs i new st R) : GoalAdded G egs sgs i new st R :=
  ⟨h.ids, h.closed, h.modes, h.legal, fun a b ρ hρ he => h.runs a b ρ hρ (default_inf he), h.answers, h.initOld, h.initNew⟩

end defaults

/-- The strategy that is given: one for the specification over the declared values, with the goals in their order, written in the
format `aut` of gr1c. -/
structure GivenStrategy (d : FileData) (st : Aut ℤ (IState d.evars d.svars)) (text : List Char) : Prop where
  nonempty : st ≠ []
  seeks : SeeksInOrder (intGame d.evars d.svars d.sp) (withDefaultGoal (d.sp.egoals.map fmStates)).get ((sysGoals d.sp).map fmStates).get st
  written : text = (dumpVer (withStates stateValues st) 1).2
  fits : AutFits (withStates stateValues st)

/-- The specification is one for which `gr1c-patch` is made. -/
structure PatchSpec (d : FileData) : Prop where
  good : GoodSpec d .undefined
  prefixFree : PfxFree (d.evars ++ d.svars)
  ints : IntDecls (d.evars ++ d.svars)
  env : d.evars ≠ [] ∨ ∀ f ∈ d.sp.etrans, f = .const 1

theorem PatchSpec.some_var {d : FileData} (h : PatchSpec d) : d.evars ++ d.svars ≠ [] := by
  intro h0
  obtain ⟨h1, h2⟩ := List.append_eq_nil_iff.1 h0
  exact h.good.scope.declared.elim (fun h => h h1) fun h => h h2

/-- The output file, if there is one, can be opened. -/
def PatchWorld.opens (w : PatchWorld) (c : PgCfg) : Bool := match c.output with | some f => w.canWrite f | none => true

/-- What `c` asks to be written for the automaton `R`. -/
def pgOutput (c : PgCfg) (d : FileData) (R : Aut ℤ (IState d.evars d.svars)) : MainRes :=
  .exit 0 (some ⟨c.output, c.format, d.evars, d.svars, withStates stateValues R⟩)

theorem sysGoals_ne (sp : FSpec) : sysGoals sp ≠ [] := by
  unfold sysGoals
  split <;> simp_all

/-- **C64, `-r`.** Called with `-r n` for a goal of the specification and with a strategy for it that seeks the goals in their order,
`gr1c-patch` writes, with status 0, a strategy without this goal (`GoalRemoved`), or ends with status -1 and writes nothing, or runs
into undefined behaviour, or does not end. -/
theorem patch_removes_goal {w : PatchWorld} {args : List Arg} {os : List PgItem} {f : Option Arg} {d : FileData} {text : List Char}
    (h : PgCalled w args os f d text) (hs : PatchSpec d) (hw : w.Sane) {st : Aut ℤ (IState d.evars d.svars)}
    (hst : GivenStrategy d st text) (he : (pgMeaning os f).edges = none) (hf : (pgMeaning os f).form = none) {n : ℕ}
    (hr : (pgMeaning os f).rm = n) (hn : n < (sysGoals d.sp).length) :
    (∃ R, R ≠ [] ∧ GoalRemoved (intGame d.evars d.svars d.sp) (d.sp.egoals.map fmStates) ((sysGoals d.sp).map fmStates) n st R ∧
      w.opens (pgMeaning os f) = true ∧ patchMain w args = pgOutput (pgMeaning os f) d R) ∨
    patchMain w args = .exit (-1) none ∨ patchMain w args = .ub ∨ patchMain w args = .timeout := by
  obtain ⟨sp', B, h1, h2, h3, h4⟩ := pg_front h hs.good hs.prefixFree
  obtain ⟨B', b1, b2, b3, b4⟩ := buildBits_noinit h1
  have hmain := h4 .nil .nil (pgForm_none hf) rfl (expandForm_nil _)
  obtain ⟨st', m1, m2⟩ := load_values hs.good.fresh hs.prefixFree hs.ints hs.some_var hst.nonempty hst.seeks.ids hst.seeks.closed hst.fits w.stale
  rw [← hst.written] at m2
  have hgo : patchMain w args = pgWrite w (pgMeaning os f) (expDecls d.evars) (expDecls d.svars) (intVars (d.evars ++ d.svars))
      (rmSysgoal B.game (withDefaultGoal B.egs).get B.sgs.length (n : ℤ) (w.sub 0 _ _ B.game (st'.map (·.id))) w.fuel st').toP := by
    rw [hmain]
    unfold pgPatch
    rw [he, hf]
    simp only [Option.isSome_none, Bool.false_eq_true, if_false]
    have hlen : (sp'.toT.sgoals.length : ℤ) = (sysGoals d.sp).length := by
      rw [← h3]; simp [FSpec.toT]
    rw [hr, hlen, if_neg (by omega)]
    have b1' : buildBits (declVars d.evars d.svars).ne (declVars d.evars d.svars).ns (expDecls d.evars ++ expDecls d.svars).tree
        { sp'.toT with einit := .nil, sinit := .nil } = some B' := b1
    rw [b1']
    simp only [rmFile, m2, onLoaded]
    change pgWrite w (pgMeaning os f) (expDecls d.evars) (expDecls d.svars) (intVars (d.evars ++ d.svars))
      (rmSysgoal B'.game (withDefaultGoal B'.egs).get B'.sgs.length (n : ℤ) (w.sub 0 _ _ B'.game (st'.map (·.id))) w.fuel st').toP = _
    rw [b2, b3, b4]
  have hB := h2
  generalize hres : rmSysgoal B.game (withDefaultGoal B.egs).get B.sgs.length (n : ℤ) (w.sub 0 _ _ B.game (st'.map (·.id))) w.fuel st' = r at hgo
  cases r with
  | err => right; left; exact hgo
  | ub => right; right; left; exact hgo
  | timeout => right; right; right; exact hgo
  | ok R' =>
    obtain ⟨R, rfl, r2⟩ := removed_pull hB.emb (default_rel hB.egs) hB.sgs hst.seeks m1 (patch_oracle hB hw hs.env 0 _)
      (fun c l => hw.fresh 0 _ _ _ _ c l) (by simpa using hn) hres
    by_cases hR : R = []
    · subst hR; right; left; exact hgo
    · have hwr := pg_writes hs.good.fresh hs.prefixFree hs.ints (w := w) (c := pgMeaning os f) hR
      have hgo' := hgo.trans hwr
      cases hop : w.opens (pgMeaning os f) with
      | true =>
        left
        refine ⟨R, hR, r2.plain, rfl, hgo'.trans (if_pos hop)⟩
      | false =>
        right; left
        exact hgo'.trans (if_neg (by
          intro hc
          have : w.opens (pgMeaning os f) = true := hc
          rw [hop] at this
          cases this))

/-- **C64, `-f`.** Called with `-f` and a formula over current values of the declared variables and with a strategy for the
specification that seeks the goals in their order, `gr1c-patch` writes, with status 0, a strategy in which the formula is a goal after
one of the others, after the last one if `-m` is not given (`GoalAdded`), or ends with status -1 and writes nothing, or runs into
undefined behaviour, or does not end. -/
theorem patch_adds_goal {w : PatchWorld} {args : List Arg} {os : List PgItem} {f : Option Arg} {d : FileData} {text : List Char}
    (h : PgCalled w args os f d text) (hs : PatchSpec d) (hw : w.Sane) {st : Aut ℤ (IState d.evars d.svars)}
    (hst : GivenStrategy d st text) {x : Arg} (hf : (pgMeaning os f).form = some x) {φ : Fm} (hx : FormSays x φ)
    (hT : Typed (d.evars ++ d.svars) [] φ) (hne : NoNe0 (d.evars ++ d.svars) [φ]) :
    (∃ (i : Fin ((sysGoals d.sp).map fmStates).length) (R : Aut ℤ (IState d.evars d.svars)),
      R ≠ [] ∧ GoalAdded (intGame d.evars d.svars d.sp) (d.sp.egoals.map fmStates) ((sysGoals d.sp).map fmStates) i (fmStates φ) st R ∧
      ((pgMeaning os f).metric = none → i.val + 1 = (sysGoals d.sp).length) ∧
      w.opens (pgMeaning os f) = true ∧ patchMain w args = pgOutput (pgMeaning os f) d R) ∨
    patchMain w args = .exit (-1) none ∨ patchMain w args = .ub ∨ patchMain w args = .timeout := by
  have he : (pgMeaning os f).edges = none := by
    rcases h.one with h' | h'
    · exact h'
    · rw [hf] at h'; cases h'
  obtain ⟨sp', B, h1, h2, h3, h4⟩ := pg_front h hs.good hs.prefixFree
  obtain ⟨B', b1, b2, b3, b4⟩ := buildBits_noinit h1
  obtain ⟨φ', b, f1, f2, f3⟩ := form_bdd hs.good.fresh hT hne
  have hmain := h4 _ _ (pgForm_some hf hx) (form_scoped hT) f1
  obtain ⟨st', m1, m2⟩ := load_values hs.good.fresh hs.prefixFree hs.ints hs.some_var hst.nonempty hst.seeks.ids hst.seeks.closed hst.fits w.stale
  rw [← hst.written] at m2
  have hB := h2
  obtain ⟨offw, hoff⟩ : ∃ offw, offw = metricOffsets (expDecls d.evars) (expDecls d.svars) (pgMeaning os f).metric := ⟨_, rfl⟩
  have hgo : patchMain w args = pgWrite w (pgMeaning os f) (expDecls d.evars) (expDecls d.svars) (intVars (d.evars ++ d.svars))
      (addMetricSysgoal B.game (withDefaultGoal B.egs).get B.sgs (w.cover _) offw (statesOf b)
        (w.sub 0 _ _ B.game (st'.map (·.id))) (w.sub 1 _ _ B.game (st'.map (·.id))) w.fuel st').toP := by
    rw [hmain]
    unfold pgPatch
    rw [he, hf]
    simp only [Option.isSome_some, if_true]
    have b1' : buildBits (declVars d.evars d.svars).ne (declVars d.evars d.svars).ns (expDecls d.evars ++ expDecls d.svars).tree
        { sp'.toT with einit := .nil, sinit := .nil } = some B' := b1
    have f2' : ptreeBdd (2 * ((declVars d.evars d.svars).ne + (declVars d.evars d.svars).ns)) (expDecls d.evars ++ expDecls d.svars).tree
        φ'.toTree = .ok b := f2
    rw [b1', f2']
    simp only [addFile, m2, onLoaded]
    change pgWrite w (pgMeaning os f) (expDecls d.evars) (expDecls d.svars) (intVars (d.evars ++ d.svars))
      (addMetricSysgoal B'.game (withDefaultGoal B'.egs).get B'.sgs (w.cover _)
        (metricOffsets (expDecls d.evars) (expDecls d.svars) (pgMeaning os f).metric) (statesOf b)
        (w.sub 0 _ _ B'.game (st'.map (·.id))) (w.sub 1 _ _ B'.game (st'.map (·.id))) w.fuel st').toP = _
    rw [b2, b3, b4, hoff]
  generalize hres : addMetricSysgoal B.game (withDefaultGoal B.egs).get B.sgs (w.cover _) offw (statesOf b)
        (w.sub 0 _ _ B.game (st'.map (·.id))) (w.sub 1 _ _ B.game (st'.map (·.id))) w.fuel st' = r at hgo
  cases r with
  | err => right; left; exact hgo
  | ub => right; right; left; exact hgo
  | timeout => right; right; right; exact hgo
  | ok R' =>
    unfold addMetricSysgoal at hres
    cases hpick : pickGoal (w.cover _) offw (statesOf b) B.sgs with
    | null => rw [hpick] at hres; cases hres
    | ub => rw [hpick] at hres; cases hres
    | ok i =>
      rw [hpick] at hres
      simp only at hres
      have hlen := hB.sgs.length_eq
      have hsne : B.sgs ≠ [] := by
        intro h0
        rw [h0] at hlen
        have := sysGoals_ne d.sp
        simp at hlen
        exact this hlen
      obtain ⟨j, rfl, j2, j3⟩ := pickGoal_lt hsne hpick
      obtain ⟨R, rfl, r2⟩ := added_pull hB.emb (default_rel hB.egs) hB.sgs f3 hst.seeks m1 (patch_oracle hB hw hs.env 0 _)
        (patch_oracle hB hw hs.env 1 _) (fun c l => hw.fresh 0 _ _ _ _ c l) (fun c l => hw.fresh 1 _ _ _ _ c l)
        (fun c l c' l' => hw.apart _ _ _ _ c l c' l') ⟨j, by rw [hlen]; exact j2⟩ hres
      by_cases hR : R = []
      · subst hR; right; left; exact hgo
      · have hgo' := hgo.trans (pg_writes hs.good.fresh hs.prefixFree hs.ints (w := w) (c := pgMeaning os f) hR)
        cases hop : w.opens (pgMeaning os f) with
        | true =>
          left
          refine ⟨⟨j, by rw [hlen]; exact j2⟩, R, hR, r2.plain, ?_, rfl, hgo'.trans (if_pos hop)⟩
          intro hm
          have := j3 (by rw [hoff, hm]; rfl)
          simp only [List.length_map] at hlen
          simp only
          omega
        | false =>
          right; left
          exact hgo'.trans (if_neg (by
          intro hc
          have : w.opens (pgMeaning os f) = true := hc
          rw [hop] at this
          cases this))

/-! ## The strategies that gr1c writes -/

section pulled

variable {E S E' S' : Type} [Fintype E] [DecidableEq E] [Fintype S] [DecidableEq S] [Fintype E'] [DecidableEq E'] [Fintype S']
  [DecidableEq S'] {G : Game E S} {H : Game E' S'} {ιe : E → E'} {ιs : S → S'}

theorem seeks_back (h : Embeds G H ιe ιs) {egs sgs : List (Finset (E × S))} {egs' sgs' : List (Finset (E' × S'))}
    (he : List.Forall₂ (GoalRel ιe ιs) egs egs') (hs : List.Forall₂ (GoalRel ιe ιs) sgs sgs') {st : Aut ℤ (E × S)}
    (hS : SeeksInOrder H egs'.get sgs'.get (withStates (Prod.map ιe ιs) st)) : SeeksInOrder G egs.get sgs.get st := by
  have hs' : ∀ i : Fin sgs.length, GoalRel ιe ιs (sgs.get i) (sgs'.get (Fin.cast hs.length_eq i)) :=
    fun i => forall₂_get hs (Fin.cast hs.length_eq i)
  have he' : ∀ i : Fin egs.length, GoalRel ιe ιs (egs.get i) (egs'.get (Fin.cast he.length_eq i)) :=
    fun i => forall₂_get he (Fin.cast he.length_eq i)
  have hS := seeks_cast he.length_eq hs.length_eq hS
  refine ⟨by have := hS.ids; rwa [withStates_ids] at this, withStates_closed.1 hS.closed, ?_, (legal_iff h).1 hS.legal, ?_, ?_⟩
  · intro x hx
    exact hS.modes _ (mem_withStates.2 ⟨x, hx, rfl⟩)
  · intro x hx y hy hxy
    obtain ⟨i, j, h1, h2, h3⟩ := hS.order _ (mem_withStates.2 ⟨x, hx, rfl⟩) _ (mem_withStates.2 ⟨y, hy, rfl⟩) hxy
    exact ⟨i, j, h1, h2, (passes_map hs' i j y.state).1 h3⟩
  · intro ρ hρ hE i
    exact (infOften_map (hs' i) ρ).1 (hS.live _ (isRun_push hρ) (fun r => (infOften_map (he' r) ρ).2 (hE r)) i)

end pulled

/-- **C64, C53.** The strategies `gr1c` writes: from the command line and the text of a realizable specification with an initial
state to a strategy over the declared values that seeks the goals in their order and answers every move; if two of the goals have no
common state in it, no node seeks a goal that it has. It carries the annotation that `patch_localfixpoint` needs. -/
theorem main_seeks {w : World} {args : List Arg} {os : List Opt} {f : Option Arg} {d : FileData}
    (h : RunsOn w args os f d) (hg : GoodSpec d (meaning os f).init) (hr : (meaning os f).run = .synthesis)
    (hv : SpecRealizable d.evars d.svars (meaning os f).init d.sp)
    (hi : SpecHasInit d.evars d.svars (meaning os f).init d.sp)
    (hp : PfxFree (d.evars ++ d.svars)) (hI : IntDecls (d.evars ++ d.svars))
    (hw : w.Sensible) (henv : d.evars ≠ [] ∨ ∀ f ∈ d.sp.etrans, f = .const 1)
    (hfuel : synthBound d.evars d.svars d.sp ≤ w.fuel) (hout : w.canOutput (meaning os f)) :
    ∃ st : Aut ℤ (IState d.evars d.svars), SpecStrategy d.evars d.svars (meaning os f).init d.sp st ∧ (∃ x ∈ st, x.initial = true) ∧
      SeeksInOrder (intGame d.evars d.svars d.sp) (withDefaultGoal (d.sp.egoals.map fmStates)).get ((sysGoals d.sp).map fmStates).get st ∧
      AnswersAll (intGame d.evars d.svars d.sp) st ∧
      (∀ i j, Apart (((sysGoals d.sp).map fmStates).get i) (((sysGoals d.sp).map fmStates).get j) st →
        Waits ((sysGoals d.sp).map fmStates).get st) ∧
      Annotated ((sysGoals d.sp).map fmStates).get st ∧
      gr1cMain w args = .exit 0 (some ⟨(meaning os f).output, (meaning os f).format, d.evars, d.svars, withStates stateValues st⟩) := by
  obtain ⟨B, h4, h5, h6⟩ := main_synth h hg hr hv
  obtain ⟨st, k1, k2, ⟨W, st1, c1, c2, c3⟩, k4⟩ := synth_written hg.fresh hp hI h5 h4 hv hi hw henv hfuel hout
  have ho := oracle_ok h5 hw henv
  have hs := synthesize_seeks ho c1 c2
  have e : intModes st1 = withStates (Prod.map (encVal d.evars) (encVal d.svars)) st := c3
  rw [e] at hs
  have hg' : ∀ i, GoalRel (encVal d.evars) (encVal d.svars) (((sysGoals d.sp).map fmStates).get i)
      (B.sgs.get (Fin.cast h5.sgs.length_eq i)) := fun i => forall₂_get h5.sgs (Fin.cast h5.sgs.length_eq i)
  have hann := (synthesize_annotated ho c1 c2).1
  rw [e] at hann
  refine ⟨st, k1, k2, seeks_back h5.emb (default_rel h5.egs) h5.sgs hs.1, (answersAll_iff h5.emb k1.ids).1 hs.2, ?_, ⟨?_, ?_, ?_⟩,
    h6.trans k4⟩
  rotate_left
  · intro x hx
    exact hann.nonneg _ (mem_withStates.2 ⟨x, hx, rfl⟩)
  · intro x hx y hy hxy hm
    refine (hann.mono _ (mem_withStates.2 ⟨x, hx, rfl⟩) _ (mem_withStates.2 ⟨y, hy, rfl⟩) hxy hm).imp id fun h i => ?_
    exact (hg' i x.state).1 (h (Fin.cast h5.sgs.length_eq i))
  · intro x hx y hy hm hst
    have := hann.keys _ (mem_withStates.2 ⟨x, hx, rfl⟩) _ (mem_withStates.2 ⟨y, hy, rfl⟩) hm (congrArg (Prod.map (encVal d.evars) (encVal d.svars)) hst)
    have e : x.id = y.id := by
      have := congrArg ANode.id this
      exact this
    exact (List.inj_on_of_nodup_map k1.ids) hx hy e
  intro i j hap
  have hw' := synthesize_waits ho c1 c2 (i := Fin.cast h5.sgs.length_eq i) (j := Fin.cast h5.sgs.length_eq j) (by
    rw [e]
    intro x hx h1 h2
    obtain ⟨y, hy, rfl⟩ := mem_withStates.1 hx
    exact hap y hy ((hg' i y.state).1 h1) ((hg' j y.state).1 h2))
  rw [e] at hw'
  intro x hx k hk hc
  exact hw' _ (mem_withStates.2 ⟨x, hx, rfl⟩) (Fin.cast h5.sgs.length_eq k) hk ((hg' k x.state).2 hc)

theorem GoodSpec.undefined {d : FileData} {flag : InitFlag} (h : GoodSpec d flag) : GoodSpec d .undefined := by
  refine ⟨h.fresh, h.typed, ⟨h.scope.declared, ?_, ?_, by simp, h.scope.etrans, h.scope.strans, h.scope.egoals, h.scope.sgoals⟩, h.noNe0⟩
  · intro f hf
    have := h.scope.einit f hf
    simp only [reduceCtorEq, if_false]
    split at this
    · intro x hx
      have := this x hx
      cases hx1 : x.1 <;> rw [hx1] at this <;> simp_all
    · exact this
  · intro f hf
    have := h.scope.sinit f hf
    simp only [reduceCtorEq, if_false]
    split at this
    · intro x hx
      have := this x hx
      cases hx1 : x.1 <;> rw [hx1] at this <;> simp_all
    · exact this

/-- **C64, the workflow.** `gr1c -t aut` on a realizable specification with an initial state ends with status 0 after writing a text.
If the strategy fits into the format, this text is what `patch_removes_goal`, `patch_adds_goal` and `patch_changes_edges_partial` ask of the
automaton given to `gr1c-patch` with the same specification; the strategy answers every move and is annotated, and if two goals have no
common state in it, it waits. -/
theorem patch_workflow {w : World} {args : List Arg} {os : List Opt} {f : Option Arg} {d : FileData}
    (h : RunsOn w args os f d) (hg : GoodSpec d (meaning os f).init) (hr : (meaning os f).run = .synthesis)
    (hfmt : (meaning os f).format = .aut)
    (hv : SpecRealizable d.evars d.svars (meaning os f).init d.sp)
    (hi : SpecHasInit d.evars d.svars (meaning os f).init d.sp)
    (hp : PfxFree (d.evars ++ d.svars)) (hI : IntDecls (d.evars ++ d.svars))
    (hw : w.Sensible) (henv : d.evars ≠ [] ∨ ∀ f ∈ d.sp.etrans, f = .const 1)
    (hfuel : synthBound d.evars d.svars d.sp ≤ w.fuel) (hout : w.canOutput (meaning os f)) (E : JsonEnv) :
    PatchSpec d ∧ ∃ (st : Aut ℤ (IState d.evars d.svars)) (o : Output) (s : List Char), gr1cMain w args = .exit 0 (some o) ∧
      o.dest = (meaning os f).output ∧ writeOut E o = some (.ok s) ∧ (AutFits (withStates stateValues st) → GivenStrategy d st s) ∧
      SpecStrategy d.evars d.svars (meaning os f).init d.sp st ∧ AnswersAll (intGame d.evars d.svars d.sp) st ∧
      (∀ i j, Apart (((sysGoals d.sp).map fmStates).get i) (((sysGoals d.sp).map fmStates).get j) st →
        Waits ((sysGoals d.sp).map fmStates).get st) ∧
      Annotated ((sysGoals d.sp).map fmStates).get st := by
  refine ⟨⟨hg.undefined, hp, hI, henv⟩, ?_⟩
  obtain ⟨st, h1, h2, h3, h4, h5, h7, h6⟩ := main_seeks h hg hr hv hi hp hI hw henv hfuel hout
  refine ⟨st, _, (dumpVer (withStates stateValues st) 1).2, h6, rfl, ?_, fun hfit => ⟨?_, h3, rfl, hfit⟩, h1, h4, h5, h7⟩
  · simp only [writeOut, hfmt]
  · rintro rfl
    obtain ⟨x, hx, -⟩ := h2
    cases hx

/-! ## Statuses -/

theorem pgWrite_status {ne ns : ℕ} {w : PatchWorld} {c : PgCfg} {ev sv nb : VarList} {r : PRes (Aut ℤ (BState ne ns))} {s : ℤ}
    {out : Option Output} (h : pgWrite w c ev sv nb r = .exit s out) : (s = -1 ∧ out = none) ∨ (s = 0 ∧ out ≠ none) := by
  unfold pgWrite at h
  split at h
  · cases h
  · cases h
  · cases h
  · cases h; exact Or.inl ⟨rfl, rfl⟩
  · split at h
    · cases h; exact Or.inl ⟨rfl, rfl⟩
    · split at h
      · cases ho : c.output with
        | none => simp only [ho] at h; cases h; exact Or.inr ⟨rfl, by simp⟩
        | some g =>
          simp only [ho] at h
          split at h
          · cases h; exact Or.inr ⟨rfl, by simp⟩
          · cases h; exact Or.inl ⟨rfl, rfl⟩
      · cases h

theorem pgPatch_status {w : PatchWorld} {c : PgCfg} {v : PatchVars} {vl : PTree} {sp : TSpec} {form : PTree} {text : List Char} {s : ℤ}
    {out : Option Output} (h : pgPatch w c v vl sp form text = .exit s out) :
    ((s = -1 ∨ s = 1) ∧ out = none) ∨ (s = 0 ∧ out ≠ none) := by
  have key : ∀ {r : PRes (Aut ℤ (BState v.ne v.ns))}, pgWrite w c v.ev v.sv v.nonbool r = .exit s out →
      ((s = -1 ∨ s = 1) ∧ out = none) ∨ (s = 0 ∧ out ≠ none) := fun h =>
    (pgWrite_status h).imp (fun h => ⟨Or.inl h.1, h.2⟩) id
  unfold pgPatch at h
  split at h
  · split at h
    · cases h; exact Or.inl ⟨Or.inl rfl, rfl⟩
    · split at h
      · cases h
      · exact key h
  · split at h
    · split at h
      · exact key h
      · cases h
    · split at h
      · cases h; exact Or.inl ⟨Or.inr rfl, rfl⟩
      · split at h
        · exact key h
        · cases h

theorem pgRun_status {w : PatchWorld} {c : PgCfg} {f : Arg} {p : PState} {s : ℤ} {out : Option Output} (h : pgRun w c f p = .exit s out) :
    ((s = -1 ∨ s = 1) ∧ out = none) ∨ (s = 2 ∧ out = none ∧ checkGr1cForm p.ev p.sv .undefined p.sp < 0) ∨ (s = 0 ∧ out ≠ none) := by
  unfold pgRun at h
  split at h
  · rename_i hc; cases h; exact Or.inr (Or.inl ⟨rfl, rfl, hc⟩)
  · split at h
    · cases h
    · split at h
      · cases h; exact Or.inl ⟨Or.inr rfl, rfl⟩
      · unfold pgExpand at h
        split at h
        · cases h
        · cases h; exact Or.inl ⟨Or.inl rfl, rfl⟩
        · split at h
          · cases h
          · split at h
            · cases h
            · split at h
              · cases h; exact Or.inl ⟨Or.inl rfl, rfl⟩
              · exact (pgPatch_status h).imp id Or.inr

/-- **C64.** Every run that ends has status -1, 0, 1 or 2, and something is written only with status 0. -/
theorem patch_statuses (w : PatchWorld) (args : List Arg) (s : ℤ) (out : Option Output) (h : patchMain w args = .exit s out) :
    (s = -1 ∨ s = 0 ∨ s = 1 ∨ s = 2) ∧ (out ≠ none → s = 0) := by
  have hc : ∀ c s', pgCheck c = some s' → s' = 0 ∨ s' = 1 := by
    intro c s' h
    unfold pgCheck at h
    repeat' split at h
    all_goals first | (cases h; simp) | cases h
  unfold patchMain at h
  split at h
  · cases h; simp
  · cases h; simp
  · cases h
  · split at h
    · rename_i hs; cases h
      have := hc _ _ hs
      exact ⟨by omega, fun h => absurd rfl h⟩
    · cases h
    · split at h
      · cases h; simp
      · split at h
        · cases h; simp
        · rcases pgRun_status h with ⟨k1, k2⟩ | ⟨k1, k2, -⟩ | ⟨k1, -⟩
          · exact ⟨by omega, fun h => absurd k2 h⟩
          · exact ⟨by omega, fun h => absurd k2 h⟩
          · exact ⟨by omega, fun _ => k1⟩

/-- **C64.** Called in the documented way, `gr1c-patch` ends with status 0 only after writing an automaton, and with status 2 exactly if
the specification is not well scoped. -/
theorem patch_rejects {w : PatchWorld} {args : List Arg} {os : List PgItem} {f : Option Arg} {d : FileData} {text : List Char}
    (h : PgCalled w args os f d text) :
    (∀ out, patchMain w args = .exit 0 out → out ≠ none) ∧
    (patchMain w args = .exit 2 none ↔ ¬ WellScoped d.evars d.svars .undefined d.sp) := by
  obtain ⟨fa, a1, a2⟩ := pg_called h
  have hce := check_form_exact d.evars d.svars .undefined d.sp
  rw [a2]
  refine ⟨fun out h => ?_, fun h hwell => ?_, fun h => ?_⟩
  · rcases pgRun_status h with ⟨k1, -⟩ | ⟨k1, -⟩ | ⟨-, k2⟩
    · omega
    · omega
    · exact k2
  · rcases pgRun_status h with ⟨k1, -⟩ | ⟨-, -, k2⟩ | ⟨k1, -⟩
    · omega
    · have k2 : checkGr1cForm d.evars.tree d.svars.tree .undefined d.sp.toT < 0 := k2
      rw [hce.1 hwell] at k2
      omega
    · omega
  · unfold pgRun
    have : checkGr1cForm d.toP.ev d.toP.sv .undefined d.toP.sp = -1 := hce.2 h
    rw [this]
    rfl

/-- **C64.** A formula with a variable that is not declared, or with a primed one, is refused with status 1; with a well-scoped
specification. -/
theorem patch_unknown_var {w : PatchWorld} {args : List Arg} {os : List PgItem} {f : Option Arg} {d : FileData} {text : List Char}
    (h : PgCalled w args os f d text) (hg : WellScoped d.evars d.svars .undefined d.sp) {x : Arg} (hf : (pgMeaning os f).form = some x)
    {φ : Fm} (hx : FormSays x φ) (hb : ¬ Scoped ((d.evars ++ d.svars).map Prod.fst) [] φ) : patchMain w args = .exit 1 none := by
  obtain ⟨fa, a1, a2⟩ := pg_called h
  rw [a2]
  unfold pgRun
  have h0 : checkGr1cForm d.toP.ev d.toP.sv .undefined d.toP.sp = 0 := (check_form_exact d.evars d.svars .undefined d.sp).1 hg
  rw [h0, if_neg (by omega), pgForm_some hf hx]
  have hc : (checkVars (chainVars d.toP.sv d.toP.ev) .nil φ.toTree).isSome = true := by
    cases hcv : (checkVars (chainVars d.toP.sv d.toP.ev) .nil φ.toTree).isSome with
    | true => rfl
    | false =>
      exfalso
      apply hb
      have hcv : (checkVars (chainVars d.svars.tree d.evars.tree) (Decls.tree []) φ.toTree).isSome = false := hcv
      rw [chain_tree, checkVars_scoped] at hcv
      exact (scoped_congr (fun n => by simp only [List.map_append, List.mem_append]; exact Or.comm) (fun _ => Iff.rfl) φ).1 hcv
  simp only [hc, if_true]

/-- **C64.** A goal number that is too large is refused with status 1. -/
theorem patch_no_such_goal {w : PatchWorld} {args : List Arg} {os : List PgItem} {f : Option Arg} {d : FileData} {text : List Char}
    (h : PgCalled w args os f d text) (hg : GoodSpec d .undefined) (hp : PfxFree (d.evars ++ d.svars))
    (he : (pgMeaning os f).edges = none) (hf : (pgMeaning os f).form = none) {n : ℕ}
    (hr : (pgMeaning os f).rm = n) (hn : (sysGoals d.sp).length ≤ n) : patchMain w args = .exit 1 none := by
  obtain ⟨sp', B, h1, h2, h3, h4⟩ := pg_front h hg hp
  rw [h4 .nil .nil (pgForm_none hf) rfl (expandForm_nil _)]
  unfold pgPatch
  rw [he, hf]
  simp only [Option.isSome_none, Bool.false_eq_true, if_false]
  have hlen : (sp'.toT.sgoals.length : ℤ) = (sysGoals d.sp).length := by
    rw [← h3]; simp [FSpec.toT]
  rw [hr, hlen, if_pos (by omega)]

/-! ## Help and misuse -/

theorem lastVal_some {I α : Type} (f : I → Option α) (d : α) {os : List I} (h : ∃ o ∈ os, f o ≠ none) :
    ∃ o ∈ os, f o = some (lastVal f d os) := by
  obtain ⟨o, h1, h2⟩ := h
  have hne : os.filterMap f ≠ [] := by
    cases hf : f o with
    | none => exact absurd hf h2
    | some x => exact List.ne_nil_of_mem (List.mem_filterMap.2 ⟨o, h1, hf⟩)
  unfold lastVal
  rw [List.getLast?_eq_some_getLast hne]
  exact List.mem_filterMap.1 (List.getLast_mem hne)

theorem lastVal_none {I α : Type} (f : I → Option α) (d : α) {os : List I} (h : ∀ o ∈ os, f o = none) : lastVal f d os = d := by
  unfold lastVal
  have : os.filterMap f = [] := List.filterMap_eq_nil_iff.2 h
  rw [this]
  rfl

theorem pg_edges {os : List PgItem} {f : Option Arg} : (pgMeaning os f).edges.isSome = true ↔ ∃ a, PgItem.edges a ∈ os := by
  constructor
  · intro h
    by_contra hc
    push Not at hc
    have : (pgMeaning os f).edges = none := lastVal_none _ _ fun o ho => by cases o <;> first | rfl | exact absurd ho (hc _)
    rw [this] at h; cases h
  · rintro ⟨a, ha⟩
    obtain ⟨o, -, h⟩ := lastVal_some PgItem.edges? none ⟨_, ha, by simp [PgItem.edges?]⟩
    change (lastVal PgItem.edges? none os).isSome = true
    cases o <;> simp [PgItem.edges?] at h
    rw [← h]; rfl

theorem pg_form {os : List PgItem} {f : Option Arg} : (pgMeaning os f).form.isSome = true ↔ ∃ a, PgItem.form a ∈ os := by
  constructor
  · intro h
    by_contra hc
    push Not at hc
    have : (pgMeaning os f).form = none := lastVal_none _ _ fun o ho => by cases o <;> first | rfl | exact absurd ho (hc _)
    rw [this] at h; cases h
  · rintro ⟨a, ha⟩
    obtain ⟨o, -, h⟩ := lastVal_some PgItem.form? none ⟨_, ha, by simp [PgItem.form?]⟩
    change (lastVal PgItem.form? none os).isSome = true
    cases o <;> simp [PgItem.form?] at h
    rw [← h]; rfl

theorem pg_rm {os : List PgItem} {f : Option Arg} : 0 ≤ (pgMeaning os f).rm ↔ ∃ n, PgItem.rm n ∈ os := by
  constructor
  · intro h
    by_contra hc
    push Not at hc
    have : (pgMeaning os f).rm = -1 := lastVal_none _ _ fun o ho => by cases o <;> first | rfl | exact absurd ho (hc _)
    rw [this] at h; cases h
  · rintro ⟨a, ha⟩
    obtain ⟨o, -, h⟩ := lastVal_some PgItem.rm? (-1) ⟨_, ha, by simp [PgItem.rm?]⟩
    change 0 ≤ lastVal PgItem.rm? (-1) os
    cases o <;> simp [PgItem.rm?] at h
    rw [← h]; exact Int.natCast_nonneg _

theorem pg_patches {os : List PgItem} {f : Option Arg} : (∃ o ∈ os, o.patches = true) ↔
    ((pgMeaning os f).edges.isSome ∨ (pgMeaning os f).form.isSome ∨ 0 ≤ (pgMeaning os f).rm) := by
  rw [pg_edges, pg_form, pg_rm]
  constructor
  · rintro ⟨o, h1, h2⟩
    cases o <;> first | exact Or.inl ⟨_, h1⟩ | exact Or.inr (Or.inl ⟨_, h1⟩) | exact Or.inr (Or.inr ⟨_, h1⟩) | cases h2
  · rintro (⟨a, h⟩ | ⟨a, h⟩ | ⟨a, h⟩) <;> exact ⟨_, h, rfl⟩

/-- **C64.** Without `-e`, `-f` and `-r`: status 0 if help is asked for, else 1. With one of them: status 1 without an automaton, with
both `-e` and `-f`, and if automaton and specification are to be read from standard input. Nothing is written. -/
theorem patch_misuse (w : PatchWorld) {args : List Arg} {os : List PgItem} {f : Option Arg} (h : PgCmdLine os f args) :
    ((∀ o ∈ os, o.patches = false) → patchMain w args = .exit (if PgItem.help ∈ os then 0 else 1) none) ∧
    ((∃ o ∈ os, o.patches = true) → (∀ a, PgItem.aut a ∉ os) → patchMain w args = .exit 1 none) ∧
    ((∃ a, PgItem.edges a ∈ os) → (∃ a, PgItem.form a ∈ os) → patchMain w args = .exit 1 none) ∧
    ((∃ o ∈ os, o.patches = true) → PgItem.help ∉ os → f = none → (∃ n, (pgMeaning os f).aut = some ('-' :: n)) →
      patchMain w args = .exit 1 none) := by
  have key : ∀ s, pgCheck (pgMeaning os f) = some s → patchMain w args = .exit s none := by
    intro s hs
    unfold patchMain
    rw [pg_cli h]
    simp only [hs]
  refine ⟨fun hp => key _ ?_, fun hp ha => key _ ?_, fun h1 h2 => key _ ?_, fun hp hh hf ha => key _ ?_⟩
  · have hn : ¬ ((pgMeaning os f).edges.isSome ∨ (pgMeaning os f).form.isSome ∨ 0 ≤ (pgMeaning os f).rm) := by
      rw [← pg_patches]
      rintro ⟨o, h1, h2⟩
      rw [hp o h1] at h2; cases h2
    have h3 : (pgMeaning os f).patch = false := List.any_eq_false.2 fun o ho => by rw [hp o ho]; decide
    have h4 : (pgMeaning os f).help = decide (PgItem.help ∈ os) := rfl
    unfold pgCheck
    rw [if_neg (fun hc => hn (Or.inl hc.1)), if_neg (fun hc => hn hc.1), h4, h3]
    by_cases hh : PgItem.help ∈ os <;> simp [hh]
  · have hn := (pg_patches (f := f)).1 hp
    have h3 : (pgMeaning os f).aut = none := lastVal_none _ _ fun o ho => by cases o <;> first | rfl | exact absurd ho (ha _)
    unfold pgCheck
    split
    · rfl
    · rw [if_pos ⟨hn, h3⟩]
  · unfold pgCheck
    rw [if_pos ⟨pg_edges.2 h1, pg_form.2 h2⟩]
  · obtain ⟨n, ha⟩ := ha
    have h3 : (pgMeaning os f).patch = true := List.any_eq_true.2 hp
    have h4 : (pgMeaning os f).help = false := by simp [pgMeaning, hh]
    have h5 : (pgMeaning os f).input = none := hf
    unfold pgCheck
    rw [ha, h3, h4, h5]
    split
    · rfl
    · simp [fromStdin]

/-! ## Options that are not heeded -/

/-- **C64, a defect.** With `-f` or `-e` the option `-r` has no effect: the run is the one without it. -/
theorem patch_ignores_r {w : PatchWorld} {c : PgCfg} {v : PatchVars} {vl : PTree} {sp : TSpec} {form : PTree} {text : List Char}
    (h : c.form ≠ none ∨ c.edges ≠ none) (n : ℤ) :
    pgPatch w { c with rm := n } v vl sp form text = pgPatch w c v vl sp form text := by
  have hw : ∀ {r : PRes (Aut ℤ (BState v.ne v.ns))}, pgWrite w { c with rm := n } v.ev v.sv v.nonbool r = pgWrite w c v.ev v.sv v.nonbool r := by
    intro r; cases r <;> rfl
  unfold pgPatch
  simp only [hw]
  cases he : c.edges with
  | some e => rfl
  | none =>
    cases hf : c.form with
    | some x => rfl
    | none => simp [he, hf] at h

/-! ## Metric variables -/

theorem metricWords_blanks (k : ℕ) (r : List Char) : metricWords [] (List.replicate k ' ' ++ r) = metricWords [] r := by
  induction k with
  | zero => rfl
  | succ k ih =>
    rw [List.replicate_succ, List.cons_append]
    simpa [metricWords] using ih

theorem metricWords_word (w : List Char) (h : ' ' ∉ w) (r : List Char) : ∀ a, metricWords a (w ++ r) = metricWords (a ++ w) r := by
  induction w with
  | nil => intro a; simp
  | cons c w ih =>
    intro a
    rw [List.mem_cons, not_or] at h
    rw [List.cons_append]
    simp only [metricWords]
    rw [if_neg (fun e => h.1 e.symm), ih h.2, List.append_assoc]
    rfl

theorem blank_words {ws : List (List Char)} {m : Arg} (h : BlankWords ws m) : metricWords [] m = ws := by
  induction h with
  | nil k =>
    have := metricWords_blanks k []
    rwa [List.append_nil] at this
  | @cons w ws r k h1 h2 h3 hr ih =>
    rw [metricWords_blanks, metricWords_word w h2, List.nil_append]
    rcases h3 with rfl | ⟨r', rfl⟩
    · simp only [metricWords] at ih
      subst ih
      simp [metricWords, h1]
    · simp only [metricWords, if_pos] at ih ⊢
      rw [if_neg h1]
      simpa using ih

/-- **C64.** When the words of `-m` are names of integer variables and no such name is the beginning of another name, the distance is
measured by the bits of these variables, in the order of the words. `ms` has for each word its declaration and those before it. -/
theorem patch_metric_offsets {evars svars : Decls} (hp : PfxFree (evars ++ svars)) {ms : List (Decls × (Name × ℤ))}
    (hm : ∀ x ∈ ms, (x.1 ++ [x.2]) <+: evars ++ svars ∧ 0 ≤ x.2.2) {m : Arg} (hw : BlankWords (ms.map fun x => x.2.1) m) :
    metricOffsets (expDecls evars) (expDecls svars) (some m) = ms.map fun x => ((x.1.map declWidth).sum, declWidth x.2) := by
  have key : ∀ l : List (Decls × (Name × ℤ)), (∀ x ∈ l, (x.1 ++ [x.2]) <+: evars ++ svars ∧ 0 ≤ x.2.2) →
      getOffsetsList (expDecls evars) (expDecls svars) (l.map fun x => (x.2.1, 0)) =
        some (l.map fun x => ((x.1.map declWidth).sum, declWidth x.2)) := by
    intro l
    induction l with
    | nil => intro _; rfl
    | cons x l ih =>
      intro h
      obtain ⟨⟨B, hB⟩, h0⟩ := h x List.mem_cons_self
      rw [List.append_assoc] at hB
      simp only [List.map_cons, getOffsetsList]
      rw [offsetOf_eq hp hB.symm h0, ih fun y hy => h y (List.mem_cons_of_mem _ hy)]
      rfl
  change (getOffsetsList _ _ ((metricWords [] m).map fun n => (n, 0))).getD [] = _
  rw [blank_words hw, List.map_map]
  exact congrArg (fun o => o.getD []) (key ms hm)

end Gr1c
