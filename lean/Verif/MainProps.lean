import Verif.MainLemmas
import Verif.ParseProps
import Verif.CliProps
import Verif.InteractProps

/-!
# Properties of the program as a whole (C38 exit statuses, C53)
-/

namespace Gr1c

/-! ## What a run is given -/

/-- The text is a specification file that says `d`. -/
def FileSays (text : List Char) (d : FileData) : Prop :=
  ∃ ts ss, Layout true ts text ∧ FileToks false ss ts ∧ readSecs .empty ss = some d

/-- Conditions on a specification: variables have distinct names, also after the expansion into bits, are
used according to their kind and where they may be used, and variables of domain `[0,0]` are not compared
with `!= 0`. -/
structure GoodSpec (d : FileData) (flag : InitFlag) : Prop where
  fresh : Fresh d.evars d.svars
  typed : TypedSpec d.evars d.svars d.sp
  scope : WellScoped d.evars d.svars flag d.sp
  noNe0 : NoNe0 (d.evars ++ d.svars) d.sp.all

/-- The text given to the program: the file named on the command line, or standard input. -/
def GivenText (w : World) (f : Option Arg) (text : List Char) : Prop :=
  (∃ a, f = some a ∧ w.file a = some text) ∨ (f = none ∧ w.stdin = text)

/-- The program is called with the options `os` and the file `f`, in the documented spelling, not asking
for help and not lacking what `-i` and `-P` need; the specification is the given text. -/
structure Called (w : World) (args : List Arg) (os : List Opt) (f : Option Arg) (text : List Char) : Prop where
  line : CmdLine false os f args
  command : ∀ v ∈ commandWords, args.head? ≠ some v.toList
  noHelp : Opt.help ∉ os
  needsFile : ¬ (f = none ∧ (meaning os f).run = .interactive)
  needsOutput : ¬ (Opt.promela ∈ os ∧ (meaning os f).output = none)
  source : GivenText w f text

/-- In addition, the text says `d`, and the files of `-p` can be written. -/
structure RunsOn (w : World) (args : List Arg) (os : List Opt) (f : Option Arg) (d : FileData) : Prop where
  called : ∃ text, Called w args os f text ∧ FileSays text d
  dump : Opt.ptdump ∈ os → w.canDump = true

theorem FileSays.parsed {text : List Char} {d : FileData} (h : FileSays text d) :
    parseFile false text = some d.toP ∧ GoodDecls d.evars ∧ GoodDecls d.svars := by
  obtain ⟨ts, ss, hl, hf, hd⟩ := h
  refine ⟨?_, readSecs_good hf .empty d (fun x hx => absurd hx (by simp [FileData.empty]))
    (fun x hx => absurd hx (by simp [FileData.empty])) hd⟩
  unfold parseFile lexFile
  rw [layout_scanned hl, file_parsed hf, hd]; rfl

theorem GivenText.source {w : World} {f : Option Arg} {text : List Char} (h : GivenText w f text) :
    w.source f = some text := by
  rcases h with ⟨a, rfl, h⟩ | ⟨rfl, h⟩
  · exact h
  · exact congrArg some h

theorem called_run {w : World} {args : List Arg} {os : List Opt} {f : Option Arg} {text : List Char}
    (h : Called w args os f text) : cliMain args = .run (meaning os f) := by
  rw [cli_documented h.line h.command]
  unfold CfgResult
  have a : (meaning os f).help = false := by simp [meaning, h.noHelp]
  rw [if_neg (by simp [a]), if_neg]
  rintro (b | b)
  · exact h.needsFile b
  · exact h.needsOutput ⟨by simpa [meaning] using b.1, b.2⟩

/-- Up to the parsed specification. -/
theorem main_parsed {w : World} {args : List Arg} {os : List Opt} {f : Option Arg} {d : FileData}
    (h : RunsOn w args os f d) : gr1cMain w args = runParsed w (meaning os f) d.toP := by
  obtain ⟨text, h3, h4⟩ := h.called
  unfold gr1cMain
  rw [called_run h3]
  have h5 : w.source (meaning os f).input = some text := h3.source.source
  simp only [h5, h4.parsed.1]

/-- Past the dump files and up to the BDDs. -/
theorem main_front {w : World} {args : List Arg} {os : List Opt} {f : Option Arg} {d : FileData}
    (h : RunsOn w args os f d) (hg : GoodSpec d (meaning os f).init) :
    checkGr1cForm d.toP.ev d.toP.sv (meaning os f).init d.toP.sp = 0 ∧
    ¬ ((meaning os f).ptdump = true ∧ w.canDump = false ∧
      ¬ checkGr1cForm d.toP.ev d.toP.sv (meaning os f).init d.toP.sp < 0) ∧
    ∃ B : BitSpec (expDecls d.evars).length (expDecls d.svars).length,
      frontEnd d.toP.ev d.toP.sv (meaning os f).init d.toP.sp =
        .ok (expDecls d.evars).tree (expDecls d.svars).tree
          (Decls.tree ((d.evars ++ d.svars).filter fun d => 0 ≤ d.2)) (expDecls d.evars).length
          (expDecls d.svars).length B ∧
      B.sgs ≠ [] ∧ Represents d.evars d.svars (meaning os f).init d.sp B := by
  obtain ⟨text, -, h4⟩ := h.called
  refine ⟨(check_form_exact _ _ _ _).1 hg.scope, ?_,
    front_exact h4.parsed.2.1 h4.parsed.2.2 hg.fresh _ _ hg.typed hg.scope hg.noNe0⟩
  rintro ⟨h1, h2, -⟩
  have := h.dump (by simpa [meaning] using h1)
  rw [this] at h2; cases h2

/-- **C38, C53, verdict.** For every documented command line and every readable specification file that
meets `GoodSpec`: with `-s` the status is 0; with `-r` it is 0 if the specification is realizable over
the declared values and 3 if not; without such an option it is 3 if the specification is not realizable.
Nothing is written in these cases. -/
theorem main_verdict {w : World} {args : List Arg} {os : List Opt} {f : Option Arg} {d : FileData}
    (h : RunsOn w args os f d) (hg : GoodSpec d (meaning os f).init) :
    ((meaning os f).run = .syntaxOnly → gr1cMain w args = .exit 0 none) ∧
    ((meaning os f).run = .realizable →
      (SpecRealizable d.evars d.svars (meaning os f).init d.sp → gr1cMain w args = .exit 0 none) ∧
      (¬ SpecRealizable d.evars d.svars (meaning os f).init d.sp → gr1cMain w args = .exit 3 none)) ∧
    ((meaning os f).run = .synthesis →
      ¬ SpecRealizable d.evars d.svars (meaning os f).init d.sp → gr1cMain w args = .exit 3 none) := by
  obtain ⟨h1, h2, B, h3, h4, h5⟩ := main_front h hg
  obtain ⟨r, c1, c2, -⟩ := h5.verdict h4
  rw [main_parsed h]
  generalize hc : meaning os f = c at *
  refine ⟨fun hr => ?_, fun hr => ⟨fun hv => ?_, fun hv => ?_⟩, fun hr hv => ?_⟩
  · unfold runParsed
    rw [hr, h1]; rfl
  · unfold runParsed
    simp only [hr, if_neg h2, h3, c1]
    obtain ⟨W, rfl⟩ := Option.ne_none_iff_exists'.1 (c2.2 hv)
    rfl
  · unfold runParsed
    simp only [hr, if_neg h2, h3, c1]
    have : r = none := by by_contra hn; exact hv (c2.1 hn)
    subst this; rfl
  · unfold runParsed
    simp only [hr, if_neg h2, h3, c1]
    have : r = none := by by_contra hn; exact hv (c2.1 hn)
    subst this; rfl

/-- Reaching the synthesis. -/
theorem main_synth {w : World} {args : List Arg} {os : List Opt} {f : Option Arg} {d : FileData}
    (h : RunsOn w args os f d) (hg : GoodSpec d (meaning os f).init) (hr : (meaning os f).run = .synthesis)
    (hv : SpecRealizable d.evars d.svars (meaning os f).init d.sp) :
    ∃ B : BitSpec (expDecls d.evars).length (expDecls d.svars).length, B.sgs ≠ [] ∧
      Represents d.evars d.svars (meaning os f).init d.sp B ∧
      gr1cMain w args = synthAndWrite w (meaning os f) (expDecls d.evars).tree (expDecls d.svars).tree
        (Decls.tree ((d.evars ++ d.svars).filter fun d => 0 ≤ d.2)) B := by
  obtain ⟨h1, h2, B, h3, h4, h5⟩ := main_front h hg
  obtain ⟨r, c1, c2, -⟩ := h5.verdict h4
  refine ⟨B, h4, h5, ?_⟩
  rw [main_parsed h]
  generalize hc : meaning os f = c at *
  unfold runParsed
  simp only [hr, if_neg h2, h3, c1]
  obtain ⟨W, rfl⟩ := Option.ne_none_iff_exists'.1 (c2.2 hv)
  simp

/-- **C53.** From the command line and the text of the specification to the automaton: if the
specification is realizable and has an initial state, the program ends with status 0 and writes, to the
requested place in the requested format, the declared variables and an automaton whose states are the
values of the states of a strategy for the specification over the declared values. -/
theorem main_strategy {w : World} {args : List Arg} {os : List Opt} {f : Option Arg} {d : FileData}
    (h : RunsOn w args os f d) (hg : GoodSpec d (meaning os f).init) (hr : (meaning os f).run = .synthesis)
    (hv : SpecRealizable d.evars d.svars (meaning os f).init d.sp)
    (hi : SpecHasInit d.evars d.svars (meaning os f).init d.sp)
    (hp : PfxFree (d.evars ++ d.svars)) (hI : IntDecls (d.evars ++ d.svars))
    (hw : w.Sensible) (henv : d.evars ≠ [] ∨ ∀ f ∈ d.sp.etrans, f = .const 1)
    (hfuel : synthBound d.evars d.svars d.sp ≤ w.fuel) (hout : w.canOutput (meaning os f)) :
    ∃ st : Aut ℤ (IState d.evars d.svars), SpecStrategy d.evars d.svars (meaning os f).init d.sp st ∧
      (∃ x ∈ st, x.initial = true) ∧ gr1cMain w args = .exit 0 (some ⟨(meaning os f).output, (meaning os f).format, d.evars, d.svars,
        withStates stateValues st⟩) := by
  obtain ⟨B, h4, h5, h6⟩ := main_synth h hg hr hv
  obtain ⟨st, k1, k3, -, k2⟩ := synth_written hg.fresh hp hI h5 h4 hv hi hw henv hfuel hout
  exact ⟨st, k1, k3, h6.trans k2⟩

/-! ## Realizable without initial states -/

theorem synthesize_no_stack {E S : Type} [Fintype E] [DecidableEq E] [Fintype S] [DecidableEq S]
    {G : Game E S} {egs sgs : List (Finset (E × S))} {flag : InitFlag} {ei si : Option (Finset (E × S))}
    {o : Oracle E S} {fuel : ℕ} {W : Finset (E × S)} (hW : computeWinningSet G egs sgs = some W)
    (h : ∀ ss, initStack o W flag ei si = some ss → ss = []) :
    synthesize G egs sgs flag ei si o fuel = .ok [] ∨ synthesize G egs sgs flag ei si o fuel = .err ∨
      (synthesize G egs sgs flag ei si o fuel = .ub ∧ W = ∅) := by
  have hwin : winningSet G (withDefaultGoal egs).get sgs.get = some W := hW
  have hn : 0 < sgs.length := by
    unfold winningSet at hwin
    split at hwin
    · assumption
    · simp at hwin
  unfold synthesize
  rw [hW]
  simp only [computeSublevels, if_pos hn, dif_pos hn]
  split
  · cases hs : initStack o W flag ei si with
    | none => right; left; rfl
    | some ss =>
      left
      rw [h ss hs]
      simp only [insertInitial, List.map_nil]
      rw [synthLoop]
  · rename_i hsome
    right; right
    refine ⟨rfl, ?_⟩
    by_contra hne
    apply hsome
    intro i
    apply shift_isSome
    rw [muY_goal_W (withDefaultGoal_pos egs) hn hwin]
    exact Finset.nonempty_iff_ne_empty.2 hne

theorem no_init_stack {evars svars : Decls} {flag : InitFlag} {sp : FSpec}
    {B : BitSpec (expDecls evars).length (expDecls svars).length} (hB : Represents evars svars flag sp B)
    (hv : SpecRealizable evars svars flag sp) (hi : ¬ SpecHasInit evars svars flag sp)
    {o : Oracle (Val (expDecls evars).length) (Val (expDecls svars).length)} (ho : o.Valid B.game)
    (W : Finset (BState (expDecls evars).length (expDecls svars).length)) (ss)
    (h : initStack o W flag B.ei B.si = some ss) : ss = [] := by
  unfold SpecRealizable CodeRealizable at hv
  unfold SpecHasInit HasInit at hi
  cases flag with
  | undefined => exact hv.elim
  | allInit => exact absurd hv.1 hi
  | allEnvExistSys =>
    have hno : ∀ s', s' ∈ initSet B.ei → s' ∉ initSet B.si := by
      intro s' h1 h2
      obtain ⟨s, rfl⟩ := hB.both (by simp) s' h1 h2
      exact hi ⟨s, (hB.ei s).1 h1, (hB.si s).1 h2⟩
    unfold initStack at h
    simp only at h
    cases he : (o.enumEnv (initSet B.ei)).reverse with
    | nil =>
      rw [he] at h
      simp only [pickInit, Option.some.injEq] at h
      exact h.symm
    | cons e es =>
      exfalso
      have hmem : e ∈ o.enumEnv (initSet B.ei) := by
        rw [← List.mem_reverse, he]; exact List.mem_cons_self
      obtain ⟨x, hx⟩ := (ho.enumEnv_mem _ _).1 hmem
      have hemp : ∀ t, t ∉ initSet B.si := by
        intro t ht
        exact hno (e, t.2) (hB.eiEnv rfl e x t.2 hx) (hB.siSys rfl t.1 e t.2 ht)
      rw [he] at h
      simp only [pickInit] at h
      rw [if_pos] at h
      · cases h
      · apply Finset.filter_eq_empty_iff.2
        intro t _ ht
        exact hemp t ht.2
  | oneSide =>
    push Not at hi
    obtain ⟨h1, h2⟩ := hi
    have hn : sp.sinit = none := by
      cases hs : sp.sinit with
      | none => rfl
      | some g => rw [hs] at h1; cases h1
    have hBn : B.si = none := (hB.siNone rfl).2 hn
    rw [hBn] at h
    simp only [initStack, Option.some.injEq] at h
    have : o.enum (initSet B.ei) = [] := by
      rw [List.eq_nil_iff_forall_not_mem]
      intro s' hs'
      obtain ⟨s, rfl⟩ := hB.envSide rfl hn s' ((ho.enum_mem _ _).1 hs')
      exact h2 s ((hB.ei s).1 ((ho.enum_mem _ _).1 hs'))
    rw [this] at h
    exact h.symm

/-- **C38, departure.** A specification that is reported as realizable because it has no initial state
gives no automaton: status -1, provided some state is won. (Otherwise `synthesize` reads beyond an array,
see `synthesize_empty_ub`.) -/
theorem main_no_init {w : World} {args : List Arg} {os : List Opt} {f : Option Arg} {d : FileData}
    (h : RunsOn w args os f d) (hg : GoodSpec d (meaning os f).init) (hr : (meaning os f).run = .synthesis)
    (hv : SpecRealizable d.evars d.svars (meaning os f).init d.sp)
    (hi : ¬ SpecHasInit d.evars d.svars (meaning os f).init d.sp)
    (hw : w.Sensible) (henv : d.evars ≠ [] ∨ ∀ f ∈ d.sp.etrans, f = .const 1)
    (hwin : ∃ s, Winnable (intGame d.evars d.svars d.sp) (d.sp.egoals.map fmStates)
      ((sysGoals d.sp).map fmStates) s) :
    gr1cMain w args = .exit (-1) none := by
  obtain ⟨B, h4, h5, h6⟩ := main_synth h hg hr hv
  have ho := oracle_ok h5 hw henv
  obtain ⟨W, hW⟩ := (winning_set_defined B.game B.egs B.sgs).2 h4
  obtain ⟨s, hs⟩ := hwin
  have hne : W ≠ ∅ := by
    have := (winning_set_exact _ _ _ W hW (encState s)).2 ((embed_winnable h5.emb h5.egs h5.sgs s).2 hs)
    rintro rfl
    simp at this
  rw [h6]
  unfold synthAndWrite
  rcases synthesize_no_stack (fuel := w.fuel) hW (no_init_stack h5 hv hi ho W) with k | k | ⟨-, k⟩
  · rw [k]; simp
  · rw [k]
  · exact absurd k hne

/-! ## Other statuses -/

theorem cli_status {args : List Arg} {s : ℤ} (h : cliMain args = .exit s) : s = 0 ∨ s = 1 := by
  have hs' : ∀ r, afterOptions r = .exit s → s = 0 ∨ s = 1 := by
    intro r hr
    unfold afterOptions at hr
    split at hr <;> try split_ifs at hr
    all_goals first | (cases hr; simp) | cases hr
  unfold cliMain at h
  split at h
  · exact hs' _ h
  · split_ifs at h <;> exact hs' _ h

/-- Nothing but an automaton from a run with status 0 is written, and the statuses are -1 to 3. -/
theorem main_statuses (w : World) (args : List Arg) (s : ℤ) (out : Option Output)
    (h : gr1cMain w args = .exit s out) : (s = -1 ∨ s = 0 ∨ s = 1 ∨ s = 2 ∨ s = 3) ∧ (out ≠ none → s = 0) := by
  unfold gr1cMain at h
  split at h
  · cases h
  · cases h
  · rename_i s' hs
    simp only [MainRes.exit.injEq] at h
    obtain ⟨rfl, rfl⟩ := h
    have := cli_status hs
    exact ⟨by omega, by simp⟩
  · split at h
    · simp only [MainRes.exit.injEq] at h
      obtain ⟨rfl, rfl⟩ := h
      simp
    · split at h
      · simp only [MainRes.exit.injEq] at h
        obtain ⟨rfl, rfl⟩ := h
        simp
      · unfold runParsed at h
        split at h
        · split at h <;> simp only [MainRes.exit.injEq] at h <;> obtain ⟨rfl, rfl⟩ := h <;> simp
        · split at h
          · simp only [MainRes.exit.injEq] at h
            obtain ⟨rfl, rfl⟩ := h
            simp
          · split at h <;> try simp only [MainRes.exit.injEq, reduceCtorEq] at h
            · obtain ⟨rfl, rfl⟩ := h; simp
            · obtain ⟨rfl, rfl⟩ := h; simp
            · split at h
              · split at h
                · simp only [MainRes.exit.injEq] at h
                  obtain ⟨rfl, rfl⟩ := h
                  simp
                · split at h <;> simp only [MainRes.exit.injEq, reduceCtorEq] at h <;> obtain ⟨rfl, rfl⟩ := h <;> simp
              · split at h <;> try simp only [MainRes.exit.injEq, reduceCtorEq] at h
                · obtain ⟨rfl, rfl⟩ := h; simp
                · split at h
                  · unfold synthAndWrite at h
                    split at h <;> try simp only [MainRes.exit.injEq, reduceCtorEq] at h
                    · obtain ⟨rfl, rfl⟩ := h; simp
                    · split at h
                      · simp only [MainRes.exit.injEq] at h
                        obtain ⟨rfl, rfl⟩ := h; simp
                      · split at h
                        · split_ifs at h <;> simp only [MainRes.exit.injEq] at h <;> obtain ⟨rfl, rfl⟩ := h <;> simp
                        · cases h
                  · simp only [MainRes.exit.injEq] at h
                    obtain ⟨rfl, rfl⟩ := h; simp

theorem frontEnd_formError (evars svars : PTree) (flag : InitFlag) (sp : TSpec) :
    frontEnd evars svars flag sp = .formError ↔ checkGr1cForm evars svars flag sp < 0 := by
  unfold frontEnd
  constructor
  · intro h
    by_contra hn
    rw [if_neg hn] at h
    revert h
    split
    · simp
    · simp
    · split
      · simp
      · intro h
        unfold frontBits at h
        split at h <;> cases h
  · intro h
    rw [if_pos h]

theorem synthAndWrite_status {ne ns : ℕ} (w : World) (c : Cfg) (ev sv nb : PTree) (B : BitSpec ne ns) {s : ℤ}
    {out : Option Output} (h : synthAndWrite w c ev sv nb B = .exit s out) : s = -1 ∨ s = 0 := by
  unfold synthAndWrite at h
  split at h <;> try simp only [MainRes.exit.injEq, reduceCtorEq] at h
  · omega
  · split at h
    · simp only [MainRes.exit.injEq] at h; omega
    · split at h
      · split_ifs at h <;> simp only [MainRes.exit.injEq] at h <;> omega
      · cases h

theorem runParsed_two (w : World) (c : Cfg) (p : PState) (out : Option Output) :
    runParsed w c p = .exit 2 out ↔ out = none ∧ checkGr1cForm p.ev p.sv c.init p.sp < 0 := by
  constructor
  · intro h
    unfold runParsed at h
    split at h
    · split at h
      · rename_i hf
        simp only [MainRes.exit.injEq, true_and] at h
        exact ⟨h.symm, hf⟩
      · simp at h
    · split at h
      · simp at h
      · split at h <;> try simp only [MainRes.exit.injEq, reduceCtorEq] at h
        · rename_i hf
          exact ⟨h.2.symm, (frontEnd_formError _ _ _ _).1 hf⟩
        · exact absurd h.1 (by decide)
        · split at h
          · split at h
            · simp at h
            · split at h <;> simp at h
          · split at h <;> try simp only [MainRes.exit.injEq, reduceCtorEq] at h
            · omega
            split at h
            · have := synthAndWrite_status _ _ _ _ _ _ h
              omega
            · simp at h
  · rintro ⟨rfl, h⟩
    unfold runParsed
    split
    · rw [if_pos h]
    · rw [if_neg (fun hh => hh.2.2 h), (frontEnd_formError _ _ _ _).2 h]

/-- **C38, status 2.** The status is 2 exactly when the program comes to read a specification and the
parser rejects it or `check_gr1c_form` finds something. -/
theorem main_two (w : World) (args : List Arg) (out : Option Output) :
    gr1cMain w args = .exit 2 out ↔ out = none ∧ ∃ c text, cliMain args = .run c ∧
      w.source c.input = some text ∧ ∀ p, parseFile false text = some p → checkGr1cForm p.ev p.sv c.init p.sp < 0 := by
  constructor
  · intro h
    unfold gr1cMain at h
    split at h
    · cases h
    · cases h
    · rename_i s' hs
      have := cli_status hs
      simp only [MainRes.exit.injEq] at h
      omega
    · rename_i c hc
      split at h
      · simp at h
      · rename_i text ht
        split at h
        · rename_i hp
          simp only [MainRes.exit.injEq, true_and] at h
          exact ⟨h.symm, c, text, hc, ht, fun p hp' => by rw [hp] at hp'; cases hp'⟩
        · rename_i p hp
          obtain ⟨h1, h2⟩ := (runParsed_two w c p out).1 h
          exact ⟨h1, c, text, hc, ht, fun p' hp' => by rw [hp] at hp'; cases hp'; exact h2⟩
  · rintro ⟨rfl, c, text, h1, h2, h3⟩
    unfold gr1cMain
    rw [h1]
    simp only [h2]
    cases hp : parseFile false text with
    | none => rfl
    | some p => exact (runParsed_two w c p none).2 ⟨rfl, h3 p hp⟩

/-- **C38, status 2 for what the file says.** For a documented command line and a text with given tokens,
the first of which begins a section: the status is 2 exactly when the tokens are not a specification file
or the specification uses names where they may not be used. -/
theorem main_rejects {w : World} {args : List Arg} {os : List Opt} {f : Option Arg} {text : List Char}
    {t : Tok} {ts : List Tok} (h : Called w args os f text) (hl : Layout true (t :: ts) text) (ht : isHeader t = true) :
    gr1cMain w args = .exit 2 none ↔ ∀ ss d, FileToks false ss (t :: ts) → readSecs .empty ss = some d →
      ¬ WellScoped d.evars d.svars (meaning os f).init d.sp := by
  have hpt : parseFile false text = parseToks false (t :: ts) := by
    unfold parseFile lexFile
    rw [layout_scanned hl]
  rw [main_two]
  constructor
  · rintro ⟨-, c, text', h1, h2, h3⟩ ss d h4 h5 h6
    rw [called_run h] at h1
    cases h1
    have : text' = text := by
      have := h.source.source
      have h2' : w.source f = some text' := h2
      rw [this] at h2'; cases h2'; rfl
    subst this
    have := h3 d.toP (hpt.trans ((file_accepted ht _).2 ⟨ss, d, h4, h5, rfl⟩))
    have h7 : checkGr1cForm d.toP.ev d.toP.sv (meaning os f).init d.toP.sp = 0 := (check_form_exact _ _ _ _).1 h6
    rw [h7] at this
    omega
  · intro h'
    refine ⟨rfl, meaning os f, text, called_run h, h.source.source, ?_⟩
    intro p hp
    rw [hpt] at hp
    obtain ⟨ss, d, h1, h2, rfl⟩ := (file_accepted ht p).1 hp
    have : checkGr1cForm d.toP.ev d.toP.sv (meaning os f).init d.toP.sp = -1 :=
      (check_form_exact _ _ _ _).2 (h' ss d h1 h2)
    omega

/-! ## The interactive mode -/

theorem relevels_ok {ne ns : ℕ} (w : World) (B : BitSpec ne ns) (h : B.sgs ≠ []) :
    ∃ σ o, iStep (w.cover _) B.interactive (iStart B.interactive) .relevels = .ok (σ, o) := by
  have hn : 0 < B.sgs.length := List.length_pos_iff.2 h
  simp only [iStep, winningSet, computeSublevels, if_pos hn, dif_pos hn]
  exact ⟨_, _, rfl⟩

/-- **C38, departure.** The interactive mode does not tell the verdict: for a specification with Boolean
variables only, realizable or not, the status is 0 when the session is ended. (The documentation says
that the status of `gr1c` is 3 for unrealizable specifications.) See also `main_session`. -/
theorem main_interactive_zero {w : World} {args : List Arg} {os : List Opt} {f : Option Arg} {d : FileData}
    (h : RunsOn w args os f d) (hg : GoodSpec d (meaning os f).init) (hr : (meaning os f).run = .interactive)
    (hb : ∀ x ∈ d.evars ++ d.svars, x.2 < 0) (hq : w.lines = [] ∨ ∃ l ls, w.lines = l :: ls ∧
      ∀ ne ns n, parseLine ne ns n l = .quit) : gr1cMain w args = .session [] := by
  obtain ⟨h1, h2, B, h3, h4, h5⟩ := main_front h hg
  rw [main_parsed h]
  generalize hc : meaning os f = c at *
  have hnil : (d.evars ++ d.svars).filter (fun d => decide (0 ≤ d.2)) = [] := by
    rw [List.filter_eq_nil_iff]
    intro x hx
    have := hb x hx
    simp; omega
  rw [hnil] at h3
  unfold runParsed
  simp only [hr, if_neg h2, h3]
  have hs : levelsetInteractive w B = .ok [] := by
    unfold levelsetInteractive
    obtain ⟨σ, o, k⟩ := relevels_ok w B h4
    rw [k]
    rcases hq with hq | ⟨l, ls, hq, hl⟩
    · simp only [hq, sessLoop]
    · simp only [hq, sessLoop, hl]
  rw [hs]
  rfl

/-- What is typed in a session: commands with their numbers, empty lines, and in the end `quit` or the end
of input. -/
inductive Script {ne ns n : ℕ} : List (List Char) → List (ACmd ne ns n) → Prop
  | eof : Script [] []
  | quit (rest : List Char) (ls : List (List Char)) : Script (("quit".toList ++ rest) :: ls) []
  | blank {ls : List (List Char)} {cs : List (ACmd ne ns n)} (h : Script ls cs) : Script ([] :: ls) cs
  | command {ls : List (List Char)} {cs : List (ACmd ne ns n)} (c : ACmd ne ns n) (rest : List Char)
      (h : Numbers c.nums rest) (hs : Script ls cs) : Script ((c.word ++ rest) :: ls) (c :: cs)

theorem sess_script {ne ns m n : ℕ} {cover : Bdd (2 * (ne + ns)) → List (CubeArr (2 * (ne + ns)))}
    {sp : ISpec ne ns m n} (hn : n ≤ 2 ^ 31) {ls : List (List Char)} {cs : List (ACmd ne ns n)}
    (h : Script ls cs) : ∀ (σ σ' : ISess ne ns m n) (os : List IOut),
      iRun cover sp σ (cs.map ACmd.enc) = .ok (σ', os) → sessLoop cover sp σ ls = .ok os := by
  induction h with
  | eof =>
    intro σ σ' os hr
    simp only [List.map_nil, iRun, CRes.ok.injEq, Prod.mk.injEq] at hr
    rw [← hr.2]; rfl
  | quit rest ls =>
    intro σ σ' os hr
    simp only [List.map_nil, iRun, CRes.ok.injEq, Prod.mk.injEq] at hr
    rw [← hr.2]; rfl
  | blank h ih =>
    intro σ σ' os hr
    exact ih σ σ' os hr
  | command c rest hnum hs ih =>
    intro σ σ' os hr
    have hp := parse_command hn c rest [] (by cases c <;> trivial) (by simpa using hnum)
    rw [List.map_cons, iRun] at hr
    unfold sessLoop
    rw [hp]
    simp only
    cases hc : iStep cover sp σ c.enc with
    | ub => rw [hc] at hr; cases hr
    | null => rw [hc] at hr; cases hr
    | ok r =>
      obtain ⟨σ1, o⟩ := r
      rw [hc] at hr
      simp only at hr ⊢
      split at hr
      · cases hr
      · cases hr
      · rename_i σ2 os2 h2
        simp only [CRes.ok.injEq, Prod.mk.injEq] at hr
        obtain ⟨rfl, rfl⟩ := hr
        rw [ih _ _ _ h2]

/-- **C35, C36, C37 and C53, interactive mode.** For every documented command line with `-i` and every
file that meets `GoodSpec`, with Boolean variables only and at least one of the system: the answers to
the commands typed are those specified by `ACmd.Answer`, for the game and the goals of the file, edited
as told by the commands before. (`sysnext` must only be used for winning states with up to date levels.) -/
theorem main_session {w : World} {args : List Arg} {os : List Opt} {f : Option Arg} {d : FileData}
    (h : RunsOn w args os f d) (hg : GoodSpec d (meaning os f).init) (hr : (meaning os f).run = .interactive)
    (hb : ∀ x ∈ d.evars ++ d.svars, x.2 < 0) (hs : d.svars ≠ []) (hn : (sysGoals d.sp).length ≤ 2 ^ 31)
    (hcov : ∀ N (f : Bdd N), IsCover f (w.cover N f)) :
    ∃ B : BitSpec (expDecls d.evars).length (expDecls d.svars).length,
      Represents d.evars d.svars (meaning os f).init d.sp B ∧
      let sp : ISpec _ _ _ _ := ⟨B.etrans, B.strans, (withDefaultGoal B.egs).get, B.sgs.get⟩
      ∀ cs : List (ACmd _ _ B.sgs.length), Script w.lines cs →
        Asks sp B.game ⟨B.game, B.game, B.game⟩ cs →
        ∃ answers, gr1cMain w args = .session answers ∧
          Answers sp B.game ⟨B.game, B.game, B.game⟩ cs answers := by
  obtain ⟨h1, h2, B, h3, h4, h5⟩ := main_front h hg
  refine ⟨B, h5, ?_⟩
  intro sp cs hsc hask
  have hsurj : ∀ (ds : Decls), (∀ x ∈ ds, x.2 < 0) → ((expDecls ds).map Prod.fst).Nodup →
      ∀ v : Val (expDecls ds).length, ∃ u, encVal ds u = v := by
    intro ds hds hnd v
    apply enc_surj hnd
    intro x hx h0
    have := hds x hx
    omega
  have hse := hsurj d.evars (fun x hx => hb x (List.mem_append_left _ hx)) hg.fresh.xevars
  have hss := hsurj d.svars (fun x hx => hb x (List.mem_append_right _ hx)) hg.fresh.xsvars
  have hE : NoPrimedSys B.etrans := by
    rintro ⟨s1, s2⟩ e x x'
    obtain ⟨s1, rfl⟩ := hse s1
    obtain ⟨s2, rfl⟩ := hss s2
    obtain ⟨e, rfl⟩ := hse e
    obtain ⟨x, rfl⟩ := hss x
    obtain ⟨x', rfl⟩ := hss x'
    have a := h5.unprimed (s1, s2) e x
    have b := h5.unprimed (s1, s2) e x'
    exact Bool.eq_iff_iff.2 (a.trans b.symm)
  have hns : 0 < (expDecls d.svars).length := by
    obtain ⟨x, xs, hx⟩ := List.exists_cons_of_ne_nil hs
    rw [expDecls_length, hx, totalWidth_cons]
    have := declWidth_pos x
    omega
  have hlen : B.sgs.length = (sysGoals d.sp).length := by
    rw [← h5.sgs.length_eq, List.length_map]
  obtain ⟨σ', as, hrun⟩ := interactive_total (w.cover _) (hcov _) (withDefaultGoal_pos B.egs)
    (List.length_pos_iff.2 h4) hns B.interactive hE cs hask
  obtain ⟨as', rfl, hans, -⟩ := interactive_session (w.cover _) (hcov _) (withDefaultGoal_pos B.egs)
    (List.length_pos_iff.2 h4) hns B.interactive hE cs σ' as hrun
  refine ⟨as', ?_, hans⟩
  rw [main_parsed h]
  have hnil : (d.evars ++ d.svars).filter (fun d => decide (0 ≤ d.2)) = [] := by
    rw [List.filter_eq_nil_iff]
    intro x hx
    have := hb x hx
    simp; omega
  rw [hnil] at h3
  generalize hc : meaning os f = c at *
  unfold runParsed
  simp only [hr, if_neg h2, h3]
  rw [if_neg (by decide)]
  have hl : levelsetInteractive w B = .ok as' := by
    unfold levelsetInteractive
    rw [iRun] at hrun
    split at hrun
    · cases hrun
    · cases hrun
    · rename_i σ1 o1 hstep
      rw [hstep]
      simp only
      split at hrun
      · cases hrun
      · cases hrun
      · rename_i σ2 os2 hrest
        simp only [CRes.ok.injEq, Prod.mk.injEq, List.cons.injEq] at hrun
        obtain ⟨rfl, rfl, rfl⟩ := hrun
        exact sess_script (by omega) hsc _ _ _ hrest
  rw [hl]

/-- Integer variables are not supported in the interactive mode. -/
theorem main_interactive_int {w : World} {args : List Arg} {os : List Opt} {f : Option Arg} {d : FileData}
    (h : RunsOn w args os f d) (hg : GoodSpec d (meaning os f).init) (hr : (meaning os f).run = .interactive)
    (hb : ∃ x ∈ d.evars ++ d.svars, 0 ≤ x.2) : gr1cMain w args = .exit (-1) none := by
  obtain ⟨h1, h2, B, h3, h4, h5⟩ := main_front h hg
  rw [main_parsed h]
  generalize hc : meaning os f = c at *
  obtain ⟨x, hx, hx0⟩ := hb
  have hmem : x ∈ (d.evars ++ d.svars).filter (fun d => decide (0 ≤ d.2)) :=
    List.mem_filter.2 ⟨hx, by simpa using hx0⟩
  have hne : Decls.tree ((d.evars ++ d.svars).filter fun d => decide (0 ≤ d.2)) ≠ .nil := by
    obtain ⟨y, ys, hy⟩ := List.exists_cons_of_ne_nil (List.ne_nil_of_mem hmem)
    rw [hy]
    unfold Decls.tree
    simp [ofItems]
  unfold runParsed
  simp only [hr, if_neg h2, h3]
  rw [if_pos hne]

/-! ## Examples -/

namespace MainEx

/-- One file, a given session, and choices in a fixed order. -/
noncomputable def world (text : List Char) (ls : List (List Char)) (fuel : ℕ) : World where
  file := fun a => if a = "s.spc".toList then some text else none
  stdin := []
  canWrite := fun a => a = "out".toList
  canDump := false
  oracle := fun _ _ G => stdOracle G Finset.univ.toList Finset.univ.toList (fun _ => false, fun _ => false)
  cover := fun _ _ => []
  lines := ls
  fuel := fuel

theorem world_sensible (text : List Char) (ls : List (List Char)) (fuel : ℕ) : (world text ls fuel).Sensible :=
  fun _ _ G _ => stdOracle_valid G _ _ _ (Finset.nodup_toList _) (by simp) (Finset.nodup_toList _) (by simp)

theorem fileSays_lines {ss : List Sec} {ts : List Tok} {d : FileData} (h : FileToks false ss ts) (hw : ∀ t ∈ ts, Writable t)
    (hd : readSecs .empty ss = some d) : FileSays (lines ts) d :=
  ⟨ts, ss, lines_layout ts hw, h, hd⟩

/-- `gr1c -t aut -o out s.spc` on the specification `GREx`. -/
def args1 : List Arg := ["-t".toList, "aut".toList, "-o".toList, "out".toList, "s.spc".toList]
def opts1 : List Opt := [.format .aut, .output "out".toList]

theorem line1 : CmdLine false opts1 (some "s.spc".toList) args1 :=
  ⟨["-t".toList, "aut".toList, "-o".toList, "out".toList], ["s.spc".toList],
    .cons (.format (w := "aut") [] (Or.inr rfl) (by decide)) (.cons (.output _) .nil), .file _ (by decide), rfl⟩

theorem good1 : GoodSpec ⟨GREx.evars, GREx.svars, GREx.sp⟩ .allEnvExistSys := by
  refine ⟨⟨by decide +kernel, by decide +kernel⟩, ?_, ?_, by unfold NoNe0; decide +kernel⟩
  · constructor <;> unfold Typed <;> decide +kernel
  · by_contra h
    have := (check_form_exact GREx.evars GREx.svars .allEnvExistSys GREx.sp).2 h
    revert this
    decide +kernel

theorem realizable_of {evars svars : Decls} {flag : InitFlag} {sp : FSpec}
    (h : (match checkRealizable (intGame evars svars sp) (sp.egoals.map fmStates) ((sysGoals sp).map fmStates)
      flag (sp.einit.map fmStates) (sp.sinit.map fmStates) with
      | some (some _) => true | _ => false) = true) : SpecRealizable evars svars flag sp := by
  split at h
  · rename_i W hW
    exact (check_realizable_char _ _ _ _ _ _ _ hW).1.1 (by simp)
  · cases h

theorem unrealizable_of {evars svars : Decls} {flag : InitFlag} {sp : FSpec}
    (h : (match checkRealizable (intGame evars svars sp) (sp.egoals.map fmStates) ((sysGoals sp).map fmStates)
      flag (sp.einit.map fmStates) (sp.sinit.map fmStates) with
      | some none => true | _ => false) = true) : ¬ SpecRealizable evars svars flag sp := by
  split at h
  · rename_i hW
    intro hr
    exact (check_realizable_char _ _ _ _ _ _ _ hW).1.2 hr rfl
  · cases h

theorem realizable1 : SpecRealizable GREx.evars GREx.svars .allEnvExistSys GREx.sp :=
  realizable_of (by decide +kernel)

theorem pfx1 : PfxFree (GREx.evars ++ GREx.svars) := by
  refine ⟨?_, by decide⟩
  generalize hl : GREx.evars ++ GREx.svars = l
  have key : ∀ i : Fin l.length, 0 ≤ (l[i]).2 → ∀ d' ∈ l.take i ++ l.drop (i + 1), ¬ (l[i]).1 <+: d'.1 ∧
      ∀ v ∈ expDecls [d'], ¬ (l[i]).1 <+: v.1 := by subst hl; decide +kernel
  intro A d B he h0
  have hi : A.length < l.length := by rw [he]; simp
  have h := key ⟨A.length, hi⟩
  have hd : l[A.length] = d := by simp [he]
  simp only [Fin.getElem_fin, hd] at h
  have h2 := h h0
  rw [he] at h2
  simpa using h2

/-- All hypotheses of `main_strategy` (and with them those of `main_verdict`) hold for this run. -/
example : ∃ text, let w := world text [] (synthBound GREx.evars GREx.svars GREx.sp)
    RunsOn w args1 opts1 (some "s.spc".toList) ⟨GREx.evars, GREx.svars, GREx.sp⟩ ∧
    GoodSpec ⟨GREx.evars, GREx.svars, GREx.sp⟩ (meaning opts1 (some "s.spc".toList)).init ∧
    (meaning opts1 (some "s.spc".toList)).run = .synthesis ∧
    SpecRealizable GREx.evars GREx.svars (meaning opts1 (some "s.spc".toList)).init GREx.sp ∧
    SpecHasInit GREx.evars GREx.svars (meaning opts1 (some "s.spc".toList)).init GREx.sp ∧
    PfxFree (GREx.evars ++ GREx.svars) ∧ IntDecls (GREx.evars ++ GREx.svars) ∧ w.Sensible ∧
    w.canOutput (meaning opts1 (some "s.spc".toList)) := by
  obtain ⟨ts, h1, h2, h3⟩ := FileEx.toks
  refine ⟨lines ts, ⟨⟨lines ts, ⟨line1, by decide, by decide, by decide, by decide, Or.inl ⟨_, rfl, by simp [world]⟩⟩,
    fileSays_lines h1 h2 FileEx.data⟩, fun h => absurd h (by decide)⟩, good1, by decide, realizable1, ?_, ?_, ?_, world_sensible _ _ _, ?_⟩
  · exact (by decide +kernel : ∃ s : IState GREx.evars GREx.svars, s ∈ initSet (GREx.sp.einit.map fmStates) ∧
      s ∈ initSet (GREx.sp.sinit.map fmStates))
  · exact pfx1
  · unfold IntDecls; decide
  · intro f hf
    have : f = "out".toList := by
      have : (meaning opts1 (some "s.spc".toList)).output = some "out".toList := by decide
      rw [this] at hf; cases hf; rfl
    subst this
    simp [world]

/-- `SYS: x; SYSINIT: !x; SYSTRANS: [](x' <-> x); SYSGOAL: []<>x;` -/
def d2 : FileData :=
  ⟨[], [(['x'], -1)], ⟨none, some (.neg (.var false ['x'])), [], [.equiv (.var true ['x']) (.var false ['x'])], [],
    [.var false ['x']]⟩⟩

theorem says2 : ∃ text, FileSays text d2 := by
  have hx : Writable (.ident ['x']) := by decide
  exact ⟨_, fileSays_lines (.cons (.vars false [(['x'], -1)] (by unfold GoodDecls; decide +kernel))
    (.cons (.init1 false (FileEx.gram false (.neg (.var false ['x'])) ⟨hx, by simp⟩ (by decide)))
    (.cons (.trans1 false (FileEx.gram true (.equiv (.var true ['x']) (.var false ['x'])) ⟨⟨hx, by simp⟩, hx, by simp⟩ (by decide)) .nil)
    (.cons (.goal1 false (Or.inr rfl) (FileEx.gram false (.var false ['x']) ⟨hx, by simp⟩ trivial) .nil) .nil))))
    (by decide +kernel) rfl⟩

theorem good2 : GoodSpec d2 .allEnvExistSys := by
  refine ⟨⟨by decide +kernel, by decide +kernel⟩, ?_, ?_, by unfold NoNe0; decide +kernel⟩
  · constructor <;> unfold Typed <;> decide +kernel
  · by_contra h
    have := (check_form_exact d2.evars d2.svars .allEnvExistSys d2.sp).2 h
    revert this
    decide +kernel

theorem unrealizable2 : ¬ SpecRealizable d2.evars d2.svars .allEnvExistSys d2.sp :=
  unrealizable_of (by decide +kernel)

/-- `ENV: e; SYS: x; ENVINIT: e & !e; SYSGOAL: []<>x;` -/
def d3 : FileData :=
  ⟨[(['e'], -1)], [(['x'], -1)], ⟨some (.and (.var false ['e']) (.neg (.var false ['e']))), none, [], [], [],
    [.var false ['x']]⟩⟩

theorem says3 : ∃ text, FileSays text d3 := by
  have hx : Writable (.ident ['x']) := by decide
  have he : Writable (.ident ['e']) := by decide
  exact ⟨_, fileSays_lines (.cons (.vars true [(['e'], -1)] (by unfold GoodDecls; decide +kernel))
    (.cons (.vars false [(['x'], -1)] (by unfold GoodDecls; decide +kernel))
    (.cons (.init1 true (FileEx.gram false (.and (.var false ['e']) (.neg (.var false ['e']))) ⟨⟨he, by simp⟩, he, by simp⟩ (by decide)))
    (.cons (.goal1 false (Or.inr rfl) (FileEx.gram false (.var false ['x']) ⟨hx, by simp⟩ trivial) .nil) .nil))))
    (by decide +kernel) rfl⟩

theorem good3 : GoodSpec d3 .oneSide := by
  refine ⟨⟨by decide +kernel, by decide +kernel⟩, ?_, ?_, by unfold NoNe0; decide +kernel⟩
  · constructor <;> unfold Typed <;> decide +kernel
  · by_contra h
    have := (check_form_exact d3.evars d3.svars .oneSide d3.sp).2 h
    revert this
    decide +kernel

theorem realizable3 : SpecRealizable d3.evars d3.svars .oneSide d3.sp := realizable_of (by decide +kernel)

theorem noInit3 : ¬ SpecHasInit d3.evars d3.svars .oneSide d3.sp := by
  intro h
  exact absurd (h rfl) (by decide +kernel)

theorem winnable3 : ∃ s, Winnable (intGame d3.evars d3.svars d3.sp) (d3.sp.egoals.map fmStates)
    ((sysGoals d3.sp).map fmStates) s := by
  obtain ⟨W, hW⟩ := (winning_set_defined (intGame d3.evars d3.svars d3.sp) (d3.sp.egoals.map fmStates)
    ((sysGoals d3.sp).map fmStates)).2 (by decide)
  have hne : W.Nonempty := by
    have key : computeWinningSet (intGame d3.evars d3.svars d3.sp) (d3.sp.egoals.map fmStates)
      ((sysGoals d3.sp).map fmStates) ≠ some ∅ := by decide +kernel
    rw [Finset.nonempty_iff_ne_empty]
    rintro rfl
    exact key hW
  obtain ⟨s, hs⟩ := hne
  exact ⟨s, (winning_set_exact _ _ _ W hW s).1 hs⟩

end MainEx

/-- **C38 is false as stated.** There is a file without initial states for which `gr1c -n ONE_SIDE_INIT -r`
reports realizability with status 0 and `gr1c -n ONE_SIDE_INIT` ends with status -1. -/
theorem no_init_status : ∃ w : World, w.Sensible ∧
    gr1cMain w ["-n".toList, "ONE_SIDE_INIT".toList, "-r".toList, "s.spc".toList] = .exit 0 none ∧
    gr1cMain w ["-n".toList, "ONE_SIDE_INIT".toList, "s.spc".toList] = .exit (-1) none := by
  obtain ⟨text, ht⟩ := MainEx.says3
  have hsp : Spelled false (.init .oneSide) ["-n".toList, "ONE_SIDE_INIT".toList] :=
    .init _ [] (Or.inr rfl) (w := "one_side_init") (by decide) (by decide)
  refine ⟨MainEx.world text [] 0, MainEx.world_sensible _ _ _, ?_, ?_⟩
  · have hrun : RunsOn (MainEx.world text [] 0) ["-n".toList, "ONE_SIDE_INIT".toList, "-r".toList, "s.spc".toList]
        [.init .oneSide, .real] (some "s.spc".toList) MainEx.d3 :=
      ⟨⟨text, ⟨⟨["-n".toList, "ONE_SIDE_INIT".toList, "-r".toList], ["s.spc".toList],
        .cons hsp (.cons (.flag (w := "-r") (by decide)) .nil), .file _ (by decide), rfl⟩, by decide, by decide, by decide,
        by decide, Or.inl ⟨_, rfl, by simp [MainEx.world]⟩⟩, ht⟩, fun h => absurd h (by decide)⟩
    exact ((main_verdict hrun MainEx.good3).2.1 rfl).1 MainEx.realizable3
  · have hrun : RunsOn (MainEx.world text [] 0) ["-n".toList, "ONE_SIDE_INIT".toList, "s.spc".toList]
        [.init .oneSide] (some "s.spc".toList) MainEx.d3 :=
      ⟨⟨text, ⟨⟨["-n".toList, "ONE_SIDE_INIT".toList], ["s.spc".toList],
        .cons hsp .nil, .file _ (by decide), rfl⟩, by decide, by decide, by decide,
        by decide, Or.inl ⟨_, rfl, by simp [MainEx.world]⟩⟩, ht⟩, fun h => absurd h (by decide)⟩
    exact main_no_init hrun MainEx.good3 rfl MainEx.realizable3 MainEx.noInit3 (MainEx.world_sensible _ _ _)
      (Or.inl (by decide)) MainEx.winnable3

/-- **C38 is false as stated.** There is a file with an unrealizable specification for which `gr1c -r`
gives status 3 and `gr1c -i` gives status 0. -/
theorem interactive_verdict_lost : ∃ w, gr1cMain w ["-r".toList, "s.spc".toList] = .exit 3 none ∧
    gr1cMain w ["-i".toList, "s.spc".toList] = .session [] := by
  obtain ⟨text, ht⟩ := MainEx.says2
  have hrun : ∀ (o : Opt) (v : String), (o, v) ∈ flagWords → o ≠ .help → o ≠ .promela → o ≠ .ptdump →
      (∀ u ∈ commandWords, some v.toList ≠ some u.toList) →
      RunsOn (MainEx.world text [] 0) [v.toList, "s.spc".toList] [o] (some "s.spc".toList) MainEx.d2 := by
    intro o v h1 h2 h3 h4 h5
    exact ⟨⟨text, ⟨⟨[v.toList], ["s.spc".toList], .cons (.flag h1) .nil, .file _ (by decide), rfl⟩, h5, by simpa using h2.symm,
      by simp, by simp [h3.symm], Or.inl ⟨_, rfl, by simp [MainEx.world]⟩⟩, ht⟩, by simp [h4.symm]⟩
  refine ⟨MainEx.world text [] 0, ?_, ?_⟩
  · exact ((main_verdict (hrun .real "-r" (by decide) (by decide) (by decide) (by decide) (by decide))
      MainEx.good2).2.1 rfl).2 MainEx.unrealizable2
  · exact main_interactive_zero (hrun .inter "-i" (by decide) (by decide) (by decide) (by decide) (by decide))
      MainEx.good2 rfl (by decide) (Or.inl rfl)

namespace MainEx

theorem nothing_more : Numbers [] "\n".toList := .nil _ (strtol_none.1 (by decide +kernel))

/-- `winning 0`, `blocksys 0`, `refresh winning`, `winning 0`, an empty line, `quit`. -/
def typed : List (List Char) := ["winning 0\n".toList, "blocksys 0\n".toList, "refresh winning\n".toList,
  "winning 0\n".toList, [], "quit\n".toList]

def told (n : ℕ) : List (ACmd 0 1 n) :=
  [.winning (fun _ => false, fun _ => false), .noS fun _ => false, .rewin, .winning (fun _ => false, fun _ => false)]

theorem typed_script (n : ℕ) : Script typed (told n) := by
  have h0 : Numbers [0] "0\n".toList := .cons [] ['0'] 0 _ _ (by unfold Spaces; decide)
    ⟨['0'], by decide, by decide, Or.inr ⟨Or.inl rfl, by decide⟩⟩ (by decide) nothing_more
  exact .command (.winning (fun _ => false, fun _ => false)) "0\n".toList h0
    (.command (.noS fun _ => false) "0\n".toList h0
    (.command .rewin "\n".toList nothing_more
    (.command (.winning (fun _ => false, fun _ => false)) "0\n".toList h0
    (.blank (.quit _ [])))))

/-- All hypotheses of `main_session` hold for `gr1c -i s.spc` with these lines typed. -/
example : ∃ w B, w.lines = typed ∧ Represents d2.evars d2.svars .allEnvExistSys d2.sp B ∧
    ∃ answers, gr1cMain w ["-i".toList, "s.spc".toList] = .session answers ∧
      Answers ⟨B.etrans, B.strans, (withDefaultGoal B.egs).get, B.sgs.get⟩ B.game ⟨B.game, B.game, B.game⟩
        (told B.sgs.length) answers := by
  obtain ⟨text, ht⟩ := says2
  let w : World := { world text typed 0 with cover := fun _ f => mintermCover f }
  have hrun : RunsOn w ["-i".toList, "s.spc".toList] [.inter] (some "s.spc".toList) d2 :=
    ⟨⟨text, ⟨⟨["-i".toList], ["s.spc".toList], .cons (.flag (by decide)) .nil, .file _ (by decide), rfl⟩, by decide, by decide,
      by simp, by decide, Or.inl ⟨_, rfl, by simp [w, world]⟩⟩, ht⟩, fun h => absurd h (by decide)⟩
  obtain ⟨B, h1, h2⟩ := main_session hrun good2 rfl (by decide) (by decide) (by decide) (fun _ f => mintermCover_isCover f)
  exact ⟨w, B, rfl, h1, h2 (told _) (typed_script _) ⟨trivial, trivial, trivial, trivial, trivial⟩⟩

/-- `gr1c -r` with the specification on standard input. -/
example : ∃ w, w.file = (fun _ => none) ∧ gr1cMain w ["-r".toList] = .exit 3 none := by
  obtain ⟨text, ht⟩ := says2
  let w : World := { world [] [] 0 with stdin := text, file := fun _ => none }
  have hrun : RunsOn w ["-r".toList] [.real] none d2 :=
    ⟨⟨text, ⟨⟨["-r".toList], [], .cons (.flag (by decide)) .nil, .nothing, rfl⟩, by decide, by decide,
      by decide, by decide, Or.inr ⟨rfl, rfl⟩⟩, ht⟩, fun h => absurd h (by decide)⟩
  exact ⟨w, rfl, ((main_verdict hrun good2).2.1 rfl).2 unrealizable2⟩

end MainEx

end Gr1c
