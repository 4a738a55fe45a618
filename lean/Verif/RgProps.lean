import Verif.RgLemmas
import Verif.MainOut

/-!
# C57: `rg` from the command line to the strategy
-/

namespace Gr1c

/-! ## What a run is given -/

/-- The text is a reachability specification that says `d`. -/
def RgFileSays (text : List Char) (d : FileData) : Prop :=
  ∃ ts ss, Layout true ts text ∧ FileToks true ss ts ∧ readSecs .empty ss = some d

/-- `rg` is called with the options `os` and the file `f`, not asking for help; the specification is the
given text. -/
structure RgCalled (w : World) (args : List Arg) (os : List Opt) (f : Option Arg) (text : List Char) : Prop where
  line : RgCmdLine os f args
  noHelp : Opt.help ∉ os
  source : GivenText w f text

/-- In addition, the text says `d`, and the files of `-p` can be written. -/
structure RgRunsOn (w : World) (args : List Arg) (os : List Opt) (f : Option Arg) (d : FileData) : Prop where
  called : ∃ text, RgCalled w args os f text ∧ RgFileSays text d
  dump : Opt.ptdump ∈ os → w.canDump = true

theorem RgFileSays.parsed {text : List Char} {d : FileData} (h : RgFileSays text d) :
    parseFile true text = some d.toP ∧ GoodDecls d.evars ∧ GoodDecls d.svars := by
  obtain ⟨ts, ss, hl, hf, hd⟩ := h
  refine ⟨?_, readSecs_good hf .empty d (fun x hx => absurd hx (by simp [FileData.empty]))
    (fun x hx => absurd hx (by simp [FileData.empty])) hd⟩
  unfold parseFile lexFile
  rw [layout_scanned hl, file_parsed hf, hd]; rfl

theorem RgFileSays.plain {text : List Char} {d : FileData} (h : RgFileSays text d) :
    PlainNames (d.evars ++ d.svars) := by
  obtain ⟨ts, ss, h1, h2, h3⟩ := h
  intro v hv c hc
  have : IsIdent v.1 := by
    rcases readSecs_vars h3 v hv with h | ⟨env, ds, h, h'⟩
    · cases h
    · exact layout_ident h1 _ (fileToks_vars h2 env ds h v h')
  obtain ⟨x, xs, e, h1, h2⟩ := this
  rw [e] at hc
  refine plain_idChar ?_
  rcases List.mem_cons.1 hc with rfl | hc
  · simp [isIdChar, h1]
  · exact h2 c hc

theorem rg_called {w : World} {args : List Arg} {os : List Opt} {f : Option Arg} {text : List Char}
    (h : RgCalled w args os f text) :
    rgMain w args = match parseFile true text with
      | none => .exit 2 none
      | some p => rgRun w (rgMeaning os f) p := by
  unfold rgMain
  rw [rg_cli h.line]
  have h1 : (rgMeaning os f).help = false := by simp [rgMeaning, meaning, h.noHelp]
  have h2 : w.source (rgMeaning os f).input = some text := h.source.source
  simp only [h1, h2]
  rfl

theorem rg_parsed {w : World} {args : List Arg} {os : List Opt} {f : Option Arg} {d : FileData}
    (h : RgRunsOn w args os f d) : rgMain w args = rgRun w (rgMeaning os f) d.toP := by
  obtain ⟨text, h1, h2⟩ := h.called
  rw [rg_called h1, h2.parsed.1]

theorem rgDefaults_toT (sp : FSpec) : rgDefaults sp.toT = (withGoals sp sp.sgoals).toT := by
  obtain ⟨a, b, c, d, e, f⟩ := sp
  cases c <;> cases d <;> cases f <;> rfl

/-- Up to the BDDs. -/
theorem rg_front {evars svars : Decls} (hge : GoodDecls evars) (hgs : GoodDecls svars) (hF : Fresh evars svars)
    (flag : InitFlag) (sp : FSpec) (hT : TypedSpec evars svars sp) (hW : WellScoped evars svars flag sp)
    (hne : NoNe0 (evars ++ svars) sp.all) :
    ∃ B : BitSpec (expDecls evars).length (expDecls svars).length,
      rgFront evars.tree svars.tree flag sp.toT = .ok (expDecls evars).tree (expDecls svars).tree
        (Decls.tree ((evars ++ svars).filter fun d => 0 ≤ d.2)) (expDecls evars).length (expDecls svars).length B ∧
      RepresentsWith evars svars flag sp sp.sgoals B := by
  obtain ⟨sp', B, h1, h2, -, h4⟩ := front_with hge hgs hF flag sp sp.sgoals hT hW hne hT.sgoals
    (fun d hd h0 f hf => hne d hd h0 f (by simp only [FSpec.all, List.mem_append]; exact .inr hf))
  refine ⟨B, ?_, h4⟩
  unfold rgFront
  rw [rgDefaults_toT, h1]
  exact frontBits_tree h2

/-- Up to the synthesis. -/
theorem rg_synth {w : World} {args : List Arg} {os : List Opt} {f : Option Arg} {d : FileData}
    (h : RgRunsOn w args os f d) (hg : GoodSpec d .allInit) (h1 : d.sp.sgoals.length ≤ 1) (hs : Opt.synt ∉ os) :
    ∃ B : BitSpec (expDecls d.evars).length (expDecls d.svars).length,
      RepresentsWith d.evars d.svars .allInit d.sp d.sp.sgoals B ∧
      rgMain w args = rgSynthAndWrite w (rgMeaning os f) (expDecls d.evars).tree (expDecls d.svars).tree
        (Decls.tree ((d.evars ++ d.svars).filter fun d => 0 ≤ d.2)) B := by
  obtain ⟨text, k1, k2⟩ := h.called
  obtain ⟨B, h2, h3⟩ := rg_front k2.parsed.2.1 k2.parsed.2.2 hg.fresh .allInit d.sp hg.typed hg.scope hg.noNe0
  refine ⟨B, h3, ?_⟩
  rw [rg_parsed h]
  unfold rgRun
  have e1 : d.toP.sp.sgoals.length = d.sp.sgoals.length := by simp [FileData.toP, FSpec.toT]
  have e2 : checkGr1cForm d.toP.ev d.toP.sv (rgMeaning os f).init d.toP.sp = 0 := (check_form_exact _ _ _ _).1 hg.scope
  have e3 : (rgMeaning os f).run ≠ .syntaxOnly := by
    have key : ∀ (l : List Opt) (r : RunMode), r ≠ .syntaxOnly → Opt.synt ∉ l → (∀ o ∈ l, RgOpt o) →
        lastOf Opt.run? r l ≠ .syntaxOnly := by
      intro l
      induction l with
      | nil => intro r hr _ _; exact hr
      | cons o l ih =>
        intro r hr hl ho
        rw [lastOf_cons]
        refine ih _ ?_ (fun hh => hl (List.mem_cons_of_mem _ hh)) (fun o' h' => ho o' (List.mem_cons_of_mem _ h'))
        have h1 := ho o List.mem_cons_self
        cases o <;> first | exact hr | exact h1.elim | exact absurd List.mem_cons_self hl
    exact key os _ (by decide) hs k1.line.2
  have e4 : ¬ ((rgMeaning os f).ptdump = true ∧ w.canDump = false) := by
    rintro ⟨a, b⟩
    have := h.dump (by simpa [rgMeaning, meaning] using a)
    rw [this] at b; cases b
  rw [e1, if_neg (by omega), e2, if_neg (by decide), if_neg e3, if_neg e4]
  have e5 : rgFront d.toP.ev d.toP.sv (rgMeaning os f).init d.toP.sp = _ := h2
  rw [e5]

/-! ## Theorems -/

/-- **C57.** From the command line and the text of a reachability specification to the automaton: if there
is a state satisfying ENVINIT and SYSINIT, and from every such state the system can, over the declared
values, reach the goal or block an environment goal, then `rg` ends with status 0 and writes, to the
requested place in the requested format, the declared variables and an automaton whose states are the
values of the states of a strategy. No node of it is marked as initial. -/
theorem rg_solved {w : World} {args : List Arg} {os : List Opt} {f : Option Arg} {d : FileData}
    (h : RgRunsOn w args os f d) (hg : GoodSpec d .allInit) (h1 : d.sp.sgoals.length ≤ 1) (hs : Opt.synt ∉ os)
    (hv : RgSolvable d.evars d.svars d.sp)
    (hp : PfxFree (d.evars ++ d.svars)) (hI : IntDecls (d.evars ++ d.svars))
    (hw : w.Sensible) (henv : d.evars ≠ [] ∨ ∀ f ∈ d.sp.etrans, f = .const 1)
    (hfuel : rgBound d.evars d.svars ≤ w.fuel) (hout : w.canOutput (rgMeaning os f)) :
    ∃ st : Aut ℤ (IState d.evars d.svars), RgStrategy d.evars d.svars d.sp st ∧ st ≠ [] ∧
      (∀ x ∈ st, x.initial = false) ∧
      rgMain w args = .exit 0 (some ⟨(rgMeaning os f).output, (rgMeaning os f).format, d.evars, d.svars,
        withStates stateValues st⟩) := by
  obtain ⟨B, h3, h4⟩ := rg_synth h hg h1 hs
  obtain ⟨st, k1, k2, k3, k4⟩ := rg_written (c := rgMeaning os f) hg.fresh hp hI h3 hw henv hfuel hv
  refine ⟨st, k1, k2, k3, h4.trans (k4.trans (if_pos ?_))⟩
  split
  · rename_i g hf; exact hout g hf
  · rfl

/-- **C57.** If the output file cannot be written, the status is -1. -/
theorem rg_unwritable {w : World} {args : List Arg} {os : List Opt} {f : Option Arg} {d : FileData}
    (h : RgRunsOn w args os f d) (hg : GoodSpec d .allInit) (h1 : d.sp.sgoals.length ≤ 1) (hs : Opt.synt ∉ os)
    (hp : PfxFree (d.evars ++ d.svars)) (hI : IntDecls (d.evars ++ d.svars))
    (hw : w.Sensible) (henv : d.evars ≠ [] ∨ ∀ f ∈ d.sp.etrans, f = .const 1)
    (hfuel : rgBound d.evars d.svars ≤ w.fuel) (hout : ¬ w.canOutput (rgMeaning os f)) :
    rgMain w args = .exit (-1) none := by
  obtain ⟨B, h3, h4⟩ := rg_synth h hg h1 hs
  by_cases hv : RgSolvable d.evars d.svars d.sp
  · obtain ⟨st, k1, k2, k3, k4⟩ := rg_written (c := rgMeaning os f) hg.fresh hp hI h3 hw henv hfuel hv
    refine h4.trans (k4.trans (if_neg ?_))
    unfold World.canOutput at hout
    push Not at hout
    obtain ⟨g, h5, h6⟩ := hout
    rw [h5]
    exact h6
  · exact h4.trans (rg_fails h3 hw henv hfuel hv)

/-- **C57.** Otherwise the status is -1 and nothing is written; it is never the 3 that the comment at the
end of the C function and the manual page of `gr1c` give for unrealizable specifications. -/
theorem rg_unsolved {w : World} {args : List Arg} {os : List Opt} {f : Option Arg} {d : FileData}
    (h : RgRunsOn w args os f d) (hg : GoodSpec d .allInit) (h1 : d.sp.sgoals.length ≤ 1) (hs : Opt.synt ∉ os)
    (hv : ¬ RgSolvable d.evars d.svars d.sp) (hw : w.Sensible)
    (henv : d.evars ≠ [] ∨ ∀ f ∈ d.sp.etrans, f = .const 1) (hfuel : rgBound d.evars d.svars ≤ w.fuel) :
    rgMain w args = .exit (-1) none := by
  obtain ⟨B, h3, h4⟩ := rg_synth h hg h1 hs
  exact h4.trans (rg_fails h3 hw henv hfuel hv)

/-- **C57.** With the default format, the text written is JSON and says the declared variables and a
strategy for the specification over the declared values. -/
theorem rg_json {w : World} {args : List Arg} {os : List Opt} {f : Option Arg} {d : FileData}
    (h : RgRunsOn w args os f d) (hg : GoodSpec d .allInit) (h1 : d.sp.sgoals.length ≤ 1) (hs : Opt.synt ∉ os)
    (hv : RgSolvable d.evars d.svars d.sp)
    (hp : PfxFree (d.evars ++ d.svars)) (hI : IntDecls (d.evars ++ d.svars))
    (hw : w.Sensible) (henv : d.evars ≠ [] ∨ ∀ f ∈ d.sp.etrans, f = .const 1)
    (hfuel : rgBound d.evars d.svars ≤ w.fuel) (hout : w.canOutput (rgMeaning os f))
    (hf : (rgMeaning os f).format = .json) {E : JsonEnv} (hE : E.Sane) (hst : E.stamp ≠ none) :
    ∃ (st : Aut ℤ (IState d.evars d.svars)) (o : Output) (s : List Char),
      RgStrategy d.evars d.svars d.sp st ∧ rgMain w args = .exit 0 (some o) ∧ o.dest = (rgMeaning os f).output ∧
      writeOut E o = some (.ok s) ∧ (∃ j, JsonText j s) ∧
      ∀ j, JsonText j s → j.IsStrategy d.evars d.svars (withStates stateValues st) := by
  obtain ⟨st, h2, -, -, h3⟩ := rg_solved h hg h1 hs hv hp hI hw henv hfuel hout
  obtain ⟨text, -, hsays⟩ := h.called
  have hpl := hsays.plain
  obtain ⟨s, k1, k2, k3⟩ := json_dump_reads hE hst (a := withStates stateValues st) (ev := d.evars) (sv := d.svars)
    (fun v hv => hpl v (List.mem_append_left _ hv)) (fun v hv => hpl v (List.mem_append_right _ hv))
    (by
      intro n hn
      obtain ⟨x, hx, rfl⟩ := List.mem_map.1 hn
      exact stateValues_length _)
    (by
      have := h2.ids
      unfold withStates
      simpa [Aut.ids, Function.comp_def] using this)
  refine ⟨st, _, s, h2, h3, rfl, ?_, k2, k3⟩
  simp only [writeOut, hf, k1]

theorem rgSynthAndWrite_status {ne ns : ℕ} (w : World) (c : Cfg) (ev sv nb : PTree) (B : BitSpec ne ns) {s : ℤ}
    {out : Option Output} (h : rgSynthAndWrite w c ev sv nb B = .exit s out) :
    (s = -1 ∨ s = 0) ∧ (out ≠ none ↔ s = 0) := by
  unfold rgSynthAndWrite at h
  split at h <;> try simp only [MainRes.exit.injEq, reduceCtorEq] at h
  · obtain ⟨rfl, rfl⟩ := h; simp
  · split at h
    · simp only [MainRes.exit.injEq] at h; obtain ⟨rfl, rfl⟩ := h; simp
    · split at h
      · split_ifs at h <;> simp only [MainRes.exit.injEq] at h <;> obtain ⟨rfl, rfl⟩ := h <;> simp
      · cases h

theorem rgFront_formError (evars svars : PTree) (flag : InitFlag) (sp : TSpec) :
    rgFront evars svars flag sp ≠ .formError := by
  unfold rgFront
  split
  · simp
  · simp
  · split
    · simp
    · intro h
      unfold frontBits at h
      split at h <;> cases h

/-- **C57, status 2 inside.** -/
theorem rgRun_status {w : World} {c : Cfg} {p : PState} {s : ℤ} {out : Option Output}
    (h : rgRun w c p = .exit s out) : (s = -1 ∨ s = 0 ∨ s = 2) ∧ (out ≠ none → s = 0) ∧
      (s = 2 ↔ 1 < p.sp.sgoals.length ∨ checkGr1cForm p.ev p.sv c.init p.sp < 0) := by
  unfold rgRun at h
  by_cases h1 : 1 < p.sp.sgoals.length
  · rw [if_pos h1] at h
    simp only [MainRes.exit.injEq] at h
    obtain ⟨rfl, rfl⟩ := h
    simp [h1]
  rw [if_neg h1] at h
  by_cases h2 : checkGr1cForm p.ev p.sv c.init p.sp < 0
  · rw [if_pos h2] at h
    simp only [MainRes.exit.injEq] at h
    obtain ⟨rfl, rfl⟩ := h
    simp [h2]
  rw [if_neg h2] at h
  have fin : ∀ {s : ℤ} {out : Option Output}, s = -1 ∨ s = 0 → (out ≠ none → s = 0) →
      (s = -1 ∨ s = 0 ∨ s = 2) ∧ (out ≠ none → s = 0) ∧
        (s = 2 ↔ 1 < p.sp.sgoals.length ∨ checkGr1cForm p.ev p.sv c.init p.sp < 0) := by
    intro s out hs ho
    refine ⟨by omega, ho, ⟨fun hh => by omega, fun hh => ?_⟩⟩
    rcases hh with hh | hh
    · exact absurd hh h1
    · exact absurd hh h2
  split at h
  · simp only [MainRes.exit.injEq] at h
    obtain ⟨rfl, rfl⟩ := h
    exact fin (Or.inr rfl) (by simp)
  split at h
  · simp only [MainRes.exit.injEq] at h
    obtain ⟨rfl, rfl⟩ := h
    exact fin (Or.inl rfl) (by simp)
  split at h
  · rename_i hf; exact absurd hf (rgFront_formError _ _ _ _)
  · cases h
  · simp only [MainRes.exit.injEq] at h
    obtain ⟨rfl, rfl⟩ := h
    exact fin (Or.inl rfl) (by simp)
  · cases h
  · obtain ⟨k1, k2⟩ := rgSynthAndWrite_status _ _ _ _ _ _ h
    exact fin k1 k2.1

/-- **C57, statuses.** For every argument vector and every input: the status is -1, 0, 1 or 2, and something
is written only with status 0. The 3 at the end of the C function is never returned. -/
theorem rg_statuses (w : World) (args : List Arg) (s : ℤ) (out : Option Output)
    (h : rgMain w args = .exit s out) : (s = -1 ∨ s = 0 ∨ s = 1 ∨ s = 2) ∧ (out ≠ none → s = 0) := by
  unfold rgMain at h
  split at h
  · simp only [MainRes.exit.injEq] at h; obtain ⟨rfl, rfl⟩ := h; simp
  · simp only [MainRes.exit.injEq] at h; obtain ⟨rfl, rfl⟩ := h; simp
  · cases h
  · split at h
    · simp only [MainRes.exit.injEq] at h; obtain ⟨rfl, rfl⟩ := h; simp
    · split at h
      · simp only [MainRes.exit.injEq] at h; obtain ⟨rfl, rfl⟩ := h; simp
      · split at h
        · simp only [MainRes.exit.injEq] at h; obtain ⟨rfl, rfl⟩ := h; simp
        · obtain ⟨k1, k2, -⟩ := rgRun_status h
          exact ⟨by omega, k2⟩

/-- **C57, status 2.** For a documented command line and a text with given tokens, the first of which begins
a section: the status is 2 exactly when the tokens are not a reachability specification, there is more than
one system goal, or names are used where they may not be used. -/
theorem rg_rejects {w : World} {args : List Arg} {os : List Opt} {f : Option Arg} {text : List Char}
    {t : Tok} {ts : List Tok} (h : RgCalled w args os f text) (hl : Layout true (t :: ts) text)
    (ht : isHeader t = true) :
    rgMain w args = .exit 2 none ↔ ∀ ss d, FileToks true ss (t :: ts) → readSecs .empty ss = some d →
      1 < d.sp.sgoals.length ∨ ¬ WellScoped d.evars d.svars .allInit d.sp := by
  have hpt : parseFile true text = parseToks true (t :: ts) := by
    unfold parseFile lexFile
    rw [layout_scanned hl]
  rw [rg_called h, hpt]
  have hlen : ∀ d : FileData, d.toP.sp.sgoals.length = d.sp.sgoals.length := by
    intro d; simp [FileData.toP, FSpec.toT]
  constructor
  · intro h1 ss d h4 h5
    rw [(file_accepted ht _).2 ⟨ss, d, h4, h5, rfl⟩] at h1
    have := (rgRun_status h1).2.2.1 rfl
    rcases this with h6 | h6
    · exact Or.inl (by rw [hlen] at h6; exact h6)
    · refine Or.inr fun h7 => ?_
      have h8 : checkGr1cForm d.toP.ev d.toP.sv (rgMeaning os f).init d.toP.sp = 0 := (check_form_exact _ _ _ _).1 h7
      omega
  · intro h'
    cases hp : parseToks true (t :: ts) with
    | none => rfl
    | some p =>
      obtain ⟨ss, d, h1, h2, rfl⟩ := (file_accepted ht p).1 hp
      simp only
      unfold rgRun
      rcases h' ss d h1 h2 with h3 | h3
      · rw [if_pos (by rw [hlen]; exact h3)]
      · have : checkGr1cForm d.toP.ev d.toP.sv (rgMeaning os f).init d.toP.sp = -1 :=
          (check_form_exact _ _ _ _).2 h3
        rw [this]
        split <;> rfl

/-- **C57, `-s`.** With `-s` a specification with at most one system goal and names used where they may be
used gives status 0, and nothing is written. -/
theorem rg_syntax {w : World} {args : List Arg} {os : List Opt} {f : Option Arg} {d : FileData}
    (h : RgRunsOn w args os f d) (hW : WellScoped d.evars d.svars .allInit d.sp) (h1 : d.sp.sgoals.length ≤ 1)
    (hs : Opt.synt ∈ os) : rgMain w args = .exit 0 none := by
  obtain ⟨text, k1, k2⟩ := h.called
  rw [rg_parsed h]
  unfold rgRun
  have e1 : d.toP.sp.sgoals.length = d.sp.sgoals.length := by simp [FileData.toP, FSpec.toT]
  have e2 : checkGr1cForm d.toP.ev d.toP.sv (rgMeaning os f).init d.toP.sp = 0 := (check_form_exact _ _ _ _).1 hW
  have e3 : (rgMeaning os f).run = .syntaxOnly := by
    have key : ∀ (l : List Opt) (r : RunMode), r = .syntaxOnly ∨ Opt.synt ∈ l → (∀ o ∈ l, RgOpt o) →
        lastOf Opt.run? r l = .syntaxOnly := by
      intro l
      induction l with
      | nil => intro r hr _; exact hr.resolve_right (by simp)
      | cons o l ih =>
        intro r hr ho
        rw [lastOf_cons]
        refine ih _ ?_ (fun o' h' => ho o' (List.mem_cons_of_mem _ h'))
        have h1 := ho o List.mem_cons_self
        rcases hr with rfl | hr
        · left; cases o <;> first | rfl | exact h1.elim
        · rcases List.mem_cons.1 hr with rfl | hr
          · exact Or.inl rfl
          · exact Or.inr hr
    exact key os _ (Or.inr hs) k1.line.2
  rw [e1, if_neg (by omega), e2, if_neg (by decide), if_pos e3]

/-- **C57, help.** -/
theorem rg_help (w : World) {args : List Arg} {os : List Opt} {f : Option Arg} (h : RgCmdLine os f args)
    (hh : Opt.help ∈ os) : rgMain w args = .exit 0 none := by
  unfold rgMain
  rw [rg_cli h]
  have h1 : (rgMeaning os f).help = true := by simp [rgMeaning, meaning, hh]
  simp only [h1]
  rfl

/-- **C57, version.** After documented options, `-V` or `--version` ends the program with status 0. -/
theorem rg_version (w : World) {os : List Opt} {ws : List Arg} (h : Opts false os ws) (ho : ∀ o ∈ os, RgOpt o)
    (a : Arg) (ha : a = "-V".toList ∨ a = "--version".toList) (rest : List Arg) :
    rgMain w (ws ++ a :: rest) = .exit 0 none := by
  unfold rgMain
  rw [rgOptLoop_opts h.loosen ho]
  rcases ha with rfl | rfl
  · have := rgOptLoop_short (os.foldl Cfg.set Cfg.rgDefault) 'V' (by decide) [] rest
    rw [show rgOptLoop true _ ("-V".toList :: rest) = _ from this]
    rfl
  · have := rgOptLoop_long (os.foldl Cfg.set Cfg.rgDefault) "version".toList rest
    rw [show rgOptLoop true _ ("--version".toList :: rest) = _ from this]
    rfl

/-- **C57, usage.** A flag that is none of the documented ones ends the program with status 1. -/
theorem rg_usage (w : World) {os : List Opt} {ws : List Arg} (h : Opts false os ws) (ho : ∀ o ∈ os, RgOpt o)
    (c : Char) (hc : c ∉ "-hvlspVtno".toList) (more : List Char) (rest : List Arg) :
    rgMain w (ws ++ ('-' :: c :: more) :: rest) = .exit 1 none := by
  have e : "-hvlspVtno".toList = ['-', 'h', 'v', 'l', 's', 'p', 'V', 't', 'n', 'o'] := rfl
  rw [e] at hc
  simp only [List.mem_cons, List.not_mem_nil, or_false, not_or] at hc
  obtain ⟨h1, h2, h3, h4, h5, h6, h7, h8, h9, h10⟩ := hc
  unfold rgMain
  rw [rgOptLoop_opts h.loosen ho, rgOptLoop_short _ c h1 more rest]
  have hp : ∀ k, rgPlainFlag k c more = none := by intro k; simp [rgPlainFlag, h2, h3, h4, h5, h6]
  by_cases hm : more = []
  · simp [hm, h7, h8, h9, h10]
    rw [← hm, hp]
  · simp [hm, h3]

/-- **C57, input.** A file that cannot be read gives status -1. -/
theorem rg_unreadable {w : World} {args : List Arg} {os : List Opt} {f : Arg} (h : RgCmdLine os (some f) args)
    (hh : Opt.help ∉ os) (hf : w.file f = none) : rgMain w args = .exit (-1) none := by
  unfold rgMain
  rw [rg_cli h]
  have h1 : (rgMeaning os (some f)).help = false := by simp [rgMeaning, meaning, hh]
  have h2 : w.source (rgMeaning os (some f)).input = none := hf
  simp only [h1, h2]
  rfl

/-- **C57, departure.** Options after the file name are still read, and further file names are ignored: the
command line `f -s g` is taken as `-s f`. -/
theorem rg_late_options (w : World) (f g : Arg) (hf : f.head? ≠ some '-') (hg : g.head? ≠ some '-') :
    rgMain w [f, "-s".toList, g] = rgMain w ["-s".toList, f] := by
  unfold rgMain
  have h1 : rgOptLoop true Cfg.rgDefault [f, "-s".toList, g] = rgOptLoop true Cfg.rgDefault ["-s".toList, f] := by
    rw [rgOptLoop_file true _ f _ (Or.inr hf), if_pos (show Cfg.rgDefault.input = none from rfl)]
    have a := rgOptLoop_short { Cfg.rgDefault with input := some f } 's' (by decide) [] [g]
    have b := rgOptLoop_short Cfg.rgDefault 's' (by decide) [] [f]
    rw [show rgOptLoop true { Cfg.rgDefault with input := some f } ["-s".toList, g] = _ from a,
      show rgOptLoop true Cfg.rgDefault ["-s".toList, f] = _ from b]
    show rgOptLoop true { Cfg.rgDefault with input := some f, run := .syntaxOnly } [g] =
      rgOptLoop true { Cfg.rgDefault with run := .syntaxOnly } [f]
    rw [rgOptLoop_file true _ g _ (Or.inr hg), rgOptLoop_file true _ f _ (Or.inr hf), if_neg (by simp), rgOptLoop_nil, rgOptLoop_nil]
    rfl
  rw [h1]

namespace RgEx

/-- `ENV: a; SYS: z [0,2]; SYSINIT: z = 0; SYSTRANS: [](z = 0 -> z' <= 1) & [](!a -> z' <= 1);
ENVGOAL: []<> g; SYSGOAL: <> z = 2;` -/
def data (g : Fm) : FileData :=
  ⟨[(['a'], -1)], [(['z'], 2)], ⟨none, some (.cmp .eq false ['z'] 0), [],
    [.imp (.cmp .eq false ['z'] 0) (.cmp .le true ['z'] 1), .imp (.neg (.var false ['a'])) (.cmp .le true ['z'] 1)],
    [g], [.cmp .eq false ['z'] 2]⟩⟩

/-- With `!a`, the environment may leave `a` false forever. -/
def goal : Bool → Fm
  | true => .var false ['a']
  | false => .neg (.var false ['a'])

theorem readable (b : Bool) : ∃ text, RgFileSays text (data (goal b)) := by
  have hz : Writable (.ident ['z']) := by decide
  have ha : Writable (.ident ['a']) := by decide
  have hg : Parsable false (goal b) ∧ NoBareConst (goal b) := by
    cases b <;> exact ⟨⟨ha, by simp⟩, trivial⟩
  have h : ∃ ts, (∀ x ∈ ts, Writable x) ∧ 
      ∃ ss, FileToks true ss ts ∧ readSecs .empty ss = some (data (goal b)) := by
    refine ⟨_, ?_, _, .cons (.vars true [(['a'], -1)] (by unfold GoodDecls; decide +kernel))
      (.cons (.vars false [(['z'], 2)] (by unfold GoodDecls; decide +kernel))
      (.cons (.init1 false (FileEx.gram false (.cmp .eq false ['z'] 0) ⟨hz, by simp, by omega⟩ trivial))
      (.cons (.trans1 false
        (FileEx.gram true (.imp (.cmp .eq false ['z'] 0) (.cmp .le true ['z'] 1))
          ⟨⟨hz, by simp, by omega⟩, hz, by simp, by omega⟩ (by decide))
        (.cons (FileEx.gram true (.imp (.neg (.var false ['a'])) (.cmp .le true ['z'] 1))
          ⟨⟨ha, by simp⟩, hz, by simp, by omega⟩ (by decide)) .nil))
      (.cons (.goal1 true (Or.inl rfl) (FileEx.gram false (goal b) hg.1 hg.2) .nil)
      (.cons (.reach rfl (FileEx.gram false (.cmp .eq false ['z'] 2) ⟨hz, by simp, by omega⟩ trivial)) .nil))))), rfl⟩
    clear hg
    revert b
    decide +kernel
  obtain ⟨ts, h1, ss, h3, h4⟩ := h
  exact ⟨_, _, ss, lines_layout _ h1, h3, h4⟩

theorem good (b : Bool) : GoodSpec (data (goal b)) .allInit := by
  cases b <;>
  · refine ⟨⟨by decide +kernel, by decide +kernel⟩, ?_, ?_, by unfold NoNe0; decide +kernel⟩
    · constructor <;> unfold Typed <;> decide +kernel
    · by_contra h
      have := (check_form_exact _ _ .allInit _).2 h
      revert this
      decide +kernel

theorem solvable : RgSolvable [(['a'], -1)] [(['z'], 2)] (data (goal true)).sp := by
  refine ⟨by decide +kernel, fun s hs => ?_⟩
  have h := winnable_of_rlev (G := intGame [(['a'], -1)] [(['z'], 2)] (data (goal true)).sp)
    (Exit := rgExit _ _ (data (goal true)).sp) (N := Finset.univ)
    (eg := ((data (goal true)).sp.egoals.map fmStates).get) (by decide) (k := 2) (s := s)
  rw [List.ofFn_get] at h
  refine h ?_
  clear h
  revert s
  decide +kernel

theorem unsolvable : ¬ RgSolvable [(['a'], -1)] [(['z'], 2)] (data (goal false)).sp := by
  rintro ⟨-, h⟩
  obtain ⟨s, hs, hn⟩ : ∃ s : IState [(['a'], -1)] [(['z'], 2)],
      s ∈ rgEntry [(['a'], -1)] [(['z'], 2)] (data (goal false)).sp ∧
      s ∉ rlev (intGame [(['a'], -1)] [(['z'], 2)] (data (goal false)).sp) (rgExit _ _ (data (goal false)).sp)
        Finset.univ ((data (goal false)).sp.egoals.map fmStates).get 2 := by decide +kernel
  have h1 := rlev_of_winnable (G := intGame [(['a'], -1)] [(['z'], 2)] (data (goal false)).sp)
    (Exit := rgExit _ _ (data (goal false)).sp) (N := Finset.univ)
    (eg := ((data (goal false)).sp.egoals.map fmStates).get) (by decide) (k := 2)
    (s := s) (by decide +kernel) (by rw [List.ofFn_get]; exact h _ hs)
  exact hn h1

theorem pfx (b : Bool) : PfxFree ((data (goal b)).evars ++ (data (goal b)).svars) := by
  refine ⟨?_, by cases b <;> decide⟩
  generalize hl : (data (goal b)).evars ++ (data (goal b)).svars = l
  have key : ∀ i : Fin l.length, 0 ≤ (l[i]).2 → ∀ d' ∈ l.take i ++ l.drop (i + 1), ¬ (l[i]).1 <+: d'.1 ∧
      ∀ v ∈ expDecls [d'], ¬ (l[i]).1 <+: v.1 := by subst hl; revert b; decide +kernel
  intro A d B he h0
  have hi : A.length < l.length := by rw [he]; simp
  have h := key ⟨A.length, hi⟩
  have hd : l[A.length] = d := by simp [he]
  simp only [Fin.getElem_fin, hd] at h
  have h2 := h h0
  rw [he] at h2
  simpa using h2

theorem run (b : Bool) : ∃ w : World, RgRunsOn w ["s.spc".toList] [] (some "s.spc".toList) (data (goal b)) ∧ w.Sensible ∧
    w.fuel = rgBound (data (goal b)).evars (data (goal b)).svars := by
  obtain ⟨text, ht⟩ := readable b
  exact ⟨MainEx.world text [] (rgBound (data (goal b)).evars (data (goal b)).svars),
    ⟨⟨text, ⟨⟨⟨[], ["s.spc".toList], .nil, .file _ (by decide), rfl⟩, by simp⟩, by simp,
      Or.inl ⟨_, rfl, by simp [MainEx.world]⟩⟩, ht⟩, fun h => absurd h (by simp)⟩, MainEx.world_sensible _ _ _, rfl⟩

/-- `rg s.spc` on a specification that can be met: all hypotheses of `rg_solved` and `rg_json` hold. -/
example : ∃ (w : World) (st : Aut ℤ (IState [(['a'], -1)] [(['z'], 2)])) (o : Output) (s : List Char),
    RgStrategy _ _ (data (goal true)).sp st ∧ rgMain w ["s.spc".toList] = .exit 0 (some o) ∧ o.dest = none ∧
    writeOut JsonEx.env o = some (.ok s) ∧ (∃ j, JsonText j s) ∧
    ∀ j, JsonText j s → j.IsStrategy [(['a'], -1)] [(['z'], 2)] (withStates stateValues st) := by
  obtain ⟨w, h1, h2, h3⟩ := run true
  exact ⟨w, rg_json h1 (good true) (by decide) (by simp) solvable (pfx true) (by unfold IntDecls; decide) h2
    (Or.inl (by decide)) (le_of_eq h3.symm) (fun f hf => by cases hf) rfl JsonEx.env_sane (by decide)⟩

/-- `rg s.spc` on one that cannot. -/
theorem exits_minus_one : ∃ w : World, RgRunsOn w ["s.spc".toList] [] (some "s.spc".toList) (data (goal false)) ∧
    w.Sensible ∧ rgMain w ["s.spc".toList] = .exit (-1) none := by
  obtain ⟨w, h1, h2, h3⟩ := run false
  exact ⟨w, h1, h2, rg_unsolved h1 (good false) (by decide) (by simp) unsolvable h2
    (Or.inl (by decide)) (le_of_eq h3.symm)⟩

/-- `rg -s s.spc`. -/
example : ∃ w : World, rgMain w ["-s".toList, "s.spc".toList] = .exit 0 none := by
  obtain ⟨text, ht⟩ := readable false
  have h : RgRunsOn (MainEx.world text [] 0) ["-s".toList, "s.spc".toList] [.synt] (some "s.spc".toList) (data (goal false)) :=
    ⟨⟨text, ⟨⟨⟨["-s".toList], ["s.spc".toList], .cons (.flag (by decide)) .nil, .file _ (by decide), rfl⟩,
      by simp [RgOpt]⟩, by simp, Or.inl ⟨_, rfl, by simp [MainEx.world]⟩⟩, ht⟩, fun h => absurd h (by simp)⟩
  exact ⟨_, rg_syntax h (good false).scope (by decide) (by simp)⟩

/-- The specification as one would write it, and one with two system goals, which is rejected already by
the grammar when they are in one section, and by `rgRun` when in two. -/
example : parseFile true ("ENV: a;\nSYS: z [0,2];\nSYSINIT: z = 0;\n" ++
    "SYSTRANS: []((z = 0) -> (z' <= 1)) & []((!a) -> (z' <= 1));\nENVGOAL: []<> a;\nSYSGOAL: <> z = 2;").toList =
      some (data (goal true)).toP ∧
    parseFile true "SYS: z;\nSYSGOAL: <> z & <> !z;".toList = none ∧
    (rgMain { MainEx.world [] [] 0 with stdin := "SYS: z;\nSYSGOAL: <> z;\nSYSGOAL: <> !z;".toList } []) = .exit 2 none := by
  refine ⟨by decide +kernel, by decide +kernel, ?_⟩
  have h1 : parseFile true "SYS: z;\nSYSGOAL: <> z;\nSYSGOAL: <> !z;".toList = some (FileData.toP
    ⟨[], [(['z'], -1)], ⟨none, none, [], [], [], [.var false ['z'], .neg (.var false ['z'])]⟩⟩) := by decide +kernel
  have h2 : rgOptLoop true Cfg.rgDefault [] = .go Cfg.rgDefault := by decide +kernel
  unfold rgMain
  rw [h2]
  show (match parseFile true "SYS: z;\nSYSGOAL: <> z;\nSYSGOAL: <> !z;".toList with
    | none => MainRes.exit 2 none
    | some p => rgRun _ _ p) = _
  rw [h1]
  rfl

end RgEx

end Gr1c
