import Verif.StdoutProps

/-!
# C71: strategies on standard output
-/

namespace Gr1c

/-! ## `gr1c-rg` -/

/-- The listing of `-p` in `gr1c-rg`. -/
def rgListingTold (c : Cfg) (d : FileData) : List Told :=
  if c.ptdump then [.result (listing d.evars d.svars ++ rgEcho (rgFilled d.sp))] else []

/-- The first notes of `gr1c-rg`. -/
def rgFirstNotes : List Told := [.note "Parsing input...".toList, .note "Done.".toList]

section
variable {X : Screen} {w : World} {args : List Arg} {os : List Opt} {f : Option Arg} {d : FileData} {σ : LogSt} {k : ℕ} {time : List Char}

theorem Sofar.rgEcho {c : Cfg} {τ : LogSt} {L : ℕ} {ts : List Told} (h : Sofar c σ k time ts L τ) (d : FileData) :
    ∃ τ', rgScrEcho c d.toP τ = .ok τ' ∧ Sofar c σ k time (ts ++ rgListingTold c d) L τ' := by
  unfold rgScrEcho rgListingTold
  by_cases hp : c.ptdump = true
  · obtain ⟨τ1, e1, s1⟩ := h.put (listing d.evars d.svars ++ Gr1c.rgEcho (rgFilled d.sp))
    refine ⟨τ1, ?_, by simpa only [if_pos hp] using s1⟩
    rw [if_pos hp, show varsText (-1) d.toP.ev d.toP.sv = listing d.evars d.svars from varsText_listing _ _ _,
      show rgDefaults d.toP.sp = (rgFilled d.sp).toT from (rgFilled_toT _).symm, rgFormulas_echo]
    exact e1
  · exact ⟨τ, by rw [if_neg hp], by simpa [hp] using h⟩

/-- Up to the end of the parser. -/
theorem rg_opening (h : RgRunsOn w args os f d) (hX : Ready X "rg".toList (rgMeaning os f) σ k time) :
    ∃ τ L, Sofar (rgMeaning os f) σ k time rgFirstNotes L τ ∧
      rgScrMain X w args σ = (if 1 < d.toP.sp.sgoals.length then .done τ
        else if checkGr1cForm d.toP.ev d.toP.sv (rgMeaning os f).init d.toP.sp < 0 then .done τ
        else if (rgMeaning os f).run = .syntaxOnly then .done τ
        else if (rgMeaning os f).ptdump = true ∧ w.canDump = false then .done τ
        else (rgScrEcho (rgMeaning os f) d.toP τ).scr fun σ => (sayMore (level (rgMeaning os f)) X.front σ).scr
          (rgScrFront X w (rgMeaning os f) (level (rgMeaning os f)) d.toP)) := by
  obtain ⟨text, h3, h4⟩ := h.called
  have h5 : w.source (rgMeaning os f).input = some text := h3.source.source
  have h8 : (rgMeaning os f).help = false := by simp [rgMeaning, meaning, h3.noHelp]
  unfold rgScrMain
  rw [rg_cli h3.line]
  simp only [h8, Bool.false_eq_true, if_false]
  generalize rgMeaning os f = c at *
  obtain ⟨τ0, L, e0, s0⟩ := rg_start_ready hX
  obtain ⟨τ2, e2, s2⟩ := s0.say hX.stamp (printf_plain "Parsing input...".toList (by decide))
  obtain ⟨τ3, e3, s3⟩ := s2.say hX.stamp (printf_plain "Done.".toList (by decide))
  refine ⟨τ3, L, s3, ?_⟩
  unfold rgScrRun
  rw [e0]
  simp only [LogRes.scr, h5]
  unfold rgScrText
  rw [e2]
  simp only [LogRes.scr, h4.parsed.1]
  unfold rgScrParsed
  rw [e3]
  rfl

/-- **C71, `gr1c-rg`.** A strategy is on standard output unless it is sent to a file, after the listing of `-p`. -/
theorem rg_stdout_strategy (h : RgRunsOn w args os f d) (hX : Ready X "rg".toList (rgMeaning os f) σ k time)
    (hv : (rgMeaning os f).verbose ≤ 1) {o : Output} (hm : rgMain w args = .exit 0 (some o)) {s : List Char}
    (hs : writeOut X.json o = some (.ok s)) :
    Says (rgMeaning os f) σ k time (rgFirstNotes ++ rgListingTold (rgMeaning os f) d ++
      [.note "Synthesizing a reachability game strategy...".toList] ++ (if o.dest = none then [.result s] else []))
      (rgScrMain X w args σ) := by
  obtain ⟨τ, L, s0, e⟩ := rg_opening h hX
  rw [e]
  rw [rg_parsed h] at hm
  generalize rgMeaning os f = c at *
  unfold rgRun at hm
  by_cases h1 : 1 < d.toP.sp.sgoals.length
  · rw [if_pos h1] at hm; cases hm
  by_cases h2 : checkGr1cForm d.toP.ev d.toP.sv c.init d.toP.sp < 0
  · rw [if_neg h1, if_pos h2] at hm; cases hm
  by_cases h3 : c.run = .syntaxOnly
  · rw [if_neg h1, if_neg h2, if_pos h3] at hm; cases hm
  by_cases h4 : c.ptdump = true ∧ w.canDump = false
  · rw [if_neg h1, if_neg h2, if_neg h3, if_pos h4] at hm; cases hm
  rw [if_neg h1, if_neg h2, if_neg h3, if_neg h4] at hm ⊢
  obtain ⟨τ1, e1, s1⟩ := s0.rgEcho d
  rw [e1]
  simp only [LogRes.scr]
  rw [s1.more hv]
  simp only [LogRes.scr]
  unfold rgScrFront
  cases hf : rgFront d.toP.ev d.toP.sv c.init d.toP.sp with
  | formError | ub | error | noBdd => rw [hf] at hm; cases hm
  | ok ev sv nb ne ns B =>
    rw [hf] at hm
    simp only at hm ⊢
    obtain ⟨τ2, e2, s2⟩ := s1.say hX.stamp (printf_plain "Synthesizing a reachability game strategy...".toList (by decide))
    rw [s1.more hv]
    simp only [LogRes.scr]
    rw [show Gr1c.say X (level c) "Synthesizing a reachability game strategy..." [] τ1 = .ok τ2 from e2]
    simp only [LogRes.scr]
    rw [s2.more hv]
    simp only [LogRes.scr, hm]
    unfold rgScrResult scrWrite
    simp only [hs]
    by_cases hd : o.dest = none
    · obtain ⟨τ3, e3, s3⟩ := s2.put s
      simp only [if_pos hd, e3]
      exact s3.finish (X := X) hv
    · simp only [if_neg hd, List.append_nil]
      exact s2.finish (X := X) hv

/-- **C71, `gr1c-rg`, no strategy.** Then there is nothing but notes and the listing of `-p`. -/
theorem rg_stdout_nothing (h : RgRunsOn w args os f d) (hX : Ready X "rg".toList (rgMeaning os f) σ k time)
    (hv : (rgMeaning os f).verbose ≤ 1) {s : ℤ} (hm : rgMain w args = .exit s none) :
    ∃ ts, (ts = [] ∨ ts = rgListingTold (rgMeaning os f) d ∨
        ts = rgListingTold (rgMeaning os f) d ++ [.note "Synthesizing a reachability game strategy...".toList]) ∧
      Says (rgMeaning os f) σ k time (rgFirstNotes ++ ts) (rgScrMain X w args σ) := by
  obtain ⟨τ, L, s0, e⟩ := rg_opening h hX
  rw [e]
  rw [rg_parsed h] at hm
  generalize rgMeaning os f = c at *
  have hn : ∃ ts, (ts = [] ∨ ts = rgListingTold c d ∨
        ts = rgListingTold c d ++ [.note "Synthesizing a reachability game strategy...".toList]) ∧
      Says c σ k time (rgFirstNotes ++ ts) (.done τ) := ⟨[], .inl rfl, by rw [List.append_nil]; exact s0.says⟩
  unfold rgRun at hm
  by_cases h1 : 1 < d.toP.sp.sgoals.length
  · rw [if_pos h1]; exact hn
  by_cases h2 : checkGr1cForm d.toP.ev d.toP.sv c.init d.toP.sp < 0
  · rw [if_neg h1, if_pos h2]; exact hn
  by_cases h3 : c.run = .syntaxOnly
  · rw [if_neg h1, if_neg h2, if_pos h3]; exact hn
  by_cases h4 : c.ptdump = true ∧ w.canDump = false
  · rw [if_neg h1, if_neg h2, if_neg h3, if_pos h4]; exact hn
  rw [if_neg h1, if_neg h2, if_neg h3, if_neg h4] at hm ⊢
  obtain ⟨τ1, e1, s1⟩ := s0.rgEcho d
  rw [e1]
  simp only [LogRes.scr]
  rw [s1.more hv]
  simp only [LogRes.scr]
  unfold rgScrFront
  cases hf : rgFront d.toP.ev d.toP.sv c.init d.toP.sp with
  | ub | noBdd => rw [hf] at hm; cases hm
  | formError | error => exact ⟨_, .inr (.inl rfl), s1.says⟩
  | ok ev sv nb ne ns B =>
    rw [hf] at hm
    simp only at hm ⊢
    obtain ⟨τ2, e2, s2⟩ := s1.say hX.stamp (printf_plain "Synthesizing a reachability game strategy...".toList (by decide))
    rw [s1.more hv]
    simp only [LogRes.scr]
    rw [show Gr1c.say X (level c) "Synthesizing a reachability game strategy..." [] τ1 = .ok τ2 from e2]
    simp only [LogRes.scr]
    rw [s2.more hv]
    simp only [LogRes.scr, hm]
    unfold rgScrResult
    exact ⟨_, .inr (.inr rfl), by rw [← List.append_assoc]; exact s2.says⟩

end

/-! ## Only the strategy, or more than the strategy -/

theorem quiet_seen {ts : List Told} (h : ∀ t ∈ ts, ∃ l, t = .note l) : ts.flatMap (Told.seen false) = [] := by
  rw [List.flatMap_eq_nil_iff]
  intro t ht
  obtain ⟨l, rfl⟩ := h t ht
  rfl

/-- No value begins with this character. -/
theorem not_json {c : Char} {r : List Char} (hw : isJWs c = false) (hc : isDig c = false) (h : c ∉ "ntf\"[{-".toList) (j : JVal) :
    ¬ JsonText j (c :: r) := by
  rintro ⟨a, t, b, ha, ht, -, e⟩
  obtain ⟨x, xs, rfl, hx⟩ := jsays_begins ht
  cases a with
  | cons y a =>
    simp only [List.cons_append, List.cons.injEq] at e
    have := ha y (by simp)
    rw [← e.1, hw] at this
    cases this
  | nil =>
    simp only [List.nil_append, List.cons_append, List.cons.injEq] at e
    obtain ⟨rfl, -⟩ := e
    apply h
    cases j with
    | null => rw [show c = 'n' from hx]; decide
    | bool b => cases b <;> [rw [show c = 'f' from hx]; rw [show c = 't' from hx]] <;> decide
    | num n =>
      rcases (show isDig c = true ∨ c = '-' from hx) with h | h
      · rw [hc] at h; cases h
      · rw [h]; decide
    | str s => rw [show c = '"' from hx]; decide
    | arr s => rw [show c = '[' from hx]; decide
    | obj s => rw [show c = '{' from hx]; decide

section
variable {X : Screen} {w : World} {args : List Arg} {os : List Opt} {f : Option Arg} {d : FileData} {σ : LogSt} {k : ℕ} {time : List Char}

/-- **C71, quiet runs.** From the command line and the text of a realizable specification to the text on standard output: without `-v`,
or with the notes in a log file, and without `-o`, `-p` and `-P`, all that is printed is one JSON text, which describes a strategy for the
specification. -/
theorem stdout_json (h : RunsOn w args os f d) (hX : Ready X ("gr1c-".toList ++ printInt X.pid) (meaning os f) σ k time)
    (hg : GoodSpec d (meaning os f).init) (hr : (meaning os f).run = .synthesis)
    (hv : SpecRealizable d.evars d.svars (meaning os f).init d.sp) (hi : SpecHasInit d.evars d.svars (meaning os f).init d.sp)
    (hp : PfxFree (d.evars ++ d.svars)) (hI : IntDecls (d.evars ++ d.svars))
    (hw : w.Sensible) (henv : d.evars ≠ [] ∨ ∀ f ∈ d.sp.etrans, f = .const 1)
    (hfuel : synthBound d.evars d.svars d.sp ≤ w.fuel)
    (hf : (meaning os f).format = .json) (hE : X.json.Sane) (hs : X.json.stamp ≠ none)
    (ho : (meaning os f).output = none) (hpt : Opt.ptdump ∉ os) (hpm : (meaning os f).promela = false)
    (hq : (meaning os f).verbose = 0 ∨ ((meaning os f).verbose = 1 ∧ (meaning os f).logging = true)) :
    ∃ (st : Aut ℤ (IState d.evars d.svars)) (τ : LogSt) (s : List Char),
      SpecStrategy d.evars d.svars (meaning os f).init d.sp st ∧ scrMain X w args σ = .done τ ∧ τ.text 0 = σ.text 0 ++ s ∧
      (∃ j, JsonText j s) ∧ ∀ j, JsonText j s → j.IsStrategy d.evars d.svars (withStates stateValues st) := by
  obtain ⟨st, o, s, h1, h2, h3, h4, h5, h6⟩ := main_json h hg hr hv hi hp hI hw henv hfuel
    (by intro f' hf'; rw [ho] at hf'; cases hf') hf hE hs
  obtain ⟨τ, e, t, -⟩ := stdout_strategy h hX (by omega) h2 h4
    (show writeModel X.ver X.moves (meaning os f) d.toP o = some [] by unfold writeModel; rw [hpm]; rfl)
  refine ⟨st, τ, s, h1, e, ?_, h5, h6⟩
  rw [t]
  have hpt' : (meaning os f).ptdump = false := by simpa [meaning] using hpt
  have hn : (decide (0 < (meaning os f).verbose) && !(meaning os f).logging) = false := by
    rcases hq with hq | hq
    · simp [hq]
    · simp [hq.2]
  rw [hn, h3, if_pos ho]
  simp [firstNotes, listingTold, hpt', Told.seen]

/-- **C71, departure: `-v` without `-l`.** The notes go to the same stream as the strategy. What is on standard output is then no JSON
text, though the strategy is written in the JSON format. -/
theorem verbose_not_json (h : RunsOn w args os f d) (hX : Ready X ("gr1c-".toList ++ printInt X.pid) (meaning os f) σ k time)
    (h0 : σ.text 0 = []) (hv : (meaning os f).verbose = 1) (hl : (meaning os f).logging = false) {o : Output}
    (hm : gr1cMain w args = .exit 0 (some o)) {s t : List Char}
    (hs : writeOut X.json o = some (.ok s)) (ht : writeModel X.ver X.moves (meaning os f) d.toP o = some t) :
    ∃ τ, scrMain X w args σ = .done τ ∧ ∀ j, ¬ JsonText j (τ.text 0) := by
  obtain ⟨τ, e, t, -⟩ := stdout_strategy h hX (by omega) hm hs ht
  refine ⟨τ, e, fun j => ?_⟩
  rw [t, h0, hv, hl]
  exact not_json (c := 'R') (by decide) (by decide) (by decide) j

/-- **C71, `gr1c-rg`, quiet runs.** -/
theorem rg_stdout_json (h : RgRunsOn w args os f d) (hX : Ready X "rg".toList (rgMeaning os f) σ k time)
    (hg : GoodSpec d .allInit) (h1 : d.sp.sgoals.length ≤ 1) (hs : Opt.synt ∉ os)
    (hv : RgSolvable d.evars d.svars d.sp)
    (hp : PfxFree (d.evars ++ d.svars)) (hI : IntDecls (d.evars ++ d.svars))
    (hw : w.Sensible) (henv : d.evars ≠ [] ∨ ∀ f ∈ d.sp.etrans, f = .const 1)
    (hfuel : rgBound d.evars d.svars ≤ w.fuel) (hf : (rgMeaning os f).format = .json) (hE : X.json.Sane) (hst : X.json.stamp ≠ none)
    (ho : (rgMeaning os f).output = none) (hpt : Opt.ptdump ∉ os)
    (hq : (rgMeaning os f).verbose = 0 ∨ ((rgMeaning os f).verbose = 1 ∧ (rgMeaning os f).logging = true)) :
    ∃ (st : Aut ℤ (IState d.evars d.svars)) (τ : LogSt) (s : List Char),
      RgStrategy d.evars d.svars d.sp st ∧ rgScrMain X w args σ = .done τ ∧ τ.text 0 = σ.text 0 ++ s ∧
      (∃ j, JsonText j s) ∧ ∀ j, JsonText j s → j.IsStrategy d.evars d.svars (withStates stateValues st) := by
  obtain ⟨st, o, s, g1, g2, g3, g4, g5, g6⟩ := rg_json h hg h1 hs hv hp hI hw henv hfuel
    (by intro f' hf'; rw [ho] at hf'; cases hf') hf hE hst
  obtain ⟨τ, e, t, -⟩ := rg_stdout_strategy h hX (by omega) g2 g4
  refine ⟨st, τ, s, g1, e, ?_, g5, g6⟩
  rw [t]
  have hpt' : (rgMeaning os f).ptdump = false := by simpa [rgMeaning, meaning] using hpt
  have hn : (decide (0 < (rgMeaning os f).verbose) && !(rgMeaning os f).logging) = false := by
    rcases hq with hq | hq
    · simp [hq]
    · simp [hq.2]
  rw [hn, g3, if_pos ho]
  simp [rgFirstNotes, rgListingTold, hpt', Told.seen]

/-- **C71, `-r`.** From the command line and the text of the specification: without `-p`, the answer on standard output of a quiet run is
one line, and it says whether the specification is realizable. -/
theorem stdout_verdict (h : RunsOn w args os f d) (hX : Ready X ("gr1c-".toList ++ printInt X.pid) (meaning os f) σ k time)
    (hg : GoodSpec d (meaning os f).init) (hr : (meaning os f).run = .realizable) (hpt : Opt.ptdump ∉ os)
    (hq : (meaning os f).verbose = 0 ∨ ((meaning os f).verbose = 1 ∧ (meaning os f).logging = true)) :
    ∃ τ yes, scrMain X w args σ = .done τ ∧ (yes = true ↔ SpecRealizable d.evars d.svars (meaning os f).init d.sp) ∧
      τ.text 0 = σ.text 0 ++ (if yes then "Realizable.\n" else "Not realizable.\n").toList := by
  have hpt' : (meaning os f).ptdump = false := by simpa [meaning] using hpt
  have hn : (decide (0 < (meaning os f).verbose) && !(meaning os f).logging) = false := by
    rcases hq with hq | hq
    · simp [hq]
    · simp [hq.2]
  obtain ⟨v1, v2⟩ := (main_verdict h hg).2.1 hr
  by_cases hR : SpecRealizable d.evars d.svars (meaning os f).init d.sp
  · obtain ⟨τ, e, t, -⟩ := stdout_answer h hX (by omega) hr (v1 hR) (.inl rfl)
    refine ⟨τ, true, e, by simpa using hR, ?_⟩
    rw [t, hn]
    simp [firstNotes, listingTold, hpt', Told.seen]
  · obtain ⟨τ, e, t, -⟩ := stdout_answer h hX (by omega) hr (v2 hR) (.inr rfl)
    refine ⟨τ, false, e, by simpa using hR, ?_⟩
    rw [t, hn]
    simp [firstNotes, listingTold, hpt', Told.seen]

end

namespace StdoutEx

open MainEx

/-- A screen that is empty at the beginning, a log file as stream 3, and time stamps. -/
def X : Screen where
  json := JsonEx.env
  ver := "1".toList
  moves := 9
  stamp := some "noon".toList
  pid := 7
  day := "-day.log".toList
  openLog := fun _ => some 3
  front := []
  win := []
  synth := []
  refs := 0
  parseText := "Error".toList

def σ : LogSt := ⟨none, 0, [], [0, 1], fun _ => []⟩

theorem ready (c : Cfg) : Ready X ("gr1c-".toList ++ printInt X.pid) c σ 3 "noon".toList :=
  ⟨rfl, rfl, by decide, rfl, by decide +kernel, fun _ => ⟨rfl, by decide⟩⟩

theorem rg_ready (c : Cfg) : Ready X "rg".toList c σ 3 "noon".toList :=
  ⟨rfl, rfl, by decide, rfl, by decide +kernel, fun _ => ⟨rfl, by decide⟩⟩

theorem hasInit : SpecHasInit GREx.evars GREx.svars .allEnvExistSys GREx.sp :=
  (by decide +kernel : ∃ s : IState GREx.evars GREx.svars, s ∈ initSet (GREx.sp.einit.map fmStates) ∧
      s ∈ initSet (GREx.sp.sinit.map fmStates))

/-- `gr1c -l s.spc`: all hypotheses of `stdout_json` hold; there is only JSON on the screen. -/
example : ∃ (w : World) (τ : LogSt) (j : JVal), scrMain X w ["-l".toList, "s.spc".toList] σ = .done τ ∧ JsonText j (τ.text 0) := by
  obtain ⟨ts, h1, h2, h3⟩ := FileEx.toks
  have hrun : RunsOn (world (lines ts) [] (synthBound GREx.evars GREx.svars GREx.sp)) ["-l".toList, "s.spc".toList] [.logging]
      (some "s.spc".toList) ⟨GREx.evars, GREx.svars, GREx.sp⟩ :=
    ⟨⟨lines ts, ⟨⟨["-l".toList], ["s.spc".toList], .cons (.flag (by decide)) .nil, .file _ (by decide), rfl⟩, by decide, by decide, by decide,
      by decide, Or.inl ⟨_, rfl, by simp [world]⟩⟩, fileSays_lines h1 h2 FileEx.data⟩, fun h => absurd h (by decide)⟩
  obtain ⟨st, τ, s, -, e, t, ⟨j, hj⟩, -⟩ := stdout_json hrun (ready _) good1 rfl realizable1 hasInit pfx1 (by unfold IntDecls; decide)
    (world_sensible _ _ _) (Or.inl (by decide)) (le_refl _) rfl JsonEx.env_sane (by decide) rfl (by decide) rfl (.inl rfl)
  exact ⟨_, τ, j, e, by rw [t]; exact hj⟩

/-- `gr1c -v s.spc`: all hypotheses of `verbose_not_json` hold; there is no JSON text on the screen. -/
theorem verbose_ex : ∃ (w : World) (τ : LogSt), scrMain X w ["-v".toList, "s.spc".toList] σ = .done τ ∧ ∀ j, ¬ JsonText j (τ.text 0) := by
  obtain ⟨ts, h1, h2, h3⟩ := FileEx.toks
  have hrun : RunsOn (world (lines ts) [] (synthBound GREx.evars GREx.svars GREx.sp)) ["-v".toList, "s.spc".toList] [.verbose false]
      (some "s.spc".toList) ⟨GREx.evars, GREx.svars, GREx.sp⟩ :=
    ⟨⟨lines ts, ⟨⟨["-v".toList], ["s.spc".toList], .cons (.flag (by decide)) .nil, .file _ (by decide), rfl⟩, by decide, by decide, by decide,
      by decide, Or.inl ⟨_, rfl, by simp [world]⟩⟩, fileSays_lines h1 h2 FileEx.data⟩, fun h => absurd h (by decide)⟩
  obtain ⟨st, o, s, -, g2, -, g4, -⟩ := main_json hrun good1 rfl realizable1 hasInit pfx1 (by unfold IntDecls; decide)
    (world_sensible _ _ _) (Or.inl (by decide)) (le_refl _) (by intro f hf; cases hf) rfl JsonEx.env_sane (by decide)
  exact ⟨_, verbose_not_json hrun (ready _) rfl rfl rfl g2 g4 (t := []) rfl⟩

/-- `gr1c -r` with an unrealizable specification on standard input: all hypotheses of `stdout_verdict` and `stdout_answer` hold. -/
example : ∃ (w : World) (τ : LogSt), scrMain X w ["-r".toList] σ = .done τ ∧ τ.text 0 = "Not realizable.\n".toList := by
  obtain ⟨text, ht⟩ := says2
  let w : World := { world [] [] 0 with stdin := text, file := fun _ => none }
  have hrun : RunsOn w ["-r".toList] [.real] none d2 :=
    ⟨⟨text, ⟨⟨["-r".toList], [], .cons (.flag (by decide)) .nil, .nothing, rfl⟩, by decide, by decide,
      by decide, by decide, Or.inr ⟨rfl, rfl⟩⟩, ht⟩, fun h => absurd h (by decide)⟩
  obtain ⟨τ, yes, e, hy, t⟩ := stdout_verdict hrun (ready _) good2 rfl (by decide) (.inl rfl)
  cases yes with
  | true => exact absurd (hy.1 rfl) unrealizable2
  | false => exact ⟨w, τ, e, t⟩

/-- `gr1c-rg s.spc`. -/
example : ∃ (w : World) (τ : LogSt) (j : JVal), rgScrMain X w ["s.spc".toList] σ = .done τ ∧ JsonText j (τ.text 0) := by
  obtain ⟨w, h1, h2, h3⟩ := RgEx.run true
  obtain ⟨st, τ, s, -, e, t, ⟨j, hj⟩, -⟩ := rg_stdout_json h1 (rg_ready _) (RgEx.good true) (by decide) (by simp) RgEx.solvable
    (RgEx.pfx true) (by unfold IntDecls; decide) h2 (Or.inl (by decide)) (le_of_eq h3.symm) rfl JsonEx.env_sane (by decide) rfl (by simp)
    (.inl rfl)
  exact ⟨w, τ, j, e, by rw [t]; exact hj⟩

/-- `gr1c-rg s.spc` on a game that cannot be won: nothing at all is printed. -/
example : ∃ (w : World) (τ : LogSt), rgScrMain X w ["s.spc".toList] σ = .done τ ∧ τ.text 0 = [] := by
  obtain ⟨w, h1, h2, h3⟩ := RgEx.exits_minus_one
  obtain ⟨ts, ht, τ, e, t, -⟩ := rg_stdout_nothing h1 (rg_ready _) (by decide) h3
  refine ⟨w, τ, e, ?_⟩
  rw [t]
  rcases ht with rfl | rfl | rfl <;> rfl

/-- `gr1c -r -l` and `gr1c -r`: the hypotheses of `log_leaves_stdout` hold and both calls end. -/
example : ∃ (w : World) (τ τ' : LogSt), scrRun X w (meaning [.real, .logging] none) σ = .done τ ∧
    scrRun X w (quiet (meaning [.real, .logging] none)) σ = .done τ' ∧ τ.text 0 = τ'.text 0 := by
  obtain ⟨text, ht⟩ := says2
  let w : World := { world [] [] 0 with stdin := text, file := fun _ => none }
  have hrun : RunsOn w ["-r".toList] [.real] none d2 :=
    ⟨⟨text, ⟨⟨["-r".toList], [], .cons (.flag (by decide)) .nil, .nothing, rfl⟩, by decide, by decide,
      by decide, by decide, Or.inr ⟨rfl, rfl⟩⟩, ht⟩, fun h => absurd h (by decide)⟩
  have hrun' : RunsOn w ["-r".toList, "-l".toList] [.real, .logging] none d2 :=
    ⟨⟨text, ⟨⟨["-r".toList, "-l".toList], [], .cons (.flag (by decide)) (.cons (.flag (by decide)) .nil), .nothing, rfl⟩, by decide, by decide,
      by decide, by decide, Or.inr ⟨rfl, rfl⟩⟩, ht⟩, fun h => absurd h (by decide)⟩
  obtain ⟨τ, -, e, -⟩ := stdout_verdict hrun' (ready _) good2 rfl (by decide) (.inl rfl)
  obtain ⟨τ', -, e', -⟩ := stdout_verdict hrun (ready _) good2 rfl (by decide) (.inl rfl)
  have c1 : cliMain ["-r".toList, "-l".toList] = .run (meaning [.real, .logging] none) := by decide +kernel
  have c2 : cliMain ["-r".toList] = .run (quiet (meaning [.real, .logging] none)) := by decide +kernel
  have e1 : scrRun X w (meaning [.real, .logging] none) σ = .done τ := by rw [← e]; unfold scrMain; rw [c1]
  have e2 : scrRun X w (quiet (meaning [.real, .logging] none)) σ = .done τ' := by rw [← e']; unfold scrMain; rw [c2]
  exact ⟨w, τ, τ', e1, e2, log_leaves_stdout X w _ σ rfl (by intro n k h; cases h; decide) rfl (by decide +kernel) τ τ' e1 e2⟩

end StdoutEx

end Gr1c
