import Verif.PatchOut
import Verif.StdoutMain
import Verif.FormLeftProps
import Verif.PatchMainEx

/-!
# C78: what `gr1c-patch` prints
-/

namespace Gr1c

/-! ## Specification -/

/-- What the parser writes about the formula of `-f`. -/
def formMessage (c : PgCfg) : List Char :=
  match c.form with
  | none => []
  | some x => parserSays 1 (x ++ ['\n'])

/-- What the parser writes about the specification, if that has an error. -/
def specMessage (w : PatchWorld) (c : PgCfg) : List Char :=
  match w.source c.input with
  | none => []
  | some t => if (parseFile false t).isNone then parserSays (specLine c) t else []

/-- The strategy of a run, if it goes to standard output. -/
def patchText (X : Screen) : MainRes → List Char
  | .exit _ (some o) =>
    match o.dest, writeOut X.json o with
    | none, some (.ok s) => s
    | _, _ => []
  | _ => []

/-! ## Lemmas -/

/-- What an event adds to standard output, apart from the log. -/
def PgEv.shown : PgEv → List Char
  | .print t => t
  | _ => []

/-- The log is not on standard output. -/
def Away (v : ℕ) (σ : LogSt) : Prop := v = 0 ∨ ∃ k, σ.fp = some k ∧ k ≠ 0

theorem away_calls {v n : ℕ} {cs : List LogCmd} {σ τ : LogSt} (h : Away v σ) (e : (if n < v then logRun cs σ else .ok σ) = .ok τ) :
    Away v τ ∧ τ.text 0 = σ.text 0 := by
  rcases h with rfl | ⟨k, hk, k0⟩
  · rw [if_neg (by omega)] at e
    cases e
    exact ⟨.inl rfl, rfl⟩
  · split at e
    · have hb : Beside σ { σ with fp := some 0 } := ⟨⟨k, hk, k0⟩, rfl, Iff.rfl, rfl⟩
      have := beside_run hb e
      exact ⟨.inr this.file, this.same⟩
    · cases e
      exact ⟨.inr ⟨k, hk, k0⟩, rfl⟩

theorem away_step {X : Screen} {v : ℕ} {e : PgEv} {σ τ : LogSt} (h : Away v σ) (he : ∀ p, e ≠ .listing p) (hs : pgEvStep X v e σ = .ok τ) :
    Away v τ ∧ τ.text 0 = σ.text 0 ++ e.shown := by
  cases e with
  | note n fmt as =>
    have : (if n < v then logRun [.print X.stamp fmt.toList as] σ else .ok σ) = .ok τ := by
      rw [← hs]
      simp only [pgEvStep, sayAt, logRun, logStep]
      split
      · cases logPrint X.stamp fmt.toList as σ <;> rfl
      · rfl
    simpa [PgEv.shown] using away_calls h this
  | calls n cs => simpa [PgEv.shown] using away_calls h hs
  | print t =>
    simp only [pgEvStep] at hs
    rw [put_ok hs]
    exact ⟨h, by simp [LogSt.more, PgEv.shown]⟩
  | listing p => exact absurd rfl (he p)
  | close =>
    simp only [pgEvStep, closeLogFile] at hs
    have : τ.fp = σ.fp ∧ τ.text = σ.text := by
      split at hs
      · cases hs; exact ⟨rfl, rfl⟩
      · split at hs
        · cases hs; exact ⟨rfl, rfl⟩
        · split at hs
          · cases hs; exact ⟨rfl, rfl⟩
          · cases hs
    refine ⟨?_, by rw [this.2]; simp [PgEv.shown]⟩
    unfold Away
    rw [this.1]
    exact h

theorem away_run {X : Screen} {v : ℕ} : ∀ {es : List PgEv} {σ τ : LogSt}, Away v σ → (∀ e ∈ es, ∀ p, e ≠ .listing p) → pgEvRun X v es σ = .ok τ →
    τ.text 0 = σ.text 0 ++ es.flatMap PgEv.shown
  | [], σ, τ, _, _, e => by cases e; simp
  | a :: es, σ, τ, h, hn, e => by
    simp only [pgEvRun] at e
    cases hs : pgEvStep X v a σ with
    | ok b =>
      rw [hs] at e
      have h1 := away_step h (hn a (by simp)) hs
      rw [away_run h1.1 (fun x hx => hn x (by simp [hx])) e, h1.2]
      simp [List.flatMap_cons]
    | exit | ub => rw [hs] at e; cases e

/-- Without verbosity nothing is in the way. -/
theorem quiet_run {X : Screen} : ∀ {es : List PgEv} {σ : LogSt}, 0 ∈ σ.live → (∀ e ∈ es, e ≠ .close ∧ ∀ p, e ≠ .listing p) →
    ∃ τ, pgEvRun X 0 es σ = .ok τ
  | [], σ, _, _ => ⟨σ, rfl⟩
  | a :: es, σ, h, hn => by
    have ih := fun σ' (h' : 0 ∈ σ'.live) => quiet_run (X := X) (es := es) (σ := σ') h' (fun x hx => hn x (by simp [hx]))
    have ha := hn a (by simp)
    cases a with
    | note n fmt as => simpa [pgEvRun, pgEvStep, sayAt, LogRes.bind] using ih σ h
    | calls n cs => simpa [pgEvRun, pgEvStep, LogRes.bind] using ih σ h
    | print t =>
      have e : σ.put 0 t = .ok (σ.more 0 t) := by simp [LogSt.put, LogSt.more, h]
      simpa [pgEvRun, pgEvStep, e, LogRes.bind] using ih (σ.more 0 t) h
    | listing p => exact absurd rfl (ha.2 p)
    | close => exact absurd rfl ha.1

theorem first_shown (X : Screen) (c : PgCfg) (v : ℕ) (form : PTree) : (pgFirstEv X c v form).flatMap PgEv.shown = formMessage c := by
  unfold pgFirstEv pgFormEv formMessage
  cases c.form <;> split <;> simp [PgEv.shown]

theorem first_plain (X : Screen) (c : PgCfg) (v : ℕ) (form : PTree) : ∀ e ∈ pgFirstEv X c v form, e ≠ .close ∧ ∀ p, e ≠ .listing p := by
  unfold pgFirstEv pgFormEv
  cases c.form <;> split <;> simp

theorem last_shown {X : Screen} {c : PgCfg} {r : MainRes} {es : List PgEv} (h : pgLastEv X c r = some es) :
    es.flatMap PgEv.shown = patchText X r ∧ (∀ e ∈ es, (c.logging = false → e ≠ .close) ∧ ∀ p, e ≠ .listing p) := by
  unfold pgLastEv at h
  split at h
  · cases h; simp [patchText]
  · rename_i s o
    split at h
    · rename_i t ht
      cases h
      unfold patchText
      simp only [ht]
      constructor
      · cases o.dest <;> cases c.logging <;> simp [PgEv.shown]
      · cases c.logging <;> simp
    · rename_i ht
      cases h
      unfold patchText
      simp only [ht]
      constructor
      · cases o.dest <;> cases c.logging <;> simp [PgEv.shown]
      · cases c.logging <;> simp
    · cases h
  · cases h

section
variable {X : Screen} {w : PatchWorld} {c : PgCfg} {f : Arg} {form : PTree} {es : List PgEv}

theorem work_shown {p : PState} (h : pgWorkEv X w c f p form = some es) :
    es.flatMap PgEv.shown = patchText X (pgExpand w c p form f) ∧ (∀ e ∈ es, (c.logging = false → e ≠ .close) ∧ ∀ p, e ≠ .listing p) := by
  unfold pgWorkEv at h
  rw [Option.map_eq_some_iff] at h
  obtain ⟨es', h1, rfl⟩ := h
  obtain ⟨a, b⟩ := last_shown h1
  constructor
  · rw [List.flatMap_append, a]
    split <;> simp [PgEv.shown]
  · intro e he
    rcases List.mem_append.1 he with he | he
    · revert he
      split <;> simp <;> rintro (rfl | rfl | rfl | rfl) <;> simp
    · exact b e he

/-- What a run prints after the formula, and what it returns. -/
theorem input_shown (hf : pgFormAny c = some form) (hp : c.ptdump = false) (h : pgInputEv X w c f form = some es) {r : MainRes}
    (hr : r = match w.source c.input with
      | none => .exit (-1) none
      | some text => match parseFile false text with
        | none => .exit 2 none
        | some p => pgRunAny w c f p) :
    es.flatMap PgEv.shown = specMessage w c ++ patchText X r ∧ (∀ e ∈ es, (c.logging = false → e ≠ .close) ∧ ∀ p, e ≠ .listing p) := by
  subst hr
  unfold pgInputEv at h
  unfold specMessage
  cases hs : w.source c.input with
  | none => rw [hs] at h; cases h; simp [patchText]
  | some text =>
    rw [hs] at h
    dsimp only at h ⊢
    cases hq : parseFile false text with
    | none => rw [hq] at h; cases h; simp [patchText, PgEv.shown]
    | some p =>
      rw [hq] at h
      dsimp only at h ⊢
      rw [Option.map_eq_some_iff] at h
      obtain ⟨es', h1, rfl⟩ := h
      unfold pgParsedEv at h1
      unfold pgRunAny
      rw [hf]
      dsimp only
      split at h1
      · cases h1; simp [patchText, PgEv.shown, *]
      · split at h1
        · cases h1; simp [patchText, PgEv.shown, *]
        · rename_i h2 h3
          rw [if_neg h2, if_neg h3]
          rw [hp, Option.map_eq_some_iff] at h1
          obtain ⟨es2, h4, rfl⟩ := h1
          obtain ⟨a, b⟩ := work_shown h4
          constructor
          · simp [PgEv.shown, a]
          · intro e he
            simp only [Bool.false_eq_true, if_false, List.nil_append, List.cons_append, List.mem_cons] at he
            rcases he with rfl | rfl | he
            · simp
            · simp
            · exact b e he

end

/-! ## C78 -/

section
variable {X : Screen} {w : PatchWorld} {args : List Arg} {os : List PgItem} {f : Option Arg} {σ τ : LogSt}

/-- After the options. -/
theorem scrMain_inv (hl : PgCmdLine os f args) (h : pgScrMain X w args σ = .done τ) : ∃ fa form es a,
    pgCheck (pgMeaning os f) = none ∧ (pgMeaning os f).aut = some fa ∧ pgFormAny (pgMeaning os f) = some form ∧
    pgStart X (pgMeaning os f) σ = .ok a ∧ pgInputEv X w (pgMeaning os f) fa form = some es ∧
    pgEvRun X a.2 (pgFirstEv X (pgMeaning os f) a.2 form ++ es) a.1 = .ok τ := by
  unfold pgScrMain at h
  rw [pg_cli hl] at h
  dsimp only at h
  split at h
  · rename_i fa form h1 h2 h3
    unfold pgScrRun at h
    cases hs : pgStart X (pgMeaning os f) σ with
    | ok a =>
      rw [hs] at h
      simp only [LogRes.scr] at h
      cases hi : pgInputEv X w (pgMeaning os f) fa form with
      | none => rw [hi] at h; cases h
      | some es =>
        rw [hi] at h
        dsimp only at h
        cases hr : pgEvRun X a.2 (pgFirstEv X (pgMeaning os f) a.2 form ++ es) a.1 with
        | ok b => rw [hr] at h; cases h; exact ⟨fa, form, es, a, h1, h2, h3, rfl, hi, hr⟩
        | exit | ub => rw [hr] at h; cases h
    | exit | ub => rw [hs] at h; cases h
  · cases h

theorem patchMainAny_eq (hl : PgCmdLine os f args) {fa : Arg} (h1 : pgCheck (pgMeaning os f) = none) (h2 : (pgMeaning os f).aut = some fa) :
    patchMainAny w args = match w.source (pgMeaning os f).input with
      | none => .exit (-1) none
      | some text => match parseFile false text with
        | none => .exit 2 none
        | some p => pgRunAny w (pgMeaning os f) fa p := by
  unfold patchMainAny
  rw [pg_cli hl]
  dsimp only
  rw [h1, h2]
  rfl

/-- **C78.** `gr1c-patch` with a log file, or without `-v`, and without `-p`: on standard output there are the messages of the parser about
the formula of `-f` and about the specification, and the strategy of the run if it has not been given a file, and nothing else. -/
theorem patch_stdout (hl : PgCmdLine os f args) (hp : (pgMeaning os f).ptdump = false)
    (hq : (pgMeaning os f).logging = true ∨ (pgMeaning os f).verbose = 0) (ho : ∀ n k, X.openLog n = some k → k ≠ 0) (hσ : σ.fp = none)
    (hs : ("gr1c-".toList ++ printInt X.pid ++ X.day).length < 256) (h : pgScrMain X w args σ = .done τ) :
    τ.text 0 = σ.text 0 ++ (formMessage (pgMeaning os f) ++ (specMessage w (pgMeaning os f) ++ patchText X (patchMainAny w args))) := by
  obtain ⟨fa, form, es, a, h1, h2, h3, h4, h5, h6⟩ := scrMain_inv hl h
  obtain ⟨g1, g2⟩ := input_shown h3 hp h5 (patchMainAny_eq hl h1 h2)
  have ha : Away a.2 a.1 ∧ a.1.text 0 = σ.text 0 := by
    unfold pgStart at h4
    split at h4
    · unfold openLogFile at h4
      rw [show logPrefix X.pid none = "gr1c-".toList ++ printInt X.pid from rfl, if_neg (by rw [List.length_append] at hs; omega)] at h4
      simp only [closeLogFile, hσ, LogRes.bind] at h4
      cases hop : X.openLog ("gr1c-".toList ++ printInt X.pid ++ X.day) with
      | none => rw [hop] at h4; cases h4
      | some k =>
        rw [hop] at h4
        cases h4
        exact ⟨.inr ⟨k, rfl, ho _ _ hop⟩, rfl⟩
    · rename_i hg
      cases h4
      exact ⟨.inl (hq.resolve_left hg), rfl⟩
  rw [away_run ha.1 ?_ h6, ha.2, List.flatMap_append, first_shown, g1]
  intro e he p
  rcases List.mem_append.1 he with he | he
  · exact (first_plain _ _ _ _ e he).2 p
  · exact (g2 e he).2 p

/-- **C78.** Such a run without `-v` and `-l` does come to its end, whatever it returns, if its result is within the model and the strategy
can be written. -/
theorem patch_quiet (hl : PgCmdLine os f args) (hp : (pgMeaning os f).ptdump = false) (hg : (pgMeaning os f).logging = false)
    (hv : (pgMeaning os f).verbose = 0) (hc : pgCheck (pgMeaning os f) = none) {form : PTree} (hf : pgFormAny (pgMeaning os f) = some form)
    (h0 : 0 ∈ σ.live) {s : ℤ} {out : Option Output} (hm : patchMainAny w args = .exit s out)
    (hw : ∀ o, out = some o → ∃ t, writeOut X.json o = some (.ok t)) : ∃ τ, pgScrMain X w args σ = .done τ := by
  have hm0 := hm
  cases h2 : (pgMeaning os f).aut with
  | none =>
    unfold patchMainAny at hm
    rw [pg_cli hl] at hm
    dsimp only at hm
    rw [hc, h2] at hm
    cases hm
  | some fa =>
    rw [patchMainAny_eq hl hc h2] at hm
    have last : ∀ r, r = .exit s out → ∃ es, pgLastEv X (pgMeaning os f) r = some es := by
      rintro r rfl
      cases out with
      | none => exact ⟨_, rfl⟩
      | some o =>
        obtain ⟨t, ht⟩ := hw o rfl
        exact ⟨_, by unfold pgLastEv; dsimp only; rw [ht]⟩
    obtain ⟨es, hi⟩ : ∃ es, pgInputEv X w (pgMeaning os f) fa form = some es := by
      unfold pgInputEv
      cases hs : w.source (pgMeaning os f).input with
      | none => exact ⟨_, rfl⟩
      | some text =>
        rw [hs] at hm
        dsimp only at hm ⊢
        cases hq : parseFile false text with
        | none => exact ⟨_, rfl⟩
        | some p =>
          rw [hq] at hm
          dsimp only at hm ⊢
          unfold pgRunAny at hm
          rw [hf] at hm
          unfold pgParsedEv
          split
          · exact ⟨_, rfl⟩
          · rename_i h3
            rw [if_neg h3] at hm
            dsimp only at hm
            split
            · exact ⟨_, rfl⟩
            · rename_i h4
              rw [if_neg h4] at hm
              obtain ⟨es, he⟩ := last _ hm
              unfold pgWorkEv
              rw [he]
              exact ⟨_, rfl⟩
    obtain ⟨-, g2⟩ := input_shown hf hp hi rfl
    obtain ⟨τ, hτ⟩ := quiet_run (X := X) (es := pgFirstEv X (pgMeaning os f) 0 form ++ es) (σ := setLogOpt 1 (setLogStream (some 0) σ)) h0
      (by
        intro e he
        rcases List.mem_append.1 he with he | he
        · exact first_plain _ _ _ _ e he
        · exact ⟨(g2 e he).1 hg, (g2 e he).2⟩)
    refine ⟨τ, ?_⟩
    unfold pgScrMain
    rw [pg_cli hl]
    dsimp only
    rw [hc, h2, hf]
    unfold pgScrRun pgStart
    rw [hg]
    simp only [Bool.false_eq_true, if_false, LogRes.scr, hv, hi, hτ]

/-- A message of the parser is not empty, or begins in this way. -/
theorem message_begins (l : ℕ) (t : List Char) : parserSays l t = [] ∨ ∃ r, parserSays l t = 'E' :: r := by
  unfold parserSays
  split
  · rename_i e _
    cases e with
    | dupInit env l => cases env <;> exact .inr ⟨_, rfl⟩
    | «syntax» l => exact .inr ⟨_, rfl⟩
    | _ => exact .inl rfl
  · exact .inl rfl

/-- **C78, departure: a message about `-f` comes before the strategy.** The run goes on after an error in the formula (C75), but
standard output is then no JSON text. -/
theorem form_message_not_json (hl : PgCmdLine os f args) (hp : (pgMeaning os f).ptdump = false)
    (hq : (pgMeaning os f).logging = true ∨ (pgMeaning os f).verbose = 0) (ho : ∀ n k, X.openLog n = some k → k ≠ 0) (hσ : σ.fp = none)
    (hs : ("gr1c-".toList ++ printInt X.pid ++ X.day).length < 256) (h0 : σ.text 0 = []) (hx : formMessage (pgMeaning os f) ≠ [])
    (h : pgScrMain X w args σ = .done τ) (j : JVal) : ¬ JsonText j (τ.text 0) := by
  rw [patch_stdout hl hp hq ho hσ hs h, h0, List.nil_append]
  unfold formMessage at hx ⊢
  cases hc : (pgMeaning os f).form with
  | none => rw [hc] at hx; exact absurd rfl hx
  | some x =>
    rw [hc] at hx
    dsimp only at hx ⊢
    rcases message_begins 1 (x ++ ['\n']) with e | ⟨r, e⟩
    · exact absurd e hx
    · rw [e]
      exact not_json (c := 'E') (by decide) (by decide) (by decide) j

theorem put_grows {σ τ : LogSt} {j : ℕ} {t : List Char} (h : σ.put j t = .ok τ) : σ.text 0 <+: τ.text 0 := by
  rw [put_ok h]
  by_cases hj : 0 = j
  · simp [LogSt.more, hj]
  · simp [LogSt.more, hj]

theorem step_grows {c : LogCmd} {σ τ : LogSt} (h : logStep c σ = .ok τ) : σ.text 0 <+: τ.text 0 := by
  cases c <;> simp only [logStep, logPrint, logStartLine, logRaw, logEndLine, logBody] at h
  all_goals repeat' split at h
  all_goals first
    | exact put_grows h
    | (cases h; done)
    | (cases h; exact List.prefix_rfl)

theorem run_grows : ∀ {cs : List LogCmd} {σ τ : LogSt}, logRun cs σ = .ok τ → σ.text 0 <+: τ.text 0
  | [], σ, τ, e => by cases e; exact List.prefix_rfl
  | c :: cs, σ, τ, e => by
    simp only [logRun] at e
    cases hc : logStep c σ with
    | ok a => rw [hc] at e; exact (step_grows hc).trans (run_grows e)
    | exit | ub => rw [hc] at e; cases e

theorem ev_grows {v : ℕ} {e : PgEv} {σ τ : LogSt} (he : ∀ p, e ≠ .listing p) (hs : pgEvStep X v e σ = .ok τ) : σ.text 0 <+: τ.text 0 := by
  cases e with
  | note n fmt as =>
    simp only [pgEvStep, sayAt] at hs
    split at hs
    · exact step_grows (c := .print X.stamp fmt.toList as) hs
    · cases hs; exact List.prefix_rfl
  | calls n cs =>
    simp only [pgEvStep] at hs
    split at hs
    · exact run_grows hs
    · cases hs; exact List.prefix_rfl
  | print t => exact put_grows hs
  | listing p => exact absurd rfl (he p)
  | close =>
    simp only [pgEvStep, closeLogFile] at hs
    repeat' split at hs
    all_goals first
      | (cases hs; done)
      | (cases hs; exact List.prefix_rfl)

theorem evs_grow {v : ℕ} : ∀ {es : List PgEv} {σ τ : LogSt}, (∀ e ∈ es, ∀ p, e ≠ .listing p) → pgEvRun X v es σ = .ok τ → σ.text 0 <+: τ.text 0
  | [], σ, τ, _, e => by cases e; exact List.prefix_rfl
  | a :: es, σ, τ, hn, e => by
    simp only [pgEvRun] at e
    cases hs : pgEvStep X v a σ with
    | ok b =>
      rw [hs] at e
      exact (ev_grows (hn a (by simp)) hs).trans (evs_grow (fun x hx => hn x (by simp [hx])) e)
    | exit | ub => rw [hs] at e; cases e

/-- **C78, departure: `-v` without `-l`.** The notes go to the same stream as the strategy, which is then no JSON text. -/
theorem patch_verbose_not_json (hl : PgCmdLine os f args) (hp : (pgMeaning os f).ptdump = false) (hv : (pgMeaning os f).verbose ≠ 0)
    (hg : (pgMeaning os f).logging = false) (h0 : σ.text 0 = []) (h : pgScrMain X w args σ = .done τ) (j : JVal) :
    ¬ JsonText j (τ.text 0) := by
  obtain ⟨fa, form, es, a, h1, h2, h3, h4, h5, h6⟩ := scrMain_inv hl h
  obtain ⟨-, g2⟩ := input_shown h3 hp h5 rfl
  unfold pgStart at h4
  rw [hg] at h4
  simp only [Bool.false_eq_true, if_false] at h4
  cases h4
  dsimp only at h6
  obtain ⟨fs, hfs⟩ : ∃ fs, pgFirstEv X (pgMeaning os f) (pgMeaning os f).verbose form =
      .note 0 "Running with verbosity level %d." [.int (pgMeaning os f).verbose] :: fs := ⟨_, rfl⟩
  have hn := first_plain X (pgMeaning os f) (pgMeaning os f).verbose form
  rw [hfs] at h6 hn
  rw [List.cons_append, pgEvRun] at h6
  cases hs : pgEvStep X (pgMeaning os f).verbose (.note 0 "Running with verbosity level %d." [.int (pgMeaning os f).verbose])
      (setLogOpt 1 (setLogStream (some 0) σ)) with
  | ok b =>
    rw [hs] at h6
    have h7 := evs_grow (X := X) (by
      intro e he p
      rcases List.mem_append.1 he with he | he
      · exact (hn e (by simp [he])).2 p
      · exact (g2 e he).2 p) h6
    have h8 : ∃ r, b.text 0 = 'R' :: r := by
      simp only [pgEvStep, sayAt] at hs
      rw [if_pos (by omega)] at hs
      rw [show "Running with verbosity level %d.".toList = 'R' :: "unning with verbosity level %d.".toList by decide +kernel] at hs
      simp only [logPrint, setLogOpt, setLogStream, LogSt.timed, logBody, logExpand_char (show 'R' ≠ '%' by decide)] at hs
      cases hx : logExpand "unning with verbosity level %d.".toList [.int (pgMeaning os f).verbose] with
      | none => rw [hx] at hs; cases hs
      | some t =>
        rw [hx] at hs
        have hs' := put_ok (show LogSt.put _ 0 ([] ++ ('R' :: t ++ ['\n'])) = .ok b from hs)
        refine ⟨t ++ ['\n'], ?_⟩
        rw [hs']
        simp [LogSt.more, h0]
    obtain ⟨r, hr⟩ := h8
    obtain ⟨u, hu⟩ := h7
    rw [← hu, hr]
    exact not_json (c := 'R') (by decide) (by decide) (by decide) j
  | exit | ub => rw [hs] at h6; cases h6

end

/-- **C78 and C73 are false of `gr1c-patch -f`** (a defect): the line number is not set back after the formula. The specification has
only one line, and the message about it names line 2. -/
theorem spec_line_wrong : ∃ (w : PatchWorld) (args : List Arg) (os : List PgItem) (f : Option Arg) (x text : List Char) (τ : LogSt),
    PgCmdLine os f args ∧ (pgMeaning os f).form = some x ∧ '\n' ∉ x ∧ pgForm (pgMeaning os f) = some (.node .var (some ['a']) 0 .nil .nil) ∧
    w.source f = some text ∧ '\n' ∉ text ∧ yyText false text = .error (.syntax 1) ∧
    pgScrMain StdoutEx.X w args StdoutEx.σ = .done τ ∧ τ.text 0 = "Error detected on line 2.\n".toList := by
  have hl : PgCmdLine [.aut PgEx.faut, .form ['a']] (some PgEx.fspc) ["-a".toList, PgEx.faut, "-f".toList, ['a'], PgEx.fspc] :=
    ⟨["-a".toList, PgEx.faut, "-f".toList, ['a']], [PgEx.fspc], .cons (w := ["-a".toList, PgEx.faut]) (.aut _)
      (.cons (w := ["-f".toList, ['a']]) (.form _) .nil), .file _ (by decide), rfl⟩
  have hm : patchMainAny (PgEx.world "SYS: a; SYSGOAL: []<>;".toList PgEx.aut []) ["-a".toList, PgEx.faut, "-f".toList, ['a'], PgEx.fspc] =
      .exit 2 none := by
    rw [patchMainAny_eq hl (fa := PgEx.faut) (by decide +kernel) (by decide +kernel)]
    rw [show (PgEx.world "SYS: a; SYSGOAL: []<>;".toList PgEx.aut []).source (pgMeaning [.aut PgEx.faut, .form ['a']] (some PgEx.fspc)).input =
      some "SYS: a; SYSGOAL: []<>;".toList by decide +kernel]
    dsimp only
    rw [show parseFile false "SYS: a; SYSGOAL: []<>;".toList = none by decide +kernel]
  obtain ⟨τ, hτ⟩ := patch_quiet (X := StdoutEx.X) (σ := StdoutEx.σ) hl (by decide +kernel) (by decide +kernel) (by decide +kernel)
    (by decide +kernel) (form := .node .var (some ['a']) 0 .nil .nil) (by decide +kernel) (by decide) hm (fun o h => by cases h)
  refine ⟨_, _, _, _, ['a'], "SYS: a; SYSGOAL: []<>;".toList, τ, hl, by decide +kernel, by decide, by decide +kernel, by decide +kernel, by decide +kernel,
    by decide +kernel, hτ, ?_⟩
  rw [patch_stdout hl (by decide +kernel) (.inr (by decide +kernel)) (fun n k h => by cases h; decide) rfl (by decide +kernel) hτ, hm]
  decide +kernel

/-! ## Examples -/

namespace PgOutEx

open PgEx

/-- The text on standard output and in the log file. -/
def seen (args : List Arg) : Option (List Char × List Char) :=
  match pgScrMain StdoutEx.X (world spec aut []) args StdoutEx.σ with
  | .done τ => some (τ.text 0, τ.text 3)
  | _ => none

def removed : List Char :=
  ("   0 (init) : 0,0 -  0 -  1 - [ 3]\n   1 : 1,0 -  0 -  1 - [ 0]\n   2 : 1,1 -  2 -  1 - [ 1]\n" ++ "   3 : 0,1 -  2 -  2 - [ 2]\n").toList

/-- `gr1c-patch -t txt -a a.aut -r 1 s.spc`, without more, with `-l` and with `-v`. -/
example : seen ["-t".toList, "txt".toList, "-a".toList, faut, "-r".toList, "1".toList, fspc] = some (removed, []) ∧
    seen ["-l".toList, "-t".toList, "txt".toList, "-a".toList, faut, "-r".toList, "1".toList, fspc] = some (removed,
      ("noon Running with verbosity level 1.\nnoon Parsing input...\nnoon Done.\nnoon Patching given strategy...\nnoon Done.\n" ++
        "noon Dumping automaton of size 4...\n").toList) ∧
    seen ["-v".toList, "-t".toList, "txt".toList, "-a".toList, faut, "-r".toList, "1".toList, fspc] = some
      (("Running with verbosity level 1.\nParsing input...\nDone.\nPatching given strategy...\nDone.\n" ++
        "Dumping automaton of size 4...\n").toList ++ removed, []) := by decide +kernel

/-- A formula with something after it: a message and then the strategy. -/
example : seen ["-t".toList, "txt".toList, "-a".toList, faut, "-f".toList, "!a & !b )".toList, fspc] =
    some (("Error detected on line 1.\n" ++ "   0 (init) : 0,0 -  0 -  1 - [ 4]\n   1 : 1,1 -  2 -  1 - [ 2]\n   2 : 1,0 -  3 -  1 - [ 3]\n" ++
      "   3 : 0,0 -  0 -  1 - [ 4]\n   4 : 0,1 -  1 -  1 - [ 1]\n").toList, []) := by decide +kernel

def junkArgs (v : List Arg) : List Arg := v ++ ["-a".toList, faut, "-f".toList, "!a & !b )".toList, fspc]

theorem junk_line : PgCmdLine [.aut faut, .form "!a & !b )".toList] (some fspc) (junkArgs []) :=
  ⟨["-a".toList, faut, "-f".toList, "!a & !b )".toList], [fspc], .cons (w := ["-a".toList, faut]) (.aut _)
    (.cons (w := ["-f".toList, "!a & !b )".toList]) (.form _) .nil), .file _ (by decide), rfl⟩

/-- The hypotheses of the theorems. -/
example {τ : LogSt} (h : pgScrMain StdoutEx.X (world spec aut []) (junkArgs []) StdoutEx.σ = .done τ) :=
  patch_stdout junk_line (by decide +kernel) (.inr (by decide +kernel)) (fun n k h => by cases h; decide) rfl (by decide +kernel) h

example {τ : LogSt} (h : pgScrMain StdoutEx.X (world spec aut []) (junkArgs []) StdoutEx.σ = .done τ) (j : JVal) : ¬ JsonText j (τ.text 0) :=
  form_message_not_json junk_line (by decide +kernel) (.inr (by decide +kernel)) (fun n k h => by cases h; decide) rfl (by decide +kernel) rfl
    (by decide +kernel) h j

theorem loud_line : PgCmdLine [.verbose false, .aut faut, .form "!a & !b )".toList] (some fspc) (junkArgs ["-v".toList]) :=
  ⟨"-v".toList :: ["-a".toList, faut, "-f".toList, "!a & !b )".toList], [fspc], .cons (w := ["-v".toList]) (.flag (w := "-v") (by decide +kernel))
    (.cons (w := ["-a".toList, faut]) (.aut _) (.cons (w := ["-f".toList, "!a & !b )".toList]) (.form _) .nil)), .file _ (by decide), rfl⟩

example {τ : LogSt} (h : pgScrMain StdoutEx.X (world spec aut []) (junkArgs ["-v".toList]) StdoutEx.σ = .done τ) (j : JVal) :
    ¬ JsonText j (τ.text 0) :=
  patch_verbose_not_json loud_line (by decide +kernel) (by decide +kernel) (by decide +kernel) rfl h j

end PgOutEx


end Gr1c
