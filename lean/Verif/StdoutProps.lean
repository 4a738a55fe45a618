import Verif.Stdout
import Verif.PtDumpProps

/-!
# C71: what is on standard output
-/

namespace Gr1c

/-! ## Specification -/

/-- Something a run has to say. -/
inductive Told
  /-- a line about the progress -/
  | note (line : List Char)
  /-- a result: a strategy, a Promela file, the listing of `-p` -/
  | result (t : List Char)
  /-- the answer to `-r` -/
  | answer (line : List Char)

/-- What is seen of it on standard output. Notes are seen if they were asked for (`-v`) and are not sent to a file (`-l`). -/
def Told.seen (notes : Bool) : Told → List Char
  | .note l => if notes then l ++ ['\n'] else []
  | .result t => t
  | .answer l => l ++ ['\n']

/-- What is found of it in a log file: lines that begin with the time. -/
def Told.logged (time : List Char) : Told → List Char
  | .note l => time ++ [' '] ++ l ++ ['\n']
  | .result _ => []
  | .answer l => time ++ [' '] ++ l ++ ['\n']

/-- The streams when `main` begins: no log, standard output can be written; and the log file, if there is to be one, can be opened. Its name
begins with `pre`. -/
structure Ready (X : Screen) (pre : List Char) (c : Cfg) (σ : LogSt) (k : ℕ) (time : List Char) : Prop where
  noLog : σ.fp = none
  timed : σ.opt = 0
  live : 0 ∈ σ.live
  stamp : X.stamp = some time
  short : (pre ++ X.day).length < 256
  opens : c.logging = true → X.openLog (pre ++ X.day) = some k ∧ k ≠ 0

/-- All was said: on standard output and, with `-l`, in the log file, there are these texts in this order and nothing else. -/
def Says (c : Cfg) (σ : LogSt) (k : ℕ) (time : List Char) (ts : List Told) (r : ScrRes) : Prop :=
  ∃ τ, r = .done τ ∧ τ.text 0 = σ.text 0 ++ ts.flatMap (Told.seen (decide (0 < c.verbose) && !c.logging)) ∧
    (c.logging = true → τ.text k = σ.text k ++ ts.flatMap (Told.logged time))

/-- The first notes of `gr1c`. -/
def firstNotes : List Told :=
  [.note "Running with verbosity level 1.".toList, .note "Parsing input...".toList, .note "Done.".toList]

/-- The listing of `-p`. -/
def listingTold (c : Cfg) (d : FileData) : List Told :=
  if c.ptdump then [.result (listing d.evars d.svars ++ formulaLines d.evars d.svars (filledSpec d.sp))] else []

/-! ## Proofs -/

/-- What was said so far, while the log is the stream `L`. -/
structure Sofar (c : Cfg) (σ : LogSt) (k : ℕ) (time : List Char) (ts : List Told) (L : ℕ) (τ : LogSt) : Prop where
  log : L = if c.logging then k else 0
  apart : c.logging = true → k ≠ 0
  op : τ.Open L
  live : 0 ∈ τ.live
  timed : τ.timed = c.logging
  screen : τ.text 0 = σ.text 0 ++ ts.flatMap (Told.seen (decide (0 < c.verbose) && !c.logging))
  file : c.logging = true → τ.text k = σ.text k ++ ts.flatMap (Told.logged time)

section
variable {X : Screen} {c : Cfg} {σ τ : LogSt} {k L : ℕ} {time : List Char} {ts : List Told}

theorem Sofar.says (h : Sofar c σ k time ts L τ) : Says c σ k time ts (.done τ) := ⟨τ, rfl, h.screen, h.file⟩

/-- The effective verbosity for `-v` or `-l`, not `-vv`. -/
def level (c : Cfg) : ℕ := if c.logging then 1 else c.verbose

theorem Sofar.say (h : Sofar c σ k time ts L τ) (hs : X.stamp = some time) {fmt : String} {as : List LogArg} {t : List Char}
    (hp : Printf fmt.toList as t) : ∃ τ', Gr1c.say X (level c) fmt as τ = .ok τ' ∧ Sofar c σ k time (ts ++ [.note t]) L τ' := by
  obtain ⟨h1, h2, h3, h4, h5, h6, h7⟩ := h
  unfold Gr1c.say
  by_cases hl : c.logging = true
  · have e : logStep (.print (some time) fmt.toList as) τ = _ := log_step h3 (.print time hp)
    have hL : L = k := by rw [h1, if_pos hl]
    rw [if_pos (by simp [level, hl]), hs]
    refine ⟨_, e, h1, h2, h3, h4, h5, ?_, fun _ => ?_⟩
    · have : ¬ (0 : ℕ) = L := by rw [hL]; exact fun e => h2 hl e.symm
      simp [LogSt.more, this, h6, Told.seen, hl]
    · simp [LogSt.more, hL, h7 hl, Told.logged, h5, hl]
  · have hf : c.logging = false := by simpa using hl
    by_cases hv : 0 < c.verbose
    · have e : logStep (.print (some time) fmt.toList as) τ = _ := log_step h3 (.print time hp)
      have hL : L = 0 := by rw [h1, if_neg hl]
      rw [if_pos (by simpa [level, hf] using hv), hs]
      refine ⟨_, e, h1, h2, h3, h4, h5, ?_, fun a => absurd a hl⟩
      simp [LogSt.more, hL, h6, Told.seen, h5, hf, hv]
    · rw [if_neg (by simpa [level, hf] using hv)]
      refine ⟨_, rfl, h1, h2, h3, h4, h5, ?_, fun a => absurd a hl⟩
      simp [h6, Told.seen, hv]

theorem Sofar.more (h : Sofar c σ k time ts L τ) (hv : c.verbose ≤ 1) (cs : List LogCmd) : sayMore (level c) cs τ = .ok τ := by
  unfold sayMore level
  rw [if_neg]
  split <;> omega

theorem Sofar.put (h : Sofar c σ k time ts L τ) (t : List Char) : ∃ τ', τ.put 0 t = .ok τ' ∧ Sofar c σ k time (ts ++ [.result t]) L τ' := by
  obtain ⟨h1, h2, h3, h4, h5, h6, h7⟩ := h
  refine ⟨_, put_more h4 t, h1, h2, h3, h4, h5, ?_, fun hl => ?_⟩
  · simp [LogSt.more, h6, Told.seen]
  · simp [LogSt.more, h2 hl, h7 hl, Told.logged]

/-- The listing and the formulas. -/
theorem Sofar.echo (h : Sofar c σ k time ts L τ) (d : FileData) :
    ∃ τ', scrEcho X c d.toP τ = .ok τ' ∧ Sofar c σ k time (ts ++ listingTold c d) L τ' := by
  unfold scrEcho listingTold
  by_cases hp : c.ptdump = true
  · obtain ⟨τ1, e1, s1⟩ := h.put (listing d.evars d.svars)
    obtain ⟨τ2, e2, t2, l2, o2, f2⟩ := print_spec_lines X.stamp d.evars d.svars (filledSpec d.sp) s1.live
    obtain ⟨h1, h2, h3, h4, h5, h6, h7⟩ := s1
    refine ⟨τ2, ?_, h1, h2, ⟨?_, l2 ▸ h3.2⟩, l2 ▸ h4, ?_, ?_, fun hl => ?_⟩
    · rw [if_pos hp, show varsText (-1) d.toP.ev d.toP.sv = listing d.evars d.svars from varsText_listing _ _ _, e1,
        show omissionDefaults d.toP.sp = (filledSpec d.sp).toT from (filledSpec_toT _).symm]
      exact e2
    · rw [f2, h3.1]; rfl
    · rw [← h5]; unfold LogSt.timed; rw [o2]
    · rw [t2, if_pos hp]
      simp [LogSt.more, h6, Told.seen, formulaLines]
    · rw [t2, if_pos hp]
      simp [LogSt.more, h2 hl, h7 hl, Told.logged]
  · exact ⟨τ, by rw [if_neg hp], by simpa [hp] using h⟩

theorem Sofar.finish (h : Sofar c σ k time ts L τ) (hv : c.verbose ≤ 1) : Says c σ k time ts (scrEnd X c (level c) τ) := by
  unfold scrEnd
  rw [h.more hv]
  simp only [LogRes.scr]
  by_cases hl : c.logging = true
  · have hL : L = k := by rw [h.log, if_pos hl]
    rw [if_pos hl]
    unfold closeLogFile
    rw [h.op.1]
    simp only [hL, h.apart hl, if_false, if_pos (hL ▸ h.op.2)]
    exact ⟨_, rfl, h.screen, h.file⟩
  · rw [if_neg hl]
    exact ⟨_, rfl, h.screen, h.file⟩

theorem start_ready (h : Ready X ("gr1c-".toList ++ printInt X.pid) c σ k time) (hv : c.verbose ≤ 1) :
    ∃ τ L, scrStart X c σ = .ok (τ, level c) ∧ Sofar c σ k time [] L τ := by
  unfold scrStart level
  by_cases hl : c.logging = true
  · have hs := h.short
    rw [List.length_append] at hs
    obtain ⟨ho, h0⟩ := h.opens hl
    rw [if_pos hl, if_pos hl]
    refine ⟨{ σ with name := ("gr1c-".toList ++ printInt X.pid) ++ X.day, fp := some k, live := k :: σ.live }, k, ?_, by simp [hl], fun _ => h0,
      ⟨rfl, List.mem_cons_self⟩, List.mem_cons_of_mem _ h.live, ?_, by simp, fun _ => by simp⟩
    · unfold openLogFile
      rw [show logPrefix X.pid none = "gr1c-".toList ++ printInt X.pid from rfl, if_neg (by omega)]
      unfold closeLogFile
      simp only [h.noLog, LogRes.bind, ho]
      have : (if c.verbose = 0 then 1 else c.verbose) = 1 := by split <;> omega
      rw [this]
    · simp [LogSt.timed, h.timed, hl]
  · rw [if_neg hl, if_neg hl]
    refine ⟨_, 0, rfl, by simp [hl], fun a => absurd a hl, ⟨rfl, h.live⟩, h.live, ?_, by simp [setLogOpt, setLogStream], fun a => absurd a hl⟩
    simp only [LogSt.timed, setLogOpt]
    simpa using hl

theorem rg_start_ready (h : Ready X "rg".toList c σ k time) :
    ∃ τ L, rgScrStart X c σ = .ok (τ, level c) ∧ Sofar c σ k time [] L τ := by
  unfold rgScrStart level
  by_cases hl : c.logging = true
  · have hs := h.short
    rw [List.length_append] at hs
    obtain ⟨ho, h0⟩ := h.opens hl
    rw [if_pos hl, if_pos hl]
    refine ⟨{ σ with name := "rg".toList ++ X.day, fp := some k, live := k :: σ.live }, k, ?_, by simp [hl], fun _ => h0,
      ⟨rfl, List.mem_cons_self⟩, List.mem_cons_of_mem _ h.live, ?_, by simp, fun _ => by simp⟩
    · unfold openLogFile
      rw [show logPrefix X.pid (some "rg".toList) = "rg".toList from rfl, if_neg (by omega)]
      unfold closeLogFile
      simp only [h.noLog, LogRes.bind, ho]
    · simp [LogSt.timed, h.timed, hl]
  · rw [if_neg hl, if_neg hl]
    refine ⟨_, 0, rfl, by simp [hl], fun a => absurd a hl, ⟨rfl, h.live⟩, h.live, ?_, by simp [setLogOpt, setLogStream], fun a => absurd a hl⟩
    simp only [LogSt.timed, setLogOpt]
    simpa using hl

/-- The verdict: the answer to `-r`, or a note. -/
theorem Sofar.verdict (h : Sofar c σ k time ts L τ) (hs : X.stamp = some time) (yes : Bool) :
    ∃ τ', scrVerdict X c (level c) yes τ = .ok τ' ∧ Sofar c σ k time (ts ++ [if c.run = .realizable then .answer (verdictText yes).toList
      else .note (verdictText yes).toList]) L τ' := by
  have hp : Printf (verdictText yes).toList [] (verdictText yes).toList := printf_plain _ (by cases yes <;> decide)
  unfold scrVerdict
  by_cases hr : c.run = .realizable
  · rw [if_pos hr]
    have hL := h.log
    have hop := h.op.1
    by_cases hl : c.logging = true
    · -- on the screen and in the file
      rw [if_pos hl] at hL
      have h0 : L ≠ 0 := hL ▸ h.apart hl
      rw [if_pos ⟨hr, .inr (by rw [hop]; simpa using h0)⟩]
      obtain ⟨τ1, e1, s1⟩ := h.put ((verdictText yes).toList ++ ['\n'])
      obtain ⟨τ2, e2, s2⟩ := s1.say hs hp
      rw [e1]
      refine ⟨τ2, e2, ?_⟩
      obtain ⟨h1, h2, h3, h4, h5, h6, h7⟩ := s2
      refine ⟨h1, h2, h3, h4, h5, ?_, fun _ => ?_⟩
      · rw [h6]; simp [Told.seen, hl]
      · rw [h7 hl]; simp [Told.logged]
    · have hf : c.logging = false := by simpa using hl
      rw [if_neg hl] at hL
      by_cases hv : 0 < c.verbose
      · -- only as a line of the log, which is the screen
        rw [if_neg (by rintro ⟨-, a | a⟩ <;> [(simp only [level, hf] at a; simp at a; omega); exact a (hL ▸ hop)])]
        obtain ⟨τ2, e2, s2⟩ := h.say hs hp
        refine ⟨τ2, e2, ?_⟩
        obtain ⟨h1, h2, h3, h4, h5, h6, h7⟩ := s2
        refine ⟨h1, h2, h3, h4, h5, ?_, fun a => absurd a hl⟩
        rw [h6]; simp [Told.seen, hf, hv]
      · have h0 : level c = 0 := by simp only [level, hf]; simp; omega
        rw [if_pos ⟨hr, .inl h0⟩]
        obtain ⟨τ1, e1, s1⟩ := h.put ((verdictText yes).toList ++ ['\n'])
        obtain ⟨τ2, e2, s2⟩ := s1.say hs hp
        rw [e1]
        refine ⟨τ2, e2, ?_⟩
        obtain ⟨h1, h2, h3, h4, h5, h6, h7⟩ := s2
        refine ⟨h1, h2, h3, h4, h5, ?_, fun a => absurd a hl⟩
        rw [h6]; simp [Told.seen, hv]
  · rw [if_neg (fun a => hr a.1), if_neg hr]
    exact h.say hs hp

end

/-! ## `gr1c` -/

/-- Where `main` came, if the status is 0 or 3 and there was no check of the syntax only and no dialogue. -/
theorem parsed_inv {w : World} {c : Cfg} {p : PState} {s : ℤ} {out : Option Output} (h : runParsed w c p = .exit s out)
    (h1 : c.run ≠ .syntaxOnly) (h2 : c.run ≠ .interactive) (hs : s = 0 ∨ s = 3) :
    ¬ checkGr1cForm p.ev p.sv c.init p.sp < 0 ∧ ¬ (c.ptdump = true ∧ w.canDump = false) ∧
    ∃ ev sv nb ne ns, ∃ B : BitSpec ne ns, frontEnd p.ev p.sv c.init p.sp = .ok ev sv nb ne ns B ∧
      ((s = 3 ∧ out = none ∧ B.check c.init = some none) ∨
        (s = 0 ∧ ∃ W, B.check c.init = some (some W) ∧
          ((c.run = .synthesis ∧ synthAndWrite w c ev sv nb B = .exit 0 out) ∨ (c.run = .realizable ∧ out = none)))) := by
  have hform : ¬ checkGr1cForm p.ev p.sv c.init p.sp < 0 := by
    intro hn
    have hf : frontEnd p.ev p.sv c.init p.sp = .formError := by unfold frontEnd; rw [if_pos hn]
    unfold runParsed at h
    rw [hf] at h
    simp only [hn, not_true_eq_false, and_false, if_false] at h
    simp only [MainRes.exit.injEq] at h
    omega
  have hdump : ¬ (c.ptdump = true ∧ w.canDump = false) := by
    rintro ⟨a, b⟩
    unfold runParsed at h
    simp only [a, b, hform, not_false_eq_true, and_self, if_true] at h
    simp only [MainRes.exit.injEq] at h
    omega
  refine ⟨hform, hdump, ?_⟩
  have hne : ¬ (c.ptdump = true ∧ w.canDump = false ∧ ¬ checkGr1cForm p.ev p.sv c.init p.sp < 0) := fun a => hdump ⟨a.1, a.2.1⟩
  unfold runParsed at h
  simp only [if_neg hne] at h
  cases hf : frontEnd p.ev p.sv c.init p.sp with
  | formError | ub | error | noBdd =>
    rw [hf] at h
    cases hr : c.run <;> rw [hr] at h <;> simp at h <;> first | exact absurd hr h1 | omega
  | ok ev sv nb ne ns B =>
    refine ⟨ev, sv, nb, ne, ns, B, rfl, ?_⟩
    rw [hf] at h
    have hb : ∀ r : RunMode, r = .synthesis ∨ r = .realizable → (match B.check c.init with
          | none => MainRes.ub
          | some none => .exit 3 none
          | some (some _) => if r = RunMode.synthesis then synthAndWrite w c ev sv nb B else .exit 0 none) = .exit s out →
        ((s = 3 ∧ out = none ∧ B.check c.init = some none) ∨ (s = 0 ∧ ∃ W, B.check c.init = some (some W) ∧
          ((r = .synthesis ∧ synthAndWrite w c ev sv nb B = .exit 0 out) ∨ (r = .realizable ∧ out = none)))) := by
      intro r hr h
      rcases hc : B.check c.init with _ | _ | W
      · rw [hc] at h; cases h
      · rw [hc] at h
        simp only [MainRes.exit.injEq] at h
        exact .inl ⟨h.1.symm, h.2.symm, rfl⟩
      · rw [hc] at h
        simp only at h
        rcases hr with rfl | rfl
        · rw [if_pos rfl] at h
          have hs0 : s = 0 := by
            rcases hs with rfl | rfl
            · rfl
            · exfalso
              unfold synthAndWrite at h
              repeat' split at h
              all_goals first | cases h | (simp only [MainRes.exit.injEq] at h; omega)
          exact .inr ⟨hs0, W, rfl, .inl ⟨rfl, hs0 ▸ h⟩⟩
        · rw [if_neg (by decide)] at h
          simp only [MainRes.exit.injEq] at h
          exact .inr ⟨h.1.symm, W, rfl, .inr ⟨rfl, h.2.symm⟩⟩
    cases hr : c.run with
    | syntaxOnly => exact absurd hr h1
    | interactive => exact absurd hr h2
    | realizable => rw [hr] at h; exact hb .realizable (.inr rfl) h
    | synthesis => rw [hr] at h; exact hb .synthesis (.inl rfl) h

/-- Up to the end of the parser. -/
theorem main_opening {X : Screen} {w : World} {args : List Arg} {os : List Opt} {f : Option Arg} {d : FileData} {σ : LogSt} {k : ℕ}
    {time : List Char} (h : RunsOn w args os f d) (hX : Ready X ("gr1c-".toList ++ printInt X.pid) (meaning os f) σ k time)
    (hv : (meaning os f).verbose ≤ 1) :
    ∃ τ L, Sofar (meaning os f) σ k time firstNotes L τ ∧
      scrMain X w args σ = (if checkGr1cForm d.toP.ev d.toP.sv (meaning os f).init d.toP.sp < 0 then .done τ
        else if (meaning os f).run = .syntaxOnly then .done τ
        else if (meaning os f).ptdump = true ∧ w.canDump = false then .done τ
        else (scrEcho X (meaning os f) d.toP τ).scr fun σ => (sayMore (level (meaning os f)) X.front σ).scr
          (scrFront X w (meaning os f) (level (meaning os f)) d.toP)) := by
  obtain ⟨text, h3, h4⟩ := h.called
  have h5 : w.source (meaning os f).input = some text := h3.source.source
  unfold scrMain
  rw [called_run h3]
  simp only
  generalize meaning os f = c at *
  obtain ⟨τ0, L, e0, s0⟩ := start_ready hX hv
  have hrun : ∃ τ1, say X (level c) "Running with verbosity level %d." [.int (level c)] τ0 = .ok τ1 ∧
      Sofar c σ k time [.note "Running with verbosity level 1.".toList] L τ1 := by
    by_cases h1 : level c = 1
    · obtain ⟨τ1, e1, s1⟩ := s0.say hX.stamp (fmt := "Running with verbosity level %d.") (as := [.int 1])
        (t := "Running with verbosity level 1.".toList) (by
          have a := printf_plain "Running with verbosity level ".toList (by decide)
          have b := Printf.int 1 (printf_plain ".".toList (by decide))
          exact printf_append a b)
      rw [h1] at e1 ⊢
      exact ⟨τ1, e1, s1⟩
    · have h0 : level c = 0 ∧ c.logging = false ∧ c.verbose = 0 := by
        unfold level at h1 ⊢
        by_cases hl : c.logging = true
        · simp [hl] at h1
        · simp only [hl] at h1 ⊢
          simp at h1 ⊢
          omega
      refine ⟨τ0, by unfold say; rw [h0.1]; rfl, ?_⟩
      obtain ⟨a1, a2, a3, a4, a5, a6, a7⟩ := s0
      exact ⟨a1, a2, a3, a4, a5, by simp [a6, Told.seen, h0.2.2], fun a => by rw [h0.2.1] at a; cases a⟩
  obtain ⟨τ1, e1, s1⟩ := hrun
  obtain ⟨τ2, e2, s2⟩ := s1.say hX.stamp (printf_plain "Parsing input...".toList (by decide))
  obtain ⟨τ3, e3, s3⟩ := s2.say hX.stamp (printf_plain "Done.".toList (by decide))
  refine ⟨τ3, L, s3, ?_⟩
  unfold scrRun
  rw [e0]
  simp only [LogRes.scr]
  rw [e1]
  simp only [LogRes.scr, h5]
  unfold scrText
  rw [e2]
  simp only [LogRes.scr, h4.parsed.1]
  unfold scrParsed
  rw [e3]
  rfl

section
variable {X : Screen} {w : World} {args : List Arg} {os : List Opt} {f : Option Arg} {d : FileData} {σ : LogSt} {k : ℕ} {time : List Char}

/-- **C71, `-s`.** A call with `-s` on a specification that is accepted says nothing but the first notes. -/
theorem stdout_syntax (h : RunsOn w args os f d) (hX : Ready X ("gr1c-".toList ++ printInt X.pid) (meaning os f) σ k time)
    (hv : (meaning os f).verbose ≤ 1) (hr : (meaning os f).run = .syntaxOnly) :
    Says (meaning os f) σ k time firstNotes (scrMain X w args σ) := by
  obtain ⟨τ, L, s, e⟩ := main_opening h hX hv
  rw [e]
  rw [if_pos hr]
  split <;> exact s.says

/-- Up to the verdict. -/
theorem main_verdict_told (h : RunsOn w args os f d) (hX : Ready X ("gr1c-".toList ++ printInt X.pid) (meaning os f) σ k time)
    (hv : (meaning os f).verbose ≤ 1) (h1 : (meaning os f).run ≠ .syntaxOnly) (h2 : (meaning os f).run ≠ .interactive) {s : ℤ}
    {out : Option Output} (hm : gr1cMain w args = .exit s out) (hs : s = 0 ∨ s = 3) :
    ∃ τ L ev sv nb ne ns, ∃ B : BitSpec ne ns,
      Sofar (meaning os f) σ k time (firstNotes ++ listingTold (meaning os f) d ++ [if (meaning os f).run = .realizable then
        .answer (verdictText (decide (s = 0))).toList else .note (verdictText (decide (s = 0))).toList]) L τ ∧
      scrMain X w args σ = (if (meaning os f).run = .synthesis ∧ s = 0 then
        scrSynth X w (meaning os f) (level (meaning os f)) d.toP ev sv nb B τ else scrEnd X (meaning os f) (level (meaning os f)) τ) ∧
      (s = 0 → (meaning os f).run = .synthesis → synthAndWrite w (meaning os f) ev sv nb B = .exit 0 out) := by
  obtain ⟨τ, L, s0, e⟩ := main_opening h hX hv
  rw [main_parsed h] at hm
  obtain ⟨i1, i2, ev, sv, nb, ne, ns, B, i3, i4⟩ := parsed_inv hm h1 h2 hs
  generalize meaning os f = c at *
  obtain ⟨τ1, e1, s1⟩ := s0.echo (X := X) d
  have hT : ∃ T, B.check c.init = some T ∧ T.isSome = decide (s = 0) ∧
      (s = 0 → c.run = .synthesis → synthAndWrite w c ev sv nb B = .exit 0 out) := by
    rcases i4 with ⟨a, -, b⟩ | ⟨a, W, b, r⟩
    · exact ⟨_, b, by simp [a], fun e => by omega⟩
    · refine ⟨_, b, by simp [a], fun _ hr => ?_⟩
      rcases r with r | r
      · exact r.2
      · rw [r.1] at hr; cases hr
  obtain ⟨T, t1, t2, t3⟩ := hT
  obtain ⟨τ2, e2, s2⟩ := s1.verdict hX.stamp (decide (s = 0))
  refine ⟨τ2, L, ev, sv, nb, ne, ns, B, s2, ?_, t3⟩
  rw [e, if_neg i1, if_neg h1, if_neg i2, e1]
  simp only [LogRes.scr]
  rw [s1.more hv]
  simp only [LogRes.scr]
  unfold scrFront
  rw [i3]
  simp only [if_neg h2]
  unfold scrGame
  rw [s1.more hv]
  simp only [LogRes.scr, t1, t2]
  rw [e2]
  simp

/-- **C71, `-r`.** With `-r`, the answer is on standard output once, with or without `-v` and `-l`, and it is the one that the status
tells. -/
theorem stdout_answer (h : RunsOn w args os f d) (hX : Ready X ("gr1c-".toList ++ printInt X.pid) (meaning os f) σ k time)
    (hv : (meaning os f).verbose ≤ 1) (hr : (meaning os f).run = .realizable) {s : ℤ} {out : Option Output}
    (hm : gr1cMain w args = .exit s out) (hs : s = 0 ∨ s = 3) :
    Says (meaning os f) σ k time (firstNotes ++ listingTold (meaning os f) d ++
      [.answer (if s = 0 then "Realizable." else "Not realizable.").toList]) (scrMain X w args σ) := by
  obtain ⟨τ, L, ev, sv, nb, ne, ns, B, s1, e, -⟩ := main_verdict_told h hX hv (by rw [hr]; decide) (by rw [hr]; decide) hm hs
  rw [e, if_neg (show ¬ ((meaning os f).run = .synthesis ∧ s = 0) by rw [hr]; simp)]
  rw [if_pos hr] at s1
  have := s1.finish (X := X) hv
  unfold verdictText at this
  simpa only [decide_eq_true_eq] using this

/-- **C71, no strategy.** -/
theorem stdout_unrealizable (h : RunsOn w args os f d) (hX : Ready X ("gr1c-".toList ++ printInt X.pid) (meaning os f) σ k time)
    (hv : (meaning os f).verbose ≤ 1) (hr : (meaning os f).run = .synthesis) {out : Option Output}
    (hm : gr1cMain w args = .exit 3 out) :
    Says (meaning os f) σ k time (firstNotes ++ listingTold (meaning os f) d ++ [.note "Not realizable.".toList]) (scrMain X w args σ) := by
  obtain ⟨τ, L, ev, sv, nb, ne, ns, B, s1, e, -⟩ := main_verdict_told h hX hv (by rw [hr]; decide) (by rw [hr]; decide) hm (.inr rfl)
  rw [e, if_neg (show ¬ ((meaning os f).run = .synthesis ∧ (3 : ℤ) = 0) by simp)]
  rw [if_neg (by rw [hr]; decide)] at s1
  exact s1.finish (X := X) hv

/-- **C71, a strategy.** It is on standard output unless it is sent to a file, after the listing of `-p`; with `-P`, the Promela file
follows. -/
theorem stdout_strategy (h : RunsOn w args os f d) (hX : Ready X ("gr1c-".toList ++ printInt X.pid) (meaning os f) σ k time)
    (hv : (meaning os f).verbose ≤ 1) {o : Output} (hm : gr1cMain w args = .exit 0 (some o)) {s t : List Char}
    (hs : writeOut X.json o = some (.ok s)) (ht : writeModel X.ver X.moves (meaning os f) d.toP o = some t) :
    Says (meaning os f) σ k time (firstNotes ++ listingTold (meaning os f) d ++
      [.note "Realizable.".toList, .note "Synthesizing a strategy...".toList, .note "Done.".toList,
        .note ("Dumping automaton of size ".toList ++ printInt o.aut.length ++ "...".toList)] ++
      (if o.dest = none then [.result s] else []) ++ [.result t]) (scrMain X w args σ) := by
  have hr : (meaning os f).run = .synthesis := by
    rw [main_parsed h] at hm
    cases hr : (meaning os f).run with
    | synthesis => rfl
    | syntaxOnly =>
      unfold runParsed at hm
      rw [hr] at hm
      simp only at hm
      split at hm <;> simp at hm
    | interactive =>
      unfold runParsed at hm
      rw [hr] at hm
      simp only at hm
      repeat' split at hm
      all_goals simp at hm
    | realizable =>
      obtain ⟨-, -, ev, sv, nb, ne, ns, B, -, i⟩ := parsed_inv hm (by rw [hr]; decide) (by rw [hr]; decide) (.inl rfl)
      rcases i with ⟨a, -⟩ | ⟨-, W, -, i | i⟩
      · omega
      · rw [hr] at i; cases i.1
      · cases i.2
  obtain ⟨τ, L, ev, sv, nb, ne, ns, B, s1, e, e'⟩ := main_verdict_told h hX hv (by rw [hr]; decide) (by rw [hr]; decide) hm (.inl rfl)
  rw [e, if_pos (show (meaning os f).run = .synthesis ∧ (0 : ℤ) = 0 from ⟨hr, rfl⟩)]
  rw [if_neg (by rw [hr]; decide)] at s1
  obtain ⟨τ2, e2, s2⟩ := s1.say hX.stamp (printf_plain "Synthesizing a strategy...".toList (by decide))
  obtain ⟨τ3, e3, s3⟩ := s2.say hX.stamp (printf_plain "Done.".toList (by decide))
  obtain ⟨τ4, e4, s4⟩ := s3.say hX.stamp (fmt := "Dumping automaton of size %d...") (as := [.int o.aut.length])
    (t := "Dumping automaton of size ".toList ++ (printInt o.aut.length ++ "...".toList)) (by
      have a := printf_plain "Dumping automaton of size ".toList (by decide)
      have b := Printf.int o.aut.length (printf_plain "...".toList (by decide))
      exact printf_append a b)
  have h5 : ∃ τ5, scrWrite X o τ4 = .ok τ5 ∧ Sofar (meaning os f) σ k time (firstNotes ++ listingTold (meaning os f) d ++
      [.note "Realizable.".toList, .note "Synthesizing a strategy...".toList, .note "Done.".toList,
        .note ("Dumping automaton of size ".toList ++ printInt o.aut.length ++ "...".toList)] ++
      (if o.dest = none then [.result s] else [])) L τ5 := by
    have s4' : Sofar (meaning os f) σ k time (firstNotes ++ listingTold (meaning os f) d ++
      [.note "Realizable.".toList, .note "Synthesizing a strategy...".toList, .note "Done.".toList,
        .note ("Dumping automaton of size ".toList ++ printInt o.aut.length ++ "...".toList)]) L τ4 := by
      simpa [verdictText] using s4
    unfold scrWrite
    rw [hs]
    by_cases hd : o.dest = none
    · obtain ⟨τ5, a, b⟩ := s4'.put s
      exact ⟨τ5, by simp only [if_pos hd]; exact a, by simpa only [if_pos hd] using b⟩
    · exact ⟨τ4, by simp only [if_neg hd], by simpa only [if_neg hd, List.append_nil] using s4'⟩
  obtain ⟨τ5, e5, s5⟩ := h5
  obtain ⟨τ6, e6, s6⟩ := s5.put t
  unfold scrSynth
  rw [e2]
  simp only [LogRes.scr]
  rw [s2.more hv]
  simp only [LogRes.scr]
  rw [e3]
  simp only [LogRes.scr]
  rw [e' rfl hr]
  unfold scrResult scrOutput
  simp only
  rw [e4]
  simp only [LogRes.scr]
  rw [e5]
  simp only [LogRes.scr]
  unfold scrModel
  rw [ht]
  simp only
  rw [e6]
  simp only [LogRes.scr]
  exact s6.finish (X := X) hv

end

/-! ## A log file leaves standard output alone -/

/-- The same call without `-v` and `-l`. -/
def quiet (c : Cfg) : Cfg := { c with logging := false, verbose := 0 }

/-- If both end, there is the same on standard output. -/
def Agree (r r' : ScrRes) : Prop := ∀ τ τ', r = .done τ → r' = .done τ' → τ.text 0 = τ'.text 0

/-- One state with a log file, one without. -/
structure Beside (σ σ' : LogSt) : Prop where
  file : ∃ k, σ.fp = some k ∧ k ≠ 0
  screen : σ'.fp = some 0
  live : 0 ∈ σ.live ↔ 0 ∈ σ'.live
  same : σ.text 0 = σ'.text 0

theorem agree_scr {α β : Type} {x : LogRes α} {y : LogRes β} {f : α → ScrRes} {g : β → ScrRes}
    (h : ∀ a b, x = .ok a → y = .ok b → Agree (f a) (g b)) : Agree (x.scr f) (y.scr g) := by
  intro τ τ' e e'
  cases x with
  | ok a =>
    cases y with
    | ok b => exact h a b rfl rfl τ τ' e e'
    | exit | ub => cases e'
  | exit | ub => cases e

theorem agree_scr_left {x : LogRes LogSt} {f : LogSt → ScrRes} {r : ScrRes}
    (h : ∀ a, x = .ok a → Agree (f a) r) : Agree (x.scr f) r := by
  intro τ τ' e e'
  cases x with
  | ok a => exact h a rfl τ τ' e e'
  | exit | ub => cases e

theorem put_ok {σ τ : LogSt} {j : ℕ} {t : List Char} (h : σ.put j t = .ok τ) : τ = σ.more j t := by
  unfold LogSt.put at h
  split at h
  · cases h; rfl
  · cases h

/-- What is left alone when one writes to another stream. -/
theorem beside_put {σ σ' τ : LogSt} (h : Beside σ σ') {j : ℕ} (hj : j ≠ 0) {t : List Char} (e : σ.put j t = .ok τ) : Beside τ σ' := by
  rw [put_ok e]
  exact ⟨h.file, h.screen, h.live, by rw [← h.same]; simp [LogSt.more, hj.symm]⟩

theorem beside_step {σ σ' τ : LogSt} (h : Beside σ σ') {c : LogCmd} (e : logStep c σ = .ok τ) : Beside τ σ' := by
  obtain ⟨k, hk, k0⟩ := h.file
  cases c with
  | print s f as =>
    simp only [logStep, logPrint, hk] at e
    split at e
    · cases s with
      | none => exact beside_put h one_ne_zero e
      | some s =>
        simp only [logBody] at e
        split at e
        · cases e
        · exact beside_put h k0 e
    · simp only [logBody] at e
      split at e
      · cases e
      · exact beside_put h k0 e
  | start s =>
    simp only [logStep, logStartLine, hk] at e
    split at e
    · cases s with
      | none => exact beside_put h one_ne_zero e
      | some s => exact beside_put h k0 e
    · cases e; exact h
  | raw f as =>
    simp only [logStep, logRaw, hk] at e
    split at e
    · cases e
    · exact beside_put h k0 e
  | stop =>
    simp only [logStep, logEndLine, hk] at e
    exact beside_put h k0 e

theorem beside_run {σ' : LogSt} : ∀ {cs : List LogCmd} {σ τ : LogSt}, Beside σ σ' → logRun cs σ = .ok τ → Beside τ σ'
  | [], σ, τ, h, e => by cases e; exact h
  | c :: cs, σ, τ, h, e => by
    simp only [logRun] at e
    cases hc : logStep c σ with
    | ok a => rw [hc] at e; exact beside_run (beside_step h hc) e
    | exit | ub => rw [hc] at e; cases e

theorem beside_say {X : Screen} {v : ℕ} {fmt : String} {as : List LogArg} {σ σ' τ τ' : LogSt} (h : Beside σ σ')
    (e : say X v fmt as σ = .ok τ) (e' : say X 0 fmt as σ' = .ok τ') : Beside τ τ' := by
  cases e'
  unfold say at e
  split at e
  · exact beside_step (c := .print X.stamp fmt.toList as) h e
  · cases e; exact h

theorem beside_more {v : ℕ} {cs : List LogCmd} {σ σ' τ τ' : LogSt} (h : Beside σ σ') (e : sayMore v cs σ = .ok τ)
    (e' : sayMore 0 cs σ' = .ok τ') : Beside τ τ' := by
  cases e'
  unfold sayMore at e
  split at e
  · exact beside_run h e
  · cases e; exact h

theorem beside_both {σ σ' τ τ' : LogSt} (h : Beside σ σ') {t : List Char} (e : σ.put 0 t = .ok τ) (e' : σ'.put 0 t = .ok τ') :
    Beside τ τ' := by
  rw [put_ok e, put_ok e']
  exact ⟨h.file, h.screen, h.live, by simp [LogSt.more, h.same]⟩

/-- Both logs are standard output. -/
structure OnScreen (σ σ' : LogSt) : Prop where
  fst : σ.fp = some 0
  snd : σ'.fp = some 0
  ft : σ.timed = false
  st : σ'.timed = false
  same : σ.text 0 = σ'.text 0

theorem onscreen_put {σ σ' τ τ' : LogSt} (h : OnScreen σ σ') {t : List Char} (e : σ.put 0 t = .ok τ) (e' : σ'.put 0 t = .ok τ') :
    OnScreen τ τ' := by
  rw [put_ok e, put_ok e']
  exact ⟨h.fst, h.snd, h.ft, h.st, by simp [LogSt.more, h.same]⟩

theorem onscreen_step {σ σ' τ τ' : LogSt} (h : OnScreen σ σ') {c : LogCmd} (e : logStep c σ = .ok τ) (e' : logStep c σ' = .ok τ') :
    OnScreen τ τ' := by
  cases c with
  | print s f as =>
    simp only [logStep, logPrint, h.fst, h.snd, h.ft, h.st, logBody] at e e'
    cases hf : logExpand f as with
    | none => simp [hf] at e
    | some t =>
      simp only [hf, Bool.false_eq_true, if_false] at e e'
      exact onscreen_put h e e'
  | start s =>
    simp only [logStep, logStartLine, h.fst, h.snd, h.ft, h.st, Bool.false_eq_true, if_false] at e e'
    cases e; cases e'; exact h
  | raw f as =>
    simp only [logStep, logRaw, h.fst, h.snd] at e e'
    cases hf : logExpand f as with
    | none => simp [hf] at e
    | some t =>
      simp only [hf] at e e'
      exact onscreen_put h e e'
  | stop =>
    simp only [logStep, logEndLine, h.fst, h.snd] at e e'
    exact onscreen_put h e e'

theorem step_live {c : LogCmd} {σ τ : LogSt} (e : logStep c σ = .ok τ) : τ.live = σ.live := by
  have key : ∀ {j : ℕ} {t : List Char} {τ : LogSt}, σ.put j t = .ok τ → τ.live = σ.live := fun e => by rw [put_ok e]; rfl
  cases c <;> simp only [logStep, logPrint, logStartLine, logRaw, logEndLine, logBody] at e <;> repeat' split at e
  all_goals first | exact key e | cases e
  all_goals rfl

theorem run_live : ∀ {cs : List LogCmd} {σ τ : LogSt}, logRun cs σ = .ok τ → τ.live = σ.live
  | [], σ, τ, e => by cases e; rfl
  | c :: cs, σ, τ, e => by
    simp only [logRun] at e
    cases hc : logStep c σ with
    | ok a => rw [hc] at e; rw [run_live e, step_live hc]
    | exit | ub => rw [hc] at e; cases e

theorem onscreen_run : ∀ {cs : List LogCmd} {σ σ' τ τ' : LogSt}, OnScreen σ σ' → logRun cs σ = .ok τ → logRun cs σ' = .ok τ' →
    OnScreen τ τ'
  | [], σ, σ', τ, τ', h, e, e' => by cases e; cases e'; exact h
  | c :: cs, σ, σ', τ, τ', h, e, e' => by
    simp only [logRun] at e e'
    cases hc : logStep c σ with
    | ok a =>
      cases hc' : logStep c σ' with
      | ok b => rw [hc] at e; rw [hc'] at e'; exact onscreen_run (onscreen_step h hc hc') e e'
      | exit | ub => rw [hc'] at e'; cases e'
    | exit | ub => rw [hc] at e; cases e

theorem beside_spec {σ σ' τ τ' : LogSt} (h : Beside σ σ') {cs : List LogCmd} (e : logOn (some 0) cs σ = .ok τ)
    (e' : logOn (some 0) cs σ' = .ok τ') : Beside τ τ' := by
  simp only [logOn] at e e'
  cases hc : logRun cs (setLogOpt 1 (setLogStream (some 0) σ)) with
  | ok a =>
    cases hc' : logRun cs (setLogOpt 1 (setLogStream (some 0) σ')) with
    | ok b =>
      rw [hc] at e; rw [hc'] at e'
      cases e; cases e'
      have hs : OnScreen a b :=
        onscreen_run (σ := setLogOpt 1 (setLogStream (some 0) σ)) (σ' := setLogOpt 1 (setLogStream (some 0) σ'))
          ⟨rfl, rfl, rfl, rfl, h.same⟩ hc hc'
      obtain ⟨k, hk, k0⟩ := h.file
      refine ⟨⟨k, by simp [setLogOpt, setLogStream, hk], k0⟩, by simp [setLogOpt, setLogStream, h.screen], ?_, hs.same⟩
      have l1 := run_live hc
      have l2 := run_live hc'
      simp only [setLogOpt, setLogStream] at l1 l2 ⊢
      rw [l1, l2]; exact h.live
    | exit | ub => rw [hc'] at e'; cases e'
  | exit | ub => rw [hc] at e; cases e

section
variable {X : Screen} {w : World} {c : Cfg} {v : ℕ} {p : PState} {σ σ' : LogSt}

theorem beside_done (h : Beside σ σ') : Agree (.done σ) (.done σ') := by
  intro τ τ' e e'
  cases e; cases e'
  exact h.same

theorem beside_end (h : Beside σ σ') (hc : c.logging = true) : Agree (scrEnd X c v σ) (scrEnd X (quiet c) 0 σ') := by
  refine agree_scr fun a b e e' => ?_
  have h1 := beside_more h e e'
  rw [if_pos hc]
  refine agree_scr fun a' b' e1 e2 => ?_
  cases e2
  intro τ τ' e3 e4
  cases e3; cases e4
  rw [← h1.same]
  obtain ⟨k, hk, k0⟩ := h1.file
  simp only [closeLogFile, hk, k0, if_false] at e1
  split at e1
  · cases e1; rfl
  · cases e1

theorem beside_write (h : Beside σ σ') {o : Output} {τ τ' : LogSt} (e : scrWrite X o σ = .ok τ) (e' : scrWrite X o σ' = .ok τ') :
    Beside τ τ' := by
  unfold scrWrite at e e'
  rcases hw : writeOut X.json o with _ | r
  · simp [hw] at e
  · simp only [hw] at e e'
    cases r with
    | failed => cases e; cases e'; exact h
    | ub => cases e
    | ok s =>
      simp only at e e'
      by_cases hd : o.dest = none
      · rw [if_pos hd] at e e'; exact beside_both h e e'
      · rw [if_neg hd] at e e'; cases e; cases e'; exact h

theorem beside_result (h : Beside σ σ') (hc : c.logging = true) (r : MainRes) :
    Agree (scrResult X c v p r σ) (scrResult X (quiet c) 0 p r σ') := by
  unfold scrResult
  rcases r with _ | _ | _ | _ | ⟨s, _ | o⟩ | _
  · intro τ τ' e; cases e
  · intro τ τ' e; cases e
  · intro τ τ' e; cases e
  · intro τ τ' e; cases e
  · exact beside_done h
  · refine agree_scr fun a b e e' => agree_scr fun a1 b1 e1 e1' => agree_scr fun a2 b2 e2 e2' => beside_end ?_ hc
    have h1 := beside_write (beside_say h e e') e1 e1'
    unfold scrModel at e2 e2'
    have : writeModel X.ver X.moves (quiet c) p o = writeModel X.ver X.moves c p o := rfl
    rw [this] at e2'
    cases hm : writeModel X.ver X.moves c p o with
    | none => rw [hm] at e2; cases e2
    | some t => rw [hm] at e2 e2'; exact beside_both h1 e2 e2'
  · intro τ τ' e; cases e

theorem beside_verdict (h : Beside σ σ') {yes : Bool} {τ τ' : LogSt} (e : scrVerdict X c v yes σ = .ok τ)
    (e' : scrVerdict X (quiet c) 0 yes σ' = .ok τ') : Beside τ τ' := by
  unfold scrVerdict at e e'
  obtain ⟨k, hk, k0⟩ := h.file
  by_cases hr : c.run = .realizable
  · have hr' : (quiet c).run = .realizable := hr
    rw [if_pos ⟨hr, .inr (by rw [hk]; simpa using k0)⟩] at e
    rw [if_pos ⟨hr', .inl rfl⟩] at e'
    cases hp : σ.put 0 ((verdictText yes).toList ++ ['\n']) with
    | ok a =>
      cases hp' : σ'.put 0 ((verdictText yes).toList ++ ['\n']) with
      | ok b =>
        rw [hp] at e; rw [hp'] at e'
        exact beside_say (beside_both h hp hp') e e'
      | exit | ub => rw [hp'] at e'; cases e'
    | exit | ub => rw [hp] at e; cases e
  · have hr' : ¬ (quiet c).run = .realizable := hr
    rw [if_neg fun a => hr a.1] at e
    rw [if_neg fun a => hr' a.1] at e'
    exact beside_say h e e'

theorem beside_game (h : Beside σ σ') (hc : c.logging = true) {ev sv nb : PTree} {ne ns : ℕ} (B : BitSpec ne ns) :
    Agree (scrGame X w c v p ev sv nb B σ) (scrGame X w (quiet c) 0 p ev sv nb B σ') := by
  refine agree_scr fun a b e e' => ?_
  have h1 := beside_more h e e'
  have hi : (quiet c).init = c.init := rfl
  rw [hi]
  cases hT : B.check c.init with
  | none => intro τ τ' e; cases e
  | some T =>
    refine agree_scr fun a1 b1 e1 e1' => ?_
    have h2 := beside_verdict h1 e1 e1'
    by_cases hs : c.run = .synthesis ∧ T.isSome
    · have hs' : (quiet c).run = .synthesis ∧ T.isSome := hs
      rw [if_pos hs, if_pos hs']
      unfold scrSynth
      refine agree_scr fun a b e e' => agree_scr fun a1 b1 e1 e1' => agree_scr fun a2 b2 e2 e2' => ?_
      exact beside_result (beside_say (beside_more (beside_say h2 e e') e1 e1') e2 e2') hc _
    · have hs' : ¬ ((quiet c).run = .synthesis ∧ T.isSome) := hs
      rw [if_neg hs, if_neg hs']
      exact beside_end h2 hc

theorem beside_echo (h : Beside σ σ') {τ τ' : LogSt} (e : scrEcho X c p σ = .ok τ) (e' : scrEcho X (quiet c) p σ' = .ok τ') :
    Beside τ τ' := by
  unfold scrEcho at e e'
  by_cases hp : c.ptdump = true
  · have hp' : (quiet c).ptdump = true := hp
    rw [if_pos hp] at e
    rw [if_pos hp'] at e'
    cases hq : σ.put 0 (varsText (-1) p.ev p.sv) with
    | ok a =>
      cases hq' : σ'.put 0 (varsText (-1) p.ev p.sv) with
      | ok b =>
        rw [hq] at e; rw [hq'] at e'
        exact beside_spec (beside_both h hq hq') e e'
      | exit | ub => rw [hq'] at e'; cases e'
    | exit | ub => rw [hq] at e; cases e
  · have hp' : ¬ (quiet c).ptdump = true := hp
    rw [if_neg hp] at e
    rw [if_neg hp'] at e'
    cases e; cases e'; exact h

theorem beside_parsed (h : Beside σ σ') (hc : c.logging = true) :
    Agree (scrParsed X w c v p σ) (scrParsed X w (quiet c) 0 p σ') := by
  refine agree_scr fun a b e e' => ?_
  have h1 := beside_say h e e'
  have q1 : (quiet c).init = c.init := rfl
  have q2 : (quiet c).run = c.run := rfl
  have q3 : (quiet c).ptdump = c.ptdump := rfl
  rw [q1, q2, q3]
  split
  · exact beside_done h1
  · split
    · exact beside_done h1
    · split
      · exact beside_done h1
      · refine agree_scr fun a b e e' => agree_scr fun a1 b1 e1 e1' => ?_
        have h2 := beside_more (beside_echo h1 e e') e1 e1'
        unfold scrFront
        rw [q1, q2]
        cases frontEnd p.ev p.sv c.init p.sp with
        | formError | error => exact beside_done h2
        | ub | noBdd => intro τ τ' e; cases e
        | ok ev sv nb ne ns B =>
          simp only
          split
          · intro τ τ' e; cases e
          · exact beside_game h2 hc B

/-- **C71, log file.** For every specification, with every verbosity and whatever the solver puts into the log: a call with `-l`
leaves the same on standard output as the call without `-l` and `-v`. -/
theorem log_leaves_stdout (X : Screen) (w : World) (c : Cfg) (σ : LogSt) (hl : c.logging = true)
    (ho : ∀ n k, X.openLog n = some k → k ≠ 0) (hσ : σ.fp = none) (hs : ("gr1c-".toList ++ printInt X.pid ++ X.day).length < 256) :
    Agree (scrRun X w c σ) (scrRun X w (quiet c) σ) := by
  unfold scrRun
  refine agree_scr fun a b e e' => ?_
  unfold scrStart at e e'
  rw [if_pos hl] at e
  rw [if_neg (by simp [quiet])] at e'
  cases e'
  have hb : Beside a.1 (setLogOpt 1 (setLogStream (some 0) σ)) ∧ 0 < a.2 := by
    unfold openLogFile at e
    rw [show logPrefix X.pid none = "gr1c-".toList ++ printInt X.pid from rfl, if_neg (by rw [List.length_append] at hs; omega)] at e
    simp only [closeLogFile, hσ, LogRes.bind] at e
    cases hop : X.openLog ("gr1c-".toList ++ printInt X.pid ++ X.day) with
    | none => rw [hop] at e; cases e
    | some k =>
      rw [hop] at e
      cases e
      have k0 := ho _ _ hop
      refine ⟨⟨⟨k, rfl, k0⟩, rfl, ?_, rfl⟩, ?_⟩
      · simp [setLogOpt, setLogStream, k0.symm]
      · simp only; split <;> omega
  refine agree_scr fun a1 b1 e1 e1' => ?_
  have q : (quiet c).input = c.input := rfl
  have h1 : Beside a1 b1 := by
    cases e1'
    unfold say at e1
    rw [if_pos hb.2] at e1
    exact beside_step (c := .print X.stamp _ _) hb.1 e1
  rw [q]
  cases w.source c.input with
  | none => exact beside_done h1
  | some text =>
    refine agree_scr fun a2 b2 e2 e2' => ?_
    have h2 := beside_say h1 e2 e2'
    cases parseFile false text with
    | none =>
      refine agree_scr fun a3 b3 e3 e3' => ?_
      exact beside_done (beside_both h2 e3 e3')
    | some p => exact beside_parsed h2 hl

end

end Gr1c
