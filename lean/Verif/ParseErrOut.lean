import Verif.ParseErrProps
import Verif.StdoutMain

/-!
# Texts that are rejected: messages on standard output and exit status (C73)
-/

namespace Gr1c

/-! ## Tokens of lines -/

theorem lex_line : ∀ (k : ℕ) (a : List Char) (b : Bool) (s : List Char), a.length ≤ k → '\n' ∉ a →
    lex b (a ++ '\n' :: s) = lex b (a ++ ['\n']) ++ lex true s := by
  have nl : ∀ (b : Bool) (s : List Char), lex b ('\n' :: s) = lex true s := by
    intro b s
    rw [lex_cons, newline_one]; rfl
  intro k
  induction k with
  | zero =>
    intro a b s hk _
    obtain rfl := List.length_eq_zero_iff.1 (Nat.le_zero.1 hk)
    rw [List.nil_append, List.nil_append, nl, lex_newline]; rfl
  | succ k ih =>
    intro a b s hk ha
    cases a with
    | nil => rw [List.nil_append, List.nil_append, nl, lex_newline]; rfl
    | cons c a =>
      have ha' : '\n' ∉ a := fun h => ha (List.mem_cons_of_mem _ h)
      simp only [List.length_cons] at hk
      rw [List.cons_append, List.cons_append, lex_cons, lex_cons]
      by_cases hh : c = '#'
      · subst hh
        rw [hash_one b a s ha', hash_one b a [] ha']
        simp only [Option.toList_none, List.nil_append, lex_newline]
        rw [nl]
      · have h1 := lexOne_sep (b := b) (s := a) (X := '\n' :: s) ⟨_, _, rfl, .inr rfl⟩ (fun h => absurd h hh)
        have h2 := lexOne_sep (b := b) (s := a) (X := ['\n']) ⟨_, _, rfl, .inr rfl⟩ (fun h => absurd h hh)
        have hlen := lexOne_le b c a
        have hno : '\n' ∉ (lexOne b c a).2.2 := fun h => ha' ((lexOne_suffix b c a).subset h)
        rw [h1, h2]
        simp only
        rw [ih _ _ _ (by omega) hno, List.append_assoc]

/-- **C73.** The tokens of the lines are the tokens of the text. -/
theorem toks_by_line : ∀ (k : ℕ) (text : List Char) (n : ℕ), text.length ≤ k → toksOf (toksByLine n text) = lexFile text := by
  intro k
  induction k with
  | zero =>
    intro text n hk
    obtain rfl := List.length_eq_zero_iff.1 (Nat.le_zero.1 hk)
    simp [toksByLine, linesOf, lexFile, lex, toksOf]
  | succ k ih =>
    intro text n hk
    rcases text_cases text with h | ⟨a, s, rfl, ha⟩
    · simp [toksByLine, linesOf_last h, lexFile, toksOf, Function.comp_def]
    · have e1 : toksByLine n (a ++ '\n' :: s) = (lex true (a ++ ['\n'])).map (fun t => (t, n)) ++ toksByLine (n + 1) s := by
        simp [toksByLine, linesOf_line ha, lexFile]
      rw [e1, toksOf_append, ih s (n + 1) (by simp at hk; omega)]
      unfold lexFile
      rw [lex_line _ a true s (Nat.le_refl _) ha]
      simp [toksOf, Function.comp_def]

/-- Specification: a text of 7-bit symbols that has no formula in front. -/
def PlainText (text : List Char) : Prop :=
  (∀ t ∈ lexFile text, ¬WideTok t) ∧ ∀ t, (lexFile text).head? = some t → isHeader t = true

theorem PlainText.lines {text : List Char} (h : PlainText text) : ∀ x ∈ toksByLine 1 text, ¬WideTok x.1 := by
  intro x hx
  refine h.1 x.1 ?_
  rw [← toks_by_line _ text 1 (Nat.le_refl _)]
  exact List.mem_map_of_mem hx

/-- **C73.** Such a text is accepted by this model exactly if it is accepted by the model in `Parse`. -/
theorem text_agrees {text : List Char} (h : PlainText text) (rg : Bool) : yyText rg text = .ok () ↔ (parseFile rg text).isSome = true := by
  have e := toks_by_line _ text 1 (Nat.le_refl _)
  rw [text_lines rg text h.lines, yyparse_agrees rg _ _ (by rw [e]; exact h.2), e]
  rfl

theorem text_rejected {text : List Char} (h : PlainText text) {rg : Bool} {e : PErr} (he : yyText rg text = .error e) :
    parseFile rg text = none := by
  cases hp : parseFile rg text with
  | none => rfl
  | some p =>
    have := (text_agrees h rg).2 (by rw [hp]; rfl)
    rw [he] at this
    cases this

/-! ## Standard output -/

section
variable {X : Screen} {w : World} {args : List Arg} {os : List Opt} {f : Option Arg} {text : List Char} {σ : LogSt} {k : ℕ}
  {time : List Char}

/-- **C73, `gr1c`.** With a text that is rejected, the message of the parser is on standard output after the first notes, nothing else, and
the exit status is 2. -/
theorem rejected_stdout (h : Called w args os f text) (hp : PlainText text) {e : PErr} (he : yyText false text = .error e)
    (hX : Ready X ("gr1c-".toList ++ printInt X.pid) (meaning os f) σ k time) (hm : X.parseText = e.out)
    (hv : (meaning os f).verbose ≤ 1) :
    Says (meaning os f) σ k time
        [.note "Running with verbosity level 1.".toList, .note "Parsing input...".toList, .result e.out] (scrMain X w args σ) ∧
      gr1cMain w args = .exit 2 none := by
  have h5 : w.source (meaning os f).input = some text := h.source.source
  have h6 := text_rejected hp he
  refine ⟨?_, ?_⟩
  · unfold scrMain
    rw [called_run h]
    simp only
    generalize meaning os f = c at *
    obtain ⟨τ0, L, e0, s0⟩ := start_ready hX hv
    have hrun : ∃ τ1, say X (level c) "Running with verbosity level %d." [.int (level c)] τ0 = .ok τ1 ∧
        Sofar c σ k time [.note "Running with verbosity level 1.".toList] L τ1 := by
      by_cases h1 : level c = 1
      · obtain ⟨τ1, e1, s1⟩ := s0.say hX.stamp (fmt := "Running with verbosity level %d.") (as := [.int 1])
          (t := "Running with verbosity level 1.".toList) (by
            have a := printf_plain "Running with verbosity level ".toList (by decide)
            have b := Printf.int 1 (printf_plain ".".toList (by decide))
            exact printf_append a b)
        rw [h1] at e1 ⊢
        exact ⟨τ1, e1, s1⟩
      · have h0 : level c = 0 ∧ c.logging = false ∧ c.verbose = 0 := by
          unfold level at h1 ⊢
          by_cases hl : c.logging = true
          · simp [hl] at h1
          · simp only [hl] at h1 ⊢
            simp at h1 ⊢
            omega
        refine ⟨τ0, by unfold say; rw [h0.1]; rfl, ?_⟩
        obtain ⟨a1, a2, a3, a4, a5, a6, a7⟩ := s0
        exact ⟨a1, a2, a3, a4, a5, by simp [a6, Told.seen, h0.2.2], fun a => by rw [h0.2.1] at a; cases a⟩
    obtain ⟨τ1, e1, s1⟩ := hrun
    obtain ⟨τ2, e2, s2⟩ := s1.say hX.stamp (printf_plain "Parsing input...".toList (by decide))
    obtain ⟨τ3, e3, s3⟩ := s2.put e.out
    unfold scrRun
    rw [e0]
    simp only [LogRes.scr]
    rw [e1]
    simp only [LogRes.scr, h5]
    unfold scrText
    rw [e2]
    simp only [LogRes.scr, h6, hm]
    rw [e3]
    exact s3.says
  · unfold gr1cMain
    rw [called_run h]
    simp only [h5, h6]

/-- **C73, `gr1c-rg`.** The same for `gr1c-rg`. -/
theorem rg_rejected_stdout (h : RgCalled w args os f text) (hp : PlainText text) {e : PErr} (he : yyText true text = .error e)
    (hX : Ready X "rg".toList (rgMeaning os f) σ k time) (hm : X.parseText = e.out) :
    Says (rgMeaning os f) σ k time [.note "Parsing input...".toList, .result e.out] (rgScrMain X w args σ) ∧
      rgMain w args = .exit 2 none := by
  have h5 : w.source (rgMeaning os f).input = some text := h.source.source
  have h6 := text_rejected hp he
  have h8 : (rgMeaning os f).help = false := by simp [rgMeaning, meaning, h.noHelp]
  refine ⟨?_, ?_⟩
  · unfold rgScrMain
    rw [rg_cli h.line]
    simp only [h8, Bool.false_eq_true, if_false]
    generalize rgMeaning os f = c at *
    obtain ⟨τ0, L, e0, s0⟩ := rg_start_ready hX
    obtain ⟨τ2, e2, s2⟩ := s0.say hX.stamp (printf_plain "Parsing input...".toList (by decide))
    obtain ⟨τ3, e3, s3⟩ := s2.put e.out
    unfold rgScrRun
    rw [e0]
    simp only [LogRes.scr, h5]
    unfold rgScrText
    rw [e2]
    simp only [LogRes.scr, h6, hm]
    rw [e3]
    exact s3.says
  · rw [rg_called h, h6]

end

namespace PErrEx

open MainEx

/-- A text with a missing operand in line 2. -/
def bad : List Char := "ENV: x;\nSYSINIT: x & ;\n".toList

theorem bad_toks : lexFile bad = [.evars, .ident ['x'], .chr ';', .sinit, .ident ['x'], .chr '&', .chr ';'] := by decide +kernel

theorem bad_plain : PlainText bad := by
  refine ⟨?_, ?_⟩
  · rw [bad_toks]
    simp [WideTok]
  · rw [bad_toks]
    rintro t ⟨⟩
    rfl

/-- The message. -/
def X : Screen := { StdoutEx.X with parseText := (PErr.syntax 2).out }

/-- `gr1c s.spc`: the line is named and nothing else is written. -/
example : ∃ (w : World) (τ : LogSt), scrMain X w ["s.spc".toList] StdoutEx.σ = .done τ ∧
    τ.text 0 = "Error detected on line 2.\n".toList ∧ gr1cMain w ["s.spc".toList] = .exit 2 none := by
  have hc : Called (world bad [] 0) ["s.spc".toList] [] (some "s.spc".toList) bad :=
    ⟨⟨[], ["s.spc".toList], .nil, .file _ (by decide), rfl⟩, by decide, by decide, by decide, by decide, Or.inl ⟨_, rfl, by simp [world]⟩⟩
  have hX : Ready X ("gr1c-".toList ++ printInt X.pid) (meaning [] (some "s.spc".toList)) StdoutEx.σ 3 "noon".toList :=
    ⟨rfl, rfl, by decide, rfl, by decide +kernel, fun _ => ⟨rfl, by decide⟩⟩
  obtain ⟨⟨τ, e, t, -⟩, s⟩ := rejected_stdout hc bad_plain (e := .syntax 2) (by decide +kernel) hX rfl (by decide)
  refine ⟨_, τ, e, ?_, s⟩
  rw [t]
  decide +kernel

end PErrEx

end Gr1c
