import Verif.ScanLemmas

/-!
# C46: the scanner does not depend on comments and layout
-/

namespace Gr1c

/-- **C46.** Every text that writes down a sequence of tokens is scanned as that sequence, whatever blanks,
line ends and comments it contains. -/
theorem layout_scanned {b : Bool} {ts : List Tok} {s : List Char} (h : Layout b ts s) : lex b s = ts := by
  induction h with
  | done b => rw [lex]
  | blank b c ts s h hl ih =>
    have hb := isBlank_iff.2 h
    have hn : firstRule headers ((c :: s).dropWhile isBlank) = none := by
      rw [List.dropWhile_cons_of_pos hb]; exact layout_noheader hl rfl
    rw [lex_cons, lexOne_plain hn, lexPlain_blank hb]
    simpa [lex_dropBlank] using ih
  | newline b ts s hl ih =>
    rw [lex_cons, lexOne_plain (by
      rw [List.dropWhile_cons_of_neg (by decide)]; exact noheader_char (by decide) (by decide))]
    have : lexPlain '\n' s = (none, true, s) := by simp [lexPlain, symRules, firstRule, lexSimple]
    rw [this]; simpa using ih
  | comment b w ts s h hl ih =>
    rw [lex_cons, lexOne_plain (by
      rw [List.dropWhile_cons_of_neg (by decide)]; exact noheader_char (by decide) (by decide))]
    have hw : ∀ c ∈ w, (c != '\n') = true := by
      intro c hc; simp only [bne_iff_ne, ne_eq]; rintro rfl; exact h hc
    have h1 : lexPlain '#' (w ++ '\n' :: s) = (none, true, '\n' :: s) := by
      have h2 : (w ++ '\n' :: s).dropWhile (· != '\n') = '\n' :: s := by
        rw [dropWhile_append_all hw]; exact List.dropWhile_cons_of_neg (by decide)
      simp [lexPlain, symRules, firstRule, lexSimple, h2]
    rw [h1]
    simp only [Option.toList_none, List.nil_append]
    rw [lex_cons, lexOne_plain (by
      rw [List.dropWhile_cons_of_neg (by decide)]; exact noheader_char (by decide) (by decide))]
    have : lexPlain '\n' s = (none, true, s) := by simp [lexPlain, symRules, firstRule, lexSimple]
    rw [this]; simpa using ih
  | header bl h t w hw ts s hl ih =>
    obtain ⟨h1, h2⟩ := sectionNames_headers _ hw s
    have hd : (bl ++ (w.toList ++ s)).dropWhile isBlank = w.toList ++ s := by
      rw [dropWhile_append_all fun c hc => isBlank_iff.2 (h c hc)]; exact h2
    cases hx : bl ++ (w.toList ++ s) with
    | nil =>
      rw [hx] at hd
      simp only [List.dropWhile_nil] at hd
      rw [← hd, noheader_nil] at h1
      cases h1
    | cons c cs =>
      rw [lex_cons]
      have : lexOne true c cs = (some t, false, s) := by
        unfold lexOne
        rw [← hx, hd]
        simp [h1]
      rw [this]; simp [ih]
  | tok b t w hw ts s hs hl ih =>
    have hn := tok_noheader hw hs
    cases w with
    | nil => exact absurd rfl (spells_ne_nil hw)
    | cons c cs =>
      rw [List.cons_append] at hn ⊢
      rw [lex_cons, lexOne_plain hn, lexPlain_tok hw hs]
      simp [ih]

/-- **C46.** Two texts that write down the same tokens are scanned alike. -/
theorem layout_irrelevant {ts : List Tok} {s s' : List Char} (h : Layout true ts s) (h' : Layout true ts s') :
    lexFile s = lexFile s' := by
  unfold lexFile; rw [layout_scanned h, layout_scanned h']

/-- **C46.** A comment may be put before any line end of any text. -/
theorem comment_ignored (b : Bool) (s w s' : List Char) (hw : '\n' ∉ w) :
    lex b (s ++ '#' :: (w ++ '\n' :: s')) = lex b (s ++ '\n' :: s') := by
  have hX : SepHead ('#' :: (w ++ '\n' :: s')) := ⟨_, _, rfl, Or.inl rfl⟩
  have hY : SepHead ('\n' :: s') := ⟨_, _, rfl, Or.inr rfl⟩
  have hdrop : ∀ v : List Char, '\n' ∉ v → (v ++ '\n' :: s').dropWhile (· != '\n') = '\n' :: s' := by
    intro v hv
    rw [dropWhile_append_all (by
      intro c hc; simp only [bne_iff_ne, ne_eq]; rintro rfl; exact hv hc)]
    exact List.dropWhile_cons_of_neg (by decide)
  have hhash : ∀ (b : Bool) (v : List Char), '\n' ∉ v →
      lexOne b '#' (v ++ '\n' :: s') = (none, true, '\n' :: s') := by
    intro b v hv
    rw [lexOne_plain (by
      rw [List.dropWhile_cons_of_neg (by decide)]; exact noheader_char (by decide) (by decide))]
    simp [lexPlain, symRules, firstRule, lexSimple, hdrop v hv]
  have hnl : ∀ b : Bool, lex b ('\n' :: s') = lex true s' := by
    intro b
    rw [lex_cons, lexOne_plain (by
      rw [List.dropWhile_cons_of_neg (by decide)]; exact noheader_char (by decide) (by decide))]
    simp [lexPlain, symRules, firstRule, lexSimple]
  have main : ∀ n (s : List Char) (b : Bool), s.length ≤ n →
      lex b (s ++ '#' :: (w ++ '\n' :: s')) = lex b (s ++ '\n' :: s') := by
    intro n
    induction n with
    | zero =>
      intro s b hs
      have : s = [] := List.length_eq_zero_iff.1 (by omega)
      subst this
      simp only [List.nil_append]
      rw [lex_cons, hhash b w hw]
      simp [hnl]
    | succ n ih =>
      intro s b hs
      cases s with
      | nil => exact ih [] b (by simp)
      | cons c s =>
        simp only [List.length_cons] at hs
        rw [List.cons_append, List.cons_append, lex_cons, lex_cons]
        by_cases hc : c = '#' → '\n' ∈ s
        · rw [lexOne_sep hX hc, lexOne_sep hY hc]
          simp only
          rw [ih]
          have := lexOne_le b c s
          omega
        · have h1 : c = '#' := by by_contra h; exact hc fun h' => absurd h' h
          have h2 : '\n' ∉ s := fun h => hc fun _ => h
          subst h1
          have e1 : s ++ '#' :: (w ++ '\n' :: s') = (s ++ '#' :: w) ++ '\n' :: s' := by simp
          rw [e1, hhash b _ (by simp [h2, hw]), hhash b s h2]
  exact main _ s b (Nat.le_refl _)

/-! ## Cases -/

/-- A text with blanks, comments, a continued line and all kinds of tokens. -/
def scanExText : List Char :=
  "# two players\n  ENV: x [0,12]; # an integer\nENVTRANS: [](x=3 -> x'!=10)\n  &\t[] !(y_1.a <-> True);".toList

/-- Its tokens. -/
def scanExToks : List Tok :=
  [.evars, .ident ['x'], .chr '[', .num 0, .chr ',', .num 12, .chr ']', .chr ';', .etrans, .safe, .chr '(',
   .ident ['x'], .chr '=', .num 3, .implies, .ident ['x'], .chr '\'', .ne, .num 10, .chr ')', .andSafe, .chr '!',
   .chr '(', .ident ['y', '_', '1', '.', 'a'], .equiv, .tt, .chr ')', .chr ';']

example : lexFile scanExText = scanExToks := by decide +kernel

/-- A comment line, a header, a name and an integer bound: the hypothesis of `layout_scanned`. -/
example : Layout true [.svars, .ident ['y'], .chr '[', .num 7, .chr ';']
    "#c\n  SYS:y[7 ;".toList := by
  have hd : Layout false [] [] := .done false
  have h1 : Layout false [.chr ';'] [';'] := .tok false (.chr ';') [';'] (.sym _ (by decide)) _ _ (by simp [Stops]) hd
  have h2 : Layout false [.chr ';'] [' ', ';'] := .blank false ' ' _ _ (by decide) h1
  have h3 : Layout false [.num 7, .chr ';'] ['7', ' ', ';'] :=
    .tok false (.num 7) ['7'] (Spells.num ['7'] [] (by decide) (by decide) (Or.inl rfl)) _ _
      (by intro c hc; simp only [List.head?_cons, Option.some.injEq] at hc; subst hc; decide) h2
  have h4 : Layout false [.chr '[', .num 7, .chr ';'] ['[', '7', ' ', ';'] :=
    .tok false (.chr '[') ['['] (.sym _ (by decide)) _ _ (by simp [Stops]) h3
  have h5 : Layout false [.ident ['y'], .chr '[', .num 7, .chr ';'] ['y', '[', '7', ' ', ';'] :=
    .tok false (.ident ['y']) ['y'] (.ident _ ⟨'y', [], rfl, by decide, by decide⟩ (by decide) (by decide)) _ _
      (by intro c hc; simp only [List.head?_cons, Option.some.injEq] at hc; subst hc; decide) h4
  have h6 := Layout.header [' ', ' '] (by decide) .svars "SYS:" (by decide) _ _ h5
  exact Layout.comment true ['c'] _ _ (by decide) h6

/-- The documentation allows comments anywhere (`/repo/doc/spc_format.md` 19-20), but a line end or a comment
between `&` and `[]` changes the tokens ... -/
theorem and_safe_split :
    lexFile "&[]".toList = [.andSafe] ∧ lexFile "&\n[]".toList = [.chr '&', .safe] ∧
      lexFile "& # more\n[]".toList = [.chr '&', .safe] := by
  decide +kernel

/-- ... as does a comment on a last line that is not terminated ... -/
theorem last_line_comment :
    lexFile "SYS: y; # done".toList = [.svars, .ident ['y'], .chr ';', .chr '#', .ident ['d', 'o', 'n', 'e']] ∧
      lexFile "SYS: y; # done\n".toList = [.svars, .ident ['y'], .chr ';'] := by
  decide +kernel

/-- ... and a section header that is not the first thing on its line is not one. -/
theorem header_midline :
    lexFile "ENV: x; SYS: y;".toList =
      [.evars, .ident ['x'], .chr ';', .ident ['S', 'Y', 'S'], .chr ':', .ident ['y'], .chr ';'] := by
  decide +kernel

end Gr1c
