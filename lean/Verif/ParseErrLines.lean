import Verif.ParseErrSpec
import Verif.ScanProps

/-!
# Lines of tokens (C73)

Auxiliary: the scanner never looks across a line end, so the tokens are those of the single lines.
-/

namespace Gr1c

theorem endTok_iff (t : Tok) : endTok t = true ↔ WideTok t := by
  unfold WideTok
  cases t with
  | chr c => simp [endTok]
  | _ => simp [endTok]

theorem firstRule_suffix {rules : List (List Char × Tok)} {cs r : List Char} {t : Tok} (h : firstRule rules cs = some (t, r)) :
    r <:+ cs := by
  obtain ⟨p, _, h1⟩ := firstRule_spec h
  exact ⟨p, (stripPre_iff.1 h1).symm⟩

theorem dropFraction_suffix (cs : List Char) : dropFraction cs <:+ cs := by
  unfold dropFraction
  split
  · split
    · exact (List.dropWhile_suffix _).trans ((List.suffix_cons _ _).trans (List.suffix_cons _ _))
    · exact List.suffix_rfl
  · exact List.suffix_rfl

theorem lexPlain_suffix (c : Char) (cs : List Char) : (lexPlain c cs).2.2 <:+ cs := by
  unfold lexPlain
  split
  · rename_i t r h
    refine (firstRule_suffix h).trans ?_
    unfold symRest
    split
    · exact List.dropWhile_suffix _
    · exact List.suffix_rfl
  · unfold lexSimple
    split
    · exact List.suffix_rfl
    split
    · split
      · exact List.dropWhile_suffix _
      · exact List.suffix_rfl
    split
    · exact List.dropWhile_suffix _
    split
    · exact List.dropWhile_suffix _
    split
    · exact (dropFraction_suffix _).trans (List.dropWhile_suffix _)
    · exact List.suffix_rfl

theorem lexOne_suffix (b : Bool) (c : Char) (cs : List Char) : (lexOne b c cs).2.2 <:+ cs := by
  unfold lexOne
  split
  · split
    · rename_i t r h
      have h1 := firstRule_header_lt h
      have h2 := (firstRule_suffix h).trans (List.dropWhile_suffix isBlank)
      obtain ⟨p, hp⟩ := h2
      cases p with
      | nil =>
        have h3 := dropWhile_le isBlank (c :: cs)
        have h4 := congrArg List.length hp
        simp only [List.nil_append] at h4
        omega
      | cons d p =>
        exact ⟨p, (List.cons.inj hp).2⟩
    · exact lexPlain_suffix c cs
  · exact lexPlain_suffix c cs

theorem yyToks_cons (b : Bool) (n : ℕ) (c : Char) (cs : List Char) : yyToks b n (c :: cs) =
    match (lexOne b c cs).1 with
    | some t =>
      if endTok t then ([], n)
      else ((t, n) :: (yyToks (lexOne b c cs).2.1 n (lexOne b c cs).2.2).1, (yyToks (lexOne b c cs).2.1 n (lexOne b c cs).2.2).2)
    | none => yyToks (lexOne b c cs).2.1 (nextLine n c) (lexOne b c cs).2.2 := by
  rw [yyToks.eq_def]
  rfl

/-- Tokens before the first one that ends the input, and what is done if there is none. -/
def cutAt (n : ℕ) : List Tok → List (Tok × ℕ) × ℕ → List (Tok × ℕ) × ℕ
  | [], r => r
  | t :: ts, r => if endTok t then ([], n) else ((t, n) :: (cutAt n ts r).1, (cutAt n ts r).2)

theorem newline_one (b : Bool) (s : List Char) : lexOne b '\n' s = (none, true, s) := by
  rw [lexOne_plain (by rw [List.dropWhile_cons_of_neg (by decide)]; exact noheader_char (by decide) (by decide))]
  simp [lexPlain, symRules, firstRule, lexSimple]

theorem hash_one (b : Bool) (v s : List Char) (hv : '\n' ∉ v) : lexOne b '#' (v ++ '\n' :: s) = (none, true, '\n' :: s) := by
  have hd : (v ++ '\n' :: s).dropWhile (· != '\n') = '\n' :: s := by
    rw [dropWhile_append_all (by intro c hc; simp only [bne_iff_ne, ne_eq]; rintro rfl; exact hv hc)]
    exact List.dropWhile_cons_of_neg (by decide)
  rw [lexOne_plain (by rw [List.dropWhile_cons_of_neg (by decide)]; exact noheader_char (by decide) (by decide))]
  simp [lexPlain, symRules, firstRule, lexSimple, hd]

theorem yy_newline (b : Bool) (n : ℕ) (s : List Char) : yyToks b n ('\n' :: s) = yyToks true (n + 1) s := by
  rw [yyToks_cons, newline_one]; rfl

theorem lex_newline (b : Bool) : lex b ['\n'] = [] := by
  rw [lex_cons, newline_one]
  simp [lex]

/-- A line that is ended. -/
theorem yy_line : ∀ (k : ℕ) (a : List Char) (b : Bool) (n : ℕ) (s : List Char), a.length ≤ k → '\n' ∉ a →
    yyToks b n (a ++ '\n' :: s) = cutAt n (lex b (a ++ ['\n'])) (yyToks true (n + 1) s) := by
  intro k
  induction k with
  | zero =>
    intro a b n s hk _
    obtain rfl := List.length_eq_zero_iff.1 (Nat.le_zero.1 hk)
    rw [List.nil_append, List.nil_append, yy_newline, lex_newline]; rfl
  | succ k ih =>
    intro a b n s hk ha
    cases a with
    | nil => rw [List.nil_append, List.nil_append, yy_newline, lex_newline]; rfl
    | cons c a =>
      have hc : c ≠ '\n' := by rintro rfl; simp at ha
      have ha' : '\n' ∉ a := fun h => ha (List.mem_cons_of_mem _ h)
      simp only [List.length_cons] at hk
      rw [List.cons_append, List.cons_append, yyToks_cons, lex_cons]
      by_cases hh : c = '#'
      · subst hh
        rw [hash_one b a s ha', hash_one b a [] ha']
        simp only [Option.toList_none, List.nil_append, lex_newline]
        rw [yy_newline]; rfl
      · have h1 := lexOne_sep (b := b) (s := a) (X := '\n' :: s) ⟨_, _, rfl, .inr rfl⟩ (fun h => absurd h hh)
        have h2 := lexOne_sep (b := b) (s := a) (X := ['\n']) ⟨_, _, rfl, .inr rfl⟩ (fun h => absurd h hh)
        have hlen := lexOne_le b c a
        have hno : '\n' ∉ (lexOne b c a).2.2 := fun h => ha' ((lexOne_suffix b c a).subset h)
        rw [h1, h2]
        cases e : (lexOne b c a).1 with
        | none =>
          have hn : nextLine n c = n := if_neg hc
          simp only [Option.toList_none, List.nil_append, hn]
          exact ih _ _ _ _ (by omega) hno
        | some t =>
          simp only [Option.toList_some, List.cons_append, List.nil_append, cutAt]
          rw [ih _ _ _ _ (by omega) hno]

/-- The last line. -/
theorem yy_last : ∀ (k : ℕ) (a : List Char) (b : Bool) (n : ℕ), a.length ≤ k → '\n' ∉ a →
    yyToks b n a = cutAt n (lex b a) ([], n) := by
  intro k
  induction k with
  | zero =>
    intro a b n hk _
    obtain rfl := List.length_eq_zero_iff.1 (Nat.le_zero.1 hk)
    simp [yyToks, lex, cutAt]
  | succ k ih =>
    intro a b n hk ha
    cases a with
    | nil => simp [yyToks, lex, cutAt]
    | cons c a =>
      have hc : c ≠ '\n' := by rintro rfl; simp at ha
      have ha' : '\n' ∉ a := fun h => ha (List.mem_cons_of_mem _ h)
      simp only [List.length_cons] at hk
      have hlen := lexOne_le b c a
      have hno : '\n' ∉ (lexOne b c a).2.2 := fun h => ha' ((lexOne_suffix b c a).subset h)
      rw [yyToks_cons, lex_cons]
      cases e : (lexOne b c a).1 with
      | none =>
        have hn : nextLine n c = n := if_neg hc
        simp only [Option.toList_none, List.nil_append, hn]
        exact ih _ _ _ (by omega) hno
      | some t =>
        simp only [Option.toList_some, List.cons_append, List.nil_append, cutAt]
        rw [ih _ _ _ (by omega) hno]

theorem linesOf_ne_nil (s : List Char) : linesOf s ≠ [] := by
  cases s with
  | nil => simp [linesOf]
  | cons c cs =>
    unfold linesOf
    split
    · simp
    · split <;> simp

theorem linesOf_last {a : List Char} (ha : '\n' ∉ a) : linesOf a = [a] := by
  induction a with
  | nil => rfl
  | cons c a ih =>
    have hc : c ≠ '\n' := by rintro rfl; simp at ha
    rw [linesOf, if_neg hc, ih fun h => ha (List.mem_cons_of_mem _ h)]

theorem linesOf_line {a : List Char} (ha : '\n' ∉ a) (s : List Char) : linesOf (a ++ '\n' :: s) = (a ++ ['\n']) :: linesOf s := by
  induction a with
  | nil => simp [linesOf]
  | cons c a ih =>
    have hc : c ≠ '\n' := by rintro rfl; simp at ha
    rw [List.cons_append, linesOf, if_neg hc, ih fun h => ha (List.mem_cons_of_mem _ h)]
    rfl

theorem text_cases (text : List Char) : '\n' ∉ text ∨ ∃ a s, text = a ++ '\n' :: s ∧ '\n' ∉ a := by
  by_cases h : '\n' ∈ text
  · right
    obtain ⟨a, s, h1, h2⟩ := List.eq_append_cons_of_mem h
    exact ⟨a, s, h1, h2⟩
  · exact .inl h

/-- Number of the line in which the input ends. -/
def endLine (n : ℕ) (text : List Char) : ℕ :=
  match (toksByLine n text).dropWhile fun x => !endTok x.1 with
  | [] => text.count '\n' + n
  | x :: _ => x.2

theorem cutAt_eq (n : ℕ) (ts : List Tok) (r : List (Tok × ℕ)) (e : ℕ) :
    cutAt n ts (r.takeWhile (fun x => !endTok x.1), match r.dropWhile (fun x => !endTok x.1) with | [] => e | x :: _ => x.2) =
      ((ts.map (fun t => (t, n)) ++ r).takeWhile (fun x => !endTok x.1),
        match (ts.map (fun t => (t, n)) ++ r).dropWhile (fun x => !endTok x.1) with | [] => e | x :: _ => x.2) := by
  induction ts with
  | nil => rfl
  | cons t ts ih =>
    by_cases h : endTok t = true
    · simp [cutAt, h]
    · rw [Bool.not_eq_true] at h
      simp [cutAt, h, ih]

/-- The tokens are those of the lines, each with the number of its line. -/
theorem yyToks_lines : ∀ (k : ℕ) (text : List Char) (n : ℕ), text.length ≤ k →
    yyToks true n text = ((toksByLine n text).takeWhile fun x => !endTok x.1, endLine n text) := by
  intro k
  induction k with
  | zero =>
    intro text n hk
    obtain rfl := List.length_eq_zero_iff.1 (Nat.le_zero.1 hk)
    simp [yyToks, toksByLine, linesOf, lexFile, lex, endLine]
  | succ k ih =>
    intro text n hk
    rcases text_cases text with h | ⟨a, s, rfl, ha⟩
    · rw [yy_last _ text true n (Nat.le_refl _) h]
      have e1 : toksByLine n text = (lex true text).map (fun t => (t, n)) ++ [] := by
        simp [toksByLine, linesOf_last h, lexFile]
      have e2 : text.count '\n' + n = n := by rw [List.count_eq_zero.2 h]; omega
      unfold endLine
      rw [e1, e2]
      exact cutAt_eq n (lex true text) [] n
    · rw [yy_line _ a true n s (Nat.le_refl _) ha, ih s (n + 1) (by simp at hk; omega)]
      have e1 : toksByLine n (a ++ '\n' :: s) = (lex true (a ++ ['\n'])).map (fun t => (t, n)) ++ toksByLine (n + 1) s := by
        simp [toksByLine, linesOf_line ha, lexFile]
      have e2 : (a ++ '\n' :: s).count '\n' + n = s.count '\n' + (n + 1) := by
        rw [List.count_append, List.count_eq_zero.2 ha, List.count_cons_self]; omega
      unfold endLine
      rw [e1, e2]
      exact cutAt_eq n _ _ _

end Gr1c
