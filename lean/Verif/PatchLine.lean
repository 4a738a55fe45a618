import Verif.PatchOutProps
import Verif.ParseErrProps

/-!
# C78: the line in a message of `gr1c-patch -f`

The parser is run on the formula first. How far the line in a message about the specification is off is proved for all texts.
-/

namespace Gr1c

/-! ## Specification -/

/-- The same error with a line that is greater by `d`. -/
def PErr.later (d : ℕ) : PErr → PErr
  | .syntax l => .syntax (l + d)
  | .silent => .silent
  | .dupVar l => .dupVar (l + d)
  | .lower l => .lower (l + d)
  | .dupInit b l => .dupInit b (l + d)

/-! ## Lemmas -/

def FCtx.later (d : ℕ) : FCtx → FCtx
  | .init b l => .init b (l + d)
  | c => c

def DS.later (d : ℕ) : DS → DS
  | .names l => .names (l + d)
  | .id n l l' => .id n (l + d) (l' + d)
  | .lb n l => .lb n (l + d)
  | .low n l a => .low n (l + d) a
  | .comma n l a => .comma n (l + d) a
  | .high n l a => .high n (l + d) a

def PS.later (d : ℕ) : PS → PS
  | .head t l => .head t (l + d)
  | .form c f k => .form (c.later d) f k
  | .decl s => .decl (s.later d)
  | s => s

def stepLater (d : ℕ) : YStep → YStep
  | .ok (m, s) => .ok (m, s.later d)
  | .error e => .error (e.later d)

theorem top_later (d : ℕ) (m : PMem) (t : Tok) (l : ℕ) : topStep m t (l + d) = stepLater d (topStep m t l) := by
  unfold topStep
  split
  · rfl
  · split <;> rfl

theorem head_later (d : ℕ) (rg : Bool) (m : PMem) (h : Tok) (lh : ℕ) (t : Tok) (l : ℕ) :
    headStep rg m h (lh + d) t (l + d) = stepLater d (headStep rg m h lh t l) := by
  unfold headStep
  repeat' split
  all_goals rfl

theorem end_later (d : ℕ) (m : PMem) (c : FCtx) (t : Tok) (l : ℕ) : endStep m (c.later d) t (l + d) = stepLater d (endStep m c t l) := by
  unfold endStep
  cases c with
  | lead => exact top_later d m t l
  | init b lh => dsimp only [FCtx.later]; repeat' split
                 all_goals rfl
  | trans => dsimp only [FCtx.later]; repeat' split
             all_goals rfl
  | goal b => dsimp only [FCtx.later]; repeat' split
              all_goals rfl

theorem form_later (d : ℕ) (m : PMem) (c : FCtx) (f : FS) (k : ℕ) (t : Tok) (l : ℕ) :
    formStep m (c.later d) f k t (l + d) = stepLater d (formStep m c f k t l) := by
  unfold formStep
  have hp : (c.later d).primes = c.primes := by cases c <;> rfl
  rw [hp]
  split
  · rfl
  · split
    · exact end_later d m c t l
    · cases c <;> rfl

theorem names_later (d : ℕ) (m : PMem) (l0 : ℕ) (t : Tok) (l : ℕ) : namesStep m (l0 + d) t (l + d) = stepLater d (namesStep m l0 t l) := by
  unfold namesStep
  split <;> rfl

theorem decl_later (d : ℕ) (m : PMem) (s : DS) (t : Tok) (l : ℕ) : declStep m (s.later d) t (l + d) = stepLater d (declStep m s t l) := by
  unfold declStep
  cases s <;> dsimp only [DS.later]
  · exact names_later d m _ t l
  · split
    · rfl
    · split
      · rfl
      · exact names_later d _ _ t l
  all_goals repeat' split
  all_goals first | rfl | simp_all

theorem yyStep_later (d : ℕ) (rg : Bool) (m : PMem) (s : PS) (t : Tok) (l : ℕ) :
    yyStep rg m (s.later d) t (l + d) = stepLater d (yyStep rg m s t l) := by
  unfold yyStep
  cases s <;> dsimp only [PS.later]
  · split
    · rfl
    · exact top_later d m t l
  · exact top_later d m t l
  · exact head_later d rg m _ _ t l
  · exact form_later d m _ _ _ t l
  · exact decl_later d m _ t l

theorem yySteps_later (d : ℕ) (rg : Bool) : ∀ (ts : List (Tok × ℕ)) (m : PMem) (s : PS),
    yySteps rg m (s.later d) (ts.map fun x => (x.1, x.2 + d)) = stepLater d (yySteps rg m s ts)
  | [], m, s => rfl
  | x :: xs, m, s => by
    simp only [List.map_cons, yySteps, yyStep_later]
    cases yyStep rg m s x.1 x.2 with
    | error e => rfl
    | ok r => exact yySteps_later d rg xs r.1 r.2

theorem yyEnd_later (d : ℕ) (m : PMem) (s : PS) (l : ℕ) :
    yyEnd m (s.later d) (l + d) = match yyEnd m s l with | .ok u => .ok u | .error e => .error (e.later d) := by
  cases s with
  | start | top | head => rfl
  | form c f k =>
    simp only [yyEnd, PS.later]
    cases c with
    | lead =>
      by_cases h : f.ends = true ∧ k = 0
      · simp [FCtx.later, h]
      · simp [FCtx.later, h, PErr.later]
    | _ => simp [FCtx.later, PErr.later]
  | decl s =>
    cases s with
    | id n l0 l1 =>
      by_cases h : n ∈ m.names
      · simp [yyEnd, PS.later, DS.later, h, PErr.later]
      · simp [yyEnd, PS.later, DS.later, h, PErr.later]
    | _ => rfl

theorem yyRun_later (d : ℕ) (rg : Bool) (ts : List (Tok × ℕ)) (l : ℕ) :
    yyRun rg (ts.map fun x => (x.1, x.2 + d)) (l + d) = match yyRun rg ts l with | .ok u => .ok u | .error e => .error (e.later d) := by
  unfold yyRun
  have h := yySteps_later d rg ts .init .start
  rw [show PS.start.later d = .start from rfl] at h
  rw [h]
  cases yySteps rg .init .start ts with
  | error e => rfl
  | ok r => exact yyEnd_later d r.1 r.2 l

theorem yyToks_later (d : ℕ) (text : List Char) (n : ℕ) :
    yyToks true (n + d) text = ((yyToks true n text).1.map fun x => (x.1, x.2 + d), (yyToks true n text).2 + d) := by
  have h1 : toksByLine (n + d) text = (toksByLine n text).map fun x => (x.1, x.2 + d) := by
    unfold toksByLine
    have hz : ∀ (l : List (List Char)) (n : ℕ), l.zipIdx (n + d) = (l.zipIdx n).map fun x => (x.1, x.2 + d) := by
      intro l
      induction l with
      | nil => intro n; rfl
      | cons a l ih => intro n; simp only [List.zipIdx_cons, List.map_cons, ← ih (n + 1)]; rw [Nat.add_right_comm]
    rw [hz]
    simp [List.flatMap_map, List.map_flatMap, Function.comp_def]
  rw [yyToks_lines _ text _ (Nat.le_refl _), yyToks_lines _ text n (Nat.le_refl _), h1]
  have h2 : ∀ l : List (Tok × ℕ), (l.map fun x => (x.1, x.2 + d)).takeWhile (fun x => !endTok x.1) =
      (l.takeWhile fun x => !endTok x.1).map fun x => (x.1, x.2 + d) := fun l => by rw [List.takeWhile_map]; rfl
  have h3 : ∀ l : List (Tok × ℕ), (l.map fun x => (x.1, x.2 + d)).dropWhile (fun x => !endTok x.1) =
      (l.dropWhile fun x => !endTok x.1).map fun x => (x.1, x.2 + d) := fun l => by rw [List.dropWhile_map]; rfl
  rw [h2]
  unfold endLine
  rw [h1, h3]
  cases (toksByLine n text).dropWhile fun x => !endTok x.1 with
  | nil => simp [Nat.add_assoc]
  | cons x r => rfl

/-- The message for a text that begins in line `d + 1`. -/
theorem parserSays_later (d : ℕ) (text : List Char) :
    parserSays (1 + d) text = match yyText false text with | .ok _ => [] | .error e => (e.later d).out := by
  unfold parserSays yyText
  rw [yyToks_later d text 1]
  dsimp only
  rw [yyRun_later]
  cases yyRun false (yyToks true 1 text).1 (yyToks true 1 text).2 <;> rfl

theorem yyStop_ok {rg : Bool} : ∀ {ts : List (Tok × ℕ)} {m : PMem} {s : PS} {r : PMem × PS} (l : ℕ), yySteps rg m s ts = .ok r →
    yyStop rg m s ts l = l
  | [], _, _, _, _, _ => rfl
  | x :: xs, m, s, r, l, h => by
    simp only [yySteps] at h
    simp only [yyStop]
    cases hs : yyStep rg m s x.1 x.2 with
    | error e => rw [hs] at h; cases h
    | ok q => rw [hs] at h; exact yyStop_ok l h

theorem lex_nl (b : Bool) (s : List Char) : lex b ('\n' :: s) = lex true s := by
  rw [lex_cons, newline_one]; rfl

theorem lex_lineEnd : ∀ (k : ℕ) (a : List Char) (b : Bool) (s : List Char), a.length ≤ k → '\n' ∉ a →
    lex b (a ++ '\n' :: s) = lex b (a ++ ['\n']) ++ lex true s := by
  intro k
  induction k with
  | zero =>
    intro a b s hk _
    obtain rfl := List.length_eq_zero_iff.1 (Nat.le_zero.1 hk)
    rw [List.nil_append, List.nil_append, lex_nl, lex_newline]; rfl
  | succ k ih =>
    intro a b s hk ha
    cases a with
    | nil => rw [List.nil_append, List.nil_append, lex_nl, lex_newline]; rfl
    | cons c a =>
      have ha' : '\n' ∉ a := fun h => ha (List.mem_cons_of_mem _ h)
      simp only [List.length_cons] at hk
      rw [List.cons_append, List.cons_append, lex_cons, lex_cons]
      by_cases hh : c = '#'
      · subst hh
        rw [hash_one b a s ha', hash_one b a [] ha']
        simp only [Option.toList_none, List.nil_append, lex_newline]
        rw [lex_nl]
      · have h1 := lexOne_sep (b := b) (s := a) (X := '\n' :: s) ⟨_, _, rfl, .inr rfl⟩ (fun h => absurd h hh)
        have h2 := lexOne_sep (b := b) (s := a) (X := ['\n']) ⟨_, _, rfl, .inr rfl⟩ (fun h => absurd h hh)
        have hlen := lexOne_le b c a
        have hno : '\n' ∉ (lexOne b c a).2.2 := fun h => ha' ((lexOne_suffix b c a).subset h)
        rw [h1, h2]
        simp only
        rw [ih _ _ _ (by omega) hno, List.append_assoc]

/-- The tokens by line are those of the whole text. -/
theorem toksByLine_lex : ∀ (k : ℕ) (text : List Char) (n : ℕ), text.length ≤ k → toksOf (toksByLine n text) = lexFile text := by
  intro k
  induction k with
  | zero =>
    intro text n hk
    obtain rfl := List.length_eq_zero_iff.1 (Nat.le_zero.1 hk)
    simp [toksByLine, linesOf, lexFile, lex, toksOf]
  | succ k ih =>
    intro text n hk
    rcases text_cases text with h | ⟨a, s, rfl, ha⟩
    · have e1 : toksByLine n text = (lex true text).map (fun t => (t, n)) := by
        simp [toksByLine, linesOf_last h, lexFile]
      rw [e1]
      simp [toksOf, lexFile, Function.comp_def]
    · have e1 : toksByLine n (a ++ '\n' :: s) = (lex true (a ++ ['\n'])).map (fun t => (t, n)) ++ toksByLine (n + 1) s := by
        simp [toksByLine, linesOf_line ha, lexFile]
      have e2 := ih s (n + 1) (by simp at hk; omega)
      rw [e1, toksOf_append, e2]
      unfold lexFile
      rw [lex_lineEnd _ a true s (Nat.le_refl _) ha]
      simp [toksOf, Function.comp_def]

theorem formG_narrow {p : Bool} {ts : List Tok} (h : FormG p ts) : ∀ t ∈ ts, endTok t = false := by
  induction h with
  | tt => simp [endTok]
  | ff => simp [endTok]
  | var nx _ n => cases nx <;> simp [primeToks, endTok]
  | cmp op nx _ n k => cases nx <;> cases op <;> simp [primeToks, CmpOp.tok, endTok]
  | neg _ ih => intro t ht; rcases List.mem_cons.1 ht with rfl | ht; · rfl
                · exact ih t ht
  | bin ho _ _ ih ih' =>
    intro t ht
    rcases List.mem_append.1 ht with ht | ht
    · exact ih t ht
    · rcases List.mem_cons.1 ht with rfl | ht
      · simp only [binToks, List.mem_cons, List.not_mem_nil, or_false] at ho
        rcases ho with rfl | rfl | rfl | rfl <;> rfl
      · exact ih' t ht
  | paren _ ih =>
    intro t ht
    rcases List.mem_cons.1 ht with rfl | ht
    · rfl
    · rcases List.mem_append.1 ht with ht | ht
      · exact ih t ht
      · rw [List.mem_singleton.1 ht]; rfl

/-- The parser takes a formula, and its tokens are all in use. -/
theorem form_taken {x : List Char} {φ : Fm} (h : FormSays x φ) : yyText false (x ++ ['\n']) = .ok () ∧
    ∀ y ∈ toksByLine 1 (x ++ ['\n']), ¬WideTok y.1 := by
  obtain ⟨ts, hl, hg⟩ := h
  have hts : lexFile (x ++ ['\n']) = ts := layout_scanned hl
  have hb := toksByLine_lex _ (x ++ ['\n']) 1 (Nat.le_refl _)
  rw [hts] at hb
  have hG := gram_formG hg
  have hw : ∀ y ∈ toksByLine 1 (x ++ ['\n']), ¬WideTok y.1 := by
    intro y hy
    rw [← endTok_iff, formG_narrow hG y.1 (hb ▸ List.mem_map_of_mem hy)]
    simp
  refine ⟨?_, hw⟩
  rw [text_lines false _ hw, yyparse_accepts, hb]
  exact ⟨[], .lead hG, by unfold SecsFit; simp [declaredIn]⟩

/-! ## C78 -/

section
variable {X : Screen} {w : PatchWorld} {args : List Arg} {os : List PgItem} {f : Option Arg} {σ τ : LogSt}

/-- **C78.** `gr1c-patch` without `-f`: the message about the specification is the one of the parser, with the line that it has in the
file. -/
theorem spec_line (c : PgCfg) (hf : c.form = none) {t : List Char} (ht : w.source c.input = some t) (hp : parseFile false t = none) :
    specMessage w c = match yyText false t with | .ok _ => [] | .error e => e.out := by
  unfold specMessage specLine
  rw [ht, hf]
  dsimp only
  rw [hp, if_pos (show (none : Option PState).isNone = true from rfl)]
  unfold parserSays yyText
  cases yyRun false (yyToks true 1 t).1 (yyToks true 1 t).2 <;> rfl

theorem spec_line_text (c : PgCfg) {x : List Char} (hf : c.form = some x) (hx : yyText false (x ++ ['\n']) = .ok ())
    (hw : ∀ y ∈ toksByLine 1 (x ++ ['\n']), ¬WideTok y.1) {t : List Char} (ht : w.source c.input = some t) (hp : parseFile false t = none) :
    specMessage w c = match yyText false t with | .ok _ => [] | .error e => (e.later (x.count '\n' + 1)).out := by
  have hl : specLine c = 1 + (x.count '\n' + 1) := by
    unfold specLine
    rw [hf]
    dsimp only
    have h2 : (yyToks true 1 (x ++ ['\n'])).2 = 1 + (x.count '\n' + 1) := by
      rw [yyToks_lines _ _ _ (Nat.le_refl _)]
      unfold endLine
      dsimp only
      have : (toksByLine 1 (x ++ ['\n'])).dropWhile (fun y => !endTok y.1) = [] := by
        have := List.dropWhile_append_of_pos (p := fun y : Tok × ℕ => !endTok y.1) (l₂ := []) (l₁ := toksByLine 1 (x ++ ['\n'])) (by
          intro y hy
          have := hw y hy
          rw [← endTok_iff] at this
          simpa using this)
        simpa using this
      rw [this]
      simp [List.count_append]
      omega
    unfold yyText yyRun at hx
    cases hs : yySteps false .init .start (yyToks true 1 (x ++ ['\n'])).1 with
    | error e => rw [hs] at hx; cases hx
    | ok r => rw [yyStop_ok _ hs, h2]
  unfold specMessage
  rw [ht]
  dsimp only
  rw [hp, hl, ← parserSays_later]
  rfl

/-- **C78.** A formula without an error has no message. -/
theorem form_silent (c : PgCfg) {x : List Char} {φ : Fm} (hf : c.form = some x) (hx : FormSays x φ) : formMessage c = [] := by
  unfold formMessage
  rw [hf]
  dsimp only
  have := parserSays_later 0 (x ++ ['\n'])
  rw [(form_taken hx).1] at this
  exact this

/-- **C78, a defect.** `gr1c-patch -f`: for every formula, the line in the message about the specification is too great by the number of
lines of the formula; that is 1 for a formula in one line. -/
theorem spec_line_off (c : PgCfg) {x : List Char} {φ : Fm} (hf : c.form = some x) (hx : FormSays x φ) {t : List Char}
    (ht : w.source c.input = some t) (hp : parseFile false t = none) :
    specMessage w c = match yyText false t with | .ok _ => [] | .error e => (e.later (x.count '\n' + 1)).out :=
  spec_line_text c hf (form_taken hx).1 (form_taken hx).2 ht hp

end

/-- The formula is written with ten line ends and one is added; the error is in line 2 of the file, and the message names line 13. -/
example : specMessage (PgEx.world "SYS: a;\nSYSGOAL: []<>;".toList PgEx.aut []) { form := some PgEx.form, input := some PgEx.fspc } =
    "Error detected on line 13.\n".toList := by
  rw [spec_line_off (t := "SYS: a;\nSYSGOAL: []<>;".toList) (x := PgEx.form) _ rfl PgEx.form_says (by decide +kernel) (by decide +kernel)]
  decide +kernel

example : formMessage { form := some PgEx.form } = [] := form_silent _ rfl PgEx.form_says

example : specMessage (PgEx.world "SYS: a;\nSYSGOAL: []<>;".toList PgEx.aut []) { rm := 0, input := some PgEx.fspc } =
    "Error detected on line 2.\n".toList := by
  rw [spec_line (t := "SYS: a;\nSYSGOAL: []<>;".toList) _ rfl (by decide +kernel) (by decide +kernel)]
  decide +kernel

end Gr1c
