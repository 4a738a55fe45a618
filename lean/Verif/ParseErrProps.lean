import Verif.ParseErrPlace
import Verif.ParseErrLines
import Verif.ParseErrAgree

/-!
# Errors of the parser and the lines in their messages (C73)
-/

namespace Gr1c

/-- Specification: some file begins with the tokens. -/
def Begins (rg : Bool) (ts : List Tok) : Prop := ∃ ext ss, FileG rg ss (ts ++ ext)

/-- Specification: the tokens are the beginning of a formula, and not yet a formula. -/
def OpenForm (ts : List Tok) : Prop := ts ≠ [] ∧ ¬FormG false ts ∧ ∃ ext, FormG false (ts ++ ext)

/-- Specification: the declaration `d` begins in line `k'`, and everything before it is as it should be; `old` are the names declared before,
and the last token before the declaration is in line `k`. -/
def DeclAt (rg : Bool) (ts : List (Tok × ℕ)) (k k' : ℕ) (old : List Name) (d : RawDecl) : Prop :=
  ∃ ss q env lh u ds r rest, ts = q ++ (varHdr env, lh) :: (u ++ (r ++ rest)) ∧ FileG rg ss (toksOf q) ∧ SecsFit ss ∧
    toksOf u = ds.flatMap RawDecl.toks ∧ DeclsFit (declaredIn ss) ds ∧ old = declaredIn ss ++ ds.map RawDecl.name ∧
    toksOf r = d.toks ∧ (d.dom = none → ∀ x ∈ rest.head?, x.1 ≠ .chr '[') ∧ k = lastLn lh u ∧ r.head?.map Prod.snd = some k'

/-! ## What is accepted -/

/-- **C73.** Accepted are the files of the grammar in which no variable is declared twice, lower bounds are zero, and there is no second
initial condition. -/
theorem yyparse_accepts (rg : Bool) (ts : List (Tok × ℕ)) (l : ℕ) :
    yyRun rg ts l = .ok () ↔ ∃ ss, FileG rg ss (toksOf ts) ∧ SecsFit ss := by
  constructor
  · intro h
    unfold yyRun at h
    cases hs : yySteps rg .init .start ts with
    | error e => rw [hs] at h; cases h
    | ok r =>
      rw [hs] at h
      obtain ⟨m, st⟩ := r
      have hi : PInv rg m ts st := yySteps_start hs
      simp only at h
      cases st with
      | start => obtain ⟨rfl, -⟩ := hi; exact ⟨[], .nil, secsFit_nil⟩
      | top => obtain ⟨ss, h1, -, h2⟩ := hi; exact ⟨ss, h1, h2⟩
      | head t lh => cases h
      | form c f d =>
        simp only [yyEnd] at h
        split at h
        · rename_i hc
          subst hc
          split at h
          · rename_i hd
            obtain ⟨hf, rfl⟩ := hd
            exact ⟨[], .lead (hi.2.formG hf), secsFit_nil⟩
          · cases h
        · cases h
      | decl s =>
        cases s with
        | id n l0 l1 =>
          simp only [yyEnd] at h
          split at h <;> cases h
        | _ => cases h
  · rintro ⟨ss, h1, h2⟩
    obtain ⟨m, st, e, hr, -⟩ := (file_reads h1 ts rfl).1 h2
    unfold yyRun
    rw [e]
    exact rest_end hr l

/-- **C73.** On files without a formula in front this is the verdict of the model in `Parse`. -/
theorem yyparse_agrees (rg : Bool) (ts : List (Tok × ℕ)) (l : ℕ) (hh : ∀ t, (toksOf ts).head? = some t → isHeader t = true) :
    yyRun rg ts l = .ok () ↔ (parseToks rg (toksOf ts)).isSome = true := by
  rw [yyparse_accepts]
  constructor
  · rintro ⟨rs, h1, h2⟩
    obtain ⟨ss, d, g1, g2, -⟩ := fileG_fileToks h1 hh h2
    rw [file_parsed g1, g2]; rfl
  · intro h
    cases ht : toksOf ts with
    | nil => exact ⟨[], .nil, secsFit_nil⟩
    | cons t r =>
      rw [ht] at h
      obtain ⟨s, hs⟩ := Option.isSome_iff_exists.1 h
      obtain ⟨ss, d, g1, g2, -⟩ := (file_accepted (hh t (by rw [ht]; rfl)) s).1 hs
      obtain ⟨rs, k1, k2⟩ := fileToks_fileG g1 .nil secsFit_nil same_nil g2
      exact ⟨rs, k1, k2⟩

/-! ## Syntax errors -/

/-- **C73.** A syntax error is found at the first token with which the tokens do not begin a file, or at the end if the tokens are no file
but begin one. The message has the line of that token; there is none in a formula in front that is not complete. -/
theorem syntax_error_place {rg : Bool} {ts : List (Tok × ℕ)} {l : ℕ} {e : PErr} (h : yyRun rg ts l = .error e) (he : ¬e.Sem) :
    ∃ p rest, ts = p ++ rest ∧ Begins rg (toksOf p) ∧
      (match rest with
        | [] => (¬∃ ss, FileG rg ss (toksOf p)) ∧ (¬OpenForm (toksOf p) → e = .syntax l)
        | x :: _ => ¬Begins rg (toksOf (p ++ [x])) ∧ (¬OpenForm (toksOf p) → e = .syntax x.2)) ∧
      (OpenForm (toksOf p) → e = .silent) := by
  have hopen : ∀ {p : List (Tok × ℕ)} {m : PMem} {st : PS}, yySteps rg .init .start p = .ok (m, st) →
      (st.leadOpen = true ↔ OpenForm (toksOf p)) := by
    intro p m st h
    rw [leadOpen_iff h]
    unfold OpenForm
    rw [show (toksOf p ≠ []) ↔ p ≠ [] from by simp [toksOf]]
  rcases yyRun_error h with ⟨p, x, rest, m, st, rfl, h1, h2⟩ | ⟨m, st, h1, h2⟩
  · refine ⟨p, x :: rest, rfl, (yySteps_start h1).begins, ⟨?_, ?_⟩, ?_⟩
    · rintro ⟨ext, ss, hg⟩
      obtain ⟨g1, g2⟩ := file_reads hg (p ++ x :: ext.map fun t => (t, 0)) (by simp [toksOf, Function.comp_def])
      have hrun : yySteps rg .init .start (p ++ x :: ext.map fun t => (t, 0)) = .error e := by
        rw [yySteps_append, h1]
        simp only [yySteps, h2]
      by_cases hf : SecsFit ss
      · obtain ⟨m', st', e', -⟩ := g1 hf
        rw [hrun] at e'; cases e'
      · obtain ⟨e', s', e''⟩ := g2 hf
        rw [hrun] at e''
        cases e''
        exact he s'
    · intro ho
      rw [← hopen h1] at ho
      rcases yyStep_error h2 with ⟨rfl, -⟩ | ⟨-, k⟩ | ⟨_, _, _, -, -, -, rfl⟩ | ⟨_, _, _, -, -, ⟨-, rfl⟩ | ⟨-, -, rfl⟩⟩ | ⟨_, _, rfl, -⟩
      · rfl
      · exact absurd k ho
      all_goals exact absurd trivial he
    · intro ho
      rw [← hopen h1] at ho
      rcases yyStep_error h2 with ⟨-, k⟩ | ⟨rfl, -⟩ | ⟨_, _, _, -, -, -, rfl⟩ | ⟨_, _, _, -, -, ⟨-, rfl⟩ | ⟨-, -, rfl⟩⟩ | ⟨_, _, rfl, -⟩
      · rw [ho] at k; cases k
      · rfl
      all_goals exact absurd trivial he
  · refine ⟨ts, [], by simp, (yySteps_start h1).begins, ⟨?_, ?_⟩, ?_⟩
    · rintro ⟨ss, hg⟩
      obtain ⟨g1, g2⟩ := file_reads hg ts rfl
      by_cases hf : SecsFit ss
      · obtain ⟨m', st', e', hr, -⟩ := g1 hf
        rw [h1] at e'
        cases e'
        rw [rest_end hr] at h2
        cases h2
      · obtain ⟨e', -, e''⟩ := g2 hf
        rw [h1] at e''; cases e''
    · intro ho
      rw [← hopen h1] at ho
      rcases yyEnd_error h2 with ⟨rfl, -⟩ | ⟨-, k⟩ | ⟨_, _, _, -, -, rfl⟩
      · rfl
      · exact absurd k ho
      · exact absurd trivial he
    · intro ho
      rw [← hopen h1] at ho
      rcases yyEnd_error h2 with ⟨-, k⟩ | ⟨rfl, -⟩ | ⟨_, _, _, -, -, rfl⟩
      · rw [ho] at k; cases k
      · rfl
      · exact absurd trivial he

/-! ## Errors found by actions -/

/-- Up to a declaration. -/
theorem DeclAt.run {rg : Bool} {ts : List (Tok × ℕ)} {k k' : ℕ} {old : List Name} {d : RawDecl} (h : DeclAt rg ts k k' old d) (l : ℕ) :
    (d.BadLow → yyRun rg ts l = .error (.lower k)) ∧ (¬d.BadLow → d.name ∈ old → yyRun rg ts l = .error (.dupVar k)) := by
  obtain ⟨ss, q, env, lh, u, ds, r, rest, rfl, hq, hs, hu, hd, rfl, hr, hx, rfl, -⟩ := h
  obtain ⟨m, st, e, hst, hm⟩ := (file_reads hq q rfl).1 hs
  have hh : isHeader (varHdr env) = true := by cases env <;> rfl
  have e1 : yyStep rg m st (varHdr env) lh = .ok (m, .decl (.names lh)) := by
    rw [rest_header hst hh]
    unfold topStep
    rw [if_pos (by cases env <;> simp [varHdr])]
  have hnd : m.names.Nodup := by rw [hm.1]; exact secsFit_nodup ss hs
  obtain ⟨l1, r', er, -⟩ : ∃ l1 r', r = (.ident d.name, l1) :: r' ∧ True := by
    obtain ⟨l1, r', er, -⟩ := toksOf_uncons (show toksOf r = .ident d.name :: _ from hr)
    exact ⟨l1, r', er, trivial⟩
  obtain ⟨m', n1, -, n3⟩ := (decls_read (rg := rg) (.ident d.name, l1) (by simp) (r' ++ rest) ds (m := m) (l := lh) hu hnd).1 (hm.1 ▸ hd)
  have e2 : yyRun rg (q ++ (varHdr env, lh) :: (u ++ (r ++ rest))) l = yyFrom rg m' (.decl (.names (lastLn lh u))) (r ++ rest) l := by
    rw [yyRun_eq, yyFrom_append e, yyFrom_cons e1, er]
    unfold yyFrom
    rw [List.cons_append, n3]
  obtain ⟨b1, b2⟩ := decl_bad (rg := rg) (m := m') (k := lastLn lh u) hr rest l hx
  rw [e2]
  refine ⟨b1, fun h1 h2 => b2 h1 ?_⟩
  rw [n1, hm.1]
  exact h2

theorem decl_line {d : RawDecl} {r : List (Tok × ℕ)} (h : toksOf r = d.toks) : ∃ k, r.head?.map Prod.snd = some k := by
  obtain ⟨l, r', rfl, -⟩ := toksOf_uncons (show toksOf r = .ident d.name :: _ from h)
  exact ⟨l, rfl⟩

/-- What was read before an error in a declaration. -/
theorem decl_found {rg : Bool} {p : List (Tok × ℕ)} {m : PMem} {s : DS} (h : DInv rg m p s) (d : RawDecl) (r rest : List (Tok × ℕ))
    (k : ℕ) (hr : ∀ r', DPart k r' s → toksOf (r' ++ r) = d.toks) (hk : ∀ L r', DPart L r' s → L = k)
    (hx : d.dom = none → ∀ x ∈ rest.head?, x.1 ≠ .chr '[') : ∃ k', DeclAt rg (p ++ (r ++ rest)) k k' m.names d := by
  obtain ⟨ss, q, env, lh, u, ds, r', rfl, hq, hs, hu, hd, hm, -, hp⟩ := h
  obtain rfl := hk _ _ hp
  obtain ⟨k', hk'⟩ := decl_line (hr r' hp)
  exact ⟨k', ss, q, env, lh, u, ds, r' ++ r, rest, by simp, hq, hs, hu, hd, hm, hr r' hp, hx, rfl, hk'⟩

/-- **C73.** A variable is reported as declared twice exactly if it is; the line is that of the token before the second declaration. -/
theorem duplicate_reported (rg : Bool) (ts : List (Tok × ℕ)) (l k : ℕ) :
    yyRun rg ts l = .error (.dupVar k) ↔ ∃ old d k', DeclAt rg ts k k' old d ∧ ¬d.BadLow ∧ d.name ∈ old := by
  constructor
  · intro h
    have name : ∀ n, ¬RawDecl.BadLow ⟨n, none⟩ := by rintro n ⟨x, h, _⟩; cases h
    rcases yyRun_error h with ⟨p, x, rest, m, st, rfl, h1, h2⟩ | ⟨m, st, h1, h2⟩
    · have hi := yySteps_start h1
      rcases yyStep_error h2 with ⟨e, -⟩ | ⟨e, -⟩ | ⟨n, l0, l1, rfl, hb, hn, e⟩ | ⟨n, l0, a, rfl, hb, ⟨-, e⟩ | ⟨rfl, hn, e⟩⟩ | ⟨_, _, e, -⟩
      · cases e
      · cases e
      · cases e
        obtain ⟨k', hk'⟩ := decl_found hi ⟨n, none⟩ [] (x :: rest) k (by rintro r' ⟨-, rfl⟩; rfl) (by rintro L r' ⟨h, -⟩; exact h.symm)
          (by rintro - y hy; cases hy; exact hb)
        exact ⟨m.names, ⟨n, none⟩, k', hk', name n, hn⟩
      · cases e
      · cases e
        have hi' : DInv rg m p (.high n k 0) := hi
        obtain ⟨ss, q, env, lh, u, ds, r', rfl, hq, hs, hu, hd, hm, -, rfl, b, hr⟩ := hi'
        have ht : toksOf (r' ++ [x]) = RawDecl.toks ⟨n, some (0, b)⟩ := by rw [toksOf_append, hr, toksOf_cons, hb]; rfl
        obtain ⟨k', hk'⟩ := decl_line ht
        refine ⟨m.names, ⟨n, some (0, b)⟩, k', ⟨ss, q, env, lh, u, ds, r' ++ [x], rest, by simp, hq, hs, hu, hd, hm, ht, by simp, rfl, hk'⟩,
          ?_, hn⟩
        rintro ⟨y, hy, h0⟩
        cases hy
        exact h0 rfl
      · cases e
    · have hi := yySteps_start h1
      rcases yyEnd_error h2 with ⟨e, -⟩ | ⟨e, -⟩ | ⟨n, l0, l1, rfl, hn, e⟩
      · cases e
      · cases e
      · cases e
        obtain ⟨k', hk'⟩ := decl_found hi ⟨n, none⟩ [] [] k (by rintro r' ⟨-, rfl⟩; rfl) (by rintro L r' ⟨h, -⟩; exact h.symm) (by simp)
        exact ⟨m.names, ⟨n, none⟩, k', by simpa using hk', name n, hn⟩
  · rintro ⟨old, d, k', h, hb, hn⟩
    exact (h.run l).2 hb hn

/-- **C73.** A lower bound other than zero is reported exactly if there is one, with the line of the token before the declaration. -/
theorem lower_reported (rg : Bool) (ts : List (Tok × ℕ)) (l k : ℕ) :
    yyRun rg ts l = .error (.lower k) ↔ ∃ old d k', DeclAt rg ts k k' old d ∧ d.BadLow := by
  constructor
  · intro h
    rcases yyRun_error h with ⟨p, x, rest, m, st, rfl, h1, h2⟩ | ⟨m, st, h1, h2⟩
    · have hi := yySteps_start h1
      rcases yyStep_error h2 with ⟨e, -⟩ | ⟨e, -⟩ | ⟨n, l0, l1, rfl, hb, hn, e⟩ | ⟨n, l0, a, rfl, hb, ⟨ha, e⟩ | ⟨rfl, hn, e⟩⟩ | ⟨_, _, e, -⟩
      · cases e
      · cases e
      · cases e
      · cases e
        have hi' : DInv rg m p (.high n k a) := hi
        obtain ⟨ss, q, env, lh, u, ds, r', rfl, hq, hs, hu, hd, hm, -, rfl, b, hr⟩ := hi'
        have ht : toksOf (r' ++ [x]) = RawDecl.toks ⟨n, some (a, b)⟩ := by rw [toksOf_append, hr, toksOf_cons, hb]; rfl
        obtain ⟨k', hk'⟩ := decl_line ht
        exact ⟨m.names, ⟨n, some (a, b)⟩, k', ⟨ss, q, env, lh, u, ds, r' ++ [x], rest, by simp, hq, hs, hu, hd, hm, ht, by simp, rfl, hk'⟩,
          ⟨_, rfl, ha⟩⟩
      · cases e
      · cases e
    · rcases yyEnd_error h2 with ⟨e, -⟩ | ⟨e, -⟩ | ⟨n, l0, l1, rfl, hn, e⟩ <;> cases e
  · rintro ⟨old, d, k', h, hb⟩
    exact (h.run l).1 hb

/-- **C73.** A second initial condition is reported exactly if there is one, with the line of its header; an empty one counts as a second
one, not as a first one. -/
theorem init_reported (rg env : Bool) (ts : List (Tok × ℕ)) (l k : ℕ) :
    yyRun rg ts l = .error (.dupInit env k) ↔
      ∃ ss q u x rest, ts = q ++ (initHdr env, k) :: (u ++ (.chr ';', x) :: rest) ∧ FileG rg ss (toksOf q) ∧ SecsFit ss ∧
        (u = [] ∨ FormG false (toksOf u)) ∧ RawSec.init env true ∈ ss := by
  constructor
  · intro h
    rcases yyRun_error h with ⟨p, x, rest, m, st, rfl, h1, h2⟩ | ⟨m, st, h1, h2⟩
    · have hi := yySteps_start h1
      rcases yyStep_error h2 with ⟨e, -⟩ | ⟨e, -⟩ | ⟨n, l0, l1, -, hb, hn, e⟩ | ⟨n, l0, a, -, hb, ⟨ha, e⟩ | ⟨-, hn, e⟩⟩ |
        ⟨lh, env', e, ht, hset, hst⟩
      · cases e
      · cases e
      · cases e
      · cases e
      · cases e
      · cases e
        obtain ⟨t, lx⟩ := x
        obtain rfl : t = .chr ';' := ht
        rcases hst with rfl | ⟨f, hf, rfl⟩
        · obtain ⟨ss, q, rfl, hb, -, -⟩ := hi
          exact ⟨ss, q, [], lx, rest, by simp, hb.1, hb.2.2, .inl rfl, (hb.2.1.2 env).1 hset⟩
        · obtain ⟨ss, q, u, rfl, hb, hu⟩ := hi
          exact ⟨ss, q, u, lx, rest, by simp, hb.1, hb.2.2, .inr (hu.formG hf), (hb.2.1.2 env).1 hset⟩
    · rcases yyEnd_error h2 with ⟨e, -⟩ | ⟨e, -⟩ | ⟨n, l0, l1, -, hn, e⟩ <;> cases e
  · rintro ⟨ss, q, u, x, rest, rfl, hq, hs, hu, hin⟩
    obtain ⟨m, st, e, hst, hm⟩ := (file_reads hq q rfl).1 hs
    have hset : m.isSet env = true := (hm.2 env).2 hin
    have e1 : yyStep rg m st (initHdr env) k = .ok (m, .head (initHdr env) k) := by
      rw [rest_header hst (by cases env <;> rfl)]
      unfold topStep
      rw [if_neg (by cases env <;> simp [initHdr]), if_pos (by cases env <;> rfl)]
    rw [yyRun_eq, yyFrom_append e, yyFrom_cons e1]
    rcases hu with rfl | hu
    · obtain ⟨i1, i2⟩ := initHdr_cases env
      refine yyFrom_stop ?_ _ _
      simp only [yyStep, headStep, if_pos i1, i2, if_true, hset]
    · obtain ⟨f, hf, e2⟩ := init_reads (rg := rg) (m := m) (env := env) (lh := k) hu
      rw [yyFrom_append e2]
      refine yyFrom_stop ?_ _ _
      rw [ender_step hf semi_ender]
      simp only [endStep, if_true, hset]

/-! ## Lines -/

/-- **C73.** In a text whose symbols are 7-bit characters, the parser gets the tokens of the lines with the numbers of the lines, the first
line having number 1, and the end is in the last line. -/
theorem text_lines (rg : Bool) (text : List Char) (h : ∀ x ∈ toksByLine 1 text, ¬WideTok x.1) :
    yyText rg text = yyRun rg (toksByLine 1 text) (lineAfter text) := by
  have h' : ∀ x ∈ toksByLine 1 text, (!endTok x.1) = true := by
    intro x hx
    have := h x hx
    rw [← endTok_iff] at this
    simpa using this
  unfold yyText
  rw [yyToks_lines text.length text 1 (Nat.le_refl _)]
  have e1 : (toksByLine 1 text).takeWhile (fun x => !endTok x.1) = toksByLine 1 text := by
    have := List.takeWhile_append_of_pos (p := fun x : Tok × ℕ => !endTok x.1) (l₂ := []) h'
    simpa using this
  have e2 : (toksByLine 1 text).dropWhile (fun x => !endTok x.1) = [] := by
    have := List.dropWhile_append_of_pos (p := fun x : Tok × ℕ => !endTok x.1) (l₂ := []) h'
    simpa using this
  simp only [e1, endLine, e2, lineAfter]

/-- **C73, a defect.** A symbol that is not a 7-bit character is the end of the input: what follows in the text is ignored. -/
theorem text_wide (rg : Bool) (text : List Char) (a b : List (Tok × ℕ)) (x : Tok × ℕ) (ht : toksByLine 1 text = a ++ x :: b)
    (ha : ∀ y ∈ a, ¬WideTok y.1) (hx : WideTok x.1) : yyText rg text = yyRun rg a x.2 := by
  have h' : ∀ y ∈ a, (!endTok y.1) = true := by
    intro y hy
    have := ha y hy
    rw [← endTok_iff] at this
    simpa using this
  have hx' : endTok x.1 = true := (endTok_iff _).2 hx
  unfold yyText
  rw [yyToks_lines text.length text 1 (Nat.le_refl _)]
  have e1 : (toksByLine 1 text).takeWhile (fun x => !endTok x.1) = a := by
    rw [ht, List.takeWhile_append_of_pos h', List.takeWhile_cons_of_neg (by simp [hx'])]
    simp
  have e2 : (toksByLine 1 text).dropWhile (fun x => !endTok x.1) = x :: b := by
    rw [ht, List.dropWhile_append_of_pos h', List.dropWhile_cons_of_neg (by simp [hx'])]
  simp only [e1, endLine, e2]

/-- **C73, a defect.** A text that begins with a character of more than 7 bits, as with a byte order mark, is accepted, whatever follows. -/
theorem wide_first (rg : Bool) (c : Char) (hc : 128 ≤ c.toNat) (text : List Char) : yyText rg (c :: text) = .ok () := by
  have ne : ∀ d : Char, d.toNat < 128 → c ≠ d := by rintro d hd rfl; omega
  have hb : isBlank c = false := by
    unfold isBlank
    simp [ne ' ' (by decide), ne '\t' (by decide), ne '\r' (by decide)]
  have hi : isIdStart c = false := by
    have hz : 'z'.toNat < c.toNat := Nat.lt_of_lt_of_le (by decide) hc
    have hZ : 'Z'.toNat < c.toNat := Nat.lt_of_lt_of_le (by decide) hc
    unfold isIdStart
    rw [decide_eq_false (Nat.not_le.2 hz), decide_eq_false (Nat.not_le.2 hZ)]
    simp [ne '_' (by decide)]
  have hd : isDig c = false := by
    have h9 : '9'.toNat < c.toNat := Nat.lt_of_lt_of_le (by decide) hc
    unfold isDig
    rw [decide_eq_false (Nat.not_le.2 h9), Bool.and_false]
  have h1 : lexOne true c text = (some (.chr c), false, text) := by
    rw [lexOne_plain (by
      rw [List.dropWhile_cons_of_neg (by simp [hb])]
      exact noheader_char (ne _ (by decide)) (ne _ (by decide)))]
    simp [lexPlain, symRules, firstRule, lexSimple, ne '&' (by decide), ne '[' (by decide), ne '<' (by decide), ne '>' (by decide),
      ne '!' (by decide), ne '-' (by decide), ne '\n' (by decide), ne '#' (by decide), hb, hi, hd]
  have h2 : endTok (.chr c) = true := by simp [endTok, hc]
  unfold yyText
  rw [yyToks_cons, h1]
  simp only [h2, if_true]
  rfl

/-! ## Lines go up -/

theorem lines_bounds (ls : List (List Char)) : ∀ n, (((ls.zipIdx n).flatMap fun x => (lexFile x.1).map fun t => (t, x.2)).Pairwise
    fun a b => a.2 ≤ b.2) ∧ ∀ x ∈ (ls.zipIdx n).flatMap fun x => (lexFile x.1).map fun t => (t, x.2), n ≤ x.2 := by
  induction ls with
  | nil => intro n; exact ⟨by simp, by simp⟩
  | cons a ls ih =>
    intro n
    obtain ⟨i1, i2⟩ := ih (n + 1)
    rw [List.zipIdx_cons, List.flatMap_cons]
    refine ⟨List.pairwise_append.2 ⟨?_, i1, ?_⟩, ?_⟩
    · rw [List.pairwise_map]
      exact List.pairwise_of_forall fun _ _ => Nat.le_refl _
    · intro x hx y hy
      obtain ⟨t, -, rfl⟩ := List.mem_map.1 hx
      have := i2 y hy
      simp only
      omega
    · intro x hx
      rcases List.mem_append.1 hx with hx | hx
      · obtain ⟨t, -, rfl⟩ := List.mem_map.1 hx
        exact Nat.le_refl _
      · have := i2 x hx
        omega

theorem lastLn_cons_mem (x : Tok × ℕ) (u : List (Tok × ℕ)) : ∃ y ∈ x :: u, y.2 = lastLn x.2 u := by
  cases u using List.reverseRecOn with
  | nil => exact ⟨x, by simp, rfl⟩
  | append_singleton u y => exact ⟨y, by simp, by rw [lastLn_snoc]⟩

/-- **C73.** The line in the message about a declaration is not after the line of the declaration. -/
theorem decl_line_before {rg : Bool} {text : List Char} {k k' : ℕ} {old : List Name} {d : RawDecl}
    (h : DeclAt rg (toksByLine 1 text) k k' old d) : 1 ≤ k ∧ k ≤ k' := by
  obtain ⟨ss, q, env, lh, u, ds, r, rest, e, -, -, -, -, -, -, -, rfl, hk⟩ := h
  obtain ⟨h1, h2⟩ := lines_bounds (linesOf text) 1
  rw [show ((linesOf text).zipIdx 1).flatMap (fun x => (lexFile x.1).map fun t => (t, x.2)) = toksByLine 1 text from rfl, e] at h1 h2
  obtain ⟨y, hy, hy'⟩ := lastLn_cons_mem (varHdr env, lh) u
  cases r with
  | nil => cases hk
  | cons z r =>
    obtain rfl := Option.some.inj hk
    have hsplit : q ++ (varHdr env, lh) :: (u ++ (z :: r ++ rest)) = (q ++ (varHdr env, lh) :: u) ++ (z :: (r ++ rest)) := by simp
    refine ⟨?_, ?_⟩
    · rw [show lastLn lh u = y.2 from hy'.symm]
      exact h2 y (by rw [hsplit]; simp only [List.mem_append]; left; right; exact hy)
    · rw [hsplit] at h1
      have := (List.pairwise_append.1 h1).2.2 y (by simp only [List.mem_append]; right; exact hy) z (by simp)
      rw [← hy']
      exact this

/-- **C73.** If the second declaration of a variable is in the line in which the text before it ends, the message names that line. (What is
missing: elsewhere the line named is an earlier one.) -/
theorem duplicate_line_partial {rg : Bool} {text : List Char} (hw : ∀ x ∈ toksByLine 1 text, ¬WideTok x.1) {k : ℕ} {old : List Name}
    {d : RawDecl} (h : DeclAt rg (toksByLine 1 text) k k old d) (hd : ¬d.BadLow) (hn : d.name ∈ old) :
    yyText rg text = .error (.dupVar k) := by
  rw [text_lines rg text hw]
  exact (h.run _).2 hd hn

/-! ## Cases -/

namespace PErrEx

/-- `x` is declared in line 1, and again in line 3. -/
def twice : List Char := "ENV: x\n  # again:\n  x;".toList

theorem twice_toks : toksByLine 1 twice = [(.evars, 1), (.ident ['x'], 1), (.ident ['x'], 3), (.chr ';', 3)] := by decide +kernel

theorem twice_at : DeclAt false (toksByLine 1 twice) 1 3 [['x']] ⟨['x'], none⟩ :=
  ⟨[], [], true, 1, [(.ident ['x'], 1)], [⟨['x'], none⟩], [(.ident ['x'], 3)], [(.chr ';', 3)], twice_toks, .nil, secsFit_nil, rfl,
    ⟨by simp, by simp [declaredIn]⟩, rfl, rfl, by rintro - y hy; cases hy; decide, rfl, rfl⟩

end PErrEx

/-- **C73, a defect.** The message about a variable that is declared twice does not always name the line of the second declaration. -/
theorem duplicate_line_wrong : ∃ text k k' old d, (∀ x ∈ toksByLine 1 text, ¬WideTok x.1) ∧ DeclAt false (toksByLine 1 text) k k' old d ∧
    ¬d.BadLow ∧ d.name ∈ old ∧ k ≠ k' ∧ yyText false text = .error (.dupVar k) :=
  ⟨PErrEx.twice, 1, 3, _, _, by rw [PErrEx.twice_toks]; simp [WideTok], PErrEx.twice_at, (by rintro ⟨x, h, _⟩; cases h), by simp, by decide,
    by decide +kernel⟩

/-- Syntax errors in the line of a token, at the end of the text, and in a formula in front. -/
example : yyText false "ENV: x;\n\nSYSINIT: x &\n & y;".toList = .error (.syntax 4) ∧
    yyText false "ENV: x;\nSYSINIT: x".toList = .error (.syntax 2) ∧
    yyText false "x & )\nENV: y;".toList = .error .silent ∧
    yyText true "ENV: x;\nSYSGOAL: []<>x;".toList = .error (.syntax 2) ∧
    yyText false "ENV: x;\nSYSGOAL: []<>x;".toList = .ok () := by decide +kernel

/-- `syntax_error_place` for the first of them: the line of the token is the one in the message. -/
example : ¬Begins false (toksOf [(.evars, 1), (.ident ['x'], 1), (.chr ';', 1), (.sinit, 3), (.ident ['x'], 3), (.chr '&', 3), (.chr '&', 4)]) := by
  have h : yyRun false [(.evars, 1), (.ident ['x'], 1), (.chr ';', 1), (.sinit, 3), (.ident ['x'], 3), (.chr '&', 3), (.chr '&', 4)] 4 =
      .error (.syntax 4) := by decide +kernel
  rintro ⟨ext, ss, hg⟩
  have h2 : yySteps false .init .start ([(.evars, 1), (.ident ['x'], 1), (.chr ';', 1), (.sinit, 3), (.ident ['x'], 3), (.chr '&', 3),
      (.chr '&', 4)] ++ ext.map fun t => (t, 0)) = .error (.syntax 4) := rfl
  obtain ⟨g1, g2⟩ := file_reads hg ([(.evars, 1), (.ident ['x'], 1), (.chr ';', 1), (.sinit, 3), (.ident ['x'], 3), (.chr '&', 3),
      (.chr '&', 4)] ++ ext.map fun t => (t, 0)) (by simp [toksOf, Function.comp_def])
  by_cases hf : SecsFit ss
  · obtain ⟨m, st, e, -⟩ := g1 hf
    rw [h2] at e; cases e
  · obtain ⟨e, s, e'⟩ := g2 hf
    rw [h2] at e'
    cases e'
    exact s

/-- Bounds and initial conditions. -/
example : yyText false "ENV:\n x [1,3];".toList = .error (.lower 1) ∧
    yyText false "ENV: x;\nENVINIT: x;\n\nENVINIT:\n !x;".toList = .error (.dupInit true 4) ∧
    yyText false "ENV: x;\nENVINIT: ;\nENVINIT: x;".toList = .ok () ∧
    yyText false "ENV: x;\nENVINIT: x;\nENVINIT: ;".toList = .error (.dupInit true 3) := by decide +kernel

/-- `duplicate_line_partial`: both declarations in one line. -/
example : yyText false "ENV: x;\nSYS: y x [0,2];".toList = .error (.dupVar 2) := by
  have ht : toksByLine 1 "ENV: x;\nSYS: y x [0,2];".toList = [(.evars, 1), (.ident ['x'], 1), (.chr ';', 1), (.svars, 2), (.ident ['y'], 2),
      (.ident ['x'], 2), (.chr '[', 2), (.num 0, 2), (.chr ',', 2), (.num 2, 2), (.chr ']', 2), (.chr ';', 2)] := by decide +kernel
  refine duplicate_line_partial (old := [['x'], ['y']]) (d := ⟨['x'], some (0, 2)⟩) (by rw [ht]; simp [WideTok]) ?_ ?_ (by simp)
  · exact ⟨[.vars true [⟨['x'], none⟩]], [(.evars, 1), (.ident ['x'], 1), (.chr ';', 1)], false, 2, [(.ident ['y'], 2)], [⟨['y'], none⟩],
      [(.ident ['x'], 2), (.chr '[', 2), (.num 0, 2), (.chr ',', 2), (.num 2, 2), (.chr ']', 2)], [(.chr ';', 2)], ht,
      FileG.snoc .nil (.vars true [⟨['x'], none⟩]), (secsFit_snoc [] _).2 ⟨secsFit_nil, by simp, by simp [declaredIn]⟩, rfl,
      ⟨by simp, by simp [declaredIn]⟩, rfl, rfl, by simp, rfl, rfl⟩
  · rintro ⟨x, h, h0⟩
    cases h
    exact h0 rfl

/-- A file with a byte order mark: nothing of it is read. -/
example : yyText false (Char.ofNat 0xFEFF :: "ENV: x x;".toList) = .ok () := wide_first _ _ (by decide) _

/-- Nor is what follows a letter with an accent: the section is not complete, and the end of the input is said to be in line 1. -/
example : yyText false "ENV: x é;\nSYS: y;\n".toList = .error (.syntax 1) := by
  have ht : toksByLine 1 "ENV: x é;\nSYS: y;\n".toList = [(.evars, 1), (.ident ['x'], 1)] ++
      (.chr 'é', 1) :: [(.chr ';', 1), (.svars, 2), (.ident ['y'], 2), (.chr ';', 2)] := by decide +kernel
  rw [text_wide false _ _ _ _ ht (by simp [WideTok]) ⟨'é', rfl, .inr (by decide)⟩]
  decide +kernel

end Gr1c
