import Verif.Layout
import Mathlib.Data.List.Induction
import Mathlib.Tactic.Ring

/-! # Lemmas about the scanner (for C46) -/

namespace Gr1c

theorem stripPre_iff {p cs r : List Char} : stripPre p cs = some r ↔ cs = p ++ r := by
  induction p generalizing cs with
  | nil => simp [stripPre]
  | cons a p ih =>
    cases cs with
    | nil => simp [stripPre]
    | cons c cs =>
      simp only [stripPre, List.cons_append, List.cons.injEq]
      by_cases h : a = c
      · simp [h, ih]
      · simp [h, Ne.symm h]

theorem firstRule_none {rules : List (List Char × Tok)} {cs : List Char} :
    firstRule rules cs = none ↔ ∀ p ∈ rules, ∀ r, cs ≠ p.1 ++ r := by
  unfold firstRule
  rw [List.findSome?_eq_none_iff]
  constructor
  · intro h p hp r he
    have := h p hp
    simp only [Option.map_eq_none_iff] at this
    rw [stripPre_iff.2 he] at this
    cases this
  · intro h p hp
    simp only [Option.map_eq_none_iff]
    cases hs : stripPre p.1 cs with
    | none => rfl
    | some r => exact absurd (stripPre_iff.1 hs) (h p hp r)

theorem dropWhile_append_all {p : Char → Bool} {a b : List Char} (h : ∀ c ∈ a, p c = true) :
    (a ++ b).dropWhile p = b.dropWhile p := by
  induction a with
  | nil => rfl
  | cons c a ih =>
    rw [List.cons_append, List.dropWhile_cons_of_pos (h c (by simp))]
    exact ih fun d hd => h d (by simp [hd])

theorem takeWhile_append_all {p : Char → Bool} {a b : List Char} (h : ∀ c ∈ a, p c = true) :
    (a ++ b).takeWhile p = a ++ b.takeWhile p := by
  induction a with
  | nil => rfl
  | cons c a ih =>
    rw [List.cons_append, List.takeWhile_cons_of_pos (h c (by simp)), ih fun d hd => h d (by simp [hd])]
    rfl

theorem dropWhile_head {p : Char → Bool} {s : List Char} (h : ∀ c, s.head? = some c → p c = false) :
    s.dropWhile p = s ∧ s.takeWhile p = [] := by
  cases s with
  | nil => exact ⟨rfl, rfl⟩
  | cons c s =>
    have := h c rfl
    exact ⟨List.dropWhile_cons_of_neg (by simp [this]), List.takeWhile_cons_of_neg (by simp [this])⟩

theorem header_words : ∀ p ∈ headers, ∃ w : List Char, p.1 = w ++ [':'] ∧ (∀ c ∈ w, isIdChar c = true) ∧
    (w.head? = some 'E' ∨ w.head? = some 'S') := by
  intro p hp
  simp only [headers, List.mem_cons, List.not_mem_nil, or_false] at hp
  rcases hp with h | h | h | h | h | h | h | h <;> subst h
  · exact ⟨['E', 'N', 'V'], by decide, by decide, by decide⟩
  · exact ⟨['S', 'Y', 'S'], by decide, by decide, by decide⟩
  · exact ⟨['E', 'N', 'V', 'I', 'N', 'I', 'T'], by decide, by decide, by decide⟩
  · exact ⟨['E', 'N', 'V', 'T', 'R', 'A', 'N', 'S'], by decide, by decide, by decide⟩
  · exact ⟨['E', 'N', 'V', 'G', 'O', 'A', 'L'], by decide, by decide, by decide⟩
  · exact ⟨['S', 'Y', 'S', 'I', 'N', 'I', 'T'], by decide, by decide, by decide⟩
  · exact ⟨['S', 'Y', 'S', 'T', 'R', 'A', 'N', 'S'], by decide, by decide, by decide⟩
  · exact ⟨['S', 'Y', 'S', 'G', 'O', 'A', 'L'], by decide, by decide, by decide⟩

theorem noheader_char {c : Char} {cs : List Char} (h1 : c ≠ 'E') (h2 : c ≠ 'S') :
    firstRule headers (c :: cs) = none := by
  rw [firstRule_none]
  intro p hp r he
  obtain ⟨w, hw, -, h⟩ := header_words p hp
  rw [hw] at he
  cases w with
  | nil => simp at h
  | cons d w =>
    simp only [List.cons_append, List.cons.injEq] at he
    simp only [List.head?_cons, Option.some.injEq] at h
    rcases h with h | h
    · exact h1 (he.1.trans h)
    · exact h2 (he.1.trans h)

theorem noheader_nil : firstRule headers [] = none := by
  rw [firstRule_none]
  intro p hp r he
  obtain ⟨w, hw, -, h⟩ := header_words p hp
  rw [hw] at he
  simp at he

theorem noheader_word {w s : List Char} (hw : ∀ c ∈ w, isIdChar c = true)
    (hs : ∀ c, s.head? = some c → isIdChar c = false ∧ c ≠ ':') : firstRule headers (w ++ s) = none := by
  rw [firstRule_none]
  intro p hp r he
  obtain ⟨v, hv, hc, -⟩ := header_words p hp
  rw [hv, List.append_assoc] at he
  have h := congrArg (List.dropWhile isIdChar) he
  rw [dropWhile_append_all hw, dropWhile_append_all hc, (dropWhile_head fun c hc => (hs c hc).1).1] at h
  rw [show List.dropWhile isIdChar ([':'] ++ r) = ':' :: r from
    List.dropWhile_cons_of_neg (by decide)] at h
  exact (hs ':' (by rw [h]; rfl)).2 rfl

theorem isBlank_iff {c : Char} : isBlank c = true ↔ c = ' ' ∨ c = '\t' ∨ c = '\r' := by
  unfold isBlank
  simp [or_assoc]

theorem isSpTab_iff {c : Char} : isSpTab c = true ↔ c = ' ' ∨ c = '\t' := by
  unfold isSpTab
  simp

theorem lex_cons (b : Bool) (c : Char) (cs : List Char) :
    lex b (c :: cs) = (lexOne b c cs).1.toList ++ lex (lexOne b c cs).2.1 (lexOne b c cs).2.2 := by
  rw [lex]

theorem lexOne_plain {b : Bool} {c : Char} {cs : List Char}
    (h : firstRule headers ((c :: cs).dropWhile isBlank) = none) : lexOne b c cs = lexPlain c cs := by
  unfold lexOne
  cases b
  · rfl
  · simp only [if_true, h]

theorem symRules_blank {c : Char} (h : isBlank c = true) : symRules c = [] := by
  rcases isBlank_iff.1 h with h | h | h <;> subst h <;> decide

theorem lexPlain_blank {c : Char} {cs : List Char} (h : isBlank c = true) :
    lexPlain c cs = (none, false, cs.dropWhile isBlank) := by
  unfold lexPlain
  rw [symRules_blank h]
  rcases isBlank_iff.1 h with h | h | h <;> subst h <;> simp [firstRule, lexSimple, isBlank]

theorem lex_dropBlank (cs : List Char) : lex false (cs.dropWhile isBlank) = lex false cs := by
  cases cs with
  | nil => rfl
  | cons c cs =>
    by_cases h : isBlank c = true
    · rw [List.dropWhile_cons_of_pos h, lex_cons]
      simp [lexOne, lexPlain_blank h]
    · rw [List.dropWhile_cons_of_neg h]

theorem idStart_class {c : Char} (h : isIdStart c = true) :
    c ≠ '&' ∧ c ≠ '[' ∧ c ≠ '<' ∧ c ≠ '>' ∧ c ≠ '!' ∧ c ≠ '-' ∧ c ≠ '\n' ∧ c ≠ '#' ∧ isBlank c = false := by
  have hn : ∀ d : Char, isIdStart d = false → c ≠ d := by
    intro d hd he; rw [he, hd] at h; cases h
  refine ⟨hn _ (by decide), hn _ (by decide), hn _ (by decide), hn _ (by decide), hn _ (by decide),
    hn _ (by decide), hn _ (by decide), hn _ (by decide), ?_⟩
  by_contra hb
  rw [Bool.not_eq_false] at hb
  rcases isBlank_iff.1 hb with h' | h' | h' <;> exact hn _ (by decide) h'

theorem dig_class {c : Char} (h : isDig c = true) :
    c ≠ '&' ∧ c ≠ '[' ∧ c ≠ '<' ∧ c ≠ '>' ∧ c ≠ '!' ∧ c ≠ '-' ∧ c ≠ '\n' ∧ c ≠ '#' ∧ isBlank c = false ∧
      isIdStart c = false ∧ c ≠ 'E' ∧ c ≠ 'S' := by
  have hn : ∀ d : Char, isDig d = false → c ≠ d := by
    intro d hd he; rw [he, hd] at h; cases h
  refine ⟨hn _ (by decide), hn _ (by decide), hn _ (by decide), hn _ (by decide), hn _ (by decide),
    hn _ (by decide), hn _ (by decide), hn _ (by decide), ?_, ?_, hn _ (by decide), hn _ (by decide)⟩
  · by_contra hb
    rw [Bool.not_eq_false] at hb
    rcases isBlank_iff.1 hb with h' | h' | h' <;> exact hn _ (by decide) h'
  · unfold isDig at h
    unfold isIdStart
    have h1 : '0'.toNat = 48 := by decide
    have h2 : '9'.toNat = 57 := by decide
    have h3 : 'a'.toNat = 97 := by decide
    have h4 : 'A'.toNat = 65 := by decide
    have h5 : c ≠ '_' := hn _ (by decide)
    rw [h1, h2] at h
    simp only [Bool.and_eq_true, decide_eq_true_eq] at h
    simp only [Bool.or_eq_false_iff, Bool.and_eq_false_iff, decide_eq_false_iff_not, beq_eq_false_iff_ne]
    rw [h3, h4]
    exact ⟨⟨Or.inl (by omega), Or.inl (by omega)⟩, h5⟩

theorem symRules_nil {c : Char} (h : c ≠ '&' ∧ c ≠ '[' ∧ c ≠ '<' ∧ c ≠ '>' ∧ c ≠ '!' ∧ c ≠ '-') :
    symRules c = [] := by
  unfold symRules
  simp [h]

theorem digitsVal_eq (ds : List Char) : digitsVal ds = Nat.ofDigits 10 (ds.reverse.map digitVal) := by
  unfold digitsVal
  induction ds using List.reverseRecOn with
  | nil => rfl
  | append_singleton ds c ih =>
    rw [List.foldl_append, ih, List.reverse_append]
    simp only [List.foldl_cons, List.foldl_nil, List.reverse_cons, List.reverse_nil, List.nil_append,
      List.cons_append, List.map_cons, Nat.ofDigits_cons, digitVal]
    have h1 : '0'.toNat = 48 := by decide
    rw [h1]
    simp
    ring

theorem idStart_idChar {c : Char} (h : isIdStart c = true) : isIdChar c = true := by
  unfold isIdChar; simp [h]

theorem ident_idChars {w : List Char} (h : IsIdent w) : ∀ c ∈ w, isIdChar c = true := by
  obtain ⟨c, cs, rfl, h1, h2⟩ := h
  intro d hd
  rcases List.mem_cons.1 hd with rfl | hd
  · exact idStart_idChar h1
  · exact h2 d hd

theorem ident_head {w s : List Char} (h : IsIdent w) : (w ++ s).dropWhile isBlank = w ++ s := by
  obtain ⟨c, cs, rfl, h1, h2⟩ := h
  exact List.dropWhile_cons_of_neg (by simp [(idStart_class h1).2.2.2.2.2.2.2.2])

theorem ident_true : IsIdent ['T', 'r', 'u', 'e'] := ⟨'T', ['r', 'u', 'e'], rfl, by decide, by decide⟩
theorem ident_false : IsIdent ['F', 'a', 'l', 's', 'e'] :=
  ⟨'F', ['a', 'l', 's', 'e'], rfl, by decide, by decide⟩

/-- No section header begins where another token does. -/
theorem tok_noheader {t : Tok} {w s : List Char} (hw : Spells t w) (hs : Stops t s) :
    firstRule headers ((w ++ s).dropWhile isBlank) = none := by
  have hchar : ∀ c cs, isBlank c = false → c ≠ 'E' → c ≠ 'S' →
      firstRule headers ((c :: cs).dropWhile isBlank) = none := by
    intro c cs h1 h2 h3
    rw [List.dropWhile_cons_of_neg (by simp [h1])]
    exact noheader_char h2 h3
  cases hw with
  | andLive bl h => exact hchar _ _ (by decide) (by decide) (by decide)
  | andSafe bl h => exact hchar _ _ (by decide) (by decide) (by decide)
  | fixed t w h =>
    simp only [fixedSpelling, List.mem_cons, List.not_mem_nil, or_false, Prod.mk.injEq] at h
    rcases h with ⟨-, rfl⟩ | ⟨-, rfl⟩ | ⟨-, rfl⟩ | ⟨-, rfl⟩ | ⟨-, rfl⟩ | ⟨-, rfl⟩ | ⟨-, rfl⟩ | ⟨-, rfl⟩ <;>
      exact hchar _ _ (by decide) (by decide) (by decide)
  | tt => rw [ident_head ident_true]; exact noheader_word (ident_idChars ident_true) hs
  | ff => rw [ident_head ident_false]; exact noheader_word (ident_idChars ident_false) hs
  | ident w h => rw [ident_head h]; exact noheader_word (ident_idChars h) hs
  | num ds fr h hd hf =>
    cases ds with
    | nil => exact absurd rfl h
    | cons c ds =>
      have := dig_class (hd c (by simp))
      exact hchar _ _ this.2.2.2.2.2.2.2.2.1 this.2.2.2.2.2.2.2.2.2.2.1 this.2.2.2.2.2.2.2.2.2.2.2
  | sym c h =>
    have hb : ∀ c ∈ singleSymbols, isBlank c = false ∧ c ≠ 'E' ∧ c ≠ 'S' := by decide
    have := hb c h
    exact hchar _ _ this.1 this.2.1 this.2.2

theorem wordTok_ident {w : List Char} (h1 : w ≠ ['T', 'r', 'u', 'e']) (h2 : w ≠ ['F', 'a', 'l', 's', 'e']) :
    wordTok w = .ident w := by
  have e1 : "True".toList = ['T', 'r', 'u', 'e'] := by decide
  have e2 : "False".toList = ['F', 'a', 'l', 's', 'e'] := by decide
  unfold wordTok
  rw [e1, e2, if_neg h1, if_neg h2]

theorem lexPlain_word {c : Char} {cs s : List Char} (h1 : isIdStart c = true)
    (h2 : ∀ d ∈ cs, isIdChar d = true) (hs : ∀ c, s.head? = some c → isIdChar c = false ∧ c ≠ ':') :
    lexPlain c (cs ++ s) = (some (wordTok (c :: cs)), false, s) := by
  obtain ⟨g1, g2, g3, g4, g5, g6, g7, g8, g9⟩ := idStart_class h1
  unfold lexPlain lexSimple
  have hd := dropWhile_head fun c hc => (hs c hc).1
  rw [symRules_nil ⟨g1, g2, g3, g4, g5, g6⟩, takeWhile_append_all h2, dropWhile_append_all h2, hd.1, hd.2]
  simp [firstRule, g7, g8, g9, h1]

theorem dropFraction_stop {fr s : List Char}
    (hf : fr = [] ∨ ∃ es, es ≠ [] ∧ fr = '.' :: es ∧ ∀ c ∈ es, isDig c = true)
    (hs : ∀ c, s.head? = some c → isDig c = false ∧ c ≠ '.') : dropFraction (fr ++ s) = s := by
  rcases hf with rfl | ⟨es, h1, rfl, h2⟩
  · unfold dropFraction
    simp only [List.nil_append]
    split
    · exact absurd rfl (hs '.' rfl).2
    · rfl
  · cases es with
    | nil => exact absurd rfl h1
    | cons e es =>
      simp only [List.cons_append, dropFraction, h2 e (by simp), if_true]
      rw [dropWhile_append_all fun c hc => h2 c (by simp [hc])]
      exact (dropWhile_head fun c hc => (hs c hc).1).1

theorem lexSimple_sym {c : Char} (h : c ∈ singleSymbols) (s : List Char) :
    lexSimple c s = (some (.chr c), false, s) := by
  have hb : ∀ c ∈ singleSymbols, c ≠ '\n' ∧ c ≠ '#' ∧ isBlank c = false ∧ isIdStart c = false ∧
      isDig c = false := by decide
  obtain ⟨h1, h2, h3, h4, h5⟩ := hb c h
  simp [lexSimple, h1, h2, h3, h4, h5]

/-- The scanner recognizes the text of a token. -/
theorem lexPlain_tok {t : Tok} {c : Char} {cs s : List Char} (hw : Spells t (c :: cs)) (hs : Stops t s) :
    lexPlain c (cs ++ s) = (some t, false, s) := by
  generalize hx : c :: cs = x at hw
  cases hw with
  | andLive bl h =>
    simp only [List.cons.injEq] at hx
    obtain ⟨rfl, rfl⟩ := hx
    unfold lexPlain
    have : symRest '&' (bl ++ ['[', ']', '<', '>'] ++ s) = '[' :: ']' :: '<' :: '>' :: s := by
      unfold symRest
      rw [if_pos rfl, List.append_assoc, dropWhile_append_all fun c hc => isSpTab_iff.2 (h c hc)]
      exact List.dropWhile_cons_of_neg (by decide)
    rw [this]
    simp [symRules, firstRule, stripPre]
  | andSafe bl h =>
    simp only [List.cons.injEq] at hx
    obtain ⟨rfl, rfl⟩ := hx
    unfold lexPlain
    have : symRest '&' (bl ++ ['[', ']'] ++ s) = '[' :: ']' :: s := by
      unfold symRest
      rw [if_pos rfl, List.append_assoc, dropWhile_append_all fun c hc => isSpTab_iff.2 (h c hc)]
      exact List.dropWhile_cons_of_neg (by decide)
    rw [this]
    simp only [Stops] at hs
    cases s with
    | nil => simp [symRules, firstRule, stripPre]
    | cons d s =>
      have : '<' ≠ d := by intro h; rw [← h] at hs; simp at hs
      simp [symRules, firstRule, stripPre, this]
  | fixed t w h =>
    simp only [fixedSpelling, List.mem_cons, List.not_mem_nil, or_false, Prod.mk.injEq] at h
    rcases h with ⟨rfl, rfl⟩ | ⟨rfl, rfl⟩ | ⟨rfl, rfl⟩ | ⟨rfl, rfl⟩ | ⟨rfl, rfl⟩ | ⟨rfl, rfl⟩ | ⟨rfl, rfl⟩ |
      ⟨rfl, rfl⟩ <;> simp only [List.cons.injEq] at hx <;> obtain ⟨rfl, rfl⟩ := hx
    case inr.inl =>
      simp only [Stops] at hs
      cases s with
      | nil => simp [lexPlain, symRest, symRules, firstRule, stripPre]
      | cons d s =>
        have : '<' ≠ d := by intro h; rw [← h] at hs; simp at hs
        simp [lexPlain, symRest, symRules, firstRule, stripPre, this]
    all_goals simp [lexPlain, symRest, symRules, firstRule, stripPre]
  | tt =>
    simp only [List.cons.injEq] at hx
    obtain ⟨rfl, rfl⟩ := hx
    rw [lexPlain_word (by decide) (by decide) hs]
    rw [show wordTok ['T', 'r', 'u', 'e'] = .tt from by decide]
  | ff =>
    simp only [List.cons.injEq] at hx
    obtain ⟨rfl, rfl⟩ := hx
    rw [lexPlain_word (by decide) (by decide) hs]
    rw [show wordTok ['F', 'a', 'l', 's', 'e'] = .ff from by decide]
  | ident w h h1 h2 =>
    subst hx
    obtain ⟨c', cs', he, g1, g2⟩ := h
    simp only [List.cons.injEq] at he
    obtain ⟨rfl, rfl⟩ := he
    rw [lexPlain_word g1 g2 hs, wordTok_ident h1 h2]
  | num ds fr h hd hf =>
    cases ds with
    | nil => exact absurd rfl h
    | cons d ds =>
      simp only [List.cons_append, List.cons.injEq] at hx
      obtain ⟨rfl, rfl⟩ := hx
      obtain ⟨g1, g2, g3, g4, g5, g6, g7, g8, g9, g10, -⟩ := dig_class (hd c (by simp))
      have hds : ∀ e ∈ ds, isDig e = true := fun e he => hd e (by simp [he])
      have hfr : ∀ c, (fr ++ s).head? = some c → isDig c = false := by
        intro c hc
        rcases hf with rfl | ⟨es, -, rfl, -⟩
        · exact (hs c hc).1
        · simp only [List.cons_append, List.head?_cons, Option.some.injEq] at hc
          rw [← hc]; decide
      have hh := dropWhile_head hfr
      unfold lexPlain lexSimple
      rw [symRules_nil ⟨g1, g2, g3, g4, g5, g6⟩, List.append_assoc, takeWhile_append_all hds,
        dropWhile_append_all hds, hh.1, hh.2, dropFraction_stop hf hs, digitsVal_eq]
      simp [firstRule, g7, g8, g9, g10, hd c (by simp)]
  | sym c' h =>
    simp only [List.cons.injEq] at hx
    obtain ⟨rfl, rfl⟩ := hx
    simp only [List.nil_append]
    have hn : firstRule (symRules c) (symRest c s) = none := by
      simp only [singleSymbols, List.mem_cons, List.not_mem_nil, or_false] at h
      rw [firstRule_none]
      intro p hp r he
      rcases h with rfl | rfl | rfl | rfl | rfl | rfl | rfl | rfl | rfl | rfl | rfl | rfl | rfl
      case inr.inr.inl =>
        simp only [Stops, if_true] at hs
        have e : symRest '&' s = s.dropWhile fun d => d == ' ' || d == '\t' := rfl
        rw [← e, he] at hs
        simp only [symRules, if_true, List.mem_cons, List.not_mem_nil, or_false] at hp
        rcases hp with rfl | rfl <;> simp at hs
      all_goals simp [symRules] at hp
      case inr.inr.inr.inr.inl =>
        simp [Stops] at hs; simp [symRest] at he; subst hp; rw [he] at hs; simp at hs
      case inr.inr.inr.inr.inr.inr.inr.inr.inr.inl =>
        simp [Stops] at hs; simp [symRest] at he
        rcases hp with rfl | rfl | rfl <;> rw [he] at hs <;> simp at hs
      case inr.inr.inr.inr.inr.inr.inr.inr.inr.inr.inl =>
        simp [Stops] at hs; simp [symRest] at he; subst hp; rw [he] at hs; simp at hs
      case inr.inr.inr.inr.inr.inr.inr.inr.inr.inr.inr.inl =>
        simp [Stops] at hs; simp [symRest] at he
        rcases hp with rfl | rfl <;> rw [he] at hs <;> simp at hs
    unfold lexPlain
    rw [hn]
    exact lexSimple_sym h s

theorem spells_ne_nil {t : Tok} {w : List Char} (h : Spells t w) : w ≠ [] := by
  cases h with
  | andLive bl h => simp
  | andSafe bl h => simp
  | fixed t w h =>
    have : ∀ p ∈ fixedSpelling, p.2 ≠ [] := by decide
    exact this _ h
  | tt => simp
  | ff => simp
  | ident w h => obtain ⟨c, cs, rfl, -⟩ := h; simp
  | num ds fr h => simp [h]
  | sym c h => simp

/-- No section header begins in the middle of a line. -/
theorem layout_noheader {b : Bool} {ts : List Tok} {s : List Char} (h : Layout b ts s) (hb : b = false) :
    firstRule headers (s.dropWhile isBlank) = none := by
  induction h with
  | done b => exact noheader_nil
  | blank b c ts s h hl ih => rw [List.dropWhile_cons_of_pos (isBlank_iff.2 h)]; exact ih rfl
  | newline b ts s hl ih =>
    rw [List.dropWhile_cons_of_neg (by decide)]; exact noheader_char (by decide) (by decide)
  | comment b w ts s h hl ih =>
    rw [List.dropWhile_cons_of_neg (by decide)]; exact noheader_char (by decide) (by decide)
  | header bl h t w hw ts s hl ih => cases hb
  | tok b t w hw ts s hs hl ih => exact tok_noheader hw hs

theorem sectionNames_headers : ∀ p ∈ sectionNames, ∀ s, firstRule headers (p.2.toList ++ s) = some (p.1, s) ∧
    (p.2.toList ++ s).dropWhile isBlank = p.2.toList ++ s := by
  intro p hp s
  simp only [sectionNames, List.mem_cons, List.not_mem_nil, or_false] at hp
  have e1 : "ENV:".toList = ['E', 'N', 'V', ':'] := by decide
  have e2 : "SYS:".toList = ['S', 'Y', 'S', ':'] := by decide
  have e3 : "ENVINIT:".toList = ['E', 'N', 'V', 'I', 'N', 'I', 'T', ':'] := by decide
  have e4 : "ENVTRANS:".toList = ['E', 'N', 'V', 'T', 'R', 'A', 'N', 'S', ':'] := by decide
  have e5 : "ENVGOAL:".toList = ['E', 'N', 'V', 'G', 'O', 'A', 'L', ':'] := by decide
  have e6 : "SYSINIT:".toList = ['S', 'Y', 'S', 'I', 'N', 'I', 'T', ':'] := by decide
  have e7 : "SYSTRANS:".toList = ['S', 'Y', 'S', 'T', 'R', 'A', 'N', 'S', ':'] := by decide
  have e8 : "SYSGOAL:".toList = ['S', 'Y', 'S', 'G', 'O', 'A', 'L', ':'] := by decide
  unfold headers
  rw [e1, e2, e3, e4, e5, e6, e7, e8]
  rcases hp with h | h | h | h | h | h | h | h <;> subst h <;> simp only [e1, e2, e3, e4, e5, e6, e7, e8] <;>
    refine ⟨?_, List.dropWhile_cons_of_neg (by decide)⟩ <;>
    simp [firstRule, stripPre]

/-! ### Text before a comment or line end -/

/-- Texts beginning with a comment or a line end. -/
def SepHead (X : List Char) : Prop := ∃ x X', X = x :: X' ∧ (x = '#' ∨ x = '\n')

theorem stripPre_sep {p s X : List Char} (hX : SepHead X) (hp : '#' ∉ p ∧ '\n' ∉ p) :
    stripPre p (s ++ X) = (stripPre p s).map (· ++ X) := by
  obtain ⟨x, X', rfl, hx⟩ := hX
  induction p generalizing s with
  | nil => simp [stripPre]
  | cons a p ih =>
    simp only [List.mem_cons, not_or] at hp
    cases s with
    | nil =>
      have : a ≠ x := by
        rcases hx with rfl | rfl
        · exact fun h => hp.1.1 h.symm
        · exact fun h => hp.2.1 h.symm
      simp [stripPre, this]
    | cons c s =>
      simp only [List.cons_append, stripPre]
      split
      · exact ih ⟨hp.1.2, hp.2.2⟩
      · rfl

theorem firstRule_sep {rules : List (List Char × Tok)} {s X : List Char} (hX : SepHead X)
    (hr : ∀ p ∈ rules, '#' ∉ p.1 ∧ '\n' ∉ p.1) :
    firstRule rules (s ++ X) = (firstRule rules s).map fun q => (q.1, q.2 ++ X) := by
  unfold firstRule
  induction rules with
  | nil => rfl
  | cons p rules ih =>
    rw [List.findSome?_cons, List.findSome?_cons, stripPre_sep hX (hr p (by simp))]
    cases stripPre p.1 s with
    | none => simpa using ih fun q hq => hr q (by simp [hq])
    | some r => simp

theorem dropWhile_sep {p : Char → Bool} {s X : List Char} (hX : SepHead X) (h1 : p '#' = false)
    (h2 : p '\n' = false) : (s ++ X).dropWhile p = s.dropWhile p ++ X := by
  obtain ⟨x, X', rfl, hx⟩ := hX
  have hpx : p x = false := by rcases hx with rfl | rfl <;> assumption
  induction s with
  | nil => simp [List.dropWhile_cons, hpx]
  | cons c s ih =>
    simp only [List.cons_append, List.dropWhile_cons]
    split
    · exact ih
    · rfl

theorem takeWhile_sep {p : Char → Bool} {s X : List Char} (hX : SepHead X) (h1 : p '#' = false)
    (h2 : p '\n' = false) : (s ++ X).takeWhile p = s.takeWhile p := by
  obtain ⟨x, X', rfl, hx⟩ := hX
  have hpx : p x = false := by rcases hx with rfl | rfl <;> assumption
  induction s with
  | nil => simp [List.takeWhile_cons, hpx]
  | cons c s ih =>
    simp only [List.cons_append, List.takeWhile_cons]
    split
    · rw [ih]
    · rfl

theorem dropFraction_sep {s X : List Char} (hX : SepHead X) : dropFraction (s ++ X) = dropFraction s ++ X := by
  have hX0 := hX
  obtain ⟨x, X', rfl, hx⟩ := hX
  have hx1 : isDig x = false := by rcases hx with rfl | rfl <;> decide
  have hx2 : x ≠ '.' := by rcases hx with rfl | rfl <;> decide
  match s with
  | [] =>
    unfold dropFraction
    split
    · rename_i c cs h
      simp only [List.nil_append, List.cons.injEq] at h
      exact absurd h.1 hx2
    · simp
  | [c] =>
    by_cases hc : c = '.'
    · subst hc
      simp [dropFraction, hx1]
    · have e : ∀ l, dropFraction (c :: l) = c :: l := by
        intro l
        unfold dropFraction
        split
        · rename_i h; simp only [List.cons.injEq] at h; exact absurd h.1 hc
        · rfl
      rw [List.cons_append, e, e]; rfl
  | c :: d :: s =>
    by_cases hc : c = '.'
    · subst hc
      simp only [List.cons_append, dropFraction]
      split
      · exact dropWhile_sep hX0 (by decide) (by decide)
      · rfl
    · have e : ∀ l, dropFraction (c :: l) = c :: l := by
        intro l
        unfold dropFraction
        split
        · rename_i h; simp only [List.cons.injEq] at h; exact absurd h.1 hc
        · rfl
      rw [List.cons_append, e, e]; rfl

theorem symRules_sep (c : Char) : ∀ p ∈ symRules c, '#' ∉ p.1 ∧ '\n' ∉ p.1 := by
  unfold symRules
  split; · decide
  split; · decide
  split; · decide
  split; · decide
  split; · decide
  split; · decide
  simp

/-- One step of the scanner does not look past the beginning of a comment or the end of a line. -/
theorem lexOne_sep {b : Bool} {c : Char} {s X : List Char} (hX : SepHead X) (hc : c = '#' → '\n' ∈ s) :
    lexOne b c (s ++ X) = ((lexOne b c s).1, (lexOne b c s).2.1, (lexOne b c s).2.2 ++ X) := by
  have hsimple : lexSimple c (s ++ X) =
      ((lexSimple c s).1, (lexSimple c s).2.1, (lexSimple c s).2.2 ++ X) := by
    unfold lexSimple
    rw [dropWhile_sep (p := isBlank) hX (by decide) (by decide),
      dropWhile_sep (p := isIdChar) hX (by decide) (by decide),
      dropWhile_sep (p := isDig) hX (by decide) (by decide), dropFraction_sep hX,
      takeWhile_sep (p := isIdChar) hX (by decide) (by decide),
      takeWhile_sep (p := isDig) hX (by decide) (by decide)]
    by_cases h1 : c = '\n'
    · simp [h1]
    by_cases h2 : c = '#'
    · have hs := hc h2
      have hd : (s ++ X).dropWhile (· != '\n') = s.dropWhile (· != '\n') ++ X := by
        clear hc h1
        induction s with
        | nil => simp at hs
        | cons d s ih =>
          by_cases hd : d = '\n'
          · subst hd; simp
          · have : '\n' ∈ s := by
              rcases List.mem_cons.1 hs with h | h
              · exact absurd h.symm hd
              · exact h
            rw [List.cons_append, List.dropWhile_cons_of_pos (by simpa using hd),
              List.dropWhile_cons_of_pos (by simpa using hd), ih this]
      simp [h2, hs, hd]
    simp only [h1, h2, if_false]
    split
    · rfl
    split
    · rfl
    split <;> rfl
  have hplain : lexPlain c (s ++ X) = ((lexPlain c s).1, (lexPlain c s).2.1, (lexPlain c s).2.2 ++ X) := by
    have hr : symRest c (s ++ X) = symRest c s ++ X := by
      unfold symRest
      split
      · exact dropWhile_sep hX (by decide) (by decide)
      · rfl
    unfold lexPlain
    rw [hr, firstRule_sep hX (symRules_sep c)]
    cases firstRule (symRules c) (symRest c s) with
    | none => exact hsimple
    | some q => rfl
  unfold lexOne
  rw [hplain, ← List.cons_append, dropWhile_sep hX (by decide) (by decide), firstRule_sep hX (by decide)]
  cases b
  · rfl
  · cases firstRule headers ((c :: s).dropWhile isBlank) with
    | none => rfl
    | some q => rfl

end Gr1c
