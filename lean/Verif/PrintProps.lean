import Verif.PrintLemmas
import Verif.ScanProps

/-!
# C19: printed formulas read back
-/

namespace Gr1c

open PTree

/-! ## Names that the scanner delivers -/

theorem symRules_noident (c : Char) : ∀ p ∈ symRules c, ∀ n, p.2 ≠ .ident n := by
  intro p hp n
  unfold symRules at hp
  rintro h
  obtain ⟨w, t⟩ := p
  simp only at h
  subst h
  split_ifs at hp <;> simp at hp

theorem headers_noident : ∀ p ∈ headers, ∀ n, p.2 ≠ .ident n := by
  intro p hp n
  simp only [headers, List.mem_cons, List.not_mem_nil, or_false] at hp
  rcases hp with rfl | rfl | rfl | rfl | rfl | rfl | rfl | rfl <;> simp

theorem lexSimple_ident {c : Char} {cs : List Char} {n : Name} (h : (lexSimple c cs).1 = some (.ident n)) :
    Writable (.ident n) := by
  unfold lexSimple at h
  by_cases h1 : c = '\n'
  · simp [h1] at h
  by_cases h2 : c = '#'
  · rw [if_neg h1, if_pos h2] at h
    split_ifs at h <;> simp at h
  by_cases h3 : isBlank c = true
  · simp [h1, h2, h3] at h
  by_cases h5 : isIdStart c = true
  · rw [if_neg h1, if_neg h2, if_neg h3, if_pos h5] at h
    simp only [wordTok, Option.some.injEq] at h
    split_ifs at h with h7 h8
    simp only [Tok.ident.injEq] at h
    subst h
    refine ⟨⟨c, _, rfl, h5, ?_⟩, h7, h8⟩
    intro d hd
    have := List.all_takeWhile (p := isIdChar) (l := cs)
    exact List.all_eq_true.1 this d hd
  · rw [if_neg h1, if_neg h2, if_neg h3, if_neg h5] at h
    split_ifs at h <;> simp at h

theorem lexOne_ident {b : Bool} {c : Char} {cs : List Char} {n : Name}
    (h : (lexOne b c cs).1 = some (.ident n)) : Writable (.ident n) := by
  have plain : (lexPlain c cs).1 = some (.ident n) → Writable (.ident n) := by
    intro h
    unfold lexPlain at h
    split at h
    · rename_i t r h1
      obtain ⟨w, h2, -⟩ := firstRule_spec h1
      simp only [Option.some.injEq] at h
      exact absurd h (symRules_noident c _ h2 n)
    · exact lexSimple_ident h
  unfold lexOne at h
  split at h
  · split at h
    · rename_i t r h1
      obtain ⟨w, h2, -⟩ := firstRule_spec h1
      simp only [Option.some.injEq] at h
      exact absurd h (headers_noident _ h2 n)
    · exact plain h
  · exact plain h

/-- The names that the scanner delivers are names. -/
theorem lex_ident : ∀ (m : ℕ) (b : Bool) (s : List Char), s.length ≤ m → ∀ n, .ident n ∈ lex b s →
    Writable (.ident n) := by
  intro m
  induction m with
  | zero =>
    intro b s hs n hn
    have : s = [] := List.length_eq_zero_iff.1 (by omega)
    subst this
    rw [lex] at hn; cases hn
  | succ m ih =>
    intro b s hs n hn
    cases s with
    | nil => rw [lex] at hn; cases hn
    | cons c cs =>
      rw [lex_cons] at hn
      rcases List.mem_append.1 hn with hn | hn
      · exact lexOne_ident (b := b) (c := c) (cs := cs) (by simpa using hn)
      · refine ih _ _ ?_ n hn
        have := lexOne_le b c cs
        simp only [List.length_cons] at hs
        omega

theorem gram_parsable {primes : Bool} {k : ℕ} {ts : List Tok} {f : Fm} (h : Gram primes k ts f) :
    (∀ n, .ident n ∈ ts → Writable (.ident n)) → Parsable primes f := by
  induction h with
  | tt => intro _; exact Or.inr rfl
  | ff => intro _; exact Or.inl rfl
  | var nx n h => intro hw; exact ⟨hw n (by simp), h⟩
  | cmp op nx n k h => intro hw; exact ⟨hw n (by simp), h, by omega⟩
  | neg h ih => intro hw; exact ih fun n hn => hw n (by simp [hn])
  | paren h ih => intro hw; exact ih fun n hn => hw n (by simp [hn])
  | up hk h ih => exact ih
  | and h1 h2 ih1 ih2 | or h1 h2 ih1 ih2 | imp h1 h2 ih1 ih2 | equiv h1 h2 ih1 ih2 =>
    intro hw
    exact ⟨ih1 fun n hn => hw n (by simp [hn]), ih2 fun n hn => hw n (by simp [hn])⟩

/-! ## C19 -/

theorem layout_bol {ts : List Tok} {s : List Char} (h : Layout false ts s) : Layout true ts s := by
  generalize hb : false = b at h
  cases h with
  | done => exact .done true
  | blank b c ts s h hl => exact .blank true c _ _ h hl
  | newline b ts s hl => exact .newline true _ _ hl
  | comment b w ts s h hl => exact .comment true w _ _ h hl
  | header => cases hb
  | tok b t w hw ts s hs hl => exact .tok true t w hw _ _ hs hl

/-- The tokens of a printed formula. -/
theorem print_lex {primes : Bool} {f : Fm} (hp : Parsable primes f) :
    lexFile (printFormula false f.toTree) = f.toks := by
  have h := print_layout hp (ts := []) (s := []) (by simp [Closes]) (.done false)
  rw [List.append_nil, List.append_nil] at h
  exact layout_scanned (layout_bol h)

/-- **C19** for formulas: a printed formula is read as the same formula, or rejected if some connective
joins a variable and a constant. -/
theorem print_parse_fm {primes : Bool} {f : Fm} (hp : Parsable primes f) :
    parseFormula primes .nil (lexFile (printFormula false f.toTree)) =
      if NoBareConst f then some f.toTree else none := by
  rw [print_lex hp]
  split
  · rename_i hb
    exact parse_complete (Gram.lower (print_gram hp hb)).2.2
  · rename_i hb
    cases h : parseFormula primes .nil f.toks with
    | none => rfl
    | some t =>
      exfalso
      obtain ⟨g, hg, -⟩ := parse_sound h
      have h1 := gram_sealed hg []
      have h2 := print_sealed hp []
      rw [h1, decide_eq_false hb] at h2
      simp [numsOk] at h2

/-- **C19**, as far as it holds: take any text that the parser accepts as a formula, and print the
resulting tree. Scanning and parsing the printed text yields the same tree, hence the same meaning in every state,
unless a connective of the formula joins a variable and one of the constants True and False; in that case the
printed text is a syntax error. What is missing is exactly that case, in which C19 is false
(`print_not_parsed`). -/
theorem print_parse_partial {primes : Bool} {text : List Char} {t : PTree}
    (h : parseFormula primes .nil (lexFile text) = some t) :
    ∃ f : Fm, t = f.toTree ∧
      (NoBareConst f → parseFormula primes .nil (lexFile (printFormula false t)) = some t) ∧
      (¬ NoBareConst f → parseFormula primes .nil (lexFile (printFormula false t)) = none) := by
  obtain ⟨f, hf, rfl⟩ := parse_sound h
  have hp := gram_parsable hf fun n hn => lex_ident _ true text (Nat.le_refl _) n hn
  refine ⟨f, rfl, ?_, ?_⟩ <;> intro hb
  · rw [print_parse_fm hp, if_pos hb]
  · rw [print_parse_fm hp, if_neg hb]

/-- C19 is false: `a & True` is accepted, printed as `(a&1)`, and that is rejected. -/
theorem print_not_parsed :
    ∃ t, parseFormula false .nil (lexFile "a & True".toList) = some t ∧
      printFormula false t = "(a&1)".toList ∧
      parseFormula false .nil (lexFile (printFormula false t)) = none := by
  refine ⟨(Fm.and (.var false ['a']) (.const 1)).toTree, by decide +kernel, by decide +kernel, by decide +kernel⟩

/-- A formula with all kinds of nodes, its printed text, and the text read back. -/
def printEx : Fm :=
  .equiv (.imp (.or (.neg (.var false ['a'])) (.cmp .ge true ['x'] 12)) (.and (.var true ['b']) (.cmp .ne false ['x'] 0)))
    (.neg (.const 0))

example : parseFormula true .nil (lexFile "!a | x' >= 12 -> (b' & x != 0) <-> !False".toList) = some printEx.toTree ∧
    printFormula false printEx.toTree = "((((!a)|(x'>=12))->(b'&(x!=0)))<->(!False))".toList ∧
    parseFormula true .nil (lexFile (printFormula false printEx.toTree)) = some printEx.toTree ∧
    NoBareConst printEx := by
  decide +kernel

end Gr1c
