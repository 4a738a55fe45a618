import Verif.ScanLemmas

/-!
# Texts of tokens

The decimal text of a number reads back as that number, and every sequence of tokens has a text: one
token per line.
-/

namespace Gr1c

/-! ## Decimal numbers -/

theorem digitVal_digitChar {n : ℕ} (h : n < 10) : digitVal n.digitChar = n :=
  Nat.toNat_digitChar_sub_48_of_lt_ten h

theorem isDig_digitChar {n : ℕ} (h : n < 10) : isDig n.digitChar = true := by
  have := Nat.toNat_digitChar_of_lt_ten h
  have h0 : '0'.toNat = 48 := rfl
  have h9 : '9'.toNat = 57 := rfl
  simp only [isDig, this, h0, h9, Bool.and_eq_true, decide_eq_true_eq]
  omega

theorem decimal_ne_nil (v : ℕ) : decimal v ≠ [] := Nat.toDigits_ne_nil

/-- A decimal text consists of digits. -/
theorem decimal_digits (v : ℕ) : ∀ c ∈ decimal v, isDig c = true := by
  induction v using Nat.strong_induction_on with
  | _ v ih =>
    intro c hc
    unfold decimal at hc
    rw [Nat.toDigits_eq_if (by omega)] at hc
    split at hc
    · rename_i h
      simp only [List.mem_cons, List.not_mem_nil, or_false] at hc
      subst hc; exact isDig_digitChar h
    · rename_i h
      rcases List.mem_append.1 hc with hc | hc
      · exact ih (v / 10) (by omega) c hc
      · simp only [List.mem_cons, List.not_mem_nil, or_false] at hc
        subst hc; exact isDig_digitChar (Nat.mod_lt _ (by omega))

/-- A decimal text reads back as the number. -/
theorem decimal_value (v : ℕ) : Nat.ofDigits 10 ((decimal v).reverse.map digitVal) = v := by
  induction v using Nat.strong_induction_on with
  | _ v ih =>
    unfold decimal
    rw [Nat.toDigits_eq_if (by omega)]
    split
    · rename_i h
      simp [Nat.ofDigits, digitVal_digitChar h]
    · rename_i h
      have := ih (v / 10) (by omega)
      unfold decimal at this
      rw [List.reverse_append, List.map_append, List.reverse_singleton, List.map_singleton,
        List.singleton_append, Nat.ofDigits_cons, this, digitVal_digitChar (Nat.mod_lt _ (by omega))]
      simpa [Nat.add_comm] using Nat.mod_add_div v 10

/-- A decimal text spells the number. -/
theorem spells_decimal (v : ℕ) : Spells (.num v) (decimal v) := by
  have h := Spells.num (decimal v) [] (decimal_ne_nil v) (decimal_digits v) (Or.inl rfl)
  rwa [decimal_value, List.append_nil] at h

/-! ## One token per line -/

/-- A text of a token. -/
def tokText : Tok → List Char
  | .andLive => ['&', '[', ']', '<', '>'] | .andSafe => ['&', '[', ']'] | .live => ['[', ']', '<', '>']
  | .safe => ['[', ']'] | .ev => ['<', '>'] | .le => ['<', '='] | .ge => ['>', '='] | .ne => ['!', '=']
  | .equiv => ['<', '-', '>'] | .implies => ['-', '>'] | .chr c => [c]
  | .tt => ['T', 'r', 'u', 'e'] | .ff => ['F', 'a', 'l', 's', 'e']
  | .evars => "ENV:".toList | .svars => "SYS:".toList | .einit => "ENVINIT:".toList
  | .etrans => "ENVTRANS:".toList | .egoal => "ENVGOAL:".toList | .sinit => "SYSINIT:".toList
  | .strans => "SYSTRANS:".toList | .sgoal => "SYSGOAL:".toList
  | .ident n => n | .num v => decimal v

/-- Tokens that can be written down: symbols are symbols of the language and names are names. -/
def Writable : Tok → Prop
  | .chr c => c ∈ singleSymbols
  | .ident n => IsIdent n ∧ n ≠ ['T', 'r', 'u', 'e'] ∧ n ≠ ['F', 'a', 'l', 's', 'e']
  | _ => True

instance decIsIdent (w : List Char) : Decidable (IsIdent w) :=
  match w with
  | [] => isFalse (by rintro ⟨c, cs, h, -⟩; cases h)
  | c :: cs =>
    if h : isIdStart c = true ∧ ∀ d ∈ cs, isIdChar d = true then isTrue ⟨c, cs, rfl, h.1, h.2⟩
    else isFalse (by rintro ⟨c', cs', h', h1, h2⟩; cases h'; exact h ⟨h1, h2⟩)

instance decWritable (t : Tok) : Decidable (Writable t) :=
  match t with
  | .chr c => inferInstanceAs (Decidable (c ∈ singleSymbols))
  | .ident n => inferInstanceAs (Decidable (_ ∧ _))
  | .andLive | .andSafe | .live | .safe | .ev | .le | .ge | .ne | .equiv | .implies | .tt | .ff | .evars
  | .svars | .einit | .etrans | .egoal | .sinit | .strans | .sgoal | .num _ => isTrue trivial

/-- The text with one token per line. -/
def lines (ts : List Tok) : List Char := ts.flatMap fun t => tokText t ++ ['\n']

theorem stops_newline (t : Tok) (s : List Char) : Stops t ('\n' :: s) := by
  cases t <;> simp only [Stops]
  case chr c => split_ifs <;> simp
  case tt | ff | ident => intro c hc; simp only [List.head?_cons, Option.some.injEq] at hc; subst hc; decide
  case num => intro c hc; simp only [List.head?_cons, Option.some.injEq] at hc; subst hc; decide
  all_goals simp

theorem spells_tokText {t : Tok} (h : Writable t) :
    Spells t (tokText t) ∨ ∃ w : String, (t, w) ∈ sectionNames ∧ tokText t = w.toList := by
  cases t with
  | andLive => exact Or.inl (.andLive [] (by simp))
  | andSafe => exact Or.inl (.andSafe [] (by simp))
  | live | safe | ev | le | ge | ne | equiv | implies => exact Or.inl (.fixed _ _ (by decide))
  | chr c => exact Or.inl (.sym c h)
  | tt => exact Or.inl .tt
  | ff => exact Or.inl .ff
  | ident n => exact Or.inl (.ident n h.1 h.2.1 h.2.2)
  | num v => exact Or.inl (spells_decimal v)
  | evars | svars | einit | etrans | egoal | sinit | strans | sgoal =>
    exact Or.inr ⟨_, by decide, rfl⟩

/-- Every sequence of tokens has a text. -/
theorem lines_layout (ts : List Tok) (h : ∀ t ∈ ts, Writable t) : Layout true ts (lines ts) := by
  induction ts with
  | nil => exact .done true
  | cons t ts ih =>
    have ih' := Layout.newline false ts _ (ih fun t' h' => h t' (by simp [h']))
    have e : lines (t :: ts) = tokText t ++ '\n' :: lines ts := by simp [lines]
    rw [e]
    rcases spells_tokText (h t (by simp)) with h1 | ⟨w, h1, h2⟩
    · exact .tok true t _ h1 _ _ (stops_newline t _) ih'
    · rw [h2]
      exact .header [] (by simp) t w h1 _ _ ih'

end Gr1c
