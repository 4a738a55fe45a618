import Verif.CText
import Verif.Render
import Verif.Print
import Verif.PrintLemmas

/-!
# C43: `read_state_str` reads the leading integers of a text

`Numbers vs s` says, without mentioning the program: the text `s` consists of integers with the values
`vs`, each after optional white space, and of a rest that does not begin with an integer.
-/

namespace Gr1c

/-- The text of an integer: an optional sign and digits. -/
def IntText (w : List Char) (v : ℤ) : Prop :=
  ∃ ds : List Char, ds ≠ [] ∧ (∀ c ∈ ds, isDig c = true) ∧
    ((w = '-' :: ds ∧ v = -(Nat.ofDigits 10 (ds.reverse.map digitVal) : ℕ)) ∨
      ((w = ds ∨ w = '+' :: ds) ∧ v = (Nat.ofDigits 10 (ds.reverse.map digitVal) : ℕ)))

/-- All characters are white space. -/
def Spaces (s : List Char) : Prop := ∀ c ∈ s, isSpaceC c = true

/-- No integer at the beginning. -/
def NoNumber (s : List Char) : Prop := ∀ ws w v r, Spaces ws → IntText w v → s ≠ ws ++ (w ++ r)

/-- The leading integers of a text. -/
inductive Numbers : List ℤ → List Char → Prop
  | nil (s : List Char) : NoNumber s → Numbers [] s
  | cons (ws w : List Char) (v : ℤ) (vs : List ℤ) (s : List Char) : Spaces ws → IntText w v →
      (∀ c, s.head? = some c → isDig c = false) → Numbers vs s → Numbers (v :: vs) (ws ++ (w ++ s))

/-! ## `strtol` -/

theorem dig_not_space {c : Char} (h : isDig c = true) : isSpaceC c = false := by
  unfold isDig at h
  rw [show '0'.toNat = 48 from rfl, show '9'.toNat = 57 from rfl] at h
  simp only [Bool.and_eq_true, decide_eq_true_eq] at h
  by_contra hc
  simp only [isSpaceC, Bool.not_eq_false, Bool.or_eq_true, beq_iff_eq] at hc
  rcases hc with ((((h1 | h1) | h1) | h1) | h1) | h1
  · subst h1; exact absurd h (by decide)
  · subst h1; exact absurd h (by decide)
  · subst h1; exact absurd h (by decide)
  · subst h1; exact absurd h (by decide)
  · omega
  · omega

theorem splitSign_dig {c : Char} (h : isDig c = true) (s : List Char) : splitSign (c :: s) = (false, c :: s) := by
  have h1 : c ≠ '-' := by rintro rfl; exact absurd h (by decide)
  have h2 : c ≠ '+' := by rintro rfl; exact absurd h (by decide)
  rw [splitSign, if_neg h1, if_neg h2]

/-- `strtol` on a text that begins with an integer. -/
theorem strtol_int {ws w s : List Char} {v : ℤ} (hs : Spaces ws) (hw : IntText w v)
    (he : ∀ c, s.head? = some c → isDig c = false) : strtol (ws ++ (w ++ s)) = some (clampLong v, s) := by
  obtain ⟨ds, h1, h2, h3⟩ := hw
  have hd := dropWhile_head he
  have ht : (ds ++ s).takeWhile isDig = ds := by rw [takeWhile_append_all h2, hd.2, List.append_nil]
  have hdr : (ds ++ s).dropWhile isDig = s := by rw [dropWhile_append_all h2, hd.1]
  unfold strtol
  rw [dropWhile_append_all hs]
  obtain ⟨d, ds', rfl⟩ := List.exists_cons_of_ne_nil h1
  have hdd := h2 d (by simp)
  rcases h3 with ⟨rfl, rfl⟩ | ⟨rfl | rfl, rfl⟩
  · have : (splitSign (('-' :: d :: ds' ++ s).dropWhile isSpaceC)) = (true, (d :: ds') ++ s) := rfl
    simp only [this, ht, hdr, h1, if_false, if_true, digitsVal_eq]
  · have : (splitSign ((d :: ds' ++ s).dropWhile isSpaceC)) = (false, (d :: ds') ++ s) := by
      rw [List.cons_append, List.dropWhile_cons_of_neg (by simp [dig_not_space hdd]), splitSign_dig hdd]
    simp only [this, ht, hdr, h1, if_false, digitsVal_eq, Bool.false_eq_true]
  · have : (splitSign (('+' :: d :: ds' ++ s).dropWhile isSpaceC)) = (false, (d :: ds') ++ s) := rfl
    simp only [this, ht, hdr, h1, if_false, digitsVal_eq, Bool.false_eq_true]

theorem mem_takeWhile_true {p : Char → Bool} {l : List Char} {c : Char} (h : c ∈ l.takeWhile p) : p c = true := by
  induction l with
  | nil => simp at h
  | cons d l ih =>
    by_cases hd : p d = true
    · rw [List.takeWhile_cons_of_pos hd] at h
      rcases List.mem_cons.1 h with rfl | h
      · exact hd
      · exact ih h
    · rw [List.takeWhile_cons_of_neg hd] at h; simp at h

/-- What `strtol` converts is an integer at the beginning. -/
theorem strtol_some {s r : List Char} {v : ℤ} (h : strtol s = some (v, r)) :
    ∃ ws w v', s = ws ++ (w ++ r) ∧ Spaces ws ∧ IntText w v' ∧ v = clampLong v' ∧
      ∀ c, r.head? = some c → isDig c = false := by
  unfold strtol at h
  simp only at h
  split at h
  · simp at h
  · rename_i hd
    simp only [Option.some.injEq, Prod.mk.injEq] at h
    obtain ⟨h1, h2⟩ := h
    have hs : s = s.takeWhile isSpaceC ++ s.dropWhile isSpaceC := List.takeWhile_append_dropWhile.symm
    have hsp : Spaces (s.takeWhile isSpaceC) := fun c hc => mem_takeWhile_true hc
    generalize s.dropWhile isSpaceC = t at *
    have hall : ∀ c ∈ (splitSign t).2.takeWhile isDig, isDig c = true := fun c hc => mem_takeWhile_true hc
    have hr : ∀ c, r.head? = some c → isDig c = false := by
      intro c hc
      rw [← h2] at hc
      have := List.head?_dropWhile_not isDig (splitSign t).2
      rw [hc] at this
      simpa using this
    have hu : (splitSign t).2 = (splitSign t).2.takeWhile isDig ++ r := by
      conv_lhs => rw [← List.takeWhile_append_dropWhile (p := isDig) (l := (splitSign t).2), h2]
    rw [digitsVal_eq] at h1
    cases t with
    | nil => simp [splitSign] at hd
    | cons c t =>
      by_cases hm : c = '-'
      · subst hm
        have e : splitSign ('-' :: t) = (true, t) := rfl
        rw [e] at h1 h2 hd hall hu
        exact ⟨_, '-' :: t.takeWhile isDig, _, by rw [List.cons_append, ← hu]; exact hs, hsp,
          ⟨_, hd, hall, Or.inl ⟨rfl, rfl⟩⟩, by rw [← h1]; simp only [if_true, if_false, Bool.false_eq_true], hr⟩
      · by_cases hp : c = '+'
        · subst hp
          have e : splitSign ('+' :: t) = (false, t) := rfl
          rw [e] at h1 h2 hd hall hu
          exact ⟨_, '+' :: t.takeWhile isDig, _, by rw [List.cons_append, ← hu]; exact hs, hsp,
            ⟨_, hd, hall, Or.inr ⟨Or.inr rfl, rfl⟩⟩, by rw [← h1]; simp only [if_true, if_false, Bool.false_eq_true], hr⟩
        · have e : splitSign (c :: t) = (false, c :: t) := by rw [splitSign, if_neg hm, if_neg hp]
          rw [e] at h1 h2 hd hall hu
          exact ⟨_, (c :: t).takeWhile isDig, _, by rw [← hu]; exact hs, hsp,
            ⟨_, hd, hall, Or.inr ⟨Or.inl rfl, rfl⟩⟩, by rw [← h1]; simp only [if_true, if_false, Bool.false_eq_true], hr⟩

theorem strtol_none {s : List Char} : strtol s = none ↔ NoNumber s := by
  constructor
  · rintro h ws w v r hws ⟨ds, h1, h2, h3⟩ rfl
    -- extend the digits as far as possible
    have key : ∃ w' v', IntText w' v' ∧ w ++ r = w' ++ r.dropWhile isDig := by
      have hr : r = r.takeWhile isDig ++ r.dropWhile isDig := List.takeWhile_append_dropWhile.symm
      have hn : ds ++ r.takeWhile isDig ≠ [] := by simp [h1]
      have ha : ∀ c ∈ ds ++ r.takeWhile isDig, isDig c = true := by
        intro c hc
        rcases List.mem_append.1 hc with hc | hc
        · exact h2 c hc
        · exact mem_takeWhile_true hc
      rcases h3 with ⟨rfl, _⟩ | ⟨rfl | rfl, _⟩
      · refine ⟨'-' :: (ds ++ r.takeWhile isDig), _, ⟨_, hn, ha, Or.inl ⟨rfl, rfl⟩⟩, ?_⟩
        rw [List.cons_append, List.cons_append, List.append_assoc, ← hr]
      · refine ⟨w ++ r.takeWhile isDig, _, ⟨_, hn, ha, Or.inr ⟨Or.inl rfl, rfl⟩⟩, ?_⟩
        rw [List.append_assoc, ← hr]
      · refine ⟨'+' :: (ds ++ r.takeWhile isDig), _, ⟨_, hn, ha, Or.inr ⟨Or.inr rfl, rfl⟩⟩, ?_⟩
        rw [List.cons_append, List.cons_append, List.append_assoc, ← hr]
    obtain ⟨w', v', hw', e⟩ := key
    rw [e, strtol_int hws hw' fun c hc => by
      have := List.head?_dropWhile_not isDig r
      rw [hc] at this
      simpa using this] at h
    cases h
  · intro h
    cases hs : strtol s with
    | none => rfl
    | some x =>
      obtain ⟨ws, w, v', h1, h2, h3, _⟩ := strtol_some (v := x.1) (r := x.2) hs
      exact absurd h1 (h ws w v' x.2 h2 h3)

/-- Every text has leading integers in the sense of `Numbers`. -/
theorem numbers_exists (s : List Char) : ∃ vs, Numbers vs s := by
  induction hn : s.length using Nat.strong_induction_on generalizing s with
  | _ n ih =>
    cases h : strtol s with
    | none => exact ⟨[], .nil s (strtol_none.1 h)⟩
    | some x =>
      obtain ⟨v, r⟩ := x
      obtain ⟨ws, w, v', h1, h2, h3, _, h4⟩ := strtol_some h
      obtain ⟨vs, hvs⟩ := ih r.length (by rw [← hn]; exact strtol_length h) r rfl
      exact ⟨v' :: vs, h1 ▸ .cons ws w v' vs r h2 h3 h4 hvs⟩

/-! ## `read_state_str` -/

/-- What is stored for an integer: `strtol` saturates and the assignment narrows. -/
def stored (v : ℤ) : ℤ := toInt (clampLong v)

/-- Nothing changes in the range of `int`. -/
theorem stored_int {v : ℤ} (h : -2 ^ 31 ≤ v) (h' : v < 2 ^ 31) : stored v = v := by
  unfold stored toInt clampLong
  rw [min_eq_left (by omega), max_eq_right (by omega)]
  unfold Int.bmod
  simp only
  split <;> omega

theorem readStateLoop_numbers {vs : List ℤ} {s : List Char} (h : Numbers vs s) (k : ℕ) (max : Option ℕ) :
    readStateLoop max k s = ((match max with | none => vs | some m => vs.take (m - k)).map stored) := by
  induction h generalizing k with
  | nil s hs =>
    rw [readStateLoop]
    have := strtol_none.2 hs
    split
    · split
      · cases max <;> simp
      · rename_i h1; rw [this] at h1; cases h1
    · cases max <;> simp
  | cons ws w v vs s h1 h2 h3 _ ih =>
    have hst := strtol_int h1 h2 h3
    have hne : ws ++ (w ++ s) ≠ [] := by
      obtain ⟨ds, h, _, h'⟩ := h2
      rcases h' with ⟨rfl, _⟩ | ⟨rfl | rfl, _⟩ <;> simp [h]
    rw [readStateLoop]
    cases max with
    | none =>
      rw [if_pos ⟨Or.inl rfl, hne⟩]
      split
      · rename_i h; rw [hst] at h; cases h
      · rename_i h; rw [hst] at h; cases h
        rw [ih]; rfl
    | some m =>
      by_cases hk : k < m
      · rw [if_pos ⟨Or.inr ⟨m, rfl, hk⟩, hne⟩]
        split
        · rename_i h; rw [hst] at h; cases h
        · rename_i h; rw [hst] at h; cases h
          rw [ih]; simp only []; rw [show m - k = (m - (k + 1)) + 1 by omega]; rfl
      · rw [if_neg (by
          rintro ⟨h | ⟨a, ha, h⟩, _⟩
          · cases h
          · cases ha; exact hk h)]
        simp only []; rw [show m - k = 0 by omega]
        rfl

/-- **C43.** `read_state_str` gives the leading integers of the text: all of them if `max_len < 0`,
otherwise the first `max_len`. -/
theorem read_state_str_exact {vs : List ℤ} {s : List Char} (h : Numbers vs s) (maxLen : ℤ) :
    readStateStr s maxLen = (if maxLen < 0 then vs else vs.take maxLen.toNat).map stored := by
  unfold readStateStr
  split
  · rename_i h1
    rcases h1 with rfl | rfl
    · simp
    · cases h' : vs with
      | nil => simp
      | cons v vs =>
        rw [h'] at h
        generalize hs : ([] : List Char) = s at h
        cases h with
        | cons ws w v vs s h1 h2 h3 h4 =>
          obtain ⟨ds, h, _, h'⟩ := h2
          rcases h' with ⟨rfl, _⟩ | ⟨rfl | rfl, _⟩ <;> simp [h] at hs
  · rw [readStateLoop_numbers h]
    by_cases hm : maxLen < 0
    · rw [if_pos hm, if_pos hm]
    · rw [if_neg hm, if_neg hm]; rfl

/-! Texts printed by `%d` are integers. -/

theorem intText_printInt (v : ℤ) : IntText (printInt v) v := by
  unfold printInt
  split
  · refine ⟨_, decimal_ne_nil _, decimal_digits _, Or.inl ⟨rfl, ?_⟩⟩
    rw [decimal_value]; omega
  · refine ⟨_, decimal_ne_nil _, decimal_digits _, Or.inr ⟨Or.inl rfl, ?_⟩⟩
    rw [decimal_value]; omega

/-- Values of different length and sign, a double blank, and text that is not a number. -/
example : Numbers [0, -12, 7] " 0  -12 +7,1".toList := by
  refine .cons [' '] ['0'] 0 _ _ (by unfold Spaces; decide) ⟨['0'], by decide, by decide, Or.inr ⟨Or.inl rfl, by decide⟩⟩ (by decide)
    (.cons [' ', ' '] ['-', '1', '2'] (-12) _ _ (by unfold Spaces; decide) ⟨['1', '2'], by decide, by decide, Or.inl ⟨rfl, by decide⟩⟩ (by decide)
    (.cons [' '] ['+', '7'] 7 _ _ (by unfold Spaces; decide) ⟨['7'], by decide, by decide, Or.inr ⟨Or.inr rfl, by decide⟩⟩ (by decide)
    (.nil _ ?_)))
  exact strtol_none.1 (by decide +kernel)

example : readStateStr " 0  -12 +7,1".toList 2 = [0, -12] := by decide +kernel
example : readStateStr " 0  -12 +7,1".toList (-1) = [0, -12, 7] := by decide +kernel

end Gr1c
