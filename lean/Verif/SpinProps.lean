import Verif.SpinSpec
import Verif.PrintProps

/-!
# C20: formulas printed for Spin have the meaning of the formula
-/

namespace Gr1c

open PTree

/-! ## The reader -/

theorem read_mono (n : ℕ) :
    (∀ k s x, readLev n k s = some x → readLev (n + 1) k s = some x) ∧
    (∀ k e s x, readMore n k e s = some x → readMore (n + 1) k e s = some x) := by
  induction n with
  | zero => constructor <;> intros <;> simp_all [readLev, readMore]
  | succ n ih =>
    constructor
    · intro k s x h
      unfold readLev at h ⊢
      by_cases hk : k < 4
      · rw [if_pos hk] at h ⊢
        cases h1 : readLev n (k + 1) s with
        | none => rw [h1] at h; cases h
        | some p =>
          obtain ⟨e, r⟩ := p
          rw [h1] at h
          rw [ih.1 _ _ _ h1]
          exact ih.2 _ _ _ _ h
      · rw [if_neg hk] at h ⊢
        split at h
        · rename_i s
          cases h1 : readLev n 4 s with
          | none => rw [h1] at h; cases h
          | some p => rw [h1] at h; simp only [ih.1 _ _ _ h1]; exact h
        · rename_i s
          cases h1 : readLev n 0 s with
          | none => rw [h1] at h; cases h
          | some p => rw [h1] at h; simp only [ih.1 _ _ _ h1]; exact h
        · exact h
        · cases h
    · intro k e s x h
      unfold readMore at h ⊢
      split
      · rename_i h1; simp only [h1] at h; exact h
      · rename_i op s' h1
        simp only [h1] at h
        cases h2 : readLev n (k + 1) s' with
        | none => rw [h2] at h; cases h
        | some p =>
          rw [h2] at h
          simp only [ih.1 _ _ _ h2]
          exact ih.2 _ _ _ _ h

theorem read_mono_le {n m k : ℕ} {s : List Char} {x : SExp × List Char} (h : n ≤ m) (h1 : readLev n k s = some x) :
    readLev m k s = some x := by
  induction h with
  | refl => exact h1
  | step _ ih => exact (read_mono _).1 _ _ _ ih

/-- A text is at most one expression. -/
theorem isSpin_unique {s : List Char} {e e' : SExp} (h : IsSpin s e) (h' : IsSpin s e') : e = e' := by
  obtain ⟨n, h⟩ := h
  obtain ⟨m, h'⟩ := h'
  have h1 := read_mono_le (Nat.le_max_left n m) h
  have h2 := read_mono_le (Nat.le_max_right n m) h'
  rw [h1] at h2
  simpa using h2

/-- Reading with enough effort. -/
def RdLev (k : ℕ) (s : List Char) (e : SExp) (r : List Char) : Prop := ∃ n, readLev n k s = some (e, r)

theorem rd_up {k : ℕ} {s r : List Char} {e : SExp} (hk : k < 4) (h : RdLev (k + 1) s e r) (hs : sopAt k r = none) :
    RdLev k s e r := by
  obtain ⟨n, h⟩ := h
  refine ⟨n + 2, ?_⟩
  unfold readLev
  rw [if_pos hk, read_mono_le (Nat.le_succ n) h]
  simp only
  unfold readMore
  rw [hs]

theorem rd_op {k : ℕ} {s r1 r2 r3 : List Char} {e1 e2 : SExp} {op : SOp} (hk : k < 4)
    (h1 : RdLev (k + 1) s e1 r1) (ho : sopAt k r1 = some (op, r2)) (h2 : RdLev (k + 1) r2 e2 r3)
    (hs : sopAt k r3 = none) : RdLev k s (.bin op e1 e2) r3 := by
  obtain ⟨n, h1⟩ := h1
  obtain ⟨m, h2⟩ := h2
  refine ⟨max n m + 3, ?_⟩
  unfold readLev
  rw [if_pos hk, read_mono_le (by omega : n ≤ max n m + 2) h1]
  simp only
  unfold readMore
  rw [ho]
  simp only
  rw [read_mono_le (by omega : m ≤ max n m + 1) h2]
  simp only
  unfold readMore
  rw [hs]

theorem rd_paren {s r : List Char} {e : SExp} (h : RdLev 0 s e (')' :: r)) : RdLev 4 ('(' :: s) e r := by
  obtain ⟨n, h⟩ := h
  exact ⟨n + 1, by unfold readLev; rw [if_neg (by omega)]; simp only [h]⟩

theorem rd_not {s r : List Char} {e : SExp} (h : RdLev 4 s e r) : RdLev 4 ('!' :: s) (.not e) r := by
  obtain ⟨n, h⟩ := h
  exact ⟨n + 1, by unfold readLev; rw [if_neg (by omega)]; simp only [h]⟩

/-- The text does not continue a word. -/
def WordEnd (s : List Char) : Prop := ∀ c, s.head? = some c → isWordChar c = false

theorem wordEnd_cons {c : Char} (h : isWordChar c = false) (s : List Char) : WordEnd (c :: s) := by
  intro d hd; simp only [List.head?_cons, Option.some.injEq] at hd; subst hd; exact h

theorem rd_word {c : Char} {cs s : List Char} (hc : isIdStart c = true) (hcs : ∀ d ∈ cs, isWordChar d = true)
    (hs : WordEnd s) : RdLev 4 (c :: cs ++ s) (wordExp (c :: cs)) s := by
  refine ⟨1, ?_⟩
  have h1 : c ≠ '!' := by rintro rfl; revert hc; decide
  have h2 : c ≠ '(' := by rintro rfl; revert hc; decide
  unfold readLev
  rw [if_neg (by omega), List.cons_append]
  split
  · rename_i h; cases h; exact absurd rfl h1
  · rename_i h; cases h; exact absurd rfl h2
  · rename_i h
    cases h
    rw [if_pos hc, dropWhile_append_all hcs, takeWhile_append_all hcs]
    rw [(dropWhile_head hs).2, (dropWhile_head hs).1, List.append_nil]
  · rename_i h; cases h

theorem rd_num {v : ℕ} {s : List Char} (hs : WordEnd s) : RdLev 4 (decimal v ++ s) (.num v) s := by
  refine ⟨1, ?_⟩
  have hv := decimal_value v
  have hd := decimal_digits v
  have hne := decimal_ne_nil v
  revert hv hd hne
  generalize decimal v = ds
  intro hv hd hne
  cases ds with
  | nil => exact absurd rfl hne
  | cons c cs =>
    have hc := hd c (by simp)
    have h1 : c ≠ '!' := by rintro rfl; revert hc; decide
    have h2 : c ≠ '(' := by rintro rfl; revert hc; decide
    have h3 : isIdStart c = false := by
      have := hc
      simp only [isDig, isIdStart, Bool.and_eq_true, decide_eq_true_eq] at this ⊢
      have e0 : '0'.toNat = 48 := rfl
      have e9 : '9'.toNat = 57 := rfl
      have ea : 'a'.toNat = 97 := rfl
      have eA : 'A'.toNat = 65 := rfl
      have h4 : c ≠ '_' := by rintro rfl; revert hc; decide
      simp only [Bool.or_eq_false_iff, Bool.and_eq_false_iff, decide_eq_false_iff_not, beq_eq_false_iff_ne]
      refine ⟨⟨Or.inl (by omega), Or.inl (by omega)⟩, h4⟩
    have hcs : ∀ d ∈ cs, isDig d = true := fun d hd' => hd d (by simp [hd'])
    have hse : ∀ d, s.head? = some d → isDig d = false := by
      intro d hd
      have := hs d hd
      simp only [isWordChar, Bool.or_eq_false_iff] at this
      exact this.2
    unfold readLev
    rw [if_neg (by omega), List.cons_append]
    split
    · rename_i h; cases h; exact absurd rfl h1
    · rename_i h; cases h; exact absurd rfl h2
    · rename_i h
      cases h
      rw [if_neg (by simp [h3]), if_pos hc, dropWhile_append_all hcs, takeWhile_append_all hcs]
      rw [(dropWhile_head hse).2, (dropWhile_head hse).1, List.append_nil, hv]
    · rename_i h; cases h

/-! ## Printed formulas -/

/-- The names of a formula are Spin names. -/
def SpinNames (f : Fm) : Prop := ∀ x ∈ f.bvars ++ f.zvars, IsSpinName x.2

/-- The Spin variables have the values of the formula's variables, unprimed and primed. -/
def SpinAgrees (ρ : Env) (σ : Name → ℤ) (f : Fm) : Prop :=
  (∀ x ∈ f.bvars, σ (spinName x.1 x.2) = if ρ.b x.1 x.2 then 1 else 0) ∧
  (∀ x ∈ f.zvars, σ (spinName x.1 x.2) = ρ.z x.1 x.2)

/-- The expression means the formula. -/
def Means (e : SExp) (f : Fm) : Prop := ∀ ρ σ, SpinAgrees ρ σ f → (e.val σ ≠ 0 ↔ f.eval ρ = true)

theorem close_noop (k : ℕ) (s : List Char) : sopAt k (')' :: s) = none := by
  unfold sopAt; split <;> simp_all

/-- Text of an operand. -/
def IsOperand (w : List Char) (e : SExp) : Prop := ∀ s, WordEnd s → RdLev 4 (w ++ s) e s

/-- Operators: their level and text. -/
inductive OpAt : ℕ → SOp → List Char → Prop
  | or : OpAt 0 .or ['|', '|']
  | and : OpAt 1 .and ['&', '&']
  | eq : OpAt 2 .eq ['=', '=']
  | ne : OpAt 2 .ne ['!', '=']
  | le : OpAt 3 .le ['<', '=']
  | ge : OpAt 3 .ge ['>', '=']
  | lt : OpAt 3 .lt ['<']
  | gt : OpAt 3 .gt ['>']

theorem opAt_end {k : ℕ} {op : SOp} {w : List Char} (h : OpAt k op w) (s : List Char) : WordEnd (w ++ s) := by
  cases h <;> exact wordEnd_cons (by decide) _

theorem opAt_lt {k : ℕ} {op : SOp} {w : List Char} (h : OpAt k op w) : k < 4 := by
  cases h <;> omega

theorem opAt_here {k : ℕ} {op : SOp} {w s : List Char} (h : OpAt k op w) (hs : s.head? ≠ some '=') :
    sopAt k (w ++ s) = some (op, s) := by
  cases h with
  | lt | gt =>
    cases s with
    | nil => rfl
    | cons c s =>
      simp only [List.head?_cons, ne_eq, Option.some.injEq] at hs
      simp only [List.cons_append, List.nil_append, sopAt]
      split <;> simp_all [sopAt]
  | _ => rfl

theorem opAt_above {k j : ℕ} {op : SOp} {w s : List Char} (h : OpAt k op w) (hj : k < j) (hs : s.head? ≠ some '=') :
    sopAt j (w ++ s) = none := by
  cases h <;> simp only [List.cons_append, List.nil_append, sopAt] <;> split <;> simp_all <;> omega

theorem rd_climb {j : ℕ} (d : ℕ) {s r : List Char} {e : SExp} (hj : j + d ≤ 4) (h : RdLev (j + d) s e r)
    (hs : ∀ i, j ≤ i → i < j + d → sopAt i r = none) : RdLev j s e r := by
  induction d with
  | zero => exact h
  | succ d ih =>
    refine ih (by omega) (rd_up (by omega) h (hs _ (by omega) (by omega))) fun i h1 h2 => hs i h1 (by omega)

/-- Two operands with an operator between them, in parentheses. -/
theorem rd_bin {k : ℕ} {op : SOp} {w a b : List Char} {e1 e2 : SExp} (h : OpAt k op w) (ha : IsOperand a e1)
    (hb : IsOperand b e2) (hh : ∀ s, (b ++ s).head? ≠ some '=') :
    IsOperand ('(' :: (a ++ (w ++ (b ++ [')'])))) (.bin op e1 e2) := by
  intro s hs
  have hk := opAt_lt h
  have h1 := ha (w ++ (b ++ ')' :: s)) (opAt_end h _)
  have h2 := hb (')' :: s) (wordEnd_cons (by decide) _)
  have h1' : RdLev (k + 1) (a ++ (w ++ (b ++ ')' :: s))) e1 (w ++ (b ++ ')' :: s)) := by
    refine rd_climb (3 - k) (by omega) ?_ ?_
    · have : k + 1 + (3 - k) = 4 := by omega
      rw [this]; exact h1
    · intro i hi _; exact opAt_above h (by omega) (hh _)
  have h2' : RdLev (k + 1) (b ++ ')' :: s) e2 (')' :: s) := by
    refine rd_climb (3 - k) (by omega) ?_ fun i _ _ => close_noop _ _
    have : k + 1 + (3 - k) = 4 := by omega
    rw [this]; exact h2
  have h3 := rd_op hk h1' (opAt_here h (hh _)) h2' (close_noop _ _)
  have h4 : RdLev 0 (a ++ (w ++ (b ++ ')' :: s))) (.bin op e1 e2) (')' :: s) := by
    refine rd_climb k (by omega) ?_ fun i _ _ => close_noop _ _
    rw [Nat.zero_add]; exact h3
  have := rd_paren h4
  simpa using this

theorem isOperand_not {w : List Char} {e : SExp} (h : IsOperand w e) : IsOperand ('!' :: w) (.not e) :=
  fun s hs => rd_not (h s hs)

theorem isOperand_paren {w : List Char} {e : SExp} (h : IsOperand w e) : IsOperand ('(' :: (w ++ [')'])) e := by
  intro s hs
  have h1 : RdLev 0 (w ++ ')' :: s) e (')' :: s) :=
    rd_climb 4 (by omega) (h (')' :: s) (wordEnd_cons (by decide) _)) fun i _ _ => close_noop _ _
  simpa using rd_paren h1

theorem isOperand_name (nx : Bool) {n : Name} (h : IsSpinName n) :
    IsOperand (nameText true nx n) (.name (spinName nx n)) := by
  intro s hs
  obtain ⟨c, cs, rfl, h1, h2, h3, h4⟩ := h
  cases nx with
  | false =>
    have := rd_word h1 h2 hs
    have e : wordExp (c :: cs) = .name (c :: cs) := by rw [wordExp, if_neg h3, if_neg h4]
    rw [e] at this
    simpa [nameText, spinName] using this
  | true =>
    have h5 : ∀ d ∈ cs ++ "_next".toList, isWordChar d = true := by
      intro d hd
      rcases List.mem_append.1 hd with hd | hd
      · exact h2 d hd
      · have : ∀ d ∈ "_next".toList, isWordChar d = true := by decide
        exact this d hd
    have := rd_word h1 h5 hs
    have e : wordExp (c :: (cs ++ "_next".toList)) = .name (c :: (cs ++ "_next".toList)) := by
      rw [wordExp, if_neg, if_neg]
      · intro h
        have := congrArg List.getLast? h
        have e1 : "_next".toList.getLast? = some 't' := by decide
        rw [← List.cons_append, List.getLast?_append, e1, Option.some_or] at this
        revert this; decide
      · intro h
        have := congrArg List.getLast? h
        have e1 : "_next".toList.getLast? = some 't' := by decide
        rw [← List.cons_append, List.getLast?_append, e1, Option.some_or] at this
        revert this; decide
    rw [e] at this
    simpa [nameText, spinName] using this

theorem isOperand_num (v : ℕ) : IsOperand (decimal v) (.num v) := fun _ hs => rd_num hs

theorem isOperand_const {v : ℤ} (h : v = 0 ∨ v = 1) : IsOperand ((Fm.const v).text true) (.num v) := by
  intro s hs
  rw [text_const]
  rcases h with rfl | rfl
  · exact rd_word (c := 'f') (cs := ['a', 'l', 's', 'e']) (by decide) (by decide) hs
  · exact rd_word (c := 't') (cs := ['r', 'u', 'e']) (by decide) (by decide) hs

theorem opens_text_spin {primes : Bool} : ∀ {f : Fm}, Parsable primes f → Opens (f.text true)
  | .const v, h => by
    rw [text_const]
    rcases h with rfl | rfl
    · exact ⟨'f', _, rfl, Or.inl (by decide)⟩
    · exact ⟨'t', _, rfl, Or.inl (by decide)⟩
  | .var nx n, h => by rw [text_var]; exact opens_append (opens_name h.1.1) _
  | .neg f, _ => by rw [text_neg]; exact ⟨'(', _, rfl, Or.inr rfl⟩
  | .and f g, _ => by rw [text_and]; exact ⟨'(', _, rfl, Or.inr rfl⟩
  | .or f g, _ => by rw [text_or]; exact ⟨'(', _, rfl, Or.inr rfl⟩
  | .imp f g, _ => ⟨'(', _, by simp [Fm.text, Fm.toTree, printFormula]; rfl, Or.inr rfl⟩
  | .equiv f g, _ => ⟨'(', _, by simp [Fm.text, Fm.toTree, printFormula]; rfl, Or.inr rfl⟩
  | .cmp op nx n c, _ => by rw [text_cmp]; exact ⟨'(', _, rfl, Or.inr rfl⟩

theorem text_imp_spin (f g : Fm) : (Fm.imp f g).text true =
    '(' :: (('!' :: f.text true) ++ (['|', '|'] ++ (g.text true ++ [')']))) := by
  simp [Fm.text, Fm.toTree, printFormula]

theorem text_equiv_spin (f g : Fm) : (Fm.equiv f g).text true =
    '(' :: (('(' :: (f.text true ++ (['&', '&'] ++ (g.text true ++ [')'])))) ++ (['|', '|'] ++
      (('(' :: (('!' :: f.text true) ++ (['&', '&'] ++ (('!' :: g.text true) ++ [')'])))) ++ [')']))) := by
  simp [Fm.text, Fm.toTree, printFormula]

theorem head_of_opens {w : List Char} (h : Opens w) (s : List Char) : (w ++ s).head? ≠ some '=' :=
  opens_ne (opens_append h s) (by decide) (by decide)

theorem truth_ne {p : Prop} [Decidable p] : truth p ≠ 0 ↔ p := by unfold truth; split <;> simp_all

/-- An operand that is printed as a number or as a formula. -/
theorem operand_spin {primes : Bool} {f : Fm} (g : Fm) (hp : Parsable primes f) {e : SExp}
    (h1 : IsOperand (f.text true) e) (h2 : Means e f) :
    (∃ e', IsOperand (Fm.operand true g f) e' ∧ Means e' f) ∧ Opens (Fm.operand true g f) := by
  unfold Fm.operand
  cases hv : g.litBeside f with
  | none => exact ⟨⟨e, h1, h2⟩, opens_text_spin hp⟩
  | some v =>
    have hf := litBeside_const hv
    subst hf
    have h0 := litBeside_nonneg hp hv
    simp only [operandText]
    rw [printInt_nonneg h0]
    refine ⟨⟨.num (v.toNat : ℕ), isOperand_num _, ?_⟩, opens_decimal _⟩
    intro ρ σ _
    simp only [SExp.val, Fm.eval, Int.toNat_of_nonneg h0, decide_eq_true_eq]

/-- The Spin operator of a comparison. -/
def CmpOp.sop : CmpOp → SOp
  | .eq => .eq | .ne => .ne | .lt => .lt | .gt => .gt | .le => .le | .ge => .ge

theorem print_spin {primes : Bool} : ∀ {f : Fm}, Parsable primes f → SpinNames f →
    ∃ e, IsOperand (f.text true) e ∧ Means e f := by
  intro f
  have agl : ∀ {ρ σ} {f g h : Fm}, h.bvars = f.bvars ++ g.bvars → h.zvars = f.zvars ++ g.zvars →
      SpinAgrees ρ σ h → SpinAgrees ρ σ f ∧ SpinAgrees ρ σ g := by
    intro ρ σ f g h hb hz ha
    exact ⟨⟨fun x hx => ha.1 x (by simp [hb, hx]), fun x hx => ha.2 x (by simp [hz, hx])⟩,
      ⟨fun x hx => ha.1 x (by simp [hb, hx]), fun x hx => ha.2 x (by simp [hz, hx])⟩⟩
  have nms : ∀ {f g h : Fm}, h.bvars = f.bvars ++ g.bvars → h.zvars = f.zvars ++ g.zvars →
      SpinNames h → SpinNames f ∧ SpinNames g := by
    intro f g h hb hz hn
    constructor <;> intro x hx <;> apply hn x <;> rw [hb, hz] <;> simp only [List.mem_append] at hx ⊢ <;> tauto
  induction f with
  | const v =>
    intro hp _
    exact ⟨.num v, isOperand_const hp, fun ρ σ _ => by simp [SExp.val, Fm.eval]⟩
  | var nx n =>
    intro hp hn
    rw [text_var]
    refine ⟨_, isOperand_name nx (hn (nx, n) (by simp [Fm.bvars])), ?_⟩
    intro ρ σ ha
    have := ha.1 (nx, n) (by simp [Fm.bvars])
    simp only [SExp.val, Fm.eval, this]
    cases ρ.b nx n <;> simp
  | neg f ih =>
    intro hp hn
    obtain ⟨e, h1, h2⟩ := ih hp hn
    rw [text_neg]
    refine ⟨.not e, isOperand_paren (isOperand_not h1), ?_⟩
    intro ρ σ ha
    have := h2 ρ σ ha
    simp only [SExp.val, truth_ne, Fm.eval, Bool.not_eq_true']
    rw [← Bool.not_eq_true, ← this]; simp
  | and f g ihf ihg =>
    intro hp hn
    obtain ⟨e1, h1, k1⟩ := ihf hp.1 (nms (h := .and f g) rfl rfl hn).1
    obtain ⟨e2, h2, k2⟩ := ihg hp.2 (nms (h := .and f g) rfl rfl hn).2
    obtain ⟨⟨e1', h1', k1'⟩, -⟩ := operand_spin g hp.1 h1 k1
    obtain ⟨⟨e2', h2', k2'⟩, o2⟩ := operand_spin f hp.2 h2 k2
    rw [text_and]
    refine ⟨_, rd_bin .and h1' h2' (head_of_opens o2), ?_⟩
    intro ρ σ ha
    obtain ⟨a1, a2⟩ := agl (h := .and f g) rfl rfl ha
    simp only [SExp.val, SOp.val, truth_ne, Fm.eval, Bool.and_eq_true]
    rw [k1' ρ σ a1, k2' ρ σ a2]
  | or f g ihf ihg =>
    intro hp hn
    obtain ⟨e1, h1, k1⟩ := ihf hp.1 (nms (h := .or f g) rfl rfl hn).1
    obtain ⟨e2, h2, k2⟩ := ihg hp.2 (nms (h := .or f g) rfl rfl hn).2
    obtain ⟨⟨e1', h1', k1'⟩, -⟩ := operand_spin g hp.1 h1 k1
    obtain ⟨⟨e2', h2', k2'⟩, o2⟩ := operand_spin f hp.2 h2 k2
    rw [text_or]
    refine ⟨_, rd_bin .or h1' h2' (head_of_opens o2), ?_⟩
    intro ρ σ ha
    obtain ⟨a1, a2⟩ := agl (h := .or f g) rfl rfl ha
    simp only [SExp.val, SOp.val, truth_ne, Fm.eval, Bool.or_eq_true]
    rw [k1' ρ σ a1, k2' ρ σ a2]
  | imp f g ihf ihg =>
    intro hp hn
    obtain ⟨e1, h1, k1⟩ := ihf hp.1 (nms (h := .imp f g) rfl rfl hn).1
    obtain ⟨e2, h2, k2⟩ := ihg hp.2 (nms (h := .imp f g) rfl rfl hn).2
    rw [text_imp_spin]
    refine ⟨_, rd_bin .or (isOperand_not h1) h2 (head_of_opens (opens_text_spin hp.2)), ?_⟩
    intro ρ σ ha
    obtain ⟨a1, a2⟩ := agl (h := .imp f g) rfl rfl ha
    simp only [SExp.val, SOp.val, truth_ne, Fm.eval, Bool.or_eq_true, Bool.not_eq_true']
    rw [k2 ρ σ a2, ← Bool.not_eq_true, ← k1 ρ σ a1]; simp
  | equiv f g ihf ihg =>
    intro hp hn
    obtain ⟨e1, h1, k1⟩ := ihf hp.1 (nms (h := .equiv f g) rfl rfl hn).1
    obtain ⟨e2, h2, k2⟩ := ihg hp.2 (nms (h := .equiv f g) rfl rfl hn).2
    rw [text_equiv_spin]
    refine ⟨_, rd_bin .or (rd_bin .and h1 h2 (head_of_opens (opens_text_spin hp.2)))
      (rd_bin .and (isOperand_not h1) (isOperand_not h2) (by intro s; simp)) (by intro s; simp), ?_⟩
    intro ρ σ ha
    obtain ⟨a1, a2⟩ := agl (h := .equiv f g) rfl rfl ha
    have q1 := k1 ρ σ a1
    have q2 := k2 ρ σ a2
    simp only [SExp.val, SOp.val, truth_ne, Fm.eval]
    have t : ∀ x : ℤ, x = 0 ↔ ¬ x ≠ 0 := fun x => by simp
    rw [t, t, q1, q2]
    cases f.eval ρ <;> cases g.eval ρ <;> simp
  | cmp op nx n c =>
    intro hp hn
    rw [text_cmp, printInt_nonneg hp.2.2]
    have hnm := isOperand_name nx (hn (nx, n) (by simp [Fm.zvars]))
    refine ⟨.bin op.sop (.name (spinName nx n)) (.num c.toNat), ?_, ?_⟩
    · have hh := head_of_opens (opens_decimal c.toNat)
      cases op with
      | eq => exact rd_bin .eq hnm (isOperand_num _) hh
      | ne => exact rd_bin .ne hnm (isOperand_num _) hh
      | lt => exact rd_bin .lt hnm (isOperand_num _) hh
      | gt => exact rd_bin .gt hnm (isOperand_num _) hh
      | le => exact rd_bin .le hnm (isOperand_num _) hh
      | ge => exact rd_bin .ge hnm (isOperand_num _) hh
    · intro ρ σ ha
      have := ha.2 (nx, n) (by simp [Fm.zvars])
      simp only at this
      simp only [SExp.val, Fm.eval, this, Int.toNat_of_nonneg hp.2.2]
      cases op <;> simp [CmpOp.sop, SOp.val, CmpOp.holds, truth_ne]

/-! ## C20 -/

/-- **C20.** The text printed for Spin is a Spin expression, and in every state in which the Spin variables
have the values of the variables, `name` for the unprimed and `name_next` for the primed value, it has the truth
value of the formula. The names must be names of Spin (no dots, not `true` or `false`). -/
theorem spin_meaning {primes : Bool} {f : Fm} (hp : Parsable primes f) (hn : SpinNames f) :
    ∃ e, IsSpin (printFormula true f.toTree) e ∧
      ∀ ρ σ, SpinAgrees ρ σ f → (e.val σ ≠ 0 ↔ f.eval ρ = true) := by
  obtain ⟨e, h1, h2⟩ := print_spin hp hn
  refine ⟨e, ?_, h2⟩
  have h := h1 [] (by simp [WordEnd])
  have h0 : RdLev 0 (f.text true ++ []) e [] :=
    rd_climb 4 (by omega) h (by intro i _ _; unfold sopAt; split <;> simp_all)
  rw [List.append_nil] at h0
  exact h0

/-- The formula of the example for C19, as printed for Spin and as read by Spin. -/
example : printFormula true (Fm.imp (.equiv (.var false ['a']) (.cmp .ge true ['x'] 12)) (.and (.var true ['b']) (.const 0))).toTree =
      "(!((a&&(x_next>=12))||(!a&&!(x_next>=12)))||(b_next&&0))".toList ∧
    SpinNames (Fm.imp (.equiv (.var false ['a']) (.cmp .ge true ['x'] 12)) (.and (.var true ['b']) (.const 0))) ∧
    Parsable true (Fm.imp (.equiv (.var false ['a']) (.cmp .ge true ['x'] 12)) (.and (.var true ['b']) (.const 0))) := by
  refine ⟨by decide +kernel, ?_, ?_⟩
  · intro x hx
    simp only [Fm.bvars, Fm.zvars, List.append_assoc, List.cons_append, List.nil_append, List.mem_cons,
      List.not_mem_nil, or_false] at hx
    rcases hx with rfl | rfl | rfl <;> exact ⟨_, [], rfl, by decide, by decide, by decide, by decide⟩
  · exact ⟨⟨⟨by decide, by simp⟩, by decide, by simp, by omega⟩, ⟨by decide, by simp⟩, Or.inl rfl⟩

example : readLev 100 0 "(!((a&&(x_next>=12))||(!a&&!(x_next>=12)))||(b_next&&0))".toList =
    some (.bin .or (.not (.bin .or
      (.bin .and (.name ['a']) (.bin .ge (.name "x_next".toList) (.num 12)))
      (.bin .and (.not (.name ['a'])) (.not (.bin .ge (.name "x_next".toList) (.num 12))))))
      (.bin .and (.name "b_next".toList) (.num 0)), []) := by
  decide +kernel

/-- If `x` and `x_next` are both variables, the Spin text cannot tell the primed `x` from `x_next`: two
formulas that differ in some state are printed alike. -/
theorem spin_next_clash :
    printFormula true (Fm.var true ['x']).toTree = printFormula true (Fm.var false "x_next".toList).toTree ∧
      ∃ ρ : Env, (Fm.var true ['x']).eval ρ ≠ (Fm.var false "x_next".toList).eval ρ :=
  ⟨by decide +kernel, ⟨fun nx _ => nx, fun _ _ => 0⟩, by decide⟩

/-- A variable may be called `true` in gr1c, but is then printed as the constant of Spin. -/
theorem spin_true_clash :
    parseFormula false .nil (lexFile "true".toList) = some (Fm.var false "true".toList).toTree ∧
      printFormula true (Fm.var false "true".toList).toTree = printFormula true (Fm.const 1).toTree := by
  decide +kernel

end Gr1c
