import Verif.Print
import Verif.Render
import Verif.ParseLemmas

/-! # Lemmas about printed formulas: their tokens and layout -/

namespace Gr1c

open PTree

/-- The text of a formula. -/
def Fm.text (spin : Bool) (f : Fm) : List Char := printFormula spin f.toTree

/-- Is the formula a variable? -/
def Fm.isVar : Fm → Bool
  | .var _ _ => true
  | _ => false

/-- The value of a constant. -/
def Fm.constVal : Fm → Option ℤ
  | .const v => some v
  | _ => none

/-- The number printed for the operand `f` beside the operand `g`, if any. -/
def Fm.litBeside (g f : Fm) : Option ℤ := if g.isVar then f.constVal else none

/-- The operand `f` beside the operand `g`. -/
def Fm.operand (spin : Bool) (g f : Fm) : List Char := operandText (g.litBeside f) (f.text spin)

theorem numeral_toTree (f g : Fm) : numeral g.toTree f.toTree = g.litBeside f := by
  cases g with
  | var nx n =>
    cases f with
    | const v => cases nx <;> simp [Fm.toTree, numeral, Fm.litBeside, Fm.isVar, Fm.constVal, varTy]
    | var nx' n' => cases nx' <;> simp [Fm.toTree, numeral, Fm.litBeside, Fm.isVar, Fm.constVal, varTy]
    | cmp op nx' n' c' => cases op <;> simp [Fm.toTree, numeral, Fm.litBeside, Fm.isVar, Fm.constVal, CmpOp.ty]
    | _ => simp [Fm.toTree, numeral, Fm.litBeside, Fm.isVar, Fm.constVal]
  | cmp op nx n c =>
    cases f with
    | var nx' n' => cases op <;> cases nx' <;> simp [Fm.toTree, numeral, Fm.litBeside, Fm.isVar, CmpOp.ty, varTy]
    | cmp op' nx' n' c' =>
      cases op <;> cases op' <;> simp [Fm.toTree, numeral, Fm.litBeside, Fm.isVar, CmpOp.ty]
    | _ => cases op <;> simp [Fm.toTree, numeral, Fm.litBeside, Fm.isVar, CmpOp.ty]
  | _ =>
    cases f with
    | var nx' n' => cases nx' <;> simp [Fm.toTree, numeral, Fm.litBeside, Fm.isVar, varTy]
    | cmp op' nx' n' c' => cases op' <;> simp [Fm.toTree, numeral, Fm.litBeside, Fm.isVar, CmpOp.ty]
    | _ => simp [Fm.toTree, numeral, Fm.litBeside, Fm.isVar]

theorem print_bin {spin : Bool} {ty : PTy} {op : List Char} (ho : opText spin ty = some op)
    (h : spin = true → ty ≠ .imp ∧ ty ≠ .equiv) (nm : Option Name) (v : ℤ) (l r : PTree) :
    printFormula spin (.node ty nm v l r) =
      ['('] ++ operandText (numeral r l) (printFormula spin l) ++ op ++
        operandText (numeral l r) (printFormula spin r) ++ [')'] := by
  rw [printFormula]
  rw [if_neg (fun h' => (h h'.1).1 h'.2), if_neg (fun h' => (h h'.1).2 h'.2)]
  simp only [ho]

theorem text_bin {spin : Bool} {ty : PTy} {op : List Char} (ho : opText spin ty = some op)
    (h : spin = true → ty ≠ .imp ∧ ty ≠ .equiv) (f g : Fm) :
    printFormula spin (.node ty none 0 f.toTree g.toTree) =
      '(' :: (Fm.operand spin g f ++ (op ++ (Fm.operand spin f g ++ [')']))) := by
  rw [print_bin ho h, numeral_toTree, numeral_toTree]
  simp only [Fm.operand, Fm.text, List.append_assoc, List.cons_append, List.nil_append]

theorem text_neg (spin : Bool) (f : Fm) : (Fm.neg f).text spin = '(' :: '!' :: (f.text spin ++ [')']) := by
  simp [Fm.text, Fm.toTree, printFormula, opText]

/-- Names as printed. -/
def nameText (spin nx : Bool) (n : Name) : List Char :=
  n ++ if nx then (if spin then ['_', 'n', 'e', 'x', 't'] else ['\'']) else []

theorem text_var (spin nx : Bool) (n : Name) : (Fm.var nx n).text spin = nameText spin nx n := by
  cases nx <;> simp [Fm.text, Fm.toTree, varTy, printFormula, opText, leafText, nameText]

theorem text_const (spin : Bool) (v : ℤ) : (Fm.const v).text spin = leafText spin .const none v := by
  simp [Fm.text, Fm.toTree, printFormula, opText]

/-- Operators as printed. -/
def CmpOp.text (spin : Bool) : CmpOp → List Char
  | .eq => if spin then ['=', '='] else ['=']
  | .ne => ['!', '='] | .lt => ['<'] | .gt => ['>'] | .le => ['<', '='] | .ge => ['>', '=']

theorem text_cmp (spin : Bool) (op : CmpOp) (nx : Bool) (n : Name) (c : ℤ) :
    (Fm.cmp op nx n c).text spin = '(' :: (nameText spin nx n ++ (op.text spin ++ (printInt c ++ [')']))) := by
  have h := text_bin (spin := spin) (ty := op.ty) (op := op.text spin) (by cases op <;> rfl)
    (by intro _; cases op <;> simp [CmpOp.ty]) (.var nx n) (.const c)
  have e : (Fm.cmp op nx n c).text spin =
      printFormula spin (.node op.ty none 0 (Fm.var nx n).toTree (Fm.const c).toTree) := rfl
  rw [e, h]
  simp [Fm.operand, Fm.litBeside, Fm.isVar, Fm.constVal, text_var, operandText]

theorem text_and (spin : Bool) (f g : Fm) : (Fm.and f g).text spin =
    '(' :: (Fm.operand spin g f ++ ((if spin then ['&', '&'] else ['&']) ++ (Fm.operand spin f g ++ [')']))) :=
  text_bin rfl (by simp) f g

theorem text_or (spin : Bool) (f g : Fm) : (Fm.or f g).text spin =
    '(' :: (Fm.operand spin g f ++ ((if spin then ['|', '|'] else ['|']) ++ (Fm.operand spin f g ++ [')']))) :=
  text_bin rfl (by simp) f g

theorem text_imp (f g : Fm) : (Fm.imp f g).text false =
    '(' :: (Fm.operand false g f ++ (['-', '>'] ++ (Fm.operand false f g ++ [')']))) :=
  text_bin rfl (by simp) f g

theorem text_equiv (f g : Fm) : (Fm.equiv f g).text false =
    '(' :: (Fm.operand false g f ++ (['<', '-', '>'] ++ (Fm.operand false f g ++ [')']))) :=
  text_bin rfl (by simp) f g

/-! ## Tokens -/

/-- Tokens of a printed constant. -/
def constToks (v : ℤ) : List Tok := if v = 0 then [.ff] else if v = 1 then [.tt] else [.num v.toNat]

/-- Tokens of an operand: the number printed for it, or the tokens of the formula. -/
def opndToks : Option ℤ → List Tok → List Tok
  | some v, _ => [.num v.toNat]
  | none, ts => ts

/-- Tokens of a printed formula. -/
def Fm.toks : Fm → List Tok
  | .const v => constToks v
  | .var nx n => .ident n :: primeToks nx
  | .neg f => .chr '(' :: .chr '!' :: (f.toks ++ [.chr ')'])
  | .and f g => .chr '(' :: (opndToks (g.litBeside f) f.toks ++ .chr '&' :: (opndToks (f.litBeside g) g.toks ++ [.chr ')']))
  | .or f g => .chr '(' :: (opndToks (g.litBeside f) f.toks ++ .chr '|' :: (opndToks (f.litBeside g) g.toks ++ [.chr ')']))
  | .imp f g => .chr '(' :: (opndToks (g.litBeside f) f.toks ++ .implies :: (opndToks (f.litBeside g) g.toks ++ [.chr ')']))
  | .equiv f g => .chr '(' :: (opndToks (g.litBeside f) f.toks ++ .equiv :: (opndToks (f.litBeside g) g.toks ++ [.chr ')']))
  | .cmp op nx n c => .chr '(' :: .ident n :: (primeToks nx ++ [op.tok, .num c.toNat, .chr ')'])

/-- Formulas that the parser can produce: names are names, constants are truth values, and numbers are not
negative; primed variables only if `primes`. -/
def Parsable (primes : Bool) : Fm → Prop
  | .const v => v = 0 ∨ v = 1
  | .var nx n => Writable (.ident n) ∧ (nx = true → primes = true)
  | .neg f => Parsable primes f
  | .and f g | .or f g | .imp f g | .equiv f g => Parsable primes f ∧ Parsable primes g
  | .cmp _ nx n c => Writable (.ident n) ∧ (nx = true → primes = true) ∧ 0 ≤ c

/-- No connective joins a variable and a constant. -/
def NoBareConst : Fm → Prop
  | .const _ | .var _ _ | .cmp _ _ _ _ => True
  | .neg f => NoBareConst f
  | .and f g | .or f g | .imp f g | .equiv f g =>
    NoBareConst f ∧ NoBareConst g ∧ f.litBeside g = none ∧ g.litBeside f = none

instance decNoBareConst : ∀ f, Decidable (NoBareConst f)
  | .const _ | .var _ _ | .cmp _ _ _ _ => isTrue trivial
  | .neg f => decNoBareConst f
  | .and f g | .or f g | .imp f g | .equiv f g =>
    have := decNoBareConst f
    have := decNoBareConst g
    inferInstanceAs (Decidable (_ ∧ _ ∧ _ ∧ _))

/-- Characters that end a name or number and do not run together with a preceding parenthesis. -/
def Closes (s : List Char) : Prop := ∀ c, s.head? = some c → isIdChar c = false ∧ c ≠ ':'

/-- How printed operands begin. -/
def Opens (s : List Char) : Prop := ∃ c cs, s = c :: cs ∧ (isIdChar c = true ∨ c = '(')

theorem opens_append {s : List Char} (h : Opens s) (t : List Char) : Opens (s ++ t) := by
  obtain ⟨c, cs, rfl, h⟩ := h
  exact ⟨c, cs ++ t, rfl, h⟩

theorem opens_ne {s : List Char} (h : Opens s) {c : Char} (h1 : isIdChar c = false) (h2 : c ≠ '(') :
    s.head? ≠ some c := by
  obtain ⟨d, cs, rfl, h⟩ := h
  simp only [List.head?_cons, ne_eq, Option.some.injEq]
  rintro rfl
  rcases h with h | h
  · rw [h] at h1; cases h1
  · exact h2 h

theorem isDig_isIdChar {c : Char} (h : isDig c = true) : isIdChar c = true := by simp [isIdChar, h]
theorem isIdStart_isIdChar {c : Char} (h : isIdStart c = true) : isIdChar c = true := by simp [isIdChar, h]

theorem opens_decimal (v : ℕ) : Opens (decimal v) := by
  cases h : decimal v with
  | nil => exact absurd h (decimal_ne_nil v)
  | cons c cs => exact ⟨c, cs, rfl, Or.inl (isDig_isIdChar (decimal_digits v c (by rw [h]; simp)))⟩

theorem opens_name {n : Name} (h : IsIdent n) : Opens n := by
  obtain ⟨c, cs, rfl, h, -⟩ := h
  exact ⟨c, cs, rfl, Or.inl (isIdStart_isIdChar h)⟩

theorem printInt_nonneg {v : ℤ} (h : 0 ≤ v) : printInt v = decimal v.toNat := by
  simp [printInt, Int.not_lt.2 h]

theorem opens_text {primes : Bool} : ∀ {f : Fm}, Parsable primes f → Opens (f.text false)
  | .const v, h => by
    rw [text_const]
    rcases h with rfl | rfl
    · exact ⟨'F', _, rfl, Or.inl (by decide)⟩
    · exact ⟨'T', _, rfl, Or.inl (by decide)⟩
  | .var nx n, h => by rw [text_var]; exact opens_append (opens_name h.1.1) _
  | .neg f, _ => by rw [text_neg]; exact ⟨'(', _, rfl, Or.inr rfl⟩
  | .and f g, _ => by rw [text_and]; exact ⟨'(', _, rfl, Or.inr rfl⟩
  | .or f g, _ => by rw [text_or]; exact ⟨'(', _, rfl, Or.inr rfl⟩
  | .imp f g, _ => by rw [text_imp]; exact ⟨'(', _, rfl, Or.inr rfl⟩
  | .equiv f g, _ => by rw [text_equiv]; exact ⟨'(', _, rfl, Or.inr rfl⟩
  | .cmp op nx n c, _ => by rw [text_cmp]; exact ⟨'(', _, rfl, Or.inr rfl⟩

theorem litBeside_const {f g : Fm} {v : ℤ} (h : g.litBeside f = some v) : f = .const v := by
  unfold Fm.litBeside at h
  split at h
  · cases f <;> simp [Fm.constVal] at h ⊢; exact h
  · cases h

theorem litBeside_nonneg {primes : Bool} {f g : Fm} {v : ℤ} (hf : Parsable primes f)
    (h : g.litBeside f = some v) : 0 ≤ v := by
  have := litBeside_const h
  subst this
  rcases hf with rfl | rfl <;> omega

theorem opens_operand {primes : Bool} {f : Fm} (hf : Parsable primes f) (g : Fm) : Opens (Fm.operand false g f) := by
  unfold Fm.operand
  cases h : g.litBeside f with
  | some v => simp only [operandText]; rw [printInt_nonneg (litBeside_nonneg hf h)]; exact opens_decimal _
  | none => exact opens_text hf

/-! ## Layout of printed formulas -/

section
variable {ts : List Tok} {s : List Char}

theorem lay_sym {c : Char} (hc : c ∈ singleSymbols) (hs : Stops (.chr c) s) (h : Layout false ts s) :
    Layout false (.chr c :: ts) (c :: s) := .tok false (.chr c) [c] (.sym c hc) _ _ hs h

theorem lay_open (h : Layout false ts s) : Layout false (.chr '(' :: ts) ('(' :: s) :=
  lay_sym (by decide) (by simp [Stops]) h

theorem lay_close (h : Layout false ts s) : Layout false (.chr ')' :: ts) (')' :: s) :=
  lay_sym (by decide) (by simp [Stops]) h

theorem lay_prime (h : Layout false ts s) : Layout false (.chr '\'' :: ts) ('\'' :: s) :=
  lay_sym (by decide) (by simp [Stops]) h

theorem closes_close (s : List Char) : Closes (')' :: s) := by
  intro c hc; simp only [List.head?_cons, Option.some.injEq] at hc; subst hc; decide

theorem lay_num {v : ℕ} (hs : Closes s) (h : Layout false ts s) : Layout false (.num v :: ts) (decimal v ++ s) := by
  refine .tok false _ _ (spells_decimal v) _ _ ?_ h
  intro c hc
  have := hs c hc
  constructor
  · by_contra h'
    have := isDig_isIdChar (c := c) (by simpa using h')
    rw [(hs c hc).1] at this; cases this
  · rintro rfl
    have := this.1
    revert this; decide

theorem lay_name {nx : Bool} {n : Name} (hn : Writable (.ident n)) (hs : Closes s) (h : Layout false ts s) :
    Layout false (.ident n :: (primeToks nx ++ ts)) (nameText false nx n ++ s) := by
  cases nx with
  | false =>
    simp only [nameText, primeToks]
    have := Layout.tok false (.ident n) n (.ident n hn.1 hn.2.1 hn.2.2) ts s hs h
    simpa using this
  | true =>
    have := Layout.tok false (.ident n) n (.ident n hn.1 hn.2.1 hn.2.2) _ _
      (by intro c hc; simp only [List.head?_cons, Option.some.injEq] at hc; subst hc; decide) (lay_prime h)
    simpa [nameText, primeToks] using this

theorem closes_cons {c : Char} (h : isIdChar c = false ∧ c ≠ ':') (s : List Char) : Closes (c :: s) := by
  intro d hd; simp only [List.head?_cons, Option.some.injEq] at hd; subst hd; exact h

theorem closes_cmp (op : CmpOp) (s : List Char) : Closes (op.text false ++ s) := by
  cases op <;> exact closes_cons (by decide) _

theorem lay_cmp (op : CmpOp) (ho : Opens s) (h : Layout false ts s) :
    Layout false (op.tok :: ts) (op.text false ++ s) := by
  cases op with
  | eq => exact lay_sym (by decide) (by simp [Stops]) h
  | lt =>
    exact lay_sym (by decide) (by
      simp only [Stops, if_neg (by decide : ¬ '<' = '&'), if_true]
      exact ⟨opens_ne ho (by decide) (by decide), opens_ne ho (by decide) (by decide),
        opens_ne ho (by decide) (by decide)⟩) h
  | gt =>
    exact lay_sym (by decide) (by
      simp only [Stops, if_neg (by decide : ¬ '>' = '&'), if_neg (by decide : ¬ '>' = '<'), true_or, if_true]
      exact opens_ne ho (by decide) (by decide)) h
  | ne => exact .tok false .ne _ (.fixed _ _ (by decide)) _ _ (by simp [Stops]) h
  | le => exact .tok false .le _ (.fixed _ _ (by decide)) _ _ (by simp [Stops]) h
  | ge => exact .tok false .ge _ (.fixed _ _ (by decide)) _ _ (by simp [Stops]) h

theorem lay_not (ho : Opens s) (h : Layout false ts s) : Layout false (.chr '!' :: ts) ('!' :: s) :=
  lay_sym (by decide) (by
    simp only [Stops, if_neg (by decide : ¬ '!' = '&'), if_neg (by decide : ¬ '!' = '<'), or_true, if_true]
    exact opens_ne ho (by decide) (by decide)) h

theorem lay_and (ho : Opens s) (h : Layout false ts s) : Layout false (.chr '&' :: ts) ('&' :: s) :=
  lay_sym (by decide) (by
    simp only [Stops, if_true]
    obtain ⟨c, cs, rfl, hc⟩ := ho
    have hb : (c == ' ' || c == '\t') = false := by
      rcases hc with hc | rfl
      · by_contra h'
        simp only [Bool.not_eq_false, Bool.or_eq_true, beq_iff_eq] at h'
        rcases h' with rfl | rfl <;> exact absurd hc (by decide)
      · decide
    rw [List.dropWhile_cons_of_neg (by simp [hb])]
    exact opens_ne ⟨c, cs, rfl, hc⟩ (by decide) (by decide)) h

theorem lay_or (h : Layout false ts s) : Layout false (.chr '|' :: ts) ('|' :: s) :=
  lay_sym (by decide) (by simp [Stops]) h

theorem lay_implies (h : Layout false ts s) : Layout false (.implies :: ts) ('-' :: '>' :: s) :=
  .tok false .implies ['-', '>'] (.fixed _ _ (by decide)) _ _ (by simp [Stops]) h

theorem lay_equiv (h : Layout false ts s) : Layout false (.equiv :: ts) ('<' :: '-' :: '>' :: s) :=
  .tok false .equiv ['<', '-', '>'] (.fixed _ _ (by decide)) _ _ (by simp [Stops]) h

end

theorem lay_opnd {primes : Bool} {f : Fm} (g : Fm) (hp : Parsable primes f)
    (ih : ∀ {ts s}, Closes s → Layout false ts s → Layout false (f.toks ++ ts) (f.text false ++ s))
    {ts : List Tok} {s : List Char} (hs : Closes s) (h : Layout false ts s) :
    Layout false (opndToks (g.litBeside f) f.toks ++ ts) (Fm.operand false g f ++ s) := by
  unfold Fm.operand
  cases hv : g.litBeside f with
  | none => simp only [opndToks, operandText]; exact ih hs h
  | some v =>
    simp only [opndToks, operandText]
    rw [printInt_nonneg (litBeside_nonneg hp hv)]
    exact lay_num hs h

/-- The text of a printed formula writes down its tokens. -/
theorem print_layout {primes : Bool} : ∀ {f : Fm}, Parsable primes f → ∀ {ts : List Tok} {s : List Char},
    Closes s → Layout false ts s → Layout false (f.toks ++ ts) (f.text false ++ s) := by
  intro f
  induction f with
  | const v =>
    intro hp ts s hs h
    rw [text_const]
    rcases hp with rfl | rfl
    · exact .tok false .ff _ .ff _ _ hs h
    · exact .tok false .tt _ .tt _ _ hs h
  | var nx n =>
    intro hp ts s hs h
    rw [text_var]
    simp only [Fm.toks, List.cons_append]
    exact lay_name hp.1 hs h
  | neg f ih =>
    intro hp ts s hs h
    rw [text_neg]
    simp only [Fm.toks, List.cons_append, List.append_assoc, List.nil_append]
    exact lay_open (lay_not (opens_append (opens_text (f := f) hp) _) (ih hp (closes_close _) (lay_close h)))
  | and f g ihf ihg =>
    intro hp ts s hs h
    rw [text_and]
    simp only [Fm.toks, List.cons_append, List.append_assoc, List.nil_append, Bool.false_eq_true, if_false]
    exact lay_open (lay_opnd g hp.1 (ihf hp.1) (closes_cons (by decide) _)
      (lay_and (opens_append (opens_operand hp.2 f) _)
        (lay_opnd f hp.2 (ihg hp.2) (closes_close _) (lay_close h))))
  | or f g ihf ihg =>
    intro hp ts s hs h
    rw [text_or]
    simp only [Fm.toks, List.cons_append, List.append_assoc, List.nil_append, Bool.false_eq_true, if_false]
    exact lay_open (lay_opnd g hp.1 (ihf hp.1) (closes_cons (by decide) _)
      (lay_or (lay_opnd f hp.2 (ihg hp.2) (closes_close _) (lay_close h))))
  | imp f g ihf ihg =>
    intro hp ts s hs h
    rw [text_imp]
    simp only [Fm.toks, List.cons_append, List.append_assoc, List.nil_append]
    exact lay_open (lay_opnd g hp.1 (ihf hp.1) (closes_cons (by decide) _)
      (lay_implies (lay_opnd f hp.2 (ihg hp.2) (closes_close _) (lay_close h))))
  | equiv f g ihf ihg =>
    intro hp ts s hs h
    rw [text_equiv]
    simp only [Fm.toks, List.cons_append, List.append_assoc, List.nil_append]
    exact lay_open (lay_opnd g hp.1 (ihf hp.1) (closes_cons (by decide) _)
      (lay_equiv (lay_opnd f hp.2 (ihg hp.2) (closes_close _) (lay_close h))))
  | cmp op nx n c =>
    intro hp ts s hs h
    rw [text_cmp, printInt_nonneg hp.2.2]
    simp only [Fm.toks, List.cons_append, List.append_assoc, List.nil_append]
    exact lay_open (lay_name hp.1 (closes_cmp op _) (lay_cmp op (opens_append (opens_decimal _) _)
      (lay_num (closes_close _) (lay_close h))))

/-! ## Grammar of printed formulas -/

theorem Gram.lower {primes : Bool} {ts : List Tok} {f : Fm} (h : Gram primes 3 ts f) :
    Gram primes 2 ts f ∧ Gram primes 1 ts f ∧ Gram primes 0 ts f :=
  ⟨.up (by omega) h, .up (by omega) (.up (by omega) h), .up (by omega) (.up (by omega) (.up (by omega) h))⟩

theorem print_gram {primes : Bool} : ∀ {f : Fm}, Parsable primes f → NoBareConst f → Gram primes 3 f.toks f := by
  intro f
  induction f with
  | const v =>
    intro hp _
    rcases hp with rfl | rfl
    · exact .ff
    · exact .tt
  | var nx n => intro hp _; exact .var nx n hp.2
  | neg f ih =>
    intro hp hb
    exact .paren (ts := .chr '!' :: f.toks) (Gram.lower (.neg (ih hp hb))).2.2
  | and f g ihf ihg =>
    intro hp hb
    have := Gram.and (Gram.lower (ihf hp.1 hb.1)).1 (ihg hp.2 hb.2.1)
    have := Gram.paren (Gram.up (k := 0) (by omega) (.up (k := 1) (by omega) this))
    simpa [Fm.toks, hb.2.2.1, hb.2.2.2, opndToks] using this
  | or f g ihf ihg =>
    intro hp hb
    have := Gram.or (Gram.lower (ihf hp.1 hb.1)).1 (ihg hp.2 hb.2.1)
    have := Gram.paren (Gram.up (k := 0) (by omega) (.up (k := 1) (by omega) this))
    simpa [Fm.toks, hb.2.2.1, hb.2.2.2, opndToks] using this
  | imp f g ihf ihg =>
    intro hp hb
    have := Gram.imp (Gram.lower (ihf hp.1 hb.1)).2.1 (Gram.lower (ihg hp.2 hb.2.1)).1
    have := Gram.paren (Gram.up (k := 0) (by omega) this)
    simpa [Fm.toks, hb.2.2.1, hb.2.2.2, opndToks] using this
  | equiv f g ihf ihg =>
    intro hp hb
    have := Gram.equiv (Gram.lower (ihf hp.1 hb.1)).2.2 (Gram.lower (ihg hp.2 hb.2.1)).2.1
    have := Gram.paren this
    simpa [Fm.toks, hb.2.2.1, hb.2.2.2, opndToks] using this
  | cmp op nx n c =>
    intro hp _
    obtain ⟨h1, h2, h3⟩ := hp
    have := Gram.paren (Gram.lower (Gram.cmp (primes := primes) op nx n c.toNat h2)).2.2
    rw [Int.toNat_of_nonneg h3] at this
    simpa [Fm.toks] using this

/-! ## Numbers in formulas -/

/-- Is the token a comparison? -/
def isCmpTok : Tok → Bool
  | .chr '=' | .chr '<' | .chr '>' | .ne | .le | .ge => true
  | _ => false

/-- Every number comes after a comparison; `p` tells whether the token before was one. -/
def numsOk : Bool → List Tok → Bool
  | _, [] => true
  | p, .num _ :: ts => p && numsOk false ts
  | _, t :: ts => numsOk (isCmpTok t) ts

theorem numsOk_cons {t : Tok} (h : ∀ v, t ≠ .num v) (p : Bool) (ts : List Tok) :
    numsOk p (t :: ts) = numsOk (isCmpTok t) ts := by
  cases t <;> first | rfl | exact absurd rfl (h _)

/-- Sequences of tokens that end with a token other than a comparison can be put together. -/
def Sealed (ts : List Tok) (b : Bool) : Prop := ∀ us, numsOk false (ts ++ us) = (b && numsOk false us)

theorem gram_sealed {primes : Bool} {k : ℕ} {ts : List Tok} {f : Fm} (h : Gram primes k ts f) : Sealed ts true := by
  induction h with
  | tt | ff => intro us; simp [numsOk, isCmpTok]
  | var nx n h => intro us; cases nx <;> simp [primeToks, numsOk, isCmpTok]
  | cmp op nx n k h => intro us; cases nx <;> cases op <;> simp [primeToks, numsOk, isCmpTok, CmpOp.tok]
  | neg h ih => intro us; have := ih us; simpa [numsOk, isCmpTok] using this
  | paren h ih => intro us; have := ih (.chr ')' :: us); simpa [numsOk, isCmpTok] using this
  | up hk h ih => exact ih
  | and h1 h2 ih1 ih2 => intro us; rw [List.append_assoc, ih1]; have := ih2 us; simpa [numsOk, isCmpTok] using this
  | or h1 h2 ih1 ih2 => intro us; rw [List.append_assoc, ih1]; have := ih2 us; simpa [numsOk, isCmpTok] using this
  | imp h1 h2 ih1 ih2 => intro us; rw [List.append_assoc, ih1]; have := ih2 us; simpa [numsOk, isCmpTok] using this
  | equiv h1 h2 ih1 ih2 => intro us; rw [List.append_assoc, ih1]; have := ih2 us; simpa [numsOk, isCmpTok] using this

theorem opnd_sealed {f g : Fm} {b : Bool} (h : Sealed f.toks b) :
    Sealed (opndToks (g.litBeside f) f.toks) (decide (g.litBeside f = none) && b) := by
  intro us
  cases hv : g.litBeside f with
  | none => simpa [opndToks] using h us
  | some v => simp [opndToks, numsOk]

/-- The tokens of a printed formula have a number out of place exactly if a connective joins a variable
and a constant. -/
theorem print_sealed {primes : Bool} : ∀ {f : Fm}, Parsable primes f → Sealed f.toks (decide (NoBareConst f)) := by
  intro f
  have bin : ∀ (f g : Fm) (t : Tok) (_ : isCmpTok t = false) (_ : ∀ v, t ≠ .num v),
      Sealed f.toks (decide (NoBareConst f)) → Sealed g.toks (decide (NoBareConst g)) →
      Sealed (.chr '(' :: (opndToks (g.litBeside f) f.toks ++ t :: (opndToks (f.litBeside g) g.toks ++ [.chr ')'])))
        (decide (NoBareConst f ∧ NoBareConst g ∧ f.litBeside g = none ∧ g.litBeside f = none)) := by
    intro f g t ht hn hf hg us
    rw [List.cons_append, numsOk_cons (by simp)]
    simp only [List.append_assoc, List.cons_append, List.nil_append]
    have e : isCmpTok (.chr '(') = false := by decide
    rw [e, opnd_sealed hf, numsOk_cons hn, ht, opnd_sealed hg, numsOk_cons (by simp)]
    have e : isCmpTok (.chr ')') = false := by decide
    rw [e, Bool.eq_iff_iff]
    simp only [Bool.and_eq_true, decide_eq_true_eq]
    tauto
  induction f with
  | const v =>
    intro hp us
    rw [decide_eq_true (p := NoBareConst (.const v)) trivial]
    rcases hp with rfl | rfl <;> simp [Fm.toks, constToks, numsOk, isCmpTok]
  | var nx n =>
    intro hp us
    rw [decide_eq_true (p := NoBareConst (.var nx n)) trivial]
    cases nx <;> simp [Fm.toks, primeToks, numsOk, isCmpTok]
  | neg f ih =>
    intro hp us
    have := ih hp (.chr ')' :: us)
    have e : decide (NoBareConst (.neg f)) = decide (NoBareConst f) := rfl
    rw [e]
    simpa [Fm.toks, numsOk, isCmpTok] using this
  | and f g ihf ihg => intro hp; exact bin f g _ (by decide) (by simp) (ihf hp.1) (ihg hp.2)
  | or f g ihf ihg => intro hp; exact bin f g _ (by decide) (by simp) (ihf hp.1) (ihg hp.2)
  | imp f g ihf ihg => intro hp; exact bin f g _ (by decide) (by simp) (ihf hp.1) (ihg hp.2)
  | equiv f g ihf ihg => intro hp; exact bin f g _ (by decide) (by simp) (ihf hp.1) (ihg hp.2)
  | cmp op nx n c =>
    intro hp us
    rw [decide_eq_true (p := NoBareConst (.cmp op nx n c)) trivial]
    cases nx <;> cases op <;> simp [Fm.toks, primeToks, numsOk, isCmpTok, CmpOp.tok]

end Gr1c
