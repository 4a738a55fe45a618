import Verif.Formula
import Verif.Layout

/-!
# Specification of Spin expressions (C20)

Promela expressions as far as gr1c uses them: a reader by recursive descent with the operator precedences
of the Promela manual (the same as in C: `||`, then `&&`, then `==` and `!=`, then comparisons, then `!`),
and their values, integers as in C. Blanks are not part of the fragment.
-/

namespace Gr1c

/-- Binary operators. -/
inductive SOp
  | or | and | eq | ne | lt | gt | le | ge
  deriving DecidableEq, Repr

/-- Expressions. -/
inductive SExp
  | num (v : ℤ)
  | name (n : Name)
  | not (e : SExp)
  | bin (op : SOp) (a b : SExp)
  deriving DecidableEq, Repr

/-- A truth value as an integer. -/
def truth (p : Prop) [Decidable p] : ℤ := if p then 1 else 0

/-- Values of the operators. -/
def SOp.val : SOp → ℤ → ℤ → ℤ
  | .or, x, y => truth (x ≠ 0 ∨ y ≠ 0)
  | .and, x, y => truth (x ≠ 0 ∧ y ≠ 0)
  | .eq, x, y => truth (x = y)
  | .ne, x, y => truth (x ≠ y)
  | .lt, x, y => truth (x < y)
  | .gt, x, y => truth (y < x)
  | .le, x, y => truth (x ≤ y)
  | .ge, x, y => truth (y ≤ x)

/-- Value of an expression, given the values of the names. -/
def SExp.val (σ : Name → ℤ) : SExp → ℤ
  | .num v => v
  | .name n => σ n
  | .not e => truth (e.val σ = 0)
  | .bin op a b => op.val (a.val σ) (b.val σ)

/-- A binary operator of level `k` at the beginning of a text, and the rest. -/
def sopAt : ℕ → List Char → Option (SOp × List Char)
  | 0, '|' :: '|' :: s => some (.or, s)
  | 1, '&' :: '&' :: s => some (.and, s)
  | 2, '=' :: '=' :: s => some (.eq, s)
  | 2, '!' :: '=' :: s => some (.ne, s)
  | 3, '<' :: '=' :: s => some (.le, s)
  | 3, '>' :: '=' :: s => some (.ge, s)
  | 3, '<' :: s => some (.lt, s)
  | 3, '>' :: s => some (.gt, s)
  | _, _ => none

/-- Letters, digits and underscore. -/
def isWordChar (c : Char) : Bool := isIdStart c || isDig c

/-- The meaning of a word. -/
def wordExp (w : List Char) : SExp :=
  if w = "true".toList then .num 1 else if w = "false".toList then .num 0 else .name w

mutual
/-- Read an expression of level `k` (4: operand) at the beginning of a text, with bounded effort. -/
def readLev : ℕ → ℕ → List Char → Option (SExp × List Char)
  | 0, _, _ => none
  | n + 1, k, s =>
    if k < 4 then
      match readLev n (k + 1) s with
      | some (e, r) => readMore n k e r
      | none => none
    else
      match s with
      | '!' :: s =>
        match readLev n 4 s with
        | some (e, r) => some (.not e, r)
        | none => none
      | '(' :: s =>
        match readLev n 0 s with
        | some (e, ')' :: r) => some (e, r)
        | _ => none
      | c :: s =>
        if isIdStart c then some (wordExp (c :: s.takeWhile isWordChar), s.dropWhile isWordChar)
        else if isDig c then
          some (.num (Nat.ofDigits 10 ((c :: s.takeWhile isDig).reverse.map digitVal) : ℕ), s.dropWhile isDig)
        else none
      | [] => none
/-- Read further operands of level `k`, grouping to the left. -/
def readMore : ℕ → ℕ → SExp → List Char → Option (SExp × List Char)
  | 0, _, _, _ => none
  | n + 1, k, e, s =>
    match sopAt k s with
    | none => some (e, s)
    | some (op, s') =>
      match readLev n (k + 1) s' with
      | some (e', r) => readMore n k (.bin op e e') r
      | none => none
end

/-- The text is the expression `e`. -/
def IsSpin (s : List Char) (e : SExp) : Prop := ∃ n, readLev n 0 s = some (e, [])

/-- The Spin name of a variable, primed if `nx`. -/
def spinName (nx : Bool) (n : Name) : Name := n ++ if nx then "_next".toList else []

/-- Names of Spin: a word other than the constants. (Other reserved words of Promela are not considered.) -/
def IsSpinName (n : Name) : Prop :=
  ∃ c cs, n = c :: cs ∧ isIdStart c = true ∧ (∀ d ∈ cs, isWordChar d = true) ∧ n ≠ "true".toList ∧
    n ≠ "false".toList

end Gr1c
