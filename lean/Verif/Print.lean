import Verif.PTree

/-!
# Model of `print_formula`, `/repo/src/ptree.c` 807-961

The result is the text that is written to `fp`; the warnings on stderr are left out.
-/

namespace Gr1c

open PTree

/-- `%d` of an integer. -/
def printInt (v : ℤ) : List Char := if v < 0 then '-' :: decimal (-v).toNat else decimal v.toNat

/-- The tests of `/repo/src/ptree.c` 856-859 and 950-953: `self` is a constant, `other` a variable or
primed variable with nonnegative value. Then the value of the constant is printed as a number. -/
def numeral : PTree → PTree → Option ℤ
  | .node oty _ ov _ _, .node .const _ v _ _ => if (oty = .var ∨ oty = .next) ∧ 0 ≤ ov then some v else none
  | _, _ => none

/-- Infix operators, `/repo/src/ptree.c` 908-949; `spin` selects `FORMULA_SYNTAX_SPIN`. `none` for node
types that are not binary. -/
def opText (spin : Bool) : PTy → Option (List Char)
  | .and => some (if spin then ['&', '&'] else ['&'])
  | .or => some (if spin then ['|', '|'] else ['|'])
  | .imp => some ['-', '>']
  | .equiv => some ['<', '-', '>']
  | .eq => some (if spin then ['=', '='] else ['='])
  | .noteq => some ['!', '=']
  | .lt => some ['<']
  | .gt => some ['>']
  | .ge => some ['>', '=']
  | .le => some ['<', '=']
  | _ => none

/-- Leaves, `/repo/src/ptree.c` 871-900. -/
def leafText (spin : Bool) (ty : PTy) (nm : Option Name) (v : ℤ) : List Char :=
  match ty with
  | .var => nm.getD []
  | .next => nm.getD [] ++ (if spin then ['_', 'n', 'e', 'x', 't'] else ['\''])
  | .const =>
    if v = 0 then (if spin then ['f', 'a', 'l', 's', 'e'] else ['F', 'a', 'l', 's', 'e'])
    else if v = 1 then (if spin then ['t', 'r', 'u', 'e'] else ['T', 'r', 'u', 'e'])
    else printInt v
  | _ => []

/-- The choice between number and subformula, `/repo/src/ptree.c` 855-863, 950-958. -/
def operandText : Option ℤ → List Char → List Char
  | some v, _ => printInt v
  | none, w => w

/-- `print_formula`. `/repo/src/ptree.c` 807-961. -/
def printFormula (spin : Bool) : PTree → List Char
  | .nil => []
  | .node ty nm v l r =>
    if spin ∧ ty = .imp then
      ['(', '!'] ++ printFormula spin l ++ ['|', '|'] ++ printFormula spin r ++ [')']
    else if spin ∧ ty = .equiv then
      ['(', '('] ++ printFormula spin l ++ ['&', '&'] ++ printFormula spin r ++ [')', '|', '|', '(', '!'] ++
        printFormula spin l ++ ['&', '&', '!'] ++ printFormula spin r ++ [')', ')']
    else
      match opText spin ty with
      | some op =>
        ['('] ++ operandText (numeral r l) (printFormula spin l) ++ op ++
          operandText (numeral l r) (printFormula spin r) ++ [')']
      | none =>
        if ty = .neg then ['(', '!'] ++ printFormula spin r ++ [')']
        else leafText spin ty nm v

end Gr1c
