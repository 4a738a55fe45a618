import Verif.Scan
import Verif.Formula

/-!
# Specification of how formulas are written (C47)

A stratified grammar, independent of the parser: `Gram primes k ts f` says that the tokens `ts` read at
level `k` are the formula `f`. Level 0 is for `<->`, 1 for `->`, 2 for `&` and `|`, 3 for operands. Each
binary operator has a left operand of its own level and a right operand of the next level, that is, it
groups to the left.
-/

namespace Gr1c

/-- Token of a comparison. -/
def CmpOp.tok : CmpOp → Tok
  | .eq => .chr '=' | .ne => .ne | .lt => .chr '<' | .gt => .chr '>' | .le => .le | .ge => .ge

/-- Tokens after a variable name that make it primed. -/
def primeToks (nx : Bool) : List Tok := if nx then [.chr '\''] else []

/-- `Gram primes k ts f`: at level `k`, the tokens `ts` are the formula `f`; primed variables are allowed
if `primes`. -/
inductive Gram (primes : Bool) : ℕ → List Tok → Fm → Prop
  | tt : Gram primes 3 [.tt] (.const 1)
  | ff : Gram primes 3 [.ff] (.const 0)
  | var (nx : Bool) (n : Name) (h : nx = true → primes = true) :
      Gram primes 3 (.ident n :: primeToks nx) (.var nx n)
  | cmp (op : CmpOp) (nx : Bool) (n : Name) (k : ℕ) (h : nx = true → primes = true) :
      Gram primes 3 (.ident n :: (primeToks nx ++ [op.tok, .num k])) (.cmp op nx n k)
  | neg {ts f} (h : Gram primes 3 ts f) : Gram primes 3 (.chr '!' :: ts) (.neg f)
  | paren {ts f} (h : Gram primes 0 ts f) : Gram primes 3 (.chr '(' :: (ts ++ [.chr ')'])) f
  | up {k ts f} (hk : k < 3) (h : Gram primes (k + 1) ts f) : Gram primes k ts f
  | and {ts f ts' g} (h1 : Gram primes 2 ts f) (h2 : Gram primes 3 ts' g) :
      Gram primes 2 (ts ++ .chr '&' :: ts') (.and f g)
  | or {ts f ts' g} (h1 : Gram primes 2 ts f) (h2 : Gram primes 3 ts' g) :
      Gram primes 2 (ts ++ .chr '|' :: ts') (.or f g)
  | imp {ts f ts' g} (h1 : Gram primes 1 ts f) (h2 : Gram primes 2 ts' g) :
      Gram primes 1 (ts ++ .implies :: ts') (.imp f g)
  | equiv {ts f ts' g} (h1 : Gram primes 0 ts f) (h2 : Gram primes 1 ts' g) :
      Gram primes 0 (ts ++ .equiv :: ts') (.equiv f g)

end Gr1c
