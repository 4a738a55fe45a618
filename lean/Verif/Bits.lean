import Mathlib.Data.Nat.Log
import Mathlib.Tactic.Ring
import Mathlib.Tactic.Linarith

/-!
# Model of the integer / bit-vector conversions, `/repo/src/util.c` 22-53, and of the bit count

`int` is 32 bits wide. `1 << 31` overflows: undefined behaviour.
-/

namespace Gr1c

/-- Outcome of a C function returning a pointer or value. -/
inductive CRes (α : Type)
  | ub | null
  | ok (a : α)
  deriving DecidableEq

/-- The loop of `bitvec_to_int`, `/repo/src/util.c` 26-29, from index `i`. -/
def bitvecLoop : ℕ → List ℤ → ℤ → CRes ℤ
  | _, [], result => .ok result
  | i, b :: bs, result =>
    if b ≠ 0 then
      if 31 ≤ i then .ub else bitvecLoop (i + 1) bs (result + 2 ^ i)
    else bitvecLoop (i + 1) bs result

/-- `bitvec_to_int`, `/repo/src/util.c` 22-31; `vec_len` is the length of the list. -/
def bitvecToInt (v : List ℤ) : CRes ℤ := bitvecLoop 0 v 0

/-- `x & (1 << i)` is nonzero (two's complement). -/
def intBit (x : ℤ) (i : ℕ) : Bool := x / 2 ^ i % 2 == 1

/-- `int_to_bitvec`, `/repo/src/util.c` 34-53. `malloc` failure (exit) is not modelled. -/
def intToBitvec (x : ℤ) (vecLen : ℤ) : CRes (List ℤ) :=
  if vecLen < 1 then .null
  else if 31 < vecLen then .ub
  else .ok ((List.range vecLen.toNat).map fun i => if intBit x i then 1 else 0)

/-- Number of bits for the domain `[0, maxval]`, as computed at `/repo/src/ptree.c` 411-415 and
implicitly by `var_to_bool` (286-305, which always makes at least one bit):
`(int)(ceil(log2(maxval+1)))`. The floating-point expression is taken to be exact. -/
def numBits (maxval : ℕ) : ℕ := if 0 < maxval then Nat.clog 2 (maxval + 1) else 1

end Gr1c
