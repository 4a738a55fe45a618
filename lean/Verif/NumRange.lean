import Verif.Parse

/-!
# Model of numbers in specifications (`/repo/src/gr1c_scan.l` 63, `/repo/src/gr1c_parse.y` 28, 143-249)

The scanner stores the result of `strtol`, a `long`, in a field of type `int`. `Verif.Scan` and `Verif.Parse` have numbers of any size;
here the values are those of a machine with `long` of 64 bits and `int` of 32 bits in two's complement, where the conversion keeps the
low 32 bits.
-/

namespace Gr1c

/-- `LONG_MAX`. -/
def longMax : ℕ := 2 ^ 63 - 1

/-- The bits that are stored for a numeral: `strtol` returns at most `LONG_MAX`, and the conversion to `int` keeps 32 bits.
`/repo/src/gr1c_scan.l` 63, `/repo/src/gr1c_parse.y` 28. -/
def intBits (v : ℕ) : ℕ := min v longMax % 2 ^ 32

/-- The `int` that has the given bits; numbers that are no bit patterns (the value -1 of Boolean variables) stay. -/
def asInt (u : ℤ) : ℤ := if u < 2 ^ 31 then u else u - 2 ^ 32

/-- `yylval.num` for a numeral, `/repo/src/gr1c_scan.l` 63. -/
def yyNum (v : ℕ) : ℤ := asInt (intBits v)

/-- A token with the bits of its number, `/repo/src/gr1c_scan.l` 63. -/
def bitsTok : Tok → Tok
  | .num v => .num (intBits v)
  | t => t

/-- A tree whose values are bit patterns, with the `int`s in their place. -/
def PTree.ints : PTree → PTree
  | .nil => .nil
  | .node ty nm v l r => .node ty nm (asInt v) l.ints r.ints

/-- The same for the formulas of a specification. -/
def TSpec.ints (s : TSpec) : TSpec :=
  ⟨s.einit.ints, s.sinit.ints, s.etrans.map PTree.ints, s.strans.map PTree.ints, s.egoals.map PTree.ints, s.sgoals.map PTree.ints⟩

/-- The same for what the parser has collected. -/
def PState.ints (p : PState) : PState := ⟨p.ev.ints, p.sv.ints, p.sp.ints, p.gen.ints⟩

/-- No upper bound in a list of variables is negative as an `int`, `/repo/src/gr1c_parse.y` 170-176, 224-230. -/
def upperOk : PTree → Bool
  | .nil => true
  | .node _ _ v l _ => decide (v < 2 ^ 31) && upperOk l

/-- `yyparse` with numbers of type `int`. The parser looks at a number in two places only: a lower bound is compared with 0 (165, 219),
which can be done with the bits, and an upper bound must not be negative (170, 224); any error makes `yyparse` fail, so this is
checked at the end. Elsewhere numbers are copied, so the trees are made with the bits and these are read as `int` afterwards.
`/repo/src/gr1c_parse.y` 64-556. -/
def parseInts (rg : Bool) (text : List Char) : Option PState :=
  match parseToks rg ((lexFile text).map bitsTok) with
  | none => none
  | some p => if upperOk p.ev && upperOk p.sv then some p.ints else none

end Gr1c
