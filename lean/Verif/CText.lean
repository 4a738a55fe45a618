import Verif.Scan

/-!
# C library functions on text: `strtol`, `fgets`, and the narrowing of integers

Used by `read_state_str` (`/repo/src/solve_support.c`) and `aut_aut_loadver`
(`/repo/src/automaton_io.c`). A C string is the list of its characters before the terminating NUL.
`long` has 64 bits, `int` has 32 bits and `char` is signed with 8 bits; narrowing keeps the value modulo
the size, as gcc defines it.
-/

namespace Gr1c

/-- `isspace` in the C locale. -/
def isSpaceC (c : Char) : Bool := c == ' ' || c == '\t' || c == '\n' || c == '\r' || c.toNat == 11 || c.toNat == 12

/-- The optional sign of a number: is it negative, and what follows it. -/
def splitSign : List Char → Bool × List Char
  | [] => (false, [])
  | c :: cs => if c = '-' then (true, cs) else if c = '+' then (false, cs) else (false, c :: cs)

/-- Saturation at `LONG_MIN` and `LONG_MAX`. -/
def clampLong (v : ℤ) : ℤ := max (-2 ^ 63) (min v (2 ^ 63 - 1))

/-- Conversion of a `long` to `int`. -/
def toInt (v : ℤ) : ℤ := Int.bmod v (2 ^ 32)

/-- Conversion of a `long` to `char`. -/
def toChar (v : ℤ) : ℤ := Int.bmod v (2 ^ 8)

/-- `strtol( s, &end, 10 )`: the value and the text from `end`; `none` if no conversion is made, that is
`end == s`. -/
def strtol (s : List Char) : Option (ℤ × List Char) :=
  let r := splitSign (s.dropWhile isSpaceC)
  let ds := r.2.takeWhile isDig
  if ds = [] then none
  else some (clampLong (if r.1 then -(digitsVal ds : ℤ) else (digitsVal ds : ℤ)), r.2.dropWhile isDig)

/-- `fgets` with room for `n` characters besides the NUL: the characters read and the remaining ones. -/
def fgets : ℕ → List Char → List Char × List Char
  | 0, s => ([], s)
  | _ + 1, [] => ([], [])
  | n + 1, c :: s => if c = '\n' then ([c], s) else (c :: (fgets n s).1, (fgets n s).2)

/-- The C string in a buffer: the characters before the first NUL. -/
def cstr (s : List Char) : List Char := s.takeWhile (· != Char.ofNat 0)

theorem strtol_length {s : List Char} {v : ℤ} {r : List Char} (h : strtol s = some (v, r)) : r.length < s.length := by
  unfold strtol at h
  simp only at h
  split at h
  · simp at h
  · rename_i hd
    simp only [Option.some.injEq, Prod.mk.injEq] at h
    have h1 : (s.dropWhile isSpaceC).length ≤ s.length := (List.dropWhile_sublist _).length_le
    have h2 : (splitSign (s.dropWhile isSpaceC)).2.length ≤ (s.dropWhile isSpaceC).length := by
      cases s.dropWhile isSpaceC with
      | nil => simp [splitSign]
      | cons c cs => simp only [splitSign]; split_ifs <;> simp
    have h3 := congrArg List.length (List.takeWhile_append_dropWhile (p := isDig) (l := (splitSign (s.dropWhile isSpaceC)).2))
    rw [List.length_append] at h3
    have h4 := List.length_pos_iff.2 hd
    rw [← h.2]
    omega

theorem fgets_length (n : ℕ) (s : List Char) (h : s ≠ []) : (fgets (n + 1) s).2.length < s.length := by
  induction n generalizing s with
  | zero =>
    cases s with
    | nil => exact absurd rfl h
    | cons c s => simp only [fgets]; split <;> simp
  | succ n ih =>
    cases s with
    | nil => exact absurd rfl h
    | cons c s =>
      rw [fgets]
      split
      · simp
      · cases s with
        | nil => simp [fgets]
        | cons d s => have := ih (d :: s) (by simp); simp only [List.length_cons] at this ⊢; omega

/-! ## `read_state_str` -/

/-- The loop of `read_state_str`, `/repo/src/solve_support.c` 38-51: `max = none` is `max_len < 0`, `k` is
`i`; the result is the values stored in the array. -/
def readStateLoop (max : Option ℕ) (k : ℕ) (s : List Char) : List ℤ :=
  if (max = none ∨ ∃ m ∈ max, k < m) ∧ s ≠ [] then
    match h : strtol s with
    | none => []
    | some (v, r) => toInt v :: readStateLoop max (k + 1) r
  else []
termination_by s.length
decreasing_by exact strtol_length h

/-- `read_state_str`, `/repo/src/solve_support.c` 15-61. The returned number is the length of the list;
`*state` is NULL for the empty list and an array with these values otherwise. -/
def readStateStr (input : List Char) (maxLen : ℤ) : List ℤ :=
  if maxLen = 0 ∨ input = [] then []
  else readStateLoop (if maxLen < 0 then none else some maxLen.toNat) 0 input

end Gr1c
