import Verif.Print

/-!
# Model of the environment process of `spin_aut_dump`, `/repo/src/automaton_io.c` 1060-1101

A variable is its name and its value field: -1 for a Boolean variable, the largest value otherwise.
`env_counter` is a list of integers with one entry per variable.
-/

namespace Gr1c

/-- One attempt to increment `env_counter`: `none` if all entries overflow (`i == num_env`).
`/repo/src/automaton_io.c` 1086-1099. -/
def incrCounter : List (Name × ℤ) → List ℤ → Option (List ℤ)
  | x :: vs, c :: cs =>
    if (c > 0 ∧ x.2 = -1) ∨ (c ≥ x.2 ∧ x.2 ≥ 0) then (incrCounter vs cs).map (0 :: ·)
    else some ((c + 1) :: cs)
  | _, _ => none

/-- The value assigned to a variable, `/repo/src/automaton_io.c` 1070-1078. -/
def valueText (x : Name × ℤ) (c : ℤ) : List Char :=
  if x.2 = -1 then (if c ≠ 0 then "true".toList else "false".toList) else printInt c

/-- The assignments of one alternative, `/repo/src/automaton_io.c` 1068-1082. -/
def assignText : List (Name × ℤ) → List ℤ → List Char
  | [x], c :: _ => ' ' :: x.1 ++ "_next=".toList ++ valueText x c
  | x :: y :: vs, c :: cs => ' ' :: x.1 ++ "_next=".toList ++ valueText x c ++ ';' :: assignText (y :: vs) cs
  | _, _ => []

/-- One alternative, `/repo/src/automaton_io.c` 1066-1082. -/
def altText (vs : List (Name × ℤ)) (cs : List ℤ) : List Char := "\n:: (1) ->".toList ++ assignText vs cs

/-- The loop over all moves, for at most `n` rounds; `none` if it has not ended by then.
`/repo/src/automaton_io.c` 1065-1100. -/
def envLoop : ℕ → List (Name × ℤ) → List ℤ → Option (List Char)
  | 0, _, _ => none
  | n + 1, vs, cs =>
    match incrCounter vs cs with
    | none => some (altText vs cs)
    | some cs' => (envLoop n vs cs').map (altText vs cs ++ ·)

/-- The environment process if there are environment variables. `/repo/src/automaton_io.c` 1061-1101. -/
def envMoveText (n : ℕ) (vs : List (Name × ℤ)) : Option (List Char) :=
  (envLoop n vs (vs.map fun _ => 0)).map fun t =>
    "ENV_MOVE:\nif".toList ++ t ++ "\nfi;\nchecketrans = true; checketrans = false;\n\n".toList

end Gr1c
