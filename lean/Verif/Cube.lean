import Mathlib.Data.List.Basic
import Mathlib.Data.List.Nodup
import Mathlib.Data.Nat.Init

/-!
# Model of cube enumeration, `/repo/src/solve_support.c` 64-99

Arrays are lists; entries are natural numbers (`vartype` and `int` values 0, 1, 2).
-/

namespace Gr1c

/-- `initialize_cube`, `/repo/src/solve_support.c` 64-74 (both arrays of length `len`). -/
def initializeCube (gcube : List ℕ) : List ℕ := gcube.map fun g => if g = 2 then 0 else g

/-- The loop of `increment_cube`, `/repo/src/solve_support.c` 76-89: the first argument is `i + 1`
for the C variable `i`. -/
def incrementLoop (gcube : List ℕ) : ℕ → List ℕ → List ℕ
  | 0, cube => cube
  | i + 1, cube =>
    if gcube.getD i 0 = 2 then
      if cube.getD i 0 + 1 > 1 then incrementLoop gcube i (cube.set i 0)
      else cube.set i (cube.getD i 0 + 1)
    else incrementLoop gcube i cube

/-- `increment_cube`, `/repo/src/solve_support.c` 76-89, with `len` the length of `gcube`. -/
def incrementCube (gcube cube : List ℕ) : List ℕ := incrementLoop gcube gcube.length cube

/-- `saturated_cube`, `/repo/src/solve_support.c` 91-99. -/
def saturatedCube (gcube cube : List ℕ) : Bool :=
  (List.zip gcube cube).all fun p => !(p.1 == 2 && p.2 == 0)

/-- The loop every caller uses, e.g. `/repo/src/solve_support.c` 254-286 and
`/repo/src/solve.c` 268-301: visit while not saturated, then visit once more. `none`: the given
number of iterations was too small. -/
def enumLoop (gcube : List ℕ) : ℕ → List ℕ → Option (List (List ℕ))
  | 0, _ => none
  | k + 1, cube =>
    if saturatedCube gcube cube then some [cube]
    else (enumLoop gcube k (incrementCube gcube cube)).map (cube :: ·)

/-- Enumeration of one cube. -/
def enumCube (gcube : List ℕ) (fuel : ℕ) : Option (List (List ℕ)) :=
  enumLoop gcube fuel (initializeCube gcube)

end Gr1c
