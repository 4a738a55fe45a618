import Verif.BddProps
import Verif.Bits
import Verif.Sublevels

/-!
# Model of the distance computations, `/repo/src/solve_metric.c` 97-292 and 376-526

`double` values here are sums of differences of `int` values and the marker -1; they are modelled as
integers (exact below 2^53). `Cudd_ForeachCube` is given by a function `cover`. The vectors visited are
as in `BddOps.lean`.
-/

namespace Gr1c

/-- `bitvec_to_int( st+o, w )`; reading beyond the state is undefined. -/
def readVec (st : List ℤ) (o w : ℕ) : CRes ℤ :=
  if st.length < o + w then .ub else bitvecToInt ((st.drop o).take w)

/-- The loops filling `ref_mapped` and `this_mapped`, `/repo/src/solve_metric.c` 130-132 and 140-142. -/
def mapVals (st : List ℤ) : List (ℕ × ℕ) → CRes (List ℤ)
  | [] => .ok []
  | (o, w) :: offw =>
    match readVec st o w with
    | .ok x =>
      match mapVals st offw with
      | .ok xs => .ok (x :: xs)
      | _ => .ub
    | _ => .ub

/-- `dist += abs(this - ref)` over all metric variables, `/repo/src/solve_metric.c` 151-153. -/
def absDist (this ref : List ℤ) : ℤ := (List.zipWith (fun a b => |a - b|) this ref).foldl (· + ·) 0

/-- `if (*Min == -1. || dist < *Min) *Min = dist;`, `/repo/src/solve_metric.c` 154-155. -/
def updMin (m d : ℤ) : ℤ := if m = -1 ∨ d < m then d else m

/-- `if (*Max == -1. || dist > *Max) *Max = dist;`, `/repo/src/solve_metric.c` 156-157. -/
def updMax (m d : ℤ) : ℤ := if m = -1 ∨ d > m then d else m

/-- The body of the enumeration, `/repo/src/solve_metric.c` 140-157 and 162-179, for all vectors. -/
def boundsLoop (offw : List (ℕ × ℕ)) (ref : List ℤ) : List (List ℕ) → ℤ × ℤ → CRes (ℤ × ℤ)
  | [], mm => .ok mm
  | v :: vs, mm =>
    match mapVals (v.map (Nat.cast : ℕ → ℤ)) offw with
    | .ok this => boundsLoop offw ref vs (updMin mm.1 (absDist this ref), updMax mm.2 (absDist this ref))
    | _ => .ub

/-- `bounds_state`, `/repo/src/solve_metric.c` 97-188, where `cs` are the cubes of `T`: the values of
`*Min` and `*Max`. `null` would mean that the enumeration does not end; see `bounds_state_exact`. -/
def boundsState {N : ℕ} (n : ℕ) (cs : List (CubeArr N)) (ref : List ℤ) (offw : List (ℕ × ℕ)) :
    CRes (ℤ × ℤ) :=
  match mapVals ref offw with
  | .ok r =>
    match enumCover 0 n cs with
    | some l => boundsLoop offw r l (-1, -1)
    | none => .null
  | _ => .ub

/-- The loop over the stored states, `/repo/src/solve_metric.c` 265-271: both bounds are taken of the
minimal distance `tMin`. -/
def ddsetLoop {N : ℕ} (n : ℕ) (gs : List (CubeArr N)) (offw : List (ℕ × ℕ)) :
    List (List ℕ) → ℤ × ℤ → CRes (ℤ × ℤ)
  | [], mm => .ok mm
  | v :: vs, mm =>
    match boundsState n gs (v.map (Nat.cast : ℕ → ℤ)) offw with
    | .ok (tMin, _) => ddsetLoop n gs offw vs (updMin mm.1 tMin, updMax mm.2 tMin)
    | r => r

/-- `bounds_DDset`, `/repo/src/solve_metric.c` 191-292: `cs` are the cubes of `T`, `gs` those of `G`. -/
def boundsDDset {N : ℕ} (n : ℕ) (cs gs : List (CubeArr N)) (offw : List (ℕ × ℕ)) : CRes (ℤ × ℤ) :=
  match enumCover 0 n cs with
  | some l => ddsetLoop n gs offw l (-1, -1)
  | none => .null

variable {ne ns : ℕ}

/-- Levels `j` = 1, 2, ... of one system goal, `/repo/src/solve_metric.c` 420-433: `Y` is the entry
`Y[i][j]`, the list holds the entries after it. `G` is the set `sgoals[i] & W`. -/
def minmaxFrom {m : ℕ} (cover : Bdd (2 * (ne + ns)) → List (CubeArr (2 * (ne + ns))))
    (offw : List (ℕ × ℕ)) (goal : Finset (BState ne ns)) :
    Finset (BState ne ns) → List (Level (Val ne) (Val ns) m) → CRes (List (ℤ × ℤ))
  | _, [] => .ok []
  | Y, lv :: rest =>
    match boundsDDset (ne + ns) (cover (bddOf (lv.Y ∩ Yᶜ))) (cover (bddOf goal)) offw with
    | .ok mm =>
      match minmaxFrom cover offw goal lv.Y rest with
      | .ok l => .ok (mm :: l)
      | _ => .ub
    | _ => .ub

/-- The arrays `Min[i]` and `Max[i]` for one goal, `/repo/src/solve_metric.c` 411-434. They have
`num_sublevels[i]-1` entries; entry 0 is set to 0 without looking at the set. With one sublevel the
arrays have size 0 and that store is outside of them. -/
def minmaxGoal {m : ℕ} (cover : Bdd (2 * (ne + ns)) → List (CubeArr (2 * (ne + ns))))
    (offw : List (ℕ × ℕ)) (goal : Finset (BState ne ns)) (L : List (Level (Val ne) (Val ns) m)) :
    CRes (List (ℤ × ℤ)) :=
  match L with
  | _ :: l1 :: rest =>
    match minmaxFrom cover offw goal l1.Y rest with
    | .ok l => .ok ((0, 0) :: l)
    | _ => .ub
  | _ => .ub

/-- Collecting the arrays of the goals. -/
def consOk {β : Type} : CRes β → CRes (List β) → CRes (List β)
  | .ok a, .ok l => .ok (a :: l)
  | _, _ => .ub

/-- `compute_minmax`, `/repo/src/solve_metric.c` 376-469, after the winning set `W`. `null` is the return
value -1. -/
def computeMinmax {m n : ℕ} (cover : Bdd (2 * (ne + ns)) → List (CubeArr (2 * (ne + ns))))
    (offw : List (ℕ × ℕ)) (G : Game (Val ne) (Val ns)) (W : Finset (BState ne ns))
    (eg : Fin m → Finset (BState ne ns)) (sg : Fin n → Finset (BState ne ns)) :
    CRes (List (List (ℤ × ℤ))) :=
  match computeSublevels G W eg sg with
  | none => .null
  | some L =>
    (List.finRange n).foldr (fun i acc => consOk (minmaxGoal cover offw (sg i ∩ W) (L i)) acc) (.ok [])

/-- `horiz_j` for one goal, `/repo/src/solve_metric.c` 504-508: `k` runs from `j-2` down to 1. -/
def horizJ (mm : List (ℤ × ℤ)) (j : ℕ) : ℕ → ℤ → ℤ
  | 0, h => h
  | k + 1, h =>
    horizJ mm j k (if (mm.getD k (0, 0)).2 ≥ (mm.getD (j - 1) (0, 0)).1 then (j : ℤ) - (k + 1) else h)

/-- The loop over `j` for one goal, `/repo/src/solve_metric.c` 503-511; `j` runs over
`3, ..., num_sublevels-1`, the length of `mm` is `num_sublevels-1`. -/
def horizGoal (mm : List (ℤ × ℤ)) (h : ℤ) : ℤ :=
  ((List.range (mm.length + 1)).drop 3).foldl
    (fun h j => if horizJ mm j (j - 2) 1 > h then horizJ mm j (j - 2) 1 else h) h

/-- `compute_horizon`, `/repo/src/solve_metric.c` 472-526, from the arrays on. -/
def computeHorizon (mms : List (List (ℤ × ℤ))) : ℤ := mms.foldl (fun h mm => horizGoal mm h) (-1)

end Gr1c
