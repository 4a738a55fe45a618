import Verif.Cube
import Verif.Synth

/-!
# Bit-level model of the BDD helpers, `/repo/src/solve_support.c` 101-357

CUDD itself is not modelled: a BDD over `N` variables is the Boolean function it represents. The
definitions whose names start with `cudd` state what the CUDD manual promises of the library
routine; they are part of the trusted base. Variables are numbered as in gr1c: environment
variables, system variables, then their primed forms in the same order.

`malloc` failures and reference counts are not modelled.
-/

namespace Gr1c

/-- An assignment to the BDD variables. -/
abbrev Asg (N : ℕ) := Fin N → Bool

/-- A BDD, as the function it represents. -/
abbrev Bdd (N : ℕ) := Asg N → Bool

/-- An `int` array of length `N`: 0 and 1 are literals, 2 is "don't care". -/
abbrev CubeArr (N : ℕ) := Fin N → ℕ

variable {N : ℕ}

/-! ## What is assumed of CUDD -/

/-- `Cudd_bddIthVar`. -/
def cuddVar (i : Fin N) : Bdd N := fun a => a i

/-- `Cudd_Not`. -/
def cuddNot (f : Bdd N) : Bdd N := fun a => !f a

/-- `Cudd_bddAnd`. -/
def cuddAnd (f g : Bdd N) : Bdd N := fun a => f a && g a

/-- `Cudd_bddOr`. -/
def cuddOr (f g : Bdd N) : Bdd N := fun a => f a || g a

/-- `Cudd_bddExistAbstract` with the cube `Cudd_CubeArrayToBdd(q)`; all entries of `q` are 1 or 2 at
every call modelled here. -/
def cuddExist (q : CubeArr N) (f : Bdd N) : Bdd N := fun a =>
  decide (∃ b : Asg N, (∀ i, q i ≠ 1 → b i = a i) ∧ f b = true)

/-- `Cudd_bddUnivAbstract`, same convention. -/
def cuddUniv (q : CubeArr N) (f : Bdd N) : Bdd N := fun a =>
  decide (∀ b : Asg N, (∀ i, q i ≠ 1 → b i = a i) → f b = true)

/-- `Cudd_Cofactor` by the cube `Cudd_CubeArrayToBdd(q)`. -/
def cuddCofactor (f : Bdd N) (q : CubeArr N) : Bdd N := fun a =>
  f fun i => if q i = 2 then a i else q i == 1

/-- `Cudd_bddVarMap` after `Cudd_SetVarMap(vars, pvars, n)`, `/repo/src/solve_operators.c` 131-157:
variable `i` and variable `i + n` are swapped. -/
def cuddVarMap {n : ℕ} (f : Bdd (2 * n)) : Bdd (2 * n) := fun a =>
  f fun i => if h : i.val < n then a ⟨i.val + n, by omega⟩ else a ⟨i.val - n, by have := i.isLt; omega⟩

/-- `a` satisfies the cube `c`. -/
def CubeMatches (c : CubeArr N) (a : Asg N) : Prop := ∀ i, c i = 2 ∨ c i = (a i).toNat

/-- `f` does not depend on variable `i`. -/
def Indep (f : Bdd N) (i : Fin N) : Prop := ∀ a b : Asg N, (∀ j, j ≠ i → a j = b j) → f a = f b

/-- What `Cudd_ForeachCube` delivers: cubes over {0,1,2}, pairwise disjoint, together covering
exactly `f`, and mentioning only variables on which `f` depends. Nothing is assumed about which
cubes or in which order, since that depends on the variable order. -/
structure IsCover (f : Bdd N) (cs : List (CubeArr N)) : Prop where
  le2 : ∀ c ∈ cs, ∀ i, c i ≤ 2
  cover : ∀ a, f a = true ↔ ∃ c ∈ cs, CubeMatches c a
  disjoint : cs.Pairwise fun c d => ∀ a, ¬ (CubeMatches c a ∧ CubeMatches d a)
  support : ∀ i, Indep f i → ∀ c ∈ cs, c i = 2

/-! ## Cube arrays -/

/-- `for (i = lo; i < hi; i++) cube[i] = v;` -/
def fillRange (lo hi v : ℕ) (cube : CubeArr N) : CubeArr N := fun i =>
  if lo ≤ i.val ∧ i.val < hi then v else cube i

/-- `cube_env`, `/repo/src/solve_support.c` 111-119. -/
def cubeEnv (ne ns : ℕ) (cube : CubeArr N) : CubeArr N :=
  fillRange 0 ne 1 (fillRange ne (2 * (ne + ns)) 2 cube)

/-- `cube_sys`, `/repo/src/solve_support.c` 121-129. -/
def cubeSys (ne ns : ℕ) (cube : CubeArr N) : CubeArr N :=
  fillRange ne (ne + ns) 1 (fillRange 0 (2 * (ne + ns)) 2 cube)

/-- `cube_prime_env`, `/repo/src/solve_support.c` 131-139. -/
def cubePrimeEnv (ne ns : ℕ) (cube : CubeArr N) : CubeArr N :=
  fillRange (ne + ns) (2 * ne + ns) 1 (fillRange 0 (2 * (ne + ns)) 2 cube)

/-- `cube_prime_sys`, `/repo/src/solve_support.c` 141-149. -/
def cubePrimeSys (ne ns : ℕ) (cube : CubeArr N) : CubeArr N :=
  fillRange (2 * ne + ns) (2 * (ne + ns)) 1 (fillRange 0 (2 * ne + ns) 2 cube)

/-- `for (i = 0; i < len; i++) cube[offset+i] = state[i];`, `/repo/src/solve_support.c` 172-173.
`state` is given by its entries. -/
def storeAt (offset : ℕ) (state : List ℕ) (cube : CubeArr N) : CubeArr N := fun i =>
  if offset ≤ i.val then (state[i.val - offset]?).getD (cube i) else cube i

/-- `state_to_cof`, `/repo/src/solve_support.c` 163-190, with `cube_len = N` and `len` the length of
`state`. -/
def stateToCof (cube : CubeArr N) (state : List ℕ) (f : Bdd N) (offset : ℕ) : Bdd N :=
  cuddCofactor f (storeAt offset state (fillRange 0 N 2 cube))

/-- The loop of `state_to_BDD`, `/repo/src/solve_support.c` 193-212, from index `i` on. -/
def stateToBddLoop (offset : ℕ) : ℕ → List ℕ → Bdd N → Bdd N
  | _, [], v => v
  | i, x :: xs, v =>
    if h : offset + i < N then
      stateToBddLoop offset (i + 1) xs
        (if x ≠ 0 then cuddAnd v (cuddVar ⟨offset + i, h⟩)
         else cuddAnd v (cuddNot (cuddVar ⟨offset + i, h⟩)))
    else v  -- a new variable would be created; excluded by hypothesis

/-- `state_to_BDD`, `/repo/src/solve_support.c` 193-212. -/
def stateToBdd (state : List ℕ) (offset : ℕ) : Bdd N :=
  stateToBddLoop offset 0 state fun _ => true

/-- `compute_existsmodal`, `/repo/src/solve_support.c` 296-357. -/
def computeExistsmodal (ne ns : ℕ) (cube : CubeArr (2 * (ne + ns)))
    (C etrans strans : Bdd (2 * (ne + ns))) : Bdd (2 * (ne + ns)) :=
  let C' := cuddVarMap C
  let tmp := cuddAnd strans C'
  let cube1 := cubePrimeSys ne ns cube
  let tmp2 := cuddExist cube1 tmp
  let tmp := cuddOr (cuddNot etrans) tmp2
  cuddUniv (cubePrimeEnv ne ns cube1) tmp

/-! ## Enumeration -/

/-- The array `gcube+off` of length `len`. -/
def sliceArr (c : CubeArr N) (off len : ℕ) : List ℕ :=
  List.ofFn fun i : Fin len => if h : off + i.val < N then c ⟨off + i.val, h⟩ else 0

/-- `Cudd_ForeachCube` with the enumeration loop in its body (e.g.
`/repo/src/solve_support.c` 253-287): the vectors visited, in order. -/
def enumCover (off len : ℕ) : List (CubeArr N) → Option (List (List ℕ))
  | [] => some []
  | c :: cs => do
    let l ← enumCube (sliceArr c off len) (2 ^ len)
    let r ← enumCover off len cs
    return l ++ r

/-- `get_env_moves`, `/repo/src/solve_support.c` 215-293. `cover` is `Cudd_ForeachCube`. The result is
the array `env_moves`, in order; its length is `*emoves_len`. -/
def getEnvMoves (ne ns : ℕ) (cover : Bdd (2 * (ne + ns)) → List (CubeArr (2 * (ne + ns))))
    (cube : CubeArr (2 * (ne + ns))) (state : List ℕ) (etrans : Bdd (2 * (ne + ns))) :
    Option (List (List ℕ)) :=
  let tmp := stateToCof cube state etrans 0
  let cube1 := cubePrimeSys ne ns (storeAt 0 state (fillRange 0 (2 * (ne + ns)) 2 cube))
  let tmp2 := cuddExist cube1 tmp
  enumCover (ne + ns) ne (cover tmp2)

end Gr1c
