import Verif.Expand
import Verif.PTreeProps
import Verif.BitsProps

/-! # Lemmas about the expansion of integer variables -/

namespace Gr1c

open PTree

/-! ## Specification -/

/-- Number of bits used for the domain `[0, maxval]`. -/
def domBits (maxval : ℤ) : ℕ := numBits maxval.toNat

/-- The bits of variable `name` encode its value, which fits into them. -/
def Encodes (ρ : Env) (maxval : ℤ) (name : Name) (nx : Bool) : Prop :=
  0 ≤ ρ.z nx name ∧ ρ.z nx name < 2 ^ domBits maxval ∧
    ∀ i < domBits maxval, ρ.b nx (bitName name i) = intBit (ρ.z nx name) i

/-- What it means that `f'` results from `f` by replacing comparisons of variable `name` and nothing
else: a comparison of `name` becomes a formula over the bits of `name` (of the same tense) that is
true exactly when the comparison holds, for every value of the domain (for `=`, for every value that
fits the bits). -/
inductive Expands (name : Name) (maxval : ℤ) : Fm → Fm → Prop
  | const (v : ℤ) : Expands name maxval (.const v) (.const v)
  | var (nx : Bool) (n : Name) : Expands name maxval (.var nx n) (.var nx n)
  | neg {f f' : Fm} : Expands name maxval f f' → Expands name maxval (.neg f) (.neg f')
  | and {f f' g g' : Fm} : Expands name maxval f f' → Expands name maxval g g' →
      Expands name maxval (.and f g) (.and f' g')
  | or {f f' g g' : Fm} : Expands name maxval f f' → Expands name maxval g g' →
      Expands name maxval (.or f g) (.or f' g')
  | imp {f f' g g' : Fm} : Expands name maxval f f' → Expands name maxval g g' →
      Expands name maxval (.imp f g) (.imp f' g')
  | equiv {f f' g g' : Fm} : Expands name maxval f f' → Expands name maxval g g' →
      Expands name maxval (.equiv f g) (.equiv f' g')
  | other (op : CmpOp) (nx : Bool) (n : Name) (c : ℤ) (h : n ≠ name) :
      Expands name maxval (.cmp op nx n c) (.cmp op nx n c)
  | cmp (op : CmpOp) (nx : Bool) (c : ℤ) (g : Fm) (hz : g.zvars = [])
      (hb : ∀ b ∈ g.bvars, ∃ i < domBits maxval, b = (nx, bitName name i))
      (hev : ∀ ρ, Encodes ρ maxval name nx → op = .eq ∨ ρ.z nx name ≤ maxval →
        g.eval ρ = op.holds (ρ.z nx name) c) :
      Expands name maxval (.cmp op nx name c) g

/-- Does the formula contain `name != 0`? -/
def Fm.hasNe0 (name : Name) : Fm → Bool
  | .const _ => false
  | .var _ _ => false
  | .neg f => f.hasNe0 name
  | .and f g => f.hasNe0 name || g.hasNe0 name
  | .or f g => f.hasNe0 name || g.hasNe0 name
  | .imp f g => f.hasNe0 name || g.hasNe0 name
  | .equiv f g => f.hasNe0 name || g.hasNe0 name
  | .cmp op _ n c => op = .ne && n = name && c = 0

/-- The only comparisons of `name` are equalities. -/
def Fm.eqOnly (name : Name) : Fm → Prop
  | .const _ => True
  | .var _ _ => True
  | .neg f => f.eqOnly name
  | .and f g => f.eqOnly name ∧ g.eqOnly name
  | .or f g => f.eqOnly name ∧ g.eqOnly name
  | .imp f g => f.eqOnly name ∧ g.eqOnly name
  | .equiv f g => f.eqOnly name ∧ g.eqOnly name
  | .cmp op _ n _ => n = name → op = .eq

/-! ## The bits of a value -/

theorem intBit_ext (b : ℕ) (x y : ℤ) (hx0 : 0 ≤ x) (hx : x < 2 ^ b) (hy0 : 0 ≤ y) (hy : y < 2 ^ b)
    (h : ∀ i < b, intBit x i = intBit y i) : x = y := by
  have e : ((List.range b).map fun i => if intBit x i then (1 : ℤ) else 0)
      = ((List.range b).map fun i => if intBit y i then (1 : ℤ) else 0) := by
    apply List.map_congr_left
    intro i hi
    rw [h i (List.mem_range.1 hi)]
  have := congrArg bitsVal e
  rwa [bitsVal_bits, bitsVal_bits, Int.emod_eq_of_lt hx0 hx, Int.emod_eq_of_lt hy0 hy] at this

theorem domBits_fits (maxval x : ℤ) (h0 : 0 ≤ x) (h : x ≤ maxval) : x < 2 ^ domBits maxval := by
  have := (domain_fits maxval.toNat).1 x.toNat (by omega)
  have h2 : ((x.toNat : ℕ) : ℤ) < ((2 ^ numBits maxval.toNat : ℕ) : ℤ) := by exact_mod_cast this
  rw [Int.toNat_of_nonneg h0] at h2
  simpa [domBits] using h2

theorem domBits_pos (maxval : ℤ) : 1 ≤ domBits maxval := (domain_fits maxval.toNat).2.2

theorem bits_eq_domBits (maxval : ℤ) (h : 0 ≤ maxval) :
    (if maxval > 0 then Nat.clog 2 (maxval.toNat + 1) else 1) = domBits maxval := by
  unfold domBits numBits
  by_cases h1 : maxval > 0
  · rw [if_pos h1, if_pos (by omega)]
  · rw [if_neg h1, if_neg (by omega)]

/-! ## var_to_bool -/

/-- Entries for the bits of a variable. -/
def bitItems (name : Name) (k : ℕ) : List Item :=
  (List.range k).map fun i => (.var, some (bitName name i), 0)

theorem varToBoolLoop_eq (name : Name) (k : ℕ) : ∀ (i : ℕ) (xs : List Item),
    varToBoolLoop name k i (ofItems xs) =
      ofItems (xs ++ (List.range' i k).map fun j => (.var, some (bitName name j), 0)) := by
  induction k with
  | zero => intro i xs; simp [varToBoolLoop]
  | succ k ih =>
    intro i xs
    unfold varToBoolLoop
    rw [list_append, ih]
    simp [List.range'_succ, storedItem]

theorem varToBool_eq (name : Name) (maxval : ℤ) (h : 0 ≤ maxval) :
    varToBool name maxval = ofItems (bitItems name (domBits maxval)) := by
  unfold varToBool
  rw [if_neg (by omega)]
  simp only
  rw [initPtree_ofItems, varToBoolLoop_eq]
  congr 1
  have hb := bits_eq_domBits maxval h
  have hp := domBits_pos maxval
  have hk : Nat.clog 2 (maxval.toNat + 1) - 1 = domBits maxval - 1 := by
    by_cases h1 : maxval > 0
    · rw [if_pos h1] at hb; rw [hb]
    · rw [if_neg h1] at hb
      have : maxval.toNat = 0 := by omega
      rw [this, ← hb]; decide +kernel
  rw [hk]
  obtain ⟨m, hm⟩ : ∃ m, domBits maxval = m + 1 := ⟨domBits maxval - 1, by omega⟩
  rw [hm]
  simp only [bitItems, List.range_eq_range', List.range'_succ, Nat.add_sub_cancel]
  simp [storedItem]

/-! ## Equalities -/

/-- The literal for bit `i` in `name = val`. -/
def bitLit (nx : Bool) (name : Name) (val : ℤ) (i : ℕ) : Fm :=
  if intBit val i then .var nx (bitName name i) else .neg (.var nx (bitName name i))

theorem eqBits_toTree (name : Name) (k : ℕ) (hk : 1 ≤ k) (nx : Bool) (val : ℤ) :
    eqBits k (ofItems (bitItems name k)) nx val =
      (mergeFm .and ((List.range k).map (bitLit nx name val)).reverse).toTree := by
  rw [← mergePtrees_toTree_and _ (by simp; omega), List.map_map]
  unfold eqBits
  congr 1
  apply List.map_congr_left
  intro i hi
  rw [List.mem_range] at hi
  obtain ⟨l, hl⟩ := list_get_entry (bitItems name k) i (by simpa [bitItems] using hi)
  rw [hl]
  simp only [bitItems, List.getElem_map, List.getElem_range, bitLit, Function.comp]
  cases nx <;> cases intBit val i <;> simp [Fm.toTree, varTy]

theorem bitLit_eval {ρ : Env} {maxval : ℤ} {name : Name} {nx : Bool} (h : Encodes ρ maxval name nx)
    (val : ℤ) (i : ℕ) (hi : i < domBits maxval) :
    (bitLit nx name val i).eval ρ = (intBit (ρ.z nx name) i == intBit val i) := by
  unfold bitLit
  cases hv : intBit val i <;> simp [Fm.eval, h.2.2 i hi]

/-- The formula replacing `name = val`. -/
def eqFm (name : Name) (maxval : ℤ) (nx : Bool) (val : ℤ) : Fm :=
  if val > 2 ^ domBits maxval - 1 ∨ val < 0 then .const 0
  else mergeFm .and ((List.range (domBits maxval)).map (bitLit nx name val)).reverse

theorem expandEq_toTree (name : Name) (maxval : ℤ) (hm : 0 ≤ maxval) (nx : Bool) (val : ℤ) :
    expandEq name maxval (.node (varTy nx) (some name) 0 .nil .nil) (.node .const none val .nil .nil)
      = (eqFm name maxval nx val).toTree := by
  have hne : varToBool name maxval ≠ .nil := by
    rw [varToBool_eq name maxval hm]
    have := domBits_pos maxval
    obtain ⟨m, hm⟩ : ∃ m, domBits maxval = m + 1 := ⟨domBits maxval - 1, by omega⟩
    rw [hm]
    simp only [bitItems, List.range_succ_eq_map, List.map_cons, ofItems]
    simp
  have hnc : varTy nx ≠ .const := by cases nx <;> decide
  have hnx : decide (varTy nx ≠ .var) = nx := by cases nx <;> decide
  unfold expandEq
  simp only [if_neg hne, bits_eq_domBits maxval hm, if_neg hnc, hnx]
  unfold eqFm
  by_cases h : val > 2 ^ domBits maxval - 1 ∨ val < 0
  · rw [if_pos h, if_pos h]; rfl
  · rw [if_neg h, if_neg h, varToBool_eq name maxval hm, eqBits_toTree _ _ (domBits_pos maxval)]

theorem mergeFm_bvars_and (fs : List Fm) (P : Bool × Name → Prop) (h : ∀ f ∈ fs, ∀ b ∈ f.bvars, P b) :
    ∀ b ∈ (mergeFm .and fs).bvars, P b := by
  induction fs with
  | nil => intro b hb; simp [mergeFm, Fm.bvars] at hb
  | cons a fs ih =>
    cases fs with
    | nil => exact h a List.mem_cons_self
    | cons a' fs =>
      intro b hb
      simp only [mergeFm, Fm.bvars, List.mem_append] at hb
      rcases hb with hb | hb
      · exact ih (fun f hf => h f (List.mem_cons_of_mem _ hf)) b hb
      · exact h a List.mem_cons_self b hb

theorem mergeFm_zvars_and (fs : List Fm) (h : ∀ f ∈ fs, f.zvars = []) :
    (mergeFm .and fs).zvars = [] := by
  induction fs with
  | nil => rfl
  | cons a fs ih =>
    cases fs with
    | nil => exact h a List.mem_cons_self
    | cons a' fs =>
      simp only [mergeFm, Fm.zvars]
      rw [ih (fun f hf => h f (List.mem_cons_of_mem _ hf)), h a List.mem_cons_self]; rfl

theorem eqFm_expands (name : Name) (maxval : ℤ) (nx : Bool) (val : ℤ) :
    Expands name maxval (.cmp .eq nx name val) (eqFm name maxval nx val) := by
  have hp := domBits_pos maxval
  have hlit : ∀ f ∈ ((List.range (domBits maxval)).map (bitLit nx name val)).reverse,
      ∃ i < domBits maxval, f = bitLit nx name val i := by
    intro f hf
    rw [List.mem_reverse, List.mem_map] at hf
    obtain ⟨i, hi, rfl⟩ := hf
    exact ⟨i, List.mem_range.1 hi, rfl⟩
  apply Expands.cmp
  · unfold eqFm
    split
    · rfl
    · apply mergeFm_zvars_and
      intro f hf
      obtain ⟨i, _, rfl⟩ := hlit f hf
      unfold bitLit; split <;> rfl
  · unfold eqFm
    split
    · intro b hb; simp [Fm.bvars] at hb
    · apply mergeFm_bvars_and
      intro f hf b hb
      obtain ⟨i, hi, rfl⟩ := hlit f hf
      refine ⟨i, hi, ?_⟩
      unfold bitLit at hb
      split at hb <;> simpa [Fm.bvars] using hb
  · intro ρ hρ _
    unfold eqFm
    by_cases h : val > 2 ^ domBits maxval - 1 ∨ val < 0
    · rw [if_pos h]
      have h1 := hρ.1
      have h2 := hρ.2.1
      have : ρ.z nx name ≠ val := by omega
      simp [Fm.eval, CmpOp.holds, this]
    · rw [if_neg h, mergeFm_and_eval _ _ (by simp; omega), List.all_reverse, List.all_map]
      simp only [CmpOp.holds]
      by_cases hz : ρ.z nx name = val
      · simp only [hz, decide_true, List.all_eq_true, List.mem_range]
        intro i hi
        simp [Function.comp, bitLit_eval hρ val i hi, hz]
      · simp only [hz, decide_false]
        by_contra hc
        apply hz
        simp only [Bool.not_eq_false, List.all_eq_true, List.mem_range] at hc
        apply intBit_ext _ _ _ hρ.1 hρ.2.1 (by omega) (by omega)
        intro i hi
        have := hc i hi
        simp only [Function.comp, bitLit_eval hρ val i hi] at this
        exact eq_of_beq this

/-! ## Walking the tree -/

/-- What `expand_to_bool` does with a node after comparisons have been turned into equalities. -/
def expandBody (name : Name) (maxval : ℤ) (ty : PTy) (nm : Option Name) (v : ℤ) (l r : PTree) :
    Option PTree :=
  let rec' := (expandToBool name maxval l).bind fun a => (expandToBool name maxval r).bind fun b =>
    some (.node ty nm v a b)
  if ty = .eq then
    match eqMatches name l r with
    | none => none
    | some true => some (expandEq name maxval l r)
    | some false => rec'
  else rec'

theorem expand_unfold (name : Name) (maxval : ℤ) (t : PTree) (ht : t ≠ .nil) (ty : PTy)
    (nm : Option Name) (v : ℤ) (l r : PTree)
    (hv : expandNonboolVarnum name maxval t = some (.node ty nm v l r)) :
    expandToBool name maxval t = expandBody name maxval ty nm v l r := by
  cases t with
  | nil => exact absurd rfl ht
  | node ty0 nm0 v0 l0 r0 =>
    rw [expandToBool.eq_def]
    simp only
    split
    · rename_i h; rw [hv] at h; simp at h
    · rename_i h; rw [hv] at h; simp at h
    · rename_i h
      rw [hv] at h
      simp only [Option.some.injEq, PTree.node.injEq] at h
      obtain ⟨rfl, rfl, rfl, rfl, rfl⟩ := h
      rfl

theorem expand_crash (name : Name) (maxval : ℤ) (t : PTree) (ht : t ≠ .nil)
    (hv : expandNonboolVarnum name maxval t = some .nil) : expandToBool name maxval t = none := by
  cases t with
  | nil => exact absurd rfl ht
  | node ty0 nm0 v0 l0 r0 =>
    rw [expandToBool.eq_def]
    simp only
    split
    · rfl
    · rfl
    · rename_i h; rw [hv] at h; simp at h

theorem expand_plain (name : Name) (maxval : ℤ) (ty : PTy) (nm : Option Name) (v : ℤ) (l r : PTree)
    (h1 : isCmpTy ty = false) (h2 : ty ≠ .eq) :
    expandToBool name maxval (.node ty nm v l r) =
      (expandToBool name maxval l).bind fun a => (expandToBool name maxval r).bind fun b =>
        some (.node ty nm v a b) := by
  rw [expand_unfold name maxval _ (by simp) ty nm v l r (by simp [expandNonboolVarnum, h1])]
  simp only [expandBody, if_neg h2]

theorem expand_eq (name : Name) (maxval : ℤ) (nm : Option Name) (v : ℤ) (l r : PTree) (b : Bool)
    (h : eqMatches name l r = some b) :
    expandToBool name maxval (.node .eq nm v l r) =
      if b then some (expandEq name maxval l r)
      else (expandToBool name maxval l).bind fun a => (expandToBool name maxval r).bind fun b =>
        some (.node .eq nm v a b) := by
  rw [expand_unfold name maxval _ (by simp) .eq nm v l r (by simp [expandNonboolVarnum, isCmpTy])]
  simp only [expandBody, if_true, h]
  cases b <;> rfl

/-- A comparison is first turned into equalities, which are then expanded. -/
theorem expand_step (name : Name) (maxval : ℤ) (t t' : PTree) (ht : t ≠ .nil) (ht' : t' ≠ .nil)
    (h : expandNonboolVarnum name maxval t = some t')
    (h' : expandNonboolVarnum name maxval t' = some t') :
    expandToBool name maxval t = expandToBool name maxval t' := by
  cases t' with
  | nil => exact absurd rfl ht'
  | node ty' nm' v' l' r' =>
    rw [expand_unfold name maxval t ht _ _ _ _ _ h, expand_unfold name maxval _ ht' _ _ _ _ _ h']

theorem expand_nil (name : Name) (maxval : ℤ) : expandToBool name maxval .nil = some .nil := by
  rw [expandToBool.eq_def]

theorem expand_leaf (name : Name) (maxval : ℤ) (ty : PTy) (nm : Option Name) (v : ℤ)
    (h1 : isCmpTy ty = false) (h2 : ty ≠ .eq) :
    expandToBool name maxval (.node ty nm v .nil .nil) = some (.node ty nm v .nil .nil) := by
  rw [expand_plain _ _ _ _ _ _ _ h1 h2, expand_nil]; rfl

theorem expand_var (name : Name) (maxval : ℤ) (nx : Bool) (nm : Option Name) (v : ℤ) :
    expandToBool name maxval (.node (varTy nx) nm v .nil .nil) = some (.node (varTy nx) nm v .nil .nil) :=
  expand_leaf _ _ _ _ _ (by cases nx <;> decide) (by cases nx <;> decide)

theorem eqMatches_var (name n : Name) (nx : Bool) (c : ℤ) :
    eqMatches name (.node (varTy nx) (some n) 0 .nil .nil) (.node .const none c .nil .nil)
      = some (decide (n = name)) := by
  have hnc : varTy nx ≠ .const := by cases nx <;> decide
  unfold eqMatches
  simp only [if_pos hnc]
  by_cases h : n = name <;> simp [h]

/-- Formulas with only equalities of `name`. -/
theorem expand_eqOnly (name : Name) (maxval : ℤ) (hm : 0 ≤ maxval) (f : Fm) (hf : f.eqOnly name) :
    ∃ f', expandToBool name maxval f.toTree = some f'.toTree ∧ Expands name maxval f f' := by
  induction f with
  | const v => exact ⟨.const v, expand_leaf _ _ _ _ _ (by decide) (by decide), .const v⟩
  | var nx n => exact ⟨.var nx n, expand_var _ _ _ _ _, .var nx n⟩
  | neg f ih =>
    obtain ⟨f', h1, h2⟩ := ih hf
    refine ⟨.neg f', ?_, .neg h2⟩
    simp only [Fm.toTree]
    rw [expand_plain _ _ _ _ _ _ _ (by decide) (by decide), expand_nil, h1]; rfl
  | and f g ih1 ih2 =>
    obtain ⟨f', h1, h2⟩ := ih1 hf.1
    obtain ⟨g', h3, h4⟩ := ih2 hf.2
    refine ⟨.and f' g', ?_, .and h2 h4⟩
    simp only [Fm.toTree]
    rw [expand_plain _ _ _ _ _ _ _ (by decide) (by decide), h1, h3]; rfl
  | or f g ih1 ih2 =>
    obtain ⟨f', h1, h2⟩ := ih1 hf.1
    obtain ⟨g', h3, h4⟩ := ih2 hf.2
    refine ⟨.or f' g', ?_, .or h2 h4⟩
    simp only [Fm.toTree]
    rw [expand_plain _ _ _ _ _ _ _ (by decide) (by decide), h1, h3]; rfl
  | imp f g ih1 ih2 =>
    obtain ⟨f', h1, h2⟩ := ih1 hf.1
    obtain ⟨g', h3, h4⟩ := ih2 hf.2
    refine ⟨.imp f' g', ?_, .imp h2 h4⟩
    simp only [Fm.toTree]
    rw [expand_plain _ _ _ _ _ _ _ (by decide) (by decide), h1, h3]; rfl
  | equiv f g ih1 ih2 =>
    obtain ⟨f', h1, h2⟩ := ih1 hf.1
    obtain ⟨g', h3, h4⟩ := ih2 hf.2
    refine ⟨.equiv f' g', ?_, .equiv h2 h4⟩
    simp only [Fm.toTree]
    rw [expand_plain _ _ _ _ _ _ _ (by decide) (by decide), h1, h3]; rfl
  | cmp op nx n c =>
    by_cases hn : n = name
    · subst hn
      have : op = .eq := hf rfl
      subst this
      refine ⟨eqFm n maxval nx c, ?_, eqFm_expands n maxval nx c⟩
      simp only [Fm.toTree, CmpOp.ty]
      rw [expand_eq _ _ _ _ _ _ _ (eqMatches_var n n nx c)]
      simp [expandEq_toTree n maxval hm]
    · refine ⟨.cmp op nx n c, ?_, .other op nx n c hn⟩
      have hl := expand_var name maxval nx (some n) 0
      have hr := expand_leaf name maxval .const none c (by decide) (by decide)
      by_cases ho : op = .eq
      · subst ho
        simp only [Fm.toTree, CmpOp.ty]
        rw [expand_eq _ _ _ _ _ _ _ (eqMatches_var name n nx c), hl, hr]
        simp [hn]
      · have hvn : expandNonboolVarnum name maxval (Fm.cmp op nx n c).toTree
            = some (Fm.cmp op nx n c).toTree := by
          simp only [Fm.toTree, expandNonboolVarnum]
          cases nx <;> cases op <;> simp [isCmpTy, CmpOp.ty, varTy, hn]
        rw [expand_unfold name maxval _ (toTree_ne_nil _) _ _ _ _ _ hvn]
        simp only [expandBody]
        rw [if_neg (by cases op <;> first | exact absurd rfl ho | decide), hl, hr]
        rfl

/-! ## Meaning of expanded formulas -/

/-- All bits of the variable encode its values and the values lie in the domain. -/
def InDomain (ρ : Env) (maxval : ℤ) (name : Name) : Prop :=
  ∀ nx, Encodes ρ maxval name nx ∧ ρ.z nx name ≤ maxval

theorem expands_eval {name : Name} {maxval : ℤ} {f f' : Fm} (h : Expands name maxval f f') (ρ : Env)
    (hρ : ∀ nx, Encodes ρ maxval name nx) (hd : f.eqOnly name ∨ ∀ nx, ρ.z nx name ≤ maxval) :
    f'.eval ρ = f.eval ρ := by
  induction h with
  | const v => rfl
  | var nx n => rfl
  | neg _ ih => simp only [Fm.eval, ih hd]
  | and _ _ ih1 ih2 =>
    simp only [Fm.eval]
    rw [ih1 (hd.imp_left fun h => h.1), ih2 (hd.imp_left fun h => h.2)]
  | or _ _ ih1 ih2 =>
    simp only [Fm.eval]
    rw [ih1 (hd.imp_left fun h => h.1), ih2 (hd.imp_left fun h => h.2)]
  | imp _ _ ih1 ih2 =>
    simp only [Fm.eval]
    rw [ih1 (hd.imp_left fun h => h.1), ih2 (hd.imp_left fun h => h.2)]
  | equiv _ _ ih1 ih2 =>
    simp only [Fm.eval]
    rw [ih1 (hd.imp_left fun h => h.1), ih2 (hd.imp_left fun h => h.2)]
  | other => rfl
  | cmp op nx c g hz hb hev => exact hev ρ (hρ nx) (hd.imp (fun h => h rfl) (fun h => h nx))

theorem expands_zvars {name : Name} {maxval : ℤ} {f f' : Fm} (h : Expands name maxval f f') :
    f'.zvars = f.zvars.filter fun x => x.2 ≠ name := by
  induction h with
  | const v => rfl
  | var nx n => rfl
  | neg _ ih => simpa only [Fm.zvars] using ih
  | and _ _ ih1 ih2 | or _ _ ih1 ih2 | imp _ _ ih1 ih2 | equiv _ _ ih1 ih2 =>
    simp only [Fm.zvars, List.filter_append, ih1, ih2]
  | other op nx n c h => simp [Fm.zvars, h]
  | cmp op nx c g hz hb hev => simp [Fm.zvars, hz]

theorem expands_bvars {name : Name} {maxval : ℤ} {f f' : Fm} (h : Expands name maxval f f') :
    ∀ b ∈ f'.bvars, b ∈ f.bvars ∨ (∃ i < domBits maxval, b = (b.1, bitName name i) ∧ (b.1, name) ∈ f.zvars) := by
  induction h with
  | const v => intro b hb; exact Or.inl hb
  | var nx n => intro b hb; exact Or.inl hb
  | neg _ ih => exact ih
  | and _ _ ih1 ih2 | or _ _ ih1 ih2 | imp _ _ ih1 ih2 | equiv _ _ ih1 ih2 =>
    intro b hb
    simp only [Fm.bvars, Fm.zvars, List.mem_append] at hb ⊢
    rcases hb with hb | hb
    · rcases ih1 b hb with h | ⟨i, h1, h2, h3⟩
      · exact Or.inl (Or.inl h)
      · exact Or.inr ⟨i, h1, h2, Or.inl h3⟩
    · rcases ih2 b hb with h | ⟨i, h1, h2, h3⟩
      · exact Or.inl (Or.inr h)
      · exact Or.inr ⟨i, h1, h2, Or.inr h3⟩
  | other op nx n c h => intro b hb; simp [Fm.bvars] at hb
  | cmp op nx c g hz hb hev =>
    intro b hb'
    obtain ⟨i, h1, h2⟩ := hb b hb'
    right
    exact ⟨i, h1, by rw [h2], by rw [h2]; simp [Fm.zvars]⟩

/-! ## Comparisons -/

/-- The equalities for values `a .. a+k-1`. -/
def eqsFrom (nx : Bool) (name : Name) (l : List ℤ) : List Fm := l.map fun i => Fm.cmp .eq nx name i

theorem mergeFm_or_props (nx : Bool) (name : Name) (l : List ℤ) :
    (mergeFm .or (eqsFrom nx name l)).eqOnly name ∧
      (mergeFm .or (eqsFrom nx name l)).bvars = [] ∧
      ∀ x ∈ (mergeFm .or (eqsFrom nx name l)).zvars, x = (nx, name) := by
  induction l with
  | nil => simp [eqsFrom, mergeFm, Fm.eqOnly, Fm.bvars, Fm.zvars]
  | cons a l ih =>
    cases l with
    | nil => simp [eqsFrom, mergeFm, Fm.eqOnly, Fm.bvars, Fm.zvars]
    | cons b l =>
      simp only [eqsFrom, List.map_cons] at ih ⊢
      simp only [mergeFm, Fm.eqOnly, Fm.bvars, Fm.zvars]
      refine ⟨⟨ih.1, fun _ => by simp⟩, by rw [ih.2.1]; rfl, ?_⟩
      intro x hx
      rcases List.mem_append.1 hx with hx | hx
      · exact ih.2.2 x hx
      · simpa using hx

theorem eqNode_toTree (nx : Bool) (name : Name) (i : ℤ) :
    eqNode (varTy nx) name i = (Fm.cmp .eq nx name i).toTree := by
  cases nx <;> simp [eqNode, initPtree, varTy, Fm.toTree, CmpOp.ty]

theorem merge_eqs (nx : Bool) (name : Name) (l : List ℤ) (h : l ≠ []) :
    mergePtrees (l.map fun i => eqNode (varTy nx) name i) .or =
      (mergeFm .or (eqsFrom nx name l.reverse)).toTree := by
  have : (l.map fun i => eqNode (varTy nx) name i) = (eqsFrom nx name l).map Fm.toTree := by
    simp [eqsFrom, eqNode_toTree]
  rw [this, mergePtrees_toTree_or _ (by simpa [eqsFrom] using h)]
  simp [eqsFrom]

theorem merge_eqs_eval (ρ : Env) (nx : Bool) (name : Name) (l : List ℤ) (h : l ≠ []) :
    (mergeFm .or (eqsFrom nx name l.reverse)).eval ρ = decide (ρ.z nx name ∈ l) := by
  rw [mergeFm_or_eval _ _ (by simpa [eqsFrom] using h)]
  simp only [eqsFrom, List.map_reverse, List.any_reverse, List.any_map]
  rw [Bool.eq_iff_iff, List.any_eq_true]
  simp only [Function.comp, Fm.eval, CmpOp.holds, decide_eq_true_eq]
  constructor
  · rintro ⟨x, hx, rfl⟩; exact hx
  · intro h; exact ⟨_, h, rfl⟩

/-- What `expand_nonbool_varnum` makes of a comparison of `name`. -/
structure CmpFm (name : Name) (maxval : ℤ) (op : CmpOp) (nx : Bool) (c : ℤ) (g : Fm) : Prop where
  eqOnly : g.eqOnly name
  bvars : g.bvars = []
  zvars : ∀ x ∈ g.zvars, x = (nx, name)
  stable : expandNonboolVarnum name maxval g.toTree = some g.toTree
  eval : ∀ ρ : Env, 0 ≤ ρ.z nx name → ρ.z nx name ≤ maxval → g.eval ρ = op.holds (ρ.z nx name) c

theorem stable_const (name : Name) (maxval v : ℤ) :
    expandNonboolVarnum name maxval (Fm.const v).toTree = some (Fm.const v).toTree := by
  simp [Fm.toTree, expandNonboolVarnum, isCmpTy]

theorem stable_merge (nx : Bool) (name : Name) (maxval : ℤ) (l : List ℤ) :
    expandNonboolVarnum name maxval (mergeFm .or (eqsFrom nx name l)).toTree =
      some (mergeFm .or (eqsFrom nx name l)).toTree := by
  match l with
  | [] => exact stable_const _ _ _
  | [a] => simp [eqsFrom, mergeFm, Fm.toTree, expandNonboolVarnum, isCmpTy, CmpOp.ty]
  | a :: b :: l => simp [eqsFrom, mergeFm, Fm.toTree, expandNonboolVarnum, isCmpTy]

theorem cmpFm_const (name : Name) (maxval : ℤ) (op : CmpOp) (nx : Bool) (c v : ℤ)
    (h : ∀ x : ℤ, 0 ≤ x → x ≤ maxval → op.holds x c = decide (v ≠ 0)) :
    CmpFm name maxval op nx c (.const v) where
  eqOnly := trivial
  bvars := rfl
  zvars := by intro x hx; simp [Fm.zvars] at hx
  stable := stable_const _ _ _
  eval := by intro ρ h1 h2; rw [h _ h1 h2]; rfl

theorem cmpFm_merge (name : Name) (maxval : ℤ) (op : CmpOp) (nx : Bool) (c : ℤ) (l : List ℤ) (hl : l ≠ [])
    (h : ∀ x : ℤ, 0 ≤ x → x ≤ maxval → (op.holds x c = true ↔ x ∈ l)) :
    CmpFm name maxval op nx c (mergeFm .or (eqsFrom nx name l.reverse)) where
  eqOnly := (mergeFm_or_props _ _ _).1
  bvars := (mergeFm_or_props _ _ _).2.1
  zvars := (mergeFm_or_props _ _ _).2.2
  stable := stable_merge _ _ _ _
  eval := by
    intro ρ h1 h2
    rw [merge_eqs_eval ρ nx name l hl, Bool.eq_iff_iff, h _ h1 h2]
    simp

theorem eqRange_fm (nx : Bool) (name : Name) (a b : ℤ) (h : a ≤ b) :
    ∃ l : List ℤ, l ≠ [] ∧ (∀ x, x ∈ l ↔ a ≤ x ∧ x ≤ b) ∧
      eqRange (varTy nx) name a b = (mergeFm .or (eqsFrom nx name l.reverse)).toTree := by
  refine ⟨(List.range (b - a + 1).toNat).map fun (k : ℕ) => a + (k : ℤ), ?_, ?_, ?_⟩
  · have : (b - a + 1).toNat ≠ 0 := by omega
    simpa using this
  · intro x
    simp only [List.mem_map, List.mem_range]
    constructor
    · rintro ⟨k, hk, rfl⟩; omega
    · intro hx; exact ⟨(x - a).toNat, by omega, by omega⟩
  · rw [← merge_eqs nx name _ (by
      have : (b - a + 1).toNat ≠ 0 := by omega
      simpa using this)]
    simp [eqRange, Function.comp_def]

theorem expandCmp_fm (name : Name) (maxval : ℤ) (hm : 0 ≤ maxval) (op : CmpOp) (hop : op ≠ .eq) (nx : Bool)
    (c : ℤ) (h0 : ¬ (op = .ne ∧ maxval = 0 ∧ c = 0)) :
    ∃ g : Fm, expandCmp op.ty (varTy nx) name c maxval = g.toTree ∧ CmpFm name maxval op nx c g := by
  have hc0 : initPtree .const none 0 = (Fm.const 0).toTree := rfl
  have hc1 : initPtree .const none 1 = (Fm.const 1).toTree := rfl
  cases op with
  | eq => exact absurd rfl hop
  | ne =>
    by_cases h : c < 0 ∨ c > maxval
    · refine ⟨.const 1, ?_, ?_⟩
      · rw [← hc1]; simp [expandCmp, CmpOp.ty, h]
      · apply cmpFm_const
        intro x h1 h2
        simp only [CmpOp.holds]
        have : x ≠ c := by omega
        simp [this]
    · let l : List ℤ := ((List.range (maxval + 1).toNat).filter fun (k : ℕ) => (k : ℤ) ≠ c).map fun (k : ℕ) => (k : ℤ)
      have hl : ∀ x, x ∈ l ↔ 0 ≤ x ∧ x ≤ maxval ∧ x ≠ c := by
        intro x
        simp only [l, List.mem_map, List.mem_filter, List.mem_range, decide_eq_true_eq]
        constructor
        · rintro ⟨k, ⟨h1, h2⟩, rfl⟩; omega
        · rintro ⟨h1, h2, h3⟩
          exact ⟨x.toNat, ⟨by omega, by omega⟩, by omega⟩
      have hne : l ≠ [] := by
        have hmem : (if c = 0 then maxval else 0) ∈ l := by
          rw [hl]
          split <;> simp at h0 <;> omega
        exact List.ne_nil_of_mem hmem
      refine ⟨mergeFm .or (eqsFrom nx name l.reverse), ?_, ?_⟩
      · rw [← merge_eqs nx name l hne]
        simp [expandCmp, CmpOp.ty, h, l, Function.comp_def]
      · apply cmpFm_merge _ _ _ _ _ _ hne
        intro x h1 h2
        rw [hl]
        simp [CmpOp.holds, h1, h2]
  | lt =>
    by_cases h : c ≤ 0
    · refine ⟨.const 0, ?_, ?_⟩
      · rw [← hc0]; simp [expandCmp, CmpOp.ty, h]
      · apply cmpFm_const
        intro x h1 h2
        have : ¬ x < c := by omega
        simp [CmpOp.holds, this]
    · obtain ⟨l, hl1, hl2, hl3⟩ := eqRange_fm nx name 0 (c - 1) (by omega)
      refine ⟨_, ?_, cmpFm_merge name maxval .lt nx c l hl1 ?_⟩
      · rw [← hl3]; simp [expandCmp, CmpOp.ty, h]
      · intro x h1 h2
        rw [hl2]; simp only [CmpOp.holds, decide_eq_true_eq]; omega
  | gt =>
    by_cases h : c ≥ maxval
    · refine ⟨.const 0, ?_, ?_⟩
      · rw [← hc0]; simp [expandCmp, CmpOp.ty, h]
      · apply cmpFm_const
        intro x h1 h2
        have : ¬ x > c := by omega
        simp [CmpOp.holds]; omega
    · obtain ⟨l, hl1, hl2, hl3⟩ := eqRange_fm nx name (c + 1) maxval (by omega)
      refine ⟨_, ?_, cmpFm_merge name maxval .gt nx c l hl1 ?_⟩
      · rw [← hl3]; simp [expandCmp, CmpOp.ty, h]
      · intro x h1 h2
        rw [hl2]; simp only [CmpOp.holds, decide_eq_true_eq]; omega
  | le =>
    by_cases h : c < 0
    · refine ⟨.const 0, ?_, ?_⟩
      · rw [← hc0]; simp [expandCmp, CmpOp.ty, h]
      · apply cmpFm_const
        intro x h1 h2
        simp [CmpOp.holds]; omega
    · obtain ⟨l, hl1, hl2, hl3⟩ := eqRange_fm nx name 0 c (by omega)
      refine ⟨_, ?_, cmpFm_merge name maxval .le nx c l hl1 ?_⟩
      · rw [← hl3]; simp [expandCmp, CmpOp.ty, h]
      · intro x h1 h2
        rw [hl2]; simp only [CmpOp.holds, decide_eq_true_eq]; omega
  | ge =>
    by_cases h : c > maxval
    · refine ⟨.const 0, ?_, ?_⟩
      · rw [← hc0]; simp [expandCmp, CmpOp.ty, h]
      · apply cmpFm_const
        intro x h1 h2
        simp [CmpOp.holds]; omega
    · obtain ⟨l, hl1, hl2, hl3⟩ := eqRange_fm nx name c maxval (by omega)
      refine ⟨_, ?_, cmpFm_merge name maxval .ge nx c l hl1 ?_⟩
      · rw [← hl3]; simp [expandCmp, CmpOp.ty, h]
      · intro x h1 h2
        rw [hl2]; simp only [CmpOp.holds, decide_eq_true_eq]; omega

theorem varnum_cmp (name : Name) (maxval : ℤ) (op : CmpOp) (hop : op ≠ .eq) (nx : Bool) (c : ℤ) :
    expandNonboolVarnum name maxval (Fm.cmp op nx name c).toTree =
      some (expandCmp op.ty (varTy nx) name c maxval) := by
  simp only [Fm.toTree, expandNonboolVarnum]
  cases nx <;> cases op <;> first | exact absurd rfl hop | simp [isCmpTy, CmpOp.ty, varTy, isVarTy]

/-- One comparison. -/
theorem expand_cmp (name : Name) (maxval : ℤ) (hm : 0 ≤ maxval) (op : CmpOp) (nx : Bool) (n : Name) (c : ℤ)
    (h0 : ¬ (op = .ne ∧ n = name ∧ maxval = 0 ∧ c = 0)) :
    ∃ f', expandToBool name maxval (Fm.cmp op nx n c).toTree = some f'.toTree ∧
      Expands name maxval (.cmp op nx n c) f' := by
  by_cases hn : n = name
  · subst hn
    by_cases hop : op = .eq
    · exact expand_eqOnly n maxval hm _ (fun _ => hop)
    · obtain ⟨g, hg, hc⟩ := expandCmp_fm n maxval hm op hop nx c (by tauto)
      have hv := varnum_cmp n maxval op hop nx c
      rw [hg] at hv
      rw [expand_step n maxval _ _ (toTree_ne_nil _) (toTree_ne_nil _) hv hc.stable]
      obtain ⟨g', h1, h2⟩ := expand_eqOnly n maxval hm g hc.eqOnly
      refine ⟨g', h1, ?_⟩
      apply Expands.cmp
      · rw [expands_zvars h2, List.filter_eq_nil_iff]
        intro x hx; simp [hc.zvars x hx]
      · intro b hb
        rcases expands_bvars h2 b hb with h | ⟨i, hi, hbi, hbz⟩
        · rw [hc.bvars] at h; simp at h
        · have := hc.zvars _ hbz
          simp only [Prod.mk.injEq, and_true] at this
          exact ⟨i, hi, by rw [hbi, this]⟩
      · intro ρ hρ hd
        have hz : ρ.z nx n ≤ maxval := hd.resolve_left hop
        -- only one tense matters
        let ρ' : Env := ⟨fun _ x => ρ.b nx x, fun _ x => ρ.z nx x⟩
        have key : ∀ f : Fm, (∀ x ∈ f.bvars, x.1 = nx) → (∀ x ∈ f.zvars, x.1 = nx) → f.eval ρ' = f.eval ρ := by
          intro f
          induction f with
          | const v => intros; rfl
          | var nx' m => intro hb _; have := hb (nx', m) (by simp [Fm.bvars]); simp at this; simp [Fm.eval, ρ', this]
          | neg f ih => intro hb hz; simp only [Fm.eval, ih hb hz]
          | and f g ih1 ih2 | or f g ih1 ih2 | imp f g ih1 ih2 | equiv f g ih1 ih2 =>
            intro hb hz
            simp only [Fm.eval]
            rw [ih1 (fun x hx => hb x (by simp [Fm.bvars, hx])) (fun x hx => hz x (by simp [Fm.zvars, hx])),
              ih2 (fun x hx => hb x (by simp [Fm.bvars, hx])) (fun x hx => hz x (by simp [Fm.zvars, hx]))]
          | cmp op nx' m c => intro _ hz; have := hz (nx', m) (by simp [Fm.zvars]); simp at this; simp [Fm.eval, ρ', this]
        have hg' : g'.eval ρ' = g'.eval ρ := by
          apply key
          · intro x hx
            rcases expands_bvars h2 x hx with h | ⟨i, hi, hbi, hbz⟩
            · rw [hc.bvars] at h; simp at h
            · have := hc.zvars _ hbz
              simp only [Prod.mk.injEq, and_true] at this
              exact this
          · intro x hx
            rw [expands_zvars h2, List.mem_filter] at hx
            rw [hc.zvars x hx.1]
        have hg2 : g.eval ρ' = g.eval ρ := by
          apply key
          · intro x hx; rw [hc.bvars] at hx; simp at hx
          · intro x hx; rw [hc.zvars x hx]
        rw [← hg', expands_eval h2 ρ' (fun _ => hρ) (Or.inl hc.eqOnly), hg2, hc.eval ρ hρ.1 hz]
  · exact expand_eqOnly name maxval hm _ (fun h => absurd h hn)

end Gr1c
