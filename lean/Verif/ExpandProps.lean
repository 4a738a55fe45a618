import Verif.ExpandLemmas

/-!
# C15, C16, C17: expansion of integer variables
-/

namespace Gr1c

open PTree

/-! ## C15 -/

/-- **C15.** For a formula written by the grammar (variable left of the comparison), expanding variable
`name` with domain `[0, maxval]` replaces exactly its comparisons, by formulas over its bits with the
same meaning; the result has the same truth value in every state whose bits encode in-domain values,
and no comparison of `name` is left. The excluded case is `expand_to_bool_crash`. -/
theorem expand_to_bool_exact (name : Name) (maxval : ℤ) (hm : 0 ≤ maxval) (f : Fm)
    (h0 : 0 < maxval ∨ f.hasNe0 name = false) :
    ∃ f', expandToBool name maxval f.toTree = some f'.toTree ∧ Expands name maxval f f' ∧
      (∀ ρ, InDomain ρ maxval name → f'.eval ρ = f.eval ρ) ∧
      f'.zvars = f.zvars.filter (fun x => x.2 ≠ name) := by
  have main : ∃ f', expandToBool name maxval f.toTree = some f'.toTree ∧ Expands name maxval f f' := by
    induction f with
    | const v => exact expand_eqOnly name maxval hm _ trivial
    | var nx n => exact expand_eqOnly name maxval hm _ trivial
    | neg f ih =>
      obtain ⟨f', h1, h2⟩ := ih h0
      refine ⟨.neg f', ?_, .neg h2⟩
      simp only [Fm.toTree]
      rw [expand_plain _ _ _ _ _ _ _ (by decide) (by decide), expand_nil, h1]; rfl
    | and f g ih1 ih2 =>
      simp only [Fm.hasNe0, Bool.or_eq_false_iff] at h0
      obtain ⟨f', h1, h2⟩ := ih1 (h0.imp_right fun h => h.1)
      obtain ⟨g', h3, h4⟩ := ih2 (h0.imp_right fun h => h.2)
      refine ⟨.and f' g', ?_, .and h2 h4⟩
      simp only [Fm.toTree]
      rw [expand_plain _ _ _ _ _ _ _ (by decide) (by decide), h1, h3]; rfl
    | or f g ih1 ih2 =>
      simp only [Fm.hasNe0, Bool.or_eq_false_iff] at h0
      obtain ⟨f', h1, h2⟩ := ih1 (h0.imp_right fun h => h.1)
      obtain ⟨g', h3, h4⟩ := ih2 (h0.imp_right fun h => h.2)
      refine ⟨.or f' g', ?_, .or h2 h4⟩
      simp only [Fm.toTree]
      rw [expand_plain _ _ _ _ _ _ _ (by decide) (by decide), h1, h3]; rfl
    | imp f g ih1 ih2 =>
      simp only [Fm.hasNe0, Bool.or_eq_false_iff] at h0
      obtain ⟨f', h1, h2⟩ := ih1 (h0.imp_right fun h => h.1)
      obtain ⟨g', h3, h4⟩ := ih2 (h0.imp_right fun h => h.2)
      refine ⟨.imp f' g', ?_, .imp h2 h4⟩
      simp only [Fm.toTree]
      rw [expand_plain _ _ _ _ _ _ _ (by decide) (by decide), h1, h3]; rfl
    | equiv f g ih1 ih2 =>
      simp only [Fm.hasNe0, Bool.or_eq_false_iff] at h0
      obtain ⟨f', h1, h2⟩ := ih1 (h0.imp_right fun h => h.1)
      obtain ⟨g', h3, h4⟩ := ih2 (h0.imp_right fun h => h.2)
      refine ⟨.equiv f' g', ?_, .equiv h2 h4⟩
      simp only [Fm.toTree]
      rw [expand_plain _ _ _ _ _ _ _ (by decide) (by decide), h1, h3]; rfl
    | cmp op nx n c =>
      apply expand_cmp name maxval hm
      rintro ⟨rfl, rfl, h1, rfl⟩
      simp [Fm.hasNe0] at h0
      omega
  obtain ⟨f', h1, h2⟩ := main
  exact ⟨f', h1, h2, fun ρ hρ => expands_eval h2 ρ (fun nx => (hρ nx).1) (Or.inr fun nx => (hρ nx).2),
    expands_zvars h2⟩

/-- C15 fails for the domain `[0,0]`: any formula containing `name != 0` makes `expand_to_bool`
dereference NULL (`merge_ptrees` with length 0 returns NULL, `/repo/src/ptree.c` 369 and 420). -/
theorem expand_to_bool_crash (name : Name) (f : Fm) (h : f.hasNe0 name = true) :
    expandToBool name 0 f.toTree = none := by
  induction f with
  | const v => simp [Fm.hasNe0] at h
  | var nx n => simp [Fm.hasNe0] at h
  | neg f ih =>
    simp only [Fm.toTree]
    rw [expand_plain _ _ _ _ _ _ _ (by decide) (by decide), expand_nil, ih h]; rfl
  | and f g ih1 ih2 | or f g ih1 ih2 | imp f g ih1 ih2 | equiv f g ih1 ih2 =>
    simp only [Fm.toTree]
    rw [expand_plain _ _ _ _ _ _ _ (by decide) (by decide)]
    simp only [Fm.hasNe0, Bool.or_eq_true] at h
    by_cases hf : f.hasNe0 name = true
    · rw [ih1 hf]; rfl
    · obtain ⟨f', h1, _⟩ := expand_to_bool_exact name 0 (by omega) f (Or.inr (by simpa using hf))
      rw [h1, ih2 (h.resolve_left hf)]; rfl
  | cmp op nx n c =>
    simp only [Fm.hasNe0, Bool.and_eq_true, decide_eq_true_eq] at h
    obtain ⟨⟨rfl, rfl⟩, rfl⟩ := h
    apply expand_crash _ _ _ (toTree_ne_nil _)
    rw [varnum_cmp _ _ _ (by decide)]
    cases nx <;> simp [expandCmp, CmpOp.ty, mergePtrees, varTy]

/-- The tree `3 < x`, constant on the left. The grammar cannot produce it, the C interface can. -/
def constLeft : PTree :=
  .node .lt none 0 (.node .const none 3 .nil .nil) (.node .var (some ['x']) 0 .nil .nil)

/-- C15 also fails for an ordering with the constant on the left: `3 < x` is expanded exactly like
`x < 3`. -/
theorem expand_constLeft_wrong :
    expandToBool ['x'] 7 constLeft = expandToBool ['x'] 7 (Fm.cmp .lt false ['x'] 3).toTree := by
  have h1 : expandNonboolVarnum ['x'] 7 constLeft =
      some (expandCmp .lt .var ['x'] 3 7) := by decide +kernel
  have h2 := varnum_cmp ['x'] 7 .lt (by decide) false 3
  obtain ⟨g, hg, hc⟩ := expandCmp_fm ['x'] 7 (by omega) .lt (by decide) false 3 (by simp)
  have h3 : expandCmp .lt .var ['x'] 3 7 = g.toTree := hg
  rw [h3] at h1
  rw [hg] at h2
  rw [expand_step _ _ _ _ (by simp [constLeft]) (toTree_ne_nil _) h1 hc.stable,
    expand_step _ _ _ _ (toTree_ne_nil _) (toTree_ne_nil _) h2 hc.stable]

/-- `x < 2 & b` with domain `[0,3]` becomes `((!x0 & !x1) | (x0 & !x1)) & b`. -/
example : expandToBool ['x'] 3 (Fm.and (.cmp .lt false ['x'] 2) (.var false ['b'])).toTree =
    some (Fm.and (.or (.and (.neg (.var false ['x', '0'])) (.neg (.var false ['x', '1'])))
      (.and (.var false ['x', '0']) (.neg (.var false ['x', '1'])))) (.var false ['b'])).toTree := by
  simp only [Fm.toTree]
  rw [expand_plain _ _ _ _ _ _ _ (by decide) (by decide), expand_var,
    expand_step ['x'] 3 _ (Fm.or (.cmp .eq false ['x'] 0) (.cmp .eq false ['x'] 1)).toTree (by simp)
      (toTree_ne_nil _) (by decide +kernel) (by decide +kernel)]
  simp only [Fm.toTree]
  rw [expand_plain _ _ _ _ _ _ _ (by decide) (by decide)]
  simp only [CmpOp.ty]
  rw [expand_eq _ _ _ _ _ _ true (by decide +kernel), expand_eq _ _ _ _ _ _ true (by decide +kernel)]
  decide +kernel

example : InDomain ⟨fun _ n => n == ['x', '1'], fun _ _ => 2⟩ 3 ['x'] := by
  have h : domBits 3 = 2 := by decide +kernel
  unfold InDomain Encodes
  rw [h]; decide +kernel

example : (Fm.neg (.cmp .ne true ['x'] 0)).hasNe0 ['x'] = true := by decide +kernel

/-! ## C16: blocking the unused bit patterns -/

/-- **C16.** The formula built by `unreach_expanded_bool` is true exactly when the value is not in
`[lower, upper]`. -/
theorem unreach_exact (name : Name) (lower upper : ℤ) (h : lower ≤ upper) (nx : Bool) :
    ∃ g : Fm, unreachExpandedBool name lower upper (varTy nx) = g.toTree ∧
      (∀ ρ : Env, g.eval ρ = true ↔ ¬ (lower ≤ ρ.z nx name ∧ ρ.z nx name ≤ upper)) ∧
      (∀ m, g.eqOnly m) ∧ g.bvars = [] ∧ (∀ x ∈ g.zvars, x = (nx, name)) := by
  have key : ∀ k : ℕ, ∃ g : Fm, unreachLoop name (varTy nx) lower k = g.toTree ∧
      (∀ ρ : Env, g.eval ρ = true ↔ ¬ (lower ≤ ρ.z nx name ∧ ρ.z nx name ≤ lower + k)) ∧
      (∀ m, g.eqOnly m) ∧ g.bvars = [] ∧ (∀ x ∈ g.zvars, x = (nx, name)) := by
    intro k
    induction k with
    | zero =>
      refine ⟨.neg (.cmp .eq nx name lower), ?_, ?_, ?_, rfl, ?_⟩
      · simp only [unreachLoop, eqNode_toTree, Fm.toTree]
      · intro ρ
        simp only [Fm.eval, CmpOp.holds, Bool.not_eq_true', decide_eq_false_iff_not]
        omega
      · intro m; simp [Fm.eqOnly]
      · intro x hx; simpa [Fm.zvars] using hx
    | succ k ih =>
      obtain ⟨g, h1, h2, h3, h4, h5⟩ := ih
      refine ⟨.and (.neg (.cmp .eq nx name (lower + (k + 1 : ℕ)))) g, ?_, ?_, ?_, ?_, ?_⟩
      · simp only [unreachLoop, eqNode_toTree, Fm.toTree, h1]
      · intro ρ
        simp only [Fm.eval, Bool.and_eq_true, h2 ρ, CmpOp.holds, Bool.not_eq_true',
          decide_eq_false_iff_not]
        push_cast
        omega
      · intro m; simp [Fm.eqOnly, h3]
      · simp [Fm.bvars, h4]
      · intro x hx
        simp only [Fm.zvars, List.mem_append, List.mem_singleton] at hx
        exact hx.elim id (h5 x)
  obtain ⟨g, h1, h2, h3⟩ := key (upper - lower).toNat
  refine ⟨g, ?_, ?_, h3⟩
  · unfold unreachExpandedBool
    rw [if_neg (by omega), if_neg (by cases nx <;> simp [varTy]), h1]
  · intro ρ
    rw [h2 ρ]
    have : lower + ((upper - lower).toNat : ℤ) = upper := by omega
    rw [this]

/-- **C16.** NULL for an empty interval or a type that is not a variable type. -/
theorem unreach_null (name : Name) (lower upper : ℤ) (ty : PTy) (h : lower > upper ∨ isVarTy ty = false) :
    unreachExpandedBool name lower upper ty = .nil := by
  unfold unreachExpandedBool
  by_cases h1 : lower > upper
  · rw [if_pos h1]
  · rw [if_neg h1, if_pos]
    have := h.resolve_left h1
    rintro (h2 | h2) <;> subst h2 <;> simp [isVarTy] at this

example : unreachExpandedBool ['x'] 5 7 .next =
    (Fm.and (.neg (.cmp .eq true ['x'] 7)) (.and (.neg (.cmp .eq true ['x'] 6))
      (.neg (.cmp .eq true ['x'] 5)))).toTree := by decide +kernel

/-! ### `expand_nonbool_GR1` -/

/-- Declared variables: name and -1 (Boolean) or the upper end of the domain. -/
abbrev Decls := List (Name × ℤ)

/-- The list the parser builds. -/
def Decls.tree (ds : Decls) : PTree := ofItems (ds.map fun d => (.var, some d.1, d.2))

/-- Specification with formulas. -/
structure FSpec where
  einit : Option Fm
  sinit : Option Fm
  etrans : List Fm
  strans : List Fm
  egoals : List Fm
  sgoals : List Fm

def optTree : Option Fm → PTree
  | none => .nil
  | some f => f.toTree

def FSpec.toT (sp : FSpec) : TSpec :=
  ⟨optTree sp.einit, optTree sp.sinit, sp.etrans.map Fm.toTree, sp.strans.map Fm.toTree,
    sp.egoals.map Fm.toTree, sp.sgoals.map Fm.toTree⟩

/-- All formulas of a specification. -/
def FSpec.all (sp : FSpec) : List Fm :=
  sp.einit.toList ++ sp.sinit.toList ++ sp.etrans ++ sp.strans ++ sp.egoals ++ sp.sgoals

/-- The integer variables' values fit into and are encoded by their bits (both tenses). -/
def EncodesAll (ρ : Env) (ds : Decls) : Prop := ∀ d ∈ ds, 0 ≤ d.2 → ∀ nx, Encodes ρ d.2 d.1 nx

/-- The integer variables have values in their domains. -/
def DomAll (ρ : Env) (ds : Decls) (nx : Bool) : Prop := ∀ d ∈ ds, 0 ≤ d.2 → ρ.z nx d.1 ≤ d.2

/-- Truth of an optional formula; absent means True. -/
def optEval (ρ : Env) : Option Fm → Bool
  | none => true
  | some f => f.eval ρ

/-- Successive expansion of all integer variables of a declaration list. -/
inductive ExpandsAll : Decls → Fm → Fm → Prop
  | nil (f : Fm) : ExpandsAll [] f f
  | bool {n : Name} {v : ℤ} {ds : Decls} {f f' : Fm} (h : v < 0) :
      ExpandsAll ds f f' → ExpandsAll ((n, v) :: ds) f f'
  | int {n : Name} {v : ℤ} {ds : Decls} {f g f' : Fm} (h : 0 ≤ v) :
      Expands n v f g → ExpandsAll ds g f' → ExpandsAll ((n, v) :: ds) f f'

theorem eqOnly_of_zvars (m : Name) (g : Fm) (h : ∀ x ∈ g.zvars, x.2 ≠ m) : g.eqOnly m := by
  induction g with
  | const v => trivial
  | var nx n => trivial
  | neg f ih => exact ih h
  | and f g ih1 ih2 | or f g ih1 ih2 | imp f g ih1 ih2 | equiv f g ih1 ih2 =>
    exact ⟨ih1 fun x hx => h x (by simp [Fm.zvars, hx]), ih2 fun x hx => h x (by simp [Fm.zvars, hx])⟩
  | cmp op nx n c => intro hn; exact absurd hn (h (nx, n) (by simp [Fm.zvars]))

theorem hasNe0_of_zvars (m : Name) (g : Fm) (h : ∀ x ∈ g.zvars, x.2 ≠ m) : g.hasNe0 m = false := by
  induction g with
  | const v => rfl
  | var nx n => rfl
  | neg f ih => exact ih h
  | and f g ih1 ih2 | or f g ih1 ih2 | imp f g ih1 ih2 | equiv f g ih1 ih2 =>
    simp only [Fm.hasNe0, ih1 fun x hx => h x (by simp [Fm.zvars, hx]),
      ih2 fun x hx => h x (by simp [Fm.zvars, hx]), Bool.or_self]
  | cmp op nx n c =>
    have := h (nx, n) (by simp [Fm.zvars])
    simp only at this
    simp [Fm.hasNe0, this]

theorem expands_eqOnly {name : Name} {maxval : ℤ} {f f' : Fm} (h : Expands name maxval f f') (m : Name)
    (hf : f.eqOnly m) : f'.eqOnly m := by
  induction h with
  | const v => trivial
  | var nx n => trivial
  | neg _ ih => exact ih hf
  | and _ _ ih1 ih2 | or _ _ ih1 ih2 | imp _ _ ih1 ih2 | equiv _ _ ih1 ih2 => exact ⟨ih1 hf.1, ih2 hf.2⟩
  | other => exact hf
  | cmp op nx c g hz hb hev => exact eqOnly_of_zvars m g (by rw [hz]; simp)

theorem expands_hasNe0 {name : Name} {maxval : ℤ} {f f' : Fm} (h : Expands name maxval f f') (m : Name)
    (hf : f.hasNe0 m = false) : f'.hasNe0 m = false := by
  induction h with
  | const v => rfl
  | var nx n => rfl
  | neg _ ih => exact ih hf
  | and _ _ ih1 ih2 | or _ _ ih1 ih2 | imp _ _ ih1 ih2 | equiv _ _ ih1 ih2 =>
    simp only [Fm.hasNe0, Bool.or_eq_false_iff] at hf ⊢
    exact ⟨ih1 hf.1, ih2 hf.2⟩
  | other => exact hf
  | cmp op nx c g hz hb hev => exact hasNe0_of_zvars m g (by rw [hz]; simp)

theorem expandsAll_eval {ds : Decls} {f f' : Fm} (h : ExpandsAll ds f f') (ρ : Env)
    (he : EncodesAll ρ ds) (hd : (∀ m, f.eqOnly m) ∨ ∀ nx, DomAll ρ ds nx) : f'.eval ρ = f.eval ρ := by
  induction h with
  | nil f => rfl
  | @bool n v ds f f' hv _ ih =>
    exact ih (fun d hd => he d (List.mem_cons_of_mem _ hd))
      (hd.imp_right fun h nx d hd => h nx d (List.mem_cons_of_mem _ hd))
  | @int n v ds f g f' hv hx _ ih =>
    rw [ih (fun d hd => he d (List.mem_cons_of_mem _ hd))
      (hd.imp (fun h m => expands_eqOnly hx m (h m))
        fun h nx d hd => h nx d (List.mem_cons_of_mem _ hd))]
    exact expands_eval hx ρ (he (n, v) List.mem_cons_self hv)
      (hd.imp (fun h => h n) fun h nx => h nx (n, v) List.mem_cons_self hv)

theorem expandsAll_zvars {ds : Decls} {f f' : Fm} (h : ExpandsAll ds f f') :
    ∀ x ∈ f'.zvars, x ∈ f.zvars ∧ ∀ d ∈ ds, 0 ≤ d.2 → x.2 ≠ d.1 := by
  induction h with
  | nil f => intro x hx; exact ⟨hx, by simp⟩
  | @bool n v ds f f' hv _ ih =>
    intro x hx
    refine ⟨(ih x hx).1, ?_⟩
    intro d hd h0
    rcases List.mem_cons.1 hd with rfl | hd
    · simp only at h0; omega
    · exact (ih x hx).2 d hd h0
  | @int n v ds f g f' hv hx _ ih =>
    intro x hx'
    have h1 := (ih x hx').1
    rw [expands_zvars hx, List.mem_filter] at h1
    refine ⟨h1.1, ?_⟩
    intro d hd h0
    rcases List.mem_cons.1 hd with rfl | hd
    · simpa using h1.2
    · exact (ih x hx').2 d hd h0

theorem expandsAll_bvars {ds : Decls} {f f' : Fm} (h : ExpandsAll ds f f') :
    ∀ b ∈ f'.bvars, b ∈ f.bvars ∨
      ∃ d ∈ ds, 0 ≤ d.2 ∧ ∃ i < domBits d.2, b = (b.1, bitName d.1 i) ∧ (b.1, d.1) ∈ f.zvars := by
  induction h with
  | nil f => intro b hb; exact Or.inl hb
  | @bool n v ds f f' hv _ ih =>
    intro b hb
    rcases ih b hb with h | ⟨d, hd, h⟩
    · exact Or.inl h
    · exact Or.inr ⟨d, List.mem_cons_of_mem _ hd, h⟩
  | @int n v ds f g f' hv hx _ ih =>
    intro b hb
    rcases ih b hb with h | ⟨d, hd, h0, i, hi, hb1, hb2⟩
    · rcases expands_bvars hx b h with h | ⟨i, hi, h1, h2⟩
      · exact Or.inl h
      · exact Or.inr ⟨(n, v), List.mem_cons_self, hv, i, hi, h1, h2⟩
    · refine Or.inr ⟨d, List.mem_cons_of_mem _ hd, h0, i, hi, hb1, ?_⟩
      rw [expands_zvars hx, List.mem_filter] at hb2
      exact hb2.1

/-- Variables with domain `[0,0]` are not compared by `!= 0` (that crashes). -/
def NoNe0 (ds : Decls) (fs : List Fm) : Prop := ∀ d ∈ ds, d.2 = 0 → ∀ f ∈ fs, f.hasNe0 d.1 = false

theorem expandArr_ok (n : Name) (v : ℤ) (hv : 0 ≤ v) (fs : List Fm)
    (h : 0 < v ∨ ∀ f ∈ fs, f.hasNe0 n = false) :
    ∃ fs', expandArr n v (fs.map Fm.toTree) = some (some (fs'.map Fm.toTree)) ∧
      List.Forall₂ (Expands n v) fs fs' := by
  induction fs with
  | nil => exact ⟨[], rfl, .nil⟩
  | cons f fs ih =>
    obtain ⟨f', h1, h2, _⟩ := expand_to_bool_exact n v hv f (h.imp_right fun h => h f List.mem_cons_self)
    obtain ⟨fs', h3, h4⟩ := ih (h.imp_right fun h f hf => h f (List.mem_cons_of_mem _ hf))
    refine ⟨f' :: fs', ?_, .cons h2 h4⟩
    simp only [List.map_cons, expandArr, h1, h3]
    cases hf : f'.toTree with
    | nil => exact absurd hf (toTree_ne_nil _)
    | node => rfl

theorem expandInit_ok (n : Name) (v : ℤ) (hv : 0 ≤ v) (f : Option Fm)
    (h : 0 < v ∨ ∀ g ∈ f, g.hasNe0 n = false) :
    ∃ f', expandInit n v (optTree f) = some (some (optTree f')) ∧ Option.Rel (Expands n v) f f' := by
  cases f with
  | none => exact ⟨none, rfl, .none⟩
  | some f =>
    obtain ⟨f', h1, h2, _⟩ := expand_to_bool_exact n v hv f (h.imp_right fun h => h f rfl)
    refine ⟨some f', ?_, .some h2⟩
    simp only [expandInit, optTree, if_neg (toTree_ne_nil f), h1]
    cases hf : f'.toTree with
    | nil => exact absurd hf (toTree_ne_nil _)
    | node => rfl

/-- Formula by formula relation between specifications. -/
structure SpecRel (R : Fm → Fm → Prop) (sp sp' : FSpec) : Prop where
  einit : Option.Rel R sp.einit sp'.einit
  sinit : Option.Rel R sp.sinit sp'.sinit
  etrans : List.Forall₂ R sp.etrans sp'.etrans
  strans : List.Forall₂ R sp.strans sp'.strans
  egoals : List.Forall₂ R sp.egoals sp'.egoals
  sgoals : List.Forall₂ R sp.sgoals sp'.sgoals

theorem forall2_prop {R : Fm → Fm → Prop} {P : Fm → Prop} {l l' : List Fm} (h : List.Forall₂ R l l')
    (hR : ∀ f f', R f f' → P f → P f') (hl : ∀ f ∈ l, P f) : ∀ f ∈ l', P f := by
  induction h with
  | nil => simp
  | cons h1 _ ih =>
    intro f hf
    rcases List.mem_cons.1 hf with rfl | hf
    · exact hR _ _ h1 (hl _ List.mem_cons_self)
    · exact ih (fun f hf => hl f (List.mem_cons_of_mem _ hf)) f hf

theorem specRel_prop {R : Fm → Fm → Prop} {P : Fm → Prop} {sp sp' : FSpec} (h : SpecRel R sp sp')
    (hR : ∀ f f', R f f' → P f → P f') (hl : ∀ f ∈ sp.all, P f) : ∀ f ∈ sp'.all, P f := by
  have ho : ∀ {o o' : Option Fm}, Option.Rel R o o' → (∀ f ∈ o.toList, P f) → ∀ f ∈ o'.toList, P f := by
    intro o o' h hl
    cases h with
    | none => simp
    | some h => simpa using hR _ _ h (by simpa using hl)
  intro f hf
  simp only [FSpec.all, List.mem_append] at hf hl
  rcases hf with ((((hf | hf) | hf) | hf) | hf) | hf
  · exact ho h.einit (fun f hf => hl f (by tauto)) f hf
  · exact ho h.sinit (fun f hf => hl f (by tauto)) f hf
  · exact forall2_prop h.etrans hR (fun f hf => hl f (by tauto)) f hf
  · exact forall2_prop h.strans hR (fun f hf => hl f (by tauto)) f hf
  · exact forall2_prop h.egoals hR (fun f hf => hl f (by tauto)) f hf
  · exact forall2_prop h.sgoals hR (fun f hf => hl f (by tauto)) f hf

theorem forall2_back {R : Fm → Fm → Prop} {l l' : List Fm} (h : List.Forall₂ R l l') :
    ∀ f' ∈ l', ∃ f ∈ l, R f f' := by
  induction h with
  | nil => simp
  | cons h1 _ ih =>
    intro f hf
    rcases List.mem_cons.1 hf with rfl | hf
    · exact ⟨_, List.mem_cons_self, h1⟩
    · obtain ⟨g, h2, h3⟩ := ih f hf
      exact ⟨g, List.mem_cons_of_mem _ h2, h3⟩

theorem optRel_back {R : Fm → Fm → Prop} {o o' : Option Fm} (h : Option.Rel R o o') :
    ∀ f' ∈ o', ∃ f ∈ o, R f f' := by
  cases h with
  | none => simp
  | some h => intro f' hf; simp at hf; subst hf; exact ⟨_, rfl, h⟩

theorem specRel_back {R : Fm → Fm → Prop} {sp sp' : FSpec} (h : SpecRel R sp sp') :
    ∀ f' ∈ sp'.all, ∃ f, f ∈ sp.all ∧ R f f' := by
  intro f hf
  simp only [FSpec.all, List.mem_append, Option.mem_toList] at hf ⊢
  rcases hf with ((((hf | hf) | hf) | hf) | hf) | hf
  · obtain ⟨g, h1, h2⟩ := optRel_back h.einit f hf; exact ⟨g, by tauto, h2⟩
  · obtain ⟨g, h1, h2⟩ := optRel_back h.sinit f hf; exact ⟨g, by tauto, h2⟩
  · obtain ⟨g, h1, h2⟩ := forall2_back h.etrans f hf; exact ⟨g, by tauto, h2⟩
  · obtain ⟨g, h1, h2⟩ := forall2_back h.strans f hf; exact ⟨g, by tauto, h2⟩
  · obtain ⟨g, h1, h2⟩ := forall2_back h.egoals f hf; exact ⟨g, by tauto, h2⟩
  · obtain ⟨g, h1, h2⟩ := forall2_back h.sgoals f hf; exact ⟨g, by tauto, h2⟩

theorem forall2_comp {R1 R2 R3 : Fm → Fm → Prop} (hR : ∀ a b c, R1 a b → R2 b c → R3 a c)
    {l1 l2 l3 : List Fm} (h1 : List.Forall₂ R1 l1 l2) (h2 : List.Forall₂ R2 l2 l3) :
    List.Forall₂ R3 l1 l3 := by
  induction h1 generalizing l3 with
  | nil => cases h2; exact .nil
  | cons h _ ih => cases h2 with
    | cons h' h2' => exact .cons (hR _ _ _ h h') (ih h2')

theorem specRel_comp {R1 R2 R3 : Fm → Fm → Prop} (hR : ∀ a b c, R1 a b → R2 b c → R3 a c)
    {s1 s2 s3 : FSpec} (h1 : SpecRel R1 s1 s2) (h2 : SpecRel R2 s2 s3) : SpecRel R3 s1 s3 := by
  have ho : ∀ {o1 o2 o3 : Option Fm}, Option.Rel R1 o1 o2 → Option.Rel R2 o2 o3 → Option.Rel R3 o1 o3 := by
    intro o1 o2 o3 a b
    cases a with
    | none => cases b; exact .none
    | some h => cases b with
      | some h' => exact .some (hR _ _ _ h h')
  exact ⟨ho h1.einit h2.einit, ho h1.sinit h2.sinit, forall2_comp hR h1.etrans h2.etrans,
    forall2_comp hR h1.strans h2.strans, forall2_comp hR h1.egoals h2.egoals,
    forall2_comp hR h1.sgoals h2.sgoals⟩

theorem specRel_refl {R : Fm → Fm → Prop} (hR : ∀ a, R a a) (s : FSpec) : SpecRel R s s := by
  have ho : ∀ o : Option Fm, Option.Rel R o o := by
    intro o; cases o
    · exact .none
    · exact .some (hR _)
  have hl : ∀ l : List Fm, List.Forall₂ R l l := by
    intro l; induction l with
    | nil => exact .nil
    | cons a l ih => exact .cons (hR a) ih
  exact ⟨ho _, ho _, hl _, hl _, hl _, hl _⟩

theorem expandVarSpec_ok (n : Name) (v : ℤ) (hv : 0 ≤ v) (sp : FSpec)
    (h : 0 < v ∨ ∀ f ∈ sp.all, f.hasNe0 n = false) :
    ∃ sp', expandVarSpec n v sp.toT = .ok sp'.toT ∧ SpecRel (Expands n v) sp sp' := by
  simp only [FSpec.all, List.mem_append] at h
  obtain ⟨si, a1, b1⟩ := expandInit_ok n v hv sp.sinit
    (h.imp_right fun h f hf => h f (by simp only [Option.mem_toList]; tauto))
  obtain ⟨ei, a2, b2⟩ := expandInit_ok n v hv sp.einit
    (h.imp_right fun h f hf => h f (by simp only [Option.mem_toList]; tauto))
  obtain ⟨et, a3, b3⟩ := expandArr_ok n v hv sp.etrans (h.imp_right fun h f hf => h f (by tauto))
  obtain ⟨st, a4, b4⟩ := expandArr_ok n v hv sp.strans (h.imp_right fun h f hf => h f (by tauto))
  obtain ⟨eg, a5, b5⟩ := expandArr_ok n v hv sp.egoals (h.imp_right fun h f hf => h f (by tauto))
  obtain ⟨sg, a6, b6⟩ := expandArr_ok n v hv sp.sgoals (h.imp_right fun h f hf => h f (by tauto))
  refine ⟨⟨ei, si, et, st, eg, sg⟩, ?_, ⟨b2, b1, b3, b4, b5, b6⟩⟩
  simp only [expandVarSpec, FSpec.toT, a1, a2, a3, a4, a5, a6]

theorem expandAll_ok (ds : Decls) : ∀ (sp : FSpec), NoNe0 ds sp.all →
    ∃ sp', expandAll ds.tree sp.toT = .ok sp'.toT ∧ SpecRel (ExpandsAll ds) sp sp' := by
  induction ds with
  | nil => intro sp _; exact ⟨sp, rfl, specRel_refl (fun a => .nil a) sp⟩
  | cons d ds ih =>
    obtain ⟨n, v⟩ := d
    intro sp h
    have hrest : ∀ sp1 : FSpec, (∀ m, (∀ f ∈ sp.all, f.hasNe0 m = false) → ∀ f ∈ sp1.all, f.hasNe0 m = false) →
        NoNe0 ds sp1.all := fun sp1 h1 d hd h0 => h1 d.1 (h d (List.mem_cons_of_mem _ hd) h0)
    by_cases hv : 0 ≤ v
    · obtain ⟨sp1, h1, h2⟩ := expandVarSpec_ok n v hv sp (by
        by_cases h0 : v = 0
        · exact Or.inr (h (n, v) List.mem_cons_self h0)
        · exact Or.inl (by omega))
      obtain ⟨sp2, h3, h4⟩ := ih sp1 (hrest sp1 fun m hm =>
        specRel_prop h2 (fun f f' hr hf => expands_hasNe0 hr m hf) hm)
      refine ⟨sp2, ?_, specRel_comp (fun a b c hab hbc => .int hv hab hbc) h2 h4⟩
      simp only [Decls.tree, List.map_cons, ofItems, expandAll, ge_iff_le, if_pos hv, Option.getD_some, h1]
      exact h3
    · obtain ⟨sp2, h3, h4⟩ := ih sp (hrest sp fun m hm => hm)
      refine ⟨sp2, ?_, specRel_comp (R1 := Eq) (fun a b c hab hbc => ?_) (specRel_refl (fun _ => rfl) sp) h4⟩
      · simp only [Decls.tree, List.map_cons, ofItems, expandAll, ge_iff_le, if_neg hv]
        exact h3
      · subst hab; exact .bool (by omega) hbc

/-! The blocking formulas -/

theorem maxBitVal_eq (v : ℤ) (hv : 0 ≤ v) : maxBitVal v = 2 ^ domBits v := by
  unfold maxBitVal domBits numBits
  by_cases h : v > 0
  · rw [if_pos h, if_pos (by omega)]
  · rw [if_neg h, if_neg (by omega)]
    have : Nat.clog 2 2 = 1 := by decide +kernel
    rw [this]

/-- A formula that blocks the unused patterns of variable `d`. -/
structure Blocks (d : Name × ℤ) (nx : Bool) (g : Fm) : Prop where
  int : 0 ≤ d.2
  eqOnly : ∀ m, g.eqOnly m
  bvars : g.bvars = []
  zvars : ∀ x ∈ g.zvars, x = (nx, d.1)
  eval : ∀ ρ : Env, Encodes ρ d.2 d.1 nx → (g.eval ρ = true ↔ ρ.z nx d.1 ≤ d.2)

theorem blocks_exists (n : Name) (v : ℤ) (hv : 0 ≤ v) (h : maxBitVal v - 1 > v) (nx : Bool) :
    ∃ g : Fm, unreachExpandedBool n (v + 1) (maxBitVal v - 1) (varTy nx) = g.toTree ∧ Blocks (n, v) nx g := by
  obtain ⟨g, h1, h2, h3, h4, h5⟩ := unreach_exact n (v + 1) (maxBitVal v - 1) (by omega) nx
  refine ⟨g, h1, hv, h3, h4, h5, ?_⟩
  intro ρ hρ
  rw [h2 ρ, maxBitVal_eq v hv]
  have := hρ.2.1
  simp only at this ⊢
  omega

/-- If no pattern is unused there is nothing to block. -/
theorem noslack (v : ℤ) (hv : 0 ≤ v) (h : ¬ maxBitVal v - 1 > v) (ρ : Env) (n : Name) (nx : Bool)
    (he : Encodes ρ v n nx) : ρ.z nx n ≤ v := by
  rw [maxBitVal_eq v hv] at h
  have := he.2.1
  omega

/-- What a blocking pass adds: `f'` is `f` and blocking formulas for a set of variables. -/
inductive AddInit (nx : Bool) : Decls → Option Fm → Option Fm → Prop
  | nil (f : Option Fm) : AddInit nx [] f f
  | skip {d : Name × ℤ} {ds : Decls} {f f' : Option Fm}
      (h : 0 ≤ d.2 → ∀ ρ, Encodes ρ d.2 d.1 nx → ρ.z nx d.1 ≤ d.2) :
      AddInit nx ds f f' → AddInit nx (d :: ds) f f'
  | add {d : Name × ℤ} {ds : Decls} {f f' : Option Fm} {g : Fm} (hd : 0 ≤ d.2) (hg : Blocks d nx g) :
      AddInit nx ds (some (.and (f.getD (.const 1)) g)) f' → AddInit nx (d :: ds) f f'

/-- Blocking formulas appended to a transition rule. -/
inductive AddTrans : Decls → List Fm → List Fm → Prop
  | nil (l : List Fm) : AddTrans [] l l
  | skip {d : Name × ℤ} {ds : Decls} {l l' : List Fm}
      (h : 0 ≤ d.2 → ∀ nx ρ, Encodes ρ d.2 d.1 nx → ρ.z nx d.1 ≤ d.2) :
      AddTrans ds l l' → AddTrans (d :: ds) l l'
  | add {d : Name × ℤ} {ds : Decls} {l l' : List Fm} {g g' : Fm} (hd : 0 ≤ d.2) (hg : Blocks d false g)
      (hg' : Blocks d true g') :
      AddTrans ds (l ++ [g, g']) l' → AddTrans (d :: ds) l l'

/-- Declared domains are -1 or nonnegative, as the parser ensures. -/
def GoodDecls (ds : Decls) : Prop := ∀ d ∈ ds, d.2 = -1 ∨ 0 ≤ d.2

theorem andInit_toTree (f : Option Fm) (g : Fm) :
    andInit (optTree f) g.toTree = optTree (some (.and (f.getD (.const 1)) g)) := by
  cases f with
  | none => simp [andInit, optTree, initPtree, Fm.toTree]
  | some f => simp [andInit, optTree, Fm.toTree, toTree_ne_nil]

theorem optTree_nil (f : Option Fm) : optTree f = .nil ↔ f = none := by
  cases f with
  | none => simp [optTree]
  | some f => simp [optTree, toTree_ne_nil]

theorem blockEnv_ok (flag : InitFlag) (ds : Decls) (hds : GoodDecls ds) : ∀ sp : FSpec,
    ∃ sp' : FSpec, blockEnv flag ds.tree sp.toT = sp'.toT ∧ AddTrans ds sp.etrans sp'.etrans ∧
      sp'.strans = sp.strans ∧ sp'.egoals = sp.egoals ∧ sp'.sgoals = sp.sgoals ∧
      (if flag = .oneSide ∧ sp.sinit.isSome then
        sp'.einit = sp.einit ∧ AddInit false ds sp.sinit sp'.sinit
      else sp'.sinit = sp.sinit ∧ AddInit false ds sp.einit sp'.einit) := by
  induction ds with
  | nil =>
    intro sp
    refine ⟨sp, rfl, .nil _, rfl, rfl, rfl, ?_⟩
    split <;> exact ⟨rfl, .nil _⟩
  | cons d ds ih =>
    obtain ⟨n, v⟩ := d
    intro sp
    have hds' : GoodDecls ds := fun d hd => hds d (List.mem_cons_of_mem _ hd)
    have ih := ih hds'
    have hskip : (0 ≤ v → ∀ nx ρ, Encodes ρ v n nx → ρ.z nx n ≤ v) →
        blockEnv flag (Decls.tree ((n, v) :: ds)) sp.toT = blockEnv flag (Decls.tree ds) sp.toT →
        ∃ sp' : FSpec, blockEnv flag (Decls.tree ((n, v) :: ds)) sp.toT = sp'.toT ∧
          AddTrans ((n, v) :: ds) sp.etrans sp'.etrans ∧
          sp'.strans = sp.strans ∧ sp'.egoals = sp.egoals ∧ sp'.sgoals = sp.sgoals ∧
          (if flag = .oneSide ∧ sp.sinit.isSome then
            sp'.einit = sp.einit ∧ AddInit false ((n, v) :: ds) sp.sinit sp'.sinit
          else sp'.sinit = sp.sinit ∧ AddInit false ((n, v) :: ds) sp.einit sp'.einit) := by
      intro hs he
      obtain ⟨sp', h1, h2, h3, h4, h5, h6⟩ := ih sp
      refine ⟨sp', by rw [he, h1], .skip hs h2, h3, h4, h5, ?_⟩
      split
      · rename_i hc; rw [if_pos hc] at h6
        exact ⟨h6.1, .skip (fun h => hs h false) h6.2⟩
      · rename_i hc; rw [if_neg hc] at h6
        exact ⟨h6.1, .skip (fun h => hs h false) h6.2⟩
    by_cases hv : v = -1
    · apply hskip
      · intro h0; omega
      · simp only [Decls.tree, List.map_cons, ofItems, blockEnv, if_pos hv]
    · have hv0 : 0 ≤ v := (hds (n, v) List.mem_cons_self).resolve_left hv
      by_cases hm : maxBitVal v - 1 > v
      · obtain ⟨g, hg1, hg2⟩ := blocks_exists n v hv0 hm false
        obtain ⟨g', hg1', hg2'⟩ := blocks_exists n v hv0 hm true
        simp only [varTy] at hg1 hg1'
        by_cases hc : flag = .oneSide ∧ sp.sinit.isSome
        · have hs : sp.sinit ≠ none := by intro h; rw [h] at hc; simp at hc
          obtain ⟨sp', h1, h2, h3, h4, h5, h6⟩ := ih { sp with
            sinit := some (.and (sp.sinit.getD (.const 1)) g), etrans := sp.etrans ++ [g, g'] }
          refine ⟨sp', ?_, .add hv0 hg2 hg2' h2, h3, h4, h5, ?_⟩
          · rw [← h1]
            simp only [Decls.tree, List.map_cons, ofItems, blockEnv, if_neg hv, if_pos hm, Option.getD_some]
            congr 1
            simp only [Bool.false_eq_true, if_false, if_true] at hg1 hg1'
            simp only [FSpec.toT, hg1, hg1', andInit_toTree]
            rw [if_pos ⟨hc.1, fun h => hs ((optTree_nil _).1 h)⟩]
            simp
          · rw [if_pos hc]
            rw [if_pos (by exact ⟨hc.1, rfl⟩)] at h6
            exact ⟨h6.1, .add hv0 hg2 h6.2⟩
        · obtain ⟨sp', h1, h2, h3, h4, h5, h6⟩ := ih { sp with
            einit := some (.and (sp.einit.getD (.const 1)) g), etrans := sp.etrans ++ [g, g'] }
          refine ⟨sp', ?_, .add hv0 hg2 hg2' h2, h3, h4, h5, ?_⟩
          · rw [← h1]
            simp only [Decls.tree, List.map_cons, ofItems, blockEnv, if_neg hv, if_pos hm, Option.getD_some]
            congr 1
            simp only [Bool.false_eq_true, if_false, if_true] at hg1 hg1'
            simp only [FSpec.toT, hg1, hg1', andInit_toTree]
            rw [if_neg (by
              rintro ⟨ha, hb⟩
              apply hc
              refine ⟨ha, ?_⟩
              cases hsi : sp.sinit with
              | none => exact absurd ((optTree_nil _).2 hsi) hb
              | some _ => rfl)]
            simp
          · rw [if_neg hc]
            rw [if_neg hc] at h6
            exact ⟨h6.1, .add hv0 hg2 h6.2⟩
      · apply hskip
        · intro h0 nx ρ he; exact noslack v h0 hm ρ n nx he
        · simp only [Decls.tree, List.map_cons, ofItems, blockEnv, if_neg hv, if_neg hm]

theorem blockSys_ok (flag : InitFlag) (ds : Decls) (hds : GoodDecls ds) : ∀ sp : FSpec,
    ∃ sp' : FSpec, blockSys flag ds.tree sp.toT = sp'.toT ∧ AddTrans ds sp.strans sp'.strans ∧
      sp'.etrans = sp.etrans ∧ sp'.egoals = sp.egoals ∧ sp'.sgoals = sp.sgoals ∧
      (if flag = .oneSide ∧ sp.sinit = none then
        sp'.sinit = sp.sinit ∧ AddInit false ds sp.einit sp'.einit
      else sp'.einit = sp.einit ∧ AddInit false ds sp.sinit sp'.sinit) := by
  induction ds with
  | nil =>
    intro sp
    refine ⟨sp, rfl, .nil _, rfl, rfl, rfl, ?_⟩
    split <;> exact ⟨rfl, .nil _⟩
  | cons d ds ih =>
    obtain ⟨n, v⟩ := d
    intro sp
    have hds' : GoodDecls ds := fun d hd => hds d (List.mem_cons_of_mem _ hd)
    have ih := ih hds'
    have hskip : (0 ≤ v → ∀ nx ρ, Encodes ρ v n nx → ρ.z nx n ≤ v) →
        blockSys flag (Decls.tree ((n, v) :: ds)) sp.toT = blockSys flag (Decls.tree ds) sp.toT →
        ∃ sp' : FSpec, blockSys flag (Decls.tree ((n, v) :: ds)) sp.toT = sp'.toT ∧
          AddTrans ((n, v) :: ds) sp.strans sp'.strans ∧
          sp'.etrans = sp.etrans ∧ sp'.egoals = sp.egoals ∧ sp'.sgoals = sp.sgoals ∧
          (if flag = .oneSide ∧ sp.sinit = none then
            sp'.sinit = sp.sinit ∧ AddInit false ((n, v) :: ds) sp.einit sp'.einit
          else sp'.einit = sp.einit ∧ AddInit false ((n, v) :: ds) sp.sinit sp'.sinit) := by
      intro hs he
      obtain ⟨sp', h1, h2, h3, h4, h5, h6⟩ := ih sp
      refine ⟨sp', by rw [he, h1], .skip hs h2, h3, h4, h5, ?_⟩
      split
      · rename_i hc; rw [if_pos hc] at h6
        exact ⟨h6.1, .skip (fun h => hs h false) h6.2⟩
      · rename_i hc; rw [if_neg hc] at h6
        exact ⟨h6.1, .skip (fun h => hs h false) h6.2⟩
    by_cases hv : v = -1
    · apply hskip
      · intro h0; omega
      · simp only [Decls.tree, List.map_cons, ofItems, blockSys, if_pos hv]
    · have hv0 : 0 ≤ v := (hds (n, v) List.mem_cons_self).resolve_left hv
      by_cases hm : maxBitVal v - 1 > v
      · obtain ⟨g, hg1, hg2⟩ := blocks_exists n v hv0 hm false
        obtain ⟨g', hg1', hg2'⟩ := blocks_exists n v hv0 hm true
        simp only [varTy] at hg1 hg1'
        by_cases hc : flag = .oneSide ∧ sp.sinit = none
        · obtain ⟨sp', h1, h2, h3, h4, h5, h6⟩ := ih { sp with
            einit := some (.and (sp.einit.getD (.const 1)) g), strans := sp.strans ++ [g, g'] }
          refine ⟨sp', ?_, .add hv0 hg2 hg2' h2, h3, h4, h5, ?_⟩
          · rw [← h1]
            simp only [Decls.tree, List.map_cons, ofItems, blockSys, if_neg hv, if_pos hm, Option.getD_some]
            congr 1
            simp only [Bool.false_eq_true, if_false, if_true] at hg1 hg1'
            simp only [FSpec.toT, hg1, hg1', andInit_toTree]
            rw [if_pos ⟨hc.1, (optTree_nil _).2 hc.2⟩]
            simp
          · rw [if_pos hc]
            rw [if_pos hc] at h6
            exact ⟨h6.1, .add hv0 hg2 h6.2⟩
        · obtain ⟨sp', h1, h2, h3, h4, h5, h6⟩ := ih { sp with
            sinit := some (.and (sp.sinit.getD (.const 1)) g), strans := sp.strans ++ [g, g'] }
          refine ⟨sp', ?_, .add hv0 hg2 hg2' h2, h3, h4, h5, ?_⟩
          · rw [← h1]
            simp only [Decls.tree, List.map_cons, ofItems, blockSys, if_neg hv, if_pos hm, Option.getD_some]
            congr 1
            simp only [Bool.false_eq_true, if_false, if_true] at hg1 hg1'
            simp only [FSpec.toT, hg1, hg1', andInit_toTree]
            rw [if_neg (fun h => hc ⟨h.1, (optTree_nil _).1 h.2⟩)]
            simp
          · rw [if_neg hc]
            rw [if_neg (by rintro ⟨_, h⟩; simp at h)] at h6
            exact ⟨h6.1, .add hv0 hg2 h6.2⟩
      · apply hskip
        · intro h0 nx ρ he; exact noslack v h0 hm ρ n nx he
        · simp only [Decls.tree, List.map_cons, ofItems, blockSys, if_neg hv, if_neg hm]

/-! Putting the passes together -/

theorem spliceAfter_ofItems (xs ys : List Item) : spliceAfter (ofItems ys) (ofItems xs) = ofItems (xs ++ ys) := by
  induction xs with
  | nil => rfl
  | cons x xs ih => obtain ⟨a, b, c⟩ := x; simp [ofItems, spliceAfter, ih]

theorem chain_tree (e s : Decls) :
    chainVars e.tree s.tree = Decls.tree (e ++ s) := by
  have h : spliceAfter s.tree e.tree = Decls.tree (e ++ s) := by
    unfold Decls.tree; rw [spliceAfter_ofItems, List.map_append]
  rw [← h]
  unfold chainVars
  cases e.tree <;> rfl

theorem hasNe0_of_eqOnly (m : Name) (f : Fm) (h : f.eqOnly m) : f.hasNe0 m = false := by
  induction f with
  | const v => rfl
  | var nx n => rfl
  | neg f ih => exact ih h
  | and f g ih1 ih2 | or f g ih1 ih2 | imp f g ih1 ih2 | equiv f g ih1 ih2 =>
    simp only [Fm.hasNe0, ih1 h.1, ih2 h.2, Bool.or_self]
  | cmp op nx n c =>
    simp only [Fm.hasNe0, Bool.and_eq_false_iff, decide_eq_false_iff_not]
    by_cases hn : n = m
    · rw [h hn]; simp
    · tauto

theorem addTrans_prop {ds : Decls} {l l' : List Fm} (h : AddTrans ds l l') (P : Fm → Prop)
    (hl : ∀ f ∈ l, P f) (hg : ∀ d nx g, d ∈ ds → Blocks d nx g → P g) : ∀ f ∈ l', P f := by
  induction h with
  | nil l => exact hl
  | skip _ _ ih => exact ih hl fun d nx g hd => hg d nx g (List.mem_cons_of_mem _ hd)
  | add hd hg1 hg2 _ ih =>
    apply ih
    · intro f hf
      simp only [List.mem_append, List.mem_cons, List.not_mem_nil, or_false] at hf
      rcases hf with hf | rfl | rfl
      · exact hl f hf
      · exact hg _ _ _ List.mem_cons_self hg1
      · exact hg _ _ _ List.mem_cons_self hg2
    · exact fun d nx g hd => hg d nx g (List.mem_cons_of_mem _ hd)

/-- Every variable with unused patterns is blocked in both tenses, and nothing is lost. -/
theorem addTrans_mem {ds : Decls} {l l' : List Fm} (h : AddTrans ds l l') :
    (∀ f ∈ l, f ∈ l') ∧ (∀ d ∈ ds, 0 ≤ d.2 → ∀ nx,
      (∀ ρ, Encodes ρ d.2 d.1 nx → ρ.z nx d.1 ≤ d.2) ∨ ∃ g ∈ l', Blocks d nx g) := by
  induction h with
  | nil l => exact ⟨fun f hf => hf, by simp⟩
  | skip hs _ ih =>
    refine ⟨ih.1, ?_⟩
    intro d hd h0 nx
    rcases List.mem_cons.1 hd with rfl | hd
    · exact Or.inl (hs h0 nx)
    · exact ih.2 d hd h0 nx
  | @add d ds l l' g g' hd hg hg' _ ih =>
    refine ⟨fun f hf => ih.1 f (by simp [hf]), ?_⟩
    intro d' hd' h0 nx
    rcases List.mem_cons.1 hd' with rfl | hd'
    · right
      cases nx
      · exact ⟨g, ih.1 g (by simp), hg⟩
      · exact ⟨g', ih.1 g' (by simp), hg'⟩
    · exact ih.2 d' hd' h0 nx

theorem addInit_prop {nx : Bool} {ds : Decls} {f f' : Option Fm} (h : AddInit nx ds f f') (P : Fm → Prop)
    (hl : ∀ a ∈ f, P a) (h1 : P (.const 1)) (hand : ∀ a b, P a → P b → P (.and a b))
    (hg : ∀ d g, d ∈ ds → Blocks d nx g → P g) : ∀ a ∈ f', P a := by
  induction h with
  | nil f => exact hl
  | skip _ _ ih => exact ih hl fun d g hd => hg d g (List.mem_cons_of_mem _ hd)
  | @add d ds f f' g hd hgb _ ih =>
    apply ih
    · intro a ha
      simp only [Option.mem_def, Option.some.injEq] at ha
      subst ha
      apply hand
      · cases f with
        | none => exact h1
        | some a => exact hl a rfl
      · exact hg _ _ List.mem_cons_self hgb
    · exact fun d g hd => hg d g (List.mem_cons_of_mem _ hd)

theorem addInit_eval {ds : Decls} {f f' : Option Fm} (h : AddInit false ds f f') (ρ : Env)
    (he : EncodesAll ρ ds) : optEval ρ f' = true ↔ optEval ρ f = true ∧ DomAll ρ ds false := by
  induction h with
  | nil f => simp [DomAll]
  | @skip d ds f f' hs _ ih =>
    rw [ih fun d hd => he d (List.mem_cons_of_mem _ hd)]
    constructor
    · rintro ⟨h1, h2⟩
      refine ⟨h1, ?_⟩
      intro d' hd' h0
      rcases List.mem_cons.1 hd' with rfl | hd'
      · exact hs h0 ρ (he _ List.mem_cons_self h0 false)
      · exact h2 d' hd' h0
    · rintro ⟨h1, h2⟩
      exact ⟨h1, fun d' hd' => h2 d' (List.mem_cons_of_mem _ hd')⟩
  | @add d ds f f' g hd hg _ ih =>
    rw [ih fun d hd => he d (List.mem_cons_of_mem _ hd)]
    have h1 : optEval ρ (some (.and (f.getD (.const 1)) g)) = true ↔ optEval ρ f = true ∧ ρ.z false d.1 ≤ d.2 := by
      have := hg.eval ρ (he d List.mem_cons_self hd false)
      cases f with
      | none => simp [optEval, Fm.eval, this]
      | some f => simp [optEval, Fm.eval, this]
    rw [h1]
    constructor
    · rintro ⟨⟨h1, h2⟩, h3⟩
      refine ⟨h1, ?_⟩
      intro d' hd' h0
      rcases List.mem_cons.1 hd' with rfl | hd'
      · exact h2
      · exact h3 d' hd' h0
    · rintro ⟨h1, h2⟩
      exact ⟨⟨h1, h2 d List.mem_cons_self hd⟩, fun d' hd' => h2 d' (List.mem_cons_of_mem _ hd')⟩

theorem expandsAll_and {ds : Decls} {a b c : Fm} (h : ExpandsAll ds (.and a b) c) :
    ∃ a' b', c = .and a' b' ∧ ExpandsAll ds a a' ∧ ExpandsAll ds b b' := by
  generalize hf : Fm.and a b = f at h
  induction h generalizing a b with
  | nil f => subst hf; exact ⟨a, b, rfl, .nil a, .nil b⟩
  | bool hv _ ih =>
    obtain ⟨a', b', h1, h2, h3⟩ := ih hf
    exact ⟨a', b', h1, .bool hv h2, .bool hv h3⟩
  | int hv hx _ ih =>
    subst hf
    cases hx with
    | and hx1 hx2 =>
      obtain ⟨a', b', h1, h2, h3⟩ := ih rfl
      exact ⟨a', b', h1, .int hv hx1 h2, .int hv hx2 h3⟩

/-- The expanded initial condition excludes unused patterns. -/
theorem addInit_dom {all ds : Decls} {f f' f'' : Option Fm} (h : AddInit false ds f f')
    (hx : Option.Rel (ExpandsAll all) f' f'') (ρ : Env) (hall : EncodesAll ρ all) (he : EncodesAll ρ ds)
    (ht : optEval ρ f'' = true) :
    DomAll ρ ds false ∧ ∃ f0, Option.Rel (ExpandsAll all) f f0 ∧ optEval ρ f0 = true := by
  induction h with
  | nil f => exact ⟨by simp [DomAll], f'', hx, ht⟩
  | @skip d ds f f' hs _ ih =>
    obtain ⟨h1, h2⟩ := ih hx fun d hd => he d (List.mem_cons_of_mem _ hd)
    refine ⟨?_, h2⟩
    intro d' hd' h0
    rcases List.mem_cons.1 hd' with rfl | hd'
    · exact hs h0 ρ (he _ List.mem_cons_self h0 false)
    · exact h1 d' hd' h0
  | @add d ds f f' g hd hg _ ih =>
    obtain ⟨h1, f0, h2, h3⟩ := ih hx fun d hd => he d (List.mem_cons_of_mem _ hd)
    cases h2 with
    | some h2 =>
      obtain ⟨a', g', rfl, h4, h5⟩ := expandsAll_and h2
      simp only [optEval, Fm.eval, Bool.and_eq_true] at h3
      rw [expandsAll_eval h5 ρ hall (Or.inl hg.eqOnly), hg.eval ρ (he d List.mem_cons_self hd false)] at h3
      refine ⟨?_, ?_⟩
      · intro d' hd' h0
        rcases List.mem_cons.1 hd' with rfl | hd'
        · exact h3.2
        · exact h1 d' hd' h0
      · cases f with
        | none => exact ⟨none, .none, rfl⟩
        | some f => exact ⟨some a', .some h4, h3.1⟩

theorem addInit_some {ds : Decls} {f f' : Option Fm} (h : AddInit false ds f f') (hf : f ≠ none) :
    f' ≠ none := by
  induction h with
  | nil f => exact hf
  | skip _ _ ih => exact ih hf
  | add _ _ _ ih => exact ih (by simp)

/-- Structure of the result of `expand_nonbool_GR1`: blocking formulas are added (`sp1`), then every
formula is expanded. -/
theorem expandGR1_struct (evars svars : Decls) (hge : GoodDecls evars) (hgs : GoodDecls svars)
    (flag : InitFlag) (sp : FSpec) (hne : NoNe0 (evars ++ svars) sp.all) :
    ∃ sp1 sp' : FSpec, expandNonboolGR1 evars.tree svars.tree flag sp.toT = .ok sp'.toT ∧
      SpecRel (ExpandsAll (evars ++ svars)) sp1 sp' ∧
      AddTrans evars sp.etrans sp1.etrans ∧ AddTrans svars sp.strans sp1.strans ∧
      sp1.egoals = sp.egoals ∧ sp1.sgoals = sp.sgoals ∧
      (flag ≠ .oneSide → AddInit false evars sp.einit sp1.einit ∧ AddInit false svars sp.sinit sp1.sinit) ∧
      (flag = .oneSide → sp.sinit = none → sp1.sinit = none ∧
        ∃ m, AddInit false evars sp.einit m ∧ AddInit false svars m sp1.einit) ∧
      (flag = .oneSide → sp.sinit ≠ none → sp1.einit = sp.einit ∧
        ∃ m, AddInit false evars sp.sinit m ∧ AddInit false svars m sp1.sinit) := by
  obtain ⟨spe, e1, e2, e3, e4, e5, e6⟩ := blockEnv_ok flag evars hge sp
  obtain ⟨sp1, s1, s2, s3, s4, s5, s6⟩ := blockSys_ok flag svars hgs spe
  -- initial conditions
  have i1 : flag ≠ .oneSide → AddInit false evars sp.einit sp1.einit ∧ AddInit false svars sp.sinit sp1.sinit := by
    intro hf
    rw [if_neg (fun h => hf h.1)] at e6
    rw [if_neg (fun h => hf h.1)] at s6
    rw [s6.1, ← e6.1]
    exact ⟨e6.2, s6.2⟩
  have i2 : flag = .oneSide → sp.sinit = none → sp1.sinit = none ∧
        ∃ m, AddInit false evars sp.einit m ∧ AddInit false svars m sp1.einit := by
    intro hf hs
    rw [if_neg (by rw [hs]; simp)] at e6
    have hs' : spe.sinit = none := by rw [e6.1, hs]
    rw [if_pos ⟨hf, hs'⟩] at s6
    exact ⟨by rw [s6.1, hs'], spe.einit, e6.2, s6.2⟩
  have i3 : flag = .oneSide → sp.sinit ≠ none → sp1.einit = sp.einit ∧
        ∃ m, AddInit false evars sp.sinit m ∧ AddInit false svars m sp1.sinit := by
    intro hf hs
    rw [if_pos ⟨hf, by cases h : sp.sinit with
      | none => exact absurd h hs
      | some _ => rfl⟩] at e6
    have hs' : spe.sinit ≠ none := addInit_some e6.2 hs
    rw [if_neg (fun h => hs' h.2)] at s6
    exact ⟨by rw [s6.1, e6.1], spe.sinit, e6.2, s6.2⟩
  -- no crash
  have hne1 : NoNe0 (evars ++ svars) sp1.all := by
    intro d hd h0
    have hP := hne d hd h0
    have hc : (Fm.const 1).hasNe0 d.1 = false := rfl
    have hand : ∀ a b : Fm, a.hasNe0 d.1 = false → b.hasNe0 d.1 = false → (Fm.and a b).hasNe0 d.1 = false := by
      intro a b ha hb; simp [Fm.hasNe0, ha, hb]
    have hg : ∀ (d' : Name × ℤ) nx g, Blocks d' nx g → g.hasNe0 d.1 = false :=
      fun d' nx g hg => hasNe0_of_eqOnly _ _ (hg.eqOnly _)
    simp only [FSpec.all, List.mem_append, Option.mem_toList] at hP
    have ie : ∀ a ∈ sp.einit, a.hasNe0 d.1 = false := fun a ha => hP a (by tauto)
    have is : ∀ a ∈ sp.sinit, a.hasNe0 d.1 = false := fun a ha => hP a (by tauto)
    have hi : (∀ a ∈ sp1.einit, a.hasNe0 d.1 = false) ∧ (∀ a ∈ sp1.sinit, a.hasNe0 d.1 = false) := by
      by_cases hf : flag = .oneSide
      · by_cases hs : sp.sinit = none
        · obtain ⟨h1, m, h2, h3⟩ := i2 hf hs
          refine ⟨?_, by rw [h1]; simp⟩
          exact addInit_prop h3 (fun f => f.hasNe0 d.1 = false)
            (addInit_prop h2 (fun f => f.hasNe0 d.1 = false) ie hc hand fun d' g _ => hg d' _ g)
            hc hand fun d' g _ => hg d' _ g
        · obtain ⟨h1, m, h2, h3⟩ := i3 hf hs
          refine ⟨by rw [h1]; exact ie, ?_⟩
          exact addInit_prop h3 (fun f => f.hasNe0 d.1 = false)
            (addInit_prop h2 (fun f => f.hasNe0 d.1 = false) is hc hand fun d' g _ => hg d' _ g)
            hc hand fun d' g _ => hg d' _ g
      · obtain ⟨h1, h2⟩ := i1 hf
        exact ⟨addInit_prop h1 (fun f => f.hasNe0 d.1 = false) ie hc hand fun d' g _ => hg d' _ g,
          addInit_prop h2 (fun f => f.hasNe0 d.1 = false) is hc hand fun d' g _ => hg d' _ g⟩
    intro f hf
    simp only [FSpec.all, List.mem_append, Option.mem_toList] at hf
    rcases hf with ((((hf | hf) | hf) | hf) | hf) | hf
    · exact hi.1 f hf
    · exact hi.2 f hf
    · rw [s3] at hf
      exact addTrans_prop e2 (fun f => f.hasNe0 d.1 = false) (fun f hf => hP f (by tauto))
        (fun d' nx g _ => hg d' nx g) f hf
    · refine addTrans_prop s2 (fun f => f.hasNe0 d.1 = false) (fun f hf => hP f ?_)
        (fun d' nx g _ => hg d' nx g) f hf
      rw [e3] at hf; tauto
    · rw [s4, e4] at hf; exact hP f (by tauto)
    · rw [s5, e5] at hf; exact hP f (by tauto)
  obtain ⟨sp', x1, x2⟩ := expandAll_ok (evars ++ svars) sp1 hne1
  refine ⟨sp1, sp', ?_, x2, by rw [s3]; exact e2, by rw [← e3]; exact s2, by rw [s4, e4], by rw [s5, e5],
    i1, i2, i3⟩
  unfold expandNonboolGR1
  rw [e1, s1, chain_tree, x1]

theorem optRel_eval {ds : Decls} {f f' : Option Fm} (h : Option.Rel (ExpandsAll ds) f f') (ρ : Env)
    (he : EncodesAll ρ ds) (hd : ∀ nx, DomAll ρ ds nx) : optEval ρ f' = optEval ρ f := by
  cases h with
  | none => rfl
  | some h => exact expandsAll_eval h ρ he (Or.inr hd)

theorem forall2_eval {ds : Decls} {l l' : List Fm} (h : List.Forall₂ (ExpandsAll ds) l l') (ρ : Env)
    (he : EncodesAll ρ ds) (hd : ∀ nx, DomAll ρ ds nx) : l'.map (Fm.eval ρ) = l.map (Fm.eval ρ) := by
  induction h with
  | nil => rfl
  | cons h _ ih => simp only [List.map_cons, ih, expandsAll_eval h ρ he (Or.inr hd)]

theorem forall2_mem {ds : Decls} {l l' : List Fm} (h : List.Forall₂ (ExpandsAll ds) l l') :
    ∀ f ∈ l, ∃ f' ∈ l', ExpandsAll ds f f' := by
  induction h with
  | nil => simp
  | cons h _ ih =>
    intro f hf
    rcases List.mem_cons.1 hf with rfl | hf
    · exact ⟨_, List.mem_cons_self, h⟩
    · obtain ⟨f', h1, h2⟩ := ih f hf
      exact ⟨f', List.mem_cons_of_mem _ h1, h2⟩

theorem trans_dom {all ds : Decls} {l l' l'' : List Fm} (h : AddTrans ds l l')
    (hx : List.Forall₂ (ExpandsAll all) l' l'') (ρ : Env) (hall : EncodesAll ρ all) (he : EncodesAll ρ ds)
    (ht : ∀ f ∈ l'', f.eval ρ = true) (nx : Bool) : DomAll ρ ds nx := by
  intro d hd h0
  rcases (addTrans_mem h).2 d hd h0 nx with h1 | ⟨g, hg, hb⟩
  · exact h1 ρ (he d hd h0 nx)
  · obtain ⟨g', h2, h3⟩ := forall2_mem hx g hg
    have := ht g' h2
    rw [expandsAll_eval h3 ρ hall (Or.inl hb.eqOnly)] at this
    exact (hb.eval ρ (he d hd h0 nx)).1 this

theorem trans_same {all ds : Decls} {l l' l'' : List Fm} (h : AddTrans ds l l')
    (hx : List.Forall₂ (ExpandsAll all) l' l'') (ρ : Env) (hall : EncodesAll ρ all) (he : EncodesAll ρ ds)
    (hd : ∀ nx, DomAll ρ all nx) (hd' : ∀ nx, DomAll ρ ds nx) :
    (∀ f ∈ l'', f.eval ρ = true) ↔ ∀ f ∈ l, f.eval ρ = true := by
  have h1 : (∀ f ∈ l'', f.eval ρ = true) ↔ ∀ f ∈ l', f.eval ρ = true := by
    have := forall2_eval hx ρ hall hd
    have e : ∀ m : List Fm, (∀ f ∈ m, f.eval ρ = true) ↔ ∀ b ∈ m.map (Fm.eval ρ), b = true := by
      intro m; simp
    rw [e, this, ← e]
  rw [h1]
  constructor
  · exact fun h2 f hf => h2 f ((addTrans_mem h).1 f hf)
  · intro h2
    apply addTrans_prop h (fun f => f.eval ρ = true) h2
    intro d nx g hd1 hg
    exact (hg.eval ρ (he d hd1 hg.int nx)).2 (hd' nx d hd1 hg.int)

/-- **C16.** The specification left by `expand_nonbool_GR1`, for any bit valuation (the integer values
being the ones the bits encode):
* no integer variable occurs in it any more;
* ENVTRANS (SYSTRANS) holds only if the environment's (system's) variables, unprimed and primed, have
  declared values; likewise the initial conditions, where with ONE_SIDE_INIT the single nonempty
  initial condition covers the variables of both players;
* for declared values every formula means the same as before. -/
theorem expand_GR1_exact (evars svars : Decls) (hge : GoodDecls evars) (hgs : GoodDecls svars)
    (flag : InitFlag) (sp : FSpec) (hne : NoNe0 (evars ++ svars) sp.all) :
    ∃ sp' : FSpec, expandNonboolGR1 evars.tree svars.tree flag sp.toT = .ok sp'.toT ∧
      (∀ f ∈ sp'.all, ∀ x ∈ f.zvars, ∀ d ∈ evars ++ svars, 0 ≤ d.2 → x.2 ≠ d.1) ∧
      (flag = .oneSide → (sp'.sinit = none ↔ sp.sinit = none)) ∧
      ∀ ρ : Env, EncodesAll ρ (evars ++ svars) →
        ((∀ f ∈ sp'.etrans, f.eval ρ = true) → ∀ nx, DomAll ρ evars nx) ∧
        ((∀ f ∈ sp'.strans, f.eval ρ = true) → ∀ nx, DomAll ρ svars nx) ∧
        (flag ≠ .oneSide → (optEval ρ sp'.einit = true → DomAll ρ evars false) ∧
          (optEval ρ sp'.sinit = true → DomAll ρ svars false)) ∧
        (flag = .oneSide → sp.sinit = none → optEval ρ sp'.einit = true →
          DomAll ρ (evars ++ svars) false) ∧
        (flag = .oneSide → sp.sinit ≠ none → optEval ρ sp'.sinit = true →
          DomAll ρ (evars ++ svars) false) ∧
        ((∀ nx, DomAll ρ (evars ++ svars) nx) →
          ((∀ f ∈ sp'.etrans, f.eval ρ = true) ↔ ∀ f ∈ sp.etrans, f.eval ρ = true) ∧
          ((∀ f ∈ sp'.strans, f.eval ρ = true) ↔ ∀ f ∈ sp.strans, f.eval ρ = true) ∧
          optEval ρ sp'.einit = optEval ρ sp.einit ∧ optEval ρ sp'.sinit = optEval ρ sp.sinit ∧
          sp'.egoals.map (Fm.eval ρ) = sp.egoals.map (Fm.eval ρ) ∧
          sp'.sgoals.map (Fm.eval ρ) = sp.sgoals.map (Fm.eval ρ)) := by
  obtain ⟨sp1, sp', h1, hR, h2, h3, h4, h5, i1, i2, i3⟩ := expandGR1_struct evars svars hge hgs flag sp hne
  refine ⟨sp', h1, ?_, ?_, ?_⟩
  · intro f hf x hx
    obtain ⟨g, hg⟩ := specRel_back hR f hf
    exact (expandsAll_zvars hg.2 x hx).2
  · intro hf
    by_cases hs : sp.sinit = none
    · have := (i2 hf hs).1
      have hr := hR.sinit
      rw [this] at hr
      cases hr2 : sp'.sinit with
      | none => simp [hs]
      | some _ => rw [hr2] at hr; cases hr
    · obtain ⟨_, m, _, _⟩ := i3 hf hs
      have h6 : sp1.sinit ≠ none := addInit_some ‹_› (addInit_some ‹_› hs)
      have hr := hR.sinit
      refine ⟨fun h => ?_, fun h => absurd h hs⟩
      rw [h] at hr
      cases hr2 : sp1.sinit with
      | none => exact absurd hr2 h6
      | some _ => rw [hr2] at hr; cases hr
  · intro ρ hρ
    have he : EncodesAll ρ evars := fun d hd => hρ d (by simp [hd])
    have hs : EncodesAll ρ svars := fun d hd => hρ d (by simp [hd])
    have happ : ∀ nx, DomAll ρ (evars ++ svars) nx ↔ DomAll ρ evars nx ∧ DomAll ρ svars nx := by
      intro nx
      simp only [DomAll, List.mem_append, or_imp, forall_and]
    refine ⟨trans_dom h2 hR.etrans ρ hρ he, trans_dom h3 hR.strans ρ hρ hs, ?_, ?_, ?_, ?_⟩
    · intro hf
      obtain ⟨a1, a2⟩ := i1 hf
      exact ⟨fun ht => (addInit_dom a1 hR.einit ρ hρ he ht).1, fun ht => (addInit_dom a2 hR.sinit ρ hρ hs ht).1⟩
    · intro hf hn ht
      obtain ⟨_, m, a1, a2⟩ := i2 hf hn
      obtain ⟨b1, f0, b2, b3⟩ := addInit_dom a2 hR.einit ρ hρ hs ht
      exact (happ false).2 ⟨(addInit_dom a1 b2 ρ hρ he b3).1, b1⟩
    · intro hf hn ht
      obtain ⟨_, m, a1, a2⟩ := i3 hf hn
      obtain ⟨b1, f0, b2, b3⟩ := addInit_dom a2 hR.sinit ρ hρ hs ht
      exact (happ false).2 ⟨(addInit_dom a1 b2 ρ hρ he b3).1, b1⟩
    · intro hd
      have hde : ∀ nx, DomAll ρ evars nx := fun nx => ((happ nx).1 (hd nx)).1
      have hds : ∀ nx, DomAll ρ svars nx := fun nx => ((happ nx).1 (hd nx)).2
      have add : ∀ {ds : Decls} {f f' : Option Fm}, AddInit false ds f f' → EncodesAll ρ ds →
          DomAll ρ ds false → optEval ρ f' = optEval ρ f := by
        intro ds f f' ha h1 h2
        rw [Bool.eq_iff_iff, addInit_eval ha ρ h1]
        exact ⟨fun h => h.1, fun h => ⟨h, h2⟩⟩
      refine ⟨trans_same h2 hR.etrans ρ hρ he hd hde, trans_same h3 hR.strans ρ hρ hs hd hds, ?_, ?_, ?_, ?_⟩
      · rw [optRel_eval hR.einit ρ hρ hd]
        by_cases hf : flag = .oneSide
        · by_cases hn : sp.sinit = none
          · obtain ⟨_, m, a1, a2⟩ := i2 hf hn
            rw [add a2 hs (hds false), add a1 he (hde false)]
          · rw [(i3 hf hn).1]
        · exact add (i1 hf).1 he (hde false)
      · rw [optRel_eval hR.sinit ρ hρ hd]
        by_cases hf : flag = .oneSide
        · by_cases hn : sp.sinit = none
          · rw [(i2 hf hn).1, hn]
          · obtain ⟨_, m, a1, a2⟩ := i3 hf hn
            rw [add a2 hs (hds false), add a1 he (hde false)]
        · exact add (i1 hf).2 hs (hds false)
      · rw [forall2_eval hR.egoals ρ hρ hd, h4]
      · rw [forall2_eval hR.sgoals ρ hρ hd, h5]

/-! ## C17: variable lists -/

/-- Specification of the expanded list: each integer variable is replaced in place by its bits, least
significant first; Boolean variables stay. -/
def expandedItems (ds : Decls) : List Item :=
  ds.flatMap fun d => if 0 ≤ d.2 then bitItems d.1 (domBits d.2) else [(.var, some d.1, d.2)]

theorem expandVarList_ok (ds : Decls) : expandVarList ds.tree = some (ofItems (expandedItems ds)) := by
  induction ds with
  | nil => rfl
  | cons d ds ih =>
    obtain ⟨n, v⟩ := d
    have e : Decls.tree ((n, v) :: ds) = .node .var (some n) v (Decls.tree ds) .nil := rfl
    rw [e, expandVarList, ih]
    by_cases hv : 0 ≤ v
    · simp only [ge_iff_le, if_pos hv, Option.map_some, varToBool_eq n v hv, spliceAfter_ofItems]
      simp [expandedItems, hv]
    · simp only [ge_iff_le, if_neg hv, Option.map_some]
      simp [expandedItems, hv, ofItems]

theorem collectNonbool_ok (ds : Decls) : ∀ xs : List Item, collectNonbool (ofItems xs) ds.tree =
    ofItems (xs ++ (ds.filter fun d => 0 ≤ d.2).map fun d => (.var, some d.1, d.2)) := by
  induction ds with
  | nil => intro xs; simp [Decls.tree, ofItems, collectNonbool]
  | cons d ds ih =>
    obtain ⟨n, v⟩ := d
    intro xs
    have e : Decls.tree ((n, v) :: ds) = .node .var (some n) v (Decls.tree ds) .nil := rfl
    rw [e]
    by_cases hv : 0 ≤ v
    · have h1 : collectNonbool (ofItems xs) (.node .var (some n) v (Decls.tree ds) .nil) =
          collectNonbool (appendListItem (ofItems xs) .var (some n) v) (Decls.tree ds) := by
        cases hx : ofItems xs with
        | nil => simp [collectNonbool, hv, appendListItem]
        | node => simp [collectNonbool, hv]
      rw [h1, list_append, ih]
      simp [hv, storedItem]
    · have h1 : collectNonbool (ofItems xs) (.node .var (some n) v (Decls.tree ds) .nil) =
          collectNonbool (ofItems xs) (Decls.tree ds) := by
        cases hx : ofItems xs <;> simp [collectNonbool, hv]
      rw [h1, ih]
      simp [hv]

/-- **C17.** `expand_nonbool_variables`: both lists are expanded in place, and the integer variables
with their domains are returned in declaration order, environment first. -/
theorem expand_variables_exact (evars svars : Decls) :
    expandNonboolVariables evars.tree svars.tree =
      some (ofItems (expandedItems evars), ofItems (expandedItems svars),
        Decls.tree ((evars ++ svars).filter fun d => 0 ≤ d.2)) := by
  unfold expandNonboolVariables
  rw [chain_tree, expandVarList_ok, expandVarList_ok]
  have := collectNonbool_ok (evars ++ svars) []
  simp only [ofItems, List.nil_append] at this
  rw [this]
  rfl

/-- **C17.** The width is exactly what the domain needs: the largest value fits, and (unless the domain
is `[0,0]`, which gets one bit) does not fit one bit less. -/
theorem expand_width (v : ℕ) :
    v < 2 ^ domBits v ∧ (0 < v → 2 ^ (domBits v - 1) ≤ v) ∧ domBits 0 = 1 := by
  have h := domain_fits v
  refine ⟨?_, ?_, by decide +kernel⟩
  · simpa [domBits] using h.1 v (Nat.le_refl _)
  · simpa [domBits] using h.2.1

example : expandNonboolVariables (Decls.tree [(['x'], 5), (['a'], -1)]) (Decls.tree [(['b'], -1), (['y'], 0), (['z'], 1)])
    = some (ofItems [(.var, some ['x', '0'], 0), (.var, some ['x', '1'], 0), (.var, some ['x', '2'], 0), (.var, some ['a'], -1)],
        ofItems [(.var, some ['b'], -1), (.var, some ['y', '0'], 0), (.var, some ['z', '0'], 0)],
        Decls.tree [(['x'], 5), (['y'], 0), (['z'], 1)]) := by decide +kernel

/-! A specification meeting the hypotheses of `expand_GR1_exact`, with a valuation. -/
namespace GREx

def evars : Decls := [(['x'], 2), (['a'], -1)]
def svars : Decls := [(['y'], 0), (['z'], 3)]
def sp : FSpec :=
  ⟨some (.cmp .lt false ['x'] 2), none, [.imp (.var false ['a']) (.cmp .ne true ['x'] 0)],
    [.cmp .ge true ['z'] 2, .or (.cmp .le true ['y'] 0) (.var true ['a'])], [.var false ['a']],
    [.cmp .eq false ['z'] 3]⟩

example : GoodDecls evars ∧ GoodDecls svars ∧ NoNe0 (evars ++ svars) sp.all := by
  unfold GoodDecls NoNe0; decide +kernel

/-- x = 1, y = 0, z = 2 in both tenses. -/
def ρ : Env := ⟨fun _ n => n == ['x', '0'] || n == ['z', '1'], fun _ n => if n = ['x'] then 1 else if n = ['z'] then 2 else 0⟩

example : EncodesAll ρ (evars ++ svars) ∧ ∀ nx, DomAll ρ (evars ++ svars) nx := by
  have h0 : domBits 0 = 1 := by decide +kernel
  have h2 : domBits 2 = 2 := by decide +kernel
  have h3 : domBits 3 = 2 := by decide +kernel
  constructor
  · intro d hd
    simp only [evars, svars, List.cons_append, List.nil_append, List.mem_cons, List.not_mem_nil, or_false] at hd
    rcases hd with rfl | rfl | rfl | rfl <;> simp only [Encodes, h0, h2, h3] <;> decide +kernel
  · unfold DomAll; decide +kernel

/-- The bits of `x` are 11, which is not a declared value. -/
example : EncodesAll ⟨fun _ n => n == ['x', '0'] || n == ['x', '1'], fun _ n => if n = ['x'] then 3 else 0⟩ evars := by
  have h2 : domBits 2 = 2 := by decide +kernel
  intro d hd
  simp only [evars, List.mem_cons, List.not_mem_nil, or_false] at hd
  rcases hd with rfl | rfl <;> simp only [Encodes, h2] <;> decide +kernel

end GREx

end Gr1c
