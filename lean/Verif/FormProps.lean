import Verif.Form
import Verif.ExpandProps
import Verif.BddProps

/-!
# Properties C21 and C24
-/

namespace Gr1c

open PTree

/-! ## C21 -/

theorem find_var (vs : Decls) (n : Name) :
    (findListItem vs.tree .var (some n) 0 = -1 ∧ n ∉ vs.map Prod.fst) ∨
      ∃ k : ℕ, ∃ h : k < vs.length, findListItem vs.tree .var (some n) 0 = k ∧ vs[k].1 = n := by
  rcases list_find (vs.map fun d => (.var, some d.1, d.2)) .var (some n) 0 with ⟨h1, h2⟩ | ⟨k, hk, h1, h2, -⟩
  · left
    refine ⟨h1, ?_⟩
    intro hm
    obtain ⟨d, hd, rfl⟩ := List.mem_map.1 hm
    have := h2 _ (List.mem_map.2 ⟨d, hd, rfl⟩)
    simp [itemMatches] at this
  · right
    have hk' : k < vs.length := by simpa using hk
    refine ⟨k, hk', h1, ?_⟩
    simpa [itemMatches] using h2

/-- The assignment `a` gives the listed variables the values they have in `ρ`, unprimed variables first
and their primed forms at offset `vs.length`, in the order of the list. -/
def Agrees (vs : Decls) (ρ : Env) (a : Asg (2 * vs.length)) : Prop :=
  ∀ k (h : k < vs.length),
    a ⟨k, by omega⟩ = ρ.b false vs[k].1 ∧ a ⟨vs.length + k, by omega⟩ = ρ.b true vs[k].1

/-- All variables of the formula are listed. -/
def Listed (vs : Decls) (f : Fm) : Prop := ∀ x ∈ f.bvars, x.2 ∈ vs.map Prod.fst

theorem varCase_ok (vs : Decls) (nx : Bool) (n : Name) (h : n ∈ vs.map Prod.fst) :
    ∃ b, ptreeBdd (2 * vs.length) vs.tree (Fm.var nx n).toTree = .ok b ∧
      ∀ ρ a, Agrees vs ρ a → b a = ρ.b nx n := by
  have hs : PTree.size vs.tree = vs.length := by unfold Decls.tree; rw [list_size]; simp
  rcases find_var vs n with ⟨-, h2⟩ | ⟨k, hk, h1, h2⟩
  · exact absurd h h2
  · cases nx with
    | false =>
      refine ⟨cuddAnd (fun _ => true) (cuddVar ⟨k, by omega⟩), ?_, ?_⟩
      · simp only [Fm.toTree, varTy, ptreeBdd, bddVarCase, h1, Bool.false_eq_true, if_false]
        rw [if_neg (by omega), dif_pos (by simp; omega)]
        simp
      · intro ρ a ha
        simp only [cuddAnd, cuddVar, Bool.true_and]
        rw [(ha k hk).1, h2]
    | true =>
      refine ⟨cuddAnd (fun _ => true) (cuddVar ⟨vs.length + k, by omega⟩), ?_, ?_⟩
      · simp only [Fm.toTree, varTy, ptreeBdd, bddVarCase, h1, if_true, hs]
        rw [if_neg (by omega), dif_pos (by simp; omega)]
        simp
      · intro ρ a ha
        simp only [cuddAnd, cuddVar, Bool.true_and]
        rw [(ha k hk).2, h2]

/-- **C21.** On a formula without comparisons whose variables are all listed, `ptree_BDD` returns a BDD
that evaluates, under every assignment, to the truth value of the formula. -/
theorem ptree_BDD_ok (vs : Decls) (f : Fm) (hz : f.zvars = []) (hl : Listed vs f) :
    ∃ b, ptreeBdd (2 * vs.length) vs.tree f.toTree = .ok b ∧
      ∀ ρ a, Agrees vs ρ a → b a = f.eval ρ := by
  induction f with
  | const v =>
    by_cases h : v = 0
    · exact ⟨cuddNot fun _ => true, by simp only [Fm.toTree, ptreeBdd, if_pos h],
        by intro ρ a _; simp [cuddNot, Fm.eval, h]⟩
    · exact ⟨fun _ => true, by simp only [Fm.toTree, ptreeBdd, if_neg h], by intro ρ a _; simp [Fm.eval, h]⟩
  | var nx n => exact varCase_ok vs nx n (hl (nx, n) (by simp [Fm.bvars]))
  | neg f ih =>
    obtain ⟨b, h1, h2⟩ := ih hz hl
    exact ⟨_, by simp only [Fm.toTree, ptreeBdd, h1]; rfl,
      by intro ρ a ha; simp [cuddNot, Fm.eval, h2 ρ a ha]⟩
  | and f g ihf ihg =>
    simp only [Fm.zvars, List.append_eq_nil_iff] at hz
    obtain ⟨b, h1, h2⟩ := ihf hz.1 fun x hx => hl x (by simp [Fm.bvars, hx])
    obtain ⟨c, h3, h4⟩ := ihg hz.2 fun x hx => hl x (by simp [Fm.bvars, hx])
    exact ⟨_, by simp only [Fm.toTree, ptreeBdd, h1, h3, DRes.comb]; rfl,
      by intro ρ a ha; simp [cuddAnd, Fm.eval, h2 ρ a ha, h4 ρ a ha]⟩
  | or f g ihf ihg =>
    simp only [Fm.zvars, List.append_eq_nil_iff] at hz
    obtain ⟨b, h1, h2⟩ := ihf hz.1 fun x hx => hl x (by simp [Fm.bvars, hx])
    obtain ⟨c, h3, h4⟩ := ihg hz.2 fun x hx => hl x (by simp [Fm.bvars, hx])
    exact ⟨_, by simp only [Fm.toTree, ptreeBdd, h1, h3, DRes.comb]; rfl,
      by intro ρ a ha; simp [cuddOr, Fm.eval, h2 ρ a ha, h4 ρ a ha]⟩
  | imp f g ihf ihg =>
    simp only [Fm.zvars, List.append_eq_nil_iff] at hz
    obtain ⟨b, h1, h2⟩ := ihf hz.1 fun x hx => hl x (by simp [Fm.bvars, hx])
    obtain ⟨c, h3, h4⟩ := ihg hz.2 fun x hx => hl x (by simp [Fm.bvars, hx])
    exact ⟨_, by simp only [Fm.toTree, ptreeBdd, h1, h3, DRes.comb]; rfl,
      by intro ρ a ha; simp [cuddOr, cuddNot, Fm.eval, h2 ρ a ha, h4 ρ a ha]⟩
  | equiv f g ihf ihg =>
    simp only [Fm.zvars, List.append_eq_nil_iff] at hz
    obtain ⟨b, h1, h2⟩ := ihf hz.1 fun x hx => hl x (by simp [Fm.bvars, hx])
    obtain ⟨c, h3, h4⟩ := ihg hz.2 fun x hx => hl x (by simp [Fm.bvars, hx])
    refine ⟨_, by simp only [Fm.toTree, ptreeBdd, h1, h3, DRes.comb]; rfl, ?_⟩
    intro ρ a ha
    simp only [cuddAnd, cuddOr, cuddNot, Fm.eval, h2 ρ a ha, h4 ρ a ha]
    cases f.eval ρ <;> cases g.eval ρ <;> rfl
  | cmp op nx n c => simp [Fm.zvars] at hz

/-- **C21.** Otherwise, if some variable is not listed, the program exits. -/
theorem ptree_BDD_exit (vs : Decls) (f : Fm) (hz : f.zvars = []) (hl : ¬ Listed vs f) :
    ptreeBdd (2 * vs.length) vs.tree f.toTree = .exit := by
  have bin : ∀ f g : Fm, f.zvars = [] → g.zvars = [] →
      (¬ Listed vs f → ptreeBdd (2 * vs.length) vs.tree f.toTree = .exit) →
      (¬ Listed vs g → ptreeBdd (2 * vs.length) vs.tree g.toTree = .exit) →
      ¬ (Listed vs f ∧ Listed vs g) → ∀ op, DRes.comb op (ptreeBdd (2 * vs.length) vs.tree f.toTree)
        (ptreeBdd (2 * vs.length) vs.tree g.toTree) = .exit := by
    intro f g hzf hzg ihf ihg hn op
    by_cases h1 : Listed vs f
    · obtain ⟨b, hb, -⟩ := ptree_BDD_ok vs f hzf h1
      rw [hb, ihg fun h2 => hn ⟨h1, h2⟩]; rfl
    · rw [ihf h1]; rfl
  have spl : ∀ l : List (Bool × Name), ∀ f g : Fm, l = f.bvars ++ g.bvars →
      (¬ ∀ x ∈ l, x.2 ∈ vs.map Prod.fst) → ¬ (Listed vs f ∧ Listed vs g) := by
    rintro l f g rfl h ⟨h1, h2⟩
    apply h
    intro x hx
    rcases List.mem_append.1 hx with h | h
    · exact h1 x h
    · exact h2 x h
  induction f with
  | const v => exact absurd (by intro x hx; simp [Fm.bvars] at hx) hl
  | var nx n =>
    have hn : n ∉ vs.map Prod.fst := by
      intro h; apply hl; intro x hx
      simp only [Fm.bvars, List.mem_singleton] at hx
      rw [hx]; exact h
    rcases find_var vs n with ⟨h1, -⟩ | ⟨k, hk, -, h2⟩
    · cases nx <;> simp [Fm.toTree, varTy, ptreeBdd, bddVarCase, h1]
    · exact absurd (List.mem_map.2 ⟨vs[k], List.getElem_mem hk, h2⟩) hn
  | neg f ih => simp only [Fm.toTree, ptreeBdd, ih hz hl]
  | and f g ihf ihg =>
    simp only [Fm.zvars, List.append_eq_nil_iff] at hz
    exact bin f g hz.1 hz.2 (ihf hz.1) (ihg hz.2) (spl _ f g rfl hl) _
  | or f g ihf ihg =>
    simp only [Fm.zvars, List.append_eq_nil_iff] at hz
    exact bin f g hz.1 hz.2 (ihf hz.1) (ihg hz.2) (spl _ f g rfl hl) _
  | imp f g ihf ihg =>
    simp only [Fm.zvars, List.append_eq_nil_iff] at hz
    exact bin f g hz.1 hz.2 (ihf hz.1) (ihg hz.2) (spl _ f g rfl hl) _
  | equiv f g ihf ihg =>
    simp only [Fm.zvars, List.append_eq_nil_iff] at hz
    exact bin f g hz.1 hz.2 (ihf hz.1) (ihg hz.2) (spl _ f g rfl hl) _
  | cmp op nx n c => simp [Fm.zvars] at hz

/-- **C21.** A formula that still contains a comparison never yields a BDD: NULL is returned, or NULL
is passed to CUDD, or the program exits. -/
theorem ptree_BDD_cmp (vs : Decls) (N : ℕ) (f : Fm) (hz : f.zvars ≠ []) (b : Bdd N) :
    ptreeBdd N vs.tree f.toTree ≠ .ok b := by
  have bin : ∀ l r : DRes N, ((∀ b, l ≠ .ok b) ∨ ∀ b, r ≠ .ok b) → ∀ op b, DRes.comb op l r ≠ .ok b := by
    rintro l r h op b
    cases l <;> cases r <;> simp_all [DRes.comb]
  induction f generalizing b with
  | const v => simp [Fm.zvars] at hz
  | var nx n => simp [Fm.zvars] at hz
  | neg f ih =>
    simp only [Fm.toTree, ptreeBdd]
    have := ih hz
    cases h : ptreeBdd N vs.tree f.toTree <;> simp_all
  | and f g ihf ihg =>
    simp only [Fm.zvars, ne_eq, List.append_eq_nil_iff, not_and_or] at hz
    exact bin _ _ (hz.imp (fun h => ihf h) fun h => ihg h) _ _
  | or f g ihf ihg =>
    simp only [Fm.zvars, ne_eq, List.append_eq_nil_iff, not_and_or] at hz
    exact bin _ _ (hz.imp (fun h => ihf h) fun h => ihg h) _ _
  | imp f g ihf ihg =>
    simp only [Fm.zvars, ne_eq, List.append_eq_nil_iff, not_and_or] at hz
    exact bin _ _ (hz.imp (fun h => ihf h) fun h => ihg h) _ _
  | equiv f g ihf ihg =>
    simp only [Fm.zvars, ne_eq, List.append_eq_nil_iff, not_and_or] at hz
    exact bin _ _ (hz.imp (fun h => ihf h) fun h => ihg h) _ _
  | cmp op nx n c => cases op <;> simp [Fm.toTree, CmpOp.ty, ptreeBdd]

/-- `a <-> !b'` over the list `a, b`: variables 0 and 3. -/
example : (Listed [(['a'], -1), (['b'], -1)] (.equiv (.var false ['a']) (.neg (.var true ['b'])))) ∧
    ∃ b, ptreeBdd 4 (Decls.tree [(['a'], -1), (['b'], -1)])
      (Fm.equiv (.var false ['a']) (.neg (.var true ['b']))).toTree = .ok b ∧
      b (fun i => i == 0) = true ∧ b (fun i => i == 3) = true ∧ b (fun i => i == 0 || i == 3) = false := by
  constructor
  · unfold Listed; decide +kernel
  · exact ⟨_, rfl, by decide +kernel, by decide +kernel, by decide +kernel⟩

example : ¬ Listed [(['a'], -1)] (.or (.var false ['a']) (.var true ['b'])) := by
  unfold Listed; decide +kernel

/-! ## C24 -/

/-- All variables of a formula, with their tense. -/
def Fm.vars : Fm → List (Bool × Name)
  | .const _ => []
  | .var nx n => [(nx, n)]
  | .neg f => f.vars
  | .and f g => f.vars ++ g.vars
  | .or f g => f.vars ++ g.vars
  | .imp f g => f.vars ++ g.vars
  | .equiv f g => f.vars ++ g.vars
  | .cmp _ nx n _ => [(nx, n)]

/-- Unprimed variables in `us`, primed ones in `ps`. -/
def Scoped (us ps : List Name) (f : Fm) : Prop :=
  ∀ x ∈ f.vars, (x.1 = false → x.2 ∈ us) ∧ (x.1 = true → x.2 ∈ ps)

theorem nameInList_tree (vs : Decls) (n : Name) :
    nameInList (some n) vs.tree = decide (n ∈ vs.map Prod.fst) := by
  induction vs with
  | nil => rfl
  | cons d vs ih =>
    have e : Decls.tree (d :: vs) = .node .var (some d.1) d.2 (Decls.tree vs) .nil := rfl
    rw [e, nameInList, ih]
    rw [Bool.eq_iff_iff]
    simp only [Bool.or_eq_true, beq_iff_eq, Option.some.injEq, decide_eq_true_eq, List.map_cons, List.mem_cons]

/-- `check_vars` finds nothing exactly when the formula is well-scoped. -/
theorem checkVars_scoped (us ps : Decls) (f : Fm) :
    (checkVars us.tree ps.tree f.toTree).isSome = false ↔
      Scoped (us.map Prod.fst) (ps.map Prod.fst) f := by
  have bin : ∀ ty v l r, ty ≠ .var → ty ≠ .next →
      ((checkVars us.tree ps.tree (.node ty none v l r)).isSome = false ↔
        (checkVars us.tree ps.tree l).isSome = false ∧ (checkVars us.tree ps.tree r).isSome = false) := by
    intro ty v l r h1 h2
    simp only [checkVars, h1, h2, false_and, if_false]
    cases checkVars us.tree ps.tree l <;> simp
  have spl : ∀ f g h : Fm, h.vars = f.vars ++ g.vars →
      (Scoped (us.map Prod.fst) (ps.map Prod.fst) h ↔
        Scoped (us.map Prod.fst) (ps.map Prod.fst) f ∧ Scoped (us.map Prod.fst) (ps.map Prod.fst) g) := by
    intro f g h e
    unfold Scoped
    rw [e]
    constructor
    · intro H; exact ⟨fun x hx => H x (by simp [hx]), fun x hx => H x (by simp [hx])⟩
    · rintro ⟨h1, h2⟩ x hx
      rcases List.mem_append.1 hx with h | h
      · exact h1 x h
      · exact h2 x h
  have vcase : ∀ nx n, (checkVars us.tree ps.tree (.node (varTy nx) (some n) 0 .nil .nil)).isSome = false ↔
      Scoped (us.map Prod.fst) (ps.map Prod.fst) (.var nx n) := by
    intro nx n
    cases nx
    · simp only [checkVars, varTy, nameInList_tree, Scoped, Fm.vars, List.mem_singleton, forall_eq]
      by_cases h : n ∈ us.map Prod.fst <;> simp only [h] <;> simp
    · simp only [checkVars, varTy, nameInList_tree, Scoped, Fm.vars, List.mem_singleton, forall_eq]
      by_cases h : n ∈ ps.map Prod.fst <;> simp only [h] <;> simp
  induction f with
  | const v => simp [Fm.toTree, checkVars, Scoped, Fm.vars]
  | var nx n => exact vcase nx n
  | neg f ih =>
    refine (bin _ _ _ _ (by decide) (by decide)).trans ?_
    have : (checkVars us.tree ps.tree .nil).isSome = false := rfl
    exact ⟨fun h => ih.1 h.2, fun h => ⟨this, ih.2 h⟩⟩
  | and f g ihf ihg =>
    exact (bin _ _ _ _ (by decide) (by decide)).trans ((and_congr ihf ihg).trans (spl f g _ rfl).symm)
  | or f g ihf ihg =>
    exact (bin _ _ _ _ (by decide) (by decide)).trans ((and_congr ihf ihg).trans (spl f g _ rfl).symm)
  | imp f g ihf ihg =>
    exact (bin _ _ _ _ (by decide) (by decide)).trans ((and_congr ihf ihg).trans (spl f g _ rfl).symm)
  | equiv f g ihf ihg =>
    exact (bin _ _ _ _ (by decide) (by decide)).trans ((and_congr ihf ihg).trans (spl f g _ rfl).symm)
  | cmp op nx n c =>
    refine (bin _ _ _ _ (by cases op <;> decide) (by cases op <;> decide)).trans ?_
    have : (checkVars us.tree ps.tree (.node .const none c .nil .nil)).isSome = false := rfl
    exact ⟨fun h => (vcase nx n).1 h.1, fun h => ⟨(vcase nx n).2 h, this⟩⟩

/-- What the documentation requires of a specification (`/repo/doc/spc_format.md` 30-77 and 105-110,
`/repo/include/util.h`). -/
structure WellScoped (evars svars : Decls) (flag : InitFlag) (sp : FSpec) : Prop where
  declared : evars ≠ [] ∨ svars ≠ []
  einit : ∀ f, sp.einit = some f →
    Scoped (if flag = .allEnvExistSys then evars.map Prod.fst else (evars ++ svars).map Prod.fst) [] f
  sinit : ∀ f, sp.sinit = some f →
    Scoped (if flag = .allEnvExistSys then svars.map Prod.fst else (evars ++ svars).map Prod.fst) [] f
  oneSide : flag = .oneSide → sp.einit = none ∨ sp.sinit = none
  etrans : ∀ f ∈ sp.etrans, Scoped ((evars ++ svars).map Prod.fst) (evars.map Prod.fst) f
  strans : ∀ f ∈ sp.strans, Scoped ((evars ++ svars).map Prod.fst) ((evars ++ svars).map Prod.fst) f
  egoals : ∀ f ∈ sp.egoals, Scoped ((evars ++ svars).map Prod.fst) [] f
  sgoals : ∀ f ∈ sp.sgoals, Scoped ((evars ++ svars).map Prod.fst) [] f

theorem scoped_congr {us us' ps ps' : List Name} (hu : ∀ n, n ∈ us ↔ n ∈ us') (hp : ∀ n, n ∈ ps ↔ n ∈ ps')
    (f : Fm) : Scoped us ps f ↔ Scoped us' ps' f := by
  unfold Scoped
  simp only [hu, hp]

theorem arrayBad_scoped (us ps : Decls) (fs : List Fm) :
    arrayBad us.tree ps.tree (fs.map Fm.toTree) = false ↔
      ∀ f ∈ fs, Scoped (us.map Prod.fst) (ps.map Prod.fst) f := by
  unfold arrayBad
  rw [List.any_eq_false]
  constructor
  · intro h f hf
    have := h f.toTree (List.mem_map.2 ⟨f, hf, rfl⟩)
    exact (checkVars_scoped us ps f).1 (by simpa using this)
  · intro h t ht
    obtain ⟨f, hf, rfl⟩ := List.mem_map.1 ht
    have := (checkVars_scoped us ps f).2 (h f hf)
    simpa using this

theorem optVars_scoped (us ps : Decls) (o : Option Fm) :
    (checkVars us.tree ps.tree (optTree o)).isSome = false ↔
      ∀ f, o = some f → Scoped (us.map Prod.fst) (ps.map Prod.fst) f := by
  cases o with
  | none => simp [optTree, checkVars]
  | some f =>
    simp only [optTree, Option.some.injEq, forall_eq']
    exact checkVars_scoped us ps f

/-- The chain of tests of `check_gr1c_form` as one condition. -/
theorem form_tests {size0 b4 : Prop} [Decidable size0] [Decidable b4] (flag : InitFlag)
    (b2 b3 b5 b6 b7 b8 b9 b10 : Bool) :
    (if size0 then (-1 : ℤ)
      else if flag = .allEnvExistSys ∧ b2 = true then -1
      else if flag = .allEnvExistSys ∧ b3 = true then -1
      else if b4 then -1
      else if b5 = true then -1 else if b6 = true then -1 else if b7 = true then -1
      else if b8 = true then -1 else if b9 = true then -1 else if b10 = true then -1 else 0) =
    if ¬ size0 ∧ (flag = .allEnvExistSys → b2 = false ∧ b3 = false) ∧ ¬ b4 ∧ b5 = false ∧ b6 = false ∧
      b7 = false ∧ b8 = false ∧ b9 = false ∧ b10 = false then 0 else -1 := by
  by_cases h1 : size0
  · simp [h1]
  by_cases h4 : b4
  · simp [h1, h4]
  by_cases hf : flag = .allEnvExistSys
  · simp only [h1, h4, hf]
    cases b2 <;> cases b3 <;> cases b5 <;> simp <;> cases b6 <;> simp <;> cases b7 <;> simp <;>
      cases b8 <;> simp <;> cases b9 <;> simp <;> cases b10 <;> simp
  · simp only [h1, h4, hf]
    cases b5 <;> simp <;> cases b6 <;> simp <;> cases b7 <;> simp <;>
      cases b8 <;> simp <;> cases b9 <;> simp <;> cases b10 <;> simp

/-- **C24.** `check_gr1c_form` returns 0 on exactly the well-scoped specifications, -1 on the others. -/
theorem check_form_exact (evars svars : Decls) (flag : InitFlag) (sp : FSpec) :
    (WellScoped evars svars flag sp → checkGr1cForm evars.tree svars.tree flag sp.toT = 0) ∧
    (¬ WellScoped evars svars flag sp → checkGr1cForm evars.tree svars.tree flag sp.toT = -1) := by
  have hc : chainVars svars.tree evars.tree = Decls.tree (svars ++ evars) := chain_tree svars evars
  have hs : ∀ vs : Decls, PTree.size vs.tree = vs.length := by
    intro vs; unfold Decls.tree; rw [list_size]; simp
  have hmem : ∀ n, n ∈ (svars ++ evars).map Prod.fst ↔ n ∈ (evars ++ svars).map Prod.fst := by
    intro n; simp only [List.map_append, List.mem_append]; exact Or.comm
  have hnil : Decls.tree [] = .nil := rfl
  have hall : ∀ f ps, Scoped ((svars ++ evars).map Prod.fst) ps f ↔
      Scoped ((evars ++ svars).map Prod.fst) ps f := fun f ps => scoped_congr hmem (fun _ => Iff.rfl) f
  have hall2 : ∀ f, Scoped ((svars ++ evars).map Prod.fst) ((svars ++ evars).map Prod.fst) f ↔
      Scoped ((evars ++ svars).map Prod.fst) ((evars ++ svars).map Prod.fst) f :=
    fun f => scoped_congr hmem hmem f
  -- the individual tests
  have t2 := optVars_scoped evars [] sp.einit
  have t3 := optVars_scoped svars [] sp.sinit
  have t5 := optVars_scoped (svars ++ evars) [] sp.einit
  have t6 := optVars_scoped (svars ++ evars) [] sp.sinit
  have t7 := arrayBad_scoped (svars ++ evars) evars sp.etrans
  have t8 := arrayBad_scoped (svars ++ evars) (svars ++ evars) sp.strans
  have t9 := arrayBad_scoped (svars ++ evars) [] sp.egoals
  have t10 := arrayBad_scoped (svars ++ evars) [] sp.sgoals
  simp only [hall2] at t8
  simp only [hnil, List.map_nil, hall] at t2 t3 t5 t6 t7 t9 t10
  have up : ∀ (us : List Name) f, (∀ n ∈ us, n ∈ (evars ++ svars).map Prod.fst) → Scoped us [] f →
      Scoped ((evars ++ svars).map Prod.fst) [] f := by
    intro us f hu hf x hx
    exact ⟨fun h => hu _ ((hf x hx).1 h), (hf x hx).2⟩
  have e1 : (PTree.size evars.tree = 0 ∧ PTree.size svars.tree = 0) ↔ ¬ (evars ≠ [] ∨ svars ≠ []) := by
    rw [hs, hs, List.length_eq_zero_iff, List.length_eq_zero_iff, not_or, not_not, not_not]
  have e4 : (flag = .oneSide ∧ optTree sp.einit ≠ .nil ∧ optTree sp.sinit ≠ .nil) ↔
      ¬ (flag = .oneSide → sp.einit = none ∨ sp.sinit = none) := by
    simp only [ne_eq, optTree_nil, Classical.not_imp, not_or]
  have hiff : WellScoped evars svars flag sp ↔
      (¬ (PTree.size evars.tree = 0 ∧ PTree.size svars.tree = 0) ∧
        (flag = .allEnvExistSys → (checkVars evars.tree .nil (optTree sp.einit)).isSome = false ∧
          (checkVars svars.tree .nil (optTree sp.sinit)).isSome = false) ∧
        ¬ (flag = .oneSide ∧ optTree sp.einit ≠ .nil ∧ optTree sp.sinit ≠ .nil) ∧
        (checkVars (Decls.tree (svars ++ evars)) .nil (optTree sp.einit)).isSome = false ∧
        (checkVars (Decls.tree (svars ++ evars)) .nil (optTree sp.sinit)).isSome = false ∧
        arrayBad (Decls.tree (svars ++ evars)) evars.tree (sp.etrans.map Fm.toTree) = false ∧
        arrayBad (Decls.tree (svars ++ evars)) (Decls.tree (svars ++ evars)) (sp.strans.map Fm.toTree) = false ∧
        arrayBad (Decls.tree (svars ++ evars)) .nil (sp.egoals.map Fm.toTree) = false ∧
        arrayBad (Decls.tree (svars ++ evars)) .nil (sp.sgoals.map Fm.toTree) = false) := by
    rw [e1, e4, not_not, not_not, t2, t3, t5, t6, t7, t8, t9, t10]
    constructor
    · intro h
      refine ⟨h.declared, fun hf => ⟨?_, ?_⟩, h.oneSide, ?_, ?_, h.etrans, h.strans, h.egoals, h.sgoals⟩
      · have := h.einit; rwa [if_pos hf] at this
      · have := h.sinit; rwa [if_pos hf] at this
      · intro f hf
        refine up _ f ?_ (h.einit f hf)
        intro n hn
        split at hn
        · simp only [List.map_append, List.mem_append]; exact Or.inl hn
        · exact hn
      · intro f hf
        refine up _ f ?_ (h.sinit f hf)
        intro n hn
        split at hn
        · simp only [List.map_append, List.mem_append]; exact Or.inr hn
        · exact hn
    · rintro ⟨h1, h2, h3, h4, h5, h6, h7, h8, h9⟩
      refine ⟨h1, ?_, ?_, h3, h6, h7, h8, h9⟩
      · by_cases hf : flag = .allEnvExistSys
        · rw [if_pos hf]; exact (h2 hf).1
        · rw [if_neg hf]; exact h4
      · by_cases hf : flag = .allEnvExistSys
        · rw [if_pos hf]; exact (h2 hf).2
        · rw [if_neg hf]; exact h5
  constructor
  · intro h
    unfold checkGr1cForm
    simp only [hc, FSpec.toT]
    rw [form_tests]
    exact if_pos (hiff.1 h)
  · intro h
    unfold checkGr1cForm
    simp only [hc, FSpec.toT]
    rw [form_tests]
    exact if_neg (mt hiff.2 h)

/-- A specification with both kinds of variables that passes, and one that fails because the environment
is required to react to the system's next value. -/
example : checkGr1cForm (Decls.tree GREx.evars) (Decls.tree GREx.svars) .allEnvExistSys
      { GREx.sp with strans := [.cmp .ge true ['z'] 2] }.toT = 0 ∧
    checkGr1cForm (Decls.tree GREx.evars) (Decls.tree GREx.svars) .allEnvExistSys
      { GREx.sp with etrans := [.cmp .ge true ['z'] 2] }.toT = -1 := by decide +kernel

/-- The check is about names only: it accepts a Boolean use of an integer variable, on which
`ptree_BDD` later exits because after expansion only the bits are listed. -/
theorem check_form_accepts_int_as_bool :
    let ds : Decls := [(['x'], 2)]
    let sp : FSpec := ⟨none, some (.var false ['x']), [], [], [], []⟩
    checkGr1cForm .nil ds.tree .allEnvExistSys sp.toT = 0 ∧
      ptreeBdd 4 (ofItems (expandedItems ds)) (optTree sp.sinit) = .exit := by
  refine ⟨by decide +kernel, ?_⟩
  have : ofItems (expandedItems [(['x'], 2)]) = Decls.tree [(['x', '0'], 0), (['x', '1'], 0)] := by decide +kernel
  rw [this]
  exact ptree_BDD_exit [(['x', '0'], 0), (['x', '1'], 0)] (.var false ['x']) rfl (by unfold Listed; decide +kernel)

/-- It also accepts a comparison on a Boolean variable, for which `ptree_BDD` returns NULL. -/
theorem check_form_accepts_bool_as_int :
    let ds : Decls := [(['a'], -1)]
    let sp : FSpec := ⟨none, some (.cmp .eq false ['a'] 1), [], [], [], []⟩
    checkGr1cForm .nil ds.tree .allEnvExistSys sp.toT = 0 ∧
      expandNonboolGR1 .nil ds.tree .allEnvExistSys sp.toT = .ok sp.toT ∧
      ptreeBdd 2 (ofItems (expandedItems ds)) (optTree sp.sinit) = .null :=
  ⟨by decide +kernel, by decide +kernel, rfl⟩

end Gr1c
