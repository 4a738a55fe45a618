import Verif.PipelineLemmas

/-! # C45, C39: the verdict is about the declared values -/

namespace Gr1c

open PTree

/-! ## Formulas -/

theorem eval_congr (f : Fm) (ρ ρ' : Env) (hb : ∀ x ∈ f.bvars, ρ.b x.1 x.2 = ρ'.b x.1 x.2)
    (hz : ∀ x ∈ f.zvars, ρ.z x.1 x.2 = ρ'.z x.1 x.2) : f.eval ρ = f.eval ρ' := by
  induction f with
  | const v => rfl
  | var nx n => exact hb (nx, n) (by simp [Fm.bvars])
  | neg f ih => simp only [Fm.eval]; rw [ih hb hz]
  | and f g ihf ihg =>
    simp only [Fm.eval]
    rw [ihf (fun x hx => hb x (by simp [Fm.bvars, hx])) (fun x hx => hz x (by simp [Fm.zvars, hx])),
      ihg (fun x hx => hb x (by simp [Fm.bvars, hx])) (fun x hx => hz x (by simp [Fm.zvars, hx]))]
  | or f g ihf ihg =>
    simp only [Fm.eval]
    rw [ihf (fun x hx => hb x (by simp [Fm.bvars, hx])) (fun x hx => hz x (by simp [Fm.zvars, hx])),
      ihg (fun x hx => hb x (by simp [Fm.bvars, hx])) (fun x hx => hz x (by simp [Fm.zvars, hx]))]
  | imp f g ihf ihg =>
    simp only [Fm.eval]
    rw [ihf (fun x hx => hb x (by simp [Fm.bvars, hx])) (fun x hx => hz x (by simp [Fm.zvars, hx])),
      ihg (fun x hx => hb x (by simp [Fm.bvars, hx])) (fun x hx => hz x (by simp [Fm.zvars, hx]))]
  | equiv f g ihf ihg =>
    simp only [Fm.eval]
    rw [ihf (fun x hx => hb x (by simp [Fm.bvars, hx])) (fun x hx => hz x (by simp [Fm.zvars, hx])),
      ihg (fun x hx => hb x (by simp [Fm.bvars, hx])) (fun x hx => hz x (by simp [Fm.zvars, hx]))]
  | cmp op nx n k => simp only [Fm.eval]; rw [hz (nx, n) (by simp [Fm.zvars])]

/-- All variables are declared and of the right kind. -/
def TypedAny (ds : Decls) (f : Fm) : Prop :=
  (∀ x ∈ f.bvars, ∃ d ∈ ds, d.1 = x.2 ∧ d.2 < 0) ∧ (∀ x ∈ f.zvars, ∃ d ∈ ds, d.1 = x.2 ∧ 0 ≤ d.2)

theorem Typed.any {us ps ds : Decls} {f : Fm} (h : Typed us ps f) (hu : us ⊆ ds) (hp : ps ⊆ ds) :
    TypedAny ds f := by
  constructor
  · intro x hx
    obtain ⟨d, hd, h⟩ := h.1 x hx
    exact ⟨d, by split at hd <;> [exact hp hd; exact hu hd], h⟩
  · intro x hx
    obtain ⟨d, hd, h⟩ := h.2 x hx
    exact ⟨d, by split at hd <;> [exact hp hd; exact hu hd], h⟩

theorem typedAny_and {ds : Decls} {a b : Fm} (ha : TypedAny ds a) (hb : TypedAny ds b) :
    TypedAny ds (.and a b) := by
  constructor
  · intro x hx
    simp only [Fm.bvars, List.mem_append] at hx
    exact hx.elim (ha.1 x) (hb.1 x)
  · intro x hx
    simp only [Fm.zvars, List.mem_append] at hx
    exact hx.elim (ha.2 x) (hb.2 x)

theorem typedAny_const (ds : Decls) (v : ℤ) : TypedAny ds (.const v) := by
  constructor <;> intro x hx <;> simp [Fm.bvars, Fm.zvars] at hx

theorem typedAny_blocks {ds : Decls} {d : Name × ℤ} {nx : Bool} {g : Fm} (hd : d ∈ ds) (h : Blocks d nx g) :
    TypedAny ds g := by
  constructor
  · intro x hx; rw [h.bvars] at hx; cases hx
  · intro x hx; rw [h.zvars x hx]; exact ⟨d, hd, rfl, h.int⟩

/-- Expanded formulas contain bits only. -/
theorem expanded_listed {evars svars : Decls} {f f' : Fm} (ht : TypedAny (evars ++ svars) f)
    (h : ExpandsAll (evars ++ svars) f f') :
    f'.zvars = [] ∧ Listed (expDecls evars ++ expDecls svars) f' := by
  have hn : ∀ d ∈ evars ++ svars, ∀ m ∈ blockNames d, m ∈ (expDecls evars ++ expDecls svars).map Prod.fst := by
    intro d hd m hm
    rw [List.map_append, expDecls_names, expDecls_names, ← List.flatMap_append]
    exact List.mem_flatMap.2 ⟨d, hd, hm⟩
  constructor
  · apply List.eq_nil_iff_forall_not_mem.2
    intro x hx
    obtain ⟨h1, h2⟩ := expandsAll_zvars h x hx
    obtain ⟨d, hd, h3, h4⟩ := ht.2 x h1
    exact h2 d hd h4 h3.symm
  · intro x hx
    rcases expandsAll_bvars h x hx with h1 | ⟨d, hd, h0, i, hi, h1, -⟩
    · obtain ⟨d, hd, h3, h4⟩ := ht.1 x h1
      exact hn d hd _ (h3 ▸ bool_mem h4)
    · rw [h1]
      exact hn d hd _ (int_mem h0 hi)

theorem addTrans_ne {ds : Decls} {l l' : List Fm} (h : AddTrans ds l l') (hl : l ≠ []) : l' ≠ [] := by
  induction h with
  | nil l => exact hl
  | skip _ _ ih => exact ih hl
  | add _ _ _ _ ih => exact ih (by simp)

theorem FSpec.toT_inj {a b : FSpec} (h : a.toT = b.toT) : a = b := by
  have ho : ∀ {o o' : Option Fm}, optTree o = optTree o' → o = o' := by
    intro o o' h
    cases o <;> cases o'
    · rfl
    · exact absurd h.symm (by simp [optTree, toTree_ne_nil])
    · exact absurd h (by simp [optTree, toTree_ne_nil])
    · exact congrArg some (Fm.toTree_inj h)
  have hl : ∀ {l l' : List Fm}, l.map Fm.toTree = l'.map Fm.toTree → l = l' :=
    fun h => List.map_injective_iff.2 (fun _ _ => Fm.toTree_inj) h
  cases a; cases b
  simp only [FSpec.toT, TSpec.mk.injEq] at h
  obtain ⟨h1, h2, h3, h4, h5, h6⟩ := h
  rw [ho h1, ho h2, hl h3, hl h4, hl h5, hl h6]

/-! ## Omitted sections -/

/-- Defaults for omitted sections. -/
def withDefaults (sp : FSpec) : FSpec :=
  { sp with
    etrans := if sp.etrans = [] then [.const 1] else sp.etrans
    strans := if sp.strans = [] then [.const 1] else sp.strans
    sgoals := sysGoals sp }

theorem omissionDefaults_toT (sp : FSpec) : omissionDefaults sp.toT = (withDefaults sp).toT := by
  obtain ⟨a, b, c, d, e, f⟩ := sp
  cases c <;> cases d <;> cases f <;> rfl

theorem mem_default {l : List Fm} {f : Fm} (h : f ∈ if l = [] then [Fm.const 1] else l) : f ∈ l ∨ f = .const 1 := by
  split at h
  · right; simpa using h
  · left; exact h

theorem default_all (l : List Fm) (ρ : Env) :
    (∀ f ∈ (if l = [] then [Fm.const 1] else l), f.eval ρ = true) ↔ ∀ f ∈ l, f.eval ρ = true := by
  by_cases h : l = []
  · rw [if_pos h, h]; simp [Fm.eval]
  · rw [if_neg h]

theorem withDefaults_all {sp : FSpec} {f : Fm} (h : f ∈ (withDefaults sp).all) : f ∈ sp.all ∨ f = .const 1 := by
  simp only [FSpec.all, withDefaults, sysGoals, List.mem_append] at h ⊢
  rcases h with ((((h | h) | h) | h) | h) | h
  · tauto
  · tauto
  · rcases mem_default h with h | h <;> tauto
  · rcases mem_default h with h | h <;> tauto
  · tauto
  · rcases mem_default h with h | h <;> tauto

/-- Defaults for omitted transition rules, and these system goals. -/
def withGoals (sp : FSpec) (goals : List Fm) : FSpec :=
  { sp with
    etrans := if sp.etrans = [] then [.const 1] else sp.etrans
    strans := if sp.strans = [] then [.const 1] else sp.strans
    sgoals := goals }

theorem withGoals_sys (sp : FSpec) : withGoals sp (sysGoals sp) = withDefaults sp := rfl

theorem withGoals_all {sp : FSpec} {goals : List Fm} {f : Fm} (h : f ∈ (withGoals sp goals).all) :
    f ∈ sp.all ∨ f ∈ goals ∨ f = .const 1 := by
  simp only [FSpec.all, withGoals, List.mem_append] at h ⊢
  rcases h with ((((h | h) | h) | h) | h) | h
  · tauto
  · tauto
  · rcases mem_default h with h | h <;> tauto
  · rcases mem_default h with h | h <;> tauto
  · tauto
  · tauto

/-! ## BDDs -/

section bdds

variable {evars svars : Decls}

/-- BDDs over the expanded variables. -/
abbrev XBdd (evars svars : Decls) := Bdd (2 * ((expDecls evars).length + (expDecls svars).length))

/-- The BDD is the formula. -/
def Denotes (f : Fm) (b : XBdd evars svars) : Prop :=
  ∀ s t : XState evars svars, b (joinAsg s t) = f.eval (bitEnv s t)

theorem ptree_BDD_ok' {N : ℕ} (vs : Decls) (hN : N = 2 * vs.length) (f : Fm) (hz : f.zvars = [])
    (hl : Listed vs f) : ∃ b, ptreeBdd N vs.tree f.toTree = .ok b ∧
      ∀ ρ (a : Asg N), (∀ k (h : k < vs.length), a ⟨k, by omega⟩ = ρ.b false vs[k].1 ∧
        a ⟨vs.length + k, by omega⟩ = ρ.b true vs[k].1) → b a = f.eval ρ := by
  subst hN
  exact ptree_BDD_ok vs f hz hl

variable (hF : Fresh evars svars)
include hF

theorem denotes_ok (f : Fm) (hf : f.zvars = [] ∧ Listed (expDecls evars ++ expDecls svars) f) :
    ∃ b : XBdd evars svars, ptreeBdd (2 * ((expDecls evars).length + (expDecls svars).length))
      (Decls.tree (expDecls evars ++ expDecls svars)) f.toTree = .ok b ∧ Denotes f b := by
  obtain ⟨b, h1, h2⟩ := ptree_BDD_ok' (N := 2 * ((expDecls evars).length + (expDecls svars).length))
    (expDecls evars ++ expDecls svars) (by rw [List.length_append]) f hf.1 hf.2
  refine ⟨b, h1, ?_⟩
  intro s t
  apply h2
  intro k h
  exact join_agrees hF s t k h

theorem denotes_list (fs : List Fm)
    (hf : ∀ f ∈ fs, f.zvars = [] ∧ Listed (expDecls evars ++ expDecls svars) f) :
    ∃ bs : List (XBdd evars svars), bddList (2 * ((expDecls evars).length + (expDecls svars).length))
      (Decls.tree (expDecls evars ++ expDecls svars)) (fs.map Fm.toTree) = some bs ∧
      List.Forall₂ Denotes fs bs := by
  induction fs with
  | nil => exact ⟨[], rfl, .nil⟩
  | cons f fs ih =>
    obtain ⟨b, h1, h2⟩ := denotes_ok hF f (hf f List.mem_cons_self)
    obtain ⟨bs, h3, h4⟩ := ih fun g hg => hf g (List.mem_cons_of_mem _ hg)
    exact ⟨b :: bs, by simp only [List.map_cons, bddList, h1, h3], .cons h2 h4⟩

theorem denotes_opt (o : Option Fm)
    (hf : ∀ f ∈ o, f.zvars = [] ∧ Listed (expDecls evars ++ expDecls svars) f) :
    ∃ b : Option (XBdd evars svars), bddOpt (2 * ((expDecls evars).length + (expDecls svars).length))
      (Decls.tree (expDecls evars ++ expDecls svars)) (optTree o) = some b ∧ Option.Rel Denotes o b := by
  cases o with
  | none => exact ⟨none, rfl, .none⟩
  | some f =>
    obtain ⟨b, h1, h2⟩ := denotes_ok hF f (hf f rfl)
    refine ⟨some b, ?_, .some h2⟩
    simp only [optTree, bddOpt, if_neg (toTree_ne_nil f), h1]

theorem denotes_merge (fs : List Fm) (hne : fs ≠ [])
    (hf : ∀ f ∈ fs, f.zvars = [] ∧ Listed (expDecls evars ++ expDecls svars) f) :
    ∃ b : XBdd evars svars, ptreeBdd (2 * ((expDecls evars).length + (expDecls svars).length))
      (Decls.tree (expDecls evars ++ expDecls svars)) (mergePtrees (fs.map Fm.toTree) .and) = .ok b ∧
      ∀ s t : XState evars svars, b (joinAsg s t) = true ↔ ∀ f ∈ fs, f.eval (bitEnv s t) = true := by
  rw [mergePtrees_toTree_and fs hne]
  obtain ⟨b, h1, h2⟩ := denotes_ok hF (mergeFm .and fs.reverse)
    ⟨mergeFm_zvars_and _ fun f h => (hf f (List.mem_reverse.1 h)).1,
      mergeFm_bvars_and _ (fun x => x.2 ∈ (expDecls evars ++ expDecls svars).map Prod.fst)
        fun f h => (hf f (List.mem_reverse.1 h)).2⟩
  refine ⟨b, h1, ?_⟩
  intro s t
  rw [h2 s t, mergeFm_and_eval _ _ (by simpa using hne), List.all_reverse, List.all_eq_true]

/-- On encoded states a typed formula has the value it has on the declared values. -/
theorem eval_enc (s t : XState evars svars) (s' t' : IState evars svars) (us ps : Decls)
    (f : Fm) (h : Typed us ps f)
    (hu : ∀ d ∈ us, (d ∈ evars ∧ s.1 = encVal evars s'.1) ∨ (d ∈ svars ∧ s.2 = encVal svars s'.2))
    (hp : ∀ d ∈ ps, (d ∈ evars ∧ t.1 = encVal evars t'.1) ∨ (d ∈ svars ∧ t.2 = encVal svars t'.2)) :
    f.eval (bitEnv s t) = f.eval (intEnv s' t') := by
  have key : ∀ nx, ∀ d ∈ (if nx then ps else us),
      (d.2 < 0 → (bitEnv s t).b nx d.1 = (intEnv s' t').b nx d.1) ∧
      (0 ≤ d.2 → (bitEnv s t).z nx d.1 = (intEnv s' t').z nx d.1) := by
    intro nx d hd
    cases nx with
    | false =>
      rcases hu d hd with ⟨h1, h2⟩ | ⟨h1, h2⟩
      · exact agree_e hF s t s' t' false h2 h1
      · exact agree_s hF s t s' t' false h2 h1
    | true =>
      rcases hp d hd with ⟨h1, h2⟩ | ⟨h1, h2⟩
      · exact agree_e hF s t s' t' true h2 h1
      · exact agree_s hF s t s' t' true h2 h1
  apply eval_congr
  · rintro ⟨nx, n⟩ hx
    obtain ⟨d, hd, h1, h2⟩ := h.1 _ hx
    exact h1 ▸ (key nx d hd).1 h2
  · rintro ⟨nx, n⟩ hx
    obtain ⟨d, hd, h1, h2⟩ := h.2 _ hx
    exact h1 ▸ (key nx d hd).2 h2

end bdds

/-! ## The verdict in corresponding games -/

theorem codeRealizable_embed {E S E' S' : Type} [Fintype E] [DecidableEq E] [Fintype S] [DecidableEq S]
    [Fintype E'] [DecidableEq E'] [Fintype S'] [DecidableEq S']
    {G : Game E S} {H : Game E' S'} {ιe : E → E'} {ιs : S → S'} (hi : Function.Injective ιe)
    {egs sgs : List (Finset (E × S))} {egs' sgs' : List (Finset (E' × S'))} (flag : InitFlag)
    {ei si : Option (Finset (E × S))} {ei' si' : Option (Finset (E' × S'))}
    (hW : ∀ s, Winnable H egs' sgs' (Prod.map ιe ιs s) ↔ Winnable G egs sgs s)
    (hE : ∀ s, Prod.map ιe ιs s ∈ initSet ei' ↔ s ∈ initSet ei)
    (hS : ∀ s, Prod.map ιe ιs s ∈ initSet si' ↔ s ∈ initSet si)
    (h1 : flag ≠ .oneSide → ∀ s', s' ∈ initSet ei' → s' ∈ initSet si' → ∃ s, Prod.map ιe ιs s = s')
    (h2 : flag = .oneSide → si = none → ∀ s', s' ∈ initSet ei' → ∃ s, Prod.map ιe ιs s = s')
    (h3 : flag = .oneSide → si ≠ none → ∀ s', s' ∈ initSet si' → ∃ s, Prod.map ιe ιs s = s')
    (h4 : flag = .oneSide → (si' = none ↔ si = none)) :
    CodeRealizable H egs' sgs' flag ei' si' ↔ CodeRealizable G egs sgs flag ei si := by
  cases flag with
  | undefined => exact Iff.rfl
  | allInit =>
    have h1 := h1 (by simp)
    constructor
    · rintro ⟨⟨s', ha, hb⟩, hc⟩
      obtain ⟨s, rfl⟩ := h1 s' ha hb
      exact ⟨⟨s, (hE s).1 ha, (hS s).1 hb⟩, fun s a b => (hW s).1 (hc _ ((hE s).2 a) ((hS s).2 b))⟩
    · rintro ⟨⟨s, ha, hb⟩, hc⟩
      refine ⟨⟨_, (hE s).2 ha, (hS s).2 hb⟩, fun s' a b => ?_⟩
      obtain ⟨s, rfl⟩ := h1 s' a b
      exact (hW s).2 (hc s ((hE s).1 a) ((hS s).1 b))
  | allEnvExistSys =>
    have h1 := h1 (by simp)
    constructor
    · rintro h e ⟨x, ha, hb⟩
      obtain ⟨x', ka, kb, kc⟩ := h (ιe e) ⟨ιs x, (hE (e, x)).2 ha, (hS (e, x)).2 hb⟩
      obtain ⟨⟨e2, x2⟩, hs⟩ := h1 _ ka kb
      simp only [Prod.map_apply, Prod.mk.injEq] at hs
      have := hi hs.1
      subst this
      rw [← hs.2] at ka kb kc
      exact ⟨x2, (hE (e2, x2)).1 ka, (hS (e2, x2)).1 kb, (hW (e2, x2)).1 kc⟩
    · rintro h e' ⟨x', ha, hb⟩
      obtain ⟨⟨e, x⟩, hs⟩ := h1 _ ha hb
      simp only [Prod.map_apply, Prod.mk.injEq] at hs
      rw [← hs.1, ← hs.2] at ha hb
      rw [← hs.1]
      obtain ⟨y, ka, kb, kc⟩ := h e ⟨x, (hE (e, x)).1 ha, (hS (e, x)).1 hb⟩
      exact ⟨ιs y, (hE (e, y)).2 ka, (hS (e, y)).2 kb, (hW (e, y)).2 kc⟩
  | oneSide =>
    have h2 := h2 rfl
    have h3 := h3 rfl
    have h4 := h4 rfl
    cases hsi : si with
    | none =>
      have := h4.2 hsi
      subst this
      have h2 := h2 hsi
      constructor
      · intro h s a; exact (hW s).1 (h _ ((hE s).2 a))
      · intro h s' a
        obtain ⟨s, rfl⟩ := h2 s' a
        exact (hW s).2 (h s ((hE s).1 a))
    | some A =>
      have hne : si' ≠ none := fun h => by have := h4.1 h; rw [hsi] at this; cases this
      obtain ⟨A', rfl⟩ := Option.ne_none_iff_exists'.1 hne
      subst hsi
      have h3 := h3 (by simp)
      simp only [initSet, Option.getD_some] at hS h3
      constructor
      · rintro ⟨s', a, b⟩
        obtain ⟨s, rfl⟩ := h3 s' a
        exact ⟨s, (hS s).1 a, (hW s).1 b⟩
      · rintro ⟨s, a, b⟩
        exact ⟨_, (hS s).2 a, (hW s).2 b⟩

/-! ## The theorem -/

section main

variable {evars svars : Decls}

theorem mem_init_bdd {o : Option Fm} {b : Option (XBdd evars svars)} (h : Option.Rel Denotes o b)
    (s : XState evars svars) : s ∈ initSet (b.map statesOf) ↔ optEval (bitEnv s s) o = true := by
  cases h with
  | none => simp [initSet, optEval]
  | some h => simp only [initSet, Option.map_some, Option.getD_some, statesOf, Finset.mem_filter,
      Finset.mem_univ, true_and, optEval]; rw [h s s]

theorem mem_init_int (o : Option Fm) (s : IState evars svars) :
    s ∈ initSet (o.map fmStates) ↔ optEval (intEnv s s) o = true := by
  cases o <;> simp [initSet, optEval, fmStates]

theorem goals_rel (l l' : List Fm) (bs : List (XBdd evars svars)) (hb : List.Forall₂ Denotes l' bs)
    (h : ∀ s : IState evars svars, l'.map (Fm.eval (bitEnv (encState s) (encState s))) =
      l.map (Fm.eval (intEnv s s))) (hl : l.length = l'.length) :
    List.Forall₂ (GoalRel (encVal evars) (encVal svars)) (l.map fmStates) (bs.map statesOf) := by
  induction hb generalizing l with
  | nil => rw [List.length_nil, List.length_eq_zero_iff] at hl; subst hl; exact .nil
  | @cons f' b l' bs h1 h2 ih =>
    cases l with
    | nil => simp at hl
    | cons f l =>
      simp only [List.map_cons, List.cons.injEq] at h
      refine .cons ?_ (ih l (fun s => (h s).2) (by simpa using hl))
      intro s
      simp only [statesOf, fmStates, Finset.mem_filter, Finset.mem_univ, true_and]
      change b (joinAsg (encState s) (encState s)) = true ↔ _
      rw [h1 _ _, (h s).1]

/-- The BDDs represent the specification: the bit-level game restricted to encoded states is the game over
the declared values, and the initial formulas admit encoded states only. The system goals are given separately. -/
structure RepresentsWith (evars svars : Decls) (flag : InitFlag) (sp : FSpec) (goals : List Fm)
    (B : BitSpec (expDecls evars).length (expDecls svars).length) : Prop where
  emb : Embeds (intGame evars svars sp) B.game (encVal evars) (encVal svars)
  egs : List.Forall₂ (GoalRel (encVal evars) (encVal svars)) (sp.egoals.map fmStates) B.egs
  sgs : List.Forall₂ (GoalRel (encVal evars) (encVal svars)) (goals.map fmStates) B.sgs
  ei : ∀ s : IState evars svars, encState s ∈ initSet B.ei ↔ s ∈ initSet (sp.einit.map fmStates)
  si : ∀ s : IState evars svars, encState s ∈ initSet B.si ↔ s ∈ initSet (sp.sinit.map fmStates)
  both : flag ≠ .oneSide → ∀ s', s' ∈ initSet B.ei → s' ∈ initSet B.si → ∃ s : IState evars svars, encState s = s'
  envSide : flag = .oneSide → sp.sinit = none → ∀ s', s' ∈ initSet B.ei → ∃ s : IState evars svars, encState s = s'
  sysSide : flag = .oneSide → sp.sinit ≠ none → ∀ s', s' ∈ initSet B.si → ∃ s : IState evars svars, encState s = s'
  siNone : flag = .oneSide → (B.si = none ↔ sp.sinit = none)
  eiEnv : flag = .allEnvExistSys → ∀ e x y, (e, x) ∈ initSet B.ei → (e, y) ∈ initSet B.ei
  siSys : flag = .allEnvExistSys → ∀ e d x, (e, x) ∈ initSet B.si → (d, x) ∈ initSet B.si
  free : evars = [] → (∀ f ∈ sp.etrans, f = .const 1) → ∀ s e, B.game.etr s e = true
  unprimed : ∀ (s : IState evars svars) (e : DVal evars) (x : DVal svars),
    B.etrans (joinAsg (encState s) (encVal evars e, encVal svars x)) = true ↔
      (intGame evars svars sp).etr s e = true
  domE : ∀ s t, B.game.etr s t = true → ∃ e : DVal evars, encVal evars e = s.1
  domS : ∀ s t, B.game.str s t = true → ∃ x : DVal svars, encVal svars x = s.2

/-- The BDDs represent the specification, with the system goals that `gr1c` uses. -/
abbrev Represents (evars svars : Decls) (flag : InitFlag) (sp : FSpec)
    (B : BitSpec (expDecls evars).length (expDecls svars).length) : Prop :=
  RepresentsWith evars svars flag sp (sysGoals sp) B

/-- The verdict on represented specifications. -/
theorem Represents.verdict {flag : InitFlag} {sp : FSpec}
    {B : BitSpec (expDecls evars).length (expDecls svars).length} (hB : Represents evars svars flag sp B)
    (h0 : B.sgs ≠ []) : ∃ r, B.check flag = some r ∧
      (r ≠ none ↔ CodeRealizable (intGame evars svars sp) (sp.egoals.map fmStates)
        ((sysGoals sp).map fmStates) flag (sp.einit.map fmStates) (sp.sinit.map fmStates)) ∧
      ∀ W, r = some W → ∀ s : IState evars svars, encState s ∈ W ↔
        Winnable (intGame evars svars sp) (sp.egoals.map fmStates) ((sysGoals sp).map fmStates) s := by
  obtain ⟨W0, hW0⟩ := (winning_set_defined B.game B.egs B.sgs).2 h0
  have hrun : B.check flag = some (checkRealizableInternal W0 flag B.ei B.si) := by
    unfold BitSpec.check checkRealizable; rw [hW0]; rfl
  have hWin := embed_winnable hB.emb hB.egs hB.sgs
  have hchar := check_realizable_char _ _ _ _ _ _ _ hrun
  have hnone : sp.sinit.map (fmStates (evars := evars) (svars := svars)) = none ↔ sp.sinit = none := by
    cases sp.sinit <;> simp
  refine ⟨_, hrun, ?_, fun W hr s => ?_⟩
  · rw [hchar.1]
    apply codeRealizable_embed hB.emb.inje flag hWin hB.ei hB.si hB.both
      (fun hf hn => hB.envSide hf (hnone.1 hn)) (fun hf hn => hB.sysSide hf (fun h => hn (hnone.2 h)))
      (fun hf => (hB.siNone hf).trans hnone.symm)
  · rw [hchar.2 W hr]
    exact hWin s

theorem Fm.mem_vars_b {f : Fm} {x : Bool × Name} (h : x ∈ f.bvars) : x ∈ f.vars := by
  induction f with
  | const v => simp [Fm.bvars] at h
  | var nx n => exact h
  | neg f ih => exact ih h
  | and f g ih1 ih2 | or f g ih1 ih2 | imp f g ih1 ih2 | equiv f g ih1 ih2 =>
    simp only [Fm.bvars, List.mem_append] at h
    exact List.mem_append.2 (h.imp ih1 ih2)
  | cmp op nx n c => simp [Fm.bvars] at h

theorem Fm.mem_vars_z {f : Fm} {x : Bool × Name} (h : x ∈ f.zvars) : x ∈ f.vars := by
  induction f with
  | const v => simp [Fm.zvars] at h
  | var nx n => simp [Fm.zvars] at h
  | neg f ih => exact ih h
  | and f g ih1 ih2 | or f g ih1 ih2 | imp f g ih1 ih2 | equiv f g ih1 ih2 =>
    simp only [Fm.zvars, List.mem_append] at h
    exact List.mem_append.2 (h.imp ih1 ih2)
  | cmp op nx n c => exact h

theorem block_names {ds : Decls} {n : Name} (h : ∃ d ∈ ds, n ∈ blockNames d) : n ∈ (expDecls ds).map Prod.fst := by
  rw [expDecls_names]; exact List.mem_flatMap.2 h

theorem bitEnv_env (s t : XState evars svars) (h : s.1 = t.1) (n : Name)
    (hn : ∃ d ∈ evars, n ∈ blockNames d) (nx : Bool) : (bitEnv s s).b nx n = (bitEnv t t).b nx n := by
  simp only [bitEnv, ite_self, stBit_e _ (block_names hn), h]

theorem bitEnv_sys (hF : Fresh evars svars) (s t : XState evars svars) (h : s.2 = t.2) (n : Name)
    (hn : ∃ d ∈ svars, n ∈ blockNames d) (nx : Bool) : (bitEnv s s).b nx n = (bitEnv t t).b nx n := by
  simp only [bitEnv, ite_self, stBit_s hF _ (block_names hn), h]

theorem expandsAll_const {ds : Decls} {v : ℤ} {f : Fm} (h : ExpandsAll ds (.const v) f) : f = .const v := by
  generalize hg : Fm.const v = g at h
  induction h with
  | nil => rfl
  | bool _ _ ih => exact ih hg
  | int _ he _ ih => subst hg; cases he; exact ih rfl

theorem forall₂_back {α β : Type} {R : α → β → Prop} {l : List α} {l' : List β} (h : List.Forall₂ R l l') :
    ∀ b ∈ l', ∃ a ∈ l, R a b := by
  induction h with
  | nil => simp
  | cons h _ ih =>
    intro b hb
    rcases List.mem_cons.1 hb with rfl | hb
    · exact ⟨_, List.mem_cons_self, h⟩
    · obtain ⟨a, ha, hab⟩ := ih b hb
      exact ⟨a, List.mem_cons_of_mem _ ha, hab⟩

/-- Variables on one side only. -/
theorem typed_side (hF : Fresh evars svars) {side : Decls} {f : Fm} (h : Typed (evars ++ svars) [] f)
    (hs : Scoped (side.map Prod.fst) [] f) (hsub : ∀ d ∈ side, d ∈ evars ++ svars) : TypedAny side f := by
  have key : ∀ x ∈ f.vars, ∀ d ∈ (if x.1 then [] else evars ++ svars), d.1 = x.2 → d ∈ side := by
    rintro ⟨nx, n⟩ hx d hd h1
    cases nx with
    | true => simp at hd
    | false =>
      obtain ⟨d', h2, h3⟩ := List.mem_map.1 ((hs _ hx).1 rfl)
      have : d = d' := by
        have hn := hF.declared
        exact List.inj_on_of_nodup_map hn (by simpa using hd) (hsub d' h2) (h1.trans h3.symm)
      exact this ▸ h2
  constructor
  · intro x hx
    obtain ⟨d, hd, h1, h2⟩ := h.1 x hx
    exact ⟨d, key x (Fm.mem_vars_b hx) d hd h1, h1, h2⟩
  · intro x hx
    obtain ⟨d, hd, h1, h2⟩ := h.2 x hx
    exact ⟨d, key x (Fm.mem_vars_z hx) d hd h1, h1, h2⟩

/-- Expansion of a formula over one side gives bits of that side. -/
theorem expanded_side {ds side : Decls} {f f' : Fm} (hF : (ds.map Prod.fst).Nodup)
    (hsub : ∀ d ∈ side, d ∈ ds) (ht : TypedAny side f) (h : ExpandsAll ds f f') :
    f'.zvars = [] ∧ ∀ x ∈ f'.bvars, ∃ d ∈ side, x.2 ∈ blockNames d := by
  constructor
  · apply List.eq_nil_iff_forall_not_mem.2
    intro x hx
    obtain ⟨h1, h2⟩ := expandsAll_zvars h x hx
    obtain ⟨d, hd, h3, h4⟩ := ht.2 x h1
    exact h2 d (hsub d hd) h4 h3.symm
  · intro x hx
    rcases expandsAll_bvars h x hx with h1 | ⟨d, hd, h0, i, hi, h1, h2⟩
    · obtain ⟨d, hd, h3, h4⟩ := ht.1 x h1
      exact ⟨d, hd, h3 ▸ bool_mem h4⟩
    · obtain ⟨d', hd', h3, h4⟩ := ht.2 _ h2
      have : d' = d := List.inj_on_of_nodup_map hF (hsub d' hd') hd h3
      subst this
      exact ⟨d', hd', by rw [h1]; exact int_mem h0 hi⟩

/-- The value of an initial formula over one side depends on the bits of that side. -/
theorem optEval_side (hF : Fresh evars svars) (side : Decls) (hsub : ∀ d ∈ side, d ∈ evars ++ svars)
    {o o' : Option Fm} (ho : ∀ a ∈ o, TypedAny side a) (hR : Option.Rel (ExpandsAll (evars ++ svars)) o o')
    (ρ ρ' : Env) (h : ∀ n, (∃ d ∈ side, n ∈ blockNames d) → ∀ nx, ρ.b nx n = ρ'.b nx n) :
    optEval ρ o' = optEval ρ' o' := by
  cases hR with
  | none => rfl
  | some hR =>
    obtain ⟨h1, h2⟩ := expanded_side hF.declared hsub (ho _ rfl) hR
    exact eval_congr _ _ _ (fun x hx => h x.2 (h2 x hx) x.1) (by rw [h1]; simp)

/-- The last step of the front end, on expanded variable lists. -/
theorem frontBits_tree {sp' : TSpec} {B : BitSpec (expDecls evars).length (expDecls svars).length}
    (h : buildBits (expDecls evars).length (expDecls svars).length (expDecls evars ++ expDecls svars).tree sp' =
      some B) :
    (match expandNonboolVariables evars.tree svars.tree with
      | none => FrontRes.ub
      | some (ev, sv, nb) => frontBits ev sv nb (buildBits ev.size sv.size (chainVars ev sv) sp')) =
      .ok (expDecls evars).tree (expDecls svars).tree (Decls.tree ((evars ++ svars).filter fun d => 0 ≤ d.2))
        (expDecls evars).length (expDecls svars).length B := by
  have hsz : ∀ vs : Decls, PTree.size vs.tree = vs.length := by
    intro vs; unfold Decls.tree; rw [list_size]; simp
  rw [expand_variables_exact, expDecls_tree, expDecls_tree]
  simp only [chain_tree]
  generalize hn : PTree.size (expDecls evars).tree = ne
  generalize hm : PTree.size (expDecls svars).tree = ns
  rw [hsz] at hn hm
  subst hn hm
  rw [h]
  rfl

/-- The steps before `check_realizable`, for the system goals `goals` in place of those of the specification. -/
theorem front_with (hge : GoodDecls evars) (hgs : GoodDecls svars) (hF : Fresh evars svars)
    (flag : InitFlag) (sp : FSpec) (goals : List Fm) (hT : TypedSpec evars svars sp)
    (hW : WellScoped evars svars flag sp) (hne : NoNe0 (evars ++ svars) sp.all)
    (hgT : ∀ f ∈ goals, Typed (evars ++ svars) [] f) (hgn : NoNe0 (evars ++ svars) goals) :
    ∃ (sp' : FSpec) (B : BitSpec (expDecls evars).length (expDecls svars).length),
      expandNonboolGR1 evars.tree svars.tree flag (withGoals sp goals).toT = .ok sp'.toT ∧
      buildBits (expDecls evars).length (expDecls svars).length (expDecls evars ++ expDecls svars).tree sp'.toT =
        some B ∧
      (goals ≠ [] → B.sgs ≠ []) ∧ RepresentsWith evars svars flag sp goals B := by
  have hneD : NoNe0 (evars ++ svars) (withGoals sp goals).all := by
    intro d hd h0 f hf
    rcases withGoals_all hf with hf | hf | rfl
    · exact hne d hd h0 f hf
    · exact hgn d hd h0 f hf
    · rfl
  obtain ⟨sp', x1, -, xs, x2⟩ := expand_GR1_exact evars svars hge hgs flag (withGoals sp goals) hneD
  obtain ⟨sp1, sp'', y1, hR, y2, y3, y4, y5, i1, i2, i3⟩ :=
    expandGR1_struct evars svars hge hgs flag (withGoals sp goals) hneD
  have : sp'' = sp' := by
    rw [x1] at y1
    exact (FSpec.toT_inj (by injection y1)).symm
  subst this
  -- all formulas are typed
  have hty : ∀ f ∈ (withGoals sp goals).all, TypedAny (evars ++ svars) f := by
    intro f hf
    have hsub : evars ⊆ evars ++ svars := fun _ h => List.mem_append_left _ h
    rcases withGoals_all hf with hf | hf | rfl
    · simp only [FSpec.all, List.mem_append, Option.mem_toList] at hf
      rcases hf with ((((hf | hf) | hf) | hf) | hf) | hf
      · exact (hT.einit f hf).any (fun _ h => h) (by simp)
      · exact (hT.sinit f hf).any (fun _ h => h) (by simp)
      · exact (hT.etrans f hf).any (fun _ h => h) hsub
      · exact (hT.strans f hf).any (fun _ h => h) (fun _ h => h)
      · exact (hT.egoals f hf).any (fun _ h => h) (by simp)
      · exact (hT.sgoals f hf).any (fun _ h => h) (by simp)
    · exact (hgT f hf).any (fun _ h => h) (by simp)
    · exact typedAny_const _ _
  have hty1 : ∀ f ∈ sp1.all, TypedAny (evars ++ svars) f := by
    simp only [FSpec.all, List.mem_append, Option.mem_toList] at hty
    have he : ∀ d nx g, d ∈ evars → Blocks d nx g → TypedAny (evars ++ svars) g :=
      fun d nx g hd h => typedAny_blocks (List.mem_append_left _ hd) h
    have hs : ∀ d nx g, d ∈ svars → Blocks d nx g → TypedAny (evars ++ svars) g :=
      fun d nx g hd h => typedAny_blocks (List.mem_append_right _ hd) h
    have hinit : ∀ {ds o o'}, (∀ d nx g, d ∈ ds → Blocks d nx g → TypedAny (evars ++ svars) g) →
        AddInit false ds o o' → (∀ a ∈ o, TypedAny (evars ++ svars) a) → ∀ a ∈ o', TypedAny (evars ++ svars) a :=
      fun hd h ho => addInit_prop h _ ho (typedAny_const _ _) (fun _ _ => typedAny_and)
        (fun d g => hd d false g)
    have hei : ∀ a ∈ (withGoals sp goals).einit, TypedAny (evars ++ svars) a :=
      fun a ha => hty a (.inl (.inl (.inl (.inl (.inl ha)))))
    have hsi : ∀ a ∈ (withGoals sp goals).sinit, TypedAny (evars ++ svars) a :=
      fun a ha => hty a (.inl (.inl (.inl (.inl (.inr ha)))))
    have hinits : (∀ a ∈ sp1.einit, TypedAny (evars ++ svars) a) ∧ ∀ a ∈ sp1.sinit, TypedAny (evars ++ svars) a := by
      by_cases hf : flag = .oneSide
      · by_cases hs0 : (withGoals sp goals).sinit = none
        · obtain ⟨k1, m, k2, k3⟩ := i2 hf hs0
          exact ⟨hinit hs k3 (hinit he k2 hei), by rw [k1]; simp⟩
        · obtain ⟨k1, m, k2, k3⟩ := i3 hf hs0
          exact ⟨by rw [k1]; exact hei, hinit hs k3 (hinit he k2 hsi)⟩
      · obtain ⟨k1, k2⟩ := i1 hf
        exact ⟨hinit he k1 hei, hinit hs k2 hsi⟩
    intro f hf
    simp only [FSpec.all, List.mem_append, Option.mem_toList] at hf
    rcases hf with ((((hf | hf) | hf) | hf) | hf) | hf
    · exact hinits.1 f hf
    · exact hinits.2 f hf
    · exact addTrans_prop y2 _ (fun f hf => hty f (.inl (.inl (.inl (.inr hf))))) he f hf
    · exact addTrans_prop y3 _ (fun f hf => hty f (.inl (.inl (.inr hf)))) hs f hf
    · exact hty f (.inl (.inr (y4 ▸ hf)))
    · exact hty f (.inr (y5 ▸ hf))
  have hok : ∀ f ∈ sp''.all, f.zvars = [] ∧ Listed (expDecls evars ++ expDecls svars) f := by
    intro f hf
    obtain ⟨g, hg1, hg2⟩ := specRel_back hR f hf
    exact expanded_listed (hty1 g hg1) hg2
  simp only [FSpec.all, List.mem_append, Option.mem_toList] at hok
  -- the BDDs
  have hde : (withGoals sp goals).etrans ≠ [] := by
    unfold withGoals; simp only; split
    · simp
    · assumption
  have hds : (withGoals sp goals).strans ≠ [] := by
    unfold withGoals; simp only; split
    · simp
    · assumption
  have hl2 : ∀ {l l' : List Fm}, List.Forall₂ (ExpandsAll (evars ++ svars)) l l' → l ≠ [] → l' ≠ [] := by
    intro l l' h hl
    cases h
    · exact hl
    · simp
  obtain ⟨et, het1, het2⟩ := denotes_merge hF sp''.etrans (hl2 hR.etrans (addTrans_ne y2 hde))
    fun f hf => hok f (.inl (.inl (.inl (.inr hf))))
  obtain ⟨st, hst1, hst2⟩ := denotes_merge hF sp''.strans (hl2 hR.strans (addTrans_ne y3 hds))
    fun f hf => hok f (.inl (.inl (.inr hf)))
  obtain ⟨eg, heg1, heg2⟩ := denotes_list hF sp''.egoals fun f hf => hok f (.inl (.inr hf))
  obtain ⟨sg, hsg1, hsg2⟩ := denotes_list hF sp''.sgoals fun f hf => hok f (.inr hf)
  obtain ⟨ei, hei1, hei2⟩ := denotes_opt hF sp''.einit fun f hf => hok f (.inl (.inl (.inl (.inl (.inl hf)))))
  obtain ⟨si, hsi1, hsi2⟩ := denotes_opt hF sp''.sinit fun f hf => hok f (.inl (.inl (.inl (.inl (.inr hf)))))
  -- the run
  have hsg0 : goals ≠ [] → sg ≠ [] := by
    intro hg
    have : sp''.sgoals ≠ [] := hl2 hR.sgoals (by rw [y5]; exact hg)
    have hl := hsg2.length_eq
    intro h0
    rw [h0, List.length_nil, List.length_eq_zero_iff] at hl
    exact this hl
  have hbits : buildBits (expDecls evars).length (expDecls svars).length (expDecls evars ++ expDecls svars).tree
      sp''.toT = some ⟨et, st, eg, sg, ei, si⟩ := by
    unfold buildBits
    simp only [FSpec.toT, het1, hst1, heg1, hsg1, hei1, hsi1]
  refine ⟨sp'', ⟨et, st, eg, sg, ei, si⟩, x1, hbits, by simpa [BitSpec.sgs] using hsg0, ?_⟩
  -- environments
  have hdomE : ∀ s t : IState evars svars, ∀ nx,
      DomAll (bitEnv (encState s) (encState t)) (evars ++ svars) nx := by
    intro s t nx d hd
    rcases List.mem_append.1 hd with hd | hd
    · exact enc_dom_e hF _ _ nx (if nx then t else s).1 (by cases nx <;> rfl) d hd
    · exact enc_dom_s hF _ _ nx (if nx then t else s).2 (by cases nx <;> rfl) d hd
  have hub : ∀ s : IState evars svars, ∀ d ∈ evars ++ svars,
      (d ∈ evars ∧ (encState s).1 = encVal evars s.1) ∨ (d ∈ svars ∧ (encState s).2 = encVal svars s.2) := by
    intro s d hd
    exact (List.mem_append.1 hd).imp (fun h => ⟨h, rfl⟩) (fun h => ⟨h, rfl⟩)
  have hstate : ∀ (s : IState evars svars) (f : Fm), Typed (evars ++ svars) [] f →
      f.eval (bitEnv (encState s) (encState s)) = f.eval (intEnv s s) :=
    fun s f hf => eval_enc hF _ _ s s _ _ f hf (hub s) (by simp)
  -- the games correspond
  have hEmb : Embeds (intGame evars svars sp) (bitGame et st) (encVal evars) (encVal svars) := by
    refine ⟨enc_inj hF.xevars hge, enc_inj hF.xsvars hgs, ?_, ?_⟩
    · intro s e'
      change et (joinAsg (encState s) (e', fun _ => false)) = true ↔ _
      rw [het2]
      have key : ∀ e : DVal evars,
          ((∀ f ∈ sp''.etrans, f.eval (bitEnv (encState s) (encVal evars e, fun _ => false)) = true) ↔
            (intGame evars svars sp).etr s e = true) := by
        intro e
        have hdom : ∀ nx, DomAll (bitEnv (encState s) ((encVal evars e, fun _ => false) : XState evars svars))
            (evars ++ svars) nx := by
          intro nx d hd
          rcases List.mem_append.1 hd with hd | hd
          · exact enc_dom_e hF _ _ nx (if nx then e else s.1) (by cases nx <;> rfl) d hd
          · cases nx with
            | false => exact enc_dom_s hF _ _ false s.2 rfl d hd
            | true => exact zero_dom_s hF _ _ d hd
        rw [((x2 _ (bitEnv_encodes hF _ _)).2.2.2.2.2 hdom).1]
        simp only [withGoals]
        rw [default_all]
        simp only [intGame, List.all_eq_true]
        refine forall₂_congr fun f hf => ?_
        rw [eval_enc hF _ _ s (e, s.2) _ _ f (hT.etrans f hf) (hub s) (fun d hd => Or.inl ⟨hd, rfl⟩)]
      constructor
      · intro h
        have hd := (x2 _ (bitEnv_encodes hF _ _)).1 h true
        obtain ⟨e, he⟩ := dom_e hF _ _ true hd
        simp only [if_true] at he
        subst he
        exact ⟨e, rfl, (key e).1 h⟩
      · rintro ⟨e, rfl, h⟩
        exact (key e).2 h
    · intro s e x'
      change st (joinAsg (encState s) (encVal evars e, x')) = true ↔ _
      rw [hst2]
      have key : ∀ x : DVal svars,
          ((∀ f ∈ sp''.strans, f.eval (bitEnv (encState s) (encState (e, x))) = true) ↔
            (intGame evars svars sp).str s (e, x) = true) := by
        intro x
        rw [((x2 _ (bitEnv_encodes hF _ _)).2.2.2.2.2 (hdomE s (e, x))).2.1]
        simp only [withGoals]
        rw [default_all]
        simp only [intGame, List.all_eq_true]
        refine forall₂_congr fun f hf => ?_
        rw [eval_enc hF _ _ s (e, x) _ _ f (hT.strans f hf) (hub s) (hub (e, x))]
      constructor
      · intro h
        have hd := (x2 _ (bitEnv_encodes hF _ _)).2.1 h true
        obtain ⟨x, hx⟩ := dom_s hF _ _ true hd
        simp only [if_true] at hx
        subst hx
        exact ⟨x, rfl, (key x).1 h⟩
      · rintro ⟨x, rfl, h⟩
        exact (key x).2 h
  -- goals
  have hgE : List.Forall₂ (GoalRel (encVal evars) (encVal svars)) (sp.egoals.map fmStates) (eg.map statesOf) := by
    apply goals_rel sp.egoals sp''.egoals eg heg2
    · intro s
      rw [((x2 _ (bitEnv_encodes hF _ _)).2.2.2.2.2 (hdomE s s)).2.2.2.2.1]
      exact List.map_congr_left fun f hf => hstate s f (hT.egoals f hf)
    · rw [← hR.egoals.length_eq, y4]; rfl
  have hgS : List.Forall₂ (GoalRel (encVal evars) (encVal svars)) (goals.map fmStates)
      (sg.map statesOf) := by
    apply goals_rel goals sp''.sgoals sg hsg2
    · intro s
      rw [((x2 _ (bitEnv_encodes hF _ _)).2.2.2.2.2 (hdomE s s)).2.2.2.2.2]
      apply List.map_congr_left
      exact fun f hf => hstate s f (hgT f hf)
    · rw [← hR.sgoals.length_eq, y5]; rfl
  have hin : ∀ s' : XState evars svars, DomAll (bitEnv s' s') evars false → DomAll (bitEnv s' s') svars false →
      ∃ s : IState evars svars, encState s = s' := by
    intro s' h1 h2
    obtain ⟨e, he⟩ := dom_e hF _ _ false h1
    obtain ⟨x, hx⟩ := dom_s hF _ _ false h2
    exact ⟨(e, x), Prod.ext he hx⟩
  have hopt : ∀ (o : Option Fm) (s : IState evars svars), (∀ f ∈ o, Typed (evars ++ svars) [] f) →
      optEval (bitEnv (encState s) (encState s)) o = optEval (intEnv s s) o := by
    intro o s ho
    cases o with
    | none => rfl
    | some f => exact hstate s f (ho f rfl)
  have hdE : ∀ (s : XState evars svars) t, (bitGame et st).etr s t = true → ∃ e : DVal evars, encVal evars e = s.1 := by
    intro s t h
    change et (joinAsg s (t, fun _ => false)) = true at h
    rw [het2] at h
    exact dom_e hF _ _ false ((x2 _ (bitEnv_encodes hF _ _)).1 h false)
  have hdS : ∀ (s t : XState evars svars), (bitGame et st).str s t = true → ∃ x : DVal svars, encVal svars x = s.2 := by
    intro s t h
    change st (joinAsg s t) = true at h
    rw [hst2] at h
    exact dom_s hF _ _ false ((x2 _ (bitEnv_encodes hF _ _)).2.1 h false)
  refine ⟨hEmb, hgE, hgS, ?_, ?_, ?_, ?_, ?_, ?_, ?_, ?_, ?_, ?_, hdE, hdS⟩
  rotate_left 9
  · intro s e x
    change et (joinAsg (encState s) (encState (e, x))) = true ↔ _
    rw [het2, ((x2 _ (bitEnv_encodes hF _ _)).2.2.2.2.2 (hdomE s (e, x))).1]
    simp only [withGoals]
    rw [default_all]
    simp only [intGame, List.all_eq_true]
    refine forall₂_congr fun f hf => ?_
    rw [eval_enc hF _ _ s (e, s.2) _ _ f (hT.etrans f hf) (hub s) (fun d hd => Or.inl ⟨hd, rfl⟩)]
  · intro s
    simp only [BitSpec.ei]
    rw [mem_init_bdd hei2, mem_init_int]
    rw [((x2 _ (bitEnv_encodes hF _ _)).2.2.2.2.2 (hdomE s s)).2.2.1, ← hopt sp.einit s hT.einit]
    rfl
  · intro s
    simp only [BitSpec.si]
    rw [mem_init_bdd hsi2, mem_init_int]
    rw [((x2 _ (bitEnv_encodes hF _ _)).2.2.2.2.2 (hdomE s s)).2.2.2.1, ← hopt sp.sinit s hT.sinit]
    rfl
  · intro hf s' h1 h2
    simp only [BitSpec.ei, BitSpec.si] at h1 h2
    rw [mem_init_bdd hei2] at h1
    rw [mem_init_bdd hsi2] at h2
    have := (x2 _ (bitEnv_encodes hF s' s')).2.2.1 hf
    exact hin s' (this.1 h1) (this.2 h2)
  · intro hf hn s' h1
    simp only [BitSpec.ei] at h1
    rw [mem_init_bdd hei2] at h1
    have := (x2 _ (bitEnv_encodes hF s' s')).2.2.2.1 hf hn h1
    exact hin s' (fun d hd => this d (List.mem_append_left _ hd)) (fun d hd => this d (List.mem_append_right _ hd))
  · intro hf hn s' h1
    simp only [BitSpec.si] at h1
    rw [mem_init_bdd hsi2] at h1
    have := (x2 _ (bitEnv_encodes hF s' s')).2.2.2.2.1 hf hn h1
    exact hin s' (fun d hd => this d (List.mem_append_left _ hd)) (fun d hd => this d (List.mem_append_right _ hd))
  · intro hf
    have h1 := xs hf
    have h2 : si.map (statesOf (ne := (expDecls evars).length) (ns := (expDecls svars).length)) = none ↔
        sp''.sinit = none := by
      have : ∀ {o : Option Fm} {b : Option (XBdd evars svars)}, Option.Rel Denotes o b →
          (b.map (statesOf (ne := (expDecls evars).length) (ns := (expDecls svars).length)) = none ↔ o = none) := by
        intro o b h; cases h <;> simp
      exact this hsi2
    change si.map _ = none ↔ _
    rw [h2, h1]
    rfl
  · intro hf e x y h
    simp only [BitSpec.ei] at h ⊢
    rw [mem_init_bdd hei2] at h ⊢
    rw [← h]
    obtain ⟨k1, -⟩ := i1 (by rw [hf]; decide)
    exact optEval_side hF evars (fun d hd => List.mem_append_left _ hd)
      (addInit_prop k1 _ (fun a ha => typed_side hF (hT.einit a ha) (by
          have := hW.einit a ha; rw [if_pos hf] at this; exact this) (fun d hd => List.mem_append_left _ hd))
        (typedAny_const _ _) (fun _ _ => typedAny_and) (fun d g hd h => typedAny_blocks hd h)) hR.einit _ _
      (fun n hn => bitEnv_env (e, y) (e, x) rfl n hn)
  · intro hf e d x h
    simp only [BitSpec.si] at h ⊢
    rw [mem_init_bdd hsi2] at h ⊢
    rw [← h]
    obtain ⟨-, k1⟩ := i1 (by rw [hf]; decide)
    exact optEval_side hF svars (fun d hd => List.mem_append_right _ hd)
      (addInit_prop k1 _ (fun a ha => typed_side hF (hT.sinit a ha) (by
          have := hW.sinit a ha; rw [if_pos hf] at this; exact this) (fun d hd => List.mem_append_right _ hd))
        (typedAny_const _ _) (fun _ _ => typedAny_and) (fun d g hd h => typedAny_blocks hd h)) hR.sinit _ _
      (fun n hn => bitEnv_sys hF (d, x) (e, x) rfl n hn)
  · intro hev hem s e
    change et (joinAsg s (e, fun _ => false)) = true
    rw [het2]
    have h1 : ∀ g ∈ sp1.etrans, g = .const 1 := by
      have h0 : ∀ g ∈ (withGoals sp goals).etrans, g = .const 1 := fun g hg => (mem_default hg).elim (hem g) id
      rw [hev] at y2
      generalize sp1.etrans = l at y2
      cases y2
      exact h0
    intro f hf
    obtain ⟨g, hg1, hg2⟩ := forall₂_back hR.etrans f hf
    rw [h1 g hg1] at hg2
    rw [expandsAll_const hg2]
    rfl

/-- **C45.** For every specification whose variables are declared, used according to their kind and keep
distinct names after the expansion into bits, and which does not compare a variable of domain `[0,0]`
with `!= 0`: the steps before `check_realizable` succeed, and the BDDs represent the specification. -/
theorem front_exact (hge : GoodDecls evars) (hgs : GoodDecls svars) (hF : Fresh evars svars)
    (flag : InitFlag) (sp : FSpec) (hT : TypedSpec evars svars sp) (hW : WellScoped evars svars flag sp)
    (hne : NoNe0 (evars ++ svars) sp.all) :
    ∃ B : BitSpec (expDecls evars).length (expDecls svars).length,
      frontEnd evars.tree svars.tree flag sp.toT = .ok (expDecls evars).tree (expDecls svars).tree
        (Decls.tree ((evars ++ svars).filter fun d => 0 ≤ d.2)) (expDecls evars).length (expDecls svars).length B ∧
      B.sgs ≠ [] ∧ Represents evars svars flag sp B := by
  obtain ⟨sp', B, h1, h2, h3, h4⟩ := front_with hge hgs hF flag sp (sysGoals sp) hT hW hne
    (fun f hf => (mem_default hf).elim (hT.sgoals f) (by rintro rfl; constructor <;> simp [Fm.bvars, Fm.zvars]))
    (fun d hd h0 f hf => (mem_default hf).elim
      (fun h => hne d hd h0 f (by simp only [FSpec.all, List.mem_append]; exact .inr h)) (by rintro rfl; rfl))
  refine ⟨B, ?_, h3 (by unfold sysGoals; split <;> simp [*]), h4⟩
  unfold frontEnd
  rw [(check_form_exact evars svars flag sp).1 hW, if_neg (by decide), omissionDefaults_toT, ← withGoals_sys, h1]
  simp only
  exact frontBits_tree h2

/-- **C45.** For every specification whose variables are declared, used according to their kind and keep
distinct names after the expansion into bits, and which does not compare a variable of domain `[0,0]`
with `!= 0`: the run up to `check_realizable` delivers a verdict, and it is the verdict
for the game over the declared integer values, for each interpretation of initial conditions. The winning set over
bits contains the encoding of exactly those states from which the system can win the game over declared values. -/
theorem pipeline_exact (hge : GoodDecls evars) (hgs : GoodDecls svars) (hF : Fresh evars svars)
    (flag : InitFlag) (sp : FSpec) (hT : TypedSpec evars svars sp) (hW : WellScoped evars svars flag sp)
    (hne : NoNe0 (evars ++ svars) sp.all) :
    ∃ r : Option (Finset (XState evars svars)),
      pipeline evars.tree svars.tree flag sp.toT =
        .verdict (expDecls evars).length (expDecls svars).length r ∧
      (r ≠ none ↔ CodeRealizable (intGame evars svars sp) (sp.egoals.map fmStates)
        ((sysGoals sp).map fmStates) flag (sp.einit.map fmStates) (sp.sinit.map fmStates)) ∧
      ∀ W, r = some W → ∀ s : IState evars svars, encState s ∈ W ↔
        Winnable (intGame evars svars sp) (sp.egoals.map fmStates) ((sysGoals sp).map fmStates) s := by
  obtain ⟨B, h1, h0, hB⟩ := front_exact hge hgs hF flag sp hT hW hne
  obtain ⟨r, h2, h3, h4⟩ := hB.verdict h0
  exact ⟨r, by simp only [pipeline, h1, h2], h3, h4⟩

end main

/-! ## C39 -/

/-- The formula `True` as parsed. -/
def trueTree : PTree := .node .const none 1 .nil .nil

/-- **C39.** Omitted transition rules and omitted system goals are treated exactly as `[]True` and
`[]<>True`, for all variable lists and whatever the rest of the specification is. -/
theorem omitted_sections (evars svars : PTree) (flag : InitFlag) (sp : TSpec) :
    pipeline evars svars flag { sp with etrans := [] } = pipeline evars svars flag { sp with etrans := [trueTree] } ∧
    pipeline evars svars flag { sp with strans := [] } = pipeline evars svars flag { sp with strans := [trueTree] } ∧
    pipeline evars svars flag { sp with sgoals := [] } = pipeline evars svars flag { sp with sgoals := [trueTree] } := by
  have h : ∀ a b, arrayBad a b [trueTree] = false := by
    intro a b; simp [arrayBad, trueTree, checkVars]
  have h0 : ∀ a b, arrayBad a b [] = false := by intro a b; rfl
  refine ⟨?_, ?_, ?_⟩ <;>
    simp only [pipeline, frontEnd, checkGr1cForm, h, h0, omissionDefaults, List.cons_ne_nil, if_true, if_false] <;> rfl

/-- Replace the environment goals. -/
def setEg (g : List PTree) (sp : TSpec) : TSpec := { sp with egoals := g }

/-- Replace the environment goals of a result. -/
def GRes.setEg (g : List PTree) : GRes → GRes
  | .ok sp => .ok (Gr1c.setEg g sp)
  | .err => .err
  | .ub => .ub

theorem blockEnv_eg (flag : InitFlag) (vs : PTree) (g : List PTree) (sp : TSpec) :
    blockEnv flag vs (setEg g sp) = setEg g (blockEnv flag vs sp) := by
  induction vs generalizing sp with
  | nil => rfl
  | node ty nm v l r ihl _ =>
    simp only [blockEnv]
    split
    · exact ihl sp
    · split
      · rw [← ihl]
        congr 1
        by_cases hc : flag = .oneSide ∧ sp.sinit ≠ .nil
        · have hc' : flag = .oneSide ∧ (setEg g sp).sinit ≠ .nil := hc
          rw [if_pos hc, if_pos hc']; rfl
        · have hc' : ¬ (flag = .oneSide ∧ (setEg g sp).sinit ≠ .nil) := hc
          rw [if_neg hc, if_neg hc']; rfl
      · exact ihl sp

theorem blockSys_eg (flag : InitFlag) (vs : PTree) (g : List PTree) (sp : TSpec) :
    blockSys flag vs (setEg g sp) = setEg g (blockSys flag vs sp) := by
  induction vs generalizing sp with
  | nil => rfl
  | node ty nm v l r ihl _ =>
    simp only [blockSys]
    split
    · exact ihl sp
    · split
      · rw [← ihl]
        congr 1
        by_cases hc : flag = .oneSide ∧ sp.sinit = .nil
        · have hc' : flag = .oneSide ∧ (setEg g sp).sinit = .nil := hc
          rw [if_pos hc, if_pos hc']; rfl
        · have hc' : ¬ (flag = .oneSide ∧ (setEg g sp).sinit = .nil) := hc
          rw [if_neg hc, if_neg hc']; rfl
      · exact ihl sp

theorem expandVarSpec_eg (name : Name) (v : ℤ) (sp : TSpec) :
    expandVarSpec name v (setEg [trueTree] sp) = (expandVarSpec name v (setEg [] sp)).setEg [trueTree] ∧
    ∀ sp', expandVarSpec name v (setEg [] sp) = .ok sp' → setEg [] sp' = sp' := by
  have h : expandArr name v [trueTree] = some (some [trueTree]) := by
    have := expand_leaf name v .const none 1 (by decide) (by decide)
    simp only [expandArr, trueTree, this]
  have h0 : expandArr name v [] = some (some []) := rfl
  simp only [expandVarSpec, setEg, h, h0]
  cases expandInit name v sp.sinit with
  | none => exact ⟨rfl, by simp⟩
  | some si =>
    cases si with
    | none => exact ⟨rfl, by simp⟩
    | some si =>
    cases expandInit name v sp.einit with
    | none => exact ⟨rfl, by simp⟩
    | some ei =>
    cases ei with
    | none => exact ⟨rfl, by simp⟩
    | some ei =>
    cases expandArr name v sp.etrans with
    | none => exact ⟨rfl, by simp⟩
    | some et =>
    cases et with
    | none => exact ⟨rfl, by simp⟩
    | some et =>
    cases expandArr name v sp.strans with
    | none => exact ⟨rfl, by simp⟩
    | some st =>
    cases st with
    | none => exact ⟨rfl, by simp⟩
    | some st =>
    cases expandArr name v sp.sgoals with
    | none => exact ⟨rfl, by simp⟩
    | some sg =>
    cases sg with
    | none => exact ⟨rfl, by simp⟩
    | some sg =>
      refine ⟨rfl, ?_⟩
      intro sp' h
      simp only [GRes.ok.injEq] at h
      subst h
      rfl

theorem expandAll_eg (vs : PTree) (sp : TSpec) :
    expandAll vs (setEg [trueTree] sp) = (expandAll vs (setEg [] sp)).setEg [trueTree] ∧
    ∀ sp', expandAll vs (setEg [] sp) = .ok sp' → setEg [] sp' = sp' := by
  induction vs generalizing sp with
  | nil =>
    refine ⟨rfl, ?_⟩
    intro sp' h
    simp only [expandAll, GRes.ok.injEq] at h
    subst h
    rfl
  | node ty nm v l r ihl _ =>
    simp only [expandAll]
    split
    · obtain ⟨h1, h2⟩ := expandVarSpec_eg (nm.getD []) v sp
      rw [h1]
      cases hx : expandVarSpec (nm.getD []) v (setEg [] sp) with
      | ub => exact ⟨rfl, by simp⟩
      | err => exact ⟨rfl, by simp⟩
      | ok sp1 =>
        have h3 := h2 sp1 hx
        simp only [GRes.setEg]
        have := ihl sp1
        rw [h3] at this
        exact this
    · exact ihl sp

/-- **C39.** An omitted environment goal is treated exactly as `[]<>True`. -/
theorem omitted_env_goals (evars svars : PTree) (flag : InitFlag) (sp : TSpec) :
    pipeline evars svars flag { sp with egoals := [] } = pipeline evars svars flag { sp with egoals := [trueTree] } := by
  have h : ∀ a b, arrayBad a b [trueTree] = false := by
    intro a b; simp [arrayBad, trueTree, checkVars]
  have h0 : ∀ a b, arrayBad a b [] = false := by intro a b; rfl
  have hform : checkGr1cForm evars svars flag { sp with egoals := [] } =
      checkGr1cForm evars svars flag { sp with egoals := [trueTree] } := by
    simp only [checkGr1cForm, h, h0]
  unfold pipeline frontEnd
  rw [hform]
  by_cases hneg : checkGr1cForm evars svars flag { sp with egoals := [trueTree] } < 0
  · rw [if_pos hneg, if_pos hneg]
  · rw [if_neg hneg, if_neg hneg]
    have e1 : omissionDefaults { sp with egoals := [] } = setEg [] (omissionDefaults sp) := rfl
    have e2 : omissionDefaults { sp with egoals := [trueTree] } = setEg [trueTree] (omissionDefaults sp) := rfl
    rw [e1, e2]
    unfold expandNonboolGR1
    rw [blockEnv_eg, blockEnv_eg, blockSys_eg, blockSys_eg]
    obtain ⟨k1, k2⟩ := expandAll_eg (chainVars evars svars)
      (blockSys flag svars (blockEnv flag evars (omissionDefaults sp)))
    rw [k1]
    cases hx : expandAll (chainVars evars svars)
      (setEg [] (blockSys flag svars (blockEnv flag evars (omissionDefaults sp)))) with
    | ub => rfl
    | err => rfl
    | ok sp1 =>
      simp only [GRes.setEg]
      cases expandNonboolVariables evars svars with
      | none => rfl
      | some x =>
        obtain ⟨ev, sv, nb⟩ := x
        simp only
        have h3 := k2 sp1 hx
        rw [← h3]
        have hb : bddList (2 * (ev.size + sv.size)) (chainVars ev sv) [trueTree] = some [fun _ => true] := by
          simp [bddList, trueTree, ptreeBdd]
        have hb0 : bddList (2 * (ev.size + sv.size)) (chainVars ev sv) [] = some [] := rfl
        have hu : statesOf (ne := ev.size) (ns := sv.size) (fun _ => true) = Finset.univ := by
          simp [statesOf]
        simp only [frontBits, buildBits, setEg, hb, hb0]
        cases ptreeBdd (2 * (ev.size + sv.size)) (chainVars ev sv) (mergePtrees sp1.etrans .and) <;> try rfl
        cases ptreeBdd (2 * (ev.size + sv.size)) (chainVars ev sv) (mergePtrees sp1.strans .and) <;> try rfl
        cases bddList (2 * (ev.size + sv.size)) (chainVars ev sv) sp1.sgoals <;> try rfl
        cases bddOpt (2 * (ev.size + sv.size)) (chainVars ev sv) sp1.einit <;> try rfl
        cases bddOpt (2 * (ev.size + sv.size)) (chainVars ev sv) sp1.sinit <;> try rfl
        have hg : withDefaultGoal (([] : List (Bdd (2 * (ev.size + sv.size)))).map
            (statesOf (ne := ev.size) (ns := sv.size))) =
            withDefaultGoal ([fun _ => true].map (statesOf (ne := ev.size) (ns := sv.size))) := by
          rw [List.map_cons, hu]; rfl
        have hw : ∀ (G : Game (Val ev.size) (Val sv.size)) sgs,
            computeWinningSet G (([] : List (Bdd (2 * (ev.size + sv.size)))).map statesOf) sgs =
              computeWinningSet G ([fun _ => true].map statesOf) sgs := by
          intro G sgs
          unfold computeWinningSet
          rw [hg]
        simp only [BitSpec.check, BitSpec.game, BitSpec.egs, BitSpec.sgs, BitSpec.ei, BitSpec.si, checkRealizable, hw]

/-- **C39.** Except with ONE_SIDE_INIT, omitted initial conditions are like `True`: the verdict does not change. -/
theorem omitted_init {evars svars : Decls} (hge : GoodDecls evars) (hgs : GoodDecls svars) (hF : Fresh evars svars)
    (flag : InitFlag) (hfl : flag ≠ .oneSide) (sp : FSpec) (hT : TypedSpec evars svars sp)
    (hW : WellScoped evars svars flag sp) (hne : NoNe0 (evars ++ svars) sp.all) (ei si : Option Fm)
    (he : ei = sp.einit ∨ sp.einit = none ∧ ei = some (.const 1))
    (hs : si = sp.sinit ∨ sp.sinit = none ∧ si = some (.const 1)) :
    ∃ r r' : Option (Finset (XState evars svars)),
      pipeline evars.tree svars.tree flag sp.toT =
        .verdict (expDecls evars).length (expDecls svars).length r ∧
      pipeline evars.tree svars.tree flag { sp with einit := ei, sinit := si }.toT =
        .verdict (expDecls evars).length (expDecls svars).length r' ∧ (r ≠ none ↔ r' ≠ none) := by
  obtain ⟨r, h1, h2, -⟩ := pipeline_exact hge hgs hF flag sp hT hW hne
  have ht : ∀ us ps, Typed us ps (.const 1) := by
    intro us ps; constructor <;> intro x hx <;> simp [Fm.bvars, Fm.zvars] at hx
  have hsc : ∀ us ps, Scoped us ps (.const 1) := by
    intro us ps x hx; simp [Fm.vars] at hx
  obtain ⟨r', h3, h4, -⟩ := pipeline_exact hge hgs hF flag { sp with einit := ei, sinit := si }
    ⟨by rcases he with rfl | ⟨-, rfl⟩
        · exact hT.einit
        · intro f hf; simp only [Option.mem_def, Option.some.injEq] at hf; subst hf; exact ht _ _,
      by rcases hs with rfl | ⟨-, rfl⟩
         · exact hT.sinit
         · intro f hf; simp only [Option.mem_def, Option.some.injEq] at hf; subst hf; exact ht _ _,
      hT.etrans, hT.strans, hT.egoals, hT.sgoals⟩
    ⟨hW.declared,
      by rcases he with rfl | ⟨-, rfl⟩
         · exact hW.einit
         · intro f hf; simp only [Option.some.injEq] at hf; subst hf; exact hsc _ _,
      by rcases hs with rfl | ⟨-, rfl⟩
         · exact hW.sinit
         · intro f hf; simp only [Option.some.injEq] at hf; subst hf; exact hsc _ _,
      fun h => absurd h hfl, hW.etrans, hW.strans, hW.egoals, hW.sgoals⟩
    (by
      intro d hd h0 f hf
      have hb := hne d hd h0
      simp only [FSpec.all, List.mem_append, Option.mem_toList] at hf hb
      rcases hf with ((((hf | hf) | hf) | hf) | hf) | hf
      · rcases he with rfl | ⟨-, rfl⟩
        · exact hb f (by tauto)
        · simp only [Option.mem_def, Option.some.injEq] at hf; subst hf; rfl
      · rcases hs with rfl | ⟨-, rfl⟩
        · exact hb f (by tauto)
        · simp only [Option.mem_def, Option.some.injEq] at hf; subst hf; rfl
      · exact hb f (by tauto)
      · exact hb f (by tauto)
      · exact hb f (by tauto)
      · exact hb f (by tauto))
  refine ⟨r, r', h1, h3, ?_⟩
  rw [h2, h4]
  have hu : (fmStates (.const 1) : Finset (IState evars svars)) = Finset.univ := by simp [fmStates, Fm.eval]
  have hi : ∀ o o' : Option Fm, (o' = o ∨ o = none ∧ o' = some (.const 1)) →
      initSet (o.map (fmStates (evars := evars) (svars := svars))) =
        initSet (o'.map (fmStates (evars := evars) (svars := svars))) := by
    rintro o o' (rfl | ⟨rfl, rfl⟩)
    · rfl
    · simp [initSet, hu]
  have hi1 := hi _ _ he
  have hi2 := hi _ _ hs
  cases flag with
  | undefined => exact Iff.rfl
  | oneSide => exact absurd rfl hfl
  | allInit => simp only [CodeRealizable, hi1, hi2]; exact Iff.rfl
  | allEnvExistSys => simp only [CodeRealizable, hi1, hi2]; exact Iff.rfl

/-! ## Example: environment `x` in [0,2] and Boolean `a`, system `y` in [0,0] and `z` in [0,3] -/

example : GoodDecls GREx.evars ∧ GoodDecls GREx.svars ∧ Fresh GREx.evars GREx.svars ∧
    NoNe0 (GREx.evars ++ GREx.svars) GREx.sp.all ∧ WellScoped GREx.evars GREx.svars .allEnvExistSys GREx.sp ∧
    TypedSpec GREx.evars GREx.svars GREx.sp := by
  refine ⟨by unfold GoodDecls; decide +kernel, by unfold GoodDecls; decide +kernel, ⟨by decide +kernel, by decide +kernel⟩,
    by unfold NoNe0; decide +kernel, ?_, ?_⟩
  · by_contra h
    have := (check_form_exact GREx.evars GREx.svars .allEnvExistSys GREx.sp).2 h
    revert this
    decide +kernel
  · constructor <;> unfold Typed <;> decide +kernel

end Gr1c
