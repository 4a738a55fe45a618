import Verif.PatchCli
import Verif.PatchGoals
import Verif.PatchFileProps
import Verif.AutmanProps

/-!
# Lemmas about the main function of `gr1c-patch`
-/

namespace Gr1c

variable {evars svars : Decls}

/-! ## Formulas and BDDs -/

/-- The two interpretations of initial conditions are expanded alike. -/
theorem expandNonboolGR1_flag (e s : PTree) (sp : TSpec) :
    expandNonboolGR1 e s .allEnvExistSys sp = expandNonboolGR1 e s .undefined sp := by
  have h1 : ∀ (t : PTree) (sp : TSpec), blockEnv .allEnvExistSys t sp = blockEnv .undefined t sp := by
    intro t
    induction t with
    | nil => intro sp; rfl
    | node ty nm v l r ih _ =>
      intro sp
      simp only [blockEnv, reduceCtorEq, false_and, if_false, ih]
  have h2 : ∀ (t : PTree) (sp : TSpec), blockSys .allEnvExistSys t sp = blockSys .undefined t sp := by
    intro t
    induction t with
    | nil => intro sp; rfl
    | node ty nm v l r ih _ =>
      intro sp
      simp only [blockSys, reduceCtorEq, false_and, if_false, ih]
  unfold expandNonboolGR1
  rw [h1, h2]

/-- Without initial conditions the rest is the same. -/
theorem buildBits_noinit {ne ns : ℕ} {vl : PTree} {sp : TSpec} {B : BitSpec ne ns} (h : buildBits ne ns vl sp = some B) :
    ∃ B', buildBits ne ns vl { sp with einit := .nil, sinit := .nil } = some B' ∧ B'.game = B.game ∧ B'.egs = B.egs ∧ B'.sgs = B.sgs := by
  unfold buildBits at h ⊢
  have hn : bddOpt (2 * (ne + ns)) vl .nil = some none := rfl
  simp only [hn]
  split at h
  · rename_i et st eg sg ei si h1 h2 h3 h4 h5 h6
    cases h
    rw [h1, h2, h3, h4]
    exact ⟨_, rfl, rfl, rfl, rfl⟩
  · cases h

theorem bddList_length {N : ℕ} {vl : PTree} : ∀ {ts : List PTree} {bs : List (Bdd N)}, bddList N vl ts = some bs → bs.length = ts.length := by
  intro ts
  induction ts with
  | nil => intro bs h; cases h; rfl
  | cons t ts ih =>
    intro bs h
    rw [bddList] at h
    split at h
    · rename_i b bs' h1 h2
      cases h
      simp [ih h2]
    · cases h

theorem buildBits_sgoals {ne ns : ℕ} {vl : PTree} {sp : TSpec} {B : BitSpec ne ns} (h : buildBits ne ns vl sp = some B) :
    B.sgs.length = sp.sgoals.length := by
  unfold buildBits at h
  split at h
  · rename_i et st eg sg ei si h1 h2 h3 h4 h5 h6
    cases h
    simp [BitSpec.sgs, bddList_length h4]
  · cases h

theorem expandForm_nil (l : VarList) : expandForm l .nil = some .nil := by
  induction l with
  | nil => rfl
  | cons d l ih =>
    obtain ⟨n, v⟩ := d
    rw [expandForm, expand_nil]
    exact ih

theorem expandForm_ok (ds : Decls) : ∀ f : Fm, NoNe0 ds [f] → ∃ f', expandForm (intVars ds) f.toTree = some f'.toTree ∧ ExpandsAll ds f f' := by
  induction ds with
  | nil => intro f _; exact ⟨f, rfl, .nil f⟩
  | cons d ds ih =>
    obtain ⟨n, v⟩ := d
    intro f hf
    have hrest : NoNe0 ds [f] := fun d hd => hf d (List.mem_cons_of_mem _ hd)
    by_cases hv : 0 ≤ v
    · obtain ⟨g, g1, g2, -, -⟩ := expand_to_bool_exact n v hv f (by
        by_cases h0 : v = 0
        · exact Or.inr (hf (n, v) List.mem_cons_self h0 f List.mem_cons_self)
        · exact Or.inl (by omega))
      obtain ⟨f', h1, h2⟩ := ih g (by
        intro d hd h0 f0 hf0
        rw [List.mem_singleton] at hf0
        subst hf0
        exact expands_hasNe0 g2 d.1 (hrest d hd h0 f List.mem_cons_self))
      refine ⟨f', ?_, .int hv g2 h2⟩
      have : intVars ((n, v) :: ds) = (n, v) :: intVars ds := by unfold intVars; simp [hv]
      rw [this, expandForm, g1]
      exact h1
    · obtain ⟨f', h1, h2⟩ := ih f hrest
      refine ⟨f', ?_, .bool (by omega) h2⟩
      have : intVars ((n, v) :: ds) = intVars ds := by unfold intVars; simp [hv]
      rw [this]
      exact h1

/-- The BDD of the new goal. -/
theorem form_bdd (hF : Fresh evars svars) {φ : Fm} (hT : Typed (evars ++ svars) [] φ) (hne : NoNe0 (evars ++ svars) [φ]) :
    ∃ (φ' : Fm) (b : XBdd evars svars), expandForm (intVars (evars ++ svars)) φ.toTree = some φ'.toTree ∧
      ptreeBdd (2 * ((expDecls evars).length + (expDecls svars).length)) (expDecls evars ++ expDecls svars).tree φ'.toTree = .ok b ∧
      GoalRel (encVal evars) (encVal svars) (fmStates φ) (statesOf b) := by
  obtain ⟨φ', h1, h2⟩ := expandForm_ok _ φ hne
  obtain ⟨b, b1, b2⟩ := denotes_ok hF φ' (expanded_listed (hT.any (fun _ h => h) (by simp)) h2)
  refine ⟨φ', b, h1, b1, fun s => ?_⟩
  have hdom : ∀ nx, DomAll (bitEnv (encState s) (encState s)) (evars ++ svars) nx := by
    intro nx d hd
    rcases List.mem_append.1 hd with hd | hd
    · exact enc_dom_e hF _ _ nx s.1 (by cases nx <;> rfl) d hd
    · exact enc_dom_s hF _ _ nx s.2 (by cases nx <;> rfl) d hd
  simp only [statesOf, fmStates, Finset.mem_filter, Finset.mem_univ, true_and]
  change b (joinAsg (encState s) (encState s)) = true ↔ _
  rw [b2 _ _, expandsAll_eval h2 _ (bitEnv_encodes hF _ _) (Or.inr hdom),
    eval_enc hF _ _ s s _ _ φ hT (fun d hd => (List.mem_append.1 hd).imp (fun h => ⟨h, rfl⟩) (fun h => ⟨h, rfl⟩)) (by simp)]

theorem vars_split {f : Fm} {x : Bool × Name} (h : x ∈ f.vars) : x ∈ f.bvars ∨ x ∈ f.zvars := by
  induction f with
  | const v => exact Or.inl h
  | var nx n => exact Or.inl h
  | neg f ih => exact ih h
  | and f g ih1 ih2 | or f g ih1 ih2 | imp f g ih1 ih2 | equiv f g ih1 ih2 =>
    simp only [Fm.vars, Fm.bvars, Fm.zvars, List.mem_append] at h ⊢
    rcases h with h | h
    · exact (ih1 h).imp Or.inl Or.inl
    · exact (ih2 h).imp Or.inr Or.inr
  | cmp op nx n c => exact Or.inr h

/-- Formulas of the right kind pass the check of variables. -/
theorem form_scoped {φ : Fm} (hT : Typed (evars ++ svars) [] φ) :
    (checkVars (chainVars svars.tree evars.tree) .nil φ.toTree).isSome = false := by
  rw [chain_tree]
  have e : (PTree.nil) = Decls.tree [] := rfl
  rw [e, checkVars_scoped]
  intro x hx
  have key : ∃ d ∈ (if x.1 then ([] : Decls) else evars ++ svars), d.1 = x.2 := by
    rcases vars_split hx with h | h
    · obtain ⟨d, hd, h', -⟩ := hT.1 x h; exact ⟨d, hd, h'⟩
    · obtain ⟨d, hd, h', -⟩ := hT.2 x h; exact ⟨d, hd, h'⟩
  obtain ⟨d, hd, h'⟩ := key
  cases hx1 : x.1 with
  | true => rw [hx1] at hd; simp at hd
  | false =>
    rw [hx1] at hd
    refine ⟨fun _ => ?_, by simp⟩
    have : d ∈ evars ++ svars := by simpa using hd
    exact List.mem_map.2 ⟨d, by rw [List.mem_append] at this ⊢; exact this.symm, h'⟩

/-! ## The strategy that is read, and the one that is written -/

theorem patchVars_decl (hp : PfxFree (evars ++ svars)) :
    patchVars evars.length svars.length (expDecls evars) (expDecls svars) (intVars (evars ++ svars)) = declVars evars svars := by
  have := declVars_offsets hp
  unfold patchVars
  change getOffsetsList (expDecls evars) (expDecls svars) (intVars (evars ++ svars)) = _ at this
  rw [this]
  rfl

theorem values_bits (hF : Fresh evars svars) (s : IState evars svars) :
    bitValues evars svars (stBits (encState s)) = stateValues s := by
  rw [← decode_vector hF s]
  unfold bitValues stBits bitVector written01
  rw [List.map_append, List.map_ofFn, List.map_ofFn]
  rfl

theorem decList_bools {ds : Decls} (h : ∀ d ∈ ds, d.2 < 0) : ∀ {bs : List ℤ}, bs.length = totalWidth ds → decList ds bs = bs := by
  induction ds with
  | nil => intro bs hb; simp [totalWidth] at hb; subst hb; rfl
  | cons d ds ih =>
    intro bs hb
    have hd := h d List.mem_cons_self
    have hw : declWidth d = 1 := by unfold declWidth; rw [if_neg (by omega)]
    rw [totalWidth_cons, hw] at hb
    cases bs with
    | nil => simp at hb; omega
    | cons b bs =>
      rw [decList, if_neg (by omega), hw]
      simp only [List.headD_cons, List.drop_succ_cons, List.drop_zero]
      rw [ih (fun d hd => h d (List.mem_cons_of_mem _ hd)) (by simp at hb; omega)]

theorem layout_bools {ds : Decls} (h : ∀ d ∈ ds, d.2 < 0) (k : ℕ) : layoutFrom k ds = [] := by
  induction ds generalizing k with
  | nil => rfl
  | cons d ds ih =>
    have hd := h d List.mem_cons_self
    rw [layoutFrom, if_neg (by omega)]
    exact ih (fun d hd => h d (List.mem_cons_of_mem _ hd)) _

theorem width_bools {ds : Decls} (h : ∀ d ∈ ds, d.2 < 0) : totalWidth ds = ds.length := by
  induction ds with
  | nil => rfl
  | cons d ds ih =>
    have hd := h d List.mem_cons_self
    have hw : declWidth d = 1 := by unfold declWidth; rw [if_neg (by omega)]
    rw [totalWidth_cons, hw, ih (fun d hd => h d (List.mem_cons_of_mem _ hd)), List.length_cons]
    omega

theorem withStates_comp {M U V W : Type} (f : U → V) (g : V → W) (st : Aut M U) :
    withStates g (withStates f st) = withStates (g ∘ f) st := by
  unfold withStates
  rw [List.map_map]
  rfl

/-- Reading back a strategy over the declared values. -/
theorem load_values (hF : Fresh evars svars) (hp : PfxFree (evars ++ svars)) (hi : IntDecls (evars ++ svars)) (hv : evars ++ svars ≠ [])
    {st : Aut ℤ (IState evars svars)} (hne : st ≠ []) (hids : (st.map (·.id)).Nodup)
    (hcl : ∀ x ∈ st, ∀ j ∈ x.trans, ∃ y ∈ st, y.id = j) (hfit : AutFits (withStates stateValues st)) (b : Bool) :
    ∃ st' : Aut ℤ (XState evars svars), Moved (withStates (Prod.map (encVal evars) (encVal svars)) st) st' ∧
      loadStrategy (declVars evars svars) b (dumpVer (withStates stateValues st) 1).2 = .ok st' := by
  have hne' : withStates (Prod.map (encVal evars) (encVal svars)) st ≠ [] := by unfold withStates; simpa using hne
  have hlen : 0 < evars.length + svars.length := by
    rw [← List.length_append]; exact List.length_pos_of_ne_nil hv
  have hgood : GoodAut (evars.length + svars.length) (withStates stateValues st) := by
    refine ⟨by rw [withStates_ids]; exact hids, withStates_closed.2 hcl, ?_, hfit.small, hfit.ints⟩
    intro n hn
    obtain ⟨x, -, rfl⟩ := mem_withStates.1 hn
    change (stateValues x.state).length = _
    rw [← values_bits hF, bitValues_length]
  by_cases hint : ∃ d ∈ evars ++ svars, 0 ≤ d.2
  · have e : withStates (fun s => bitValues evars svars (stBits s)) (withStates (Prod.map (encVal evars) (encVal svars)) st) =
        withStates stateValues st := by
      rw [withStates_comp]
      congr 1
      funext s
      exact values_bits hF s
    obtain ⟨st', h1, h2⟩ := load_written_int hp hi hint (st := withStates (Prod.map (encVal evars) (encVal svars)) st) hne'
      (by have h := hgood; rw [← e] at h; exact h) (by have h := hfit.short; rw [← e] at h; exact h) b
    refine ⟨st', h1, ?_⟩
    rw [← e]
    exact h2
  · have hb : ∀ d ∈ evars ++ svars, d.2 < 0 := fun d hd => by
      by_contra hc; exact hint ⟨d, hd, by omega⟩
    have hbe : ∀ d ∈ evars, d.2 < 0 := fun d hd => hb d (List.mem_append_left _ hd)
    have hbs : ∀ d ∈ svars, d.2 < 0 := fun d hd => hb d (List.mem_append_right _ hd)
    have hall : (declVars evars svars).AllBool := by
      refine ⟨layout_bools hb 0, ?_, ?_⟩
      · rw [declVars_ne, width_bools hbe]; rfl
      · rw [declVars_ns, width_bools hbs]; rfl
    have hl : (declVars evars svars).ne + (declVars evars svars).ns = evars.length + svars.length := by
      rw [declVars_ne, declVars_ns, width_bools hbe, width_bools hbs]
    have e : withStates (fun s => written01 (stBits s)) (withStates (Prod.map (encVal evars) (encVal svars)) st) =
        withStates stateValues st := by
      rw [withStates_comp]
      congr 1
      funext s
      rw [← values_bits hF]
      unfold bitValues
      refine (decList_bools hb ?_).symm
      change (written01 (stBits (encState s))).length = _
      rw [totalWidth_append, ← expDecls_length, ← expDecls_length]
      simp [written01, stBits]
    obtain ⟨st', h1, h2⟩ := load_written hall (st := withStates (Prod.map (encVal evars) (encVal svars)) st) hne'
      (by rw [hl]; exact hlen) (by have h := hgood; rw [← e, ← hl] at h; exact h) (by have h := hfit.short; rw [← e] at h; exact h) b
    refine ⟨st', h1, ?_⟩
    rw [← e]
    exact h2

/-- Writing a strategy over the declared values. -/
theorem pg_writes (hF : Fresh evars svars) (hp : PfxFree (evars ++ svars)) (hI : IntDecls (evars ++ svars)) {w : PatchWorld} {c : PgCfg}
    {R : Aut ℤ (IState evars svars)} (hne : R ≠ []) :
    pgWrite w c (expDecls evars) (expDecls svars) (intVars (evars ++ svars)) (.ok (withStates (Prod.map (encVal evars) (encVal svars)) R)) =
      if (match c.output with | some f => w.canWrite f | none => true) then
        .exit 0 (some ⟨c.output, c.format, evars, svars, withStates stateValues R⟩)
      else .exit (-1) none := by
  unfold pgWrite
  have hne' : withStates (Prod.map (encVal evars) (encVal svars)) R ≠ [] := by
    unfold withStates; simpa using hne
  simp only [if_neg hne']
  have hcomp := compact_states (evars := evars) (svars := svars) hp hI
    (withStates bitVector (withStates (Prod.map (encVal evars) (encVal svars)) R)) (by
      intro x hx
      obtain ⟨y, -, rfl⟩ := List.mem_map.1 hx
      exact vector_ok y.state)
  have e : withStates (decList (evars ++ svars)) (withStates bitVector (withStates (Prod.map (encVal evars) (encVal svars)) R)) =
      withStates stateValues R := by
    rw [withStates_comp, withStates_comp]
    congr 1
    funext s
    exact decode_vector hF s
  rw [e] at hcomp
  have e2 : (withStates (Prod.map (encVal evars) (encVal svars)) R).map
      (fun x => (⟨x.id, bitVector x.state, x.mode, x.rgrad, x.initial, x.trans⟩ : ANode ℤ (List ℤ))) =
      withStates bitVector (withStates (Prod.map (encVal evars) (encVal svars)) R) := rfl
  rw [e2, hcomp]
  cases c.output <;> rfl

/-! ## Up to the patching functions -/

theorem tree_size (vs : Decls) : PTree.size vs.tree = vs.length := by unfold Decls.tree; rw [list_size]; simp

/-- Everything before the patching functions. -/
theorem pg_front {w : PatchWorld} {args : List Arg} {os : List PgItem} {f : Option Arg} {d : FileData} {text : List Char}
    (h : PgCalled w args os f d text) (hg : GoodSpec d .undefined) (hp : PfxFree (d.evars ++ d.svars)) :
    ∃ (sp' : FSpec) (B : BitSpec (expDecls d.evars).length (expDecls d.svars).length),
      buildBits (expDecls d.evars).length (expDecls d.svars).length (expDecls d.evars ++ expDecls d.svars).tree sp'.toT = some B ∧
      RepresentsWith d.evars d.svars .undefined d.sp (sysGoals d.sp) B ∧ sp'.sgoals.length = (sysGoals d.sp).length ∧
      ∀ form form' : PTree, pgForm (pgMeaning os f) = some form → (checkVars (chainVars d.svars.tree d.evars.tree) .nil form).isSome = false →
        expandForm (intVars (d.evars ++ d.svars)) form = some form' →
        patchMain w args = pgPatch w (pgMeaning os f) (declVars d.evars d.svars) (expDecls d.evars ++ expDecls d.svars).tree sp'.toT form' text := by
  obtain ⟨fa, a1, a2⟩ := pg_called h
  obtain ⟨t, t1, t2⟩ := h.spec
  obtain ⟨sp', B, h1, h2, -, h4⟩ := front_with t2.parsed.2.1 t2.parsed.2.2 hg.fresh .undefined d.sp (sysGoals d.sp) hg.typed hg.scope hg.noNe0
    (by
      intro g hg'
      rcases mem_default hg' with h' | rfl
      · exact hg.typed.sgoals g h'
      · exact ⟨by simp [Fm.bvars], by simp [Fm.zvars]⟩)
    (by
      intro d' hd' h0 g hg'
      rcases mem_default hg' with h' | rfl
      · exact hg.noNe0 d' hd' h0 g (by simp only [FSpec.all, List.mem_append]; exact .inr h')
      · rfl)
  refine ⟨sp', B, h2, h4, ?_, ?_⟩
  · have := buildBits_sgoals h2
    have e := h4.sgs.length_eq
    rw [List.length_map] at e
    rw [← e] at this
    simpa [FSpec.toT] using this.symm
  · intro form form' hform hchk hexp
    rw [a2]
    unfold pgRun
    have e1 : checkGr1cForm d.toP.ev d.toP.sv .undefined d.toP.sp = 0 := (check_form_exact _ _ _ _).1 hg.scope
    rw [e1, if_neg (by decide), hform]
    have e2 : (checkVars (chainVars d.toP.sv d.toP.ev) .nil form).isSome = false := hchk
    simp only [e2]
    unfold pgExpand
    have e3 : expandNonboolGR1 d.toP.ev d.toP.sv .allEnvExistSys (omissionDefaults d.toP.sp) = .ok sp'.toT := by
      rw [expandNonboolGR1_flag]
      change expandNonboolGR1 d.evars.tree d.svars.tree .undefined (omissionDefaults d.sp.toT) = _
      rw [omissionDefaults_toT, ← withGoals_sys, h1]
    have e4 : expandNonboolVariables d.toP.ev d.toP.sv = some ((expDecls d.evars).tree, (expDecls d.svars).tree,
        Decls.tree (intVars (d.evars ++ d.svars))) := by
      change expandNonboolVariables d.evars.tree d.svars.tree = _
      rw [expand_variables_exact, expDecls_tree, expDecls_tree]
      rfl
    have e5 : d.toP.ev.size = d.evars.length := tree_size _
    have e6 : d.toP.sv.size = d.svars.length := tree_size _
    simp only [e3, e4, varListOf_tree, hexp, a1, e5, e6, chain_tree, patchVars_decl hp, Bool.false_eq_true, if_false]

theorem patch_oracle {w : PatchWorld} {sp : FSpec} {goals : List Fm} {flag : InitFlag}
    {B : BitSpec (expDecls evars).length (expDecls svars).length} (hB : RepresentsWith evars svars flag sp goals B)
    (hw : w.Sane) (henv : evars ≠ [] ∨ ∀ f ∈ sp.etrans, f = .const 1) (k : ℕ) (l : List ℕ) :
    (w.sub k _ _ B.game l).Valid B.game := by
  apply hw.valid
  by_cases hev : evars = []
  · subst hev
    rcases henv with h | h
    · exact absurd rfl h
    · exact Or.inr (hB.free rfl h)
  · left
    obtain ⟨d, ds, hd⟩ := List.exists_cons_of_ne_nil hev
    have : 0 < totalWidth evars := by
      rw [hd, totalWidth_cons]; have := declWidth_pos d; omega
    rwa [expDecls_length]

/-! ## The place of the new goal -/

theorem closestFrom_lt (vs : List ℤ) : ∀ (k : ℕ) (b : ℕ × ℤ), b.1 < k → closestFrom k b vs < k + vs.length := by
  induction vs with
  | nil => intro k b h; simpa [closestFrom] using h
  | cons v vs ih =>
    intro k b h
    rw [closestFrom]
    have := ih (k + 1) (if v < b.2 then (k, v) else b) (by split; exacts [Nat.lt_succ_self k, Nat.lt_succ_of_lt h])
    simp only [List.length_cons]
    omega

theorem goalDists_length {ne ns : ℕ} {cover : Bdd (2 * (ne + ns)) → List (CubeArr (2 * (ne + ns)))} {offw : List (ℕ × ℕ)}
    {new : Finset (BState ne ns)} : ∀ {gs : List (Finset (BState ne ns))} {l : List ℤ}, goalDists cover offw new gs = .ok l → l.length = gs.length := by
  intro gs
  induction gs with
  | nil => intro l h; cases h; rfl
  | cons g gs ih =>
    intro l h
    rw [goalDists] at h
    split at h
    · cases hl' : goalDists cover offw new gs with
      | ok l' =>
        rw [hl'] at h
        cases h
        simp [ih hl']
      | ub => rw [hl'] at h; cases h
      | null => rw [hl'] at h; cases h
    · cases h
    · cases h

theorem pickGoal_lt {ne ns : ℕ} {cover : Bdd (2 * (ne + ns)) → List (CubeArr (2 * (ne + ns)))} {offw : List (ℕ × ℕ)}
    {new : Finset (BState ne ns)} {gs : List (Finset (BState ne ns))} (h0 : gs ≠ []) {i : ℤ} (h : pickGoal cover offw new gs = .ok i) :
    ∃ j : ℕ, i = j ∧ j < gs.length ∧ (offw = [] → j + 1 = gs.length) := by
  have hpos : 0 < gs.length := List.length_pos_of_ne_nil h0
  unfold pickGoal at h
  split at h
  · rename_i ho
    cases h
    exact ⟨gs.length - 1, by omega, by omega, fun _ => by omega⟩
  · rename_i ho
    split at h
    · cases h
    · cases h
    · rename_i hl
      have := goalDists_length hl
      simp at this
      omega
    · rename_i v vs hl
      have hl' := goalDists_length hl
      cases h
      refine ⟨_, rfl, ?_, fun hc => absurd hc ho⟩
      have := closestFrom_lt vs 1 (0, v) (by simp)
      simp only [List.length_cons] at hl'
      omega

end Gr1c
