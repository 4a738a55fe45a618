import Verif.MainSpec
import Verif.Main
import Verif.SynthStates
import Verif.PipelineProps
import Verif.CompactProps

/-!
# Lemmas for the program as a whole: from bit states to declared values
-/

namespace Gr1c

/-! ## Automata under an embedding -/

section embed

variable {E S E' S' M : Type} [Fintype E] [DecidableEq E] [Fintype S] [DecidableEq S]
  [Fintype E'] [DecidableEq E'] [Fintype S'] [DecidableEq S']

theorem pullback_aut {V V' : Type} (f : V → V') (st' : Aut M V') (h : ∀ x ∈ st', ∃ s, f s = x.state) :
    ∃ st : Aut M V, st' = withStates f st := by
  induction st' with
  | nil => exact ⟨[], rfl⟩
  | cons x st' ih =>
    obtain ⟨st, h1⟩ := ih fun y hy => h y (List.mem_cons_of_mem _ hy)
    obtain ⟨s, hs⟩ := h x List.mem_cons_self
    refine ⟨⟨x.id, s, x.mode, x.rgrad, x.initial, x.trans⟩ :: st, ?_⟩
    rw [h1]
    simp only [withStates, List.map_cons, hs]

theorem infOften_rel {ιe : E → E'} {ιs : S → S'} {Q : Finset (E × S)} {Q' : Finset (E' × S')}
    (h : GoalRel ιe ιs Q Q') (π : ℕ → E × S) :
    InfOften (fun k => Prod.map ιe ιs (π k)) Q' ↔ InfOften π Q := by
  unfold InfOften
  simp only [h _]

theorem forall₂_fwd {α β : Type} {R : α → β → Prop} {l : List α} {l' : List β} (h : List.Forall₂ R l l') :
    ∀ a ∈ l, ∃ b ∈ l', R a b := by
  induction h with
  | nil => simp
  | cons h _ ih =>
    intro b hb
    rcases List.mem_cons.1 hb with rfl | hb
    · exact ⟨_, List.mem_cons_self, h⟩
    · obtain ⟨a, ha, hab⟩ := ih b hb
      exact ⟨a, List.mem_cons_of_mem _ ha, hab⟩

/-- A strategy automaton whose states are all in the image of an embedding is one for the embedded game. -/
theorem strategy_pullback {G : Game E S} {H : Game E' S'} {ιe : E → E'} {ιs : S → S'} (hE : Embeds G H ιe ιs)
    {egs sgs : List (Finset (E × S))} {egs' sgs' : List (Finset (E' × S'))}
    (he : List.Forall₂ (GoalRel ιe ιs) egs egs') (hs : List.Forall₂ (GoalRel ιe ιs) sgs sgs')
    {flag : InitFlag} {ei si : Option (Finset (E × S))} {ei' si' : Option (Finset (E' × S'))}
    (hei : ∀ s, Prod.map ιe ιs s ∈ initSet ei' ↔ s ∈ initSet ei)
    (hsi : ∀ s, Prod.map ιe ιs s ∈ initSet si' ↔ s ∈ initSet si)
    (hnone : flag = .oneSide → (si' = none ↔ si = none)) {st : Aut M (E × S)}
    (h : StrategyFor H egs' sgs' flag ei' si' (withStates (Prod.map ιe ιs) st)) :
    StrategyFor G egs sgs flag ei si st := by
  have hmem : ∀ x ∈ st, (⟨x.id, Prod.map ιe ιs x.state, x.mode, x.rgrad, x.initial, x.trans⟩ : ANode M (E' × S')) ∈
      withStates (Prod.map ιe ιs) st := fun x hx => List.mem_map.2 ⟨x, hx, rfl⟩
  have hback : ∀ y ∈ withStates (Prod.map ιe ιs) st, ∃ x ∈ st,
      (⟨x.id, Prod.map ιe ιs x.state, x.mode, x.rgrad, x.initial, x.trans⟩ : ANode M (E' × S')) = y :=
    fun y hy => List.mem_map.1 hy
  have hinj : Function.Injective (Prod.map ιe ιs) := hE.inje.prodMap hE.injs
  have hreq : ∀ s : E × S, (∃ x ∈ withStates (Prod.map ιe ιs) st, x.state = Prod.map ιe ιs s) →
      ∃ x ∈ st, x.state = s := by
    rintro s ⟨y, hy, h1⟩
    obtain ⟨x, hx, rfl⟩ := hback y hy
    exact ⟨x, hx, hinj h1⟩
  have hids : (st.map (·.id)).Nodup := by
    have := h.ids
    simpa [withStates, List.map_map, Function.comp_def] using this
  refine ⟨hids, ?_, ?_, ?_, ?_, ?_, ?_⟩
  · intro x hx j hj
    obtain ⟨y, hy, h1⟩ := h.edges _ (hmem x hx) j hj
    obtain ⟨z, hz, rfl⟩ := hback y hy
    exact ⟨z, hz, h1⟩
  · intro x hx y hy hxy
    obtain ⟨h1, h2⟩ := h.legal _ (hmem x hx) _ (hmem y hy) hxy
    simp only at h1 h2
    have h1' : H.etr (Prod.map ιe ιs x.state) (ιe y.state.1) = true := h1
    have h2' : H.str (Prod.map ιe ιs x.state) (ιe y.state.1, ιs y.state.2) = true := h2
    obtain ⟨e, e1, e2⟩ := (hE.etr _ _).1 h1'
    obtain ⟨z, z1, z2⟩ := (hE.str _ _ _).1 h2'
    rw [← hE.inje e1] at e2
    rw [← hE.injs z1] at z2
    exact ⟨e2, z2⟩
  · intro x hx e hxe
    obtain ⟨y, ⟨h1, h2, h3⟩, h4⟩ := h.answers _ (hmem x hx) (ιe e) ((hE.etr _ _).2 ⟨e, rfl, hxe⟩)
    obtain ⟨z, hz, rfl⟩ := hback y h1
    refine ⟨z, ⟨hz, h2, hE.inje h3⟩, ?_⟩
    rintro w ⟨w1, w2, w3⟩
    have := h4 _ ⟨hmem w w1, w2, by simp [w3]⟩
    have hid : w.id = z.id := by injection this
    exact List.inj_on_of_nodup_map hids w1 hz hid
  · intro ρ hρ henv B hB
    obtain ⟨B', hB', hr⟩ := forall₂_fwd hs B hB
    have := h.live (fun k => ⟨(ρ k).id, Prod.map ιe ιs (ρ k).state, (ρ k).mode, (ρ k).rgrad, (ρ k).initial, (ρ k).trans⟩)
      (fun k => ⟨hmem _ (hρ k).1, (hρ k).2⟩)
      (fun A' hA' => by
        obtain ⟨A, hA, hr'⟩ := forall₂_back he A' hA'
        exact (infOften_rel hr' fun k => (ρ k).state).2 (henv A hA)) B' hB'
    exact (infOften_rel hr fun k => (ρ k).state).1 this
  · intro x hx hi
    have := h.allowed _ (hmem x hx) hi
    unfold InitAllowed at this ⊢
    cases flag with
    | allInit => exact ⟨(hei _).1 this.1, (hsi _).1 this.2⟩
    | allEnvExistSys => exact ⟨(hei _).1 this.1, (hsi _).1 this.2⟩
    | undefined => trivial
    | oneSide =>
      have hn := hnone rfl
      cases si with
      | none =>
        rw [hn.2 rfl] at this
        exact (hei _).1 this
      | some A =>
        cases si' with
        | none => have := hn.1 rfl; cases this
        | some A' => exact (hsi _).1 this
  · have := h.required
    unfold InitRequired at this ⊢
    cases flag with
    | allInit => exact fun s h1 h2 => hreq s (this _ ((hei s).2 h1) ((hsi s).2 h2))
    | allEnvExistSys =>
      rintro e ⟨x, hx⟩
      obtain ⟨x', h1, y, hy, h2⟩ := this (ιe e) ⟨ιs x, (hei (e, x)).2 hx⟩
      obtain ⟨z, hz, rfl⟩ := hback y hy
      simp only at h2
      have he1 : ιe z.state.1 = ιe e := congrArg Prod.fst h2
      have hx1 : ιs z.state.2 = x' := congrArg Prod.snd h2
      refine ⟨z.state.2, (hsi (e, z.state.2)).1 ?_, z, hz, Prod.ext (hE.inje he1) rfl⟩
      simp only [Prod.map_apply]
      rw [hx1]; exact h1
    | undefined => trivial
    | oneSide =>
      have hn := hnone rfl
      cases si with
      | none =>
        rw [hn.2 rfl] at this
        exact fun s h1 => hreq s (this _ ((hei s).2 h1))
      | some A =>
        cases si' with
        | none => have := hn.1 rfl; cases this
        | some A' =>
          obtain ⟨s', h1, y, hy, rfl⟩ := this
          obtain ⟨z, hz, rfl⟩ := hback y hy
          exact ⟨z.state, (hsi _).1 h1, z, hz, rfl⟩

end embed

/-! ## State vectors -/

section vectors

theorem map_exp (f : Name → ℤ) (g : Name → Bool) : ∀ A : Decls,
    (∀ d ∈ A, (d.2 < 0 → f d.1 = if g d.1 then 1 else 0) ∧
      (0 ≤ d.2 → ∀ j < domBits d.2, g (bitName d.1 j) = intBit (f d.1) j)) →
    (expDecls A).map (fun d => if g d.1 then (1 : ℤ) else 0) = encList A (A.map fun d => f d.1) := by
  intro A
  induction A with
  | nil => intro _; rfl
  | cons d A ih =>
    intro h
    rw [expDecls_cons, List.map_append, ih fun d hd => h d (List.mem_cons_of_mem _ hd)]
    simp only [List.map_cons, encList]
    congr 1
    obtain ⟨h1, h2⟩ := h d List.mem_cons_self
    unfold encOne expDecls
    by_cases h0 : 0 ≤ d.2
    · simp only [h0, if_true, List.flatMap_cons, List.flatMap_nil, List.append_nil, List.map_map]
      apply List.map_congr_left
      intro j hj
      simp only [Function.comp, h2 h0 j (List.mem_range.1 hj)]
    · simp only [h0, if_false, List.flatMap_cons, List.flatMap_nil, List.append_nil, List.map_cons, List.map_nil]
      rw [h1 (by omega)]

theorem declValues_eq {ds : Decls} (hn : (ds.map Prod.fst).Nodup) (v : DVal ds) :
    ds.map (fun d => valOfName ds v d.1) = declValues ds v := by
  apply List.ext_getElem
  · simp [declValues]
  · intro i h1 h2
    simp only [List.getElem_map, declValues, List.getElem_ofFn]
    simp only [List.length_map] at h1
    exact valOfName_get hn v ⟨i, h1⟩

theorem bits_eq {ds : Decls} (hn : (ds.map Prod.fst).Nodup) (he : ((expDecls ds).map Prod.fst).Nodup)
    (v : DVal ds) : (List.ofFn fun i => if encVal ds v i then (1 : ℤ) else 0) = encList ds (declValues ds v) := by
  rw [← declValues_eq hn, ← map_exp (valOfName ds v) (bitOfName (expDecls ds) (encVal ds v)) ds]
  · apply List.ext_getElem
    · simp
    · intro i h1 h2
      simp only [List.getElem_map, List.getElem_ofFn]
      simp only [List.length_ofFn] at h1
      have := bitOfName_get he (encVal ds v) ⟨i, h1⟩
      simp only [Fin.getElem_fin] at this
      rw [this]
  · intro d hd
    obtain ⟨i, hi, rfl⟩ := List.getElem_of_mem hd
    have hv := valOfName_get hn v ⟨i, hi⟩
    simp only [Fin.getElem_fin] at hv
    rw [hv]
    refine ⟨fun h => ?_, fun h j hj => ?_⟩
    · have := enc_bool he v ⟨i, hi⟩ h
      simp only [Fin.getElem_fin] at this
      rw [this]
      have hc : (v ⟨i, hi⟩).val < dcard ds[i] := (v ⟨i, hi⟩).isLt
      have h2 : dcard ds[i] = 2 := by unfold dcard; rw [if_pos h]
      have hc : (v ⟨i, hi⟩).val < 2 := lt_of_lt_of_eq hc h2
      by_cases h0 : (v ⟨i, hi⟩).val = 0
      · simp [h0]
      · have : (v ⟨i, hi⟩).val = 1 := by omega
        simp [this]
    · exact enc_int he v ⟨i, hi⟩ h hj

theorem declValues_range {ds : Decls} (v : DVal ds) : InRange ds (declValues ds v) := by
  unfold InRange
  rw [List.forall₂_iff_get]
  refine ⟨by simp [declValues], ?_⟩
  intro i h1 h2 h0
  simp only [List.get_eq_getElem, declValues, List.getElem_ofFn]
  simp only [List.get_eq_getElem] at h0
  exact ⟨by omega, domBits_fits _ _ (by omega) (dval_le v ⟨i, h1⟩ h0)⟩

theorem declValues_length {ds : Decls} (v : DVal ds) : (declValues ds v).length = ds.length := by
  simp [declValues]

variable {evars svars : Decls}

/-- The vector of an encoded state decodes to the values of the state. -/
theorem decode_vector (hF : Fresh evars svars) (s : IState evars svars) :
    decList (evars ++ svars) (bitVector (encState s)) = stateValues s := by
  have h1 := bits_eq hF.nevars hF.xevars s.1
  have h2 := bits_eq hF.nsvars hF.xsvars s.2
  have h : bitVector (encState s) = encList evars (declValues evars s.1) ++ encList svars (declValues svars s.2) := by
    unfold bitVector
    rw [← h1, ← h2]; rfl
  rw [h, decList_append]
  have hl : (encList evars (declValues evars s.1)).length = totalWidth evars :=
    encList_length _ _ (declValues_length _)
  rw [← hl, List.drop_left, dec_enc _ _ (declValues_range _)]
  unfold stateValues
  congr 1
  have key : ∀ (ds : Decls) (a b : List ℤ), a.length = totalWidth ds → decList ds (a ++ b) = decList ds a := by
    intro ds
    induction ds with
    | nil => intro a b _; rfl
    | cons d ds ih =>
      intro a b h
      rw [totalWidth_cons] at h
      simp only [decList]
      have hp := declWidth_pos d
      rw [List.take_append_of_le_length (by omega), List.drop_append_of_le_length (by omega),
        ih _ _ (by simp; omega)]
      congr 2
      cases a with
      | nil => simp at h; omega
      | cons x a => rfl
  rw [key _ _ _ hl, dec_enc _ _ (declValues_range _)]

theorem vector_ok (s : XState evars svars) :
    (bitVector s).length = totalWidth (evars ++ svars) ∧ Is01 (bitVector s) := by
  constructor
  · unfold bitVector
    rw [totalWidth_append, ← expDecls_length, ← expDecls_length]
    simp
  · intro b hb
    unfold bitVector at hb
    rcases List.mem_append.1 hb with hb | hb
    all_goals
      obtain ⟨i, rfl⟩ := List.mem_ofFn.1 hb
      split <;> simp

theorem varListOf_tree (ds : Decls) : varListOf ds.tree = ds := by
  unfold Decls.tree
  induction ds with
  | nil => rfl
  | cons d ds ih => simp only [List.map_cons, ofItems, varListOf, ih, Option.getD_some]

end vectors

/-! ## Synthesis on bits -/

section bits

variable {E S : Type} [Fintype E] [DecidableEq E] [Fintype S] [DecidableEq S] {G : Game E S}
  {egs sgs : List (Finset (E × S))} {flag : InitFlag} {ei si : Option (Finset (E × S))}

theorem bit_strategy {W : Finset (E × S)} {o : Oracle E S} (ho : o.Valid G) (hok : InitOk flag ei si)
    (hr : checkRealizable G egs sgs flag ei si = some (some W)) {fuel : ℕ}
    {st : Aut (Fin sgs.length) (E × S)} (h : synthesize G egs sgs flag ei si o fuel = .ok st) :
    StrategyFor G egs sgs flag ei si st := by
  obtain ⟨h1, -, h3⟩ := synthesize_answers ho hr h
  obtain ⟨i1, i2⟩ := synthesize_initial_states ho hok hr h
  exact ⟨h1, fun x hx => (h3 x hx).2.2.1, fun x hx => (h3 x hx).2.2.2.1, fun x hx => (h3 x hx).2.2.2.2,
    fun ρ hρ henv => synthesize_live ho hr h ρ hρ henv, i1, i2⟩

/-- Other modes. -/
def withModes {M M' V : Type} (f : M → M') (a : Aut M V) : Aut M' V :=
  a.map fun x => ⟨x.id, x.state, f x.mode, x.rgrad, x.initial, x.trans⟩

theorem strategy_modes {M M' : Type} (f : M → M') {st : Aut M (E × S)}
    (h : StrategyFor G egs sgs flag ei si st) : StrategyFor G egs sgs flag ei si (withModes f st) := by
  have hback : ∀ y ∈ withModes f st, ∃ x ∈ st,
      (⟨x.id, x.state, f x.mode, x.rgrad, x.initial, x.trans⟩ : ANode M' (E × S)) = y :=
    fun y hy => List.mem_map.1 hy
  have hmem : ∀ x ∈ st, (⟨x.id, x.state, f x.mode, x.rgrad, x.initial, x.trans⟩ : ANode M' (E × S)) ∈ withModes f st :=
    fun x hx => List.mem_map.2 ⟨x, hx, rfl⟩
  have hst : (fun s => ∃ x ∈ withModes f st, x.state = s) = fun s => ∃ x ∈ st, x.state = s := by
    funext s
    simp [withModes]
  refine ⟨?_, ?_, ?_, ?_, ?_, ?_, ?_⟩
  · have := h.ids
    simpa [withModes, List.map_map, Function.comp_def] using this
  · intro y hy j hj
    obtain ⟨x, hx, rfl⟩ := hback y hy
    obtain ⟨z, hz, h1⟩ := h.edges x hx j hj
    exact ⟨_, hmem z hz, h1⟩
  · intro y hy z hz hyz
    obtain ⟨x, hx, rfl⟩ := hback y hy
    obtain ⟨x', hx', rfl⟩ := hback z hz
    exact h.legal x hx x' hx' hyz
  · intro y hy e he
    obtain ⟨x, hx, rfl⟩ := hback y hy
    obtain ⟨z, ⟨z1, z2, z3⟩, z4⟩ := h.answers x hx e he
    refine ⟨_, ⟨hmem z z1, z2, z3⟩, ?_⟩
    rintro w ⟨w1, w2, w3⟩
    obtain ⟨x', hx', rfl⟩ := hback w w1
    rw [z4 x' ⟨hx', w2, w3⟩]
  · intro ρ hρ henv B hB
    choose g hg1 hg2 using fun k => hback (ρ k) (hρ k).1
    have hs : ∀ k, (ρ k).state = (g k).state := fun k => by rw [← hg2 k]
    have hi : ∀ k, (ρ k).id = (g k).id := fun k => by rw [← hg2 k]
    have ht : ∀ k, (ρ k).trans = (g k).trans := fun k => by rw [← hg2 k]
    simp only [hs] at henv ⊢
    exact h.live g (fun k => ⟨hg1 k, by rw [← hi, ← ht]; exact (hρ k).2⟩) henv B hB
  · intro y hy hi
    obtain ⟨x, hx, rfl⟩ := hback y hy
    exact h.allowed x hx hi
  · rw [hst]; exact h.required

/-- With an initial state the automaton is not empty. -/
theorem StrategyFor.nonempty {M : Type} {st : Aut M (E × S)} (h : StrategyFor G egs sgs flag ei si st)
    (hi : HasInit flag ei si) (hf : flag ≠ .undefined) : st ≠ [] := by
  rintro rfl
  have := h.required
  unfold InitRequired at this
  unfold HasInit at hi
  cases flag with
  | undefined => exact hf rfl
  | allInit =>
    obtain ⟨s, h1, h2⟩ := hi
    obtain ⟨x, hx, -⟩ := this s h1 h2
    cases hx
  | allEnvExistSys =>
    obtain ⟨s, h1, -⟩ := hi
    obtain ⟨_, _, x, hx, -⟩ := this s.1 ⟨s.2, h1⟩
    cases hx
  | oneSide =>
    cases si with
    | none =>
      obtain ⟨s, h1⟩ := hi rfl
      obtain ⟨x, hx, -⟩ := this s h1
      cases hx
    | some A =>
      obtain ⟨_, _, x, hx, -⟩ := this
      cases hx

theorem CodeRealizable.winnable (h : CodeRealizable G egs sgs flag ei si) (hi : HasInit flag ei si) :
    ∃ s, Winnable G egs sgs s := by
  unfold CodeRealizable at h
  unfold HasInit at hi
  cases flag with
  | undefined => exact h.elim
  | allInit =>
    obtain ⟨s, h1, h2⟩ := hi
    exact ⟨s, h.2 s h1 h2⟩
  | allEnvExistSys =>
    obtain ⟨s, h1, h2⟩ := hi
    obtain ⟨x, -, -, h3⟩ := h s.1 ⟨s.2, h1, h2⟩
    exact ⟨_, h3⟩
  | oneSide =>
    cases si with
    | none =>
      obtain ⟨s, h1⟩ := hi rfl
      exact ⟨s, h s h1⟩
    | some A =>
      obtain ⟨s, -, h1⟩ := h
      exact ⟨s, h1⟩

end bits

/-! ## From the BDDs to the output -/

section written

variable {evars svars : Decls}

/-- A bound on the iterations of the main loop of `synthesize`. -/
def synthBound (evars svars : Decls) (sp : FSpec) : ℕ :=
  (sysGoals sp).length * (2 ^ totalWidth evars * 2 ^ totalWidth svars) * (2 ^ totalWidth evars + 1) +
    2 ^ totalWidth evars * 2 ^ totalWidth svars

/-- Where the result goes can be written. -/
def World.canOutput (w : World) (c : Cfg) : Prop := ∀ f, c.output = some f → w.canWrite f = true

/-- The choices of the BDD library and the allocator are sensible. Without environment variables
`synthesize` does not look at the environment's transition formula (`/repo/src/solve.c` 550-552), so
nothing can be asked in case that formula forbids something. -/
def World.Sensible (w : World) : Prop :=
  ∀ ne ns (G : Game (Val ne) (Val ns)), (0 < ne ∨ ∀ s e, G.etr s e = true) → (w.oracle ne ns G).Valid G

theorem card_val (n : ℕ) : Fintype.card (Val n) = 2 ^ n := by simp [Val]

theorem oracle_ok {w : World} {flag : InitFlag} {sp : FSpec} {goals : List Fm}
    {B : BitSpec (expDecls evars).length (expDecls svars).length} (hB : RepresentsWith evars svars flag sp goals B)
    (hw : w.Sensible) (henv : evars ≠ [] ∨ ∀ f ∈ sp.etrans, f = .const 1) :
    (w.oracle _ _ B.game).Valid B.game := by
  apply hw
  by_cases hev : evars = []
  · subst hev
    rcases henv with h | h
    · exact absurd rfl h
    · exact Or.inr (hB.free rfl h)
  · left
    obtain ⟨d, ds, hd⟩ := List.exists_cons_of_ne_nil hev
    have : 0 < totalWidth evars := by
      rw [hd, totalWidth_cons]; have := declWidth_pos d; omega
    rwa [expDecls_length]

theorem synth_written {w : World} {c : Cfg} {sp : FSpec} (hF : Fresh evars svars)
    (hp : PfxFree (evars ++ svars)) (hI : IntDecls (evars ++ svars))
    {B : BitSpec (expDecls evars).length (expDecls svars).length} (hB : Represents evars svars c.init sp B)
    (h0 : B.sgs ≠ []) (hr : SpecRealizable evars svars c.init sp) (hi : SpecHasInit evars svars c.init sp)
    (hw : w.Sensible) (henv : evars ≠ [] ∨ ∀ f ∈ sp.etrans, f = .const 1)
    (hfuel : synthBound evars svars sp ≤ w.fuel) (hout : w.canOutput c) :
    ∃ st : Aut ℤ (IState evars svars), SpecStrategy evars svars c.init sp st ∧ (∃ x ∈ st, x.initial = true) ∧
      (∃ W st1, checkRealizable B.game B.egs B.sgs c.init B.ei B.si = some (some W) ∧
        synthesize B.game B.egs B.sgs c.init B.ei B.si (w.oracle _ _ B.game) w.fuel = .ok st1 ∧
        withModes (fun i => ((i.val : ℕ) : ℤ)) st1 = withStates (Prod.map (encVal evars) (encVal svars)) st) ∧
      synthAndWrite w c (expDecls evars).tree (expDecls svars).tree
        (Decls.tree ((evars ++ svars).filter fun d => 0 ≤ d.2)) B =
        .exit 0 (some ⟨c.output, c.format, evars, svars, withStates stateValues st⟩) := by
  have hnone : sp.sinit.map (fmStates (evars := evars) (svars := svars)) = none ↔ sp.sinit = none := by
    cases sp.sinit <;> simp
  have hflag : c.init ≠ .undefined := by
    intro h
    unfold SpecRealizable at hr
    rw [h] at hr
    exact hr
  -- the oracle
  have ho := oracle_ok hB hw henv
  -- the verdict
  obtain ⟨r, c1, c2, -⟩ := hB.verdict h0
  have hrn : r ≠ none := c2.2 hr
  obtain ⟨W, rfl⟩ := Option.ne_none_iff_exists'.1 hrn
  unfold BitSpec.check at c1
  -- initial conditions on bits
  have hbi : HasInit c.init B.ei B.si := by
    unfold SpecHasInit HasInit at hi
    unfold HasInit
    cases hc : c.init with
    | undefined => exact absurd hc hflag
    | allInit =>
      simp only [hc] at hi ⊢
      obtain ⟨s, h1, h2⟩ := hi
      exact ⟨encState s, (hB.ei s).2 h1, (hB.si s).2 h2⟩
    | allEnvExistSys =>
      simp only [hc] at hi ⊢
      obtain ⟨s, h1, h2⟩ := hi
      exact ⟨encState s, (hB.ei s).2 h1, (hB.si s).2 h2⟩
    | oneSide =>
      simp only [hc] at hi ⊢
      intro hn
      obtain ⟨s, h1⟩ := hi (hnone.2 ((hB.siNone hc).1 hn))
      exact ⟨encState s, (hB.ei s).2 h1⟩
  have hok : InitOk c.init B.ei B.si := by
    unfold HasInit at hbi
    unfold InitOk
    cases hc : c.init with
    | undefined => trivial
    | allInit => simpa only [hc] using hbi
    | allEnvExistSys =>
      simp only [hc] at hbi ⊢
      obtain ⟨s, -, h2⟩ := hbi
      exact ⟨hB.eiEnv hc, hB.siSys hc, s, h2⟩
    | oneSide => trivial
  have hcode : CodeRealizable B.game B.egs B.sgs c.init B.ei B.si :=
    ((check_realizable_char _ _ _ _ _ _ _ c1).1).1 (by simp)
  have hlen : B.sgs.length = (sysGoals sp).length := by
    have := hB.sgs.length_eq
    simpa using this.symm
  obtain ⟨st, hst⟩ := synthesize_succeeds ho hok c1 (hcode.winnable hbi) (fuel := w.fuel) (by
    rw [card_val, card_val, hlen, expDecls_length, expDecls_length]
    exact hfuel)
  have hstr := bit_strategy ho hok c1 hst
  -- states are encodings
  have himg : ∀ x ∈ st, ∃ s : IState evars svars, Prod.map (encVal evars) (encVal svars) s = x.state := by
    apply synthesize_states ho hok (P := fun s' => ∃ s : IState evars svars, Prod.map (encVal evars) (encVal svars) s = s')
      ?_ ?_ hst
    · rintro _ e x ⟨s, rfl⟩ h1 h2
      obtain ⟨e0, rfl, -⟩ := (hB.emb.etr _ _).1 h1
      obtain ⟨x0, rfl, -⟩ := (hB.emb.str _ _ _).1 h2
      exact ⟨(e0, x0), rfl⟩
    · intro s hs
      unfold InitAllowed at hs
      cases hc : c.init with
      | undefined => exact absurd hc hflag
      | allInit =>
        simp only [hc] at hs
        exact hB.both (by simp [hc]) s hs.1 hs.2
      | allEnvExistSys =>
        simp only [hc] at hs
        exact hB.both (by simp [hc]) s hs.1 hs.2
      | oneSide =>
        simp only [hc] at hs
        cases hsi : B.si with
        | none =>
          simp only [hsi] at hs
          exact hB.envSide hc ((hB.siNone hc).1 hsi) s hs
        | some A =>
          simp only [hsi] at hs
          refine hB.sysSide hc (fun h => ?_) s ?_
          · have := (hB.siNone hc).2 h
            rw [hsi] at this; cases this
          · rw [hsi]; exact hs
  obtain ⟨st0, rfl⟩ := pullback_aut _ st himg
  have hint : SpecStrategy evars svars c.init sp (withModes (fun i => ((i.val : ℕ) : ℤ)) st0) :=
    strategy_modes _ (strategy_pullback hB.emb hB.egs hB.sgs hB.ei hB.si
      (fun h => (hB.siNone h).trans hnone.symm) hstr)
  have hne : withStates (Prod.map (encVal evars) (encVal svars)) st0 ≠ [] := by
    have := hint.nonempty hi hflag
    intro h
    apply this
    unfold withStates at h
    rw [List.map_eq_nil_iff.1 h]; rfl
  refine ⟨_, hint, ?_, ?_⟩
  · obtain ⟨x, hx, hxi⟩ := synthesize_some_initial ho c1 hst hne
    obtain ⟨y, hy, rfl⟩ := List.mem_map.1 hx
    exact ⟨_, List.mem_map_of_mem hy, hxi⟩
  refine ⟨⟨W, _, c1, hst, ?_⟩, ?_⟩
  · unfold withModes withStates
    rw [List.map_map, List.map_map]
    rfl
  unfold synthAndWrite
  rw [hst]
  simp only [if_neg hne, varListOf_tree]
  have hcomp := compact_states (evars := evars) (svars := svars) hp hI
    (bitAut (withStates (Prod.map (encVal evars) (encVal svars)) st0)) (by
      intro x hx
      obtain ⟨y, -, rfl⟩ := List.mem_map.1 hx
      exact vector_ok _)
  unfold intVars at hcomp
  rw [hcomp]
  simp only
  rw [if_pos (by
    split
    · rename_i f hf; exact hout f hf
    · rfl)]
  congr 3
  unfold withStates withModes bitAut
  simp only [List.map_map]
  apply List.map_congr_left
  intro x _
  simp only [Function.comp]
  congr 1
  exact decode_vector hF x.state

end written

end Gr1c
