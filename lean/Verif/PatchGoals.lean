import Verif.EmbedSeeks
import Verif.RmGoalProps
import Verif.PatchMainSpec

/-!
# Removal and insertion of a goal, over the declared values

The strategy over the declared values is loaded with other addresses and encoded states; what is proved about the functions on bits
holds for the automaton over the declared values that the result encodes.
-/

namespace Gr1c

set_option linter.unusedSectionVars false

variable {E S E' S' : Type} [Fintype E] [DecidableEq E] [Fintype S] [DecidableEq S]
  [Fintype E'] [DecidableEq E'] [Fintype S'] [DecidableEq S']
  {G : Game E S} {H : Game E' S'} {ιe : E → E'} {ιs : S → S'}

theorem Moved.init {st st' : Aut ℤ (E × S)} (h : Moved st st') {x x' : ANode ℤ (E × S)} (a : AtSame st st' x x') :
    x'.initial = x.initial := by
  obtain ⟨k, h1, h2⟩ := a
  exact (h.fields k _ _ h1 h2).2

theorem Moved.noSkip {st st' : Aut ℤ (E × S)} (h : Moved st st') {d d1 : ℤ} (hn : NoSkip d d1 st) : NoSkip d d1 st' := by
  intro x' hx' h1 h2 y' hy' he
  obtain ⟨x, hx, a⟩ := h.back hx'
  obtain ⟨y, hy, b⟩ := h.back hy'
  rw [h.mode a] at h1 h2
  rw [h.mode b]
  exact hn x hx h1 h2 y hy ((h.step a b).1 he)

theorem noSkip_map {f : E × S → E' × S'} {st : Aut ℤ (E × S)} {d d1 : ℤ} (hn : NoSkip d d1 st) : NoSkip d d1 (withStates f st) := by
  intro x' hx' h1 h2 y' hy' he
  obtain ⟨x, hx, rfl⟩ := mem_withStates.1 hx'
  obtain ⟨y, hy, rfl⟩ := mem_withStates.1 hy'
  exact hn x hx h1 h2 y hy he

/-- Nodes of the loaded automaton, seen from the original one. -/
theorem Moved.origin {f : E × S → E' × S'} {st : Aut ℤ (E × S)} {st' : Aut ℤ (E' × S')} (h : Moved (withStates f st) st')
    {x' : ANode ℤ (E' × S')} (hx : x' ∈ st') :
    ∃ x ∈ st, x'.state = f x.state ∧ x'.mode = x.mode ∧ x'.initial = x.initial := by
  obtain ⟨y, hy, a⟩ := h.back hx
  obtain ⟨x, hx, rfl⟩ := mem_withStates.1 hy
  exact ⟨x, hx, h.state a, h.mode a, h.init a⟩

theorem Moved.image {f : E × S → E' × S'} {st : Aut ℤ (E × S)} {st' : Aut ℤ (E' × S')} (h : Moved (withStates f st) st')
    {x : ANode ℤ (E × S)} (hx : x ∈ st) :
    ∃ x' ∈ st', x'.state = f x.state ∧ x'.mode = x.mode ∧ x'.initial = x.initial := by
  obtain ⟨x', hx', a⟩ := h.forth (mem_withStates.2 ⟨x, hx, rfl⟩)
  exact ⟨x', hx', h.state a, h.mode a, h.init a⟩

theorem removed_pull (h : Embeds G H ιe ιs) {egs sgs : List (Finset (E × S))} {egs' sgs' : List (Finset (E' × S'))}
    (he : List.Forall₂ (GoalRel ιe ιs) egs egs') (hs : List.Forall₂ (GoalRel ιe ιs) sgs sgs') {st : Aut ℤ (E × S)}
    (hS : SeeksInOrder G egs.get sgs.get st) {st' : Aut ℤ (E' × S')} (hm : Moved (withStates (Prod.map ιe ιs) st) st')
    {o : Oracle E' S'} (ho : o.Valid H) (hf : ∀ c l, o.alloc c l ∉ st'.map (·.id)) {d : ℕ} (hd : d < sgs.length) {fuel : ℕ}
    {R' : Aut ℤ (E' × S')} (hr : rmSysgoal H egs'.get sgs'.length (d : ℤ) o fuel st' = .ok R') :
    ∃ R, R' = withStates (Prod.map ιe ιs) R ∧ GoalRemoved G egs sgs d st R := by
  have hS' : SeeksInOrder H egs'.get sgs'.get st' := hm.seeks (seeks_lists h he hs hS)
  have hfresh : ∀ c l, ∀ x ∈ st', o.alloc c l ≠ x.id := fun c l x hx e => hf c l (e ▸ List.mem_map.2 ⟨x, hx, rfl⟩)
  have hlen : sgs'.length = sgs.length := hs.length_eq.symm
  have hd' : d < sgs'.length := hlen ▸ hd
  have himg := rm_states (n := sgs'.length) (P := fun s' => ∃ s, Prod.map ιe ιs s = s') (fun s e x hs h1 h2 => h.closed hs h1 h2)
    hS'.ids (fun x hx e => by
      obtain ⟨i, hi⟩ := hS'.modes x hx
      omega) ho hfresh hr (by
      intro x' hx'
      obtain ⟨x, -, e, -⟩ := hm.origin hx'
      exact ⟨x.state, e.symm⟩)
  obtain ⟨R, rfl⟩ := pullback_aut _ R' himg
  obtain ⟨r1, r2, r3⟩ := rm_sysgoal_runs hS' ho hfresh ⟨d, hd'⟩ hr
  have hids : (R.map (·.id)).Nodup := by rw [← withStates_ids (Prod.map ιe ιs)]; exact r1
  have hinj : Function.Injective (Prod.map ιe ιs) := h.inje.prodMap h.injs
  refine ⟨R, rfl, hids, (legal_iff h).1 r2, ?_, ?_, ?_⟩
  · intro ρ hρ hE i A hA hi
    obtain ⟨hlt, rfl⟩ := List.getElem?_eq_some_iff.1 hA
    refine (infOften_map (forall₂_get hs ⟨i, hlen ▸ hlt⟩) ρ).1 (r3 _ (isRun_push hρ) (fun r => ?_) ⟨i, hlen ▸ hlt⟩ ?_)
    · exact (infOften_map (forall₂_get he r) ρ).2 (hE _ (List.get_mem _ _))
    · intro e; exact hi (congrArg Fin.val e)
  · intro hA hN
    have := rm_sysgoal_answers hS' ho hfresh ⟨d, hd'⟩ hr (hm.answersAll ((answersAll_iff h hS.ids).2 hA)) (by
      have e : (sgs'.length : ℤ) = sgs.length := by exact_mod_cast hlen
      simp only [e]; exact hm.noSkip (noSkip_map hN))
    exact (answersAll_iff h hids).1 this
  · intro hI s i
    have := rm_sysgoal_initial hS' ho hfresh ⟨d, hd'⟩ hr (by
      intro x' hx' hi
      obtain ⟨x, hx, -, e2, e3⟩ := hm.origin hx'
      have e : (sgs'.length : ℤ) = sgs.length := by exact_mod_cast hlen
      simp only [e2, e]
      exact hI x hx (e3 ▸ hi)) (Prod.map ιe ιs s) i
    constructor
    · rintro ⟨y, hy, y1, y2, y3⟩
      obtain ⟨x', hx', x1, x2, x3⟩ := this.1 ⟨_, mem_withStates.2 ⟨y, hy, rfl⟩, y1, congrArg (Prod.map ιe ιs) y2, y3⟩
      obtain ⟨x, hx, e1, e2, e3⟩ := hm.origin hx'
      exact ⟨x, hx, e3 ▸ x1, hinj (e1.symm.trans x2), e2 ▸ x3⟩
    · rintro ⟨x, hx, x1, x2, x3⟩
      obtain ⟨x', hx', e1, e2, e3⟩ := hm.image hx
      obtain ⟨y', hy', y1, y2, y3⟩ := this.2 ⟨x', hx', e3.trans x1, by rw [e1, x2], e2.trans x3⟩
      obtain ⟨y, hy, rfl⟩ := mem_withStates.1 hy'
      exact ⟨y, hy, y1, hinj y2, y3⟩

theorem insertGoal_old {n : ℕ} (sg : Fin n → Finset (E × S)) (i : Fin n) (new : Finset (E × S)) (j : Fin n) :
    ∃ l, insertGoal sg i new l = sg j := by
  have hj := j.isLt
  by_cases hji : j.val ≤ i.val
  · refine ⟨⟨j.val, by omega⟩, ?_⟩
    unfold insertGoal
    rw [dif_pos hji]
  · refine ⟨⟨j.val + 1, by omega⟩, ?_⟩
    unfold insertGoal
    rw [dif_neg (by simp only; omega), dif_neg (by simp only; omega)]
    rfl

theorem insertGoal_new {n : ℕ} (sg : Fin n → Finset (E × S)) (i : Fin n) (new : Finset (E × S)) :
    ∃ l, insertGoal sg i new l = new := by
  have hi := i.isLt
  refine ⟨⟨i.val + 1, by omega⟩, ?_⟩
  unfold insertGoal
  rw [dif_neg (by simp only; omega), dif_pos rfl]

theorem nextIx_castP {n n' : ℕ} (hn : n = n') (i : Fin n) : Fin.cast hn (nextIx i) = nextIx (Fin.cast hn i) := by
  subst hn; rfl

theorem added_pull (h : Embeds G H ιe ιs) {egs sgs : List (Finset (E × S))} {egs' sgs' : List (Finset (E' × S'))}
    (he : List.Forall₂ (GoalRel ιe ιs) egs egs') (hs : List.Forall₂ (GoalRel ιe ιs) sgs sgs') {new : Finset (E × S)}
    {new' : Finset (E' × S')} (hnew : GoalRel ιe ιs new new') {st : Aut ℤ (E × S)}
    (hS : SeeksInOrder G egs.get sgs.get st) {st' : Aut ℤ (E' × S')} (hm : Moved (withStates (Prod.map ιe ιs) st) st')
    {o1 o2 : Oracle E' S'} (ho1 : o1.Valid H) (ho2 : o2.Valid H) (hf1 : ∀ c l, o1.alloc c l ∉ st'.map (·.id))
    (hf2 : ∀ c l, o2.alloc c l ∉ st'.map (·.id)) (hf12 : ∀ c l c' l', o1.alloc c l ≠ o2.alloc c' l') (i0 : Fin sgs.length) {fuel : ℕ}
    {R' : Aut ℤ (E' × S')} (hr : addSysgoal H egs'.get sgs'.length new' (i0.val : ℤ) o1 o2 fuel st' = .ok R') :
    ∃ R, R' = withStates (Prod.map ιe ιs) R ∧ GoalAdded G egs sgs i0 new st R := by
  have hS' : SeeksInOrder H egs'.get sgs'.get st' := hm.seeks (seeks_lists h he hs hS)
  have hfr : ∀ {o : Oracle E' S'}, (∀ c l, o.alloc c l ∉ st'.map (·.id)) → ∀ c l, ∀ x ∈ st', o.alloc c l ≠ x.id :=
    fun hf c l x hx e => hf c l (e ▸ List.mem_map.2 ⟨x, hx, rfl⟩)
  have g1 := hfr hf1
  have g2 := hfr hf2
  have hlen : sgs'.length = sgs.length := hs.length_eq.symm
  have hlen' := hs.length_eq
  have hr' : addSysgoal H egs'.get sgs'.length new' ((Fin.cast hlen' i0).val : ℤ) o1 o2 fuel st' = .ok R' := hr
  have himg := add_states (n := sgs'.length) (P := fun s' => ∃ s, Prod.map ιe ιs s = s') (fun s e x hs h1 h2 => h.closed hs h1 h2)
    hS'.ids hS'.closed ho1 ho2 g1 g2 hf12 hr (by
      intro x' hx'
      obtain ⟨x, -, e, -⟩ := hm.origin hx'
      exact ⟨x.state, e.symm⟩)
  obtain ⟨R, rfl⟩ := pullback_aut _ R' himg
  obtain ⟨r1, r2, r3, r4⟩ := add_sysgoal_safe hS'.ids hS'.closed hS'.modes hS'.legal ho1 ho2 g1 g2 hf12 _ hr'
  have hids : (R.map (·.id)).Nodup := by rw [← withStates_ids (Prod.map ιe ιs)]; exact r1
  have hinj : Function.Injective (Prod.map ιe ιs) := h.inje.prodMap h.injs
  have hget : ∀ i : Fin sgs.length, GoalRel ιe ιs (sgs.get i) (sgs'.get (Fin.cast hlen' i)) := fun i => forall₂_get hs (Fin.cast hlen' i)
  obtain ⟨q1, q2⟩ := add_sysgoal_initial hS' ho1 ho2 g1 g2 hf12 _ hr'
  refine ⟨R, rfl, hids, withStates_closed.1 r2, ?_, (legal_iff h).1 r4, ?_, ?_, ?_, ?_⟩
  · intro x hx
    obtain ⟨i, hi⟩ := r3 _ (mem_withStates.2 ⟨x, hx, rfl⟩)
    have hi' : x.mode = (i.val : ℤ) := hi
    have := i.isLt
    omega
  · intro hw ha ρ hρ hE
    have hL := add_sysgoal_runs hS' (by
      intro x' hx' i hi
      obtain ⟨x, hx, e1, e2, -⟩ := hm.origin hx'
      rw [e1]
      intro hc
      exact hw x hx (Fin.cast hlen i) (by rw [← e2]; exact hi) ((forall₂_get hs i x.state).1 hc)) ho1 ho2 g1 g2 hf12 _ (by
      intro x' hx' h1 h2
      obtain ⟨x, hx, e1, -, -⟩ := hm.origin hx'
      rw [e1] at h1 h2
      rw [← nextIx_castP] at h2
      exact ha x hx ((hget _ _).1 h1) ((hget _ _).1 h2)) hr' _ (isRun_push hρ) (fun r =>
      (infOften_map (forall₂_get he r) ρ).2 (hE _ (List.get_mem _ _)))
    constructor
    · intro A hA
      obtain ⟨i, rfl⟩ := List.get_of_mem hA
      obtain ⟨l, hl⟩ := insertGoal_old sgs'.get (Fin.cast hlen' i0) new' (Fin.cast hlen' i)
      have := hL l
      rw [hl] at this
      exact (infOften_map (hget i) ρ).1 this
    · obtain ⟨l, hl⟩ := insertGoal_new sgs'.get (Fin.cast hlen' i0) new'
      have := hL l
      rw [hl] at this
      exact (infOften_map hnew ρ).1 this
  · intro hA ha
    have := add_sysgoal_answers hS' ho1 ho2 g1 g2 hf12 _ (by
      intro x' hx' h1 h2
      obtain ⟨x, hx, e1, -, -⟩ := hm.origin hx'
      rw [e1] at h1 h2
      rw [← nextIx_castP] at h1
      exact ha x hx ((hget _ _).1 h1) ((hnew _).1 h2)) (hm.answersAll ((answersAll_iff h hS.ids).2 hA)) hr'
    exact (answersAll_iff h hids).1 this
  · intro y hy hi
    obtain ⟨x', hx', x1, x2, -⟩ := q1 _ (mem_withStates.2 ⟨y, hy, rfl⟩) hi
    obtain ⟨x, hx, e1, e2, e3⟩ := hm.origin hx'
    exact ⟨x, hx, e3 ▸ x1, hinj (e1.symm.trans x2)⟩
  · intro x hx hi hn
    obtain ⟨x', hx', e1, e2, e3⟩ := hm.image hx
    obtain ⟨y', hy', y1, y2, -⟩ := q2 x' hx' (e3.trans hi) (by
      rw [e1, ← nextIx_castP]
      intro hc
      exact hn ((hget _ _).1 hc))
    obtain ⟨y, hy, rfl⟩ := mem_withStates.1 hy'
    exact ⟨y, hy, y1, hinj (y2.trans e1)⟩

end Gr1c
