import Verif.RgLemmas
import Verif.AddGoalProps
import Verif.PatchMoved

/-!
# Strategies that seek goals in order, along an embedding of games

A strategy over the declared values is loaded as a strategy over bits, changed there, and written as a strategy over the declared
values.
-/

namespace Gr1c

set_option linter.unusedSectionVars false

variable {E S E' S' : Type} [Fintype E] [DecidableEq E] [Fintype S] [DecidableEq S]
  [Fintype E'] [DecidableEq E'] [Fintype S'] [DecidableEq S']
  {G : Game E S} {H : Game E' S'} {ιe : E → E'} {ιs : S → S'}

/-! ## Nodes -/

/-- The node with the state mapped. -/
def ANode.mapState {M V V' : Type} (f : V → V') (x : ANode M V) : ANode M V' := ⟨x.id, f x.state, x.mode, x.rgrad, x.initial, x.trans⟩

theorem mem_withStates {M V V' : Type} {f : V → V'} {st : Aut M V} {y : ANode M V'} :
    y ∈ withStates f st ↔ ∃ x ∈ st, x.mapState f = y := List.mem_map

theorem withStates_ids {M V V' : Type} (f : V → V') (st : Aut M V) : (withStates f st).map (·.id) = st.map (·.id) := by
  unfold withStates; rw [List.map_map]; rfl

theorem withStates_closed {M V V' : Type} {f : V → V'} {st : Aut M V} :
    (∀ x ∈ withStates f st, ∀ j ∈ x.trans, ∃ y ∈ withStates f st, y.id = j) ↔ ∀ x ∈ st, ∀ j ∈ x.trans, ∃ y ∈ st, y.id = j := by
  constructor
  · intro h x hx j hj
    obtain ⟨y, hy, e⟩ := h _ (mem_withStates.2 ⟨x, hx, rfl⟩) j hj
    obtain ⟨z, hz, rfl⟩ := mem_withStates.1 hy
    exact ⟨z, hz, e⟩
  · intro h x hx j hj
    obtain ⟨z, hz, rfl⟩ := mem_withStates.1 hx
    obtain ⟨y, hy, e⟩ := h z hz j hj
    exact ⟨_, mem_withStates.2 ⟨y, hy, rfl⟩, e⟩

theorem isRun_push {M V V' : Type} {f : V → V'} {st : Aut M V} {ρ : ℕ → ANode M V} (h : IsRun st ρ) :
    IsRun (withStates f st) fun k => (ρ k).mapState f :=
  fun k => ⟨mem_withStates.2 ⟨_, (h k).1, rfl⟩, (h k).2⟩

theorem isRun_pull {M V V' : Type} {f : V → V'} {st : Aut M V} {ρ : ℕ → ANode M V'} (h : IsRun (withStates f st) ρ) :
    ∃ ρ', IsRun st ρ' ∧ ρ = fun k => (ρ' k).mapState f := by
  choose ρ' h1 h2 using fun k => mem_withStates.1 (h k).1
  refine ⟨ρ', fun k => ⟨h1 k, ?_⟩, funext fun k => (h2 k).symm⟩
  have := (h k).2
  rw [← h2 k, ← h2 (k + 1)] at this
  exact this

/-! ## Moves -/

theorem Embeds.etr_iff (h : Embeds G H ιe ιs) (s : E × S) (e : E) : H.etr (Prod.map ιe ιs s) (ιe e) = true ↔ G.etr s e = true := by
  rw [h.etr]
  constructor
  · rintro ⟨e', h1, h2⟩; rw [h.inje h1]; exact h2
  · exact fun h' => ⟨e, rfl, h'⟩

theorem Embeds.str_iff (h : Embeds G H ιe ιs) (s t : E × S) : H.str (Prod.map ιe ιs s) (Prod.map ιe ιs t) = true ↔ G.str s t = true := by
  change H.str _ (ιe t.1, ιs t.2) = true ↔ _
  rw [h.str]
  constructor
  · rintro ⟨x', h1, h2⟩; rw [← h.injs h1] at h2; exact h2
  · exact fun h' => ⟨t.2, rfl, h'⟩

theorem legal_iff (h : Embeds G H ιe ιs) {st : Aut ℤ (E × S)} : LegalEdges H (withStates (Prod.map ιe ιs) st) ↔ LegalEdges G st := by
  constructor
  · intro hl x hx y hy he
    have := hl _ (mem_withStates.2 ⟨x, hx, rfl⟩) _ (mem_withStates.2 ⟨y, hy, rfl⟩) he
    exact ⟨(h.etr_iff _ _).1 this.1, (h.str_iff _ _).1 this.2⟩
  · intro hl x hx y hy he
    obtain ⟨x, hx', rfl⟩ := mem_withStates.1 hx
    have hx := hx'
    obtain ⟨y, hy', rfl⟩ := mem_withStates.1 hy
    have hy := hy'
    have := hl x hx y hy he
    exact ⟨(h.etr_iff x.state y.state.1).2 this.1, (h.str_iff x.state y.state).2 this.2⟩

theorem answersAll_iff (h : Embeds G H ιe ιs) {st : Aut ℤ (E × S)} (hids : (st.map (·.id)).Nodup) :
    AnswersAll H (withStates (Prod.map ιe ιs) st) ↔ AnswersAll G st := by
  have hinj : ∀ x ∈ st, ∀ y ∈ st, x.mapState (Prod.map ιe ιs) = y.mapState (Prod.map ιe ιs) → x = y := by
    intro x hx y hy e
    exact eq_of_id_eq hids hx hy (congrArg (·.id) e)
  constructor
  · intro hl x hx e he
    obtain ⟨y, ⟨y1, y2, y3⟩, hu⟩ := hl _ (mem_withStates.2 ⟨x, hx, rfl⟩) (ιe e) ((h.etr_iff x.state e).2 he)
    obtain ⟨y, hy, rfl⟩ := mem_withStates.1 y1
    refine ⟨y, ⟨hy, y2, h.inje y3⟩, ?_⟩
    rintro z ⟨z1, z2, z3⟩
    refine hinj z z1 y hy (hu _ ⟨mem_withStates.2 ⟨z, z1, rfl⟩, z2, ?_⟩)
    change ιe z.state.1 = ιe e
    rw [z3]
  · intro hl x hx e' he
    obtain ⟨x, hx', rfl⟩ := mem_withStates.1 hx
    have hx := hx'
    obtain ⟨e, rfl, he0⟩ := (h.etr x.state e').1 he
    obtain ⟨y, ⟨y1, y2, y3⟩, hu⟩ := hl x hx e he0
    refine ⟨y.mapState _, ⟨mem_withStates.2 ⟨y, y1, rfl⟩, y2, congrArg ιe y3⟩, ?_⟩
    rintro z ⟨z1, z2, z3⟩
    obtain ⟨z, hz, rfl⟩ := mem_withStates.1 z1
    rw [hu z ⟨hz, z2, h.inje z3⟩]

/-! ## Goals -/

theorem infOften_map {Q : Finset (E × S)} {Q' : Finset (E' × S')} (h : GoalRel ιe ιs Q Q') (ρ : ℕ → ANode ℤ (E × S)) :
    InfOften (fun k => ((ρ k).mapState (Prod.map ιe ιs)).state) Q' ↔ InfOften (fun k => (ρ k).state) Q := by
  unfold InfOften
  refine forall_congr' fun k => exists_congr fun j => and_congr_right fun _ => h _

theorem passes_map {n : ℕ} {sg : Fin n → Finset (E × S)} {sg' : Fin n → Finset (E' × S')} (h : ∀ i, GoalRel ιe ιs (sg i) (sg' i))
    (i j : Fin n) (t : E × S) : Passes sg' i (Prod.map ιe ιs t) j ↔ Passes sg i t j := by
  unfold Passes
  refine exists_congr fun k => and_congr_right fun _ => forall₂_congr fun c _ => h _ t

theorem seeks_push (h : Embeds G H ιe ιs) {m n : ℕ} {eg : Fin m → Finset (E × S)} {eg' : Fin m → Finset (E' × S')}
    {sg : Fin n → Finset (E × S)} {sg' : Fin n → Finset (E' × S')} (he : ∀ r, GoalRel ιe ιs (eg r) (eg' r))
    (hs : ∀ i, GoalRel ιe ιs (sg i) (sg' i)) {st : Aut ℤ (E × S)} (hS : SeeksInOrder G eg sg st) :
    SeeksInOrder H eg' sg' (withStates (Prod.map ιe ιs) st) := by
  refine ⟨by rw [withStates_ids]; exact hS.ids, withStates_closed.2 hS.closed, ?_, (legal_iff h).2 hS.legal, ?_, ?_⟩
  · intro x hx
    obtain ⟨x, hx', rfl⟩ := mem_withStates.1 hx
    have hx := hx'
    exact hS.modes x hx
  · intro x hx y hy hxy
    obtain ⟨x, hx', rfl⟩ := mem_withStates.1 hx
    have hx := hx'
    obtain ⟨y, hy', rfl⟩ := mem_withStates.1 hy
    have hy := hy'
    obtain ⟨i, j, h1, h2, h3⟩ := hS.order x hx y hy hxy
    exact ⟨i, j, h1, h2, (passes_map hs i j y.state).2 h3⟩
  · intro ρ hρ
    obtain ⟨ρ', h1, rfl⟩ := isRun_pull hρ
    intro hE i
    exact (infOften_map (hs i) ρ').2 (hS.live ρ' h1 (fun r => (infOften_map (he r) ρ').1 (hE r)) i)

theorem seeks_cast {m m' n n' : ℕ} (hm : m = m') (hn : n = n') {eg : Fin m' → Finset (E × S)} {sg : Fin n' → Finset (E × S)}
    {st : Aut ℤ (E × S)} (hS : SeeksInOrder G eg sg st) : SeeksInOrder G (fun r => eg (Fin.cast hm r)) (fun i => sg (Fin.cast hn i)) st := by
  subst hm; subst hn; exact hS

theorem forall₂_get {A B : Type} {R : A → B → Prop} {l : List A} {l' : List B} (h : List.Forall₂ R l l') (i : Fin l'.length) :
    R (l.get (Fin.cast h.length_eq.symm i)) (l'.get i) := by
  have := List.forall₂_iff_get.1 h
  exact this.2 i.val _ i.isLt

theorem seeks_lists (h : Embeds G H ιe ιs) {egs sgs : List (Finset (E × S))} {egs' sgs' : List (Finset (E' × S'))}
    (he : List.Forall₂ (GoalRel ιe ιs) egs egs') (hs : List.Forall₂ (GoalRel ιe ιs) sgs sgs') {st : Aut ℤ (E × S)}
    (hS : SeeksInOrder G egs.get sgs.get st) : SeeksInOrder H egs'.get sgs'.get (withStates (Prod.map ιe ιs) st) :=
  seeks_push h (fun r => forall₂_get he r) (fun i => forall₂_get hs i) (seeks_cast he.length_eq.symm hs.length_eq.symm hS)

theorem default_rel {egs : List (Finset (E × S))} {egs' : List (Finset (E' × S'))} (he : List.Forall₂ (GoalRel ιe ιs) egs egs') :
    List.Forall₂ (GoalRel ιe ιs) (withDefaultGoal egs) (withDefaultGoal egs') := by
  unfold withDefaultGoal
  cases he with
  | nil => simp only [List.forall₂_cons, List.Forall₂.nil, and_true, if_true]; intro s; simp
  | cons h1 h2 => simpa using ⟨h1, h2⟩

/-! ## States stay in the image -/

/-- Moves from states in the image lead to states in the image. -/
theorem Embeds.closed (h : Embeds G H ιe ιs) {s' : E' × S'} {e' : E'} {x' : S'} (hs : ∃ s, Prod.map ιe ιs s = s')
    (h1 : H.etr s' e' = true) (h2 : H.str s' (e', x') = true) : ∃ s, Prod.map ιe ιs s = (e', x') := by
  obtain ⟨s, rfl⟩ := hs
  obtain ⟨e, rfl, -⟩ := (h.etr s e').1 h1
  obtain ⟨x, rfl, -⟩ := (h.str s e x').1 h2
  exact ⟨(e, x), rfl⟩

theorem rm_states {m n : ℕ} {eg : Fin m → Finset (E × S)} {P : E × S → Prop}
    (hP : ∀ s e x, P s → G.etr s e = true → G.str s (e, x) = true → P (e, x)) {st R : Aut ℤ (E × S)} {d : ℤ} {o : Oracle E S}
    (hids : (st.map (·.id)).Nodup) (hmode : ∀ x ∈ st, x.mode ≠ -1) (ho : o.Valid G) (hfresh : ∀ c l, ∀ x ∈ st, o.alloc c l ≠ x.id)
    {fuel : ℕ} (h : rmSysgoal G eg n d o fuel st = .ok R) (hst : ∀ x ∈ st, P x.state) : ∀ y ∈ R, P y.state := by
  obtain ⟨-, -, -, B, en, ex, ι, f, τ, D, hreach, hBne, hsh⟩ := rm_shape (n := n) hids hmode ho
    (fun c l hc => by obtain ⟨x, x1, x2⟩ := mem_ids.1 hc; exact hfresh c l x x1 x2.symm) h
  have hB := reachGame_in ho hP (by
    intro s hs
    obtain ⟨x, x1, -, rfl⟩ := (mem_ptrStates hids).1 hs
    exact hst x x1) hreach
  intro y hy
  rcases hsh.classes y hy with ⟨x, hx⟩ | ⟨z, hz⟩
  · rw [hx.state_eq]; exact hst x hx.mem
  · rw [hz.state_eq]; exact (hB z hz.mem).1

theorem add_states {m n : ℕ} {eg : Fin m → Finset (E × S)} {P : E × S → Prop}
    (hP : ∀ s e x, P s → G.etr s e = true → G.str s (e, x) = true → P (e, x)) {new : Finset (E × S)} {i0 : ℤ} {o1 o2 : Oracle E S}
    {st R : Aut ℤ (E × S)} (hids : (st.map (·.id)).Nodup) (hcl : ∀ x ∈ st, ∀ j ∈ x.trans, ∃ y ∈ st, y.id = j)
    (ho1 : o1.Valid G) (ho2 : o2.Valid G) (hf1 : ∀ c l, ∀ x ∈ st, o1.alloc c l ≠ x.id) (hf2 : ∀ c l, ∀ x ∈ st, o2.alloc c l ≠ x.id)
    (hf12 : ∀ c l c' l', o1.alloc c l ≠ o2.alloc c' l') {fuel : ℕ} (h : addSysgoal G eg n new i0 o1 o2 fuel st = .ok R)
    (hst : ∀ x ∈ st, P x.state) : ∀ y ∈ R, P y.state := by
  obtain ⟨B1, B2, X1, X2, E2, φ, src, b1n, b2n, hr1, hr2, hX1, -, hE2, hsh⟩ := add_shape hids hcl ho1 ho2
    (fun c l hc => by obtain ⟨x, x1, x2⟩ := mem_ids.1 hc; exact hf1 c l x x1 x2.symm)
    (fun c l hc => by obtain ⟨x, x1, x2⟩ := mem_ids.1 hc; exact hf2 c l x x1 x2.symm) hf12 h
  have hB1 := reachGame_in ho1 hP (by
    intro s hs
    obtain ⟨x, x1, -, rfl⟩ := (hX1 s).1 hs
    exact hst x x1) hr1
  have hB2 := reachGame_in ho2 hP (by
    intro s hs
    obtain ⟨x, x1, rfl⟩ := hE2 s hs
    rcases List.mem_append.1 x1 with x1 | x1
    · exact hst x x1
    · exact (hB1 x x1).1) hr2
  intro y hy
  rw [hsh.state y hy]
  have := hsh.mem y hy
  rw [List.mem_append, List.mem_append] at this
  rcases this with (h' | h') | h'
  · exact hst _ h'
  · obtain ⟨z, z1, e⟩ := labelled_mem h'
    rw [e]
    exact (hB1 z z1).1
  · exact (hB2 _ h').1

end Gr1c
