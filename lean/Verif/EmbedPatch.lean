import Verif.EmbedSeeks
import Verif.PatchProps

/-!
# Changed games along an embedding

What a change file says about a game over the declared values, said about its copy over bits.
-/

namespace Gr1c

set_option linter.unusedSectionVars false

variable {E S E' S' : Type} [Fintype E] [DecidableEq E] [Fintype S] [DecidableEq S]
  [Fintype E'] [DecidableEq E'] [Fintype S'] [DecidableEq S']
  {G : Game E S} {H : Game E' S'} {ιe : E → E'} {ιs : S → S'}

/-- The command over other names for the values. -/
def Change.map (ιe : E → E') (ιs : S → S') : Change E S → Change E' S'
  | .restrictSys s t => .restrictSys (Prod.map ιe ιs s) (Prod.map ιe ιs t)
  | .restrictEnv s e => .restrictEnv (Prod.map ιe ιs s) (ιe e)
  | .relaxSys s t => .relaxSys (Prod.map ιe ιs s) (Prod.map ιe ιs t)
  | .relaxEnv s e => .relaxEnv (Prod.map ιe ιs s) (ιe e)
  | .blockSys x => .blockSys (ιs x)

/-- The same moves between corresponding states. -/
structure Same (G : Game E S) (H : Game E' S') (ιe : E → E') (ιs : S → S') : Prop where
  etr : ∀ s e, H.etr (Prod.map ιe ιs s) (ιe e) = true ↔ G.etr s e = true
  str : ∀ s t, H.str (Prod.map ιe ιs s) (Prod.map ιe ιs t) = true ↔ G.str s t = true

theorem Embeds.same (h : Embeds G H ιe ιs) : Same G H ιe ιs := ⟨h.etr_iff, h.str_iff⟩

theorem Same.changed (he : Function.Injective ιe) (hs : Function.Injective ιs) (h : Same G H ιe ιs) {c : Change E S} {G' : Game E S}
    {H' : Game E' S'} (hG : ChangedBy G c G') (hH : ChangedBy H (c.map ιe ιs) H') : Same G' H' ιe ιs := by
  have hp : ∀ a b : E × S, Prod.map ιe ιs a = Prod.map ιe ιs b ↔ a = b := fun a b => (he.prodMap hs).eq_iff
  have hq : ∀ a b : E, ιe a = ιe b ↔ a = b := fun a b => he.eq_iff
  cases c with
  | restrictSys s t =>
    exact ⟨fun a e => by rw [hH.1, hG.1, h.etr], fun a b => by simp only [hH.2, hG.2, h.str, ne_eq, Prod.mk.injEq, hp]⟩
  | relaxSys s t =>
    exact ⟨fun a e => by rw [hH.1, hG.1, h.etr], fun a b => by simp only [hH.2, hG.2, h.str, Prod.mk.injEq, hp]⟩
  | restrictEnv s e =>
    exact ⟨fun a f => by simp only [hH.1, hG.1, h.etr, ne_eq, Prod.mk.injEq, hp, hq], fun a b => by rw [hH.2, hG.2, h.str]⟩
  | relaxEnv s e =>
    exact ⟨fun a f => by simp only [hH.1, hG.1, h.etr, Prod.mk.injEq, hp, hq], fun a b => by rw [hH.2, hG.2, h.str]⟩
  | blockSys x =>
    refine ⟨fun a e => by rw [hH.1, hG.1, h.etr], fun a b => ?_⟩
    rw [hH.2, hG.2, h.str]
    refine and_congr_right fun _ => ?_
    change ιs b.2 ≠ ιs x ↔ _
    rw [Ne, hs.eq_iff]

theorem Same.changedAll (he : Function.Injective ιe) (hs : Function.Injective ιs) : ∀ {cs : List (Change E S)} {G : Game E S} {H : Game E' S'}
    {G' : Game E S} {H' : Game E' S'}, Same G H ιe ιs → ChangedByAll G cs G' → ChangedByAll H (cs.map (Change.map ιe ιs)) H' →
      Same G' H' ιe ιs := by
  intro cs
  induction cs with
  | nil => intro G H G' H' h h1 h2; cases h1; cases h2; exact h
  | cons c cs ih =>
    intro G H G' H' h h1 h2
    obtain ⟨G1, a1, a2⟩ := h1
    obtain ⟨H1, b1, b2⟩ := h2
    exact ih (h.changed he hs a1 b1) a2 b2

/-! ## The strategy, the commands and the neighbourhood -/

section push

variable (he : Function.Injective ιe) (hs : Function.Injective ιs) {st : Aut ℤ (E × S)}
include he hs

theorem some_edge_push (x : ANode ℤ (E × S)) (P : E × S → Prop) (Q : E' × S' → Prop) (h : ∀ s, Q (Prod.map ιe ιs s) ↔ P s) :
    (∃ y ∈ withStates (Prod.map ιe ιs) st, y.id ∈ (x.mapState (Prod.map ιe ιs)).trans ∧ Q y.state) ↔ ∃ y ∈ st, y.id ∈ x.trans ∧ P y.state := by
  constructor
  · rintro ⟨y, h1, h2, h3⟩
    obtain ⟨z, hz, rfl⟩ := mem_withStates.1 h1
    exact ⟨z, hz, h2, (h _).1 h3⟩
  · rintro ⟨y, h1, h2, h3⟩
    exact ⟨_, mem_withStates.2 ⟨y, h1, rfl⟩, h2, (h _).2 h3⟩

theorem touches_push (c : Change E S) (x : ANode ℤ (E × S)) :
    Touches (withStates (Prod.map ιe ιs) st) (c.map ιe ιs) (x.mapState (Prod.map ιe ιs)) ↔ Touches st c x := by
  have hp : ∀ a b : E × S, Prod.map ιe ιs a = Prod.map ιe ιs b ↔ a = b := fun a b => (he.prodMap hs).eq_iff
  cases c with
  | restrictSys s t => exact and_congr (hp _ _) (some_edge_push he hs x (· = t) (· = Prod.map ιe ιs t) fun _ => hp _ _)
  | relaxSys s t => exact Iff.rfl
  | restrictEnv s e => exact Iff.rfl
  | relaxEnv s e =>
    exact and_congr (hp _ _) (not_congr (some_edge_push he hs x (fun s => s.1 = e) (fun s => s.1 = ιe e) fun _ => he.eq_iff))
  | blockSys v => exact some_edge_push he hs x (fun s => s.2 = v) (fun s => s.2 = ιs v) fun _ => hs.eq_iff

theorem touchedMode_push (cs : List (Change E S)) (i : ℤ) :
    TouchedMode (withStates (Prod.map ιe ιs) st) (cs.map (Change.map ιe ιs)) i ↔ TouchedMode st cs i := by
  constructor
  · rintro ⟨x, h1, h2, c, h3, h4⟩
    obtain ⟨z, hz, rfl⟩ := mem_withStates.1 h1
    obtain ⟨c', hc, rfl⟩ := List.mem_map.1 h3
    exact ⟨z, hz, h2, c', hc, (touches_push he hs c' z).1 h4⟩
  · rintro ⟨x, h1, h2, c, h3, h4⟩
    exact ⟨_, mem_withStates.2 ⟨x, h1, rfl⟩, h2, _, List.mem_map.2 ⟨c, h3, rfl⟩, (touches_push he hs c x).2 h4⟩

theorem annotated_push {n : ℕ} {sg : Fin n → Finset (E × S)} {sg' : Fin n → Finset (E' × S')} (hg : ∀ i, GoalRel ιe ιs (sg i) (sg' i))
    (h : Annotated sg st) : Annotated sg' (withStates (Prod.map ιe ιs) st) := by
  refine ⟨?_, ?_, ?_⟩
  · intro x hx
    obtain ⟨z, hz, rfl⟩ := mem_withStates.1 hx
    exact h.nonneg z hz
  · intro x hx y hy hxy hm
    obtain ⟨x, hx', rfl⟩ := mem_withStates.1 hx
    obtain ⟨y, hy', rfl⟩ := mem_withStates.1 hy
    exact (h.mono x hx' y hy' hxy hm).imp id fun ha i => (hg i _).2 (ha i)
  · intro x hx y hy hm hst
    obtain ⟨x, hx', rfl⟩ := mem_withStates.1 hx
    obtain ⟨y, hy', rfl⟩ := mem_withStates.1 hy
    rw [h.keys x hx' y hy' hm ((he.prodMap hs) hst)]

theorem mem_hood {N : List (E × S)} {s : E × S} : Prod.map ιe ιs s ∈ N.map (Prod.map ιe ιs) ↔ s ∈ N :=
  List.mem_map_of_injective (he.prodMap hs)

theorem noWrap_push {n : ℕ} {sg : Fin n → Finset (E × S)} {sg' : Fin n → Finset (E' × S')} (hg : ∀ i, GoalRel ιe ιs (sg i) (sg' i))
    {N : List (E × S)} {cs : List (Change E S)} (h : NoWrap sg N cs st) :
    NoWrap sg' (N.map (Prod.map ιe ιs)) (cs.map (Change.map ιe ιs)) (withStates (Prod.map ιe ιs) st) := by
  intro x hx y hy hxy hm ht h1 h2
  obtain ⟨x, hx', rfl⟩ := mem_withStates.1 hx
  obtain ⟨y, hy', rfl⟩ := mem_withStates.1 hy
  obtain ⟨i, hi⟩ := h x hx' y hy' hxy hm ((touchedMode_push he hs cs _).1 ht) ((mem_hood he hs).1 h1) ((mem_hood he hs).1 h2)
  exact ⟨i, fun hc => hi ((hg i _).1 hc)⟩

theorem noCross_push {N : List (E × S)} {cs : List (Change E S)} (h : NoCross N cs st) :
    NoCross (N.map (Prod.map ιe ιs)) (cs.map (Change.map ιe ιs)) (withStates (Prod.map ιe ιs) st) := by
  intro x hx y hy hxy hm ht h1
  obtain ⟨x, hx', rfl⟩ := mem_withStates.1 hx
  obtain ⟨y, hy', rfl⟩ := mem_withStates.1 hy
  exact h x hx' y hy' hxy hm ((touchedMode_push he hs cs _).1 ht) ((mem_hood he hs).1 h1)

end push

/-! ## The result -/

theorem edgesSound_pull (h : Same G H ιe ιs) {R : Aut ℤ (E × S)} (hids : (R.map (·.id)).Nodup) {x : ANode ℤ (E × S)}
    (hx : EdgesSound H (withStates (Prod.map ιe ιs) R) (x.mapState (Prod.map ιe ιs))) : EdgesSound G R x := by
  refine ⟨fun y hy hxy => (h.str _ _).1 (hx.1 _ (mem_withStates.2 ⟨y, hy, rfl⟩) hxy), ?_⟩
  intro y hy y' hy' h1 h2 h3
  have := hx.2 _ (mem_withStates.2 ⟨y, hy, rfl⟩) _ (mem_withStates.2 ⟨y', hy', rfl⟩) h1 h2 (congrArg ιe h3)
  exact eq_of_id_eq hids hy hy' (congrArg (·.id) this)

theorem answered_pull (he : Function.Injective ιe) (h : Same G H ιe ιs) {R : Aut ℤ (E × S)} {x : ANode ℤ (E × S)}
    (hx : Answered H (withStates (Prod.map ιe ιs) R) (x.mapState (Prod.map ιe ιs))) : Answered G R x := by
  intro e h1
  obtain ⟨y, hy, h2, h3⟩ := hx (ιe e) ((h.etr _ _).2 h1)
  obtain ⟨z, hz, rfl⟩ := mem_withStates.1 hy
  exact ⟨z, hz, h2, he h3⟩

/-- Every automaton over the copy is the copy of an automaton. -/
theorem withStates_surj {M V V' : Type} {f : V → V'} (hf : Function.Surjective f) (R' : Aut M V') : ∃ R, withStates f R = R' := by
  refine ⟨withStates (Function.surjInv hf) R', ?_⟩
  unfold withStates
  rw [List.map_map]
  conv_rhs => rw [← List.map_id R']
  refine List.map_congr_left fun x _ => ?_
  simp only [Function.comp, Function.surjInv_eq hf, id]

end Gr1c
