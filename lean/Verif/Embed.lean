import Verif.RealizableProps

/-!
# Embedding one game into another

Used to relate the game over integer values to the game over bits.
-/

namespace Gr1c

set_option linter.unusedSectionVars false

variable {E S E' S' : Type} [Fintype E] [DecidableEq E] [Fintype S] [DecidableEq S]
  [Fintype E'] [DecidableEq E'] [Fintype S'] [DecidableEq S']

/-- `H`, restricted to the images of `ιe` and `ιs`, is a copy of `G`, and legal moves from such states
do not leave them. -/
structure Embeds (G : Game E S) (H : Game E' S') (ιe : E → E') (ιs : S → S') : Prop where
  inje : Function.Injective ιe
  injs : Function.Injective ιs
  etr : ∀ s e', H.etr (Prod.map ιe ιs s) e' = true ↔ ∃ e, e' = ιe e ∧ G.etr s e = true
  str : ∀ s e x', H.str (Prod.map ιe ιs s) (ιe e, x') = true ↔ ∃ x, x' = ιs x ∧ G.str s (e, x) = true

variable {G : Game E S} {H : Game E' S'} {ιe : E → E'} {ιs : S → S'}

/-- Corresponding goals. -/
def GoalRel (ιe : E → E') (ιs : S → S') (Q : Finset (E × S)) (Q' : Finset (E' × S')) : Prop :=
  ∀ s, Prod.map ιe ιs s ∈ Q' ↔ s ∈ Q

theorem pref_map (f : E × S → E' × S') (π : ℕ → E × S) (k : ℕ) :
    pref (fun k => f (π k)) k = (pref π k).map f := by
  induction k with
  | zero => rfl
  | succ k ih => simp [pref, ih]

theorem live_rel {egs sgs : List (Finset (E × S))} {egs' sgs' : List (Finset (E' × S'))}
    (he : List.Forall₂ (GoalRel ιe ιs) egs egs') (hs : List.Forall₂ (GoalRel ιe ιs) sgs sgs')
    (π : ℕ → E × S) :
    Live egs'.get sgs'.get (fun k => Prod.map ιe ιs (π k)) ↔ Live egs.get sgs.get π := by
  have key : ∀ (l : List (Finset (E × S))) (l' : List (Finset (E' × S'))),
      List.Forall₂ (GoalRel ιe ιs) l l' →
      ((∀ j, InfOften (fun k => Prod.map ιe ιs (π k)) (l'.get j)) ↔ ∀ j, InfOften π (l.get j)) := by
    intro l l' h
    have e : ∀ Q Q', GoalRel ιe ιs Q Q' →
        (InfOften (fun k => Prod.map ιe ιs (π k)) Q' ↔ InfOften π Q) := by
      intro Q Q' hQ
      exact forall_congr' fun N => exists_congr fun k => and_congr_right fun _ => hQ (π k)
    constructor
    · intro h1 j
      have hl := h.length_eq
      exact (e _ _ (List.Forall₂.get h j.isLt (by rw [← hl]; exact j.isLt))).1
        (h1 ⟨j.val, by rw [← hl]; exact j.isLt⟩)
    · intro h1 j
      have hl := h.length_eq
      exact (e _ _ (List.Forall₂.get h (by rw [hl]; exact j.isLt) j.isLt)).2
        (h1 ⟨j.val, by rw [hl]; exact j.isLt⟩)
  unfold Live
  rw [key _ _ he, key _ _ hs]

/-- Winning is the same in both games. -/
theorem embed_winnable (h : Embeds G H ιe ιs) {egs sgs : List (Finset (E × S))}
    {egs' sgs' : List (Finset (E' × S'))}
    (he : List.Forall₂ (GoalRel ιe ιs) egs egs') (hs : List.Forall₂ (GoalRel ιe ιs) sgs sgs')
    (s0 : E × S) : Winnable H egs' sgs' (Prod.map ιe ιs s0) ↔ Winnable G egs sgs s0 := by
  have hinj : Function.Injective (Prod.map ιe ιs) := h.inje.prodMap h.injs
  haveI : Nonempty E := ⟨s0.1⟩
  haveI : Nonempty S := ⟨s0.2⟩
  haveI : Nonempty (E × S) := ⟨s0⟩
  set ι := Prod.map ιe ιs with hι
  constructor
  · -- project a strategy of the big game
    rintro ⟨σ', hσ1, hσ2⟩
    set σ : Strategy E S := fun hist e => (σ' (hist.map ι) (ιe e)).map (Function.invFun ιs) with hσ
    have hcons : ∀ hist, Consistent G σ s0 hist → Consistent H σ' (ι s0) (hist.map ι) := by
      intro hist hc
      induction hc with
      | start => exact .start
      | @step s hh e' x' hprev hetr hans ih =>
        have het : H.etr (ι s) (ιe e') = true := (h.etr s (ιe e')).2 ⟨e', rfl, hetr⟩
        obtain ⟨y, hy1, hy2⟩ := hσ1 (ι s) (hh.map ι) ih (ιe e') het
        obtain ⟨x, hx, _⟩ := (h.str s e' y).1 hy2
        have : σ (s :: hh) e' = some x := by
          simp only [hσ, List.map_cons]
          rw [hy1, hx]
          simp [Function.leftInverse_invFun h.injs x]
        rw [this] at hans
        simp only [Option.some.injEq] at hans
        subst hans
        exact Consistent.step (e' := ιe e') (x' := ιs x) ih het (by rw [← hx]; exact hy1)
    refine ⟨σ, ?_, ?_⟩
    · intro s hh hc e' hetr
      have het : H.etr (ι s) (ιe e') = true := (h.etr s (ιe e')).2 ⟨e', rfl, hetr⟩
      obtain ⟨y, hy1, hy2⟩ := hσ1 (ι s) (hh.map ι) (hcons _ hc) (ιe e') het
      obtain ⟨x, hx, hstr⟩ := (h.str s e' y).1 hy2
      refine ⟨x, ?_, hstr⟩
      simp only [hσ, List.map_cons]
      rw [hy1, hx]
      simp [Function.leftInverse_invFun h.injs x]
    · intro π hπ
      rw [← live_rel he hs]
      apply hσ2
      intro k
      rw [pref_map]
      exact hcons _ (hπ k)
  · -- lift a strategy of the small game
    rintro ⟨σ, hσ1, hσ2⟩
    set inv := Function.invFun ι with hinv
    have hli : ∀ s, inv (ι s) = s := Function.leftInverse_invFun hinj
    have hlie : ∀ e, Function.invFun ιe (ιe e) = e := Function.leftInverse_invFun h.inje
    set σ' : Strategy E' S' := fun hist e' => (σ (hist.map inv) (Function.invFun ιe e')).map ιs with hσ'
    have hmap : ∀ hist : List (E × S), (hist.map ι).map inv = hist := by
      intro hist
      rw [List.map_map]
      conv_rhs => rw [← List.map_id hist]
      apply List.map_congr_left
      intro s _
      exact hli s
    have hcons : ∀ hist', Consistent H σ' (ι s0) hist' →
        ∃ hist, hist' = hist.map ι ∧ Consistent G σ s0 hist := by
      intro hist' hc
      induction hc with
      | start => exact ⟨[s0], rfl, .start⟩
      | @step s' hh' e' x' hprev hetr hans ih =>
        obtain ⟨hist, heq, hc⟩ := ih
        cases hist with
        | nil => simp at heq
        | cons s hh =>
          simp only [List.map_cons, List.cons.injEq] at heq
          obtain ⟨rfl, rfl⟩ := heq
          obtain ⟨e, rfl, hetr'⟩ := (h.etr s e').1 hetr
          simp only [hσ', List.map_cons, hli, hlie, hmap] at hans
          cases hx : σ (s :: hh) e with
          | none => rw [hx] at hans; simp at hans
          | some x =>
            rw [hx] at hans
            simp only [Option.map_some, Option.some.injEq] at hans
            subst hans
            exact ⟨(e, x) :: s :: hh, rfl, .step hc hetr' hx⟩
    refine ⟨σ', ?_, ?_⟩
    · intro s' hh' hc' e' hetr
      obtain ⟨hist, heq, hc⟩ := hcons _ hc'
      cases hist with
      | nil => simp at heq
      | cons s hh =>
        simp only [List.map_cons, List.cons.injEq] at heq
        obtain ⟨rfl, rfl⟩ := heq
        obtain ⟨e, rfl, hetr'⟩ := (h.etr s e').1 hetr
        obtain ⟨x, hx, hstr⟩ := hσ1 s hh hc e hetr'
        refine ⟨ιs x, ?_, (h.str s e (ιs x)).2 ⟨x, rfl, hstr⟩⟩
        simp only [hσ', List.map_cons, hli, hlie, hmap, hx, Option.map_some]
    · intro π' hπ'
      have hin : ∀ k, ∃ s, π' k = ι s := by
        intro k
        obtain ⟨hist, heq, hc⟩ := hcons _ (hπ' k)
        cases hist with
        | nil => cases k <;> simp [pref] at heq
        | cons s hh =>
          refine ⟨s, ?_⟩
          cases k <;> simp only [pref, List.map_cons, List.cons.injEq] at heq <;> exact heq.1
      choose π hπ using hin
      have hπeq : π' = fun k => ι (π k) := funext hπ
      rw [hπeq, live_rel he hs]
      apply hσ2
      intro k
      obtain ⟨hist, heq, hc⟩ := hcons _ (hπ' k)
      rw [hπeq, pref_map] at heq
      have : pref π k = hist := by
        have := congrArg (List.map inv) heq
        rwa [hmap, hmap] at this
      rw [this]
      exact hc

end Gr1c
