import Verif.SimTrace

/-!
# C65: the play of `sim_rhc`

`/repo/src/sim.c` 23-417. The documentation (`/repo/include/sim.h` 14-28) asks for a play of the game. What the function returns is a
play in its first step, `rhc_first_step`. Later it may not be: `hstacks` is never cleared, so a state that was once stored is never
chosen at the same depth again, and without a new state the last one is repeated, whether this is legal or not. `rhc_play_partial` and
`rhc_greedy` say what holds, `rhc_illegal` that in a game without self-loops every play that is long enough has an illegal step.
-/

namespace Gr1c

variable {E S : Type} [Fintype E] [DecidableEq E] [Fintype S] [DecidableEq S]
variable {o : SimOracle E S} {G : Game E S} {W : Finset (E × S)} {near : Finset (E × S) → E × S → ℤ} {sgs : List (Finset (E × S))}
  {n num : ℕ} {init : E × S} {a : Aut ℕ (E × S)}

/-- Full statement: `∀ k < num, LegalIn G W (σ k) (σ (k + 1))`, which is false (`rhc_illegal`, `sim_stutters`). The automaton is a chain
of nodes from the given state. Every step is legal and stays in the winning set, or repeats the state; the first step is legal. The play
changes its state at most `n * |W|` times: after that it rests for ever. -/
theorem rhc_play_partial (ho : o.Valid G) (hn : ∀ A, NearOk (near A)) (h : simRhc o G W near sgs n init num = .ok a) :
    (∃ σ, SimPlay num σ a) ∧ ∀ σ, SimPlay num σ a → σ 0 = init ∧
      (∀ k < num, σ (k + 1) ∈ W ∧ (LegalIn G W (σ k) (σ (k + 1)) ∨ 0 < k ∧ σ (k + 1) = σ k)) ∧
      ((Finset.range num).filter fun k => σ (k + 1) ≠ σ k).card ≤ n * W.card := by
  obtain ⟨h1, f, d, hr, ha⟩ := rhc_ran ho hn h
  obtain ⟨ids, hp⟩ := hr.play ho
  refine ⟨⟨_, ids, (hp num le_rfl).1, ha ▸ (hp num le_rfl).2⟩, ?_⟩
  rintro σ ⟨ids', -, hσ⟩
  have hs : ∀ i ≤ num, σ i = (f i).cur := playNodes_inj (hσ.symm.trans (ha ▸ (hp num le_rfl).2))
  refine ⟨(hs 0 (by omega)).trans hr.cur0, ?_, ?_⟩
  · intro k hk
    rw [hs (k + 1) hk]
    have h0 := hr.at0 hk
    refine ⟨(hr.inv (k + 1) hk).inW 0 _ h0, ?_⟩
    obtain ⟨A, B, tried, v, l, -, hc, -⟩ := hr.cases_step hk
    rw [hs k (by omega)]
    rcases hc with ⟨c1, c2, -⟩ | ⟨-, -, -, -, -, c6, -⟩
    · exact Or.inr ⟨c2, c1⟩
    · exact Or.inl c6
  · refine le_trans (le_of_eq ?_) ((hr.changes_le num le_rfl).trans (hr.total_le le_rfl))
    congr 1
    refine Finset.filter_congr fun i hi => ?_
    have := Finset.mem_range.1 hi
    rw [hs (i + 1) (by omega), hs i (by omega)]

/-- In a game in which no state of the winning set is its own legal successor, a play of more than `n * |W|` steps is not legal. -/
theorem rhc_illegal (ho : o.Valid G) (hn : ∀ A, NearOk (near A)) (h : simRhc o G W near sgs n init num = .ok a)
    (hW : ∀ s ∈ W, ¬ LegalIn G W s s) (hnum : n * W.card < num) {σ : ℕ → E × S} (hσ : SimPlay num σ a) :
    ∃ k < num, ¬ LegalIn G W (σ k) (σ (k + 1)) := by
  obtain ⟨-, hp⟩ := rhc_play_partial ho hn h
  obtain ⟨-, h2, h3⟩ := hp σ hσ
  by_contra hc
  push Not at hc
  have : ((Finset.range num).filter fun k => σ (k + 1) ≠ σ k) = Finset.range num := by
    refine Finset.filter_true_of_mem fun k hk he => ?_
    have hk := Finset.mem_range.1 hk
    have := hc k hk
    rw [he] at this
    exact hW _ (he ▸ (h2 k hk).1) this
  rw [this, Finset.card_range] at h3
  omega

/-- An answer to the move `e` at step `k` that was not among the answers to the moves of the steps before. -/
def FreshAnswer (G : Game E S) (W : Finset (E × S)) (σ : ℕ → E × S) (d : ℕ → E) (k : ℕ) (u : E × S) : Prop :=
  (LegalIn G W (σ k) u ∧ u.1 = d k) ∧ ¬ ∃ i < k, LegalIn G W (σ i) u ∧ u.1 = d i

/-- Horizon 1, exactly: the environment makes a legal move, the goals are sought in their order, and the next state is an answer nearest to
the goal among those which were not answers before; if there is none, the state is repeated. -/
theorem rhc_greedy (ho : o.Valid G) (hn : ∀ A, NearOk (near A)) (h : simRhc o G W near sgs 1 init num = .ok a)
    {σ : ℕ → E × S} (hσ : SimPlay num σ a) :
    ∃ (d : ℕ → E) (γ : ℕ → ℕ), SeeksGoals num sgs σ γ ∧ ∀ k < num, G.etr (σ k) (d k) = true ∧
      ∃ B, sgs[γ (k + 1)]? = some B ∧
        ((∃ u, FreshAnswer G W σ d k u) → FreshAnswer G W σ d k (σ (k + 1)) ∧
          ∀ u, FreshAnswer G W σ d k u → near (B ∩ W) (σ (k + 1)) ≤ near (B ∩ W) u) ∧
        ((¬ ∃ u, FreshAnswer G W σ d k u) → σ (k + 1) = σ k) := by
  obtain ⟨-, f, d, hr, ha⟩ := rhc_ran ho hn h
  obtain ⟨ids, hp⟩ := hr.play ho
  obtain ⟨ids', -, hσ⟩ := hσ
  have hs : ∀ i ≤ num, σ i = (f i).cur := playNodes_inj (hσ.symm.trans (ha ▸ (hp num le_rfl).2))
  have h0 : ∀ k ≤ num, ∀ u, InAt (f k).hst 0 u ↔ ∃ i < k, LegalIn G W (σ i) u ∧ u.1 = d i := by
    intro k
    induction k with
    | zero =>
      intro hk u
      refine ⟨fun hu => ?_, fun ⟨i, hi, _⟩ => by omega⟩
      exact absurd hu ((hr.inv 0 hk).empty (by simp) 0 u)
    | succ k ih =>
      intro hk u
      constructor
      · intro hu
        obtain ⟨i, i1, i2, i3⟩ := (hr.inv (k + 1) hk).bot u hu
        exact ⟨i, i1, by rw [hs i (by omega)]; exact i2, i3⟩
      · rintro ⟨i, i1, i2, i3⟩
        obtain ⟨A, B, tried, v, l, hit⟩ := hr.step k (by omega)
        rw [hit.hst]
        rcases Nat.lt_or_ge i k with hik | hik
        · exact hit.look.keeps 0 u ((ih (by omega) u).2 ⟨i, hik, i2, i3⟩)
        · have : i = k := by omega
          subst this
          rw [hs i (by omega)] at i2
          exact hit.all u i2 i3
  refine ⟨d, fun k => (f k).goal, ⟨by show (f 0).goal = 0; rw [hr.start]; rfl, ?_⟩, ?_⟩
  · intro k hk
    obtain ⟨A, B, tried, v, l, hit⟩ := hr.step k hk
    refine ⟨A, hit.goal, ?_, ?_⟩
    · intro hm
      rw [hs k (by omega)] at hm
      exact hit.next_goal.trans (if_pos hm)
    · intro hm
      rw [hs k (by omega)] at hm
      exact hit.next_goal.trans (if_neg hm)
  · intro k hk
    obtain ⟨A, B, tried, v, l, hit, hc, -⟩ := hr.cases_step hk
    refine ⟨by rw [hs k (by omega)]; exact hit.move, B, hit.seeks, ?_⟩
    have hj : ∀ {H : List (List (E × S))} {j : ℕ} {u : E × S}, H.length = 1 → InAt H j u → j = 0 := by
      intro H j u hl hu
      have := InAt.lt hu
      omega
    have hcons : ∀ u, Considered (f k).hst tried (f (k + 1)).hst u ↔ FreshAnswer G W σ d k u := by
      intro u
      constructor
      · rintro ⟨⟨j, j1, j2⟩, -⟩
        have : j = 0 := hj (hr.inv (k + 1) hk).len j1
        subst this
        have hno : ¬ ∃ i < k, LegalIn G W (σ i) u ∧ u.1 = d i := fun hc => j2 ((h0 k (by omega) u).2 hc)
        obtain ⟨i, i1, i2⟩ := (h0 (k + 1) hk u).1 j1
        rcases Nat.lt_or_ge i k with hik | hik
        · exact absurd ⟨i, hik, i2⟩ hno
        · have : i = k := by omega
          subst this
          exact ⟨i2, hno⟩
      · rintro ⟨u1, u2⟩
        have hno : ¬ InAt (f k).hst 0 u := fun hc => u2 ((h0 k (by omega) u).1 hc)
        refine ⟨⟨0, (h0 (k + 1) hk u).2 ⟨k, by omega, u1⟩, hno⟩, fun ht => ?_⟩
        rw [hit.known] at ht
        have : u ∈ simTried (f k).mem (f k).cur := by
          split at ht
          · simp [simTried] at ht
          · exact ht
        obtain ⟨j, hu⟩ := (hr.inv k (by omega)).tried _ _ this
        have : j = 0 := hj (hr.inv k (by omega)).len hu
        subst this
        exact hno hu
    rcases hc with ⟨c1, -, c3⟩ | ⟨c1, c2, -, -, c5, -⟩
    · refine ⟨fun ⟨u, hu⟩ => absurd ((hcons u).2 hu) (c3 u), fun _ => ?_⟩
      rw [hs (k + 1) hk, hs k (by omega), c1]
    · have hv : (f (k + 1)).cur = v := by
        obtain ⟨⟨j, j1, -⟩, -⟩ := c1
        have : j = 0 := hj (hr.inv (k + 1) hk).len j1
        subst this
        exact c5 j1
      refine ⟨fun _ => ⟨?_, ?_⟩, fun hno => absurd ⟨v, (hcons v).1 c1⟩ hno⟩
      · rw [hs (k + 1) hk, hv]
        exact (hcons v).1 c1
      · intro u hu
        rw [hs (k + 1) hk, hv]
        exact c2 u ((hcons u).2 hu)

theorem path_stored {H : List (List (E × S))} {m j i : ℕ} {t u : E × S} (hst : StoredMoves G W m H) (ht : InAt H j t)
    (hp : PathIn G W i t u) (hm : j + i ≤ m) : ∃ j', InAt H j' u := by
  induction hp generalizing j with
  | nil s => exact ⟨j, ht⟩
  | cons h _ ih =>
    obtain ⟨j', h1, h2⟩ := hst j (by omega) _ ht _ h
    exact ih h2 (by omega)

/-- The first step for every horizon `n`: after a legal move of the environment the play goes to a legal successor, on a legal way of less
than `n` further steps to a state which is nearest to the goal among all states on such ways. -/
theorem rhc_first_step (ho : o.Valid G) (hn : ∀ A, NearOk (near A)) (h : simRhc o G W near sgs n init num = .ok a) (hnum : 0 < num)
    {σ : ℕ → E × S} (hσ : SimPlay num σ a) :
    LegalIn G W init (σ 1) ∧ ∃ γ A B v, sgs[0]? = some A ∧ (init ∈ A → γ = 1 % sgs.length) ∧ (init ∉ A → γ = 0) ∧ sgs[γ]? = some B ∧
      (∃ j < n, PathIn G W j (σ 1) v) ∧
      ∀ t u, LegalIn G W init t → t.1 = (σ 1).1 → (∃ j < n, PathIn G W j t u) → near (B ∩ W) v ≤ near (B ∩ W) u := by
  obtain ⟨h1, f, d, hr, ha⟩ := rhc_ran ho hn h
  obtain ⟨ids, hp⟩ := hr.play ho
  obtain ⟨ids', -, hσ⟩ := hσ
  have hs : ∀ i ≤ num, σ i = (f i).cur := playNodes_inj (hσ.symm.trans (ha ▸ (hp num le_rfl).2))
  obtain ⟨A, B, tried, v, l, hit, hc, -⟩ := hr.cases_step hnum
  rw [hs 1 hnum]
  have hb := (hr.inv 1 hnum).bot _ (hr.at0 hnum)
  obtain ⟨i, i1, i2, i3⟩ := hb
  have hi0 : i = 0 := by omega
  subst hi0
  have hg : (f 0).goal = 0 := by rw [hr.start]; rfl
  rcases hc with ⟨-, c2, -⟩ | ⟨c1, c2, -, c4, -, -⟩
  · omega
  · rw [hr.cur0] at i2
    refine ⟨i2, (f 1).goal, A, B, v, hg ▸ hit.goal, ?_, ?_, hit.seeks, c4, ?_⟩
    · intro hm
      rw [← hr.cur0] at hm
      exact (hit.next_goal.trans (if_pos hm)).trans (by rw [hg])
    · intro hm
      rw [← hr.cur0] at hm
      exact (hit.next_goal.trans (if_neg hm)).trans hg
    · rintro t u t1 t2 ⟨j, j1, j2⟩
      rw [← hr.cur0] at t1
      have h0 := hit.all t t1 (t2.trans i3)
      obtain ⟨j', hj'⟩ := path_stored hit.stored h0 j2 (by omega)
      refine c2 u ⟨⟨j', by rw [hit.hst]; exact hj', (hr.inv 0 (by omega)).empty (by simp) j' u⟩, fun ht => ?_⟩
      rw [hit.known] at ht
      have : u ∈ simTried (f 0).mem (f 0).cur := by
        split at ht
        · simp [simTried] at ht
        · exact ht
      obtain ⟨i, hu⟩ := (hr.inv 0 (by omega)).tried _ _ this
      exact (hr.inv 0 (by omega)).empty (by simp) i u hu

/-! ## The end of the run -/

theorem step_good (ho : o.Valid G) (hn : ∀ A, NearOk (near A)) (h1 : 0 < n) (hW : ∀ s ∈ W, ∃ e, G.etr s e = true) {k : ℕ} {first : Bool}
    {σ : Sim (E × S)} (hi : SimInv G W n first (fun _ => True) σ) (hg : σ.goal < sgs.length)
    (hf : first = true → (∃ e, G.etr σ.cur e = true) ∧ ∀ e, G.etr σ.cur e = true → ∃ t, LegalIn G W σ.cur t ∧ t.1 = e)
    {nd : ANode ℕ (E × S)} {tl : Aut ℕ (E × S)} (hp : σ.play = nd :: tl) (hm : nd.mode = k) (hst : nd.state = σ.cur)
    (hnd : (Aut.ids σ.play).Nodup) :
    ∃ σ', simStep o G W near sgs n k σ = .ok σ' ∧ SimInv G W n false (fun _ => True) σ' ∧ σ'.goal < sgs.length ∧
      ∃ nd' tl', σ'.play = nd' :: tl' ∧ nd'.mode = k + 1 ∧ nd'.state = σ'.cur ∧ (Aut.ids σ'.play).Nodup := by
  have happ : ∀ t, appendAnodeTrans (insertAnode σ.play (o.alloc k (σ.play.map (·.id))) (k + 1) (-1) false t) k σ.cur (k + 1) t =
      .ok (⟨o.alloc k (σ.play.map (·.id)), t, k + 1, -1, false, []⟩ :: { nd with trans := nd.trans ++ [o.alloc k (σ.play.map (·.id))] } :: tl) := by
    intro t
    rw [← hst]
    rw [hp] at hnd ⊢
    exact append_play hm hnd (ho.fresh _ _)
  have hmove : ∃ e, G.etr σ.cur e = true := by
    cases first with
    | true => exact (hf rfl).1
    | false => exact hW _ (hi.inW 0 _ (hi.next rfl).2)
  obtain ⟨σ', hσ'⟩ := step_runs ho hn h1 hi hg hmove (fun h => (hf h).2) (fun t => ⟨_, happ t⟩)
  obtain ⟨⟨A, B, e, tried, v, l, hit⟩, ha⟩ := step_ok ho hn h1 hi hσ'
  refine ⟨σ', hσ', iterated_inv hi hit (fun _ _ => trivial) (fun _ _ _ => trivial), ?_, ?_⟩
  · have := hit.seeks
    by_contra hc
    rw [List.getElem?_eq_none (by omega)] at this
    cases this
  · have := (happ σ'.cur).symm.trans ha
    injection this with this
    refine ⟨_, _, this.symm, rfl, rfl, ?_⟩
    rw [← this]
    have hf' : o.alloc k (σ.play.map (·.id)) ∉ σ.play.map (·.id) := ho.fresh _ _
    simp only [Aut.ids] at hnd ⊢
    generalize o.alloc k (σ.play.map (·.id)) = x at hf'
    rw [hp] at hf' hnd
    exact List.nodup_cons.2 ⟨hf', hnd⟩

theorem loop_good (ho : o.Valid G) (hn : ∀ A, NearOk (near A)) (h1 : 0 < n) (hW : ∀ s ∈ W, ∃ e, G.etr s e = true) (r : ℕ) {k : ℕ}
    {first : Bool} {σ : Sim (E × S)} (hi : SimInv G W n first (fun _ => True) σ) (hg : σ.goal < sgs.length)
    (hf : first = true → (∃ e, G.etr σ.cur e = true) ∧ ∀ e, G.etr σ.cur e = true → ∃ t, LegalIn G W σ.cur t ∧ t.1 = e)
    {nd : ANode ℕ (E × S)} {tl : Aut ℕ (E × S)} (hp : σ.play = nd :: tl) (hm : nd.mode = k) (hst : nd.state = σ.cur)
    (hnd : (Aut.ids σ.play).Nodup) : ∃ σ', simLoop o G W near sgs n r k σ = .ok σ' := by
  induction r generalizing k first σ nd tl with
  | zero => exact ⟨σ, rfl⟩
  | succ r ih =>
    obtain ⟨σ', s1, s2, s3, nd', tl', s4, s5, s6, s7⟩ := step_good ho hn h1 hW hi hg hf hp hm hst hnd
    obtain ⟨σ'', h⟩ := ih s2 s3 (fun h => by cases h) s4 s5 s6 s7
    refine ⟨σ'', ?_⟩
    unfold simLoop
    rw [s1]
    exact h

/-- The function returns a play: backtracking never fails, and no uninitialised variable is read, if the environment can move from all
states of the winning set and each of its moves from the given state has an answer. -/
theorem rhc_returns (ho : o.Valid G) (hn : ∀ A, NearOk (near A)) (h1 : 0 < n) (hs : sgs ≠ []) (hW : ∀ s ∈ W, ∃ e, G.etr s e = true)
    (he : ∃ e, G.etr init e = true) (hi : ∀ e, G.etr init e = true → ∃ t, LegalIn G W init t ∧ t.1 = e) :
    ∃ a, simRhc o G W near sgs n init num = .ok a := by
  obtain ⟨σ, hσ⟩ := loop_good (o := o) (near := near) ho hn h1 hW num (k := 0) (start_inv (o := o) (n := n) (W := W) (G := G) init _)
    (List.length_pos_iff.2 hs) (fun _ => ⟨he, hi⟩) rfl rfl rfl (by simp [simStart, insertAnode, Aut.ids])
  refine ⟨σ.play, ?_⟩
  unfold simRhc
  rw [if_neg (by omega)]
  rw [show simLoop o G W near sgs n num 0
    ⟨insertAnode [] (o.alloc 0 []) 0 (-1) false init, init, 0, [], List.replicate n [], none⟩ = .ok σ from hσ]

/-- Backtracking never fails: NULL is returned exactly for a horizon below 1. -/
theorem rhc_null (ho : o.Valid G) (hn : ∀ A, NearOk (near A)) : simRhc o G W near sgs n init num = .err ↔ n < 1 := by
  constructor
  · intro h
    by_contra hc
    have h1 : 0 < n := by omega
    have hstep : ∀ {k : ℕ} {first : Bool} {σ : Sim (E × S)}, SimInv G W n first (fun _ => True) σ →
        simStep o G W near sgs n k σ ≠ .err := by
      intro k first σ hi h
      unfold simStep at h
      cases hA : sgs[σ.goal]? with
      | none => rw [hA] at h; cases h
      | some A =>
        rw [hA] at h
        simp only at h
        cases hB : sgs[simGoal sgs σ.goal A σ.cur]? with
        | none => rw [hB] at h; cases h
        | some B =>
          rw [hB] at h
          simp only at h
          cases he : (o.moves k σ.cur)[o.rand k % (o.moves k σ.cur).length]? with
          | none => rw [he] at h; cases h
          | some e =>
            rw [he] at h
            simp only at h
            have he' : G.etr σ.cur e = true := (ho.moves _ _ _).1 (List.mem_of_getElem? he)
            obtain ⟨m1, m2, m3⟩ := look_ok ho hn h1 hi k (simTried (if σ.cur ∈ A then [] else σ.mem) σ.cur) B he'
            generalize hl : simAhead o G W (near (B ∩ W)) (simTried (if σ.cur ∈ A then [] else σ.mem) σ.cur) k n
              (simAnswer o G W (near (B ∩ W)) (simTried (if σ.cur ∈ A then [] else σ.mem) σ.cur) k 0 σ.cur ⟨σ.hst, -1, σ.next⟩ e) = l
              at h m1 m2 m3
            cases hv : l.next with
            | none => rw [hv] at h; cases h
            | some v =>
              rw [hv] at h
              simp only at h
              have key : ∃ j, InAt l.hst j v := by
                rcases m1.best with ⟨-, -, b3⟩ | ⟨w, ⟨⟨j, c1, -⟩, -⟩, b2, -⟩
                · cases hfirst : first with
                  | false =>
                    obtain ⟨x, y⟩ := hi.next hfirst
                    have hvc : v = σ.cur := Option.some.inj (hv.symm.trans (b3.trans x))
                    exact ⟨0, hvc ▸ m1.keeps _ _ y⟩
                  | true => cases hv.symm.trans (b3.trans (hi.none hfirst))
                · have hvw : v = w := Option.some.inj (hv.symm.trans b2)
                  exact ⟨j, hvw ▸ c1⟩
              obtain ⟨j, hj⟩ := key
              obtain ⟨t, t1, -⟩ := first_ok m1.len m1.up hj
              rw [t1] at h
              simp only at h
              split at h <;> cases h
    have hloop : ∀ (r : ℕ) {k : ℕ} {first : Bool} {σ : Sim (E × S)}, SimInv G W n first (fun _ => True) σ →
        simLoop o G W near sgs n r k σ ≠ .err := by
      intro r
      induction r with
      | zero => intro k first σ _ h; cases h
      | succ r ih =>
        intro k first σ hi h
        unfold simLoop at h
        cases hs : simStep o G W near sgs n k σ with
        | ok σ' =>
          rw [hs] at h
          obtain ⟨⟨A, B, e, tried, v, l, hit⟩, -⟩ := step_ok ho hn h1 hi hs
          exact ih (iterated_inv hi hit (fun _ _ => trivial) (fun _ _ _ => trivial)) h
        | ub => rw [hs] at h; cases h
        | err => exact hstep hi hs
        | timeout => rw [hs] at h; cases h
    unfold simRhc at h
    rw [if_neg hc] at h
    cases hl : simLoop o G W near sgs n num 0
      ⟨insertAnode [] (o.alloc 0 []) 0 (-1) false init, init, 0, [], List.replicate n [], none⟩ with
    | ok σ => rw [hl] at h; cases h
    | ub => rw [hl] at h; cases h
    | timeout => rw [hl] at h; cases h
    | err => exact hloop num (start_inv (o := o) (n := n) (W := W) (G := G) init _) hl
  · intro h
    unfold simRhc
    rw [if_pos h]

/-- From a state without a legal move into the winning set an uninitialised variable is read, or `rand()` is taken modulo 0. -/
theorem rhc_unanswered (ho : o.Valid G) (hn : ∀ A, NearOk (near A)) (h1 : 0 < n) (hnum : 0 < num) (hi : ∀ t, ¬ LegalIn G W init t) :
    simRhc o G W near sgs n init num = .ub := by
  have hs : ∀ σ', simStep o G W near sgs n 0 (simStart o n init) ≠ .ok σ' := by
    intro σ' h
    have hinv := start_inv (o := o) (n := n) (W := W) (G := G) init (fun _ => False)
    obtain ⟨⟨A, B, e, tried, v, l, hit⟩, -⟩ := step_ok ho hn h1 hinv h
    obtain ⟨-, h2, -⟩ := iterated_next (P' := fun _ => True) hinv hit (fun _ _ => trivial) (fun _ _ => trivial)
    rw [hit.hst] at h2
    rcases hit.look.bot _ h2 with h | h
    · exact hinv.bot _ h
    · exact hi _ h.1
  have hne : simRhc o G W near sgs n init num ≠ .err := fun h => by have := (rhc_null ho hn).1 h; omega
  obtain ⟨r, rfl⟩ := Nat.exists_eq_succ_of_ne_zero (by omega : num ≠ 0)
  unfold simRhc simLoop at hne ⊢
  rw [if_neg (by omega)] at hne ⊢
  change (match (match simStep o G W near sgs n 0 (simStart o n init) with
    | .ok σ' => simLoop o G W near sgs n r 1 σ' | e => e) with
    | .ok σ => SRes.ok σ.play | .ub => .ub | .err => .err | .timeout => .timeout) ≠ .err at hne
  change (match (match simStep o G W near sgs n 0 (simStart o n init) with
    | .ok σ' => simLoop o G W near sgs n r 1 σ' | e => e) with
    | .ok σ => SRes.ok σ.play | .ub => .ub | .err => .err | .timeout => .timeout) = .ub
  cases hc : simStep o G W near sgs n 0 (simStart o n init) with
  | ok σ' => exact absurd hc (hs σ')
  | ub => rfl
  | err => rw [hc] at hne; exact absurd rfl hne
  | timeout =>
    exfalso
    unfold simStep at hc
    cases hA : sgs[(simStart o n init).goal]? with
    | none => rw [hA] at hc; cases hc
    | some A =>
      rw [hA] at hc
      simp only at hc
      cases hB : sgs[simGoal sgs (simStart o n init).goal A (simStart o n init).cur]? with
      | none => rw [hB] at hc; cases hc
      | some B =>
        rw [hB] at hc
        simp only at hc
        cases he : (o.moves 0 (simStart o n init).cur)[o.rand 0 % (o.moves 0 (simStart o n init).cur).length]? with
        | none => rw [he] at hc; cases hc
        | some e =>
          rw [he] at hc
          simp only at hc
          generalize simAhead o G W _ _ _ _ _ = l at hc
          cases hv : l.next with
          | none => rw [hv] at hc; cases hc
          | some v =>
            rw [hv] at hc
            simp only at hc
            cases ht : simFirst G n l.hst v with
            | none => rw [ht] at hc; cases hc
            | some t =>
              rw [ht] at hc
              simp only at hc
              split at hc <;> cases hc

end Gr1c
