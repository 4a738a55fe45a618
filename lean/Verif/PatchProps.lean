import Verif.PatchChange
import Verif.AutomatonProps
import Verif.RmGoalProps

/-!
# C49: patching a strategy after a change of the game
-/

namespace Gr1c

set_option linter.unusedSectionVars false

variable {E S : Type} [Fintype E] [DecidableEq E] [Fintype S] [DecidableEq S] {m n : ℕ}
  {G G' : Game E S} {eg : Fin m → Finset (E × S)} {sg : Fin n → Finset (E × S)}
  {eps : List (E × S → E → Bool)} {sps : List (E × S → E × S → Bool)}
  {N : List (E × S)} {cs : List (Change E S)} {os : ℕ → Oracle E S} {fuel : ℕ} {st R : Aut ℤ (E × S)}

private theorem patchModes_inv {Gl : Game E S} {a : List (ℤ × ℕ)} (hagree : AgreeOn N Gl G)
    (ho : ∀ g, (os g).Valid Gl) {st0 : Aut ℤ (E × S)}
    (hcl0 : ∀ x ∈ st0, ∀ j ∈ x.trans, ∃ y ∈ st0, y.id = j) :
    ∀ (k g : ℕ) (st R : Aut ℤ (E × S)), g + k = n → PatchInv G eg sg N a g st → Scope N a st0 st →
      patchModes Gl eg N os fuel a k g st = .ok R →
      PatchInv G eg sg N a n R ∧ Scope N a st0 R ∧ (PatchAns G N a g st → PatchAns G N a n R) := by
  intro k
  induction k with
  | zero =>
    intro g st R hg I C h
    simp only [patchModes, SRes.ok.injEq] at h
    subst h
    have : g = n := by omega
    subst this
    exact ⟨I, C, id⟩
  | succ k ih =>
    intro g st R hg I C h
    simp only [patchModes] at h
    cases hl : localFix Gl eg N (os g) fuel (g : ℤ) (affOf a (g : ℤ)) st with
    | ub => rw [hl] at h; simp at h
    | err => rw [hl] at h; simp at h
    | timeout => rw [hl] at h; simp at h
    | ok st' =>
      rw [hl] at h
      simp only at h
      obtain ⟨i1, i2, i3⟩ := ih (g + 1) st' R (by omega) (patchInv_step (by omega) hagree I (ho g) hl)
        (scope_step I (ho g) hcl0 C hl) h
      exact ⟨i1, i2, fun A => i3 (patchAns_step hagree I A (ho g) hl)⟩

/-- Before pruning. -/
private theorem patch_run (hG : IsConjunction eps sps G) (hS : SeeksInOrder G eg sg st) (hA : AnswersAll G st)
    (hN : Annotated sg st) (hW : NoWrap sg N cs st) (hC : ChangedByAll G cs G')
    (ho : ∀ g, (os g).Valid (cs.foldl applyChange (localGame N eps sps)))
    (h : patchLocalfixpoint eps sps eg n N cs os fuel st = .ok R) :
    ∃ a R0, R = autPruneDeadends R0 ∧ PatchInv G' eg sg N a n R0 ∧ Scope N a st R0 ∧
      (∀ x ∈ st, ∀ c ∈ cs, Touches st c x → x.state ∈ N) ∧
      (∀ i, affOf a i ≠ [] ↔ TouchedMode st cs i) ∧
      (NoCross N cs st → PatchAns G' N a n R0) := by
  unfold patchLocalfixpoint at h
  cases hp : processChanges n N st cs (localGame N eps sps) [] with
  | ub => rw [hp] at h; simp at h
  | err => rw [hp] at h; simp at h
  | timeout => rw [hp] at h; simp at h
  | ok t =>
    obtain ⟨Gl, a⟩ := t
    rw [hp] at h
    simp only at h
    obtain ⟨p1, p2, p3⟩ := processChanges_spec (n := n) hS.ids hS.modes _ _ _ _ _ hp
    simp only [List.not_mem_nil, false_or] at p3
    subst p1
    have haff : ∀ i, affOf a i ≠ [] ↔ TouchedMode st cs i := by
      intro i
      rw [List.ne_nil_iff_exists_cons]
      constructor
      · rintro ⟨k, l, hkl⟩
        have : k ∈ affOf a i := by rw [hkl]; simp
        obtain ⟨x, x1, x2, x3⟩ := (p3 _).1 (mem_affOf.1 this)
        rw [Prod.mk.injEq] at x3
        exact ⟨x, x1, x3.1.symm, x2⟩
      · rintro ⟨x, x1, rfl, x2⟩
        have : x.id ∈ affOf a x.mode := mem_affOf.2 ((p3 _).2 ⟨x, x1, x2, rfl⟩)
        cases hl : affOf a x.mode with
        | nil => rw [hl] at this; simp at this
        | cons k l => exact ⟨k, l, rfl⟩
    have hunt : ∀ x ∈ st, ¬ (((0 : ℕ) : ℤ) ≤ x.mode ∧ (x.mode, x.id) ∈ a) → ∀ c ∈ cs, ¬ Touches st c x := by
      intro x hx hna c hc ht
      obtain ⟨i, hi⟩ := hS.modes x hx
      exact hna ⟨by omega, (p3 _).2 ⟨x, hx, ⟨c, hc, ht⟩, rfl⟩⟩
    have hs0 : ∀ x ∈ st, EdgesSound G st x := by
      intro x hx
      refine ⟨fun y hy he => (hS.legal x hx y hy he).2, fun y hy y' hy' he he' hyy => ?_⟩
      obtain ⟨w, -, hw⟩ := hA x hx y.state.1 (hS.legal x hx y hy he).1
      rw [hw y ⟨hy, he, rfl⟩, hw y' ⟨hy', he', hyy.symm⟩]
    have ha0 : ∀ x ∈ st, Answered G st x := by
      intro x hx e he
      obtain ⟨w, ⟨w1, w2, w3⟩, -⟩ := hA x hx e he
      exact ⟨w, w1, w2, w3⟩
    have hagree := agree_changes cs (agree_localGame (N := N) hG) hC
    have I0 : PatchInv G' eg sg N a 0 st := by
      refine ⟨hS.ids, hS.closed, hS.modes, hS.order, hS.live, ?_, ?_, ?_, ?_, ?_, ?_⟩
      · intro x hx y hy _; exact hN.keys x hx y hy
      · intro x hx _; exact hN.nonneg x hx
      · intro x hx y hy he _; exact hN.mono x hx y hy he
      · intro x hx y hy he _ hm ha; exact hW x hx y hy he hm ((haff _).1 ha)
      · intro x hx hna
        exact (untouched_ok cs hC (hunt x hx hna)).1 (hs0 x hx)
      · intro p hp _
        obtain ⟨x, x1, ⟨c, c1, c2⟩, x3⟩ := (p3 p).1 hp
        exact ⟨x, x1, by rw [x3], by rw [x3], p2 x x1 c c1 c2⟩
    cases hm : patchModes (cs.foldl applyChange (localGame N eps sps)) eg N os fuel a n 0 st with
    | ub => rw [hm] at h; simp at h
    | err => rw [hm] at h; simp at h
    | timeout => rw [hm] at h; simp at h
    | ok R0 =>
      rw [hm] at h
      simp only [SRes.ok.injEq] at h
      obtain ⟨i1, i2, i3⟩ := patchModes_inv hagree ho hS.closed n 0 st R0 (by omega) I0
        (scope_refl N a st) hm
      refine ⟨a, R0, h.symm, i1, i2, p2, haff, fun hX => i3 ⟨?_, ?_⟩⟩
      · intro x hx hna
        exact (untouched_ok cs hC (hunt x hx hna)).2 (ha0 x hx)
      · intro x hx y hy he hne _ hy'
        exact hX x hx y hy he hne ((haff _).1 hy')

private theorem closed_iff {l : Aut ℤ (E × S)} (h : ∀ x ∈ l, ∀ j ∈ x.trans, ∃ y ∈ l, y.id = j) : Closed l := by
  intro x hx j hj
  exact mem_ids.2 (h x hx j hj)

/-- **C49, the patched strategy is correct in the changed game.** If the given strategy seeks the goals
in order, answers every move of the environment and carries the annotation of a synthesized strategy,
no edge inside the neighbourhood part of a touched mode leaves a state that satisfies all goals, and
`patch_localfixpoint` returns an automaton, then in it addresses are distinct, every edge leads to
a node, every edge is a legal move of the system in the changed game, there is at most one edge for
every move of the environment, and every infinite run satisfies the liveness part: if each environment
goal holds infinitely often, so does each system goal. -/
theorem patch_runs_partial (hG : IsConjunction eps sps G) (hS : SeeksInOrder G eg sg st) (hA : AnswersAll G st)
    (hN : Annotated sg st) (hW : NoWrap sg N cs st) (hC : ChangedByAll G cs G')
    (ho : ∀ g, (os g).Valid (cs.foldl applyChange (localGame N eps sps)))
    (h : patchLocalfixpoint eps sps eg n N cs os fuel st = .ok R) :
    (R.map (·.id)).Nodup ∧ (∀ x ∈ R, ∀ j ∈ x.trans, ∃ y ∈ R, y.id = j) ∧ (∀ x ∈ R, EdgesSound G' R x) ∧
      ∀ ρ, IsRun R ρ → Live eg sg (fun k => (ρ k).state) := by
  obtain ⟨a, R0, rfl, I, -, -, -, -⟩ := patch_run hG hS hA hN hW hC ho h
  obtain ⟨q1, q2, q3, q4, q5, -⟩ := prune_deadends_exact R0 I.ids (closed_iff I.closed)
  have hnd : (Aut.ids (autPruneDeadends R0)).Nodup := I.ids.sublist q4
  choose! f f1 f2 f3 f4 f5 f6 f7 f8 using q5
  have hmode : ∀ x ∈ R0, ¬ (((n : ℕ) : ℤ) ≤ x.mode ∧ (x.mode, x.id) ∈ a) := by
    rintro x hx ⟨hc, -⟩
    obtain ⟨i, hi⟩ := I.modes x hx
    have := i.isLt
    omega
  refine ⟨hnd, fun x hx j hj => mem_ids.1 (q2 x hx j hj), ?_, ?_⟩
  · intro x hx
    obtain ⟨s1, s2⟩ := I.sound (f x) (f1 x hx) (hmode _ (f1 x hx))
    refine ⟨?_, ?_⟩
    · intro y hy he
      rw [f3 x hx, f3 y hy]
      exact s1 _ (f1 y hy) (by rw [← f2 y hy]; exact ((f8 x hx) _).1 he |>.1)
    · intro y hy y' hy' he he' hs
      have := s2 _ (f1 y hy) _ (f1 y' hy') (by rw [← f2 y hy]; exact ((f8 x hx) _).1 he |>.1)
        (by rw [← f2 y' hy']; exact ((f8 x hx) _).1 he' |>.1) (by rw [← f3 y hy, ← f3 y' hy', hs])
      exact eq_of_id_eq hnd hy hy' (by rw [f2 y hy, f2 y' hy', this])
  · intro ρ hρ
    have hrun : IsRun R0 fun k => f (ρ k) := by
      intro k
      refine ⟨f1 _ (hρ k).1, ?_⟩
      rw [← f2 _ (hρ (k + 1)).1]
      exact ((f8 _ (hρ k).1) _).1 (hρ k).2 |>.1
    have := I.live _ hrun
    have hst : (fun k => (ρ k).state) = fun k => (f (ρ k)).state := funext fun k => f3 _ (hρ k).1
    rw [hst]
    exact this

private theorem prune_eq_self {l : Aut ℤ (E × S)} (hids : (Aut.ids l).Nodup)
    (hcl : ∀ x ∈ l, ∀ j ∈ x.trans, ∃ y ∈ l, y.id = j) (hne : ∀ x ∈ l, x.trans ≠ []) :
    autPruneDeadends l = l := by
  classical
  rw [autPruneDeadends_eq l hids (closed_iff hcl)]
  exact restrict_all_live (closed_iff hcl) hne

/-- **C49, no dead ends.** If moreover no edge from a node of another mode leads into the neighbourhood
part of a touched mode, and in the changed game the environment can always move, then every node of the
result answers every legal move of the environment. -/
theorem patch_answers_partial (hG : IsConjunction eps sps G) (hS : SeeksInOrder G eg sg st) (hA : AnswersAll G st)
    (hN : Annotated sg st) (hW : NoWrap sg N cs st) (hC : ChangedByAll G cs G')
    (ho : ∀ g, (os g).Valid (cs.foldl applyChange (localGame N eps sps)))
    (hX : NoCross N cs st) (hE : ∀ s, ∃ e, G'.etr s e = true)
    (h : patchLocalfixpoint eps sps eg n N cs os fuel st = .ok R) : ∀ x ∈ R, Answered G' R x := by
  obtain ⟨a, R0, rfl, I, -, -, -, hans⟩ := patch_run hG hS hA hN hW hC ho h
  have hA' : ∀ x ∈ R0, Answered G' R0 x := by
    intro x hx
    refine (hans hX).ans x hx ?_
    rintro ⟨hc, -⟩
    obtain ⟨i, hi⟩ := I.modes x hx
    have := i.isLt
    omega
  rw [prune_eq_self I.ids I.closed fun x hx hc => by
    obtain ⟨e, he⟩ := hE x.state
    obtain ⟨y, -, y2, -⟩ := hA' x hx e he
    rw [hc] at y2
    simp at y2]
  exact hA'

/-- **C49, scope.** Every node of the result is a node of the given strategy, with the same address,
state, goal mode and initial mark, or it is a new node: its state lies in the neighbourhood and its
goal mode is one that a command touched. -/
theorem patch_scope (hG : IsConjunction eps sps G) (hS : SeeksInOrder G eg sg st) (hA : AnswersAll G st)
    (hN : Annotated sg st) (hW : NoWrap sg N cs st)
    (ho : ∀ g, (os g).Valid (cs.foldl applyChange (localGame N eps sps)))
    (h : patchLocalfixpoint eps sps eg n N cs os fuel st = .ok R) :
    ∀ y ∈ R, (∃ x ∈ st, SameNode x y) ∨ (y.state ∈ N ∧ TouchedMode st cs y.mode ∧ y.initial = false) := by
  obtain ⟨a, R0, rfl, I, C, -, haff, -⟩ := patch_run hG hS hA hN hW (changedByAll_foldl G cs) ho h
  obtain ⟨-, -, -, -, q5, -⟩ := prune_deadends_exact R0 I.ids (closed_iff I.closed)
  intro y hy
  obtain ⟨w, w1, w2, w3, w4, -, w5, -⟩ := q5 y hy
  rcases C.from' w w1 with ⟨x, x1, x2⟩ | ⟨x1, x2, x3⟩
  · exact Or.inl ⟨x, x1, x2.trans ⟨w2, w3, w4, w5⟩⟩
  · exact Or.inr ⟨by rw [w3]; exact x1, by rw [w4]; exact (haff _).1 x2, by rw [w5]; exact x3⟩

/-- **C49, what is kept.** Under the assumptions of `patch_answers_partial`, every node outside of the
neighbourhood and every node of an untouched goal mode is in the result, with the same address, state,
goal mode and initial mark, with the annotation multiplied by a factor that is the same for all of
them, and with the same edges if none of them leads to a node of a touched mode in the neighbourhood. -/
theorem patch_keeps_partial (hG : IsConjunction eps sps G) (hS : SeeksInOrder G eg sg st) (hA : AnswersAll G st)
    (hN : Annotated sg st) (hW : NoWrap sg N cs st) (hC : ChangedByAll G cs G')
    (ho : ∀ g, (os g).Valid (cs.foldl applyChange (localGame N eps sps)))
    (hX : NoCross N cs st) (hE : ∀ s, ∃ e, G'.etr s e = true)
    (h : patchLocalfixpoint eps sps eg n N cs os fuel st = .ok R) :
    ∃ c : ℕ, 1 ≤ c ∧ ∀ x ∈ st, x.state ∉ N ∨ ¬ TouchedMode st cs x.mode →
      ∃ y ∈ R, SameNode x y ∧ y.rgrad = x.rgrad * c ∧
        ((∀ u ∈ st, u.id ∈ x.trans → u.state ∉ N ∨ ¬ TouchedMode st cs u.mode) → y.trans = x.trans) := by
  obtain ⟨a, R0, rfl, I, C, -, haff, hans⟩ := patch_run hG hS hA hN hW hC ho h
  have haff' : ∀ i, affOf a i = [] ↔ ¬ TouchedMode st cs i := by
    intro i
    rw [← haff, not_not]
  rw [prune_eq_self I.ids I.closed fun x hx hc => by
    obtain ⟨e, he⟩ := hE x.state
    obtain ⟨y, -, y2, -⟩ := (hans hX).ans x hx (by
      rintro ⟨hc, -⟩
      obtain ⟨i, hi⟩ := I.modes x hx
      have := i.isLt
      omega) e he
    rw [hc] at y2
    simp at y2]
  simpa only [haff'] using C.keep

/-- **C49, the change lies outside of the neighbourhood.** If a command touches a node outside of the
neighbourhood, the function reports an error. -/
theorem patch_outside (hids : (st.map (·.id)).Nodup) (hcl : ∀ x ∈ st, ∀ j ∈ x.trans, ∃ y ∈ st, y.id = j)
    (hmodes : ∀ x ∈ st, ∃ i : Fin n, x.mode = (i.val : ℤ))
    (hout : ∃ x ∈ st, ∃ c ∈ cs, Touches st c x ∧ x.state ∉ N) :
    patchLocalfixpoint eps sps eg n N cs os fuel st = .err := by
  unfold patchLocalfixpoint
  rw [processChanges_err hids hcl hmodes cs _ _ hout]

/-- **C49, untouched.** If no command touches a node, then nothing happens but the removal of dead
ends; if there are none, the strategy is returned as it was. -/
theorem patch_untouched (hids : (st.map (·.id)).Nodup) (hcl : ∀ x ∈ st, ∀ j ∈ x.trans, ∃ y ∈ st, y.id = j)
    (hmodes : ∀ x ∈ st, ∃ i : Fin n, x.mode = (i.val : ℤ))
    (hun : ∀ x ∈ st, ∀ c ∈ cs, ¬ Touches st c x) :
    patchLocalfixpoint eps sps eg n N cs os fuel st = .ok (autPruneDeadends st) ∧
      ((∀ x ∈ st, x.trans ≠ []) → patchLocalfixpoint eps sps eg n N cs os fuel st = .ok st) := by
  have key : patchLocalfixpoint eps sps eg n N cs os fuel st = .ok (autPruneDeadends st) := by
    unfold patchLocalfixpoint
    obtain ⟨a, ha⟩ := processChanges_ok hids hcl hmodes (N := N) cs (localGame N eps sps) []
      (fun x hx c hc ht => absurd ht (hun x hx c hc))
    rw [ha]
    obtain ⟨-, -, p3⟩ := processChanges_spec (n := n) hids hmodes _ _ _ _ _ ha
    have hnil : a = [] := by
      rw [List.eq_nil_iff_forall_not_mem]
      intro p hp
      rcases (p3 p).1 hp with hp | ⟨x, x1, ⟨c, c1, c2⟩, -⟩
      · simp at hp
      · exact hun x x1 c c1 c2
    have hid : ∀ (k g : ℕ), patchModes (cs.foldl applyChange (localGame N eps sps)) eg N os fuel a k g st = .ok st := by
      intro k
      induction k with
      | zero => intro g; rfl
      | succ k ih =>
        intro g
        simp only [patchModes]
        have : localFix (cs.foldl applyChange (localGame N eps sps)) eg N (os g) fuel (g : ℤ) (affOf a (g : ℤ)) st = .ok st := by
          unfold localFix
          rw [if_pos (by rw [hnil]; rfl)]
        rw [this]
        exact ih (g + 1)
    simp only [hid]
  refine ⟨key, fun hne => ?_⟩
  rw [key, prune_eq_self hids hcl hne]

/-! ## Examples -/

namespace PatchEx

/-- A graph in which the system moves; there are no environment variables. -/
def graph (k : ℕ) (succ : Fin k → List (Fin k)) : Game Unit (Fin k) :=
  ⟨fun _ _ => true, fun s t => t.2 ∈ succ s.2⟩

/-- The states with the given numbers. -/
def goal (k : ℕ) (l : List (Fin k)) : Finset (Unit × Fin k) := Finset.univ.filter fun s => s.2 ∈ l

/-- Addresses above `base`. -/
def orc {k : ℕ} (G : Game Unit (Fin k)) (d : Fin k) (base : ℕ) : Oracle Unit (Fin k) :=
  let o := stdOracle G ((List.finRange k).map fun e => ((), e)) [()] ((), d)
  { o with alloc := fun c l => o.alloc c l + base }

theorem valid_add {G : Game E S} {o : Oracle E S} (h : o.Valid G) (base : ℕ)
    (hall : o.alloc = fun _ ids => ids.foldr max 0 + 1) :
    Oracle.Valid { o with alloc := fun c l => o.alloc c l + base } G := by
  refine ⟨?_, h.pick, h.moves_nodup, h.moves_mem, h.enum_nodup, h.enum_mem, h.enumEnv_nodup, h.enumEnv_mem⟩
  intro c ids hc
  have hle : ∀ l : List ℕ, ∀ i ∈ l, i ≤ l.foldr max 0 := by
    intro l
    induction l with
    | nil => simp
    | cons a l ih =>
      intro i hi
      rcases List.mem_cons.1 hi with rfl | hi
      · simp
      · have := ih i hi
        simp only [List.foldr_cons]
        omega
  have := hle ids _ hc
  simp only [hall] at this
  omega

theorem orc_valid {k : ℕ} (G : Game Unit (Fin k)) (d : Fin k) (base : ℕ) : (orc G d base).Valid G :=
  valid_add (stdOracle_valid G ((List.finRange k).map fun e => ((), e)) [()] ((), d)
    ((List.nodup_finRange k).map fun _ _ h => (Prod.mk.inj h).2)
    (fun s => List.mem_map.2 ⟨s.2, List.mem_finRange _, rfl⟩) (by simp) (by simp)) base rfl

/-- The states with the given numbers, as a list. -/
def pts {k : ℕ} (l : List (Fin k)) : List (Unit × Fin k) := l.map fun s => ((), s)

/-- The cycle 0 → 1 → 2 → 3 → 4 → 0 with a way around 2 → 5 → 3 and a first state 6 → 1; the goals are
{4} and {0}. -/
def Ga : Game Unit (Fin 7) := graph 7 fun s =>
  if s = 0 then [1] else if s = 1 then [2] else if s = 2 then [3, 5] else if s = 3 then [4]
  else if s = 4 then [0] else if s = 5 then [3] else [1]
def sa : List (Finset (Unit × Fin 7)) := [goal 7 [4], goal 7 [0]]

/-- The strategy `synthesize` returns. -/
def sta : Aut (Fin 2) (Unit × Fin 7) :=
  [⟨6, ((), 0), 0, 4, false, [2]⟩, ⟨5, ((), 4), 1, 1, false, [6]⟩, ⟨4, ((), 3), 0, 1, false, [5]⟩,
    ⟨3, ((), 2), 0, 2, false, [4]⟩, ⟨2, ((), 1), 0, 3, false, [3]⟩, ⟨1, ((), 6), 0, 4, true, [2]⟩]

theorem sta_synth : synthesize Ga [] sa .allInit none (some (goal 7 [6])) (orc Ga 0 0) 100 = .ok sta := by
  decide +kernel

/-- The edge from 2 to 3 is removed. -/
def ca : List (Change Unit (Fin 7)) := [.restrictSys ((), 2) ((), 3)]

/-- The game after the change. -/
def Ga' : Game Unit (Fin 7) := ca.foldl applyChange Ga

/-- The strategy after patching: at 2 it goes to 5. -/
def sta' : Aut ℤ (Unit × Fin 7) :=
  [⟨6, ((), 0), 0, 12, false, [107]⟩, ⟨5, ((), 4), 1, 3, false, [6]⟩, ⟨4, ((), 3), 0, 3, false, [5]⟩,
    ⟨1, ((), 6), 0, 12, true, [107]⟩, ⟨309, ((), 5), 0, 4, false, [4]⟩, ⟨208, ((), 2), 0, 5, false, [309]⟩,
    ⟨107, ((), 1), 0, 6, false, [208]⟩]

set_option synthInstance.maxSize 1000 in
theorem sta_patched : patchLocalfixpoint [] [Ga.str] (withDefaultGoal []).get 2 (pts [1, 2, 3, 5]) ca
    (fun _ => orc (ca.foldl applyChange (localGame (pts [1, 2, 3, 5]) [] [Ga.str])) 0 100) 100 (intModes sta) =
    .ok sta' := by decide +kernel

theorem sta_real : checkRealizable Ga [] sa .allInit none (some (goal 7 [6])) =
    some (some Finset.univ) := by decide +kernel

theorem sta_annotated : Annotated sa.get (intModes sta) := by
  constructor <;> decide +kernel

instance decTouches (st : Aut ℤ (E × S)) (c : Change E S) (x : ANode ℤ (E × S)) : Decidable (Touches st c x) := by
  cases c <;> unfold Touches <;> infer_instance

instance decTouchedMode (st : Aut ℤ (E × S)) (cs : List (Change E S)) (i : ℤ) :
    Decidable (TouchedMode st cs i) := by
  unfold TouchedMode; infer_instance

theorem conj_single (G : Game Unit S) (h : ∀ s e, G.etr s e = true) : IsConjunction [] [G.str] G :=
  ⟨fun s e => by simp [h], fun s t => by simp⟩

theorem sta_nowrap : NoWrap sa.get (pts [1, 2, 3, 5]) ca (intModes sta) := by
  unfold NoWrap; decide +kernel

theorem sta_nocross : NoCross (pts [1, 2, 3, 5]) ca (intModes sta) := by
  unfold NoCross; decide +kernel

/-- The hypotheses of the theorems above hold for the cycle: the patched strategy is correct in the
changed game, and the nodes with the states 0, 3, 4 and 6 are kept. -/
example : (∀ x ∈ sta', EdgesSound Ga' sta' x) ∧ (∀ x ∈ sta', Answered Ga' sta' x) ∧
    (∀ ρ, IsRun sta' ρ → ∀ i, InfOften (fun k => (ρ k).state) (sa.get i)) ∧
    (∃ x ∈ intModes sta, Touches (intModes sta) (.restrictSys ((), 2) ((), 3)) x) ∧
    ∀ y ∈ sta', (∃ x ∈ intModes sta, SameNode x y) ∨
      (y.state ∈ pts [1, 2, 3, 5] ∧ TouchedMode (intModes sta) ca y.mode ∧ y.initial = false) := by
  obtain ⟨hs, ha⟩ := synthesize_seeks (orc_valid Ga 0 0) sta_real sta_synth
  have hG := conj_single Ga (fun _ _ => rfl)
  have hC : ChangedByAll Ga ca Ga' := changedByAll_foldl Ga ca
  obtain ⟨-, -, r3, r4⟩ := patch_runs_partial hG hs ha sta_annotated sta_nowrap hC (fun _ => orc_valid _ 0 100) sta_patched
  refine ⟨r3, patch_answers_partial hG hs ha sta_annotated sta_nowrap hC (fun _ => orc_valid _ 0 100) sta_nocross
    (fun _ => ⟨(), rfl⟩) sta_patched, ?_, by decide +kernel,
    patch_scope hG hs ha sta_annotated sta_nowrap (fun _ => orc_valid _ 0 100) sta_patched⟩
  intro ρ hρ i
  refine r4 ρ hρ ?_ i
  intro r T
  exact ⟨T, le_rfl, (by decide : ∀ r : Fin (withDefaultGoal ([] : List (Finset (Unit × Fin 7)))).length,
    ∀ s, s ∈ (withDefaultGoal []).get r) r _⟩

/-- All nodes outside of the neighbourhood and all nodes of mode 1 are kept, with annotations
multiplied by three. -/
example : ∃ c : ℕ, 1 ≤ c ∧ ∀ x ∈ intModes sta,
    x.state ∉ pts [1, 2, 3, 5] ∨ ¬ TouchedMode (intModes sta) ca x.mode →
      ∃ y ∈ sta', SameNode x y ∧ y.rgrad = x.rgrad * c ∧
        ((∀ u ∈ intModes sta, u.id ∈ x.trans → u.state ∉ pts [1, 2, 3, 5] ∨
          ¬ TouchedMode (intModes sta) ca u.mode) → y.trans = x.trans) := by
  obtain ⟨hs, ha⟩ := synthesize_seeks (orc_valid Ga 0 0) sta_real sta_synth
  exact patch_keeps_partial (conj_single Ga (fun _ _ => rfl)) hs ha sta_annotated sta_nowrap
    (changedByAll_foldl Ga ca) (fun _ => orc_valid _ 0 100) sta_nocross (fun _ => ⟨(), rfl⟩) sta_patched

/-- The change is refused if the state 2 is not in the neighbourhood. -/
example : patchLocalfixpoint [] [Ga.str] (withDefaultGoal []).get 2 (pts [1, 3, 5]) ca
    (fun _ => orc Ga' 0 100) 100 (intModes sta) = .err := by
  obtain ⟨hs, -⟩ := synthesize_seeks (orc_valid Ga 0 0) sta_real sta_synth
  exact patch_outside hs.ids hs.closed hs.modes (by decide +kernel)

/-- Removing the edge from 5 to 3, which the strategy does not use, changes nothing. -/
example : patchLocalfixpoint [] [Ga.str] (withDefaultGoal []).get 2 (pts [1, 3, 5])
    [.restrictSys ((), 5) ((), 3)] (fun _ => orc Ga' 0 100) 100 (intModes sta) = .ok (intModes sta) := by
  obtain ⟨hs, -⟩ := synthesize_seeks (orc_valid Ga 0 0) sta_real sta_synth
  exact (patch_untouched hs.ids hs.closed hs.modes (by decide +kernel)).2 (by decide +kernel)

/-! ### Where it goes wrong -/

/-- The cycle 0 → 2 → 3 → 0 with a way around 2 → 4 → 3 and a first part 5 → 1 → 2; the goal is {3}. -/
def Gb : Game Unit (Fin 6) := graph 6 fun s =>
  if s = 0 then [2] else if s = 1 then [2] else if s = 2 then [3, 4] else if s = 3 then [0]
  else if s = 4 then [3] else [1]

def sb : List (Finset (Unit × Fin 6)) := [goal 6 [3]]

/-- The strategy `synthesize` returns. -/
def stb : Aut (Fin 1) (Unit × Fin 6) :=
  [⟨5, ((), 0), 0, 2, false, [3]⟩, ⟨4, ((), 3), 0, 0, false, [5]⟩, ⟨3, ((), 2), 0, 1, false, [4]⟩,
    ⟨2, ((), 1), 0, 2, false, [3]⟩, ⟨1, ((), 5), 0, 3, true, [2]⟩]

def cb : List (Change Unit (Fin 6)) := [.restrictSys ((), 2) ((), 3)]

def stb' : Aut ℤ (Unit × Fin 6) :=
  [⟨5, ((), 0), 0, 6, false, [3]⟩, ⟨4, ((), 3), 0, 0, false, [5]⟩, ⟨3, ((), 2), 0, 3, false, [4]⟩,
    ⟨1, ((), 5), 0, 9, true, [106]⟩, ⟨308, ((), 4), 0, 1, false, [4]⟩, ⟨207, ((), 2), 0, 2, false, [308]⟩,
    ⟨106, ((), 1), 0, 3, false, [207]⟩]

/-- At state 4 the environment chooses between `false` (go on to 6) and `true` (go on to 0); from 0 and 6
the way leads over 1, 2 and 3 (or 5 and 3) back to 4. The goals are {4} and {0, 6}. -/
def Gd : Game Bool (Fin 7) :=
  ⟨fun s e => e = false ∨ s.2 = 4, fun s t => t.2 ∈
    (if s.2 = 0 then [1] else if s.2 = 1 then [2] else if s.2 = 2 then [3, 5] else if s.2 = 3 then [4]
    else if s.2 = 4 then (if t.1 then [0] else [6]) else if s.2 = 5 then [3] else [1] : List (Fin 7))⟩

def goal2 (l : List (Fin 7)) : Finset (Bool × Fin 7) := Finset.univ.filter fun s => s.2 ∈ l
def sd : List (Finset (Bool × Fin 7)) := [goal2 [4], goal2 [0, 6]]
def id' : Option (Finset (Bool × Fin 7)) := some {(false, 6)}

def orc2 (G : Game Bool (Fin 7)) (base : ℕ) : Oracle Bool (Fin 7) :=
  let o := stdOracle G ((List.finRange 7).flatMap fun e => [(false, e), (true, e)]) [false, true] (false, 0)
  { o with alloc := fun c l => o.alloc c l + base }

theorem orc2_valid (G : Game Bool (Fin 7)) (base : ℕ) : (orc2 G base).Valid G :=
  valid_add (stdOracle_valid G _ _ _ (by decide) (by decide) (by decide) (by decide)) base rfl

/-- The strategy `synthesize` returns. -/
def std : Aut (Fin 2) (Bool × Fin 7) :=
  [⟨6, (true, 0), 0, 4, false, [2]⟩, ⟨5, (false, 4), 1, 1, false, [1, 6]⟩, ⟨4, (false, 3), 0, 1, false, [5]⟩,
    ⟨3, (false, 2), 0, 2, false, [4]⟩, ⟨2, (false, 1), 0, 3, false, [3]⟩, ⟨1, (false, 6), 0, 4, true, [2]⟩]

/-- All states with system values 0, 1, 2, 3, 5. -/
def Nd : List (Bool × Fin 7) := [0, 1, 2, 3, 5].flatMap fun s => [(false, s), (true, s)]

def cd : List (Change Bool (Fin 7)) := [.restrictSys (false, 2) (false, 3)]

def std' : Aut ℤ (Bool × Fin 7) :=
  [⟨5, (false, 4), 1, 3, false, [1]⟩, ⟨4, (false, 3), 0, 3, false, [5]⟩, ⟨1, (false, 6), 0, 12, true, [107]⟩,
    ⟨309, (false, 5), 0, 4, false, [4]⟩, ⟨208, (false, 2), 0, 5, false, [309]⟩,
    ⟨107, (false, 1), 0, 6, false, [208]⟩]

/-- The strategy for the first graph, from the first state 1. -/
def ste : Aut (Fin 2) (Unit × Fin 7) :=
  [⟨5, ((), 0), 0, 4, false, [1]⟩, ⟨4, ((), 4), 1, 1, false, [5]⟩, ⟨3, ((), 3), 0, 1, false, [4]⟩,
    ⟨2, ((), 2), 0, 2, false, [3]⟩, ⟨1, ((), 1), 0, 3, true, [2]⟩]

def ste' : Aut ℤ (Unit × Fin 7) :=
  [⟨5, ((), 0), 0, 12, false, [106]⟩, ⟨4, ((), 4), 1, 3, false, [5]⟩, ⟨3, ((), 3), 0, 3, false, [4]⟩,
    ⟨308, ((), 5), 0, 4, false, [3]⟩, ⟨207, ((), 2), 0, 5, false, [308]⟩, ⟨106, ((), 1), 0, 6, false, [207]⟩]

end PatchEx

open PatchEx

set_option synthInstance.maxSize 1000 in
/-- **Defect.** The nodes that `forward_modereach` finds from the exits are kept, lines 273-275 and
287-301. With one system goal (or at a state that satisfies all goals) the goal mode does not change at
the goal, so the search goes on past the goal and may come to the affected node. Here the strategy is
one that `synthesize` returns and the edge from 2 to 3 is removed from the game; the result still
uses that edge. -/
theorem patch_wrap_illegal :
    checkRealizable Gb [] sb .allInit none (some (goal 6 [5])) = some (some Finset.univ) ∧
    synthesize Gb [] sb .allInit none (some (goal 6 [5])) (orc Gb 0 0) 100 = .ok stb ∧
    Annotated sb.get (intModes stb) ∧
    patchLocalfixpoint [] [Gb.str] (withDefaultGoal []).get 1 (pts [0, 1, 2, 3, 4]) cb
      (fun _ => orc (cb.foldl applyChange Gb) 0 100) 100 (intModes stb) = .ok stb' ∧
    (∃ G', ChangedByAll Gb cb G' ∧ ∃ x ∈ stb', ∃ y ∈ stb', y.id ∈ x.trans ∧ G'.str x.state y.state = false) := by
  refine ⟨by decide +kernel, by decide +kernel, by constructor <;> decide +kernel, by decide +kernel,
    cb.foldl applyChange Gb, changedByAll_foldl Gb cb, by decide +kernel⟩

set_option synthInstance.maxSize 1000 in
/-- **Defect.** Only edges from nodes of the same goal mode outside of the neighbourhood are put in
`Entry`, lines 124-149. An edge from a node of another mode into the neighbourhood is lost when its
target is deleted. Here the result does not answer the move of the environment to `true` at state 4,
which the given strategy answers and the change does not concern. -/
theorem patch_cross_unanswered :
    checkRealizable Gd [] sd .allInit none id' = some (some Finset.univ) ∧
    synthesize Gd [] sd .allInit none id' (orc2 Gd 0) 100 = .ok std ∧
    Annotated sd.get (intModes std) ∧ NoWrap sd.get Nd cd (intModes std) ∧
    patchLocalfixpoint [Gd.etr] [Gd.str] (withDefaultGoal []).get 2 Nd cd
      (fun _ => orc2 (cd.foldl applyChange Gd) 100) 100 (intModes std) = .ok std' ∧
    (∃ G', ChangedByAll Gd cd G' ∧ ∃ x ∈ std', x.state ∉ Nd ∧ G'.etr x.state true = true ∧
      ∀ y ∈ std', y.id ∈ x.trans → y.state.1 ≠ true) := by
  refine ⟨by decide +kernel, by decide +kernel, by constructor <;> decide +kernel,
    by unfold NoWrap; decide +kernel, by decide +kernel, cd.foldl applyChange Gd, changedByAll_foldl Gd cd,
    by decide +kernel⟩

set_option synthInstance.maxSize 1000 in
/-- **Defect.** A node in the neighbourhood that provides an initial condition is replaced by a new node
without the mark. Here the result of patching a strategy with one initial node has none. -/
theorem patch_initial_lost :
    synthesize Ga [] sa .allInit none (some (goal 7 [1])) (orc Ga 0 0) 100 = .ok ste ∧
    (∃ x ∈ ste, x.initial = true) ∧
    patchLocalfixpoint [] [Ga.str] (withDefaultGoal []).get 2 (pts [1, 2, 3, 5]) ca
      (fun _ => orc Ga' 0 100) 100 (intModes ste) = .ok ste' ∧
    ∀ y ∈ ste', y.initial = false := by
  refine ⟨by decide +kernel, by decide +kernel, by decide +kernel, by decide +kernel⟩

set_option synthInstance.maxSize 1000 in
/-- **Defect.** If the neighbourhood covers the part of the goal mode so that no edge of this mode leads
into it, `Entry` is empty and NULL is returned, although the changed specification is realizable. -/
theorem patch_whole_fails :
    (∃ W, checkRealizable Ga' [] sa .allInit none (some (goal 7 [1])) = some (some W)) ∧
    patchLocalfixpoint [] [Ga.str] (withDefaultGoal []).get 2 (pts [0, 1, 2, 3, 4, 5, 6]) ca
      (fun _ => orc Ga' 0 100) 100 (intModes ste) = .err :=
  ⟨⟨Finset.univ, by decide +kernel⟩, by decide +kernel⟩

end Gr1c
