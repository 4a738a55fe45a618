import Verif.ReachInv
import Verif.SynthProps

/-!
# C33, C34, C07, C51: the reachability game
-/

namespace Gr1c

deriving instance DecidableEq for SRes

set_option linter.unusedSectionVars false

variable {E S : Type} [Fintype E] [DecidableEq E] [Fintype S] [DecidableEq S] {m : ℕ}
  {G : Game E S} {Entry Exit N : Finset (E × S)} {eg : Fin m → Finset (E × S)} {o : Oracle E S}

private theorem run_inv (hX : Exit ⊆ N) (ho : o.Valid G) {fuel : ℕ} {st : Aut ℤ (E × S)}
    (h : reachGame G Entry Exit N eg o fuel = .ok st) (hne : st ≠ []) :
    ∃ L k, reachLevels G Entry Exit N eg = some L ∧ RCore G Exit N eg L ⟨st, [], k⟩ ∧
      (∀ x ∈ st, RGood G Exit N eg L st [] x) ∧ ∀ s ∈ Entry, ∃ x ∈ st, x.state = s := by
  cases hl : reachLevels G Entry Exit N eg with
  | none =>
    unfold reachGame at h
    rw [hl] at h
    cases h
    exact absurd rfl hne
  | some L =>
    obtain ⟨st', k, h1, h2⟩ := reachGame_run hX ho hl
      (fuel := max fuel (Fintype.card E * Fintype.card S)) (le_max_right _ _)
    rw [reachGame_fuel h (le_max_left _ _)] at h1
    cases h1
    exact ⟨L, k, rfl, h2⟩

/-! ## C33 -/

/-- **C33, safety.** In a strategy returned by `synthesize_reachgame_BDD` addresses are distinct, no
state occurs twice, all modes are -1, every state of `Entry` has a node, every node is in `N`, a node
in `Exit` has no edges, and a node outside of `Exit` has exactly one edge for every legal environment
move, legal for the system, and no other edges. Holds for every behaviour of the allocator, every
choice of cubes and every order of moves. -/
theorem reach_answers (hX : Exit ⊆ N) (ho : o.Valid G) {fuel : ℕ} {st : Aut ℤ (E × S)}
    (h : reachGame G Entry Exit N eg o fuel = .ok st) (hne : st ≠ []) :
    (st.map (·.id)).Nodup ∧ (st.map (·.state)).Nodup ∧ (∀ s ∈ Entry, ∃ x ∈ st, x.state = s) ∧
    ∀ x ∈ st, x.mode = -1 ∧ x.state ∈ N ∧ (∀ j ∈ x.trans, ∃ y ∈ st, y.id = j) ∧
      (x.state ∈ Exit → x.trans = []) ∧
      (∀ y ∈ st, y.id ∈ x.trans → G.etr x.state y.state.1 = true ∧ G.str x.state y.state = true) ∧
      (x.state ∉ Exit → x.trans.Nodup ∧
        ∀ e, G.etr x.state e = true → ∃! y, y ∈ st ∧ y.id ∈ x.trans ∧ y.state.1 = e) := by
  obtain ⟨L, k, hL, h2, h3, h4⟩ := run_inv hX ho h hne
  have h1 : (Aut.ids st).Nodup := h2.ids
  have hkeys : (st.map ANode.key).Nodup := h2.keys
  refine ⟨h1, ?_, h4, ?_⟩
  · rw [List.nodup_map_iff_inj_on hkeys.of_map]
    intro a ha b hb hab
    apply eq_of_key_eq hkeys ha hb
    unfold ANode.key
    rw [(h2.mode a ha).1, (h2.mode b hb).1, hab]
  intro x hx
  have hmode := (h2.mode x hx).1
  have hN := rlev_subset_N hX _ (h2.win x hx)
  rcases h3 x hx with ⟨_, hbad⟩ | ⟨-, ⟨ht, hxE⟩ | ⟨hxE, es, ⟨es1, es2⟩, hE⟩⟩
  · simp at hbad
  · refine ⟨hmode, hN, ?_, fun _ => ht, ?_, fun hc => absurd hxE hc⟩
    · rw [ht]; simp
    · intro y _ hy
      rw [ht] at hy; simp at hy
  unfold REdges at hE
  have hfst : ∀ {e : E} {j : ℕ} {y : ANode ℤ (E × S)}, y ∈ st → y.id = j →
      (∃ t, (j, ((-1 : ℤ), t)) ∈ Aut.idk st ∧ REdge G Exit N eg L x.state e t) →
      y.state.1 = e ∧ G.str x.state y.state = true := by
    rintro e j y hy rfl ⟨t, q1, q2, q3, _⟩
    have : (-1, t) = y.key := idk_unique h1 q1 (mem_idk.2 ⟨y, hy, rfl, rfl⟩)
    have : t = y.state := congrArg Prod.snd this
    rw [this] at q2 q3
    exact ⟨q2, q3⟩
  have hsome : ∀ {e : E} {j : ℕ},
      (∃ t, (j, ((-1 : ℤ), t)) ∈ Aut.idk st ∧ REdge G Exit N eg L x.state e t) → ∃ y ∈ st, y.id = j := by
    rintro e j ⟨t, q1, _⟩
    obtain ⟨y, y1, y2, _⟩ := mem_idk.1 q1
    exact ⟨y, y1, y2⟩
  have hlen := hE.length_eq
  have hget := List.forall₂_iff_get.1 hE
  have hedge : ∀ j ∈ x.trans, ∃ i, ∃ (hi : i < es.length) (hi' : i < x.trans.length), x.trans[i] = j := by
    intro j hj
    obtain ⟨i, hi, rfl⟩ := List.getElem_of_mem hj
    exact ⟨i, by omega, hi, rfl⟩
  refine ⟨hmode, hN, ?_, fun hc => absurd hc hxE, ?_, fun _ => ⟨?_, ?_⟩⟩
  · intro j hj
    obtain ⟨i, hi, hi', rfl⟩ := hedge j hj
    exact hsome (hget.2 i hi hi')
  · intro y hy hj
    obtain ⟨i, hi, hi', hij⟩ := hedge _ hj
    obtain ⟨q1, q2⟩ := hfst hy hij.symm (hget.2 i hi hi')
    refine ⟨?_, q2⟩
    rw [q1]
    exact (es2 _).1 (List.get_mem _ _)
  · rw [List.nodup_iff_injective_get]
    intro a b hab
    have ha := hget.2 a.val (by omega) a.isLt
    have hb := hget.2 b.val (by omega) b.isLt
    obtain ⟨y, y1, y2⟩ := hsome ha
    have e1 := (hfst y1 y2 ha).1
    have e2 := (hfst y1 (by rw [y2]; exact hab) hb).1
    have := (List.nodup_iff_injective_get.1 es1) (a₁ := ⟨a.val, by omega⟩) (a₂ := ⟨b.val, by omega⟩)
      (by rw [← e1, ← e2])
    exact Fin.ext (Fin.mk.inj_iff.1 this)
  · intro e he
    obtain ⟨i, hi, rfl⟩ := List.getElem_of_mem ((es2 e).2 he)
    have hi' : i < x.trans.length := by omega
    obtain ⟨y, y1, y2⟩ := hsome (hget.2 i hi hi')
    have q1 := (hfst y1 y2 (hget.2 i hi hi')).1
    refine ⟨y, ⟨y1, ?_, q1⟩, ?_⟩
    · rw [y2]; exact List.get_mem _ _
    · rintro y' ⟨z1, z2, z3⟩
      obtain ⟨i2, hi2, hi2', hij⟩ := hedge _ z2
      have q2 := (hfst z1 hij.symm (hget.2 i2 hi2 hi2')).1
      have : (⟨i2, hi2⟩ : Fin es.length) = ⟨i, hi⟩ :=
        (List.nodup_iff_injective_get.1 es1) (by rw [← q2, z3]; rfl)
      have hii : i2 = i := congrArg Fin.val this
      subst hii
      exact eq_of_id_eq h1 z1 y1 (by rw [← hij, y2]; rfl)

/-- Every edge of the returned strategy makes progress. -/
private theorem edge_prog (hX : Exit ⊆ N) (ho : o.Valid G) {fuel : ℕ} {st : Aut ℤ (E × S)}
    (h : reachGame G Entry Exit N eg o fuel = .ok st) (hne : st ≠ []) :
    ∃ L, reachLevels G Entry Exit N eg = some L ∧
      (∀ x ∈ st, x.rgrad = levelOf L x.state ∧ x.state ∈ rlev G Exit N eg (L.length - 1)) ∧
      ∀ x ∈ st, ∀ y ∈ st, y.id ∈ x.trans → RProg G Exit N eg L x.state y.state := by
  obtain ⟨L, k, hL, h2, h3, -⟩ := run_inv hX ho h hne
  have h1 : (Aut.ids st).Nodup := h2.ids
  refine ⟨L, hL, ?_, ?_⟩
  · intro x hx
    refine ⟨?_, h2.win x hx⟩
    rcases h3 x hx with ⟨_, hbad⟩ | ⟨hr, -⟩
    · simp at hbad
    · exact hr
  · intro x hx y hy hid
    rcases h3 x hx with ⟨_, hbad⟩ | ⟨-, ⟨ht, -⟩ | ⟨-, es, -, hE⟩⟩
    · simp at hbad
    · rw [ht] at hid; simp at hid
    · unfold REdges at hE
      obtain ⟨i, hi, hij⟩ := List.getElem_of_mem hid
      obtain ⟨t, q1, -, -, -, q4⟩ := (List.forall₂_iff_get.1 hE).2 i (by rw [hE.length_eq]; exact hi) hi
      have : (-1, t) = y.key := idk_unique h1 q1 (mem_idk.2 ⟨y, hy, hij.symm, rfl⟩)
      have : t = y.state := congrArg Prod.snd this
      rw [this] at q4
      exact q4

/-- **C33, liveness.** Every infinite run of the returned strategy, from any node, violates some
environment goal from some time on. (An infinite run never visits `Exit`, nodes there have no
edges.) -/
theorem reach_live (hX : Exit ⊆ N) (ho : o.Valid G) {fuel : ℕ} {st : Aut ℤ (E × S)}
    (h : reachGame G Entry Exit N eg o fuel = .ok st)
    (ρ : ℕ → ANode ℤ (E × S)) (hρ : ∀ k, ρ k ∈ st ∧ (ρ (k + 1)).id ∈ (ρ k).trans) :
    ∃ r, ∃ K, ∀ k, K ≤ k → (ρ k).state ∉ eg r := by
  have hne : st ≠ [] := List.ne_nil_of_mem (hρ 0).1
  obtain ⟨L, -, -, hp⟩ := edge_prog hX ho h hne
  have hstep := fun k => hp (ρ k) (hρ k).1 (ρ (k + 1)) (hρ (k + 1)).1 (hρ k).2
  obtain ⟨M, -, hM⟩ := eventually_const (fun k => levelOf L (ρ k).state) 0 (fun k _ => by
    rcases hstep k with h | h
    · exact h.le
    · exact h.1.le)
  have hside : ∀ k, M ≤ k → rrix G Exit N eg (levelOf L (ρ (k + 1)).state - 1) (ρ (k + 1)).state ≤
      rrix G Exit N eg (levelOf L (ρ k).state - 1) (ρ k).state ∧
      ∃ hr : rrix G Exit N eg (levelOf L (ρ k).state - 1) (ρ k).state < m, (ρ k).state ∉ eg ⟨_, hr⟩ := by
    intro k hk
    have heq : levelOf L (ρ (k + 1)).state = levelOf L (ρ k).state := hM k hk
    rcases hstep k with h | h
    · omega
    · exact h.2
  obtain ⟨K, hK1, hK⟩ := eventually_const
    (fun k => rrix G Exit N eg (levelOf L (ρ k).state - 1) (ρ k).state) M (fun k hk => (hside k hk).1)
  have hconst : ∀ d, rrix G Exit N eg (levelOf L (ρ (K + d)).state - 1) (ρ (K + d)).state =
      rrix G Exit N eg (levelOf L (ρ K).state - 1) (ρ K).state := by
    intro d
    induction d with
    | zero => rfl
    | succ d ih => rw [← ih]; exact hK (K + d) (by omega)
  obtain ⟨hr, -⟩ := (hside K hK1).2
  refine ⟨⟨_, hr⟩, K, ?_⟩
  intro k hk
  obtain ⟨hr', hn⟩ := (hside k (by omega)).2
  have h1 := hconst (k - K)
  rw [show K + (k - K) = k by omega] at h1
  have : (⟨_, hr'⟩ : Fin m) = ⟨_, hr⟩ := Fin.ext h1
  rw [this] at hn
  exact hn

/-! ## C51: the annotation of reachability strategies -/

/-- **C51.** In a returned strategy the annotation `rgrad` of a node is 0 exactly in `Exit`, is never
negative, and never grows along an edge. -/
theorem reach_rgrad (hX : Exit ⊆ N) (ho : o.Valid G) {fuel : ℕ} {st : Aut ℤ (E × S)}
    (h : reachGame G Entry Exit N eg o fuel = .ok st) :
    ∀ x ∈ st, 0 ≤ x.rgrad ∧ (x.rgrad = 0 ↔ x.state ∈ Exit) ∧
      ∀ y ∈ st, y.id ∈ x.trans → y.rgrad ≤ x.rgrad := by
  intro x hx
  obtain ⟨L, hL, hr, hp⟩ := edge_prog hX ho h (List.ne_nil_of_mem hx)
  obtain ⟨q1, q2⟩ := hr x hx
  obtain ⟨a, b, c⟩ := reach_levelOf hL q2
  refine ⟨by rw [q1]; omega, ?_, ?_⟩
  · rw [q1]
    constructor
    · intro h0
      have : levelOf L x.state = 0 := by omega
      rw [this] at b
      exact b
    · intro hE
      have := c 0 hE
      omega
  · intro y hy hid
    rw [q1, (hr y hy).1]
    rcases hp x hx y hy hid with h | h
    · omega
    · rw [h.1]

/-! ## C34 -/

/-- **C34.** For a restriction that contains `Exit` and at least one environment goal (all callers add
one if there is none) the function finishes within `|states|` iterations, without error, and returns a
nonempty strategy exactly if `Entry` is not empty and every state of `Entry` can be won; so when it
fails for a nonempty `Entry`, from some state of `Entry` no system strategy reaches `Exit` within `N`
or blocks an environment goal. -/
theorem reach_exact (hX : Exit ⊆ N) (hm : 0 < m) (ho : o.Valid G) {fuel : ℕ}
    (hf : Fintype.card E * Fintype.card S ≤ fuel) :
    ∃ st, reachGame G Entry Exit N eg o fuel = .ok st ∧
      (st ≠ [] ↔ Entry.Nonempty ∧ ∀ s ∈ Entry, ReachWinnable G (List.ofFn eg) Exit N s) := by
  cases hl : reachLevels G Entry Exit N eg with
  | none =>
    refine ⟨[], by unfold reachGame; rw [hl], ?_⟩
    obtain ⟨j, h1, h2⟩ := reachLevels_none hl
    simp only [ne_eq, not_true_eq_false, false_iff]
    rintro ⟨-, hw⟩
    exact h2 fun s hs => rlev_of_winnable hm h1 (hw s hs)
  | some L =>
    obtain ⟨st, k, h1, h2, h3, h4⟩ := reachGame_run hX ho hl hf
    obtain ⟨-, -, -, -, hEn⟩ := reachLevels_spec hl
    refine ⟨st, h1, ?_⟩
    constructor
    · intro hne
      refine ⟨?_, fun s hs => winnable_of_rlev hm (hEn hs)⟩
      by_contra hemp
      rw [Finset.not_nonempty_iff_eq_empty] at hemp
      unfold reachGame at h1
      rw [hl] at h1
      simp only at h1
      have : o.enum Entry = [] := by
        rw [List.eq_nil_iff_forall_not_mem]
        intro s hs
        rw [ho.enum_mem, hemp] at hs
        simp at hs
      rw [this] at h1
      simp only [List.reverse_nil, reachInsert] at h1
      unfold reachLoop at h1
      cases h1
      exact hne rfl
    · rintro ⟨⟨s, hs⟩, -⟩
      obtain ⟨x, hx, -⟩ := h4 s hs
      exact List.ne_nil_of_mem hx

/-- The level computation alone, also when `Exit` is not within `N`: it succeeds exactly if every
state of `Entry` can be won. -/
theorem reach_levels_exact (hm : 0 < m) :
    (reachLevels G Entry Exit N eg).isSome ↔
      ∀ s ∈ Entry, ReachWinnable G (List.ofFn eg) Exit N s := by
  cases hl : reachLevels G Entry Exit N eg with
  | none =>
    obtain ⟨j, h1, h2⟩ := reachLevels_none hl
    simp only [Option.isSome_none, Bool.false_eq_true, false_iff]
    exact fun hw => h2 fun s hs => rlev_of_winnable hm h1 (hw s hs)
  | some L =>
    obtain ⟨-, -, -, -, hEn⟩ := reachLevels_spec hl
    simp only [Option.isSome_some, true_iff]
    exact fun s hs => winnable_of_rlev hm (hEn hs)

/-! ## The program `rg` -/

private theorem reachWins_default {egs : List (Finset (E × S))} {σ : Strategy E S} {s : E × S} :
    ReachWins G (withDefaultGoal egs) Exit N σ s ↔ ReachWins G egs Exit N σ s := by
  unfold withDefaultGoal
  split
  · rename_i h
    subst h
    unfold ReachWins
    simp only [List.mem_singleton, exists_eq_left, Finset.mem_univ, not_true_eq_false, List.not_mem_nil,
      false_and, exists_false, imp_false]
    constructor
    · rintro ⟨h1, h2⟩
      refine ⟨h1, fun π hπ hno => ?_⟩
      obtain ⟨K, hK⟩ := h2 π hπ hno
      exact hK K le_rfl
    · rintro ⟨h1, h2⟩
      exact ⟨h1, fun π hπ hno => absurd hno (h2 π hπ)⟩
  · rfl

/-- **C34 for the program.** With the initial formulas as `Entry`, the optional system goal as `Exit`
(none: the environment has to be blocked, `/repo/doc/spc_format.md` 116-139) and no restriction, a
strategy is produced exactly if there is an initial state and every initial state can be won. -/
theorem rg_exact (egs : List (Finset (E × S))) (sgoal einit sinit : Option (Finset (E × S)))
    (ho : o.Valid G) {fuel : ℕ} (hf : Fintype.card E * Fintype.card S ≤ fuel) :
    ∃ st, rgSynthesize G egs sgoal einit sinit o fuel = .ok st ∧
      (st ≠ [] ↔
        (∃ s, (∀ A, einit = some A → s ∈ A) ∧ ∀ A, sinit = some A → s ∈ A) ∧
        ∀ s, (∀ A, einit = some A → s ∈ A) → (∀ A, sinit = some A → s ∈ A) →
          ReachWinnable G egs (sgoal.getD ∅) Finset.univ s) := by
  obtain ⟨st, h1, h2⟩ := reach_exact (Entry := initSet einit ∩ initSet sinit) (Exit := sgoal.getD ∅)
    (eg := (withDefaultGoal egs).get) (Finset.subset_univ _) (withDefaultGoal_pos egs) ho hf
  have hmem : ∀ (f : Option (Finset (E × S))) (s : E × S),
      s ∈ initSet f ↔ ∀ A, f = some A → s ∈ A := by
    intro f s
    unfold initSet
    cases f <;> simp
  refine ⟨st, h1, h2.trans ?_⟩
  have hof : List.ofFn (withDefaultGoal egs).get = withDefaultGoal egs := List.ofFn_get _
  rw [hof]
  unfold ReachWinnable
  simp only [reachWins_default]
  constructor
  · rintro ⟨⟨s, hs⟩, hw⟩
    rw [Finset.mem_inter, hmem, hmem] at hs
    exact ⟨⟨s, hs⟩, fun s h3 h4 => hw s (Finset.mem_inter.2 ⟨(hmem _ _).2 h3, (hmem _ _).2 h4⟩)⟩
  · rintro ⟨⟨s, hs⟩, hw⟩
    refine ⟨⟨s, Finset.mem_inter.2 ⟨(hmem _ _).2 hs.1, (hmem _ _).2 hs.2⟩⟩, fun s hs => ?_⟩
    rw [Finset.mem_inter, hmem, hmem] at hs
    exact hw s hs.1 hs.2

/-! ## `Exit` outside of the restriction

`synthesize_reachgame_BDD` takes the moves from `strans & N'`, but computes the levels from an `Exit`
that is not cut with `N`. All callers in the repository keep `Exit` inside `N` (`N` is True, or `Exit`
consists of nodes found in `N`, `/repo/src/patching.c` 120-131); the function itself does not check. -/

/-- **C33 needs `Exit ⊆ N`.** One system variable, all moves legal, from off to on, `N` is off: the
goal can be reached in one move, but the strategy returned stays in off for ever. -/
theorem reach_exit_outside_unsound :
    ∃ (G : Game Unit Bool) (o : Oracle Unit Bool) (Entry Exit N : Finset (Unit × Bool))
      (st : Aut ℤ (Unit × Bool)) (ρ : ℕ → ANode ℤ (Unit × Bool)), o.Valid G ∧
      (∀ s ∈ Entry, ReachWinnable G [Finset.univ] Exit N s) ∧
      reachGame G Entry Exit N (fun _ : Fin 1 => Finset.univ) o 2 = .ok st ∧
      (∀ k, ρ k ∈ st ∧ (ρ (k + 1)).id ∈ (ρ k).trans) ∧ ∀ k, (ρ k).state ∉ Exit := by
  refine ⟨Ex.G5, Ex.o5, Ex.off, Ex.on, Ex.off, [⟨1, ((), false), -1, 1, false, [1]⟩], fun _ => ⟨1, ((), false), -1, 1, false, [1]⟩, Ex.o5_valid, ?_,
    ?_, ?_, ?_⟩
  · exact (reach_levels_exact (eg := fun _ : Fin 1 => Finset.univ) one_pos).1 (by decide +kernel)
  · decide +kernel
  · intro k; simp
  · intro k; exact show ((), false) ∉ Ex.on by decide

/-- **C34 needs `Exit ⊆ N`.** If moreover staying in off is illegal, the function reports an error
though every state of `Entry` can be won. -/
theorem reach_exit_outside_error :
    ∃ (G : Game Unit Bool) (o : Oracle Unit Bool) (Entry Exit N : Finset (Unit × Bool)), o.Valid G ∧
      (∀ s ∈ Entry, ReachWinnable G [Finset.univ] Exit N s) ∧
      reachGame G Entry Exit N (fun _ : Fin 1 => Finset.univ) o 2 = .err := by
  refine ⟨⟨fun _ _ => true, fun _ t => t.2⟩, stdOracle _ [((), false), ((), true)] [()] ((), false),
    Ex.off, Ex.on, Ex.off, stdOracle_valid _ _ _ _ (by decide) (by decide) (by decide) (by decide), ?_, ?_⟩
  · exact (reach_levels_exact (eg := fun _ : Fin 1 => Finset.univ) one_pos).1 (by decide +kernel)
  · decide +kernel

/-! ## Examples -/

namespace Ex

/-- Address, annotation, state and edges of every node. -/
def rview (r : SRes (Aut ℤ (E × S))) : Option (List (ℕ × ℤ × (E × S) × List ℕ)) :=
  match r with
  | .ok st => some (st.map fun x => (x.id, x.rgrad, x.state, x.trans))
  | _ => none

def o1 : Oracle Bool Bool := stdOracle G1 [(false, false), (false, true), (true, false), (true, true)]
  [false, true] (false, false)

theorem o1_valid : o1.Valid G1 := stdOracle_valid _ _ _ _ (by decide) (by decide) (by decide) (by decide)

/-- The two states without a grant. -/
def idle : Finset (Bool × Bool) := {(false, false), (true, false)}

-- a grant is possible only after a request, and requests are an environment goal: from the state
-- without request the strategy waits (annotation 1, edge to itself) until the request comes
example : rview (reachGame G1 idle grant Finset.univ (fun _ : Fin 1 => req) o1 4) =
    some [(4, 0, (true, true), []), (3, 0, (false, true), []), (2, 1, (false, false), [2, 1]),
      (1, 1, (true, false), [3, 4])] := by decide +kernel

-- without that environment goal the environment may never send a request
example : rview (reachGame G1 idle grant Finset.univ (fun _ : Fin 1 => Finset.univ) o1 4) = some [] := by
  decide +kernel
example : ∃ s ∈ idle, ¬ReachWinnable G1 (List.ofFn fun _ : Fin 1 => Finset.univ) grant Finset.univ s := by
  obtain ⟨st, h1, h2⟩ := reach_exact (G := G1) (Entry := idle) (eg := fun _ : Fin 1 => Finset.univ)
    (Finset.subset_univ grant) one_pos o1_valid (fuel := 4) le_rfl
  have h3 : rview (reachGame G1 idle grant Finset.univ (fun _ : Fin 1 => Finset.univ) o1 4) = some [] := by
    decide +kernel
  rw [h1] at h3
  have h4 : st = [] := by simpa [rview] using h3
  by_contra hc
  push Not at hc
  exact h2.2 ⟨by decide, hc⟩ h4

-- no system goal: the environment has to be blocked, possible if it needs grants to meet its goal
example : rview (rgSynthesize G1 [grant] none (some nogrant) none o1 4) =
    some [(2, 1, (false, false), [2, 1]), (1, 1, (true, false), [2, 1])] := by decide +kernel


end Ex

end Gr1c
