import Verif.SynthAnnot
import Verif.PatchProps
import Verif.InteractProps

/-!
# C55: the annotation of a synthesized strategy, and patching of synthesized strategies
-/

namespace Gr1c

variable {E S : Type} [Fintype E] [DecidableEq E] [Fintype S] [DecidableEq S]
  {G G' : Game E S} {egs sgs : List (Finset (E × S))} {flag : InitFlag}
  {einit sinit : Option (Finset (E × S))} {o : Oracle E S} {W : Finset (E × S)}

/-- What `advance` and the level arrays say about one node. -/
private def NodeLevel (G : Game E S) (egs sgs : List (Finset (E × S))) (W : Finset (E × S))
    (md : Fin sgs.length) (s : E × S) (r : ℤ) : Prop :=
  ∃ j : ℕ, r = j ∧ s ∈ W ∧ (j = 0 ↔ s ∈ sgs.get md) ∧ (j = 0 → ∀ i, s ∈ sgs.get i) ∧
    (2 ≤ j → lev G (withDefaultGoal egs).get (sgs.get md ∩ W) s = j + 1) ∧
    (j = 1 → lev G (withDefaultGoal egs).get (sgs.get md ∩ W) s ≤ 2)

private theorem node_level (ho : o.Valid G)
    (hr : checkRealizable G egs sgs flag einit sinit = some (some W)) {fuel : ℕ}
    {st : Aut (Fin sgs.length) (E × S)} (h : synthesize G egs sgs flag einit sinit o fuel = .ok st) :
    ∀ x ∈ st, NodeLevel G egs sgs W x.mode x.state x.rgrad := by
  refine synthesize_settled ho hr h ?_
  intro L hmu hL lm s md j hs hadv
  obtain ⟨md', j', q1, q2, q3, -⟩ := advance_spec (fun i => levelOf (L i) s) lm
  rw [q1] at hadv
  cases hadv
  have hlv : ∀ i, levelOf (L i) s = 0 ↔ s ∈ sgs.get i := by
    intro i
    rw [(levelOf_spec (withDefaultGoal_pos egs) (hL i) ((hmu i).symm ▸ hs)).1, Finset.mem_inter]
    exact ⟨fun h => h.1, fun h => ⟨h, hs⟩⟩
  obtain ⟨-, l2, l1⟩ := levelOf_spec (withDefaultGoal_pos egs) (hL md) ((hmu md).symm ▸ hs)
  refine ⟨j, rfl, hs, by rw [q2]; exact hlv md, fun h i => (hlv i).1 ((q3 h).2 i), ?_, ?_⟩
  · intro h2
    rw [q2] at h2 ⊢
    exact (l2 h2).1
  · intro h2
    rw [q2] at h2
    rcases l1 h2 with h | ⟨h, -⟩ <;> omega

private theorem verdict_winningSet (hr : checkRealizable G egs sgs flag einit sinit = some (some W)) :
    computeWinningSet G egs sgs = some W := by
  unfold checkRealizable at hr
  cases hcw : computeWinningSet G egs sgs with
  | none => rw [hcw] at hr; simp at hr
  | some W0 =>
    rw [hcw] at hr
    simp only [Option.map_some, Option.some.injEq] at hr
    cases flag <;> simp only [checkRealizableInternal] at hr
    · simp at hr
    · split at hr <;> simp_all
    · split at hr <;> simp_all
    · cases sinit <;> simp only at hr <;> split at hr <;> simp_all

private theorem good_facts (ho : o.Valid G)
    (hr : checkRealizable G egs sgs flag einit sinit = some (some W)) {fuel : ℕ}
    {st : Aut (Fin sgs.length) (E × S)} (h : synthesize G egs sgs flag einit sinit o fuel = .ok st) :
    (Aut.ids st).Nodup ∧
      ∀ x ∈ st, Good G (withDefaultGoal egs).get sgs.get W (withDefaultGoal_pos egs) st [] x := by
  have hcw : computeWinningSet G egs sgs = some W := verdict_winningSet hr
  obtain ⟨hn, ⟨ss, hss⟩, hsome⟩ := synthesize_ok_inv hcw h
  have hW : W.Nonempty := by
    have := shift_nonempty (hsome ⟨0, hn⟩)
    rwa [muY_goal_W (withDefaultGoal_pos egs) hn hcw] at this
  obtain ⟨st', h1, h2, -, -, h3, -⟩ := synthesize_run ho hn hr hW hss (fun _ => True)
    (fun _ _ _ _ _ _ => trivial) (fun _ _ _ _ => trivial)
    (fuel := max fuel (iterBound E S sgs.length ss.length)) (le_max_right _ _)
  have h4 := synthesize_fuel h (le_max_left fuel (iterBound E S sgs.length ss.length))
  rw [h4] at h1
  cases h1
  exact ⟨h2, h3⟩

private theorem edge_ranked (ho : o.Valid G)
    (hr : checkRealizable G egs sgs flag einit sinit = some (some W)) {fuel : ℕ}
    {st : Aut (Fin sgs.length) (E × S)} (h : synthesize G egs sgs flag einit sinit o fuel = .ok st)
    {x y : ANode (Fin sgs.length) (E × S)} (hx : x ∈ st) (hy : y ∈ st) (hxy : y.id ∈ x.trans) :
    RankedStep (withDefaultGoal egs).get sgs.get (withDefaultGoal_pos egs)
      (fun i => rank G (withDefaultGoal egs).get (sgs.get i ∩ W)) x.mode x.state y.mode y.state := by
  obtain ⟨hids, hg⟩ := good_facts ho hr h
  rcases hg x hx with ⟨_, hbad⟩ | ⟨es, -, hE⟩
  · simp at hbad
  · unfold EdgesOk at hE
    have hget := List.forall₂_iff_get.1 hE
    obtain ⟨i, hi, hij⟩ := List.getElem_of_mem hxy
    obtain ⟨k', q1, -, -, q4⟩ := hget.2 i (by rw [hget.1]; exact hi) hi
    have q1' : (y.id, k') ∈ Aut.idk st := by rw [← hij]; exact q1
    have hk : k' = y.key := idk_unique hids q1' (mem_idk.2 ⟨y, hy, rfl, rfl⟩)
    rw [hk] at q4
    exact q4

/-- **C55.** After a positive verdict the strategy returned by `synthesize` is annotated as the
documentation says, with a number that is never negative and, while one goal is sought, never grows
along an edge, except from states that satisfy all goals. The annotation is zero exactly at the nodes
whose state satisfies the goal that is sought, and these states satisfy all goals. -/
theorem synthesize_annotated (ho : o.Valid G)
    (hr : checkRealizable G egs sgs flag einit sinit = some (some W)) {fuel : ℕ}
    {st : Aut (Fin sgs.length) (E × S)} (h : synthesize G egs sgs flag einit sinit o fuel = .ok st) :
    Annotated sgs.get (intModes st) ∧
      ∀ x ∈ st, (x.rgrad = 0 ↔ x.state ∈ sgs.get x.mode) ∧ (x.rgrad = 0 ↔ ∀ i, x.state ∈ sgs.get i) := by
  have hlev := node_level ho hr h
  have hkeys := (synthesize_answers ho hr h).2.1
  have hback : ∀ y ∈ intModes st, ∃ x ∈ st, y = ⟨x.id, x.state, (x.mode.val : ℤ), x.rgrad, x.initial, x.trans⟩ := by
    intro y hy
    obtain ⟨x, x1, rfl⟩ := List.mem_map.1 hy
    exact ⟨x, x1, rfl⟩
  refine ⟨⟨?_, ?_, ?_⟩, ?_⟩
  · intro y hy
    obtain ⟨x, x1, rfl⟩ := hback y hy
    obtain ⟨j, q, -⟩ := hlev x x1
    simp only [q]
    omega
  · intro y hy z hz hyz hmode
    obtain ⟨x, x1, rfl⟩ := hback y hy
    obtain ⟨w, w1, rfl⟩ := hback z hz
    have hmd : w.mode = x.mode := by
      apply Fin.ext
      have : ((w.mode.val : ℕ) : ℤ) = x.mode.val := hmode
      omega
    obtain ⟨jx, a1, a2, a3, a4, a5, a6⟩ := hlev x x1
    obtain ⟨jw, b1, b2, b3, b4, b5, b6⟩ := hlev w w1
    by_cases hall : ∀ i, x.state ∈ sgs.get i
    · exact Or.inr hall
    refine Or.inl ?_
    simp only
    have hjx : jx ≠ 0 := fun h => hall (a4 h)
    rw [a1, b1]
    have := edge_ranked ho hr h x1 w1 hyz
    rw [hmd] at this b3 b5
    rcases this with ⟨q1, -⟩ | ⟨q1, -, q2⟩
    · rw [b3.2 q1]
      omega
    · have hxm : x.state ∉ sgs.get x.mode := fun h => hjx (a3.2 h)
      have hrk := (q2 hxm).1
      have hwj : jw ≠ 0 := fun h => q1 (b3.1 h)
      have hcw : computeWinningSet G egs sgs = some W := verdict_winningSet hr
      have hn : 0 < sgs.length := lt_of_le_of_lt (Nat.zero_le _) x.mode.isLt
      have hmu := muY_goal_W (withDefaultGoal_pos egs) hn hcw
      obtain ⟨hrx, -⟩ := mem_xlev_rix (G := G) (eg := (withDefaultGoal egs).get) (goal := sgs.get x.mode ∩ W)
        (s := x.state) ((hmu _).symm ▸ a2)
      obtain ⟨hrw, -⟩ := mem_xlev_rix (G := G) (eg := (withDefaultGoal egs).get) (goal := sgs.get x.mode ∩ W)
        (s := w.state) ((hmu _).symm ▸ b2)
      have hle : lev G (withDefaultGoal egs).get (sgs.get x.mode ∩ W) w.state ≤
          lev G (withDefaultGoal egs).get (sgs.get x.mode ∩ W) x.state := by
        by_contra hc
        push Not at hc
        simp only [rank] at hrk
        have := Nat.mul_le_mul_right (withDefaultGoal egs).length (Nat.succ_le_of_lt hc)
        rw [Nat.succ_mul] at this
        omega
      by_cases h1 : jw = 1
      · omega
      · have h2 := b5 (by omega)
        by_cases h3 : jx = 1
        · have := a6 h3
          omega
        · have := a5 (by omega)
          omega
  · intro y hy z hz hmode hstate
    obtain ⟨x, x1, rfl⟩ := hback y hy
    obtain ⟨w, w1, rfl⟩ := hback z hz
    have hmd : x.mode = w.mode := by
      apply Fin.ext
      have : ((x.mode.val : ℕ) : ℤ) = w.mode.val := hmode
      omega
    rw [List.inj_on_of_nodup_map hkeys x1 w1 (Prod.ext hmd hstate)]
  · intro x hx
    obtain ⟨j, a1, a2, a3, a4, -⟩ := hlev x hx
    have h0 : x.rgrad = 0 ↔ j = 0 := by rw [a1]; omega
    rw [h0]
    exact ⟨a3, a4, fun h => a3.2 (h _)⟩

variable {eps : List (E × S → E → Bool)} {sps : List (E × S → E × S → Bool)} {N : List (E × S)}
  {cs : List (Change E S)} {os : ℕ → Oracle E S} {R : Aut ℤ (E × S)}

/-- **C55.** The annotation is the level of the state: from 1 on, it is at most `k` exactly if the state is
within level `k + 1` for the goal that is sought. -/
theorem synthesize_levels (ho : o.Valid G)
    (hr : checkRealizable G egs sgs flag einit sinit = some (some W)) {fuel : ℕ}
    {st : Aut (Fin sgs.length) (E × S)} (h : synthesize G egs sgs flag einit sinit o fuel = .ok st) :
    ∀ x ∈ st, ∀ k : ℕ, 1 ≤ k → (x.rgrad ≤ k ↔ x.state ∈ WithinLevel G (withDefaultGoal egs).get
      {s | s ∈ sgs.get x.mode ∧ CanWin G (withDefaultGoal egs).get sgs.get s} (k + 1)) := by
  intro x hx k hk
  obtain ⟨j, q1, q2, q3, -, q4, q5⟩ := node_level ho hr h x hx
  have hW : winningSet G (withDefaultGoal egs).get sgs.get = some W := verdict_winningSet hr
  have hn : 0 < sgs.length := x.mode.pos
  have hmem : ∀ t, t ∈ W ↔ CanWin G (withDefaultGoal egs).get sgs.get t :=
    fun t => ⟨fun ht => wins_of_mem (withDefaultGoal_pos egs) hn hW ht,
      fun ⟨_, ht⟩ => mem_of_wins (withDefaultGoal_pos egs) hW ht⟩
  rw [withinLevel_iff G _ (sgs.get x.mode ∩ W) _ (fun t => by rw [Finset.mem_inter, hmem]; rfl)]
  have hmu : x.state ∈ muY G (withDefaultGoal egs).get (sgs.get x.mode ∩ W) := by
    rw [muY_goal_W (withDefaultGoal_pos egs) hn hW]; exact q2
  have hlev : x.state ∈ ylev G (withDefaultGoal egs).get (sgs.get x.mode ∩ W) (k + 1) ↔
      lev G (withDefaultGoal egs).get (sgs.get x.mode ∩ W) x.state ≤ k + 1 :=
    ⟨lev_le, fun hle => ylev_mono _ _ _ hle (mem_ylev_lev hmu)⟩
  rw [hlev, q1]
  rcases Nat.lt_or_ge j 2 with hj | hj
  · have : lev G (withDefaultGoal egs).get (sgs.get x.mode ∩ W) x.state ≤ 2 := by
      rcases Nat.lt_or_ge j 1 with h0 | h0
      · have h0 : j = 0 := by omega
        have hg : x.state ∈ ylev G (withDefaultGoal egs).get (sgs.get x.mode ∩ W) 1 :=
          (withinLevel_iff G _ (sgs.get x.mode ∩ W) (fun t => t ∈ sgs.get x.mode ∩ W) (fun t => Iff.rfl) 1 _).1
            ⟨⟨0, withDefaultGoal_pos egs⟩, {x.state}, rfl, by
              rintro t rfl
              exact Or.inl (Finset.mem_inter.2 ⟨q3.1 h0, q2⟩)⟩
        exact (lev_le hg).trans (by omega)
      · exact q5 (by omega)
    constructor <;> intro <;> omega
  · have := q4 hj
    constructor <;> intro <;> omega

/-- **C54, for synthesized strategies.** Patching a strategy that `synthesize` returned after a positive
verdict: if no edge inside the neighbourhood part of a touched mode leaves a state that satisfies all
goals, then in the changed game every edge of the result is legal and every run satisfies the
liveness part. If moreover no edge from another mode enters this part and the environment is never
blocked, every move of the environment in the changed game is answered. -/
theorem patch_synthesized_partial (ho : o.Valid G)
    (hr : checkRealizable G egs sgs flag einit sinit = some (some W)) {fuel fuel' : ℕ}
    {st : Aut (Fin sgs.length) (E × S)} (h : synthesize G egs sgs flag einit sinit o fuel = .ok st)
    (hG : IsConjunction eps sps G) (hW : NoWrap sgs.get N cs (intModes st)) (hC : ChangedByAll G cs G')
    (ho' : ∀ g, (os g).Valid (cs.foldl applyChange (localGame N eps sps)))
    (hp : patchLocalfixpoint eps sps (withDefaultGoal egs).get sgs.length N cs os fuel' (intModes st) = .ok R) :
    (∀ x ∈ R, EdgesSound G' R x) ∧ (∀ ρ, IsRun R ρ → (∀ A ∈ egs, InfOften (fun k => (ρ k).state) A) →
      ∀ i, InfOften (fun k => (ρ k).state) (sgs.get i)) ∧
    (NoCross N cs (intModes st) → (∀ s, ∃ e, G'.etr s e = true) → ∀ x ∈ R, Answered G' R x) := by
  obtain ⟨h1, h2⟩ := synthesize_seeks ho hr h
  have h3 := (synthesize_annotated ho hr h).1
  obtain ⟨-, -, q1, q2⟩ := patch_runs_partial hG h1 h2 h3 hW hC ho' hp
  refine ⟨q1, fun ρ hρ henv => q2 ρ hρ ?_,
    fun hX hE => patch_answers_partial hG h1 h2 h3 hW hC ho' hX hE hp⟩
  intro r
  by_cases he : egs = []
  · have hall : ∀ A ∈ withDefaultGoal egs, A = Finset.univ := by
      unfold withDefaultGoal
      rw [if_pos he]
      simp
    rw [hall _ (List.get_mem _ r)]
    exact fun N => ⟨N, le_rfl, Finset.mem_univ _⟩
  · have hall : ∀ A ∈ withDefaultGoal egs, A ∈ egs := by
      unfold withDefaultGoal
      rw [if_neg he]
      simp
    exact henv _ (hall _ (List.get_mem _ r))

/-! ## Concrete cases -/

section
open PatchEx

/-- The strategy `sta` has annotations from 1 to 4, and the theorem applies to it. -/
example : Annotated sa.get (intModes sta) ∧
    sta.map (·.rgrad) = [4, 1, 1, 2, 3, 4] :=
  ⟨(synthesize_annotated (orc_valid Ga 0 0) sta_real sta_synth).1, by decide⟩

/-- Patching `sta`. -/
example : ∀ x ∈ sta', EdgesSound Ga' sta' x :=
  (patch_synthesized_partial (orc_valid Ga 0 0) sta_real sta_synth (conj_single Ga (fun _ _ => rfl)) sta_nowrap
    (changedByAll_foldl Ga ca) (fun _ => orc_valid _ 0 100) sta_patched).1

end

end Gr1c
