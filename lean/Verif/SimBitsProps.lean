import Verif.SimProps
import Verif.MetricProps
import Verif.InteractLemmas

/-!
# C65: `sim_rhc` over cubes and with its metric

What `Verif.SimProps` assumes of the choices and of the measure of distance follows from `Cudd_ForeachCube` giving covers and `malloc`
giving fresh addresses.
-/

namespace Gr1c

variable {ne ns : ℕ}

/-- The choices of the code over cubes. -/
theorem simBits_valid (malloc : ℕ → List ℕ → ℕ) (hm : ∀ c ids, malloc c ids ∉ ids) (rand : ℕ → ℕ)
    (cover : ℕ → Bdd (2 * (ne + ns)) → List (CubeArr (2 * (ne + ns)))) (hcov : ∀ c f, IsCover f (cover c f))
    (cube : CubeArr (2 * (ne + ns))) (etrans strans : Bdd (2 * (ne + ns))) (hE : NoPrimedSys etrans) :
    (simBits malloc rand cover cube etrans).Valid (bitGame etrans strans) := by
  refine ⟨hm, ?_, ?_⟩
  · intro k s e
    obtain ⟨l, h1, -, h3⟩ := get_env_moves_exact (cover k) (hcov k) cube etrans hE s
    have : (simBits malloc rand cover cube etrans).moves k s = l := by
      simp only [simBits]
      rw [h1]
      simp only [Option.getD_some, List.map_map]
      have : (valOf ne ∘ vec : Val ne → Val ne) = id := by funext v; exact valOf_vec v
      rw [this, List.map_id]
    rw [this]
    exact h3 e
  · intro k A x
    have hind : ∀ i : Fin (2 * (ne + ns)), ¬ (2 * ne + ns ≤ i.val ∧ i.val < 2 * ne + ns + ns) →
        Indep (fun a : Asg (2 * (ne + ns)) => decide ((hiPart a : BState ne ns).2 ∈ A)) i := by
      intro i hi a b hab
      have : (hiPart a : BState ne ns).2 = (hiPart b : BState ne ns).2 := by
        unfold hiPart
        funext j
        apply hab
        intro h
        rw [← h] at hi
        have := j.isLt
        dsimp only at hi
        omega
      simp only [this]
    obtain ⟨l, h1, -, h3⟩ := enumCover_exact (hcov k (fun a => decide ((hiPart a : BState ne ns).2 ∈ A))) (off := 2 * ne + ns) (len := ns)
      (by omega) hind
    have he : (simBits malloc rand cover cube etrans).order k A = l.map (valOf ns) := by
      simp only [simBits]; rw [h1]; rfl
    rw [he, List.mem_map]
    constructor
    · rintro ⟨v, hv, rfl⟩
      obtain ⟨a, ha, rfl⟩ := (h3 v).1 hv
      rw [← joinAsg_eta a, bitsAt_sys, valOf_vec]
      exact of_decide_eq_true ha
    · intro hx
      refine ⟨vec x, (h3 _).2 ⟨joinAsg ((fun _ => false), fun _ => false) ((fun _ => false), x), ?_, ?_⟩, valOf_vec x⟩
      · rw [hiPart_join]
        exact decide_eq_true hx
      · rw [bitsAt_sys]

/-- The measure of distance is the distance to the set, -1 if this is empty. -/
theorem simNear_exact (cover : Bdd (2 * (ne + ns)) → List (CubeArr (2 * (ne + ns)))) (hcov : ∀ f, IsCover f (cover f))
    (offw : List (ℕ × ℕ)) (hl : LayoutOk (ne + ns) offw) (A : Finset (BState ne ns)) (s : BState ne ns) :
    (A = ∅ → simNear cover offw A s = -1) ∧ ∀ h : A.Nonempty, simNear cover offw A s = setDist offw A h s := by
  obtain ⟨mm, h1, h2, h3⟩ := bounds_state_exact A (cover (bddOf A)) (hcov _) offw hl s
  have e : simNear cover offw A s = mm.1 := by unfold simNear; rw [h1]
  rw [e]
  refine ⟨fun h => by rw [h2 h], fun h => ?_⟩
  have hb := h3 h.ne_empty
  unfold setDist
  apply le_antisymm
  · rw [Finset.le_inf'_iff]
    intro g hg
    rw [manhattan_symm]
    exact (hb.bounds g hg).1
  · obtain ⟨g, hg, hgm⟩ := hb.least
    rw [← hgm, manhattan_symm]
    exact Finset.inf'_le _ hg

theorem simNear_ok (cover : Bdd (2 * (ne + ns)) → List (CubeArr (2 * (ne + ns)))) (hcov : ∀ f, IsCover f (cover f))
    (offw : List (ℕ × ℕ)) (hl : LayoutOk (ne + ns) offw) (A : Finset (BState ne ns)) : NearOk (simNear cover offw A) := by
  by_cases h : A.Nonempty
  · left
    intro v
    rw [(simNear_exact cover hcov offw hl A v).2 h]
    exact setDist_nonneg offw A h v
  · right
    intro v
    exact (simNear_exact cover hcov offw hl A v).1 (Finset.not_nonempty_iff_eq_empty.1 h)

/-- The whole function over bits, first step: as `rhc_first_step`, with the sum of the differences of the metric variables as the
distance. -/
theorem sim_metric_first (malloc : ℕ → List ℕ → ℕ) (hm : ∀ c ids, malloc c ids ∉ ids) (rand : ℕ → ℕ)
    (cover : ℕ → Bdd (2 * (ne + ns)) → List (CubeArr (2 * (ne + ns)))) (hcov : ∀ c f, IsCover f (cover c f))
    (cube : CubeArr (2 * (ne + ns))) (etrans strans : Bdd (2 * (ne + ns))) (hE : NoPrimedSys etrans) (W : Finset (BState ne ns))
    (ev sv : VarList) (vars : List Char) (hl : LayoutOk (ne + ns) (getOffsets ev sv vars)) (sgs : List (Finset (BState ne ns)))
    (n num : ℕ) (init : BState ne ns) (a : Aut ℕ (BState ne ns))
    (h : simMetric (simBits malloc rand cover cube etrans) (bitGame etrans strans) W ev sv (cover 0) vars sgs n init num = .ok a)
    (hnum : 0 < num) {σ : ℕ → BState ne ns} (hσ : SimPlay num σ a) :
    LegalIn (bitGame etrans strans) W init (σ 1) ∧ ∃ γ A B v, sgs[0]? = some A ∧ (init ∈ A → γ = 1 % sgs.length) ∧ (init ∉ A → γ = 0) ∧
      sgs[γ]? = some B ∧ (∃ j < n, PathIn (bitGame etrans strans) W j (σ 1) v) ∧
      ∀ hB : (B ∩ W).Nonempty, ∀ t u, LegalIn (bitGame etrans strans) W init t → t.1 = (σ 1).1 →
        (∃ j < n, PathIn (bitGame etrans strans) W j t u) →
        setDist (getOffsets ev sv vars) (B ∩ W) hB v ≤ setDist (getOffsets ev sv vars) (B ∩ W) hB u := by
  have h' : simRhc (simBits malloc rand cover cube etrans) (bitGame etrans strans) W (simNear (cover 0) (getOffsets ev sv vars)) sgs n init
      num = .ok a := by
    unfold simMetric at h
    cases ho : getOffsets ev sv vars with
    | nil => rw [ho] at h; cases h
    | cons p r => rw [ho] at h; exact h
  obtain ⟨r1, γ, A, B, v, r2, r3, r4, r5, r6, r7⟩ := rhc_first_step (simBits_valid malloc hm rand cover hcov cube etrans strans hE)
    (simNear_ok (cover 0) (hcov 0) _ hl) h' hnum hσ
  refine ⟨r1, γ, A, B, v, r2, r3, r4, r5, r6, fun hB t u t1 t2 t3 => ?_⟩
  rw [← (simNear_exact (cover 0) (hcov 0) _ hl (B ∩ W) v).2 hB, ← (simNear_exact (cover 0) (hcov 0) _ hl (B ∩ W) u).2 hB]
  exact r7 t u t1 t2 t3

end Gr1c
