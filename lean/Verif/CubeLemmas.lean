import Verif.Cube

/-!
# Helper lemmas about cube enumeration
-/

namespace Gr1c

/-- The increment with its carry. -/
def incC (g : List ℕ) : ℕ → List ℕ → List ℕ × Bool
  | 0, c => (c, true)
  | i + 1, c =>
    if g.getD i 0 = 2 then
      if c.getD i 0 + 1 > 1 then incC g i (c.set i 0) else (c.set i (c.getD i 0 + 1), false)
    else incC g i c

theorem incLoop_eq (g : List ℕ) (i : ℕ) (c : List ℕ) : incrementLoop g i c = (incC g i c).1 := by
  induction i generalizing c with
  | zero => rfl
  | succ i ih =>
    unfold incrementLoop incC
    split
    · split
      · exact ih _
      · rfl
    · exact ih _

theorem incC_cons (g0 : ℕ) (g : List ℕ) (c0 : ℕ) (i : ℕ) (c : List ℕ) :
    incC (g0 :: g) (i + 1) (c0 :: c) =
      if (incC g i c).2 then
        (if g0 = 2 then (if c0 + 1 > 1 then (0 :: (incC g i c).1, true) else ((c0 + 1) :: (incC g i c).1, false))
          else (c0 :: (incC g i c).1, true))
      else (c0 :: (incC g i c).1, false) := by
  induction i generalizing c with
  | zero => simp [incC]
  | succ i ih =>
    conv_lhs => unfold incC
    conv_rhs => unfold incC
    simp only [List.getD_cons_succ, List.set_cons_succ]
    by_cases h1 : g.getD i 0 = 2
    · rw [if_pos h1, if_pos h1]
      by_cases h2 : c.getD i 0 + 1 > 1
      · rw [if_pos h2, if_pos h2]; exact ih _
      · rw [if_neg h2, if_neg h2]; simp
    · rw [if_neg h1, if_neg h1]; exact ih _

theorem sat_cons (g0 : ℕ) (g : List ℕ) (c0 : ℕ) (c : List ℕ) :
    saturatedCube (g0 :: g) (c0 :: c) = (!(g0 == 2 && c0 == 0) && saturatedCube g c) := by
  simp [saturatedCube]

/-- The vectors compatible with a cube, in counting order. -/
def expandCube : List ℕ → List (List ℕ)
  | [] => [[]]
  | g :: gs => if g = 2 then (expandCube gs).map (0 :: ·) ++ (expandCube gs).map (1 :: ·)
      else (expandCube gs).map (g :: ·)

/-- `l` is what the loop visits from its head. -/
def Run (g : List ℕ) : List (List ℕ) → Prop
  | [] => False
  | [a] => saturatedCube g a = true
  | a :: b :: l => saturatedCube g a = false ∧ incC g g.length a = (b, false) ∧ Run g (b :: l)

theorem run_map {g0 : ℕ} {g : List ℕ} {c0 : ℕ} (h : g0 = 2 → c0 ≠ 0) : ∀ {l : List (List ℕ)}, Run g l →
    Run (g0 :: g) (l.map (c0 :: ·)) := by
  have hb : (!(g0 == 2 && c0 == 0)) = true := by
    by_cases h2 : g0 = 2
    · simp [h2, h h2]
    · simp [h2]
  intro l
  induction l with
  | nil => exact fun h => h
  | cons a l ih =>
    cases l with
    | nil =>
      intro hr
      simp only [List.map_cons, List.map_nil, Run] at hr ⊢
      rw [sat_cons, hb, hr]; rfl
    | cons b l =>
      rintro ⟨h1, h2, h3⟩
      refine ⟨?_, ?_, ih h3⟩
      · rw [sat_cons, h1]; simp
      · rw [List.length_cons, incC_cons, h2]; simp

theorem run_map_append {g : List ℕ} {z : List ℕ} {r : List (List ℕ)} : ∀ {l : List (List ℕ)}, Run g l →
    (∀ x, l.getLast? = some x → incC g g.length x = (z, true)) → Run (2 :: g) ((1 :: z) :: r) →
    Run (2 :: g) (l.map (0 :: ·) ++ (1 :: z) :: r) := by
  intro l
  induction l with
  | nil => intro h; exact absurd h id
  | cons a l ih =>
    cases l with
    | nil =>
      intro _ hl hz
      have := hl a rfl
      refine ⟨by rw [sat_cons]; simp, ?_, hz⟩
      rw [List.length_cons, incC_cons, this]; simp
    | cons b l =>
      rintro ⟨h1, h2, h3⟩ hl hz
      refine ⟨by rw [sat_cons]; simp, ?_, ih h3 (fun x hx => hl x (by simpa using hx)) hz⟩
      rw [List.length_cons, incC_cons, h2]; simp

theorem expandCube_run (g : List ℕ) :
    Run g (expandCube g) ∧ (expandCube g).head? = some (initializeCube g) ∧
    ∀ x, (expandCube g).getLast? = some x → incC g g.length x = (initializeCube g, true) := by
  induction g with
  | nil => exact ⟨rfl, rfl, by intro x hx; simp [expandCube] at hx; subst hx; rfl⟩
  | cons g0 g ih =>
    obtain ⟨h1, h2, h3⟩ := ih
    obtain ⟨rest, hrest⟩ : ∃ rest, expandCube g = initializeCube g :: rest := by
      cases h : expandCube g with
      | nil => rw [h] at h2; simp at h2
      | cons a l => rw [h] at h2; simp at h2; exact ⟨l, by rw [h2]⟩
    have hne : expandCube g ≠ [] := by rw [hrest]; simp
    unfold expandCube
    by_cases hg : g0 = 2
    · subst hg
      rw [if_pos rfl]
      have hi : initializeCube (2 :: g) = 0 :: initializeCube g := rfl
      refine ⟨?_, ?_, ?_⟩
      · have h4 : Run (2 :: g) ((expandCube g).map (1 :: ·)) := run_map (by simp) h1
        have : (expandCube g).map (1 :: ·) = (1 :: initializeCube g) :: rest.map (1 :: ·) := by
          rw [hrest]; rfl
        rw [this] at h4 ⊢
        exact run_map_append h1 h3 h4
      · rw [hrest, hi]; rfl
      · intro x hx
        rw [List.getLast?_append, List.getLast?_map] at hx
        obtain ⟨y, hy⟩ := Option.ne_none_iff_exists'.1 (fun h => hne (List.getLast?_eq_none_iff.1 h))
        rw [hy] at hx
        simp at hx
        subst hx
        rw [List.length_cons, incC_cons, h3 y hy, hi]; simp
    · rw [if_neg hg]
      have hi : initializeCube (g0 :: g) = g0 :: initializeCube g := by
        simp [initializeCube, hg]
      refine ⟨run_map (fun h => absurd h hg) h1, ?_, ?_⟩
      · rw [hrest, hi]; rfl
      · intro x hx
        rw [List.getLast?_map] at hx
        obtain ⟨y, hy⟩ := Option.ne_none_iff_exists'.1 (fun h => hne (List.getLast?_eq_none_iff.1 h))
        rw [hy] at hx
        simp at hx
        subst hx
        rw [List.length_cons, incC_cons, h3 y hy, hi]; simp [hg]

theorem enumLoop_run (g : List ℕ) : ∀ (l : List (List ℕ)) (a : List ℕ) (fuel : ℕ), Run g (a :: l) →
    (a :: l).length ≤ fuel → enumLoop g fuel a = some (a :: l) := by
  intro l
  induction l with
  | nil =>
    intro a fuel hr hf
    obtain ⟨f, rfl⟩ : ∃ f, fuel = f + 1 := ⟨fuel - 1, by simp at hf; omega⟩
    unfold enumLoop
    have : saturatedCube g a = true := hr
    rw [if_pos this]
  | cons b l ih =>
    intro a fuel hr hf
    obtain ⟨f, rfl⟩ : ∃ f, fuel = f + 1 := ⟨fuel - 1, by simp at hf; omega⟩
    obtain ⟨h1, h2, h3⟩ := hr
    unfold enumLoop
    rw [if_neg (by rw [h1]; simp)]
    have : incrementCube g a = b := by
      unfold incrementCube; rw [incLoop_eq, h2]
    rw [this, ih b f h3 (by simp only [List.length_cons] at hf ⊢; omega)]
    rfl

theorem expandCube_length (g : List ℕ) : (expandCube g).length = 2 ^ (g.countP (· = 2)) := by
  induction g with
  | nil => rfl
  | cons g0 g ih =>
    unfold expandCube
    by_cases h : g0 = 2
    · subst h; simp [ih, Nat.pow_succ]; omega
    · simp [h, ih]

theorem enumCube_eq (g : List ℕ) (fuel : ℕ) (hf : 2 ^ (g.countP (· = 2)) ≤ fuel) :
    enumCube g fuel = some (expandCube g) := by
  obtain ⟨h1, h2, _⟩ := expandCube_run g
  rw [← expandCube_length] at hf
  unfold enumCube
  cases h : expandCube g with
  | nil => rw [h] at h2; simp at h2
  | cons a l =>
    rw [h] at h1 h2 hf
    simp at h2
    rw [← h2]
    exact enumLoop_run g l a fuel h1 hf

theorem enumLoop_mono (g : List ℕ) : ∀ (k k' : ℕ) (c : List ℕ) (l : List (List ℕ)), enumLoop g k c = some l →
    k ≤ k' → enumLoop g k' c = some l := by
  intro k
  induction k with
  | zero => intro k' c l h; simp [enumLoop] at h
  | succ k ih =>
    intro k' c l h hk
    obtain ⟨f, rfl⟩ : ∃ f, k' = f + 1 := ⟨k' - 1, by omega⟩
    unfold enumLoop at h ⊢
    split at h
    · rename_i hs; rw [if_pos hs]; exact h
    · rename_i hs
      rw [if_neg hs]
      cases hr : enumLoop g k (incrementCube g c) with
      | none => rw [hr] at h; simp at h
      | some l' =>
        rw [hr] at h
        rw [ih f _ _ hr (by omega)]
        exact h

theorem mem_expandCube {g v : List ℕ} : v ∈ expandCube g ↔
    List.Forall₂ (fun x y => if x = 2 then y = 0 ∨ y = 1 else y = x) g v := by
  induction g generalizing v with
  | nil =>
    simp only [expandCube, List.mem_singleton]
    constructor
    · rintro rfl; exact List.Forall₂.nil
    · intro h; cases h; rfl
  | cons g0 g ih =>
    unfold expandCube
    constructor
    · intro h
      by_cases hg : g0 = 2
      · rw [if_pos hg, List.mem_append, List.mem_map, List.mem_map] at h
        rcases h with ⟨w, hw, rfl⟩ | ⟨w, hw, rfl⟩
        · exact List.Forall₂.cons (by rw [if_pos hg]; exact Or.inl rfl) (ih.1 hw)
        · exact List.Forall₂.cons (by rw [if_pos hg]; exact Or.inr rfl) (ih.1 hw)
      · rw [if_neg hg, List.mem_map] at h
        obtain ⟨w, hw, rfl⟩ := h
        exact List.Forall₂.cons (by rw [if_neg hg]) (ih.1 hw)
    · intro h
      cases h with
      | cons h1 h2 =>
        rename_i y w
        by_cases hg : g0 = 2
        · rw [if_pos hg] at h1 ⊢
          rw [List.mem_append, List.mem_map, List.mem_map]
          rcases h1 with rfl | rfl
          · exact Or.inl ⟨w, ih.2 h2, rfl⟩
          · exact Or.inr ⟨w, ih.2 h2, rfl⟩
        · rw [if_neg hg] at h1 ⊢
          rw [List.mem_map]
          exact ⟨w, ih.2 h2, by rw [h1]⟩

theorem nodup_expandCube (g : List ℕ) : (expandCube g).Nodup := by
  induction g with
  | nil => simp [expandCube]
  | cons g0 g ih =>
    unfold expandCube
    have hinj : ∀ a : ℕ, ((expandCube g).map (a :: ·)).Nodup := fun a =>
      ih.map (by intro x y h; simpa using h)
    by_cases hg : g0 = 2
    · rw [if_pos hg, List.nodup_append]
      refine ⟨hinj 0, hinj 1, ?_⟩
      intro x hx y hy hxy
      rw [List.mem_map] at hx hy
      obtain ⟨a, _, rfl⟩ := hx
      obtain ⟨b, _, rfl⟩ := hy
      simp at hxy
    · rw [if_neg hg]; exact hinj g0

end Gr1c
