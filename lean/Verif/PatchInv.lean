import Verif.PatchSpec
import Verif.PatchShape

/-!
# Patching one goal mode keeps the strategy correct
-/

namespace Gr1c

set_option linter.unusedSectionVars false

variable {E S : Type} [Fintype E] [DecidableEq E] [Fintype S] [DecidableEq S] {m n : ℕ}
  {G : Game E S} {eg : Fin m → Finset (E × S)} {sg : Fin n → Finset (E × S)} {o : Oracle E S}

namespace LocalShape

variable {st B R en ex : Aut ℤ (E × S)} {N : List (E × S)} {g mn er lmax lmin : ℤ} {i : ℕ}
  {f h : ℕ → ℕ} {K : ℕ → Prop}

theorem mem_R (H : LocalShape st B R en ex N g mn er lmax lmin i f h K) {y : ANode ℤ (E × S)} :
    y ∈ R ↔ (∃ x ∈ st, ¬ DelNode N g K x ∧ y = keptOf f (delIds N g K st) i x) ∨
      ∃ z ∈ B, z.trans ≠ [] ∧ y = freshOf g er h i z := by
  classical
  rw [H.R_eq, List.mem_append, List.mem_map, List.mem_map]
  constructor
  · rintro (⟨x, hx, rfl⟩ | ⟨z, hz, rfl⟩)
    · obtain ⟨x1, x2⟩ := List.mem_filter.1 hx
      exact Or.inl ⟨x, x1, by simpa using x2, rfl⟩
    · obtain ⟨z1, z2⟩ := List.mem_filter.1 hz
      exact Or.inr ⟨z, z1, by simpa using z2, rfl⟩
  · rintro (⟨x, x1, x2, rfl⟩ | ⟨z, z1, z2, rfl⟩)
    · exact Or.inl ⟨x, List.mem_filter.2 ⟨x1, by simpa using x2⟩, rfl⟩
    · exact Or.inr ⟨z, List.mem_filter.2 ⟨z1, by simpa using z2⟩, rfl⟩

theorem ids_R (H : LocalShape st B R en ex N g mn er lmax lmin i f h K) (hids : (Aut.ids st).Nodup) :
    (Aut.ids R).Nodup := by
  classical
  rw [H.R_eq]
  unfold Aut.ids
  rw [List.map_append, List.map_map, List.map_map]
  have e1 : (ANode.id ∘ keptOf (V := E × S) f (delIds N g K st) i) = ANode.id := rfl
  have e2 : (ANode.id ∘ freshOf (V := E × S) g er h i) = ANode.id := rfl
  rw [e1, e2, List.nodup_append]
  refine ⟨hids.sublist (List.filter_sublist.map _), H.bids.sublist (List.filter_sublist.map _), ?_⟩
  intro a ha b hb
  obtain ⟨x, hx, rfl⟩ := List.mem_map.1 ha
  obtain ⟨z, hz, rfl⟩ := List.mem_map.1 hb
  exact H.disj x (List.mem_filter.1 hx).1 z (List.mem_filter.1 hz).1

/-- An edge of the result that leaves an old node. -/
theorem edge_old (H : LocalShape st B R en ex N g mn er lmax lmin i f h K) (hids : (Aut.ids st).Nodup)
    (hcl : ∀ x ∈ st, ∀ j ∈ x.trans, ∃ y ∈ st, y.id = j) {x y' : ANode ℤ (E × S)} (hx : x ∈ st)
    (hy' : y' ∈ R) (he : y'.id ∈ (keptOf f (delIds N g K st) i x).trans) :
    ∃ x' ∈ st, x'.id ∈ x.trans ∧ y'.id = f x'.id ∧ y'.state = x'.state ∧ y'.mode = x'.mode ∧
      ((¬ DelNode N g K x' ∧ y' = keptOf f (delIds N g K st) i x' ∧ f x'.id = x'.id) ∨
        (x' ∈ en ∧ ∃ z' ∈ B, z'.trans ≠ [] ∧ y' = freshOf g er h i z')) := by
  unfold keptOf at he
  simp only [List.mem_filter, List.mem_map] at he
  obtain ⟨⟨j, j1, j2⟩, -⟩ := he
  obtain ⟨x', x1, x2⟩ := hcl x hx j j1
  refine ⟨x', x1, x2 ▸ j1, by rw [x2, j2], ?_⟩
  by_cases hen : j ∈ Aut.ids en
  · obtain ⟨u, u1, u2⟩ := mem_ids.1 hen
    have hux : u = x' := eq_of_id_eq hids (H.en_mem u u1).1 x1 (u2.trans x2.symm)
    subst hux
    obtain ⟨z, z1, z2, z3⟩ := H.f_en u u1
    rcases H.mem_R.1 hy' with ⟨w, w1, w2, rfl⟩ | ⟨w, w1, w2, rfl⟩
    · refine absurd ?_ (H.disj w w1 z z1)
      rw [z2, u2, j2]; rfl
    · have : w = z := eq_of_id_eq H.bids w1 z1 (by rw [z2, u2, j2]; rfl)
      subst this
      exact ⟨z3, (H.en_mem u u1).2.1.symm, Or.inr ⟨u1, w, w1, w2, rfl⟩⟩
  · have hfj := H.f_id j hen
    rcases H.mem_R.1 hy' with ⟨w, w1, w2, rfl⟩ | ⟨w, w1, w2, rfl⟩
    · have hwx : w = x' := eq_of_id_eq hids w1 x1 (by rw [x2, ← hfj, j2]; rfl)
      subst hwx
      exact ⟨rfl, rfl, Or.inl ⟨w2, rfl, by rw [x2, hfj]⟩⟩
    · refine absurd ?_ (H.disj x' x1 w w1)
      rw [x2, ← hfj, j2]; rfl

/-- An edge of the result that leaves a new node. -/
theorem edge_new (H : LocalShape st B R en ex N g mn er lmax lmin i f h K) (hids : (Aut.ids st).Nodup)
    (hbcl : ∀ x ∈ B, ∀ j ∈ x.trans, ∃ y ∈ B, y.id = j) {z y' : ANode ℤ (E × S)} (hz : z ∈ B)
    (hy' : y' ∈ R) (he : y'.id ∈ (freshOf g er h i z).trans) :
    ∃ z' ∈ B, z'.id ∈ z.trans ∧ y'.id = h z'.id ∧ y'.state = z'.state ∧ y'.mode = g ∧
      ((z'.trans ≠ [] ∧ y' = freshOf g er h i z') ∨
        ∃ x' ∈ ex, x'.rgrad ≤ er ∧ y' = keptOf f (delIds N g K st) i x') := by
  unfold freshOf at he
  simp only [List.mem_map] at he
  obtain ⟨j, j1, j2⟩ := he
  obtain ⟨z', z1, z2⟩ := hbcl z hz j j1
  refine ⟨z', z1, z2 ▸ j1, by rw [z2, j2], ?_⟩
  by_cases ht : z'.trans = []
  · obtain ⟨x, x1, x2, x3, x4, x5⟩ := H.h_term z' z1 ht
    obtain ⟨s1, s2, s3, s4⟩ := (H.ex_iff x).1 x1
    rcases H.mem_R.1 hy' with ⟨w, w1, w2, rfl⟩ | ⟨w, w1, w2, rfl⟩
    · have hwx : w = x := eq_of_id_eq hids w1 s1 (by rw [← x3, z2, j2]; rfl)
      subst hwx
      exact ⟨x2, s2, Or.inr ⟨w, x1, x5, rfl⟩⟩
    · refine absurd ?_ (H.disj x s1 w w1)
      rw [← x3, z2, j2]; rfl
  · have hh := H.h_id z' z1 ht
    rcases H.mem_R.1 hy' with ⟨w, w1, w2, rfl⟩ | ⟨w, w1, w2, rfl⟩
    · refine absurd ?_ (H.disj w w1 z' z1)
      rw [← hh, z2, j2]; rfl
    · have hwx : w = z' := eq_of_id_eq H.bids w1 z1 (by rw [← hh, z2, j2]; rfl)
      subst hwx
      exact ⟨rfl, rfl, Or.inl ⟨ht, rfl⟩⟩

/-- The nodes that are found from the exits have small annotations. -/
theorem K_small (H : LocalShape st B R en ex N g mn er lmax lmin i f h K) (hids : (Aut.ids st).Nodup)
    (hmono : ∀ x ∈ st, ∀ y ∈ st, y.id ∈ x.trans → x.mode = g → y.mode = g → x.state ∈ N → y.state ∈ N →
      y.rgrad ≤ x.rgrad) :
    ∀ x ∈ st, K x.id → x.rgrad < mn := by
  intro x hx hK
  refine H.K_ind (fun k => ∀ x ∈ st, x.id = k → x.rgrad < mn) ?_ ?_ x.id hK x hx rfl
  · intro u hu v hv he
    obtain ⟨u1, u2, u3, u4⟩ := (H.ex_iff u).1 hu
    rw [eq_of_id_eq hids hv u1 he]
    exact u4
  · intro u hu v hv hP hug huN huv hvg hvN w hw he
    rw [eq_of_id_eq hids hw hv he]
    obtain ⟨j, j1, j2⟩ := List.mem_map.1 huv
    have hj : j = v.id := by
      rcases H.f_or j with hj | hj
      · rw [← j2, hj]
      · obtain ⟨z, z1, z2⟩ := mem_ids.1 hj
        exact absurd (j2.symm.trans z2.symm) (H.disj v hv z z1)
    have h1 := hP u hu rfl
    have h2 := hmono u hu v hv (hj ▸ j1) hug hvg (by simpa using huN) (by simpa using hvN)
    omega

end LocalShape

/-! ## The invariant over the goal modes -/

/-- Before goal mode `g` is patched; `a` are the affected nodes with their modes. -/
structure PatchInv (G : Game E S) (eg : Fin m → Finset (E × S)) (sg : Fin n → Finset (E × S))
    (N : List (E × S)) (a : List (ℤ × ℕ)) (g : ℕ) (st : Aut ℤ (E × S)) : Prop where
  ids : (Aut.ids st).Nodup
  closed : ∀ x ∈ st, ∀ j ∈ x.trans, ∃ y ∈ st, y.id = j
  modes : ∀ x ∈ st, ∃ i : Fin n, x.mode = (i.val : ℤ)
  order : ∀ x ∈ st, ∀ y ∈ st, y.id ∈ x.trans →
    ∃ i j : Fin n, x.mode = (i.val : ℤ) ∧ y.mode = (j.val : ℤ) ∧ Passes sg i y.state j
  live : ∀ ρ, IsRun st ρ → Live eg sg (fun k => (ρ k).state)
  keys : ∀ x ∈ st, ∀ y ∈ st, (g : ℤ) ≤ x.mode → x.mode = y.mode → x.state = y.state → x = y
  nonneg : ∀ x ∈ st, (g : ℤ) ≤ x.mode → 0 ≤ x.rgrad
  mono : ∀ x ∈ st, ∀ y ∈ st, y.id ∈ x.trans → (g : ℤ) ≤ x.mode → y.mode = x.mode →
    y.rgrad ≤ x.rgrad ∨ ∀ i, x.state ∈ sg i
  nowrap : ∀ x ∈ st, ∀ y ∈ st, y.id ∈ x.trans → (g : ℤ) ≤ x.mode → y.mode = x.mode → affOf a x.mode ≠ [] →
    x.state ∈ N → y.state ∈ N → ∃ i, x.state ∉ sg i
  sound : ∀ x ∈ st, ¬ ((g : ℤ) ≤ x.mode ∧ (x.mode, x.id) ∈ a) → EdgesSound G st x
  aff : ∀ p ∈ a, (g : ℤ) ≤ p.1 → ∃ x ∈ st, x.id = p.2 ∧ x.mode = p.1 ∧ x.state ∈ N

/-- For the part about dead ends. -/
structure PatchAns (G : Game E S) (N : List (E × S)) (a : List (ℤ × ℕ)) (g : ℕ)
    (st : Aut ℤ (E × S)) : Prop where
  ans : ∀ x ∈ st, ¬ ((g : ℤ) ≤ x.mode ∧ (x.mode, x.id) ∈ a) → Answered G st x
  cross : ∀ x ∈ st, ∀ y ∈ st, y.id ∈ x.trans → y.mode ≠ x.mode → (g : ℤ) ≤ y.mode →
    affOf a y.mode ≠ [] → y.state ∉ N

theorem mem_affOf {a : List (ℤ × ℕ)} {g : ℤ} {k : ℕ} : k ∈ affOf a g ↔ (g, k) ∈ a := by
  unfold affOf
  rw [List.mem_map]
  constructor
  · rintro ⟨p, hp, rfl⟩
    obtain ⟨h1, h2⟩ := List.mem_filter.1 hp
    have h2 : p.1 = g := by simpa using h2
    rw [← h2]
    exact h1
  · intro h
    exact ⟨(g, k), List.mem_filter.2 ⟨h, by simp⟩, rfl⟩

/-- Facts about a call that does something, in the setting of the invariant. -/
structure Step (G : Game E S) (eg : Fin m → Finset (E × S)) (o : Oracle E S) (N : List (E × S)) (fuel : ℕ)
    (a : List (ℤ × ℕ)) (g : ℕ) (st B R en ex : Aut ℤ (E × S)) (mn er lmax lmin : ℤ) (i : ℕ)
    (f h : ℕ → ℕ) (K : ℕ → Prop) : Prop where
  shape : LocalShape st B R en ex N (g : ℤ) mn er lmax lmin i f h K
  reach : reachGame G (en.map (·.state)).toFinset (ex.map (·.state)).toFinset N.toFinset eg
        (o.avoid (st.map (·.id))) fuel = .ok B
  ne : B ≠ []
  exN : (ex.map (·.state)).toFinset ⊆ N.toFinset
  en_ge : ∀ y ∈ en, mn ≤ y.rgrad
  aff_ge : ∀ x ∈ st, ((g : ℤ), x.id) ∈ a → mn ≤ x.rgrad
  mn_nonneg : 0 ≤ mn
  small : ∀ x ∈ st, K x.id → x.rgrad < mn
  /-- entries are not exits -/
  fresh_en : ∀ y ∈ en, ∃ z ∈ B, z.id = f y.id ∧ z.state = y.state ∧ z.trans ≠ []
  /-- an edge into the deleted part comes from another mode -/
  lost : ∀ x ∈ st, ¬ DelNode N (g : ℤ) K x → ∀ y ∈ st, y.id ∈ x.trans → y ∉ en → x.mode = (g : ℤ) →
    ¬ DelNode N (g : ℤ) K y

theorem step_of {N : List (E × S)} {a : List (ℤ × ℕ)} {g : ℕ} {st R : Aut ℤ (E × S)} {fuel : ℕ}
    {Gl : Game E S} (I : PatchInv G eg sg N a g st) (ho : o.Valid Gl) (ha : affOf a (g : ℤ) ≠ [])
    (hR : localFix Gl eg N o fuel (g : ℤ) (affOf a (g : ℤ)) st = .ok R) :
    ∃ B en ex mn er lmax lmin i f h K, Step Gl eg o N fuel a g st B R en ex mn er lmax lmin i f h K := by
  obtain ⟨B, en, ex, us, mn, er, lmax, lmin, i, f, h, K, hreach, hB, hen, hus, hmn, hlmin, hlen, H⟩ :=
    localFix_shape I.ids I.closed (fun x hx => by
      obtain ⟨j, hj⟩ := I.modes x hx
      constructor <;> omega) (by omega) ho ha hR
  obtain ⟨us1, us2⟩ := mapM_deref _ _ hus
  have hen0 : ∀ y ∈ en, 0 ≤ y.rgrad := fun y hy =>
    I.nonneg y (H.en_mem y hy).1 (by rw [(H.en_mem y hy).2.1])
  have hus0 : ∀ u ∈ us, 0 ≤ u.rgrad := by
    intro u hu
    obtain ⟨u1, u2⟩ := us1 u hu
    obtain ⟨v, v1, v2, v3, -⟩ := I.aff _ (mem_affOf.1 u2) le_rfl
    have : v = u := eq_of_id_eq I.ids v1 u1 v2
    subst this
    exact I.nonneg v u1 (by rw [v3])
  have m1 := minRgrad_spec (en.map (·.rgrad)) (-1) (by simpa using hen0) le_rfl
  have m2 := minRgrad_spec (us.map (·.rgrad)) (minRgrad (en.map (·.rgrad)) (-1)) (by simpa using hus0)
    m1.2.2.2.2.1
  have hm0 : 0 ≤ minRgrad (en.map (·.rgrad)) (-1) := m1.2.2.2.1 (by simpa using hen)
  have hmn0 : 0 ≤ mn := by rw [hmn]; exact m2.2.2.2.2.2 (by omega)
  have hen_ge : ∀ y ∈ en, mn ≤ y.rgrad := by
    intro y hy
    rw [hmn]
    exact (m2.2.1 (by omega)).trans (m1.1 _ (List.mem_map_of_mem hy))
  have haff_ge : ∀ x ∈ st, ((g : ℤ), x.id) ∈ a → mn ≤ x.rgrad := by
    intro x hx hxa
    obtain ⟨u, u1, u2⟩ := us2 x.id (mem_affOf.2 hxa)
    rw [← eq_of_id_eq I.ids (us1 u u1).1 hx u2, hmn]
    exact m2.1 _ (List.mem_map_of_mem u1)
  have hmono : ∀ x ∈ st, ∀ y ∈ st, y.id ∈ x.trans → x.mode = (g : ℤ) → y.mode = (g : ℤ) →
      x.state ∈ N → y.state ∈ N → y.rgrad ≤ x.rgrad := by
    intro x hx y hy he hxg hyg hxN hyN
    refine (I.mono x hx y hy he (by rw [hxg]) (by rw [hxg, hyg])).resolve_right fun hall => ?_
    obtain ⟨i, hi⟩ := I.nowrap x hx y hy he (by rw [hxg]) (by rw [hxg, hyg]) (by rw [hxg]; exact ha) hxN hyN
    exact hi (hall i)
  refine ⟨B, en, ex, mn, er, lmax, lmin, i, f, h, K, H, hreach, hB, ?_, hen_ge, haff_ge, hmn0,
    H.K_small I.ids hmono, ?_, ?_⟩
  · intro s hs
    rw [List.mem_toFinset] at hs ⊢
    obtain ⟨x, hx, rfl⟩ := List.mem_map.1 hs
    exact ((H.ex_iff x).1 hx).2.2.1
  · intro y hy
    obtain ⟨z, z1, z2, z3⟩ := H.f_en y hy
    refine ⟨z, z1, z2, z3, fun ht => ?_⟩
    obtain ⟨x, x1, x2, -⟩ := H.h_term z z1 ht
    obtain ⟨s1, s2, s3, s4⟩ := (H.ex_iff x).1 x1
    obtain ⟨t1, t2, t3, -⟩ := H.en_mem y hy
    have : x = y := I.keys x s1 y t1 (by rw [s2]) (by rw [s2, t2]) (x2.trans z3)
    subst this
    have := hen_ge x hy
    omega
  · rintro x hx hxd y hy he hyen hxg ⟨d1, d2, d3⟩
    by_cases hxN : x.state ∈ N
    · have hKx : K x.id := by
        by_contra hc
        exact hxd ⟨hxg, hxN, hc⟩
      refine d3 (H.K_closed x hx hKx y hy ?_ d1 d2)
      rw [List.mem_map]
      refine ⟨y.id, he, H.f_id _ fun hc => ?_⟩
      obtain ⟨u, u1, u2⟩ := mem_ids.1 hc
      exact hyen (eq_of_id_eq I.ids (H.en_mem u u1).1 hy u2 ▸ u1)
    · obtain ⟨y', y1, y2⟩ := H.en_cov x hx hxg hxN y hy he d1 d2
      obtain ⟨t1, t2, t3, -⟩ := H.en_mem y' y1
      have : y' = y := I.keys y' t1 y hy (by rw [t2]) (by rw [t2, d1]) y2
      exact hyen (this ▸ y1)

theorem passes_refl {i : Fin n} {t : E × S} : Passes sg i t i := ⟨0, rfl, fun c hc => absurd hc (by omega)⟩

theorem fin_cast_inj' {i j : Fin n} (h : (i.val : ℤ) = (j.val : ℤ)) : i = j :=
  Fin.ext (by exact_mod_cast h)

/-- Runs that keep one mode from some time on are the only ones to look at. -/
theorem live_of_const {st : Aut ℤ (E × S)}
    (order : ∀ x ∈ st, ∀ y ∈ st, y.id ∈ x.trans →
      ∃ i j : Fin n, x.mode = (i.val : ℤ) ∧ y.mode = (j.val : ℤ) ∧ Passes sg i y.state j)
    (hconst : ∀ ρ, IsRun st ρ → (∃ c, ∀ k, (ρ k).mode = c) → (∀ k, ∃ i, (ρ k).state ∉ sg i) →
      Live eg sg (fun k => (ρ k).state)) :
    ∀ ρ, IsRun st ρ → Live eg sg (fun k => (ρ k).state) := by
  intro ρ hρ henv i
  by_contra hcon
  unfold InfOften at hcon
  push Not at hcon
  obtain ⟨T, hT⟩ := hcon
  have hedge := fun k => order (ρ k) (hρ k).1 (ρ (k + 1)) (hρ (k + 1)).1 (hρ k).2
  have hmd : ∀ k, ∃ i : Fin n, (ρ k).mode = (i.val : ℤ) := fun k => by
    obtain ⟨i, j, hi, -⟩ := hedge k
    exact ⟨i, hi⟩
  choose md hmd using hmd
  have hstep : ∀ k, T ≤ k → dist i (md (k + 1)) ≤ dist i (md k) ∧
      (md (k + 1) ≠ md k → dist i (md (k + 1)) < dist i (md k)) := by
    intro k hk
    obtain ⟨p, q, hp, hq, c, c1, c2⟩ := hedge k
    have hpk : p = md k := fin_cast_inj' (hp.symm.trans (hmd k))
    have hqk : q = md (k + 1) := fin_cast_inj' (hq.symm.trans (hmd (k + 1)))
    subst hpk hqk
    have := dist_advance (i := i) (k := md k) (d := c) (by
      intro c' hc' heq
      have h' := c2 c' hc'
      rw [heq] at h'
      exact hT (k + 1) (by omega) h')
    rw [c1] at this
    refine ⟨by omega, fun hne => ?_⟩
    have : c ≠ 0 := by
      rintro rfl
      exact hne c1.symm
    omega
  obtain ⟨K, hK1, hK⟩ := eventually_const (fun k => dist i (md k)) T (fun k hk => (hstep k hk).1)
  have hmode : ∀ k, K ≤ k → md (k + 1) = md k := by
    intro k hk
    by_contra hne
    have h1 := (hstep k (by omega)).2 hne
    have h2 : dist i (md (k + 1)) = dist i (md k) := hK k hk
    omega
  have hc : ∀ a, md (K + a) = md K := by
    intro a
    induction a with
    | zero => rfl
    | succ a ih => rw [← ih]; exact hmode (K + a) (by omega)
  obtain ⟨k, hk1, hk2⟩ := hconst (fun a => ρ (K + a)) (fun a => hρ (K + a))
    ⟨_, fun a => by rw [hmd, hc]⟩ (fun a => ⟨i, hT (K + a) (by omega)⟩) (by
      intro r M
      obtain ⟨k, hk1, hk2⟩ := henv r (K + M)
      refine ⟨k - K, by omega, ?_⟩
      change (ρ (K + (k - K))).state ∈ eg r
      rw [show K + (k - K) = k by omega]
      exact hk2) i T
  exact hT (K + k) (by omega) hk2

theorem live_tail {π : ℕ → E × S} (K : ℕ) (h : Live eg sg (fun k => π (K + k))) : Live eg sg π := by
  intro henv i T
  obtain ⟨k, hk1, hk2⟩ := h (by
    intro r M
    obtain ⟨k, hk1, hk2⟩ := henv r (K + M)
    refine ⟨k - K, by omega, ?_⟩
    change π (K + (k - K)) ∈ eg r
    rw [show K + (k - K) = k by omega]
    exact hk2) i T
  exact ⟨K + k, by omega, hk2⟩

/-- Agreement of two games at the states of `N`. -/
def AgreeOn (N : List (E × S)) (G G' : Game E S) : Prop :=
  ∀ s ∈ N, (∀ e, G.etr s e = G'.etr s e) ∧ ∀ t, G.str s t = G'.str s t

theorem patchInv_step {N : List (E × S)} {a : List (ℤ × ℕ)} {g : ℕ} {st R : Aut ℤ (E × S)} {fuel : ℕ}
    {Gl : Game E S} (hg : g < n) (hagree : AgreeOn N Gl G) (I : PatchInv G eg sg N a g st) (ho : o.Valid Gl)
    (hR : localFix Gl eg N o fuel (g : ℤ) (affOf a (g : ℤ)) st = .ok R) :
    PatchInv G eg sg N a (g + 1) R := by
  by_cases ha : affOf a (g : ℤ) = []
  · unfold localFix at hR
    rw [if_pos ha] at hR
    cases hR
    refine ⟨I.ids, I.closed, I.modes, I.order, I.live, ?_, ?_, ?_, ?_, ?_, ?_⟩
    · intro x hx y hy hle; exact I.keys x hx y hy (by push_cast at hle; omega)
    · intro x hx hle; exact I.nonneg x hx (by push_cast at hle; omega)
    · intro x hx y hy he hle; exact I.mono x hx y hy he (by push_cast at hle; omega)
    · intro x hx y hy he hle; exact I.nowrap x hx y hy he (by push_cast at hle; omega)
    · intro x hx hna
      refine I.sound x hx ?_
      rintro ⟨h1, h2⟩
      rcases lt_or_eq_of_le h1 with h1 | h1
      · exact hna ⟨by push_cast; omega, h2⟩
      · have := mem_affOf.2 (h1 ▸ h2)
        rw [ha] at this
        simp at this
    · intro p hp hle; exact I.aff p hp (by push_cast at hle; omega)
  obtain ⟨B, en, ex, mn, er, lmax, lmin, i, f, h, K, T⟩ := step_of I ho ha hR
  have H := T.shape
  obtain ⟨-, b2, -, b4⟩ := reach_answers T.exN (avoid_valid ho _) T.reach T.ne
  have hbcl : ∀ x ∈ B, ∀ j ∈ x.trans, ∃ y ∈ B, y.id = j := fun x hx => (b4 x hx).2.2.1
  have hidsR := H.ids_R I.ids
  have hgm : ∃ j : Fin n, (g : ℤ) = (j.val : ℤ) := ⟨⟨g, hg⟩, rfl⟩
  have hclosed : ∀ x ∈ R, ∀ j ∈ x.trans, ∃ y ∈ R, y.id = j := by
    intro y hy j hj
    rcases H.mem_R.1 hy with ⟨x, x1, x2, rfl⟩ | ⟨z, z1, z2, rfl⟩
    · unfold keptOf at hj
      simp only [List.mem_filter, List.mem_map, decide_eq_true_eq] at hj
      obtain ⟨⟨k, k1, k2⟩, hnd⟩ := hj
      obtain ⟨u, u1, u2⟩ := I.closed x x1 k k1
      by_cases hue : u ∈ en
      · obtain ⟨z, z1, z2, z3, z4⟩ := T.fresh_en u hue
        exact ⟨freshOf _ er h i z, H.mem_R.2 (Or.inr ⟨z, z1, z4, rfl⟩), by rw [← k2, ← u2, ← z2]; rfl⟩
      · have hfk : f k = k := H.f_id k fun hc => by
          obtain ⟨v, v1, v2⟩ := mem_ids.1 hc
          exact hue (eq_of_id_eq I.ids (H.en_mem v v1).1 u1 (v2.trans u2.symm) ▸ v1)
        refine ⟨_, H.mem_R.2 (Or.inl ⟨u, u1, ?_, rfl⟩), by rw [← k2, hfk, ← u2]; rfl⟩
        intro hdel
        exact hnd (mem_delIds.2 ⟨u, u1, by rw [u2, ← k2, hfk], hdel⟩)
    · unfold freshOf at hj
      simp only [List.mem_map] at hj
      obtain ⟨k, k1, k2⟩ := hj
      obtain ⟨w, w1, w2⟩ := hbcl z z1 k k1
      by_cases ht : w.trans = []
      · obtain ⟨x, x1, -, x3, x4, -⟩ := H.h_term w w1 ht
        refine ⟨_, H.mem_R.2 (Or.inl ⟨x, ((H.ex_iff x).1 x1).1, fun hc => hc.2.2 x4, rfl⟩), ?_⟩
        rw [← k2, ← w2, x3]; rfl
      · exact ⟨_, H.mem_R.2 (Or.inr ⟨w, w1, ht, rfl⟩), by rw [← k2, ← w2, H.h_id w w1 ht]; rfl⟩
  have horder : ∀ x ∈ R, ∀ y ∈ R, y.id ∈ x.trans →
      ∃ i j : Fin n, x.mode = (i.val : ℤ) ∧ y.mode = (j.val : ℤ) ∧ Passes sg i y.state j := by
    intro y hy y' hy' he
    rcases H.mem_R.1 hy with ⟨x, x1, x2, rfl⟩ | ⟨z, z1, z2, rfl⟩
    · obtain ⟨x', q1, q2, -, q3, q4, -⟩ := H.edge_old I.ids I.closed x1 hy' he
      obtain ⟨p, q, hp, hq, hpq⟩ := I.order x x1 x' q1 q2
      exact ⟨p, q, hp, q4.trans hq, by rw [q3]; exact hpq⟩
    · obtain ⟨z', q1, q2, -, q3, q4, -⟩ := H.edge_new I.ids hbcl z1 hy' he
      exact ⟨⟨g, hg⟩, ⟨g, hg⟩, rfl, q4, passes_refl⟩
  refine ⟨hidsR, hclosed, ?_, horder, ?_, ?_, ?_, ?_, ?_, ?_, ?_⟩
  · intro y hy
    rcases H.mem_R.1 hy with ⟨x, x1, x2, rfl⟩ | ⟨z, z1, z2, rfl⟩
    · exact I.modes x x1
    · exact hgm
  · -- liveness
    apply live_of_const horder
    rintro ρ hρ ⟨c, hc⟩ hnall
    have hcls := fun k => H.mem_R.1 (hρ k).1
    -- runs that stay old
    have hold : (∀ k, ∃ x ∈ st, ¬ DelNode N (g : ℤ) K x ∧ ρ k = keptOf f (delIds N (g : ℤ) K st) i x) →
        Live eg sg (fun k => (ρ k).state) := by
      intro hall
      choose x x1 x2 x3 using hall
      have hrun : IsRun st x := by
        intro k
        refine ⟨x1 k, ?_⟩
        have he := (hρ k).2
        rw [x3 k] at he
        obtain ⟨x', q1, q2, -, -, -, q5 | ⟨-, z', z1, -, q5⟩⟩ := H.edge_old I.ids I.closed (x1 k) (hρ (k + 1)).1 he
        · have : x (k + 1) = x' := eq_of_id_eq I.ids (x1 _) q1 (by
            have h1 := x3 (k + 1)
            rw [q5.2.1] at h1
            exact (congrArg ANode.id h1).symm)
          rw [this]
          exact q2
        · refine absurd ?_ (H.disj _ (x1 (k + 1)) z' z1)
          have h1 := x3 (k + 1)
          rw [q5] at h1
          exact (congrArg ANode.id h1).symm
      have := I.live x hrun
      intro henv r M
      obtain ⟨k, k1, k2⟩ := this (by
        intro r M
        obtain ⟨k, k1, k2⟩ := henv r M
        refine ⟨k, k1, ?_⟩
        change (x k).state ∈ eg r
        have h3 : (ρ k).state = (x k).state := by rw [x3 k]; rfl
        rw [← h3]
        exact k2) r M
      refine ⟨k, k1, ?_⟩
      change (ρ k).state ∈ sg r
      rw [x3 k]
      exact k2
    by_cases hcg : c = (g : ℤ)
    · by_cases hex : ∃ k0, ∃ x ∈ st, x.rgrad < mn ∧ ¬ DelNode N (g : ℤ) K x ∧
          ρ k0 = keptOf f (delIds N (g : ℤ) K st) i x
      · -- after an exit the run stays in old nodes with small annotation
        obtain ⟨k0, hk0⟩ := hex
        have hstay : ∀ d, ∃ x ∈ st, x.rgrad < mn ∧ ¬ DelNode N (g : ℤ) K x ∧
            ρ (k0 + d) = keptOf f (delIds N (g : ℤ) K st) i x := by
          intro d
          induction d with
          | zero => exact hk0
          | succ d ih =>
            obtain ⟨x, x1, x2, x3, x4⟩ := ih
            have he := (hρ (k0 + d)).2
            rw [x4] at he
            have hxm : x.mode = (g : ℤ) := by
              have := hc (k0 + d)
              rw [x4, hcg] at this
              exact this
            obtain ⟨x', q1, q2, -, q3, q4, q5'⟩ := H.edge_old I.ids I.closed x1 (hρ (k0 + d + 1)).1 he
            have hnw : ¬ ∀ i, x.state ∈ sg i := by
              intro hall
              obtain ⟨i, hi⟩ := hnall (k0 + d)
              rw [x4] at hi
              exact hi (hall i)
            rcases q5' with q5 | ⟨q5, -⟩
            · have hx'm : x'.mode = (g : ℤ) := by rw [← q4, hc, hcg]
              have := (I.mono x x1 x' q1 q2 (by rw [hxm]) (by rw [hxm, hx'm])).resolve_right hnw
              exact ⟨x', q1, by omega, q5.1, q5.2.1⟩
            · have h1 := T.en_ge x' q5
              have := (I.mono x x1 x' q1 q2 (by rw [hxm]) (by rw [hxm, (H.en_mem x' q5).2.1])).resolve_right hnw
              omega
        refine live_tail (π := fun k => (ρ k).state) k0 ?_
        -- the tail is a run of old nodes
        choose x x1 x2 x3 x4 using hstay
        have hrun : IsRun st x := by
          intro k
          refine ⟨x1 k, ?_⟩
          have he := (hρ (k0 + k)).2
          rw [x4 k] at he
          obtain ⟨x', q1, q2, -, -, -, q5 | ⟨-, z', z1, -, q5⟩⟩ :=
            H.edge_old I.ids I.closed (x1 k) (hρ (k0 + k + 1)).1 he
          · have : x (k + 1) = x' := eq_of_id_eq I.ids (x1 _) q1 (by
              have h1 := x4 (k + 1)
              rw [show k0 + (k + 1) = k0 + k + 1 by omega, q5.2.1] at h1
              exact (congrArg ANode.id h1).symm)
            rw [this]
            exact q2
          · refine absurd ?_ (H.disj _ (x1 (k + 1)) z' z1)
            have h1 := x4 (k + 1)
            rw [show k0 + (k + 1) = k0 + k + 1 by omega, q5] at h1
            exact (congrArg ANode.id h1).symm
        have hst : (fun k => (ρ (k0 + k)).state) = fun k => (x k).state := by
          funext k
          rw [x4 k]
          rfl
        rw [hst]
        exact I.live x hrun
      · by_cases hfr : ∃ k0, ∃ z ∈ B, z.trans ≠ [] ∧ ρ k0 = freshOf (g : ℤ) er h i z
        · obtain ⟨k0, hk0⟩ := hfr
          have hstay : ∀ d, ∃ z ∈ B, z.trans ≠ [] ∧ ρ (k0 + d) = freshOf (g : ℤ) er h i z := by
            intro d
            induction d with
            | zero => exact hk0
            | succ d ih =>
              obtain ⟨z, z1, z2, z3⟩ := ih
              have he := (hρ (k0 + d)).2
              rw [z3] at he
              obtain ⟨z', q1, q2, -, -, -, q5 | ⟨x', q5, q6, q7⟩⟩ :=
                H.edge_new I.ids hbcl z1 (hρ (k0 + d + 1)).1 he
              · exact ⟨z', q1, q5.1, q5.2⟩
              · exfalso
                obtain ⟨s1, s2, s3, s4⟩ := (H.ex_iff x').1 q5
                refine hex ⟨k0 + d + 1, x', s1, s4, ?_, q7⟩
                rcases H.mem_R.1 (hρ (k0 + d + 1)).1 with ⟨w, w1, w2, w3⟩ | ⟨w, w1, w2, w3⟩
                · have : w = x' := eq_of_id_eq I.ids w1 s1 (by
                    rw [q7] at w3
                    exact (congrArg ANode.id w3).symm)
                  rw [← this]
                  exact w2
                · refine absurd ?_ (H.disj x' s1 w w1)
                  rw [q7] at w3
                  have h4 := congrArg ANode.id w3
                  exact h4
          choose z z1 z2 z3 using hstay
          intro henv
          exfalso
          obtain ⟨r, M, hr⟩ := reach_live T.exN (avoid_valid ho _) T.reach z (by
            intro k
            refine ⟨z1 k, ?_⟩
            have he := (hρ (k0 + k)).2
            rw [z3 k] at he
            obtain ⟨z', q1, q2, -, -, -, q5 | ⟨x', q5, q6, q7⟩⟩ :=
              H.edge_new I.ids hbcl (z1 k) (hρ (k0 + k + 1)).1 he
            · have : z (k + 1) = z' := eq_of_id_eq H.bids (z1 _) q1 (by
                have h1 := z3 (k + 1)
                rw [show k0 + (k + 1) = k0 + k + 1 by omega, q5.2] at h1
                exact (congrArg ANode.id h1).symm)
              rw [this]
              exact q2
            · refine absurd ?_ (H.disj x' ((H.ex_iff x').1 q5).1 _ (z1 (k + 1)))
              have h1 := z3 (k + 1)
              rw [show k0 + (k + 1) = k0 + k + 1 by omega, q7] at h1
              have h4 := congrArg ANode.id h1
              exact h4)
          obtain ⟨k, k1, k2⟩ := henv r (k0 + M)
          refine hr (k - k0) (by omega) ?_
          have h3 : (ρ (k0 + (k - k0))).state = (z (k - k0)).state := by rw [z3]; rfl
          rw [← h3, show k0 + (k - k0) = k by omega]
          exact k2
        · apply hold
          intro k
          rcases hcls k with hk | hk
          · exact hk
          · exact absurd ⟨k, hk⟩ hfr
    · apply hold
      intro k
      rcases hcls k with hk | ⟨z, -, -, hz⟩
      · exact hk
      · exfalso
        apply hcg
        rw [← hc k, hz]
        rfl
  · -- keys
    intro y hy y' hy' hle hm hs
    push_cast at hle
    rcases H.mem_R.1 hy with ⟨x, x1, x2, rfl⟩ | ⟨z, z1, z2, rfl⟩
    · rcases H.mem_R.1 hy' with ⟨x', x1', x2', rfl⟩ | ⟨z', z1', z2', rfl⟩
      · have hle' : (g : ℤ) + 1 ≤ x.mode := hle
        rw [I.keys x x1 x' x1' (by omega) hm hs]
      · exfalso
        have h1 : x.mode = (g : ℤ) := hm
        have hle' : (g : ℤ) + 1 ≤ x.mode := hle
        omega
    · exfalso
      have hle' : (g : ℤ) + 1 ≤ (g : ℤ) := hle
      omega
  · intro y hy hle
    push_cast at hle
    rcases H.mem_R.1 hy with ⟨x, x1, x2, rfl⟩ | ⟨z, z1, z2, rfl⟩
    · have hle' : (g : ℤ) + 1 ≤ x.mode := hle
      exact mul_nonneg (I.nonneg x x1 (by omega)) (by omega)
    · exfalso
      have hle' : (g : ℤ) + 1 ≤ (g : ℤ) := hle
      omega
  · intro y hy y' hy' he hle hm
    push_cast at hle
    rcases H.mem_R.1 hy with ⟨x, x1, x2, rfl⟩ | ⟨z, z1, z2, rfl⟩
    · have hle' : (g : ℤ) + 1 ≤ x.mode := hle
      have hm' : y'.mode = x.mode := hm
      obtain ⟨x', q1, q2, -, q3, q4, q5 | ⟨q5, -⟩⟩ := H.edge_old I.ids I.closed x1 hy' he
      · rcases I.mono x x1 x' q1 q2 (by omega) (by rw [← hm', q4]) with h1 | h1
        · left
          rw [q5.2.1]
          exact Int.mul_le_mul_of_nonneg_right h1 (by omega)
        · exact Or.inr h1
      · exfalso
        have := (H.en_mem x' q5).2.1
        omega
    · exfalso
      have hle' : (g : ℤ) + 1 ≤ (g : ℤ) := hle
      omega
  · intro y hy y' hy' he hle hm hna hyN hyN'
    push_cast at hle
    rcases H.mem_R.1 hy with ⟨x, x1, x2, rfl⟩ | ⟨z, z1, z2, rfl⟩
    · have hle' : (g : ℤ) + 1 ≤ x.mode := hle
      have hm' : y'.mode = x.mode := hm
      obtain ⟨x', q1, q2, -, q3, q4, -⟩ := H.edge_old I.ids I.closed x1 hy' he
      rw [q3] at hyN'
      exact I.nowrap x x1 x' q1 q2 (by omega) (by rw [← hm', q4]) hna hyN hyN'
    · exfalso
      have hle' : (g : ℤ) + 1 ≤ (g : ℤ) := hle
      omega
  · -- soundness
    intro y hy hna
    rcases H.mem_R.1 hy with ⟨x, x1, x2, rfl⟩ | ⟨z, z1, z2, rfl⟩
    · have hsx : EdgesSound G st x := by
        refine I.sound x x1 ?_
        rintro ⟨h1, h2⟩
        rcases lt_or_eq_of_le h1 with h1 | h1
        · exact hna ⟨by push_cast; exact h1, h2⟩
        · rw [← h1] at h2
          have hge := T.aff_ge x x1 h2
          obtain ⟨v, v1, v2, v3, v4⟩ := I.aff _ h2 le_rfl
          have : v = x := eq_of_id_eq I.ids v1 x1 v2
          subst this
          refine x2 ⟨h1.symm, v4, fun hK => ?_⟩
          have := T.small v x1 hK
          omega
      refine ⟨?_, ?_⟩
      · intro y' hy' he
        obtain ⟨x', q1, q2, -, q3, -⟩ := H.edge_old I.ids I.closed x1 hy' he
        rw [q3]
        exact hsx.1 x' q1 q2
      · intro y' hy' y'' hy'' he' he'' hs
        obtain ⟨x', q1, q2, q0, q3, -⟩ := H.edge_old I.ids I.closed x1 hy' he'
        obtain ⟨x'', r1, r2, r0, r3, -⟩ := H.edge_old I.ids I.closed x1 hy'' he''
        have : x' = x'' := hsx.2 x' q1 x'' r1 q2 r2 (by rw [← q3, ← r3, hs])
        subst this
        exact eq_of_id_eq hidsR hy' hy'' (q0.trans r0.symm)
    · obtain ⟨c1, c2, c3, c4, c5, c6⟩ := b4 z z1
      have hzX : z.state ∉ (ex.map (·.state)).toFinset := fun hc => z2 (c4 hc)
      obtain ⟨c7, c8⟩ := c6 hzX
      have hzN : z.state ∈ N := by simpa using c2
      refine ⟨?_, ?_⟩
      · intro y' hy' he
        obtain ⟨z', q1, q2, -, q3, -⟩ := H.edge_new I.ids hbcl z1 hy' he
        rw [q3]
        change G.str z.state z'.state = true
        rw [← (hagree _ hzN).2]
        exact (c5 z' q1 q2).2
      · intro y' hy' y'' hy'' he' he'' hs
        obtain ⟨z', q1, q2, q0, q3, -⟩ := H.edge_new I.ids hbcl z1 hy' he'
        obtain ⟨z'', r1, r2, r0, r3, -⟩ := H.edge_new I.ids hbcl z1 hy'' he''
        have : z' = z'' := by
          obtain ⟨w, -, hw⟩ := c8 z'.state.1 (c5 z' q1 q2).1
          rw [hw z' ⟨q1, q2, rfl⟩, hw z'' ⟨r1, r2, by rw [← q3, ← r3, hs]⟩]
        subst this
        exact eq_of_id_eq hidsR hy' hy'' (q0.trans r0.symm)
  · intro p hp hle
    push_cast at hle
    obtain ⟨x, x1, x2, x3, x4⟩ := I.aff p hp (by omega)
    refine ⟨_, H.mem_R.2 (Or.inl ⟨x, x1, ?_, rfl⟩), x2, x3, x4⟩
    rintro ⟨h1, -⟩
    omega

theorem patchAns_step {N : List (E × S)} {a : List (ℤ × ℕ)} {g : ℕ} {st R : Aut ℤ (E × S)} {fuel : ℕ}
    {Gl : Game E S} (hagree : AgreeOn N Gl G) (I : PatchInv G eg sg N a g st)
    (A : PatchAns G N a g st) (ho : o.Valid Gl)
    (hR : localFix Gl eg N o fuel (g : ℤ) (affOf a (g : ℤ)) st = .ok R) :
    PatchAns G N a (g + 1) R := by
  by_cases ha : affOf a (g : ℤ) = []
  · unfold localFix at hR
    rw [if_pos ha] at hR
    cases hR
    refine ⟨?_, ?_⟩
    · intro x hx hna
      refine A.ans x hx ?_
      rintro ⟨h1, h2⟩
      rcases lt_or_eq_of_le h1 with h1 | h1
      · exact hna ⟨by push_cast; omega, h2⟩
      · have := mem_affOf.2 (h1 ▸ h2)
        rw [ha] at this
        simp at this
    · intro x hx y hy he hne hle
      exact A.cross x hx y hy he hne (by push_cast at hle; omega)
  obtain ⟨B, en, ex, mn, er, lmax, lmin, i, f, h, K, T⟩ := step_of I ho ha hR
  have H := T.shape
  obtain ⟨-, b2, -, b4⟩ := reach_answers T.exN (avoid_valid ho _) T.reach T.ne
  have hbcl : ∀ x ∈ B, ∀ j ∈ x.trans, ∃ y ∈ B, y.id = j := fun x hx => (b4 x hx).2.2.1
  refine ⟨?_, ?_⟩
  · intro y hy hna e he
    rcases H.mem_R.1 hy with ⟨x, x1, x2, rfl⟩ | ⟨z, z1, z2, rfl⟩
    · have hax : Answered G st x := by
        refine A.ans x x1 ?_
        rintro ⟨h1, h2⟩
        rcases lt_or_eq_of_le h1 with h1 | h1
        · exact hna ⟨by push_cast; exact h1, h2⟩
        · rw [← h1] at h2
          have hge := T.aff_ge x x1 h2
          obtain ⟨v, v1, v2, v3, v4⟩ := I.aff _ h2 le_rfl
          have : v = x := eq_of_id_eq I.ids v1 x1 v2
          subst this
          refine x2 ⟨h1.symm, v4, fun hK => ?_⟩
          have := T.small v x1 hK
          omega
      obtain ⟨u, u1, u2, u3⟩ := hax e he
      by_cases hue : u ∈ en
      · obtain ⟨z, z1, z2, z3, z4⟩ := T.fresh_en u hue
        refine ⟨_, H.mem_R.2 (Or.inr ⟨z, z1, z4, rfl⟩), ?_, ?_⟩
        · unfold keptOf
          simp only [List.mem_filter, List.mem_map, decide_eq_true_eq]
          refine ⟨⟨u.id, u2, z2.symm⟩, fun hc => ?_⟩
          obtain ⟨v, v1, v2, -⟩ := mem_delIds.1 hc
          exact H.disj v v1 z z1 v2
        · change z.state.1 = e
          rw [z3, u3]
      · have hfk : f u.id = u.id := H.f_id _ fun hc => by
          obtain ⟨v, v1, v2⟩ := mem_ids.1 hc
          exact hue (eq_of_id_eq I.ids (H.en_mem v v1).1 u1 v2 ▸ v1)
        have hnd : ¬ DelNode N (g : ℤ) K u := by
          by_cases hxg : x.mode = (g : ℤ)
          · exact T.lost x x1 x2 u u1 u2 hue hxg
          · rintro ⟨d1, d2, -⟩
            exact A.cross x x1 u u1 u2 (by rw [d1]; exact fun hc => hxg hc.symm) (by rw [d1])
              (by rw [d1]; exact ha) d2
        refine ⟨_, H.mem_R.2 (Or.inl ⟨u, u1, hnd, rfl⟩), ?_, u3⟩
        unfold keptOf
        simp only [List.mem_filter, List.mem_map, decide_eq_true_eq]
        refine ⟨⟨u.id, u2, hfk⟩, fun hc => ?_⟩
        obtain ⟨v, v1, v2, v3⟩ := mem_delIds.1 hc
        rw [eq_of_id_eq I.ids v1 u1 v2] at v3
        exact hnd v3
    · obtain ⟨c1, c2, c3, c4, c5, c6⟩ := b4 z z1
      have hzX : z.state ∉ (ex.map (·.state)).toFinset := fun hc => z2 (c4 hc)
      obtain ⟨c7, c8⟩ := c6 hzX
      have hzN : z.state ∈ N := by simpa using c2
      have he' : Gl.etr z.state e = true := by
        rw [(hagree _ hzN).1]
        exact he
      obtain ⟨w, ⟨w1, w2, w3⟩, -⟩ := c8 e he'
      by_cases ht : w.trans = []
      · obtain ⟨x, x1, x2, x3, x4, -⟩ := H.h_term w w1 ht
        refine ⟨_, H.mem_R.2 (Or.inl ⟨x, ((H.ex_iff x).1 x1).1, fun hc => hc.2.2 x4, rfl⟩), ?_, ?_⟩
        · unfold freshOf
          simp only [List.mem_map]
          exact ⟨w.id, w2, x3⟩
        · change x.state.1 = e
          rw [x2, w3]
      · refine ⟨_, H.mem_R.2 (Or.inr ⟨w, w1, ht, rfl⟩), ?_, w3⟩
        unfold freshOf
        simp only [List.mem_map]
        exact ⟨w.id, w2, H.h_id w w1 ht⟩
  · intro y hy y' hy' he hne hle hna
    push_cast at hle
    rcases H.mem_R.1 hy with ⟨x, x1, x2, rfl⟩ | ⟨z, z1, z2, rfl⟩
    · obtain ⟨x', q1, q2, -, q3, q4, -⟩ := H.edge_old I.ids I.closed x1 hy' he
      rw [q3]
      rw [q4] at hne hle hna
      exact A.cross x x1 x' q1 q2 hne (by omega) hna
    · obtain ⟨z', q1, q2, -, q3, q4, -⟩ := H.edge_new I.ids hbcl z1 hy' he
      exact absurd q4 hne

end Gr1c
