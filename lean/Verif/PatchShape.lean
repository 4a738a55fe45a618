import Verif.PatchLemmas
import Verif.ReachProps

/-!
# The shape of the result of `localfixpoint_goalmode`
-/

namespace Gr1c

set_option linter.unusedSectionVars false

variable {E S : Type} [Fintype E] [DecidableEq E] [Fintype S] [DecidableEq S] {m : ℕ}
  {G : Game E S} {eg : Fin m → Finset (E × S)} {o : Oracle E S}

theorem avoid_valid (ho : o.Valid G) (used : List ℕ) : (o.avoid used).Valid G where
  alloc := fun c ids h => ho.alloc c (ids ++ used) (List.mem_append_left _ h)
  pick := ho.pick
  moves_nodup := ho.moves_nodup
  moves_mem := ho.moves_mem
  enum_nodup := ho.enum_nodup
  enum_mem := ho.enum_mem
  enumEnv_nodup := ho.enumEnv_nodup
  enumEnv_mem := ho.enumEnv_mem

theorem avoid_fresh (ho : o.Valid G) (used : List ℕ) (c : ℕ) (l : List ℕ) :
    (o.avoid used).alloc c l ∉ used := fun h => ho.alloc c (l ++ used) (List.mem_append_right _ h)

/-- The node is deleted: it has mode `g`, lies in `N` and was not marked. -/
def DelNode {V : Type} (N : List V) (g : ℤ) (K : ℕ → Prop) (x : ANode ℤ V) : Prop :=
  x.mode = g ∧ x.state ∈ N ∧ ¬ K x.id

open Classical in
/-- Addresses of the deleted nodes. -/
noncomputable def delIds {V : Type} (N : List V) (g : ℤ) (K : ℕ → Prop) (st : Aut ℤ V) : List ℕ :=
  Aut.ids (st.filter fun x => DelNode N g K x)

theorem mem_delIds {V : Type} {N : List V} {g : ℤ} {K : ℕ → Prop} {st : Aut ℤ V} {j : ℕ} :
    j ∈ delIds N g K st ↔ ∃ x ∈ st, x.id = j ∧ DelNode N g K x := by
  unfold delIds
  simp only [Aut.ids, List.mem_map, List.mem_filter, decide_eq_true_eq]
  constructor
  · rintro ⟨x, ⟨h1, h2⟩, rfl⟩; exact ⟨x, h1, rfl, h2⟩
  · rintro ⟨x, h1, rfl, h2⟩; exact ⟨x, ⟨h1, h2⟩, rfl⟩

/-- What becomes of a node that is kept. -/
noncomputable def keptOf {V : Type} (f : ℕ → ℕ) (D : List ℕ) (i : ℕ) (x : ANode ℤ V) : ANode ℤ V :=
  { x with trans := (x.trans.map f).filter fun j => j ∉ D, rgrad := x.rgrad * i }

/-- What becomes of a node of the local strategy. -/
def freshOf {V : Type} (g er : ℤ) (h : ℕ → ℕ) (i : ℕ) (z : ANode ℤ V) : ANode ℤ V :=
  { z with mode := g, trans := z.trans.map h, rgrad := z.rgrad + er * i }

open Classical in
/-- Everything known about a successful call that does something. -/
structure LocalShape (st B R en ex : Aut ℤ (E × S)) (N : List (E × S)) (g mn er lmax lmin : ℤ) (i : ℕ)
    (f h : ℕ → ℕ) (K : ℕ → Prop) : Prop where
  disj : ∀ x ∈ st, ∀ z ∈ B, x.id ≠ z.id
  bids : (Aut.ids B).Nodup
  en_mem : ∀ y ∈ en, y ∈ st ∧ y.mode = g ∧ y.state ∈ N ∧
    ∃ x ∈ st, x.mode = g ∧ x.state ∉ N ∧ y.id ∈ x.trans
  en_cov : ∀ x ∈ st, x.mode = g → x.state ∉ N → ∀ y ∈ st, y.id ∈ x.trans → y.mode = g → y.state ∈ N →
    ∃ y' ∈ en, y'.state = y.state
  ex_iff : ∀ x, x ∈ ex ↔ x ∈ st ∧ x.mode = g ∧ x.state ∈ N ∧ x.rgrad < mn
  f_id : ∀ j, j ∉ Aut.ids en → f j = j
  f_en : ∀ y ∈ en, ∃ z ∈ B, z.id = f y.id ∧ z.state = y.state
  f_or : ∀ j, f j = j ∨ f j ∈ Aut.ids B
  h_term : ∀ z ∈ B, z.trans = [] → ∃ x ∈ ex, x.state = z.state ∧ h z.id = x.id ∧ K x.id ∧ x.rgrad ≤ er
  h_id : ∀ z ∈ B, z.trans ≠ [] → h z.id = z.id
  K_mem : ∀ k, K k → ∃ x ∈ st, x.id = k ∧ x.mode = g ∧ x.state ∈ N
  K_closed : ∀ x ∈ st, K x.id → ∀ y ∈ st, y.id ∈ x.trans.map f → y.mode = g → y.state ∈ N → K y.id
  K_ind : ∀ P : ℕ → Prop, (∀ x ∈ ex, P x.id) →
    (∀ x ∈ st, ∀ y ∈ st, P x.id → x.mode = g → x.state ∈ N → y.id ∈ x.trans.map f → y.mode = g →
      y.state ∈ N → P y.id) → ∀ k, K k → P k
  er_or : er = -1 ∨ ∃ x ∈ ex, er = x.rgrad ∧ ∃ z ∈ B, z.trans = []
  lmax_ge : ∀ z ∈ B, z.rgrad ≤ lmax
  i_pos : 1 ≤ i
  scale : lmax - lmin ≤ (mn - er) * i
  R_eq : R = (st.filter fun x => ¬ DelNode N g K x).map (keptOf f (delIds N g K st) i) ++
    (B.filter fun z => z.trans ≠ []).map (freshOf g er h i)

theorem mapM_deref {V : Type} [DecidableEq V] {st : Aut ℤ V} : ∀ (l : List ℕ) (us : Aut ℤ V),
    l.mapM (derefNode st) = some us → (∀ u ∈ us, u ∈ st ∧ u.id ∈ l) ∧ ∀ j ∈ l, ∃ u ∈ us, u.id = j := by
  intro l
  induction l with
  | nil => intro us h; simp at h; subst h; simp
  | cons j js ih =>
    intro us h
    rw [List.mapM_cons] at h
    cases hd : derefNode st j with
    | none => rw [hd] at h; simp at h
    | some y =>
      rw [hd] at h
      cases hr : js.mapM (derefNode st) with
      | none => rw [hr] at h; simp at h
      | some vs =>
        rw [hr] at h
        simp only [Option.pure_def, Option.bind_eq_bind, Option.bind_some, Option.some.injEq] at h
        subst h
        obtain ⟨a1, a2⟩ := ih vs hr
        obtain ⟨y1, y2⟩ := derefNode_some hd
        refine ⟨?_, ?_⟩
        · intro u hu
          rcases List.mem_cons.1 hu with rfl | hu
          · exact ⟨y1, by simp [y2]⟩
          · exact ⟨(a1 u hu).1, List.mem_cons_of_mem _ (a1 u hu).2⟩
        · intro k hk
          rcases List.mem_cons.1 hk with rfl | hk
          · exact ⟨y, by simp, y2⟩
          · obtain ⟨u, u1, u2⟩ := a2 k hk
            exact ⟨u, List.mem_cons_of_mem _ u1, u2⟩

theorem localFix_shape {N : List (E × S)} {st R : Aut ℤ (E × S)} {g : ℤ} {aff : List ℕ} {fuel : ℕ}
    (hids : (Aut.ids st).Nodup) (hcl : ∀ x ∈ st, ∀ j ∈ x.trans, ∃ y ∈ st, y.id = j)
    (hmode : ∀ x ∈ st, x.mode ≠ -1 ∧ x.mode ≠ -2) (hg : 0 ≤ g) (ho : o.Valid G)
    (haff : aff ≠ []) (h : localFix G eg N o fuel g aff st = .ok R) :
    ∃ B en ex us mn er lmax lmin i f h K,
      reachGame G (en.map (·.state)).toFinset (ex.map (·.state)).toFinset N.toFinset eg
        (o.avoid (st.map (·.id))) fuel = .ok B ∧ B ≠ [] ∧ en ≠ [] ∧
      aff.mapM (derefNode st) = some us ∧
      mn = minRgrad (us.map (·.rgrad)) (minRgrad (en.map (·.rgrad)) (-1)) ∧
      lmin = minRgrad (B.map (·.rgrad)) (-1) ∧
      (st.filter fun x => x.mode = g ∧ x.state ∈ N).length ≤ N.length ∧
      LocalShape st B R en ex N g mn er lmax lmin i f h K := by
  unfold localFix at h
  rw [if_neg haff] at h
  cases hscan : goalScan st g (fun s => decide (s ∈ N)) st ([], []) with
  | none => rw [hscan] at h; simp at h
  | some ee =>
    obtain ⟨en, ex0⟩ := ee
    rw [hscan] at h
    simp only at h
    obtain ⟨-, c2, c3, c4, c5⟩ := goalScan_spec hids _ _ _ _ _ hscan
    simp only [List.not_mem_nil, false_or, List.nil_append, decide_eq_true_eq, decide_eq_false_iff_not] at c2 c3 c5
    split at h
    · simp at h
    rename_i hlen
    cases hus : aff.mapM (derefNode st) with
    | none => rw [hus] at h; simp at h
    | some us =>
      rw [hus] at h
      simp only at h
      set mn := minRgrad (us.map (·.rgrad)) (minRgrad (en.map (·.rgrad)) (-1)) with hmn
      set ex := dropHigh mn 0 ex0 with hexdef
      have hex : ∀ x, x ∈ ex ↔ x ∈ st ∧ x.mode = g ∧ x.state ∈ N ∧ x.rgrad < mn := by
        intro x
        rw [hexdef, dropHigh_spec mn 0 ex0 (by intro k _ hk; omega), c5]
        simp only [List.mem_filter, decide_eq_true_eq]
        constructor
        · rintro ⟨⟨a, b, c⟩, d⟩; exact ⟨a, b, c, d⟩
        · rintro ⟨a, b, c, d⟩; exact ⟨⟨a, b, c⟩, d⟩
      cases hreach : reachGame G (en.map (·.state)).toFinset (ex.map (·.state)).toFinset N.toFinset eg
          (o.avoid (st.map (·.id))) fuel with
      | ub => rw [hreach] at h; simp at h
      | err => rw [hreach] at h; simp at h
      | timeout => rw [hreach] at h; simp at h
      | ok B =>
        rw [hreach] at h
        cases hB : B with
        | nil => rw [hB] at h; simp at h
        | cons z0 zs =>
          rw [hB] at h
          simp only at h
          rw [← hB] at h
          have hBne : B ≠ [] := by rw [hB]; simp
          set lmax := maxRgrad (B.map (·.rgrad)) (-1) with hlmax
          set lmin := minRgrad (B.map (·.rgrad)) (-1) with hlmin
          have hXN : (ex.map (·.state)).toFinset ⊆ N.toFinset := by
            intro s hs
            rw [List.mem_toFinset] at hs ⊢
            obtain ⟨x, hx, rfl⟩ := List.mem_map.1 hs
            exact ((hex x).1 hx).2.2.1
          have hov := avoid_valid ho (st.map (·.id))
          obtain ⟨b1, b2, b3, b4⟩ := reach_answers hXN hov hreach hBne
          have hdisj : ∀ x ∈ st, ∀ z ∈ B, x.id ≠ z.id := by
            intro x hx z hz hc
            obtain ⟨c, l, hcl⟩ := reach_alloc hreach z hz
            exact avoid_fresh ho (st.map (·.id)) c l (by rw [← hcl, ← hc]; exact List.mem_map_of_mem hx)
          cases hpe : patchEntries B en st with
          | ub => rw [hpe] at h; simp at h
          | err => rw [hpe] at h; simp at h
          | timeout => rw [hpe] at h; simp at h
          | ok st1 =>
            rw [hpe] at h
            simp only at h
            have henB : ∀ y ∈ en, y.id ∉ Aut.ids B := by
              intro y hy hc
              obtain ⟨z, z1, z2⟩ := mem_ids.1 hc
              exact hdisj y (c2 y hy).1 z z1 z2.symm
            obtain ⟨f, f1, f2, f3, f4⟩ := patchEntries_spec _ _ _ hpe henB
            have hennd : (Aut.ids en).Nodup := by
              have h1 : (en.map (·.state)).Nodup := c4 (by simp)
              have h2 : en.Nodup := h1.of_map
              unfold Aut.ids
              rw [List.nodup_map_iff_inj_on h2]
              intro a ha b hb hab
              exact eq_of_id_eq hids (c2 a ha).1 (c2 b hb).1 hab
            have hids1 : Aut.ids st1 = Aut.ids st := by
              rw [f1]; simp [Aut.ids, Function.comp_def]
            have hmem1 : ∀ x ∈ st1, ∃ u ∈ st, x = u.redirect f := by
              intro x hx
              rw [f1] at hx
              obtain ⟨u, u1, u2⟩ := List.mem_map.1 hx
              exact ⟨u, u1, u2.symm⟩
            cases hpx : patchExits g (fun s => decide (s ∈ N)) ex (B.map (·.id)) (-1) st1 B with
            | ub => rw [hpx] at h; simp at h
            | err => rw [hpx] at h; simp at h
            | timeout => rw [hpx] at h; simp at h
            | ok t =>
              obtain ⟨er, st2, sub2⟩ := t
              rw [hpx] at h
              simp only at h
              classical
              obtain ⟨K, hh, μ, hI⟩ := patchExits_spec (st1 := st1) (B := B) (ex := ex) (g := g)
                (inN := fun s => decide (s ∈ N)) (by omega) (by omega) (by rw [hids1]; exact hids) b1
                (by
                  intro x hx z hz
                  obtain ⟨u, u1, rfl⟩ := hmem1 x hx
                  exact hdisj u u1 z hz)
                (by
                  intro x hx j hj
                  obtain ⟨u, u1, rfl⟩ := hmem1 x hx
                  obtain ⟨k, k1, rfl⟩ := List.mem_map.1 hj
                  rcases f4 k with hk | hk
                  · left
                    rw [hk, hids1]
                    obtain ⟨y, y1, y2⟩ := hcl u u1 k k1
                    exact mem_ids.2 ⟨y, y1, y2⟩
                  · exact Or.inr hk)
                (by
                  intro z hz j hj
                  obtain ⟨y, y1, y2⟩ := (b4 z hz).2.2.1 j hj
                  exact mem_ids.2 ⟨y, y1, y2⟩)
                (by
                  intro x hx
                  obtain ⟨x1, x2, x3, -⟩ := (hex x).1 hx
                  refine ⟨x.redirect f, by rw [f1]; exact List.mem_map_of_mem x1, rfl, x2, ?_⟩
                  exact decide_eq_true x3)
                (B.map (·.id)) (-1) st1 B (fun _ => False) id (fun _ => -1) er st2 sub2 b1
                (fun q hq => hq)
                (by
                  refine ⟨?_, ?_, ?_, ?_, ?_, ?_, ?_, ?_, ?_, ?_⟩
                  · unfold relabel
                    simp
                  · conv_lhs => rw [← List.map_id B]
                    apply List.map_congr_left
                    intro z hz
                    have := (b4 z hz).1
                    obtain ⟨a, b, c, d, e, t⟩ := z
                    simp only at this
                    subst this
                    simp
                  · intro z hz hc
                    exact absurd (List.mem_map_of_mem hz) hc
                  · intro _ _ _; rfl
                  · intro z hz hc
                    exact absurd (List.mem_map_of_mem hz) hc
                  · intro _ _; rfl
                  · intro k hk; exact absurd hk id
                  · intro _ _ hk; exact absurd hk id
                  · intro _ _ _ k hk; exact absurd hk id
                  · exact Or.inl rfl)
                hpx
              have hKmem : ∀ k, K k → ∃ x ∈ st, x.id = k ∧ x.mode = g ∧ x.state ∈ N := by
                intro k hk
                obtain ⟨x, x1, x2, x3, x4⟩ := hI.K_mem k hk
                obtain ⟨u, u1, rfl⟩ := hmem1 x x1
                exact ⟨u, u1, x2, x3, of_decide_eq_true x4⟩
              -- the strategy after the deletions
              have hst3 : (deleteModes (-2) (-2) (st2.map (remark g fun s => decide (s ∈ N))) []).1 =
                  (st.filter fun x => ¬ DelNode N g K x).map fun x => 
                    { x with trans := (x.trans.map f).filter fun j => j ∉ delIds N g K st } := by
                have hmap : st2.map (remark g fun s => decide (s ∈ N)) =
                    st.map fun x => if DelNode N g K x then { x.redirect f with mode := -2 }
                      else x.redirect f := by
                  rw [hI.st_eq, f1]
                  unfold relabel
                  rw [List.map_map, List.map_map]
                  apply List.map_congr_left
                  intro x hx
                  simp only [Function.comp_apply]
                  by_cases hk : K x.id
                  · obtain ⟨u, u1, u2, u3, u4⟩ := hKmem _ hk
                    have hux : u = x := eq_of_id_eq hids u1 hx u2
                    subst hux
                    rw [if_pos (show K (u.redirect f).id from hk), if_neg (fun hc => hc.2.2 hk)]
                    unfold remark
                    simp only
                    rw [if_neg (by omega), if_pos trivial, ← u3]
                    rfl
                  · rw [if_neg (show ¬ K (x.redirect f).id from hk)]
                    unfold remark
                    by_cases hxg : x.mode = g
                    · rw [if_pos (show (x.redirect f).mode = g from hxg)]
                      by_cases hxN : x.state ∈ N
                      · rw [if_pos (show decide ((x.redirect f).state ∈ N) = true from decide_eq_true hxN),
                          if_pos ⟨hxg, hxN, hk⟩]
                      · rw [if_neg (show ¬ decide ((x.redirect f).state ∈ N) = true from
                          fun hc => hxN (of_decide_eq_true hc)), if_neg (fun hc => hxN hc.2.1)]
                    · rw [if_neg (show ¬ (x.redirect f).mode = g from hxg),
                        if_neg (show ¬ (x.redirect f).mode = -1 from (hmode x hx).1),
                        if_neg (fun hc => hxg hc.1)]
                have hfe : ∀ x : ANode ℤ (E × S), (if DelNode N g K x then
                    ({ x.redirect f with mode := -2 } : ANode ℤ (E × S)) else x.redirect f).id = x.id := by
                  intro x; split <;> rfl
                have hmd : ∀ x ∈ st, ((if DelNode N g K x then
                    ({ x.redirect f with mode := -2 } : ANode ℤ (E × S)) else x.redirect f).mode = -2 ↔
                      DelNode N g K x) := by
                  intro x hx
                  by_cases hc : DelNode N g K x
                  · rw [if_pos hc]; exact ⟨fun _ => hc, fun _ => rfl⟩
                  · rw [if_neg hc]
                    exact ⟨fun h => absurd h (hmode x hx).2, fun h => absurd h hc⟩
                rw [deleteModes_spec _ _ (by
                  rw [hmap]
                  unfold Aut.ids
                  rw [List.map_map]
                  have : (ANode.id ∘ fun x : ANode ℤ (E × S) => if DelNode N g K x then
                    ({ x.redirect f with mode := -2 } : ANode ℤ (E × S)) else x.redirect f) = ANode.id := by
                    funext x; exact hfe x
                  rw [this]
                  exact hids), hmap]
                simp only [or_self]
                rw [List.filter_map, List.filter_map]
                have e1 : st.filter ((fun x : ANode ℤ (E × S) => decide (¬ x.mode = -2)) ∘ fun x =>
                    if DelNode N g K x then ({ x.redirect f with mode := -2 } : ANode ℤ (E × S))
                      else x.redirect f) = st.filter fun x => ¬ DelNode N g K x := by
                  apply List.filter_congr
                  intro x hx
                  simp only [Function.comp_apply, hmd x hx]
                have e2 : st.filter ((fun x : ANode ℤ (E × S) => decide (x.mode = -2)) ∘ fun x =>
                    if DelNode N g K x then ({ x.redirect f with mode := -2 } : ANode ℤ (E × S))
                      else x.redirect f) = st.filter fun x => DelNode N g K x := by
                  apply List.filter_congr
                  intro x hx
                  simp only [Function.comp_apply, hmd x hx]
                rw [e1, e2, List.map_map]
                apply List.map_congr_left
                intro x hx
                have hnd : ¬ DelNode N g K x := by simpa using (List.mem_filter.1 hx).2
                simp only [Function.comp_apply, if_neg hnd]
                have e3 : Aut.ids ((st.filter fun x => DelNode N g K x).map fun x =>
                    if DelNode N g K x then ({ x.redirect f with mode := -2 } : ANode ℤ (E × S))
                      else x.redirect f) = delIds N g K st := by
                  unfold delIds Aut.ids
                  rw [List.map_map]
                  apply List.map_congr_left
                  intro x _
                  exact hfe x
                rw [e3]
                rfl
              have hsub3 : deleteMarked sub2 =
                  (B.filter fun z => z.trans ≠ []).map fun z => 
                    { z with mode := -1, trans := z.trans.map hh } := by
                rw [deleteMarked_spec _ (by
                  rw [hI.sub_eq]
                  have : Aut.ids (B.map fun z => ({ z with mode := μ z.id, trans := z.trans.map hh } :
                    ANode ℤ (E × S))) = Aut.ids B := by simp [Aut.ids, Function.comp_def]
                  rw [this]
                  exact b1), hI.sub_eq, List.filter_map]
                have e1 : B.filter ((fun x : ANode ℤ (E × S) => decide (x.mode ≠ -2)) ∘ fun z =>
                    ({ z with mode := μ z.id, trans := z.trans.map hh } : ANode ℤ (E × S))) =
                    B.filter fun z => z.trans ≠ [] := by
                  apply List.filter_congr
                  intro z hz
                  simp only [Function.comp_apply]
                  by_cases hzt : z.trans = []
                  · simp [hI.mu_term z hz (by simp) hzt, hzt]
                  · simp [hI.mu_else z hz (Or.inr hzt), hzt]
                rw [e1]
                apply List.map_congr_left
                intro z hz
                obtain ⟨z1, z2⟩ := List.mem_filter.1 hz
                rw [hI.mu_else z z1 (Or.inr (by simpa using z2))]
              cases hsc : scaleLoop (mn - er) (lmax - lmin) ((lmax - lmin).toNat + 1) 1 with
              | none => rw [hsc] at h; simp at h
              | some i =>
                rw [hsc] at h
                simp only at h
                obtain ⟨s1, s2⟩ := scaleLoop_spec _ _ _ hsc
                split at h
                · simp at h
                simp only [SRes.ok.injEq] at h
                have hen : en ≠ [] := by
                  rintro rfl
                  have hnil : reachGame G (([] : Aut ℤ (E × S)).map (·.state)).toFinset
                      (ex.map (·.state)).toFinset N.toFinset eg (o.avoid (st.map (·.id))) fuel = .ok [] := by
                    unfold reachGame
                    split
                    · rfl
                    · have : (o.avoid (st.map (·.id))).enum (([] : Aut ℤ (E × S)).map (·.state)).toFinset = [] := by
                        rw [List.eq_nil_iff_forall_not_mem]
                        intro s hs
                        have := (hov.enum_mem _ _).1 hs
                        simp at this
                      simp only [this, List.reverse_nil, reachInsert]
                      unfold reachLoop
                      rfl
                  rw [hnil] at hreach
                  simp only [SRes.ok.injEq] at hreach
                  exact hBne hreach.symm
                refine ⟨B, en, ex, us, mn, er, lmax, lmin, i, f, hh, K, hreach, hBne, hen, rfl, rfl, rfl, ?_, ?_⟩
                · rw [← c5]; omega
                refine ⟨hdisj, b1, c2, c3, hex, f2, f3 hennd, f4, ?_, ?_, hKmem, ?_, ?_, hI.r_or, ?_, s2, s1, ?_⟩
                · intro z hz hzt
                  exact hI.h_term z hz (by simp) hzt
                · intro z hz hzt
                  refine hI.h_id _ (fun w hw he => ?_)
                  rw [eq_of_id_eq b1 hw hz he]
                  exact Or.inr hzt
                · intro x hx hK y hy hxy hyg hyN
                  exact hI.K_closed (x.redirect f) (by rw [f1]; exact List.mem_map_of_mem hx) hK
                    (y.redirect f) (by rw [f1]; exact List.mem_map_of_mem hy) hxy hyg (decide_eq_true hyN)
                · intro P hP1 hP2 k hk
                  refine hI.K_ind P hP1 ?_ k hk
                  intro x hx y hy hPx hxg hxN hxy hyg hyN
                  obtain ⟨u, u1, rfl⟩ := hmem1 x hx
                  obtain ⟨v, v1, rfl⟩ := hmem1 y hy
                  exact hP2 u u1 v v1 hPx hxg (of_decide_eq_true hxN) hxy hyg (of_decide_eq_true hyN)
                · intro z hz
                  exact (maxRgrad_spec _ (-1)).1 _ (List.mem_map_of_mem hz)
                · rw [← h, hst3, hsub3, List.map_map, List.map_map]
                  rfl

end Gr1c
