import Verif.PatchInv

/-!
# The commands of a change file and the scope of a patch: helper lemmas
-/

namespace Gr1c

set_option linter.unusedSectionVars false

variable {E S : Type} [Fintype E] [DecidableEq E] [Fintype S] [DecidableEq S] {m n : ℕ}
  {G : Game E S} {eg : Fin m → Finset (E × S)} {sg : Fin n → Finset (E × S)} {o : Oracle E S}

theorem edgeTo_spec {V : Type} [DecidableEq V] {st : Aut ℤ V} (hids : (Aut.ids st).Nodup) {P : V → Bool} :
    ∀ (l : List ℕ) (b : Bool), edgeTo st P l = some b →
      (b = true ↔ ∃ y ∈ st, y.id ∈ l ∧ P y.state = true) := by
  intro l
  induction l with
  | nil => intro b h; simp [edgeTo] at h; subst h; simp
  | cons j js ih =>
    intro b h
    simp only [edgeTo] at h
    cases hd : derefNode st j with
    | none => rw [hd] at h; simp at h
    | some y =>
      rw [hd] at h
      simp only at h
      obtain ⟨y1, y2⟩ := derefNode_some hd
      split at h
      · rename_i hP
        simp only [Option.some.injEq] at h
        subst h
        simp only [true_iff]
        exact ⟨y, y1, by simp [y2], hP⟩
      · rename_i hP
        rw [ih b h]
        constructor
        · rintro ⟨z, z1, z2, z3⟩; exact ⟨z, z1, List.mem_cons_of_mem _ z2, z3⟩
        · rintro ⟨z, z1, z2, z3⟩
          rcases List.mem_cons.1 z2 with z2 | z2
          · exfalso
            rw [eq_of_id_eq hids z1 y1 (z2.trans y2.symm)] at z3
            exact hP z3
          · exact ⟨z, z1, z2, z3⟩

theorem markNodes_spec {V : Type} [DecidableEq V] {N : List V} {hit : ANode ℤ V → Option Bool} :
    ∀ (xs : Aut ℤ V) (a a' : List (ℤ × ℕ)), markNodes N hit xs a = .ok a' →
      (∀ x ∈ xs, hit x = some true ∨ hit x = some false) ∧
      (∀ x ∈ xs, hit x = some true → x.state ∈ N) ∧
      ∀ p, p ∈ a' ↔ p ∈ a ∨ ∃ x ∈ xs, hit x = some true ∧ p = (x.mode, x.id) := by
  intro xs
  induction xs with
  | nil => intro a a' h; simp [markNodes] at h; subst h; simp
  | cons x xs ih =>
    intro a a' h
    simp only [markNodes] at h
    cases hh : hit x with
    | none => rw [hh] at h; simp at h
    | some b =>
      rw [hh] at h
      cases b with
      | false =>
        simp only at h
        obtain ⟨h1, h2, h3⟩ := ih _ _ h
        refine ⟨?_, ?_, ?_⟩
        · intro u hu
          rcases List.mem_cons.1 hu with rfl | hu
          · exact Or.inr hh
          · exact h1 u hu
        · intro u hu hu'
          rcases List.mem_cons.1 hu with rfl | hu
          · rw [hh] at hu'; simp at hu'
          · exact h2 u hu hu'
        · intro p
          rw [h3]
          constructor
          · rintro (h | ⟨u, u1, u2⟩)
            · exact Or.inl h
            · exact Or.inr ⟨u, List.mem_cons_of_mem _ u1, u2⟩
          · rintro (h | ⟨u, u1, u2, u3⟩)
            · exact Or.inl h
            · rcases List.mem_cons.1 u1 with rfl | u1
              · rw [hh] at u2; simp at u2
              · exact Or.inr ⟨u, u1, u2, u3⟩
      | true =>
        simp only at h
        split at h
        · rename_i hN
          obtain ⟨h1, h2, h3⟩ := ih _ _ h
          refine ⟨?_, ?_, ?_⟩
          · intro u hu
            rcases List.mem_cons.1 hu with rfl | hu
            · exact Or.inl hh
            · exact h1 u hu
          · intro u hu hu'
            rcases List.mem_cons.1 hu with rfl | hu
            · exact hN
            · exact h2 u hu hu'
          · intro p
            rw [h3, List.mem_append, List.mem_singleton]
            constructor
            · rintro ((h | h) | ⟨u, u1, u2⟩)
              · exact Or.inl h
              · exact Or.inr ⟨x, by simp, hh, h⟩
              · exact Or.inr ⟨u, List.mem_cons_of_mem _ u1, u2⟩
            · rintro (h | ⟨u, u1, u2, u3⟩)
              · exact Or.inl (Or.inl h)
              · rcases List.mem_cons.1 u1 with rfl | u1
                · exact Or.inl (Or.inr u3)
                · exact Or.inr ⟨u, u1, u2, u3⟩
        · simp at h

theorem mem_nodesAt {V : Type} [DecidableEq V] {st : Aut ℤ V} {s : V} {x : ANode ℤ V} :
    x ∈ nodesAt n st s ↔ x ∈ st ∧ x.state = s ∧ ∃ j : Fin n, x.mode = (j.val : ℤ) := by
  unfold nodesAt
  simp only [List.mem_flatMap, List.mem_range, List.mem_filter, decide_eq_true_eq]
  constructor
  · rintro ⟨j, hj, hx, hm, hs⟩
    exact ⟨hx, hs, ⟨j, hj⟩, hm⟩
  · rintro ⟨hx, hs, j, hm⟩
    exact ⟨j.val, j.isLt, hx, hm, hs⟩

/-- A command marks exactly the nodes it touches, and they are in `N`. -/
theorem affectedBy_spec {N : List (E × S)} {st : Aut ℤ (E × S)} (hids : (Aut.ids st).Nodup)
    (hmodes : ∀ x ∈ st, ∃ j : Fin n, x.mode = (j.val : ℤ)) {c : Change E S} {a a' : List (ℤ × ℕ)}
    (h : affectedBy n N st c a = .ok a') :
    (∀ x ∈ st, Touches st c x → x.state ∈ N) ∧
      ∀ p, p ∈ a' ↔ p ∈ a ∨ ∃ x ∈ st, Touches st c x ∧ p = (x.mode, x.id) := by
  cases c with
  | restrictSys s t =>
    simp only [affectedBy] at h
    obtain ⟨h1, h2, h3⟩ := markNodes_spec _ _ _ h
    have hit : ∀ x ∈ nodesAt n st s, (edgeTo st (fun v => decide (v = t)) x.trans = some true ↔
        Touches st (.restrictSys s t) x) := by
      intro x hx
      unfold Touches
      simp only
      rcases h1 x hx with hb | hb
      · rw [hb]
        have := (edgeTo_spec hids _ _ hb)
        simp only [true_iff, decide_eq_true_eq] at this
        simp only [true_iff]
        exact ⟨(mem_nodesAt.1 hx).2.1, this⟩
      · rw [hb]
        have := (edgeTo_spec hids _ _ hb)
        simp only [Bool.false_eq_true, false_iff, decide_eq_true_eq] at this
        simp only [Option.some.injEq, Bool.false_eq_true, false_iff]
        exact fun hc => this hc.2
    have hmem : ∀ x ∈ st, Touches st (.restrictSys s t) x → x ∈ nodesAt n st s := fun x hx ht =>
      mem_nodesAt.2 ⟨hx, ht.1, hmodes x hx⟩
    refine ⟨fun x hx ht => h2 x (hmem x hx ht) ((hit x (hmem x hx ht)).2 ht), fun p => ?_⟩
    rw [h3]
    constructor
    · rintro (h | ⟨x, x1, x2, x3⟩)
      · exact Or.inl h
      · exact Or.inr ⟨x, (mem_nodesAt.1 x1).1, (hit x x1).1 x2, x3⟩
    · rintro (h | ⟨x, x1, x2, x3⟩)
      · exact Or.inl h
      · exact Or.inr ⟨x, hmem x x1 x2, (hit x (hmem x x1 x2)).2 x2, x3⟩
  | restrictEnv s e =>
    simp only [affectedBy, SRes.ok.injEq] at h
    subst h
    simp [Touches]
  | relaxSys s t =>
    simp only [affectedBy, SRes.ok.injEq] at h
    subst h
    simp [Touches]
  | relaxEnv s e =>
    simp only [affectedBy] at h
    obtain ⟨h1, h2, h3⟩ := markNodes_spec _ _ _ h
    have hit : ∀ x ∈ nodesAt n st s,
        ((edgeTo st (fun v => decide (v.1 = e)) x.trans).map (!·) = some true ↔
        Touches st (.relaxEnv s e) x) := by
      intro x hx
      unfold Touches
      simp only
      cases hb : edgeTo st (fun v => decide (v.1 = e)) x.trans with
      | none =>
        have := h1 x hx
        rw [hb] at this
        simp at this
      | some b =>
        have := (edgeTo_spec hids _ _ hb)
        cases b with
        | false =>
          simp only [Bool.false_eq_true, false_iff, decide_eq_true_eq] at this
          simp only [Option.map_some, Bool.not_false, true_iff]
          exact ⟨(mem_nodesAt.1 hx).2.1, this⟩
        | true =>
          simp only [true_iff, decide_eq_true_eq] at this
          simp only [Option.map_some, Bool.not_true, Option.some.injEq, Bool.false_eq_true, false_iff]
          exact fun hc => hc.2 this
    have hmem : ∀ x ∈ st, Touches st (.relaxEnv s e) x → x ∈ nodesAt n st s := fun x hx ht =>
      mem_nodesAt.2 ⟨hx, ht.1, hmodes x hx⟩
    refine ⟨fun x hx ht => h2 x (hmem x hx ht) ((hit x (hmem x hx ht)).2 ht), fun p => ?_⟩
    rw [h3]
    constructor
    · rintro (h | ⟨x, x1, x2, x3⟩)
      · exact Or.inl h
      · exact Or.inr ⟨x, (mem_nodesAt.1 x1).1, (hit x x1).1 x2, x3⟩
    · rintro (h | ⟨x, x1, x2, x3⟩)
      · exact Or.inl h
      · exact Or.inr ⟨x, hmem x x1 x2, (hit x (hmem x x1 x2)).2 x2, x3⟩
  | blockSys v =>
    simp only [affectedBy] at h
    obtain ⟨h1, h2, h3⟩ := markNodes_spec _ _ _ h
    have hit : ∀ x ∈ st, ((match edgeTo st (fun w => decide (w.2 = v)) x.trans with
        | some true => if 0 ≤ x.mode ∧ x.mode < (n : ℤ) then some true else none
        | r => r) = some true ↔ Touches st (.blockSys v) x) := by
      intro x hx
      unfold Touches
      simp only
      cases hb : edgeTo st (fun w => decide (w.2 = v)) x.trans with
      | none =>
        have := h1 x hx
        rw [hb] at this
        simp at this
      | some b =>
        have := (edgeTo_spec hids _ _ hb)
        cases b with
        | false =>
          simp only [Bool.false_eq_true, false_iff, decide_eq_true_eq] at this
          simp only [Option.some.injEq, Bool.false_eq_true, false_iff]
          exact this
        | true =>
          simp only [true_iff, decide_eq_true_eq] at this
          obtain ⟨j, hj⟩ := hmodes x hx
          have hjn := j.isLt
          simp only
          rw [if_pos (by omega)]
          simp only [true_iff]
          exact this
    refine ⟨fun x hx ht => h2 x hx ((hit x hx).2 ht), fun p => ?_⟩
    rw [h3]
    constructor
    · rintro (h | ⟨x, x1, x2, x3⟩)
      · exact Or.inl h
      · exact Or.inr ⟨x, x1, (hit x x1).1 x2, x3⟩
    · rintro (h | ⟨x, x1, x2, x3⟩)
      · exact Or.inl h
      · exact Or.inr ⟨x, x1, (hit x x1).2 x2, x3⟩

theorem processChanges_spec {N : List (E × S)} {st : Aut ℤ (E × S)} (hids : (Aut.ids st).Nodup)
    (hmodes : ∀ x ∈ st, ∃ j : Fin n, x.mode = (j.val : ℤ)) :
    ∀ (cs : List (Change E S)) (G : Game E S) (a : List (ℤ × ℕ)) (G' : Game E S) (a' : List (ℤ × ℕ)),
      processChanges n N st cs G a = .ok (G', a') →
      G' = cs.foldl applyChange G ∧ (∀ x ∈ st, ∀ c ∈ cs, Touches st c x → x.state ∈ N) ∧
      ∀ p, p ∈ a' ↔ p ∈ a ∨ ∃ x ∈ st, (∃ c ∈ cs, Touches st c x) ∧ p = (x.mode, x.id) := by
  intro cs
  induction cs with
  | nil => intro G a G' a' h; simp [processChanges] at h; obtain ⟨rfl, rfl⟩ := h; simp
  | cons c cs ih =>
    intro G a G' a' h
    simp only [processChanges] at h
    cases hc : affectedBy n N st c a with
    | ub => rw [hc] at h; simp at h
    | err => rw [hc] at h; simp at h
    | timeout => rw [hc] at h; simp at h
    | ok a1 =>
      rw [hc] at h
      simp only at h
      obtain ⟨e1, e2⟩ := affectedBy_spec hids hmodes hc
      obtain ⟨i1, i2, i3⟩ := ih _ _ _ _ h
      refine ⟨i1, ?_, ?_⟩
      · intro x hx d hd ht
        rcases List.mem_cons.1 hd with rfl | hd
        · exact e1 x hx ht
        · exact i2 x hx d hd ht
      · intro p
        rw [i3, e2]
        constructor
        · rintro ((h | ⟨x, x1, x2, x3⟩) | ⟨x, x1, ⟨d, d1, d2⟩, x3⟩)
          · exact Or.inl h
          · exact Or.inr ⟨x, x1, ⟨c, by simp, x2⟩, x3⟩
          · exact Or.inr ⟨x, x1, ⟨d, List.mem_cons_of_mem _ d1, d2⟩, x3⟩
        · rintro (h | ⟨x, x1, ⟨d, d1, d2⟩, x3⟩)
          · exact Or.inl (Or.inl h)
          · rcases List.mem_cons.1 d1 with rfl | d1
            · exact Or.inl (Or.inr ⟨x, x1, d2, x3⟩)
            · exact Or.inr ⟨x, x1, ⟨d, d1, d2⟩, x3⟩

/-! ## When the commands are accepted -/

theorem edgeTo_ok {V : Type} [DecidableEq V] {st : Aut ℤ V} {P : V → Bool} (hids : (Aut.ids st).Nodup) :
    ∀ (l : List ℕ), (∀ j ∈ l, ∃ y ∈ st, y.id = j) → ∃ b, edgeTo st P l = some b := by
  intro l
  induction l with
  | nil => intro _; exact ⟨_, rfl⟩
  | cons j js ih =>
    intro h
    obtain ⟨y, y1, rfl⟩ := h j (by simp)
    simp only [edgeTo, derefNode_of_mem hids y1]
    split
    · exact ⟨_, rfl⟩
    · exact ih fun k hk => h k (List.mem_cons_of_mem _ hk)

theorem markNodes_outcome {V : Type} [DecidableEq V] {N : List V} {hit : ANode ℤ V → Option Bool} :
    ∀ (xs : Aut ℤ V) (a : List (ℤ × ℕ)), (∀ x ∈ xs, ∃ b, hit x = some b) →
      ((∀ x ∈ xs, hit x = some true → x.state ∈ N) → ∃ a', markNodes N hit xs a = .ok a') ∧
      ((∃ x ∈ xs, hit x = some true ∧ x.state ∉ N) → markNodes N hit xs a = .err) := by
  intro xs
  induction xs with
  | nil => intro a _; exact ⟨fun _ => ⟨_, rfl⟩, by simp⟩
  | cons x xs ih =>
    intro a h
    obtain ⟨b, hb⟩ := h x (by simp)
    have hrest : ∀ u ∈ xs, ∃ b, hit u = some b := fun u hu => h u (List.mem_cons_of_mem _ hu)
    cases b with
    | false =>
      simp only [markNodes, hb]
      obtain ⟨i1, i2⟩ := ih a hrest
      refine ⟨fun hN => i1 fun u hu => hN u (List.mem_cons_of_mem _ hu), ?_⟩
      rintro ⟨u, u1, u2, u3⟩
      rcases List.mem_cons.1 u1 with rfl | u1
      · rw [hb] at u2; simp at u2
      · exact i2 ⟨u, u1, u2, u3⟩
    | true =>
      simp only [markNodes, hb]
      by_cases hN : x.state ∈ N
      · rw [if_pos hN]
        obtain ⟨i1, i2⟩ := ih (a ++ [(x.mode, x.id)]) hrest
        refine ⟨fun hN => i1 fun u hu => hN u (List.mem_cons_of_mem _ hu), ?_⟩
        rintro ⟨u, u1, u2, u3⟩
        rcases List.mem_cons.1 u1 with rfl | u1
        · exact absurd hN u3
        · exact i2 ⟨u, u1, u2, u3⟩
      · rw [if_neg hN]
        exact ⟨fun hc => absurd (hc x (by simp) hb) hN, fun _ => rfl⟩

/-- The loop behind a command: the nodes it visits and what it looks for. -/
theorem affectedBy_form {N : List (E × S)} {st : Aut ℤ (E × S)} (hids : (Aut.ids st).Nodup)
    (hcl : ∀ x ∈ st, ∀ j ∈ x.trans, ∃ y ∈ st, y.id = j)
    (hmodes : ∀ x ∈ st, ∃ j : Fin n, x.mode = (j.val : ℤ)) (c : Change E S) :
    ∃ hit xs, (∀ a, affectedBy n N st c a = markNodes N hit xs a) ∧
      (∀ x ∈ xs, x ∈ st ∧ (∃ b, hit x = some b) ∧ (hit x = some true ↔ Touches st c x)) ∧
      ∀ x ∈ st, Touches st c x → x ∈ xs := by
  cases c with
  | restrictSys s t =>
    refine ⟨_, _, fun a => rfl, ?_, fun x hx ht => mem_nodesAt.2 ⟨hx, ht.1, hmodes x hx⟩⟩
    intro x hx
    obtain ⟨x1, x2, x3⟩ := mem_nodesAt.1 hx
    obtain ⟨b, hb⟩ := edgeTo_ok (P := fun v => decide (v = t)) hids x.trans (hcl x x1)
    refine ⟨x1, ⟨b, hb⟩, ?_⟩
    have := edgeTo_spec hids _ _ hb
    simp only [decide_eq_true_eq] at this
    rw [hb, Option.some.injEq, this]
    exact ⟨fun h => ⟨x2, h⟩, fun h => h.2⟩
  | restrictEnv s e => exact ⟨fun _ => some false, [], fun a => rfl, by simp, fun x hx ht => absurd ht id⟩
  | relaxSys s t => exact ⟨fun _ => some false, [], fun a => rfl, by simp, fun x hx ht => absurd ht id⟩
  | relaxEnv s e =>
    refine ⟨_, _, fun a => rfl, ?_, fun x hx ht => mem_nodesAt.2 ⟨hx, ht.1, hmodes x hx⟩⟩
    intro x hx
    obtain ⟨x1, x2, x3⟩ := mem_nodesAt.1 hx
    obtain ⟨b, hb⟩ := edgeTo_ok (P := fun v => decide (v.1 = e)) hids x.trans (hcl x x1)
    refine ⟨x1, ⟨!b, by rw [hb]; rfl⟩, ?_⟩
    have := edgeTo_spec hids _ _ hb
    simp only [decide_eq_true_eq] at this
    rw [hb, Option.map_some, Option.some.injEq, Bool.not_eq_true', ← Bool.not_eq_true, this]
    exact ⟨fun h => ⟨x2, h⟩, fun h => h.2⟩
  | blockSys v =>
    refine ⟨_, _, fun a => rfl, ?_, fun x hx _ => hx⟩
    intro x hx
    obtain ⟨b, hb⟩ := edgeTo_ok (P := fun w => decide (w.2 = v)) hids x.trans (hcl x hx)
    have := edgeTo_spec hids _ _ hb
    simp only [decide_eq_true_eq] at this
    obtain ⟨j, hj⟩ := hmodes x hx
    have hjn := j.isLt
    refine ⟨hx, ?_, ?_⟩
    · simp only [hb]
      cases b with
      | false => exact ⟨_, rfl⟩
      | true => exact ⟨true, if_pos (by omega)⟩
    · simp only [hb]
      cases b with
      | false =>
        simp only [Bool.false_eq_true, false_iff] at this
        simp only [Option.some.injEq, Bool.false_eq_true, false_iff]
        exact this
      | true =>
        simp only [true_iff] at this
        simp only
        rw [if_pos (by omega)]
        simp only [true_iff]
        exact this

theorem affectedBy_ok {N : List (E × S)} {st : Aut ℤ (E × S)} (hids : (Aut.ids st).Nodup)
    (hcl : ∀ x ∈ st, ∀ j ∈ x.trans, ∃ y ∈ st, y.id = j)
    (hmodes : ∀ x ∈ st, ∃ j : Fin n, x.mode = (j.val : ℤ)) (c : Change E S) (a : List (ℤ × ℕ)) :
    ((∀ x ∈ st, Touches st c x → x.state ∈ N) → ∃ a', affectedBy n N st c a = .ok a') ∧
      ((∃ x ∈ st, Touches st c x ∧ x.state ∉ N) → affectedBy n N st c a = .err) := by
  obtain ⟨hit, xs, h1, h2, h3⟩ := affectedBy_form (N := N) hids hcl hmodes c
  obtain ⟨o1, o2⟩ := markNodes_outcome (N := N) xs a fun x hx => (h2 x hx).2.1
  rw [h1]
  refine ⟨fun h => o1 fun x hx hh => h x (h2 x hx).1 (((h2 x hx).2.2).1 hh), ?_⟩
  rintro ⟨x, x1, x2, x3⟩
  exact o2 ⟨x, h3 x x1 x2, ((h2 x (h3 x x1 x2)).2.2).2 x2, x3⟩

theorem processChanges_ok {N : List (E × S)} {st : Aut ℤ (E × S)} (hids : (Aut.ids st).Nodup)
    (hcl : ∀ x ∈ st, ∀ j ∈ x.trans, ∃ y ∈ st, y.id = j)
    (hmodes : ∀ x ∈ st, ∃ j : Fin n, x.mode = (j.val : ℤ)) :
    ∀ (cs : List (Change E S)) (G : Game E S) (a : List (ℤ × ℕ)),
      (∀ x ∈ st, ∀ c ∈ cs, Touches st c x → x.state ∈ N) →
      ∃ a', processChanges n N st cs G a = .ok (cs.foldl applyChange G, a') := by
  intro cs
  induction cs with
  | nil => intro G a _; exact ⟨a, rfl⟩
  | cons c cs ih =>
    intro G a h
    obtain ⟨a1, h1⟩ := (affectedBy_ok (n := n) hids hcl hmodes c a).1 fun x hx ht => h x hx c (by simp) ht
    simp only [processChanges, h1]
    exact ih _ _ fun x hx d hd => h x hx d (List.mem_cons_of_mem _ hd)

theorem processChanges_err {N : List (E × S)} {st : Aut ℤ (E × S)} (hids : (Aut.ids st).Nodup)
    (hcl : ∀ x ∈ st, ∀ j ∈ x.trans, ∃ y ∈ st, y.id = j)
    (hmodes : ∀ x ∈ st, ∃ j : Fin n, x.mode = (j.val : ℤ)) :
    ∀ (cs : List (Change E S)) (G : Game E S) (a : List (ℤ × ℕ)),
      (∃ x ∈ st, ∃ c ∈ cs, Touches st c x ∧ x.state ∉ N) → processChanges n N st cs G a = .err := by
  intro cs
  induction cs with
  | nil => intro G a h; simp at h
  | cons c cs ih =>
    rintro G a ⟨x, x1, d, d1, d2, d3⟩
    simp only [processChanges]
    by_cases hc : ∃ x ∈ st, Touches st c x ∧ x.state ∉ N
    · rw [(affectedBy_ok (n := n) hids hcl hmodes c a).2 hc]
    · push Not at hc
      obtain ⟨a1, h1⟩ := (affectedBy_ok (n := n) hids hcl hmodes c a).1 hc
      rw [h1]
      refine ih _ _ ⟨x, x1, d, ?_, d2, d3⟩
      rcases List.mem_cons.1 d1 with rfl | d1
      · exact absurd (hc x x1 d2) d3
      · exact d1

/-! ## Games -/

theorem applyChange_changed (G : Game E S) (c : Change E S) : ChangedBy G c (applyChange G c) := by
  cases c <;> unfold ChangedBy applyChange <;> simp only [Prod.mk.injEq, ne_eq, Bool.and_eq_true,
    Bool.or_eq_true, Bool.not_eq_true', decide_eq_true_eq, decide_eq_false_iff_not] <;>
    refine ⟨fun a b => ?_, fun a b => ?_⟩ <;> first | exact Iff.rfl | tauto

theorem changedByAll_foldl (G : Game E S) (cs : List (Change E S)) :
    ChangedByAll G cs (cs.foldl applyChange G) := by
  induction cs generalizing G with
  | nil => rfl
  | cons c cs ih => exact ⟨_, applyChange_changed G c, ih _⟩

theorem agree_localGame {N : List (E × S)} {eps : List (E × S → E → Bool)}
    {sps : List (E × S → E × S → Bool)} (hG : IsConjunction eps sps G) :
    AgreeOn N (localGame N eps sps) G := by
  have key : ∀ {T : Type} [Fintype T] (ps : List (E × S → T → Bool)) (s : E × S) (_ : s ∈ N) (t : T),
      (localRule N ps s t = true ↔ ∀ p ∈ ps, p s t = true) := by
    intro T _ ps s hs t
    unfold localRule
    rw [List.all_eq_true]
    constructor
    · intro h p hp
      have := h p hp
      rw [Bool.or_eq_true, Bool.not_eq_true', List.any_eq_false] at this
      rcases this with h | h
      · have := h s hs
        simp only [decide_eq_true_eq, not_exists, Bool.not_eq_false] at this
        exact this t
      · exact h
    · intro h p hp
      rw [Bool.or_eq_true]
      exact Or.inr (h p hp)
  intro s hs
  refine ⟨fun e => ?_, fun t => ?_⟩
  · rw [Bool.eq_iff_iff, hG.1]
    exact key eps s hs e
  · rw [Bool.eq_iff_iff, hG.2]
    exact key sps s hs t

theorem agree_change {N : List (E × S)} {Gl G1 : Game E S} (h : AgreeOn N Gl G) {c : Change E S}
    (hc : ChangedBy G c G1) : AgreeOn N (applyChange Gl c) G1 := by
  have hl := applyChange_changed Gl c
  intro s hs
  obtain ⟨h1, h2⟩ := h s hs
  cases c <;> refine ⟨fun e => ?_, fun t => ?_⟩ <;> rw [Bool.eq_iff_iff] <;>
    first
    | rw [hl.1, hc.1, h1]
    | rw [hl.2, hc.2, h2]

theorem agree_changes {N : List (E × S)} : ∀ (cs : List (Change E S)) {Gl G G' : Game E S},
    AgreeOn N Gl G → ChangedByAll G cs G' → AgreeOn N (cs.foldl applyChange Gl) G' := by
  intro cs
  induction cs with
  | nil => intro Gl G G' h hc; cases hc; exact h
  | cons c cs ih =>
    intro Gl G G' h hc
    obtain ⟨G1, c1, c2⟩ := hc
    exact ih (agree_change h c1) c2

/-- Nodes that are not touched stay correct. -/
theorem untouched_ok {st : Aut ℤ (E × S)} {x : ANode ℤ (E × S)} : ∀ (cs : List (Change E S)) {G G' : Game E S},
    ChangedByAll G cs G' → (∀ c ∈ cs, ¬ Touches st c x) →
    (EdgesSound G st x → EdgesSound G' st x) ∧ (Answered G st x → Answered G' st x) := by
  intro cs
  induction cs with
  | nil => intro G G' h _; cases h; exact ⟨id, id⟩
  | cons c cs ih =>
    intro G G' h hu
    obtain ⟨G1, c1, c2⟩ := h
    obtain ⟨i1, i2⟩ := ih c2 (fun d hd => hu d (List.mem_cons_of_mem _ hd))
    have huc := hu c (by simp)
    refine ⟨fun hs => i1 ⟨?_, hs.2⟩, fun ha => i2 ?_⟩
    · intro y hy he
      have h0 := hs.1 y hy he
      cases c with
      | restrictSys s t =>
        rw [c1.2]
        refine ⟨h0, fun hc => huc ?_⟩
        rw [Prod.mk.injEq] at hc
        exact ⟨hc.1, y, hy, he, hc.2⟩
      | restrictEnv s e => rw [c1.2]; exact h0
      | relaxSys s t => rw [c1.2]; exact Or.inl h0
      | relaxEnv s e => rw [c1.2]; exact h0
      | blockSys v =>
        rw [c1.2]
        exact ⟨h0, fun hc => huc ⟨y, hy, he, hc⟩⟩
    · intro e he
      cases c with
      | restrictSys s t => rw [c1.1] at he; exact ha e he
      | restrictEnv s e' => rw [c1.1] at he; exact ha e he.1
      | relaxSys s t => rw [c1.1] at he; exact ha e he
      | relaxEnv s e' =>
        rw [c1.1] at he
        rcases he with he | he
        · exact ha e he
        · rw [Prod.mk.injEq] at he
          obtain ⟨h1, rfl⟩ := he
          by_contra hc
          exact huc ⟨h1, hc⟩
      | blockSys v => rw [c1.1] at he; exact ha e he

/-! ## Scope -/

/-- What is left of the strategy `st0`; `a` are the affected nodes. -/
structure Scope (N : List (E × S)) (a : List (ℤ × ℕ)) (st0 st : Aut ℤ (E × S)) : Prop where
  from' : ∀ y ∈ st, (∃ x ∈ st0, SameNode x y) ∨ (y.state ∈ N ∧ affOf a y.mode ≠ [] ∧ y.initial = false)
  keep : ∃ c : ℕ, 1 ≤ c ∧ ∀ x ∈ st0, x.state ∉ N ∨ affOf a x.mode = [] →
    ∃ y ∈ st, SameNode x y ∧ y.rgrad = x.rgrad * c ∧
      ((∀ u ∈ st0, u.id ∈ x.trans → u.state ∉ N ∨ affOf a u.mode = []) → y.trans = x.trans)

theorem scope_refl (N : List (E × S)) (a : List (ℤ × ℕ)) (st : Aut ℤ (E × S)) : Scope N a st st :=
  ⟨fun y hy => Or.inl ⟨y, hy, rfl, rfl, rfl, rfl⟩,
    1, le_rfl, fun x hx _ => ⟨x, hx, ⟨rfl, rfl, rfl, rfl⟩, by simp, fun _ => rfl⟩⟩

theorem SameNode.trans {V : Type} {x y z : ANode ℤ V} (h1 : SameNode x y) (h2 : SameNode y z) :
    SameNode x z :=
  ⟨h2.1.trans h1.1, h2.2.1.trans h1.2.1, h2.2.2.1.trans h1.2.2.1, h2.2.2.2.trans h1.2.2.2⟩

theorem scope_step {N : List (E × S)} {a : List (ℤ × ℕ)} {g : ℕ} {st0 st R : Aut ℤ (E × S)} {fuel : ℕ}
    {Gl : Game E S} (I : PatchInv G eg sg N a g st) (ho : o.Valid Gl)
    (hcl0 : ∀ x ∈ st0, ∀ j ∈ x.trans, ∃ y ∈ st0, y.id = j) (A : Scope N a st0 st)
    (hR : localFix Gl eg N o fuel (g : ℤ) (affOf a (g : ℤ)) st = .ok R) : Scope N a st0 R := by
  by_cases ha : affOf a (g : ℤ) = []
  · unfold localFix at hR
    rw [if_pos ha] at hR
    cases hR
    exact A
  obtain ⟨B, en, ex, mn, er, lmax, lmin, i, f, h, K, T⟩ := step_of I ho ha hR
  have H := T.shape
  obtain ⟨-, -, -, b4⟩ := reach_answers T.exN (avoid_valid ho _) T.reach T.ne
  have hnoinit := reach_noInit T.reach
  obtain ⟨c, c1, c2⟩ := A.keep
  refine ⟨?_, c * i, Nat.mul_pos c1 H.i_pos, ?_⟩
  · intro y hy
    rcases H.mem_R.1 hy with ⟨x, x1, x2, rfl⟩ | ⟨z, z1, z2, rfl⟩
    · rcases A.from' x x1 with ⟨u, u1, u2⟩ | hh
      · exact Or.inl ⟨u, u1, u2.trans ⟨rfl, rfl, rfl, rfl⟩⟩
      · exact Or.inr hh
    · exact Or.inr ⟨List.mem_toFinset.1 (b4 z z1).2.1, ha, hnoinit z z1⟩
  · intro x hx hxx
    obtain ⟨y, y1, y2, y3, y4⟩ := c2 x hx hxx
    refine ⟨_, H.mem_R.2 (Or.inl ⟨y, y1, ?_, rfl⟩), y2.trans ⟨rfl, rfl, rfl, rfl⟩, ?_, ?_⟩
    · rintro ⟨d1, d2, -⟩
      rw [y2.2.2.1] at d1
      rw [y2.2.1] at d2
      rcases hxx with hh | hh
      · exact hh d2
      · rw [d1] at hh
        exact ha hh
    · change y.rgrad * (i : ℤ) = _
      rw [y3]
      push_cast
      ring
    · intro hu
      have hyt := y4 hu
      change (y.trans.map f).filter _ = x.trans
      have hout : ∀ j ∈ y.trans, f j = j ∧ j ∉ delIds N (g : ℤ) K st := by
        intro j hj
        rw [hyt] at hj
        obtain ⟨u, u1, u2⟩ := hcl0 x hx j hj
        have hux := hu u u1 (u2 ▸ hj)
        obtain ⟨v, v1, v2, -⟩ := c2 u u1 hux
        have hvj : v.id = j := v2.1.trans u2
        have hnot : ¬ (v.mode = (g : ℤ) ∧ v.state ∈ N) := by
          rintro ⟨d1, d2⟩
          rw [v2.2.2.1] at d1
          rw [v2.2.1] at d2
          rcases hux with hh | hh
          · exact hh d2
          · rw [d1] at hh
            exact ha hh
        refine ⟨H.f_id j fun hc => ?_, fun hc => ?_⟩
        · obtain ⟨w, w1, w2⟩ := mem_ids.1 hc
          obtain ⟨q1, q2, q3, -⟩ := H.en_mem w w1
          rw [eq_of_id_eq I.ids q1 v1 (w2.trans hvj.symm)] at q2 q3
          exact hnot ⟨q2, q3⟩
        · obtain ⟨w, w1, w2, w3⟩ := mem_delIds.1 hc
          rw [eq_of_id_eq I.ids w1 v1 (w2.trans hvj.symm)] at w3
          exact hnot ⟨w3.1, w3.2.1⟩
      have h1 : y.trans.map f = y.trans := by
        conv_rhs => rw [← List.map_id y.trans]
        exact List.map_congr_left fun j hj => (hout j hj).1
      rw [h1, List.filter_eq_self.2 fun j hj => by simpa using (hout j hj).2, hyt]

end Gr1c
