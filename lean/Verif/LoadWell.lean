import Verif.AutIOProps

/-!
# C25, C61: whatever text is read, a loaded automaton is well-formed
-/

namespace Gr1c

/-! ## Specification -/

/-- An automaton that the writers can be given: it has a node, addresses are distinct, transitions lead to nodes of the list,
states have length `len`, and numbers are of type `int`. -/
structure WellLoaded (len : ℕ) (l : List LNode) : Prop where
  nonempty : l ≠ []
  nodup : (l.map LNode.id).Nodup
  closed : ∀ n ∈ l, ∀ t ∈ n.trans, ∃ m ∈ l, m.id = t
  length : ∀ n ∈ l, n.state.length = len
  ints : ∀ n ∈ l, (∀ v ∈ n.state, IsInt v) ∧ IsInt n.mode ∧ IsInt n.rgrad

/-! ## Proof -/

theorem toInt_isInt (v : ℤ) : IsInt (toInt v) := by
  unfold toInt IsInt
  have h1 := Int.le_bmod (x := v) (m := 2 ^ 32) (by decide)
  have h2 := Int.bmod_lt (x := v) (m := 2 ^ 32) (by decide)
  norm_num at h1 h2 ⊢
  omega

theorem readInts_ok {n : ℕ} {s : List Char} {x : List ℤ × List Char} (h : readInts n s = some x) :
    x.1.length = n ∧ ∀ v ∈ x.1, IsInt v := by
  induction n generalizing s x with
  | zero =>
    simp only [readInts, Option.some.injEq] at h
    subst h
    simp
  | succ n ih =>
    simp only [readInts] at h
    split_ifs at h
    cases hs : strtol s with
    | none => rw [hs] at h; cases h
    | some vr =>
      rw [hs] at h
      simp only at h
      cases hr : readInts n vr.2 with
      | none => rw [hr] at h; cases h
      | some y =>
        rw [hr] at h
        simp only [Option.map_some, Option.some.injEq] at h
        subst h
        obtain ⟨h1, h2⟩ := ih hr
        refine ⟨by simp [h1], ?_⟩
        intro v hv
        rcases List.mem_cons.1 hv with rfl | hv
        · exact toInt_isInt _
        · exact h2 v hv

/-- What is known of every line read with the version `ver`. -/
def LineOk (len : ℕ) (ver : ℤ) (r : LineRec) : Prop :=
  r.state.length = len ∧ (∀ v ∈ r.state, IsInt v) ∧ IsInt r.mode ∧ IsInt r.rgrad ∧
    (ver = 0 ∨ ver = 1 → r.initial ≠ none) ∧ (ver ≠ 0 ∧ ver ≠ 1 → r.initial = none)

theorem readLine_ok {len : ℕ} {ver id : ℤ} {s : List Char} {r : LineRec} (h : readLine len ver id s = .ok r) :
    LineOk len ver r := by
  unfold readLine at h
  cases h1 : readInts len s with
  | none => rw [h1] at h; cases h
  | some x =>
    rw [h1] at h
    simp only at h
    obtain ⟨k1, k2⟩ := readInts_ok h1
    cases h2 : readInitial ver x.2 with
    | none => rw [h2] at h; cases h
    | some y =>
      rw [h2] at h
      simp only at h
      have hini : (ver = 0 ∨ ver = 1 → y.1 ≠ none) ∧ (ver ≠ 0 ∧ ver ≠ 1 → y.1 = none) := by
        unfold readInitial at h2
        by_cases e1 : ver = 1
        · rw [if_pos e1] at h2
          refine ⟨fun _ => ?_, fun h => absurd e1 h.2⟩
          split at h2
          · cases h2
          · split_ifs at h2 <;> cases h2 <;> simp
        · rw [if_neg e1] at h2
          simp only [Option.some.injEq] at h2
          subst h2
          refine ⟨?_, fun h => ?_⟩
          · rintro (rfl | h)
            · simp
            · exact absurd h e1
          · simp [h.1]
      cases h3 : strtol y.2 with
      | none => rw [h3] at h; cases h
      | some z =>
        rw [h3] at h
        simp only at h
        split_ifs at h
        cases h4 : strtol z.2 with
        | none => rw [h4] at h; cases h
        | some u =>
          rw [h4] at h
          simp only [LineRes.ok.injEq] at h
          subst h
          exact ⟨k1, k2, toInt_isInt _, toInt_isInt _, hini⟩

theorem readLoop_ok {len : ℕ} : ∀ (n : ℕ) (f : List Char), f.length ≤ n → ∀ (ver : Option ℤ) (rs : List LineRec) (v : ℤ)
    (rs' : List LineRec), (∀ r ∈ rs, ∃ k, ver = some k ∧ LineOk len k r) → readLoop len ver rs f = .ok v rs' →
    ∀ r ∈ rs', LineOk len v r := by
  intro n
  induction n with
  | zero =>
    intro f hf ver rs v rs' h0 h
    have : f = [] := List.length_eq_zero_iff.1 (by omega)
    rw [readLoop, dif_pos this] at h
    cases h
    intro r hr
    obtain ⟨k, rfl, hk⟩ := h0 r hr
    exact hk
  | succ n ih =>
    intro f hf ver rs v rs' h0 h
    by_cases hf0 : f = []
    · rw [readLoop, dif_pos hf0] at h
      cases h
      intro r hr
      obtain ⟨k, rfl, hk⟩ := h0 r hr
      exact hk
    rw [readLoop, dif_neg hf0] at h
    have hl : (fgets 4095 f).2.length ≤ n := by
      have : (fgets 4095 f).2.length < f.length := fgets_length 4094 f hf0
      omega
    simp only at h
    split at h
    · exact ih _ hl _ _ _ _ h0 h
    split at h
    · split at h <;> cases h
    rename_i id s hs
    split at h
    · rename_i h2
      split at h
      · cases h
      have hrs : rs = [] := by
        by_contra hne
        obtain ⟨r, hr⟩ := List.exists_mem_of_ne_nil _ hne
        obtain ⟨k, hk, -⟩ := h0 r hr
        rw [h2.1] at hk
        cases hk
      subst hrs
      exact ih _ hl _ _ _ _ (by simp) h
    split at h
    · split at h <;> cases h
    · cases h
    rename_i r hr
    refine ih _ hl _ _ _ _ ?_ h
    intro x hx
    refine ⟨_, rfl, ?_⟩
    rcases List.mem_append.1 hx with hx | hx
    · obtain ⟨k, rfl, hk⟩ := h0 x hx
      exact hk
    · rw [List.mem_singleton.1 hx]
      exact readLine_ok hr

theorem findLine_some {rs : List LineRec} {i : ℤ} {j : ℕ} (h : findLine rs i = some j) :
    j < rs.length ∧ ∃ r, rs[j]? = some r ∧ r.id = i := by
  unfold findLine at h
  obtain ⟨h1, h2, -⟩ := List.findIdx?_eq_some_iff_getElem.1 h
  exact ⟨h1, rs[j], List.getElem?_eq_getElem h1, by simpa using h2⟩

theorem setTrans_ok {rs : List LineRec} {m : ℕ} {ts : List ℤ} {l : List ℕ} (h : setTrans rs m ts = .ok l) :
    ∀ k ∈ l, k < rs.length := by
  induction m generalizing ts l with
  | zero =>
    simp only [setTrans, TransRes.ok.injEq] at h
    subst h
    simp
  | succ m ih =>
    cases ts with
    | nil => simp [setTrans] at h
    | cons t ts =>
      simp only [setTrans] at h
      cases hf : findLine rs t with
      | none => rw [hf] at h; cases h
      | some k =>
        rw [hf] at h
        simp only at h
        cases hs : setTrans rs m ts with
        | missing => rw [hs] at h; cases h
        | ub => rw [hs] at h; cases h
        | ok l' =>
          rw [hs] at h
          simp only [TransRes.ok.injEq] at h
          subst h
          intro x hx
          rcases List.mem_cons.1 hx with rfl | hx
          · exact (findLine_some hf).1
          · exact ih hs x hx

theorem linkLoop_inv {rs : List LineRec} {ver : ℤ} : ∀ (m i : ℕ) (acc l : List LNode) (v : ℤ),
    linkLoop rs ver i acc m = .ok l v → v = ver ∧ ∃ new : List LNode, l = acc ++ new ∧ new.length = m ∧
      ∀ t n, new[t]? = some n → findLine rs ((i + t : ℕ) : ℤ) = some n.id ∧ (∀ k ∈ n.trans, k < rs.length) ∧
        ∃ r, rs[n.id]? = some r ∧ n.state = r.state ∧ n.initial = r.initial ∧ n.mode = r.mode ∧ n.rgrad = r.rgrad := by
  intro m
  induction m with
  | zero =>
    intro i acc l v h
    simp only [linkLoop, LoadRes.ok.injEq] at h
    obtain ⟨rfl, rfl⟩ := h
    exact ⟨rfl, [], by simp, rfl, by simp⟩
  | succ m ih =>
    intro i acc l v h
    simp only [linkLoop] at h
    cases hf : findLine rs (i : ℤ) with
    | none => rw [hf] at h; cases h
    | some j =>
      rw [hf] at h
      simp only at h
      split at h
      · rename_i n t hn ht
        cases hs : setTrans rs n.trans.length t.trans with
        | missing => rw [hs] at h; simp only at h; split_ifs at h
        | ub => rw [hs] at h; cases h
        | ok tr =>
          rw [hs] at h
          simp only at h
          obtain ⟨e, new, h1, h2, h3⟩ := ih _ _ _ _ h
          refine ⟨e, ⟨j, n.state, n.initial, n.mode, n.rgrad, tr⟩ :: new, by simp [h1], by simp [h2], ?_⟩
          intro u x hx
          cases u with
          | zero =>
            simp only [List.getElem?_cons_zero, Option.some.injEq] at hx
            subst hx
            exact ⟨by simpa using hf, setTrans_ok hs, n, hn, rfl, rfl, rfl, rfl⟩
          | succ u =>
            rw [List.getElem?_cons_succ] at hx
            have := h3 u x hx
            rwa [show i + 1 + u = i + (u + 1) by omega] at this
      · cases h

/-- A nonempty list of distinct numbers below its length has them all. -/
theorem mem_of_nodup_lt {l : List ℕ} (hn : l.Nodup) (hl : ∀ x ∈ l, x < l.length) {k : ℕ} (hk : k < l.length) : k ∈ l := by
  have h1 : l.Subperm (List.range l.length) := hn.subperm fun x hx => List.mem_range.2 (hl x hx)
  have h2 : l.Perm (List.range l.length) := h1.perm_of_length_le (by simp)
  exact h2.mem_iff.2 (List.mem_range.2 hk)

/-! ## Theorem -/

/-- **C25, C61.** Whatever the text is: if `aut_aut_loadver` returns an automaton, then it is well-formed. The field `initial`
is set if and only if the version is 0 or 1. -/
theorem load_well {len : ℤ} {f : List Char} {l : List LNode} {ver : ℤ} (h : loadVer len f = .ok l ver) :
    1 ≤ len ∧ WellLoaded len.toNat l ∧ ∀ n ∈ l, (n.initial ≠ none ↔ ver = 0 ∨ ver = 1) := by
  unfold loadVer at h
  split_ifs at h with h1
  refine ⟨by omega, ?_⟩
  cases hr : readLoop len.toNat none [] f with
  | bad => rw [hr] at h; cases h
  | ub => rw [hr] at h; cases h
  | ok v rs =>
    rw [hr] at h
    simp only at h
    split_ifs at h with h2
    have hok := readLoop_ok f.length f le_rfl none [] v rs (by simp) hr
    obtain ⟨rfl, new, h3, h4, h5⟩ := linkLoop_inv _ _ _ _ _ h
    rw [List.nil_append] at h3
    subst h3
    have hlen : l.length = rs.length := h4
    have hget : ∀ n ∈ l, ∃ t, l[t]? = some n := fun n hn => List.getElem?_of_mem hn
    have hnd : (l.map LNode.id).Nodup := by
      rw [List.nodup_iff_injective_get]
      intro a b hab
      have ha : (a : ℕ) < l.length := by simpa using a.2
      have hb : (b : ℕ) < l.length := by simpa using b.2
      simp only [List.get_eq_getElem, List.getElem_map] at hab
      obtain ⟨e1, -, -⟩ := h5 a _ (List.getElem?_eq_getElem ha)
      obtain ⟨e2, -, -⟩ := h5 b _ (List.getElem?_eq_getElem hb)
      obtain ⟨-, r1, g1, g2⟩ := findLine_some e1
      obtain ⟨-, r2, g3, g4⟩ := findLine_some e2
      rw [hab, g3] at g1
      cases g1
      rw [g2] at g4
      exact Fin.ext (by simp at g4; omega)
    refine ⟨⟨?_, hnd, ?_, ?_, ?_⟩, ?_⟩
    · intro h0
      subst h0
      exact h2 (List.length_eq_zero_iff.1 (by simpa using hlen.symm))
    · intro n hn t ht
      obtain ⟨u, hu⟩ := hget n hn
      obtain ⟨-, g, -⟩ := h5 u n hu
      have := g t ht
      have hmem : t ∈ l.map LNode.id := mem_of_nodup_lt hnd
        (by
          intro x hx
          obtain ⟨m, hm, rfl⟩ := List.mem_map.1 hx
          obtain ⟨u', hu'⟩ := hget m hm
          obtain ⟨g', -, -⟩ := h5 u' m hu'
          have := (findLine_some g').1
          simpa [hlen] using this)
        (by simpa [hlen] using this)
      obtain ⟨m, hm, e⟩ := List.mem_map.1 hmem
      exact ⟨m, hm, e⟩
    · intro n hn
      obtain ⟨u, hu⟩ := hget n hn
      obtain ⟨-, -, r, g1, g2, -⟩ := h5 u n hu
      rw [g2]
      exact (hok r (List.mem_of_getElem? g1)).1
    · intro n hn
      obtain ⟨u, hu⟩ := hget n hn
      obtain ⟨-, -, r, g1, g2, g3, g4, g5⟩ := h5 u n hu
      obtain ⟨-, k1, k2, k3, -⟩ := hok r (List.mem_of_getElem? g1)
      rw [g2, g4, g5]
      exact ⟨k1, k2, k3⟩
    · intro n hn
      obtain ⟨u, hu⟩ := hget n hn
      obtain ⟨-, -, r, g1, -, g3, -⟩ := h5 u n hu
      obtain ⟨-, -, -, -, k1, k2⟩ := hok r (List.mem_of_getElem? g1)
      rw [g3]
      refine ⟨fun h => ?_, k1⟩
      by_contra hne
      exact h (k2 (by tauto))

/-- A text with a comment, lines that are not in the order of their IDs, and a version. -/
example : loadVer 2 "# x\n1\n1 0 5 0 0 2 0\n0 1 3 1 0 1 0\n".toList = .ok [⟨1, [1, 3], some true, 0, 1, [1]⟩,
    ⟨0, [0, 5], some false, 0, 2, [1]⟩] 1 := by decide +kernel

end Gr1c
