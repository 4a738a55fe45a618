import Verif.MainProps
import Verif.AutIOProps

/-!
# Strategies with other addresses

A strategy that was written to a file and read again has other node addresses. It is a strategy for the same specification.
-/

namespace Gr1c

variable {M : Type} {E S : Type} [Fintype E] [Fintype S] [DecidableEq E] [DecidableEq S]

/-- The automata agree up to addresses: nodes at the same position have the same state and mark, and edges lead from position
to position. -/
structure SamePlaces (st st' : Aut M (E × S)) : Prop where
  length : st'.length = st.length
  fields : ∀ (k : ℕ) (x x' : ANode M (E × S)), st[k]? = some x → st'[k]? = some x' → x'.state = x.state ∧ x'.initial = x.initial
  edge : ∀ (i k : ℕ) (x x' y y' : ANode M (E × S)), st[k]? = some x → st'[k]? = some x' → st[i]? = some y → st'[i]? = some y' →
    (y'.id ∈ x'.trans ↔ y.id ∈ x.trans)

theorem SamePlaces.mate {st st' : Aut M (E × S)} (h : SamePlaces st st') {x' : ANode M (E × S)} (hx : x' ∈ st') :
    ∃ (k : ℕ) (x : ANode M (E × S)), st[k]? = some x ∧ st'[k]? = some x' ∧ x ∈ st ∧ x'.state = x.state ∧ x'.initial = x.initial := by
  obtain ⟨k, hk⟩ := List.getElem?_of_mem hx
  have hlt : k < st.length := h.length ▸ (List.getElem?_eq_some_iff.1 hk).1
  obtain ⟨h1, h2⟩ := h.fields k _ _ (List.getElem?_eq_getElem hlt) hk
  exact ⟨k, st[k], List.getElem?_eq_getElem hlt, hk, List.getElem_mem hlt, h1, h2⟩

theorem SamePlaces.copy {st st' : Aut M (E × S)} (h : SamePlaces st st') {x : ANode M (E × S)} (hx : x ∈ st) :
    ∃ (k : ℕ) (x' : ANode M (E × S)), st[k]? = some x ∧ st'[k]? = some x' ∧ x' ∈ st' ∧ x'.state = x.state ∧ x'.initial = x.initial := by
  obtain ⟨k, hk⟩ := List.getElem?_of_mem hx
  have hlt : k < st'.length := h.length ▸ (List.getElem?_eq_some_iff.1 hk).1
  obtain ⟨h1, h2⟩ := h.fields k _ _ hk (List.getElem?_eq_getElem hlt)
  exact ⟨k, st'[k], hk, List.getElem?_eq_getElem hlt, List.getElem_mem hlt, h1, h2⟩

theorem place_of_id {st : Aut M (E × S)} (hn : (st.map (·.id)).Nodup) {i k : ℕ} {x y : ANode M (E × S)}
    (hx : st[i]? = some x) (hy : st[k]? = some y) (h : x.id = y.id) : i = k := by
  have h1 : (st.map (·.id))[i]? = some x.id := by rw [List.getElem?_map, hx]; rfl
  have h2 : (st.map (·.id))[k]? = some x.id := by rw [List.getElem?_map, hy, h]; rfl
  obtain ⟨l1, e1⟩ := List.getElem?_eq_some_iff.1 h1
  obtain ⟨l2, e2⟩ := List.getElem?_eq_some_iff.1 h2
  exact (hn.getElem_inj_iff).1 (e1.trans e2.symm)

/-- Addresses do not matter for being a strategy. -/
theorem StrategyFor.renumber {G : Game E S} {egs sgs : List (Finset (E × S))} {flag : InitFlag}
    {einit sinit : Option (Finset (E × S))} {st st' : Aut M (E × S)} (h : StrategyFor G egs sgs flag einit sinit st)
    (hp : SamePlaces st st') (hn : (st'.map (·.id)).Nodup) (hc : ∀ x ∈ st', ∀ j ∈ x.trans, ∃ y ∈ st', y.id = j) :
    StrategyFor G egs sgs flag einit sinit st' := by
  refine ⟨hn, hc, ?_, ?_, ?_, ?_, ?_⟩
  · intro x' hx' y' hy' he
    obtain ⟨k, x, k1, k2, k3, k4, -⟩ := hp.mate hx'
    obtain ⟨i, y, i1, i2, i3, i4, -⟩ := hp.mate hy'
    rw [k4, i4]
    exact h.legal x k3 y i3 ((hp.edge i k _ _ _ _ k1 k2 i1 i2).1 he)
  · intro x' hx' e he
    obtain ⟨k, x, k1, k2, k3, k4, -⟩ := hp.mate hx'
    rw [k4] at he
    obtain ⟨y, ⟨y1, y2, y3⟩, hu⟩ := h.answers x k3 e he
    obtain ⟨i, y', i1, i2, i3, i4, -⟩ := hp.copy y1
    refine ⟨y', ⟨i3, (hp.edge i k _ _ _ _ k1 k2 i1 i2).2 y2, by rw [i4]; exact y3⟩, ?_⟩
    rintro z' ⟨z1, z2, z3⟩
    obtain ⟨m, z, m1, m2, m3, m4, -⟩ := hp.mate z1
    have hz : z = y := hu z ⟨m3, (hp.edge m k _ _ _ _ k1 k2 m1 m2).1 z2, by rw [← m4]; exact z3⟩
    subst hz
    have := place_of_id h.ids m1 i1 rfl
    subst this
    rw [m2] at i2
    cases i2
    rfl
  · intro ρ' hρ hA B hB
    choose k ρ k1 k2 k3 k4 k5 using fun r => hp.mate (hρ r).1
    have e : (fun r => (ρ' r).state) = fun r => (ρ r).state := funext fun r => k4 r
    rw [e] at hA ⊢
    exact h.live ρ (fun r => ⟨k3 r, (hp.edge _ _ _ _ _ _ (k1 r) (k2 r) (k1 (r + 1)) (k2 (r + 1))).1 (hρ r).2⟩) hA B hB
  · intro x' hx' hi
    obtain ⟨k, x, k1, k2, k3, k4, k5⟩ := hp.mate hx'
    rw [k4]
    exact h.allowed x k3 (k5 ▸ hi)
  · have : (fun s => ∃ x ∈ st', x.state = s) = fun s => ∃ x ∈ st, x.state = s := by
      funext s
      refine propext ⟨?_, ?_⟩
      · rintro ⟨x', hx', rfl⟩
        obtain ⟨k, x, -, -, k3, k4, -⟩ := hp.mate hx'
        exact ⟨x, k3, k4.symm⟩
      · rintro ⟨x, hx, rfl⟩
        obtain ⟨k, x', -, -, k3, k4, -⟩ := hp.copy hx
        exact ⟨x', k3, k4⟩
    rw [this]
    exact h.required

/-! ## What was read is a strategy with other addresses -/

/-- The strategy with the addresses of the loaded automaton. -/
def reloaded {evars svars : Decls} (st : Aut ℤ (IState evars svars)) (l : List LNode) : Aut ℤ (IState evars svars) :=
  List.zipWith (fun x n => ⟨n.id, x.state, x.mode, x.rgrad, x.initial, n.trans⟩) st l

theorem reloaded_get {evars svars : Decls} {st : Aut ℤ (IState evars svars)} {l : List LNode} {k : ℕ}
    {x' : ANode ℤ (IState evars svars)} (h : (reloaded st l)[k]? = some x') :
    ∃ (x : ANode ℤ (IState evars svars)) (n : LNode), st[k]? = some x ∧ l[k]? = some n ∧ x' = ⟨n.id, x.state, x.mode, x.rgrad, x.initial, n.trans⟩ := by
  unfold reloaded at h
  rw [List.getElem?_zipWith] at h
  cases hx : st[k]? with
  | none => rw [hx] at h; cases h
  | some x =>
    cases hn : l[k]? with
    | none => rw [hx, hn] at h; cases h
    | some n =>
      rw [hx, hn] at h
      exact ⟨x, n, rfl, rfl, (Option.some.inj h).symm⟩

theorem sameAut_places {evars svars : Decls} {st : Aut ℤ (IState evars svars)} {l : List LNode}
    (h : SameAut 1 (withStates stateValues st) l) : SamePlaces st (reloaded st l) := by
  obtain ⟨h1, -, h3⟩ := h
  have hl : l.length = st.length := by simpa [withStates] using h1
  have hw : ∀ (k : ℕ) (x : ANode ℤ (IState evars svars)), st[k]? = some x → (withStates stateValues st)[k]? = some ⟨x.id, stateValues x.state, x.mode, x.rgrad, x.initial, x.trans⟩ := by
    intro k x hx
    unfold withStates
    rw [List.getElem?_map, hx]
    rfl
  refine ⟨by simp [reloaded, hl], ?_, ?_⟩
  · intro k x x' hx hx'
    obtain ⟨y, n, e1, e2, rfl⟩ := reloaded_get hx'
    rw [hx] at e1
    cases e1
    exact ⟨rfl, rfl⟩
  · intro i k x x' y y' hx hx' hy hy'
    obtain ⟨_, n, e1, e2, rfl⟩ := reloaded_get hx'
    obtain ⟨_, m, e3, e4, rfl⟩ := reloaded_get hy'
    rw [hx] at e1
    cases e1
    rw [hy] at e3
    cases e3
    obtain ⟨-, -, -, -, g1, g2⟩ := h3 k _ n (hw k x hx) e2
    simp only at g1 g2 ⊢
    constructor
    · intro hm
      obtain ⟨j, hj⟩ := List.getElem?_of_mem hm
      have hlt : j < x.trans.length := g1 ▸ (List.getElem?_eq_some_iff.1 hj).1
      have := (g2 j _ _ (List.getElem?_eq_getElem hlt) hj i _ m (hw i y hy) e4).2 rfl
      simp only at this
      rw [this]
      exact List.getElem_mem hlt
    · intro hm
      obtain ⟨j, hj⟩ := List.getElem?_of_mem hm
      have hlt : j < n.trans.length := g1 ▸ (List.getElem?_eq_some_iff.1 hj).1
      have := (g2 j _ _ hj (List.getElem?_eq_getElem hlt) i _ m (hw i y hy) e4).1 rfl
      rw [this]
      exact List.getElem_mem hlt

/-- The automaton read back has the declared values of the strategy with the new addresses. -/
theorem sameAut_reloaded {evars svars : Decls} {st : Aut ℤ (IState evars svars)} {l : List LNode}
    (h : SameAut 1 (withStates stateValues st) l) :
    l = (withStates stateValues (reloaded st l)).map fun n => ⟨n.id, n.state, some n.initial, n.mode, n.rgrad, n.trans⟩ := by
  obtain ⟨h1, -, h3⟩ := h
  have hl : l.length = st.length := by simpa [withStates] using h1
  refine List.ext_getElem? fun k => ?_
  simp only [withStates, List.map_map, List.getElem?_map]
  cases hx : st[k]? with
  | none =>
    have : l[k]? = none := by
      rw [List.getElem?_eq_none_iff] at hx ⊢
      omega
    rw [this, reloaded, List.getElem?_zipWith, hx]
    rfl
  | some x =>
    have hlt : k < l.length := hl ▸ (List.getElem?_eq_some_iff.1 hx).1
    have hn : l[k]? = some l[k] := List.getElem?_eq_getElem hlt
    have hw : (withStates stateValues st)[k]? = some ⟨x.id, stateValues x.state, x.mode, x.rgrad, x.initial, x.trans⟩ := by
      unfold withStates
      rw [List.getElem?_map, hx]
      rfl
    obtain ⟨g1, g2, g3, g4, -, -⟩ := h3 k _ _ hw hn
    rw [reloaded, List.getElem?_zipWith, hx, hn]
    simp only [Option.map_some, Function.comp, Option.some.injEq] at g1 g2 g3 g4 ⊢
    generalize l[k] = n at *
    cases n
    simp_all

end Gr1c
