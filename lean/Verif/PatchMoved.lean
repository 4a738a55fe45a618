import Verif.Renumber
import Verif.PatchSpec
import Verif.PatchFileInt
import Verif.CompactProps

/-!
# Patching does not depend on addresses

The strategy that `patch_localfixpoint` loads has other addresses than the one that was written. The conditions of `Verif.PatchProps`
carry over.
-/

namespace Gr1c

variable {E S : Type} [Fintype E] [Fintype S] [DecidableEq E] [DecidableEq S]

/-- The automata agree up to addresses, also in goal modes and annotations. -/
structure Moved (st st' : Aut ℤ (E × S)) : Prop extends SamePlaces st st' where
  marks : ∀ (k : ℕ) (x x' : ANode ℤ (E × S)), st[k]? = some x → st'[k]? = some x' → x'.mode = x.mode ∧ x'.rgrad = x.rgrad
  nodup : (st.map (·.id)).Nodup
  nodup' : (st'.map (·.id)).Nodup
  closed' : ∀ x ∈ st', ∀ j ∈ x.trans, ∃ y ∈ st', y.id = j

variable {st st' : Aut ℤ (E × S)}

/-- Nodes at the same position. -/
def AtSame (st st' : Aut ℤ (E × S)) (x x' : ANode ℤ (E × S)) : Prop := ∃ k : ℕ, st[k]? = some x ∧ st'[k]? = some x'

namespace Moved

theorem back (h : Moved st st') {x' : ANode ℤ (E × S)} (hx : x' ∈ st') : ∃ x ∈ st, AtSame st st' x x' := by
  obtain ⟨k, x, h1, h2, h3, -⟩ := h.mate hx
  exact ⟨x, h3, k, h1, h2⟩

theorem forth (h : Moved st st') {x : ANode ℤ (E × S)} (hx : x ∈ st) : ∃ x' ∈ st', AtSame st st' x x' := by
  obtain ⟨k, x, h1, h2, h3, -⟩ := h.copy hx
  exact ⟨x, h3, k, h1, h2⟩

theorem state (h : Moved st st') {x x' : ANode ℤ (E × S)} (a : AtSame st st' x x') : x'.state = x.state := by
  obtain ⟨k, h1, h2⟩ := a
  exact (h.fields k _ _ h1 h2).1

theorem mode (h : Moved st st') {x x' : ANode ℤ (E × S)} (a : AtSame st st' x x') : x'.mode = x.mode := by
  obtain ⟨k, h1, h2⟩ := a
  exact (h.marks k _ _ h1 h2).1

theorem rgrad (h : Moved st st') {x x' : ANode ℤ (E × S)} (a : AtSame st st' x x') : x'.rgrad = x.rgrad := by
  obtain ⟨k, h1, h2⟩ := a
  exact (h.marks k _ _ h1 h2).2

theorem step (h : Moved st st') {x x' y y' : ANode ℤ (E × S)} (a : AtSame st st' x x') (b : AtSame st st' y y') :
    y'.id ∈ x'.trans ↔ y.id ∈ x.trans := by
  obtain ⟨k, h1, h2⟩ := a
  obtain ⟨i, h3, h4⟩ := b
  exact h.edge i k _ _ _ _ h1 h2 h3 h4

theorem uniq (h : Moved st st') {x x' y y' : ANode ℤ (E × S)} (a : AtSame st st' x x') (b : AtSame st st' y y') :
    x' = y' ↔ x = y := by
  obtain ⟨k, h1, h2⟩ := a
  obtain ⟨i, h3, h4⟩ := b
  constructor
  · rintro rfl
    have := place_of_id h.nodup' h2 h4 rfl
    subst this
    rw [h1] at h3
    exact Option.some.inj h3
  · rintro rfl
    have := place_of_id h.nodup h1 h3 rfl
    subst this
    rw [h2] at h4
    exact Option.some.inj h4

variable {G : Game E S} {m n : ℕ} {eg : Fin m → Finset (E × S)} {sg : Fin n → Finset (E × S)} {N : List (E × S)} {cs : List (Change E S)}

theorem seeks (h : Moved st st') (hs : SeeksInOrder G eg sg st) : SeeksInOrder G eg sg st' := by
  refine ⟨h.nodup', h.closed', ?_, ?_, ?_, ?_⟩
  · intro x' hx'
    obtain ⟨x, hx, a⟩ := h.back hx'
    rw [h.mode a]
    exact hs.modes x hx
  · intro x' hx' y' hy' he
    obtain ⟨x, hx, a⟩ := h.back hx'
    obtain ⟨y, hy, b⟩ := h.back hy'
    rw [h.state a, h.state b]
    exact hs.legal x hx y hy ((h.step a b).1 he)
  · intro x' hx' y' hy' he
    obtain ⟨x, hx, a⟩ := h.back hx'
    obtain ⟨y, hy, b⟩ := h.back hy'
    rw [h.mode a, h.mode b, h.state b]
    exact hs.order x hx y hy ((h.step a b).1 he)
  · intro ρ' hρ
    choose ρ r1 r2 using fun k => h.back (hρ k).1
    have e : (fun k => (ρ' k).state) = fun k => (ρ k).state := funext fun k => h.state (r2 k)
    rw [e]
    exact hs.live ρ fun k => ⟨r1 k, (h.step (r2 k) (r2 (k + 1))).1 (hρ k).2⟩

theorem answersAll (h : Moved st st') (hs : AnswersAll G st) : AnswersAll G st' := by
  intro x' hx' e he
  obtain ⟨x, hx, a⟩ := h.back hx'
  rw [h.state a] at he
  obtain ⟨y, ⟨y1, y2, y3⟩, hu⟩ := hs x hx e he
  obtain ⟨y', hy', b⟩ := h.forth y1
  refine ⟨y', ⟨hy', (h.step a b).2 y2, by rw [h.state b]; exact y3⟩, ?_⟩
  rintro z' ⟨z1, z2, z3⟩
  obtain ⟨z, hz, c⟩ := h.back z1
  exact (h.uniq c b).2 (hu z ⟨hz, (h.step a c).1 z2, by rw [← h.state c]; exact z3⟩)

theorem annotated (h : Moved st st') (hs : Annotated sg st) : Annotated sg st' := by
  refine ⟨?_, ?_, ?_⟩
  · intro x' hx'
    obtain ⟨x, hx, a⟩ := h.back hx'
    rw [h.rgrad a]
    exact hs.nonneg x hx
  · intro x' hx' y' hy' he hm
    obtain ⟨x, hx, a⟩ := h.back hx'
    obtain ⟨y, hy, b⟩ := h.back hy'
    rw [h.mode a, h.mode b] at hm
    rw [h.rgrad a, h.rgrad b, h.state a]
    exact hs.mono x hx y hy ((h.step a b).1 he) hm
  · intro x' hx' y' hy' hm hst
    obtain ⟨x, hx, a⟩ := h.back hx'
    obtain ⟨y, hy, b⟩ := h.back hy'
    rw [h.mode a, h.mode b] at hm
    rw [h.state a, h.state b] at hst
    exact (h.uniq a b).2 (hs.keys x hx y hy hm hst)

theorem some_edge (h : Moved st st') {x x' : ANode ℤ (E × S)} (a : AtSame st st' x x') (P : E × S → Prop) :
    (∃ y ∈ st', y.id ∈ x'.trans ∧ P y.state) ↔ ∃ y ∈ st, y.id ∈ x.trans ∧ P y.state := by
  constructor
  · rintro ⟨y', hy', h1, h2⟩
    obtain ⟨y, hy, b⟩ := h.back hy'
    exact ⟨y, hy, (h.step a b).1 h1, by rw [← h.state b]; exact h2⟩
  · rintro ⟨y, hy, h1, h2⟩
    obtain ⟨y', hy', b⟩ := h.forth hy
    exact ⟨y', hy', (h.step a b).2 h1, by rw [h.state b]; exact h2⟩

theorem touches (h : Moved st st') {x x' : ANode ℤ (E × S)} (a : AtSame st st' x x') (c : Change E S) :
    Touches st' c x' ↔ Touches st c x := by
  cases c with
  | restrictSys s t => simp only [Touches]; rw [h.state a, h.some_edge a (· = t)]
  | relaxEnv s e => simp only [Touches]; rw [h.state a, h.some_edge a (·.1 = e)]
  | blockSys v => unfold Touches; exact h.some_edge a (·.2 = v)
  | restrictEnv s e => exact Iff.rfl
  | relaxSys s t => exact Iff.rfl

theorem touchedMode (h : Moved st st') (i : ℤ) : TouchedMode st' cs i ↔ TouchedMode st cs i := by
  constructor
  · rintro ⟨x', hx', h1, c, hc, h2⟩
    obtain ⟨x, hx, a⟩ := h.back hx'
    exact ⟨x, hx, by rw [← h.mode a]; exact h1, c, hc, (h.touches a c).1 h2⟩
  · rintro ⟨x, hx, h1, c, hc, h2⟩
    obtain ⟨x', hx', a⟩ := h.forth hx
    exact ⟨x', hx', by rw [h.mode a]; exact h1, c, hc, (h.touches a c).2 h2⟩

theorem noWrap (h : Moved st st') (hw : NoWrap sg N cs st) : NoWrap sg N cs st' := by
  intro x' hx' y' hy' he hm ht hN hN'
  obtain ⟨x, hx, a⟩ := h.back hx'
  obtain ⟨y, hy, b⟩ := h.back hy'
  rw [h.mode a, h.mode b] at hm
  rw [h.mode a, h.touchedMode] at ht
  rw [h.state a] at hN ⊢
  rw [h.state b] at hN'
  exact hw x hx y hy ((h.step a b).1 he) hm ht hN hN'

theorem noCross (h : Moved st st') (hw : NoCross N cs st) : NoCross N cs st' := by
  intro x' hx' y' hy' he hm ht
  obtain ⟨x, hx, a⟩ := h.back hx'
  obtain ⟨y, hy, b⟩ := h.back hy'
  rw [h.mode a, h.mode b] at hm
  rw [h.mode b, h.touchedMode] at ht
  rw [h.state b]
  exact hw x hx y hy ((h.step a b).1 he) hm ht

end Moved

/-! ## The strategy that is loaded -/

/-- The strategy with the addresses of the loaded nodes. -/
def readdress {V : Type} (st : Aut ℤ V) (l : List LNode) : Aut ℤ V :=
  List.zipWith (fun x n => ⟨n.id, x.state, x.mode, x.rgrad, x.initial, n.trans⟩) st l

theorem readdress_get {V : Type} {st : Aut ℤ V} {l : List LNode} {k : ℕ} {x' : ANode ℤ V} (h : (readdress st l)[k]? = some x') :
    ∃ (x : ANode ℤ V) (n : LNode), st[k]? = some x ∧ l[k]? = some n ∧ x' = ⟨n.id, x.state, x.mode, x.rgrad, x.initial, n.trans⟩ := by
  unfold readdress at h
  rw [List.getElem?_zipWith] at h
  cases hx : st[k]? with
  | none => rw [hx] at h; cases h
  | some x =>
    cases hn : l[k]? with
    | none => rw [hx, hn] at h; cases h
    | some n =>
      rw [hx, hn] at h
      exact ⟨x, n, rfl, rfl, (Option.some.inj h).symm⟩

theorem withStates_get {V V' : Type} (f : V → V') {st : Aut ℤ V} {k : ℕ} {x : ANode ℤ V} (hx : st[k]? = some x) :
    (withStates f st)[k]? = some ⟨x.id, f x.state, x.mode, x.rgrad, x.initial, x.trans⟩ := by
  unfold withStates
  rw [List.getElem?_map, hx]
  rfl

/-- Loading moves the automaton. -/
theorem same_moved {f : E × S → List ℤ} {ver : ℕ} {l : List LNode} (h : SameAut ver (withStates f st) l) (hn : (st.map (·.id)).Nodup)
    (hc : ∀ x ∈ st, ∀ j ∈ x.trans, ∃ y ∈ st, y.id = j) : Moved st (readdress st l) := by
  obtain ⟨h1, h2, h3⟩ := h
  have hl : l.length = st.length := by simpa [withStates] using h1
  have hids : (readdress st l).map (·.id) = l.map LNode.id := by
    refine List.ext_getElem? fun k => ?_
    rw [List.getElem?_map, List.getElem?_map, readdress, List.getElem?_zipWith]
    cases hx : st[k]? with
    | none =>
      have : l[k]? = none := by
        rw [List.getElem?_eq_none_iff] at hx ⊢
        omega
      rw [this]; rfl
    | some x =>
      have hlt : k < l.length := hl ▸ (List.getElem?_eq_some_iff.1 hx).1
      rw [List.getElem?_eq_getElem hlt]
      rfl
  have hlen : (readdress st l).length = st.length := by simp [readdress, hl]
  refine ⟨⟨hlen, ?_, ?_⟩, ?_, hn, by rw [hids]; exact h2, ?_⟩
  · intro k x x' hx hx'
    obtain ⟨y, n, e1, e2, rfl⟩ := readdress_get hx'
    rw [hx] at e1
    cases e1
    exact ⟨rfl, rfl⟩
  · intro i k x x' y y' hx hx' hy hy'
    obtain ⟨_, n, e1, e2, rfl⟩ := readdress_get hx'
    obtain ⟨_, m, e3, e4, rfl⟩ := readdress_get hy'
    rw [hx] at e1
    cases e1
    rw [hy] at e3
    cases e3
    obtain ⟨-, -, -, -, g1, g2⟩ := h3 k _ n (withStates_get f hx) e2
    simp only at g1 g2 ⊢
    constructor
    · intro hm
      obtain ⟨j, hj⟩ := List.getElem?_of_mem hm
      have hlt : j < x.trans.length := g1 ▸ (List.getElem?_eq_some_iff.1 hj).1
      have := (g2 j _ _ (List.getElem?_eq_getElem hlt) hj i _ m (withStates_get f hy) e4).2 rfl
      simp only at this
      rw [this]
      exact List.getElem_mem hlt
    · intro hm
      obtain ⟨j, hj⟩ := List.getElem?_of_mem hm
      have hlt : j < n.trans.length := g1 ▸ (List.getElem?_eq_some_iff.1 hj).1
      have := (g2 j _ _ hj (List.getElem?_eq_getElem hlt) i _ m (withStates_get f hy) e4).1 rfl
      rw [this]
      exact List.getElem_mem hlt
  · intro k x x' hx hx'
    obtain ⟨y, n, e1, e2, rfl⟩ := readdress_get hx'
    rw [hx] at e1
    cases e1
    exact ⟨rfl, rfl⟩
  · intro x' hx' t' ht'
    obtain ⟨k, hk⟩ := List.getElem?_of_mem hx'
    obtain ⟨x, n, e1, e2, rfl⟩ := readdress_get hk
    obtain ⟨-, -, -, -, g1, g2⟩ := h3 k _ n (withStates_get f e1) e2
    obtain ⟨j, hj⟩ := List.getElem?_of_mem ht'
    have hlt : j < x.trans.length := g1 ▸ (List.getElem?_eq_some_iff.1 hj).1
    obtain ⟨y, hy, hid⟩ := hc x (List.mem_of_getElem? e1) x.trans[j] (List.getElem_mem hlt)
    obtain ⟨i, hi⟩ := List.getElem?_of_mem hy
    have hil : i < (readdress st l).length := hlen ▸ (List.getElem?_eq_some_iff.1 hi).1
    obtain ⟨y2, m, e3, e4, e5⟩ := readdress_get (List.getElem?_eq_getElem hil)
    rw [hi] at e3
    cases e3
    refine ⟨_, List.getElem_mem hil, ?_⟩
    rw [e5]
    exact (g2 j _ _ (List.getElem?_eq_getElem hlt) hj i _ m (withStates_get f hi) e4).1 hid

/-- The nodes loaded, with their states and marks. -/
theorem same_readdress {V : Type} {f : V → List ℤ} {st : Aut ℤ V} {l : List LNode} (h : SameAut 1 (withStates f st) l) (b : Bool) :
    (l.map fun n => (⟨n.id, n.state, n.mode, n.rgrad, n.initial.getD b, n.trans⟩ : ANode ℤ (List ℤ))) = withStates f (readdress st l) := by
  obtain ⟨h1, -, h3⟩ := h
  have hl : l.length = st.length := by simpa [withStates] using h1
  refine List.ext_getElem? fun k => ?_
  simp only [withStates, List.getElem?_map]
  cases hx : st[k]? with
  | none =>
    have : l[k]? = none := by
      rw [List.getElem?_eq_none_iff] at hx ⊢
      omega
    rw [this, readdress, List.getElem?_zipWith, hx]
    rfl
  | some x =>
    have hlt : k < l.length := hl ▸ (List.getElem?_eq_some_iff.1 hx).1
    have hn : l[k]? = some l[k] := List.getElem?_eq_getElem hlt
    obtain ⟨g1, g2, g3, g4, -, -⟩ := h3 k _ _ (withStates_get f hx) hn
    rw [readdress, List.getElem?_zipWith, hx, hn]
    simp only [Option.map_some, Option.some.injEq] at g1 g2 g3 g4 ⊢
    generalize l[k] = n at *
    cases n
    simp_all

/-! ## Loading -/

variable {w : PatchVars}

theorem bitStates_bools (st : Aut ℤ (BState w.ne w.ns)) :
    bitStates w.ne w.ns (withStates (fun s => (written01 (stBits s)).map some) st) = .ok st := by
  induction st with
  | nil => rfl
  | cons x st ih =>
    have : withStates (fun s => (written01 (stBits s)).map some) (x :: st) =
        ⟨x.id, (written01 (stBits x.state)).map some, x.mode, x.rgrad, x.initial, x.trans⟩ ::
          withStates (fun s => (written01 (stBits s)).map some) st := rfl
    rw [this, bitStates]
    simp only [bitList_bools, ih, asState_bits]

/-- Loading the text of a strategy of a specification without integer variables. -/
theorem load_written (hw : w.AllBool) {st : Aut ℤ (BState w.ne w.ns)} (hne : st ≠ []) (hpos : 0 < w.ne + w.ns)
    (hg : GoodAut (w.ne + w.ns) (withStates (fun s => written01 (stBits s)) st))
    (hlen : ∀ i n, (withStates (fun s => written01 (stBits s)) st)[i]? = some n →
      (nodeText 1 (withStates (fun s => written01 (stBits s)) st) i n).length < 4095) (b : Bool) :
    ∃ st', Moved st st' ∧ loadStrategy w b (dumpVer (withStates (fun s => written01 (stBits s)) st) 1).2 = .ok st' := by
  obtain ⟨l, -, h2, h3⟩ := dump_load (Or.inr rfl) hpos hg (by unfold withStates; simpa using hne) hlen
  refine ⟨readdress st l, same_moved h3 ?_ ?_, ?_⟩
  · have := hg.nodup
    simpa [withStates, Function.comp_def] using this
  · intro x hx j hj
    obtain ⟨y, hy, hid⟩ := hg.closed ⟨x.id, written01 (stBits x.state), x.mode, x.rgrad, x.initial, x.trans⟩
      (by unfold withStates; exact List.mem_map.2 ⟨x, hx, rfl⟩) j hj
    unfold withStates at hy
    obtain ⟨z, hz, rfl⟩ := List.mem_map.1 hy
    exact ⟨z, hz, hid⟩
  · unfold loadStrategy
    rw [hw.oe, hw.os, h2]
    simp only [same_readdress h3]
    rw [if_pos hw.only]
    have : (withStates (fun s => written01 (stBits s)) (readdress st l)).map
        (fun x => (⟨x.id, x.state.map some, x.mode, x.rgrad, x.initial, x.trans⟩ : ANode ℤ (List (Option ℤ)))) =
        withStates (fun s => (written01 (stBits s)).map some) (readdress st l) := by
      unfold withStates
      rw [List.map_map]
      rfl
    rw [this, bitStates_bools]

/-- Loading the text of a strategy of a specification with integer variables. -/
theorem load_written_int {evars svars : Decls} (hp : PfxFree (evars ++ svars)) (hi : IntDecls (evars ++ svars))
    (hint : ∃ d ∈ evars ++ svars, 0 ≤ d.2) {st : Aut ℤ (BState (declVars evars svars).ne (declVars evars svars).ns)} (hne : st ≠ [])
    (hg : GoodAut (evars.length + svars.length) (withStates (fun s => bitValues evars svars (stBits s)) st))
    (hlen : ∀ i n, (withStates (fun s => bitValues evars svars (stBits s)) st)[i]? = some n →
      (nodeText 1 (withStates (fun s => bitValues evars svars (stBits s)) st) i n).length < 4095) (b : Bool) :
    ∃ st', Moved st st' ∧
      loadStrategy (declVars evars svars) b (dumpVer (withStates (fun s => bitValues evars svars (stBits s)) st) 1).2 = .ok st' := by
  have hpos : 1 ≤ evars.length + svars.length := by
    obtain ⟨d, hd, -⟩ := hint
    have := List.length_pos_of_mem hd
    rwa [List.length_append] at this
  obtain ⟨l, -, h2, h3⟩ := dump_load (Or.inr rfl) hpos hg (by unfold withStates; simpa using hne) hlen
  have hmv : Moved st (readdress st l) := by
    refine same_moved h3 ?_ ?_
    · have := hg.nodup
      simpa [withStates, Function.comp_def] using this
    · intro x hx j hj
      obtain ⟨y, hy, hid⟩ := hg.closed ⟨x.id, bitValues evars svars (stBits x.state), x.mode, x.rgrad, x.initial, x.trans⟩
        (by unfold withStates; exact List.mem_map.2 ⟨x, hx, rfl⟩) j hj
      unfold withStates at hy
      obtain ⟨z, hz, rfl⟩ := List.mem_map.1 hy
      exact ⟨z, hz, hid⟩
  refine ⟨readdress st l, hmv, ?_⟩
  have hintv : intVars (evars ++ svars) ≠ [] := by
    obtain ⟨d, hd, h0⟩ := hint
    exact List.ne_nil_of_mem (List.mem_filter.2 ⟨hd, by simpa using h0⟩)
  have hne' : withStates (fun s => bitValues evars svars (stBits s)) (readdress st l) ≠ [] := by
    intro hc
    have := congrArg List.length hc
    unfold withStates at this
    rw [List.length_map, hmv.length] at this
    exact hne (List.length_eq_zero_iff.1 this)
  have hx := expand_states hp hi (withStates (fun s => bitValues evars svars (stBits s)) (readdress st l)) hne' hintv (by
    intro x hx
    unfold withStates at hx
    obtain ⟨y, -, rfl⟩ := List.mem_map.1 hx
    rw [List.length_append]
    exact bitValues_length _)
  have hbits : withStates (fun v => (encList (evars ++ svars) v).map some)
      (withStates (fun s => bitValues evars svars (stBits s)) (readdress st l)) =
        withStates (fun s => (written01 (stBits s)).map some) (readdress st l) := by
    unfold withStates
    rw [List.map_map]
    refine List.map_congr_left fun x _ => ?_
    simp only [Function.comp, bitValues]
    rw [enc_dec _ _ hi (by rw [written01_length, stBits_length, declVars_width]) (written01_01 _)]
  unfold loadStrategy
  rw [show (((declVars evars svars).oe + (declVars evars svars).os : ℕ) : ℤ) = ((evars.length + svars.length : ℕ) : ℤ) from rfl, h2]
  simp only [same_readdress h3]
  rw [if_neg (by rw [declVars_boolOnly hint]; decide)]
  rw [show (declVars evars svars).ev = expDecls evars from rfl, show (declVars evars svars).sv = expDecls svars from rfl,
    show (declVars evars svars).nonbool = intVars (evars ++ svars) from rfl, hx]
  simp only
  rw [hbits]
  exact bitStates_bools (w := declVars evars svars) (readdress st l)

end Gr1c
