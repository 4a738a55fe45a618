import Verif.CompactLemmas

/-!
# C31, C32: conversion of automata between bits and integer values
-/

namespace Gr1c

set_option synthInstance.maxSize 1000

variable {evars svars : Decls} {M : Type}

/-- The automaton with every state replaced. -/
def withStates {V W : Type} (f : V → W) (a : Aut M V) : Aut M W :=
  a.map fun x => ⟨x.id, f x.state, x.mode, x.rgrad, x.initial, x.trans⟩

/-- **C32 (partial).** For declarations in which no name of an integer variable is a prefix of another
name, `get_offsets_list`, applied to the expanded lists and the list returned by
`expand_nonbool_variables`, gives for each integer variable the index of its first bit and its number of
bits. Missing: for other declarations it is false, see `offsets_wrong`. -/
theorem get_offsets_partial (hp : PfxFree (evars ++ svars)) :
    getOffsetsList (expDecls evars) (expDecls svars) (intVars (evars ++ svars)) =
      some (layoutFrom 0 (evars ++ svars)) :=
  getOffsets_eq hp (evars ++ svars) [] rfl

/-- **C32 is false in general.** With the declarations `x [0,1]` and `xy` (Boolean) the variable x is
said to have two bits; with `xy` before `x [0,1]` it is said to start at the bit of xy. -/
theorem offsets_wrong :
    getOffsetsList (expDecls [(['x'], 1), (['x', 'y'], -1)]) [] [(['x'], 1)] = some [(0, 2)] ∧
    layoutFrom 0 [(['x'], 1), (['x', 'y'], -1)] = [(0, 1)] ∧
    getOffsetsList (expDecls [(['x', 'y'], -1), (['a'], -1), (['x'], 1)]) [] [(['x'], 1)] = some [(0, 1)] ∧
    layoutFrom 0 [(['x', 'y'], -1), (['a'], -1), (['x'], 1)] = [(2, 1)] := by decide +kernel

/-- **C31, values to bits.** `aut_expand_bool` replaces every state (values of the declared variables)
by the bits of its values, for any values. -/
theorem expand_states (hp : PfxFree (evars ++ svars)) (hi : IntDecls (evars ++ svars))
    (a : Aut M (List ℤ)) (hne : a ≠ []) (hint : intVars (evars ++ svars) ≠ [])
    (hl : ∀ x ∈ a, x.state.length = (evars ++ svars).length) :
    autExpandBool a (expDecls evars) (expDecls svars) (intVars (evars ++ svars)) =
      .ok (withStates (fun st => (encList (evars ++ svars) st).map some) a) := by
  classical
  unfold autExpandBool
  have hds : evars ++ svars ≠ [] := by
    intro h; rw [h] at hint; exact hint rfl
  rw [if_neg hne, if_neg hint, get_offsets_partial hp]
  simp only
  refine mapStates_ok _ (fun st => (encList (evars ++ svars) st).map some) a ?_
  intro x hx
  rw [expDecls_length, expDecls_length, ← totalWidth_append]
  exact expandNonboolState_eq _ _ hds (hl x hx) hi

/-- **C31, bits to values.** Compacting all integer variables replaces every state of bits by the values
its bits encode, and gives back the declared variable lists. -/
theorem compact_states (hp : PfxFree (evars ++ svars)) (hi : IntDecls (evars ++ svars))
    (a : Aut M (List ℤ))
    (hl : ∀ x ∈ a, x.state.length = totalWidth (evars ++ svars) ∧ Is01 x.state) :
    compactAll a (expDecls evars) (expDecls svars) (intVars (evars ++ svars)) =
      .ok (withStates (decList (evars ++ svars)) a, evars, svars) := by
  have h := compactAll_eq hp hi a hl (evars ++ svars) [] rfl (expDecls evars) (expDecls svars)
    (Or.inl ⟨evars, rfl, rfl, rfl⟩)
  have e1 : (a.map fun x => (⟨x.id, midState [] (evars ++ svars) x.state, x.mode, x.rgrad, x.initial, x.trans⟩ : ANode M (List ℤ))) = a := by
    conv_rhs => rw [← List.map_id a]
    apply List.map_congr_left
    intro x _
    simp [midState, decList, totalWidth]
  have e2 : (a.map fun x => (⟨x.id, midState ([] ++ (evars ++ svars)) [] x.state, x.mode, x.rgrad, x.initial, x.trans⟩ : ANode M (List ℤ)))
      = withStates (decList (evars ++ svars)) a := by
    unfold withStates
    apply List.map_congr_left
    intro x hx
    have := (hl x hx).1
    unfold midState
    rw [List.nil_append, List.drop_of_length_le (by omega), List.append_nil]
  rw [e1, e2] at h
  exact h

/-- **C31.** `aut_expand_bool` after compaction gives back the bit-level states. -/
theorem expand_compact (hp : PfxFree (evars ++ svars)) (hi : IntDecls (evars ++ svars))
    (a : Aut M (List ℤ)) (hne : a ≠ []) (hint : intVars (evars ++ svars) ≠ [])
    (hl : ∀ x ∈ a, x.state.length = totalWidth (evars ++ svars) ∧ Is01 x.state) :
    ∃ b, compactAll a (expDecls evars) (expDecls svars) (intVars (evars ++ svars)) = .ok (b, evars, svars) ∧
      autExpandBool b (expDecls evars) (expDecls svars) (intVars (evars ++ svars)) =
        .ok (withStates (List.map some) a) := by
  refine ⟨_, compact_states hp hi a hl, ?_⟩
  rw [expand_states hp hi _ (by unfold withStates; simpa using hne) hint]
  · unfold withStates
    rw [List.map_map]
    congr 1
    apply List.map_congr_left
    intro x hx
    simp only [Function.comp]
    rw [enc_dec _ _ hi (hl x hx).1 (hl x hx).2]
  · intro x hx
    unfold withStates at hx
    obtain ⟨y, -, rfl⟩ := List.mem_map.1 hx
    exact decList_length _ _

/-- **C31.** Compaction after expansion gives back the values, if they fit (all values of the declared
domains do, `expand_width`) and the Booleans are 0 or 1. -/
theorem compact_expand (hp : PfxFree (evars ++ svars)) (hi : IntDecls (evars ++ svars))
    (a : Aut M (List ℤ)) (hne : a ≠ []) (hint : intVars (evars ++ svars) ≠ [])
    (hr : ∀ x ∈ a, InRange (evars ++ svars) x.state ∧
      List.Forall₂ (fun d v => d.2 < 0 → v = 0 ∨ v = 1) (evars ++ svars) x.state) :
    ∃ b, autExpandBool a (expDecls evars) (expDecls svars) (intVars (evars ++ svars)) =
        .ok (withStates (List.map some) b) ∧
      compactAll b (expDecls evars) (expDecls svars) (intVars (evars ++ svars)) = .ok (a, evars, svars) := by
  have hlen : ∀ x ∈ a, x.state.length = (evars ++ svars).length := fun x hx => (hr x hx).1.length_eq.symm
  refine ⟨withStates (encList (evars ++ svars)) a, ?_, ?_⟩
  · rw [expand_states hp hi a hne hint hlen]
    unfold withStates
    rw [List.map_map]
    rfl
  · rw [compact_states hp hi]
    · congr 2
      unfold withStates
      rw [List.map_map]
      conv_rhs => rw [← List.map_id a]
      apply List.map_congr_left
      intro x hx
      simp only [Function.comp, dec_enc _ _ (hr x hx).1]
      rfl
    · intro x hx
      unfold withStates at hx
      obtain ⟨y, hy, rfl⟩ := List.mem_map.1 hx
      exact ⟨encList_length _ _ (hlen y hy), enc_01 _ _ (hlen y hy) (hr y hy).2⟩

/-! ## Examples -/

namespace CmpEx

def ev : Decls := [(['x'], 5), (['a'], -1)]
def sv : Decls := [(['b'], -1), (['y'], 0), (['z'], 1)]

def a : Aut ℕ (List ℤ) := [⟨7, [1, 0, 1, 1, 0, 1, 1], 0, 3, true, [7, 8]⟩, ⟨8, [0, 1, 0, 0, 1, 0, 1], 1, 2, false, [7]⟩]

theorem pfx : PfxFree (ev ++ sv) := by
  refine ⟨?_, by decide⟩
  have key : ∀ i : Fin (ev ++ sv).length, 0 ≤ ((ev ++ sv)[i]).2 →
      ∀ d' ∈ (ev ++ sv).take i ++ (ev ++ sv).drop (i + 1), ¬ ((ev ++ sv)[i]).1 <+: d'.1 ∧
        ∀ v ∈ expDecls [d'], ¬ ((ev ++ sv)[i]).1 <+: v.1 := by decide +kernel
  intro A d B he h0
  have hi : A.length < (ev ++ sv).length := by rw [he]; simp
  have h := key ⟨A.length, hi⟩
  have hd : (ev ++ sv)[A.length] = d := by simp [he]
  simp only [Fin.getElem_fin, hd] at h
  have h2 := h h0
  rw [he] at h2
  simpa using h2

example : IntDecls (ev ++ sv) := by unfold IntDecls; decide
example : getOffsetsList (expDecls ev) (expDecls sv) (intVars (ev ++ sv)) = some [(0, 3), (5, 1), (6, 1)] := by
  decide +kernel
-- x = 5, a = 1, b = 0, y = 1 (only possible for unreachable states), z = 1
example : (compactAll a (expDecls ev) (expDecls sv) (intVars (ev ++ sv))) =
    .ok ([⟨7, [5, 1, 0, 1, 1], 0, 3, true, [7, 8]⟩, ⟨8, [2, 0, 1, 0, 1], 1, 2, false, [7]⟩], ev, sv) := by
  decide +kernel
example : autExpandBool ([⟨7, [5, 1, 0, 1, 1], 0, 3, true, [7, 8]⟩] : Aut ℕ (List ℤ)) (expDecls ev) (expDecls sv)
    (intVars (ev ++ sv)) = .ok [⟨7, [some 1, some 0, some 1, some 1, some 0, some 1, some 1], 0, 3, true, [7, 8]⟩] := by
  rw [expand_states pfx (by unfold IntDecls; decide) _ (by simp) (by decide) (by decide)]
  decide +kernel

end CmpEx

/-- **C31 is false without the condition on names.** Declarations `x [0,1]` and Boolean `xy`: compaction
of x swallows xy, so the automaton loses the variable. -/
theorem compact_swallows :
    compactAll ([⟨0, [1, 1], 0, 0, true, []⟩] : Aut ℕ (List ℤ)) (expDecls [(['x'], 1), (['x', 'y'], -1)]) []
      [(['x'], 1)] = .ok ([⟨0, [3], 0, 0, true, []⟩], [(['x'], 1)], []) ∧
    decList [(['x'], 1), (['x', 'y'], -1)] [1, 1] = [1, 1] := by decide +kernel

end Gr1c
