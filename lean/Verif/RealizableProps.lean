import Verif.WinProps
import Verif.Realizable

/-!
# C03: what a positive realizability verdict means
-/

namespace Gr1c

set_option linter.unusedSectionVars false

variable {E S : Type} [Fintype E] [DecidableEq E] [Fintype S] [DecidableEq S]

/-- A state from which the system has a winning strategy. -/
def Winnable (G : Game E S) (egs sgs : List (Finset (E × S))) (s : E × S) : Prop :=
  ∃ σ, WinsL G egs sgs σ s

/-- The documented condition for each interpretation of the initial formulas,
`/repo/doc/spc_format.md` 61-77. `einit`, `sinit` are predicates; `none` means an empty section. -/
def DocRealizable (G : Game E S) (egs sgs : List (Finset (E × S))) (flag : InitFlag)
    (einit sinit : Option (Finset (E × S))) : Prop :=
  let Ei (s : E × S) : Prop := ∀ A, einit = some A → s ∈ A
  let Si (s : E × S) : Prop := ∀ A, sinit = some A → s ∈ A
  match flag with
  | .allInit => ∀ s, Ei s → Si s → Winnable G egs sgs s
  | .allEnvExistSys => ∀ e, (∀ x, Ei (e, x)) → ∃ x, (∀ e', Si (e', x)) ∧ Winnable G egs sgs (e, x)
  | .oneSide =>
    match sinit with
    | none => ∀ s, Ei s → Winnable G egs sgs s
    | some A => ∃ s, s ∈ A ∧ Winnable G egs sgs s
  | .undefined => False

private theorem mem_initSet {f : Option (Finset (E × S))} {s : E × S} :
    s ∈ initSet f ↔ ∀ A, f = some A → s ∈ A := by
  unfold initSet
  cases f <;> simp

private theorem mem_existsSys {A : Finset (E × S)} {s : E × S} :
    s ∈ existsSys A ↔ ∃ x, (s.1, x) ∈ A := by simp [existsSys]

/-- The condition that the code decides. -/
def CodeRealizable (G : Game E S) (egs sgs : List (Finset (E × S))) (flag : InitFlag)
    (einit sinit : Option (Finset (E × S))) : Prop :=
  match flag with
  | .allInit => (∃ s, s ∈ initSet einit ∧ s ∈ initSet sinit) ∧
      ∀ s, s ∈ initSet einit → s ∈ initSet sinit → Winnable G egs sgs s
  | .allEnvExistSys => ∀ e, (∃ x, (e, x) ∈ initSet einit ∧ (e, x) ∈ initSet sinit) →
      ∃ x, (e, x) ∈ initSet einit ∧ (e, x) ∈ initSet sinit ∧ Winnable G egs sgs (e, x)
  | .oneSide => match sinit with
      | none => ∀ s, s ∈ initSet einit → Winnable G egs sgs s
      | some A => ∃ s, s ∈ A ∧ Winnable G egs sgs s
  | .undefined => False

/-- Exact meaning of the code for every input, also the ones where it departs from the
documentation: ALL_INIT additionally asks for at least one initial state, and
ALL_ENV_EXIST_SYS_INIT only looks at environment valuations that some system valuation completes
to a state satisfying both formulas. -/
theorem check_realizable_char (G : Game E S) (egs sgs : List (Finset (E × S))) (flag : InitFlag)
    (einit sinit : Option (Finset (E × S))) (r : Option (Finset (E × S)))
    (hr : checkRealizable G egs sgs flag einit sinit = some r) :
    (r ≠ none ↔ CodeRealizable G egs sgs flag einit sinit) ∧
    (∀ W, r = some W → ∀ s, s ∈ W ↔ Winnable G egs sgs s) := by
  unfold checkRealizable at hr
  cases hW : computeWinningSet G egs sgs with
  | none => rw [hW] at hr; simp at hr
  | some W =>
    rw [hW] at hr
    simp only [Option.map_some, Option.some.injEq] at hr
    have hmem : ∀ s, s ∈ W ↔ Winnable G egs sgs s := winning_set_exact G egs sgs W hW
    refine ⟨?_, ?_⟩
    · rw [← hr]
      cases flag with
      | undefined => simp [checkRealizableInternal, CodeRealizable]
      | allInit =>
        simp only [checkRealizableInternal, CodeRealizable]
        split
        · rename_i h
          simp only [ne_eq, not_true_eq_false, false_iff, not_and, not_forall]
          rintro ⟨s, h1, h2⟩
          rcases h with h | h
          · have : s ∈ initSet einit ∩ initSet sinit := Finset.mem_inter.2 ⟨h1, h2⟩
            rw [h] at this
            simp at this
          · by_contra hcon
            push Not at hcon
            apply h
            ext t
            simp only [Finset.mem_inter]
            constructor
            · intro ht; exact ⟨ht, (hmem t).2 (hcon t ht.1 ht.2)⟩
            · exact fun ht => ht.1
        · rename_i h
          push Not at h
          simp only [ne_eq, reduceCtorEq, not_false_eq_true, true_iff]
          obtain ⟨hne, heq⟩ := h
          refine ⟨?_, ?_⟩
          · obtain ⟨s, hs⟩ := Finset.nonempty_iff_ne_empty.2 (by simpa [Finset.nonempty_iff_ne_empty] using hne)
            exact ⟨s, Finset.mem_inter.1 hs⟩
          · intro s h1 h2
            have : s ∈ initSet einit ∩ initSet sinit := Finset.mem_inter.2 ⟨h1, h2⟩
            rw [heq] at this
            exact (hmem s).1 (Finset.mem_inter.1 this).2
      | allEnvExistSys =>
        simp only [checkRealizableInternal, CodeRealizable]
        split
        · rename_i h
          simp only [ne_eq, not_true_eq_false, false_iff]
          intro hcon
          apply h
          ext s
          rw [mem_existsSys, mem_existsSys]
          constructor
          · rintro ⟨x, hx⟩; exact ⟨x, (Finset.mem_inter.1 hx).1⟩
          · rintro ⟨x, hx⟩
            obtain ⟨h1, h2⟩ := Finset.mem_inter.1 hx
            obtain ⟨y, g1, g2, g3⟩ := hcon s.1 ⟨x, h2, h1⟩
            exact ⟨y, Finset.mem_inter.2 ⟨Finset.mem_inter.2 ⟨g2, g1⟩, (hmem _).2 g3⟩⟩
        · rename_i h
          push Not at h
          simp only [ne_eq, reduceCtorEq, not_false_eq_true, true_iff]
          rintro e ⟨x, h1, h2⟩
          have hin : (e, x) ∈ existsSys (initSet sinit ∩ initSet einit) :=
            mem_existsSys.2 ⟨x, Finset.mem_inter.2 ⟨h2, h1⟩⟩
          rw [← h] at hin
          obtain ⟨y, hy⟩ := mem_existsSys.1 hin
          obtain ⟨g1, g2⟩ := Finset.mem_inter.1 hy
          obtain ⟨g3, g4⟩ := Finset.mem_inter.1 g1
          exact ⟨y, g4, g3, (hmem _).1 g2⟩
      | oneSide =>
        cases sinit with
        | none =>
          simp only [checkRealizableInternal, CodeRealizable]
          split
          · rename_i h
            simp only [ne_eq, not_true_eq_false, false_iff]
            intro hcon
            apply h
            rw [Finset.inter_eq_left]
            exact fun s hs => (hmem s).2 (hcon s hs)
          · rename_i h
            push Not at h
            simp only [ne_eq, reduceCtorEq, not_false_eq_true, true_iff]
            intro s hs
            rw [← h] at hs
            exact (hmem s).1 (Finset.mem_inter.1 hs).2
        | some A =>
          simp only [checkRealizableInternal, CodeRealizable]
          split
          · rename_i h
            simp only [ne_eq, reduceCtorEq, not_false_eq_true, true_iff]
            obtain ⟨s, hs⟩ := Finset.nonempty_iff_ne_empty.2 h
            obtain ⟨h1, h2⟩ := Finset.mem_inter.1 hs
            exact ⟨s, h1, (hmem s).1 h2⟩
          · rename_i h
            simp only [ne_eq, not_true_eq_false, false_iff]
            rintro ⟨s, h1, h2⟩
            apply h
            exact Finset.nonempty_iff_ne_empty.1 ⟨s, Finset.mem_inter.2 ⟨h1, (hmem s).2 h2⟩⟩
    · intro W' hW' s
      have : W' = W := by
        rw [← hr] at hW'
        cases flag <;> simp only [checkRealizableInternal] at hW'
        · simp at hW'
        · split at hW' <;> simp_all
        · split at hW' <;> simp_all
        · cases sinit <;> simp only at hW' <;> split at hW' <;> simp_all
      rw [this]
      exact hmem s

/-- What the form check and the documentation ask of the initial formulas
(`/repo/doc/spc_format.md` 61-77), plus satisfiability. -/
def InitOk (flag : InitFlag) (einit sinit : Option (Finset (E × S))) : Prop :=
  match flag with
  | .allInit => ∃ s, s ∈ initSet einit ∧ s ∈ initSet sinit
  | .allEnvExistSys =>
    (∀ e x y, (e, x) ∈ initSet einit → (e, y) ∈ initSet einit) ∧
    (∀ e d x, (e, x) ∈ initSet sinit → (d, x) ∈ initSet sinit) ∧
    ∃ s, s ∈ initSet sinit
  | .oneSide => True
  | .undefined => True

/-- **C03, partial.** The verdict is the documented condition, provided the initial formulas are
satisfiable (ALL_INIT: jointly; ALL_ENV_EXIST_SYS_INIT: SYSINIT) and, for ALL_ENV_EXIST_SYS_INIT,
ENVINIT constrains only environment and SYSINIT only system variables (which `check_gr1c_form`
enforces). Missing from the full statement: unsatisfiable initial formulas, where the code departs
from the documentation, see `check_realizable_vacuous_all_init` and
`check_realizable_unsat_sysinit`. -/
theorem check_realizable_doc_partial (G : Game E S) (egs sgs : List (Finset (E × S)))
    (flag : InitFlag) (einit sinit : Option (Finset (E × S))) (r : Option (Finset (E × S)))
    (hok : InitOk flag einit sinit)
    (hr : checkRealizable G egs sgs flag einit sinit = some r) :
    r ≠ none ↔ DocRealizable G egs sgs flag einit sinit := by
  rw [(check_realizable_char G egs sgs flag einit sinit r hr).1]
  cases flag with
  | undefined => simp [DocRealizable, CodeRealizable]
  | allInit =>
    simp only [DocRealizable, CodeRealizable, ← mem_initSet]
    exact ⟨fun h => h.2, fun h => ⟨hok, h⟩⟩
  | allEnvExistSys =>
    obtain ⟨h1, h2, ⟨⟨d, z⟩, h3⟩⟩ := hok
    simp only [DocRealizable, CodeRealizable, ← mem_initSet]
    constructor
    · intro h e he
      obtain ⟨x, _, g2, g3⟩ := h e ⟨z, he z, h2 d e z h3⟩
      exact ⟨x, fun e' => h2 e e' x g2, g3⟩
    · rintro h e ⟨x, g1, _⟩
      obtain ⟨y, k1, k2⟩ := h e (fun y => h1 e x y g1)
      exact ⟨y, h1 e x y g1, k1 e, k2⟩
  | oneSide =>
    cases sinit <;> simp only [DocRealizable, CodeRealizable, ← mem_initSet]

/-! ## Examples, and the two departures -/

namespace Ex

example : checkRealizable G3 [] [grant] .allInit none (some grant) =
    some (some {(true, true), (false, true)}) := by decide +kernel
example : checkRealizable G3 [] [grant] .allInit none none = some none := by decide +kernel
example : checkRealizable G3 [] [grant] .allEnvExistSys none none =
    some (some {(true, true), (false, true)}) := by decide +kernel
example : InitOk .allInit (some req) (some grant) := ⟨(true, true), by decide⟩
example : InitOk .allEnvExistSys (some req) (some grant) :=
  ⟨by decide, by decide, (true, true), by decide⟩

end Ex

/-- Departure 1: with ALL_INIT and contradictory initial formulas the documented condition holds
vacuously, but the verdict is "unrealizable". -/
theorem check_realizable_vacuous_all_init :
    ∃ (G : Game Bool Bool) (egs sgs : List (Finset (Bool × Bool))) (ei si : Option (Finset (Bool × Bool))),
      checkRealizable G egs sgs .allInit ei si = some none ∧
      DocRealizable G egs sgs .allInit ei si := by
  refine ⟨Ex.G3, [], [Ex.grant], some Ex.req, some Ex.reqᶜ, by decide +kernel, ?_⟩
  intro s h1 h2
  have a := h1 _ rfl
  have b := h2 _ rfl
  exact absurd a (Finset.mem_compl.1 b)

/-- Departure 2: with ALL_ENV_EXIST_SYS_INIT and an unsatisfiable SYSINIT the verdict is
"realizable", although no initial state can be provided. -/
theorem check_realizable_unsat_sysinit :
    ∃ (G : Game Bool Bool) (egs sgs : List (Finset (Bool × Bool))) (ei si : Option (Finset (Bool × Bool))) (W : Finset (Bool × Bool)),
      checkRealizable G egs sgs .allEnvExistSys ei si = some (some W) ∧
      ¬ DocRealizable G egs sgs .allEnvExistSys ei si := by
  refine ⟨Ex.G3, [], [Ex.grant], none, some ∅, {(true, true), (false, true)}, by decide +kernel, ?_⟩
  intro h
  obtain ⟨x, hx, _⟩ := h true (by simp)
  have := hx true ∅ rfl
  simp at this

end Gr1c
