import Verif.PatchEdges
import Verif.PatchMainEx

/-!
# Concrete cases for `gr1c-patch -e`
-/

namespace Gr1c

namespace EdgEx

open PgEx (world world_sane fspc faut view view_exit)

/-- `SYS: a b; SYSTRANS: [](a' <-> b) & [](a -> !b') & []((!a & !b) -> b'); SYSGOAL: []<>(!a & !b);`: from 00 to 01, from there to 10 or
to 11, from 11 to 10, from 10 to 00. -/
def d : FileData :=
  ⟨[], [(['a'], -1), (['b'], -1)], ⟨none, none, [], [.equiv (.var true ['a']) (.var false ['b']),
    .imp (.var false ['a']) (.neg (.var true ['b'])), .imp (.and (.neg (.var false ['a'])) (.neg (.var false ['b']))) (.var true ['b'])], [],
    [.and (.neg (.var false ['a'])) (.neg (.var false ['b']))]⟩⟩

def spec : List Char := lines
  ((.svars :: [(['a'], (-1 : ℤ)), (['b'], -1)].flatMap declToks) ++ .chr ';' ::
    ((.strans :: .safe :: ((Fm.equiv (.var true ['a']) (.var false ['b'])).toks ++
      .andSafe :: ((Fm.imp (.var false ['a']) (.neg (.var true ['b']))).toks ++
      .andSafe :: ((Fm.imp (.and (.neg (.var false ['a'])) (.neg (.var false ['b']))) (.var true ['b'])).toks ++ [])))) ++ .chr ';' ::
    ((.sgoal :: .live :: ((Fm.and (.neg (.var false ['a'])) (.neg (.var false ['b']))).toks ++ [])) ++ .chr ';' :: [])))

theorem spec_says : FileSays spec d := by
  have ha : Writable (.ident ['a']) := by decide
  have hb : Writable (.ident ['b']) := by decide
  exact MainEx.fileSays_lines (.cons (.vars false [(['a'], -1), (['b'], -1)] (by unfold GoodDecls; decide +kernel))
    (.cons (.trans1 false (FileEx.gram true _ ⟨⟨ha, by simp⟩, hb, by simp⟩ (by decide))
      (.cons (FileEx.gram true _ ⟨⟨ha, by simp⟩, hb, by simp⟩ (by decide))
      (.cons (FileEx.gram true _ ⟨⟨⟨ha, by simp⟩, hb, by simp⟩, hb, by simp⟩ (by decide)) .nil)))
    (.cons (.goal1 false (Or.inr rfl) (FileEx.gram false _ ⟨⟨ha, by simp⟩, hb, by simp⟩ (by decide)) .nil) .nil)))
    (by decide +kernel) rfl

theorem good : GoodSpec d .undefined := by
  refine ⟨⟨by decide +kernel, by decide +kernel⟩, ?_, ?_, by unfold NoNe0; decide +kernel⟩
  · constructor <;> unfold Typed <;> decide +kernel
  · by_contra h
    have := (check_form_exact d.evars d.svars .undefined d.sp).2 h
    revert this
    decide +kernel

theorem patchSpec : PatchSpec d := by
  refine ⟨good, ⟨?_, by decide⟩, by unfold IntDecls; decide, Or.inr (by decide)⟩
  intro A x B he h0
  have : ∀ y ∈ d.evars ++ d.svars, y.2 < 0 := by decide
  have := this x (by rw [he]; simp)
  omega

def pt (a b : ℕ) : IState d.evars d.svars := (PmlEx.vals _ [], PmlEx.vals _ [a, b])

/-- The strategy: 00, 01, 10. -/
def st : Aut ℤ (IState d.evars d.svars) :=
  [⟨0, pt 0 0, 0, 1, true, [1]⟩, ⟨1, pt 0 1, 0, 3, false, [2]⟩, ⟨2, pt 1 0, 0, 2, false, [0]⟩]

def aut : List Char := "1\n0 0 0 1 0 1 1\n1 0 1 0 0 3 2\n2 1 0 0 0 2 0\n".toList

theorem next_id : ∀ x ∈ st, ∀ y ∈ st, y.id ∈ x.trans → y.id = (x.id + 1) % 3 := by decide +kernel

set_option synthInstance.maxSize 2000 in
set_option synthInstance.maxHeartbeats 100000 in
theorem seeks : SeeksInOrder (intGame d.evars d.svars d.sp) (withDefaultGoal (d.sp.egoals.map fmStates)).get
    ((sysGoals d.sp).map fmStates).get st := by
  refine ⟨by decide +kernel, by decide +kernel, ?_, by unfold LegalEdges; decide +kernel, ?_, ?_⟩
  · decide +kernel
  · have key : ∀ x ∈ st, ∀ y ∈ st, y.id ∈ x.trans → ∃ i j : Fin ((sysGoals d.sp).map (fmStates (evars := d.evars) (svars := d.svars))).length,
        x.mode = (i.val : ℤ) ∧ y.mode = (j.val : ℤ) ∧ ∃ k : Fin 2, (nextIx^[k.val]) i = j ∧ ∀ c : Fin 2, c < k →
          y.state ∈ ((sysGoals d.sp).map fmStates).get ((nextIx^[c.val]) i) := by decide +kernel
    intro x hx y hy hxy
    obtain ⟨i, j, h1, h2, k, h3, h4⟩ := key x hx y hy hxy
    exact ⟨i, j, h1, h2, k.val, h3, fun c hc => h4 ⟨c, by omega⟩ hc⟩
  · intro ρ hρ _ i n
    have key : ∀ i : Fin ((sysGoals d.sp).map fmStates).length, ∀ x ∈ st, x.id = 0 → x.state ∈ ((sysGoals d.sp).map fmStates).get i := by
      decide +kernel
    have hs : ∀ k, (ρ (k + 1)).id = ((ρ k).id + 1) % 3 := fun k => next_id _ (hρ k).1 _ (hρ (k + 1)).1 (hρ k).2
    have h1 := hs n
    have h2 := hs (n + 1)
    have h3 := hs (n + 2)
    rw [show n + 1 + 1 = n + 2 from rfl] at h2
    rw [show n + 2 + 1 = n + 3 from rfl] at h3
    have : (ρ (n + 1)).id = 0 ∨ (ρ (n + 2)).id = 0 ∨ (ρ (n + 3)).id = 0 := by omega
    rcases this with h | h | h
    · exact ⟨_, by omega, key i _ (hρ _).1 h⟩
    · exact ⟨_, by omega, key i _ (hρ _).1 h⟩
    · exact ⟨_, by omega, key i _ (hρ _).1 h⟩

theorem given : GivenStrategy d st aut := by
  refine ⟨by unfold st; simp, seeks, by decide +kernel, ?_⟩
  refine ⟨by decide +kernel, by unfold IsInt; decide +kernel, ?_⟩
  intro i n hi
  have key : ∀ i : Fin (withStates stateValues st).length,
      (nodeText 1 (withStates stateValues st) i.val ((withStates stateValues st).get i)).length < 4095 := by decide +kernel
  obtain ⟨h1, h2⟩ := List.getElem?_eq_some_iff.1 hi
  have := key ⟨i, h1⟩
  rw [← h2]
  exact this

/-- The change file: the edge from 01 to 10 is removed, the neighbourhood is 01, 10, 11. -/
def changes : List Char :=
  "# no short cut\n".toList ++ ("0 1\n".toList ++ ("1 0\n".toList ++ ("1 1\n".toList ++ ("restrict 0 1 1 0\n".toList ++ []))))

def N : List (IState d.evars d.svars) := [pt 0 1, pt 1 0, pt 1 1]

def cs : List (Change (DVal d.evars) (DVal d.svars)) := [.restrictSys (pt 0 1) (pt 1 0)]

theorem number2 (a b : ℤ) (line s : List Char) (h : line = printInt a ++ [b].flatMap sp ++ ['\n']) (hl : line.length < 1024) :
    NumberLine [a, b] line s :=
  ⟨hl, _, ['\n'], row_print a [b], Or.inl (Or.inl rfl), h⟩

theorem changes_say : ChangesSay N cs changes := by
  have e1 : N.map stateValues = [[0, 1], [1, 0], [1, 1]] := by decide +kernel
  have e2 : cs.map changeValues = [("restrict".toList, [0, 1, 1, 0])] := by decide +kernel
  unfold ChangesSay
  rw [e1, e2]
  refine .skip _ _ _ _ ⟨by decide, Or.inr ⟨" no short cut".toList, ['\n'], by decide, Or.inl (Or.inl rfl), by decide⟩⟩ ?_
  refine .state _ _ _ _ _ (number2 0 1 _ _ (by decide +kernel) (by decide)) ?_
  refine .state _ _ _ _ _ (number2 1 0 _ _ (by decide +kernel) (by decide)) ?_
  refine .state _ _ _ _ _ (number2 1 1 _ _ (by decide +kernel) (by decide)) ?_
  refine .cmds _ _ (.cmd _ _ _ _ _ (Or.inl rfl) ?_ .nil)
  exact ⟨by decide, _, ['\n'], row_print 0 [1, 1, 0], Or.inl (Or.inl rfl), by decide +kernel⟩

def fchg : Arg := "c.edc".toList
def args : List Arg := ["-a".toList, faut, "-e".toList, fchg, fspc]
def opts : List PgItem := [.aut faut, .edges fchg]

theorem called : PgCalled (world spec aut changes) args opts (some fspc) d aut :=
  ⟨⟨["-a".toList, faut, "-e".toList, fchg], [fspc], .cons (w := ["-a".toList, faut]) (.aut _)
      (.cons (w := ["-e".toList, fchg]) (.edges _) .nil), .file _ (by decide), rfl⟩,
    by decide +kernel, ⟨_, List.mem_cons_of_mem _ List.mem_cons_self, rfl⟩, Or.inr (by decide +kernel), ⟨spec, Or.inl ⟨_, rfl, rfl⟩, spec_says⟩,
    faut, by decide +kernel, Or.inr ⟨by decide, rfl⟩, fun h => by cases h⟩

theorem edges_view : view (patchMain (world spec aut changes) args) =
    [[0], [0, 1, 0, 2, 6, 0, 0], [2, 0, 0, 4, 0, 1, 0], [14, 0, 0, 5, 2, 1, 1], [6, 0, 0, 6, 14, 0, 1]] := by
  decide +kernel

/-- `gr1c-patch -a a.aut -e c.edc s.spc`: all hypotheses of `patch_changes_edges_partial`; a strategy for the changed game is written
(the way from 01 to 10 is now by 11), it answers all moves, and the node outside of the neighbourhood stays. -/
example : ∃ R, R ≠ [] ∧ EdgesPatched (cs.foldl applyChange (intGame d.evars d.svars d.sp)) (d.sp.egoals.map fmStates)
    ((sysGoals d.sp).map fmStates) N cs st R ∧ (∀ x ∈ R, Answered (cs.foldl applyChange (intGame d.evars d.svars d.sp)) R x) ∧
    (∃ y ∈ R, y.state = pt 0 0 ∧ y.initial = true) ∧
    patchMain (world spec aut changes) args = .exit 0 (some ⟨none, .json, d.evars, d.svars, withStates stateValues R⟩) := by
  have hA : AnswersAll (intGame d.evars d.svars d.sp) st := by
    have key : ∀ x ∈ st, ∀ e, (intGame d.evars d.svars d.sp).etr x.state e = true →
        ∃ y ∈ st, (y.id ∈ x.trans ∧ y.state.1 = e) ∧ ∀ z ∈ st, z.id ∈ x.trans ∧ z.state.1 = e → z = y := by decide +kernel
    intro x hx e he
    obtain ⟨y, y1, y2, y3⟩ := key x hx e he
    exact ⟨y, ⟨y1, y2⟩, fun z hz => y3 z hz.1 hz.2⟩
  have hN : Annotated ((sysGoals d.sp).map fmStates).get st := ⟨by decide +kernel, by decide +kernel, by decide +kernel⟩
  have hW : NoWrap ((sysGoals d.sp).map fmStates).get N cs st := by
    have h : ∀ x ∈ st, ∀ y ∈ st, y.id ∈ x.trans → y.mode = x.mode → x.state ∈ N → y.state ∈ N →
        ∃ i : Fin ((sysGoals d.sp).map (fmStates (evars := d.evars) (svars := d.svars))).length, x.state ∉ ((sysGoals d.sp).map fmStates).get i := by
      decide +kernel
    exact fun x hx y hy h1 h2 _ h3 h4 => h x hx y hy h1 h2 h3 h4
  have hX : NoCross N cs st := by
    have h : ∀ x ∈ st, ∀ y ∈ st, y.mode = x.mode := by decide +kernel
    exact fun x hx y hy _ h1 => absurd (h x hx y hy) h1
  have hE : ∀ s, ∃ e, (cs.foldl applyChange (intGame d.evars d.svars d.sp)).etr s e = true := by
    intro s
    exact ⟨s.1, rfl⟩
  obtain ⟨o, ho⟩ := view_exit edges_view
  rcases patch_changes_edges_partial called patchSpec (world_sane _ _ _) (by decide) (by decide) given hA hN (x := fchg) (by decide +kernel)
    (changes := changes) rfl changes_say (Or.inr (by decide)) hW (changedByAll_foldl _ cs) with ⟨R, h1, h2, -, h4⟩ | h | h | h
  · refine ⟨R, h1, h2, h2.answers hX hE, ?_, h4⟩
    obtain ⟨y, y1, y2, -, y3⟩ := h2.keeps hX hE ⟨0, pt 0 0, 0, 1, true, [1]⟩ (by unfold st; simp)
      (Or.inl (by have : pt 0 0 ∉ N := by decide +kernel
                  exact this))
    exact ⟨y, y1, y2, y3⟩
  · exact MainRes.noConfusion (ho.symm.trans h) (fun h _ => absurd h (by decide))
  · cases ho.symm.trans h
  · cases ho.symm.trans h

/-! ### An integer variable of the environment -/

/-- `ENV: x [0,1]; SYS: a;` -/
def di : FileData := ⟨[(['x'], 1)], [(['a'], -1)], ⟨none, none, [], [], [], []⟩⟩

def speci : List Char := lines
  ((.evars :: [(['x'], (1 : ℤ))].flatMap declToks) ++ .chr ';' :: ((.svars :: [(['a'], (-1 : ℤ))].flatMap declToks) ++ .chr ';' :: []))

theorem speci_says : FileSays speci di :=
  MainEx.fileSays_lines (.cons (.vars true [(['x'], 1)] (by unfold GoodDecls; decide +kernel))
    (.cons (.vars false [(['a'], -1)] (by unfold GoodDecls; decide +kernel)) .nil)) (by decide +kernel) rfl

theorem goodi : GoodSpec di .undefined := by
  refine ⟨⟨by decide +kernel, by decide +kernel⟩, ?_, ?_, by unfold NoNe0; decide +kernel⟩
  · constructor <;> unfold Typed <;> decide +kernel
  · by_contra h
    have := (check_form_exact di.evars di.svars .undefined di.sp).2 h
    revert this
    decide +kernel

theorem patchSpeci : PatchSpec di := by
  refine ⟨goodi, ⟨?_, by decide⟩, by unfold IntDecls; decide, Or.inl (by decide)⟩
  intro A x B he h0 y hy
  have e : A ++ x :: B = [(['x'], 1), (['a'], -1)] := he.symm
  cases A with
  | nil =>
    simp only [List.nil_append, List.cons.injEq] at e
    obtain ⟨rfl, rfl⟩ := e
    simp at hy
    subst hy
    decide
  | cons u A =>
    simp only [List.cons_append, List.cons.injEq] at e
    cases A with
    | nil =>
      simp only [List.nil_append, List.cons.injEq] at e
      obtain ⟨rfl, rfl, rfl⟩ := e
      exact absurd h0 (by decide)
    | cons v A => simp at e

def sti : Aut ℤ (IState di.evars di.svars) :=
  [⟨0, (PmlEx.vals _ [0], PmlEx.vals _ [0]), 0, 1, true, [0, 1]⟩, ⟨1, (PmlEx.vals _ [1], PmlEx.vals _ [0]), 0, 1, true, [0, 1]⟩]

def auti : List Char := "1\n0 0 0 1 0 1 0 1\n1 1 0 1 0 1 0 1\n".toList

set_option synthInstance.maxSize 2000 in
set_option synthInstance.maxHeartbeats 100000 in
theorem giveni : GivenStrategy di sti auti := by
  refine ⟨by unfold sti; simp, ?_, by decide +kernel, ?_⟩
  · refine ⟨by decide +kernel, by decide +kernel, ?_, by unfold LegalEdges; decide +kernel, ?_, ?_⟩
    · decide +kernel
    · have key : ∀ x ∈ sti, ∀ y ∈ sti, ∃ i j : Fin ((sysGoals di.sp).map (fmStates (evars := di.evars) (svars := di.svars))).length,
          x.mode = (i.val : ℤ) ∧ y.mode = (j.val : ℤ) ∧ i = j := by decide +kernel
      intro x hx y hy hxy
      obtain ⟨i, j, h1, h2, h3⟩ := key x hx y hy
      exact ⟨i, j, h1, h2, 0, h3, fun c hc => absurd hc (by omega)⟩
    · intro ρ hρ _ i n
      have key : ∀ i : Fin ((sysGoals di.sp).map fmStates).length, ∀ x ∈ sti, x.state ∈ ((sysGoals di.sp).map fmStates).get i := by
        decide +kernel
      exact ⟨n, le_rfl, key i _ (hρ n).1⟩
  · refine ⟨by decide +kernel, by unfold IsInt; decide +kernel, ?_⟩
    intro i n hi
    have key : ∀ i : Fin (withStates stateValues sti).length,
        (nodeText 1 (withStates stateValues sti) i.val ((withStates stateValues sti).get i)).length < 4095 := by decide +kernel
    obtain ⟨h1, h2⟩ := List.getElem?_eq_some_iff.1 hi
    have := key ⟨i, h1⟩
    rw [← h2]
    exact this

theorem calledi : PgCalled (world speci auti []) args opts (some fspc) di auti :=
  ⟨⟨["-a".toList, faut, "-e".toList, fchg], [fspc], .cons (w := ["-a".toList, faut]) (.aut _)
      (.cons (w := ["-e".toList, fchg]) (.edges _) .nil), .file _ (by decide), rfl⟩,
    by decide +kernel, ⟨_, List.mem_cons_of_mem _ List.mem_cons_self, rfl⟩, Or.inr (by decide +kernel), ⟨speci, Or.inl ⟨_, rfl, rfl⟩, speci_says⟩,
    faut, by decide +kernel, Or.inr ⟨by decide, rfl⟩, fun h => by cases h⟩

/-- All hypotheses of `patch_env_integers`, with an empty change file. -/
example : patchMain (world speci auti []) args = .ub :=
  patch_env_integers calledi patchSpeci ⟨_, List.mem_cons_self, by decide⟩ (by decide) giveni (x := fchg) (by decide +kernel)
    (by intro h; cases h)

end EdgEx
end Gr1c
