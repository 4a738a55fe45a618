import Verif.PatchMainProps

/-!
# Cases and witnesses for `gr1c-patch`
-/

namespace Gr1c
namespace PgEx

/-- All valuations. -/
def allVals : (n : ℕ) → List (Val n)
  | 0 => [fun i => i.elim0]
  | n + 1 => (allVals n).flatMap fun v => [Fin.cons false v, Fin.cons true v]

theorem mem_allVals : ∀ {n : ℕ} (v : Val n), v ∈ allVals n
  | 0, v => by simp only [allVals, List.mem_singleton]; exact funext fun i => i.elim0
  | n + 1, v => by
    rw [allVals, List.mem_flatMap]
    refine ⟨Fin.tail v, mem_allVals _, ?_⟩
    have h : v = Fin.cons (v 0) (Fin.tail v) := (Fin.cons_self_tail v).symm
    cases hv : v 0 <;> rw [hv] at h <;> simp [← h]

theorem allVals_nodup : ∀ n : ℕ, (allVals n).Nodup
  | 0 => by simp [allVals]
  | n + 1 => by
    rw [allVals, List.nodup_flatMap]
    constructor
    · intro v _
      simp only [List.nodup_cons, List.mem_singleton, List.not_mem_nil, not_false_iff, List.nodup_nil, and_true]
      intro h
      have := congrFun h 0
      simp at this
    · refine (allVals_nodup n).imp ?_
      intro v w hvw x hx hx'
      apply hvw
      simp only [List.mem_cons, List.not_mem_nil, or_false] at hx hx'
      have h1 : Fin.tail x = v := by rcases hx with rfl | rfl <;> simp
      have h2 : Fin.tail x = w := by rcases hx' with rfl | rfl <;> simp
      rw [← h1, h2]

def allStates (ne ns : ℕ) : List (BState ne ns) := (allVals ne).product (allVals ns)

/-- Choices in a fixed order; even addresses for the first substrategy, odd ones for the second. -/
def orc (k ne ns : ℕ) (G : Game (Val ne) (Val ns)) (l : List ℕ) : Oracle (Val ne) (Val ns) :=
  { stdOracle G (allStates ne ns) (allVals ne) (fun _ => false, fun _ => false) with
    alloc := fun _ ids => 2 * (ids.foldr max 0 + l.foldr max 0 + 1) + k }

theorem le_max (l : List ℕ) : ∀ i ∈ l, i ≤ l.foldr max 0 := by
  induction l with
  | nil => simp
  | cons a l ih =>
    intro i hi
    rw [List.foldr_cons]
    rcases List.mem_cons.1 hi with rfl | hi
    · exact Nat.le_max_left _ _
    · exact Nat.le_trans (ih i hi) (Nat.le_max_right _ _)

theorem orc_valid (k ne ns : ℕ) (G : Game (Val ne) (Val ns)) (l : List ℕ) : (orc k ne ns G l).Valid G := by
  have h := stdOracle_valid G (allStates ne ns) (allVals ne) (fun _ => false, fun _ => false)
    ((allVals_nodup ne).product (allVals_nodup ns)) (fun s => List.mem_product.2 ⟨mem_allVals _, mem_allVals _⟩) (allVals_nodup ne) mem_allVals
  refine ⟨?_, h.pick, h.moves_nodup, h.moves_mem, h.enum_nodup, h.enum_mem, h.enumEnv_nodup, h.enumEnv_mem⟩
  intro c ids hc
  have := le_max ids _ hc
  simp only [orc] at this
  omega

/-- A specification `s.spc` and an automaton `a.aut`. -/
def world (spec aut changes : List Char) : PatchWorld where
  file := fun a => if a = "s.spc".toList then some spec else if a = "a.aut".toList then some aut
    else if a = "c.edc".toList then some changes else none
  stdin := aut
  canWrite := fun a => a = "out".toList
  canDump := false
  oracle := fun _ _ G => orc 0 _ _ G []
  cover := fun _ _ => []
  lines := []
  fuel := 100
  sub := orc
  local_ := fun ne ns G _ => orc 0 ne ns G []
  stale := false

theorem world_sane (spec aut changes : List Char) : (world spec aut changes).Sane where
  valid := fun k ne ns G l _ => orc_valid k ne ns G l
  patching := fun ne ns G _ _ => orc_valid 0 ne ns G []
  fresh := by
    intro k ne ns G l c a hc
    have := le_max l _ hc
    simp only [world, orc] at this
    omega
  apart := by
    intro ne ns G l c a c' a'
    simp only [world, orc]
    omega


/-- `SYS: a b; SYSTRANS: [](a' <-> b) & [](b' <-> !a); SYSGOAL: []<>(!a & b) & []<>(a & b) & []<>(a & !b);`: the variables go
through 00, 01, 11, 10. -/
def d : FileData :=
  ⟨[], [(['a'], -1), (['b'], -1)], ⟨none, none, [], [.equiv (.var true ['a']) (.var false ['b']), .equiv (.var true ['b']) (.neg (.var false ['a']))], [],
    [.and (.neg (.var false ['a'])) (.var false ['b']), .and (.var false ['a']) (.var false ['b']),
      .and (.var false ['a']) (.neg (.var false ['b']))]⟩⟩

/-- The goal to be inserted. -/
def φ : Fm := .and (.neg (.var false ['a'])) (.neg (.var false ['b']))

def spec : List Char := lines
  ((.svars :: [(['a'], (-1 : ℤ)), (['b'], -1)].flatMap declToks) ++ .chr ';' ::
    ((.strans :: .safe :: ((Fm.equiv (.var true ['a']) (.var false ['b'])).toks ++
      .andSafe :: ((Fm.equiv (.var true ['b']) (.neg (.var false ['a']))).toks ++ []))) ++ .chr ';' ::
    ((.sgoal :: .live :: ((Fm.and (.neg (.var false ['a'])) (.var false ['b'])).toks ++
      .andLive :: ((Fm.and (.var false ['a']) (.var false ['b'])).toks ++
      .andLive :: ((Fm.and (.var false ['a']) (.neg (.var false ['b']))).toks ++ [])))) ++ .chr ';' :: [])))

theorem spec_says : FileSays spec d := by
  have ha : Writable (.ident ['a']) := by decide
  have hb : Writable (.ident ['b']) := by decide
  exact MainEx.fileSays_lines (.cons (.vars false [(['a'], -1), (['b'], -1)] (by unfold GoodDecls; decide +kernel))
    (.cons (.trans1 false (FileEx.gram true _ ⟨⟨ha, by simp⟩, hb, by simp⟩ (by decide))
      (.cons (FileEx.gram true _ ⟨⟨hb, by simp⟩, ha, by simp⟩ (by decide)) .nil))
    (.cons (.goal1 false (Or.inr rfl) (FileEx.gram false _ ⟨⟨ha, by simp⟩, hb, by simp⟩ (by decide))
      (.cons (FileEx.gram false _ ⟨⟨ha, by simp⟩, hb, by simp⟩ (by decide))
      (.cons (FileEx.gram false _ ⟨⟨ha, by simp⟩, hb, by simp⟩ (by decide)) .nil))) .nil)))
    (by decide +kernel) rfl

/-- The formula, as it is typed. -/
def form : List Char := (lines φ.toks).dropLast

theorem form_says : FormSays form φ := by
  have ha : Writable (.ident ['a']) := by decide
  have hb : Writable (.ident ['b']) := by decide
  refine ⟨φ.toks, ?_, FileEx.gram false φ ⟨⟨ha, by simp⟩, hb, by simp⟩ (by decide)⟩
  have : form ++ ['\n'] = lines φ.toks := by decide +kernel
  rw [this]
  exact lines_layout _ (by decide +kernel)

theorem good : GoodSpec d .undefined := by
  refine ⟨⟨by decide +kernel, by decide +kernel⟩, ?_, ?_, by unfold NoNe0; decide +kernel⟩
  · constructor <;> unfold Typed <;> decide +kernel
  · by_contra h
    have := (check_form_exact d.evars d.svars .undefined d.sp).2 h
    revert this
    decide +kernel

theorem patchSpec : PatchSpec d := by
  refine ⟨good, ⟨?_, by decide⟩, by unfold IntDecls; decide, Or.inr (by decide)⟩
  intro A x B he h0
  have : ∀ y ∈ d.evars ++ d.svars, y.2 < 0 := by decide
  have := this x (by rw [he]; simp)
  omega

/-- A strategy: the cycle. -/
def st : Aut ℤ (IState d.evars d.svars) :=
  [⟨0, (PmlEx.vals _ [], PmlEx.vals _ [0, 0]), 0, 1, true, [1]⟩, ⟨1, (PmlEx.vals _ [], PmlEx.vals _ [0, 1]), 1, 1, false, [2]⟩,
    ⟨2, (PmlEx.vals _ [], PmlEx.vals _ [1, 1]), 2, 1, false, [3]⟩, ⟨3, (PmlEx.vals _ [], PmlEx.vals _ [1, 0]), 0, 1, false, [0]⟩]

def aut : List Char := "1\n0 0 0 1 0 1 1\n1 0 1 0 1 1 2\n2 1 1 0 2 1 3\n3 1 0 0 0 1 0\n".toList

theorem next_id : ∀ x ∈ st, ∀ y ∈ st, y.id ∈ x.trans → y.id = (x.id + 1) % 4 := by decide +kernel

/-- The cycle comes to every node again and again. -/
theorem cycle (ρ : ℕ → ANode ℤ (IState d.evars d.svars)) (h : IsRun st ρ) (t : ℕ) (ht : t < 4) (n : ℕ) : ∃ k, n ≤ k ∧ (ρ k).id = t := by
  have hs : ∀ k, (ρ (k + 1)).id = ((ρ k).id + 1) % 4 := fun k => next_id _ (h k).1 _ (h (k + 1)).1 (h k).2
  have h1 := hs n
  have h2 := hs (n + 1)
  have h3 := hs (n + 2)
  have h4 := hs (n + 3)
  have hlt : (ρ (n + 1)).id < 4 := by omega
  have : (ρ (n + 1)).id = t ∨ (ρ (n + 2)).id = t ∨ (ρ (n + 3)).id = t ∨ (ρ (n + 4)).id = t := by
    have h0 : (ρ (n + 1)).id = 0 ∨ (ρ (n + 1)).id = 1 ∨ (ρ (n + 1)).id = 2 ∨ (ρ (n + 1)).id = 3 := by omega
    rw [show n + 1 + 1 = n + 2 from rfl] at h2
    rw [show n + 2 + 1 = n + 3 from rfl, h2] at h3
    rw [show n + 3 + 1 = n + 4 from rfl, h3] at h4
    rcases h0 with h | h | h | h <;> rw [h] at h2 h3 h4 <;> simp only [Nat.reduceAdd, Nat.reduceMod] at h2 h3 h4 <;> omega
  rcases this with h | h | h | h
  · exact ⟨_, by omega, h⟩
  · exact ⟨_, by omega, h⟩
  · exact ⟨_, by omega, h⟩
  · exact ⟨_, by omega, h⟩

set_option synthInstance.maxSize 2000 in
set_option synthInstance.maxHeartbeats 100000 in
theorem seeks : SeeksInOrder (intGame d.evars d.svars d.sp) (withDefaultGoal (d.sp.egoals.map fmStates)).get
    ((sysGoals d.sp).map fmStates).get st := by
  refine ⟨by decide +kernel, by decide +kernel, ?_, by unfold LegalEdges; decide +kernel, ?_, ?_⟩
  · decide +kernel
  · have key : ∀ x ∈ st, ∀ y ∈ st, y.id ∈ x.trans → ∃ i j : Fin ((sysGoals d.sp).map (fmStates (evars := d.evars) (svars := d.svars))).length,
        x.mode = (i.val : ℤ) ∧ y.mode = (j.val : ℤ) ∧ ∃ k : Fin 2, (nextIx^[k.val]) i = j ∧ ∀ c : Fin 2, c < k →
          y.state ∈ ((sysGoals d.sp).map fmStates).get ((nextIx^[c.val]) i) := by decide +kernel
    intro x hx y hy hxy
    obtain ⟨i, j, h1, h2, k, h3, h4⟩ := key x hx y hy hxy
    exact ⟨i, j, h1, h2, k.val, h3, fun c hc => h4 ⟨c, by omega⟩ hc⟩
  · intro ρ hρ _ i n
    have key : ∀ i : Fin ((sysGoals d.sp).map fmStates).length, ∀ x ∈ st, x.id = i.val + 1 → x.state ∈ ((sysGoals d.sp).map fmStates).get i := by
      decide +kernel
    obtain ⟨k, k1, k2⟩ := cycle ρ hρ (i.val + 1) (by have : i.val < 3 := i.isLt; omega) n
    exact ⟨k, k1, key i _ (hρ k).1 k2⟩

theorem given : GivenStrategy d st aut := by
  refine ⟨by unfold st; simp, seeks, by decide +kernel, ?_⟩
  refine ⟨by decide +kernel, by unfold IsInt; decide +kernel, ?_⟩
  intro i n hi
  have key : ∀ i : Fin (withStates stateValues st).length,
      (nodeText 1 (withStates stateValues st) i.val ((withStates stateValues st).get i)).length < 4095 := by decide +kernel
  obtain ⟨h1, h2⟩ := List.getElem?_eq_some_iff.1 hi
  have := key ⟨i, h1⟩
  rw [← h2]
  exact this

/-- Status and automaton written: address, initial, mode, annotation, edges, state of every node. -/
def view : MainRes → List (List ℤ)
  | .exit s none => [[s]]
  | .exit s (some o) => [s] :: o.aut.map fun x =>
    ((x.id : ℤ) :: (if x.initial then 1 else 0) :: x.mode :: x.rgrad :: x.trans.map fun (i : ℕ) => (i : ℤ)) ++ x.state
  | _ => []

theorem view_exit {r : MainRes} {s : ℤ} {l : List ℤ} {ls : List (List ℤ)} (h : view r = [s] :: l :: ls) : ∃ o, r = .exit s (some o) := by
  unfold view at h
  split at h
  · cases h
  · simp only [List.cons.injEq, and_true] at h
    exact ⟨_, by rw [h.1]⟩
  · cases h

theorem rm_view : view (patchMain (world spec aut []) ["-a".toList, "a.aut".toList, "-r".toList, "1".toList, "s.spc".toList]) =
    [[0], [0, 1, 0, 1, 8, 0, 0], [56, 0, 0, 1, 0, 1, 0], [24, 0, 2, 1, 56, 1, 1], [8, 0, 2, 2, 24, 0, 1]] := by
  decide +kernel

theorem add_view : view (patchMain (world spec aut []) ["-a".toList, "a.aut".toList, "-f".toList, form, "s.spc".toList]) =
    [[0], [0, 1, 0, 1, 27, 0, 0], [2, 0, 2, 1, 3, 1, 1], [3, 0, 3, 1, 24, 1, 0], [24, 0, 0, 1, 27, 0, 0], [27, 0, 1, 1, 2, 0, 1]] := by
  decide +kernel

def fspc : Arg := "s.spc".toList
def faut : Arg := "a.aut".toList

def rmArgs : List Arg := ["-a".toList, faut, "-r".toList, "1".toList, fspc]
def rmOpts : List PgItem := [.aut faut, .rm 1]

theorem rm_called : PgCalled (world spec aut []) rmArgs rmOpts (some fspc) d aut :=
  ⟨⟨["-a".toList, faut, "-r".toList, "1".toList], [fspc], .cons (w := ["-a".toList, faut]) (.aut _)
      (.cons (w := ["-r".toList, "1".toList]) (.rm ⟨['1'], by decide, by decide, Or.inr ⟨Or.inl rfl, by decide⟩⟩ (by unfold IsInt; decide)) .nil),
      .file _ (by decide), rfl⟩,
    by decide, ⟨_, List.mem_cons_of_mem _ List.mem_cons_self, rfl⟩, Or.inl (by decide), ⟨spec, Or.inl ⟨_, rfl, rfl⟩, spec_says⟩,
    faut, by decide, Or.inr ⟨by decide, rfl⟩, fun h => by cases h⟩

/-- `gr1c-patch -a a.aut -r 1 s.spc`: all hypotheses of `patch_removes_goal`; a strategy is written. -/
example : ∃ R, R ≠ [] ∧ GoalRemoved (intGame d.evars d.svars d.sp) (d.sp.egoals.map fmStates) ((sysGoals d.sp).map fmStates) 1 st R ∧
    patchMain (world spec aut []) rmArgs = .exit 0 (some ⟨none, .json, d.evars, d.svars, withStates stateValues R⟩) := by
  obtain ⟨o, ho⟩ := view_exit rm_view
  rcases patch_removes_goal rm_called patchSpec (world_sane _ _ _) given (by decide) (by decide) (n := 1) (by decide) (by decide) with
    ⟨R, h1, h2, -, h4⟩ | h | h | h
  · exact ⟨R, h1, h2, h4⟩
  · exact MainRes.noConfusion (ho.symm.trans h) (fun h _ => absurd h (by decide))
  · cases ho.symm.trans h
  · cases ho.symm.trans h

def addArgs : List Arg := ["-a".toList, faut, "-f".toList, form, fspc]
def addOpts : List PgItem := [.aut faut, .form form]

theorem add_called : PgCalled (world spec aut []) addArgs addOpts (some fspc) d aut :=
  ⟨⟨["-a".toList, faut, "-f".toList, form], [fspc], .cons (w := ["-a".toList, faut]) (.aut _)
      (.cons (w := ["-f".toList, form]) (.form _) .nil), .file _ (by decide), rfl⟩,
    by decide +kernel, ⟨_, List.mem_cons_of_mem _ List.mem_cons_self, rfl⟩, Or.inl (by decide +kernel), ⟨spec, Or.inl ⟨_, rfl, rfl⟩, spec_says⟩,
    faut, by decide +kernel, Or.inr ⟨by decide, rfl⟩, fun h => by cases h⟩

/-- `gr1c-patch -a a.aut -f '!a & !b' s.spc`: all hypotheses of `patch_adds_goal`; a strategy is written. -/
example : ∃ i R, R ≠ [] ∧ GoalAdded (intGame d.evars d.svars d.sp) (d.sp.egoals.map fmStates) ((sysGoals d.sp).map fmStates) i (fmStates φ) st R ∧
    i.val + 1 = (sysGoals d.sp).length ∧
    patchMain (world spec aut []) addArgs = .exit 0 (some ⟨none, .json, d.evars, d.svars, withStates stateValues R⟩) := by
  obtain ⟨o, ho⟩ := view_exit add_view
  rcases patch_adds_goal add_called patchSpec (world_sane _ _ _) given (x := form) (by decide +kernel) form_says (by unfold Typed; decide +kernel)
    (by unfold NoNe0; decide +kernel) with ⟨i, R, h1, h2, h3, -, h5⟩ | h | h | h
  · exact ⟨i, R, h1, h2, h3 (by decide +kernel), h5⟩
  · exact MainRes.noConfusion (ho.symm.trans h) (fun h _ => absurd h (by decide))
  · cases ho.symm.trans h
  · cases ho.symm.trans h

/-- The conditions under which the written strategies answer every move and serve all goals: the given one answers every move, no edge
leads past the goal that is removed, no node seeks what it has, no state has two goals. -/
example : AnswersAll (intGame d.evars d.svars d.sp) st ∧ NoSkip 1 2 st ∧ Waits ((sysGoals d.sp).map fmStates).get st ∧
    Apart (((sysGoals d.sp).map fmStates).get (2 : Fin 3)) (((sysGoals d.sp).map fmStates).get (0 : Fin 3)) st ∧
    Apart (((sysGoals d.sp).map fmStates).get (0 : Fin 3)) (fmStates φ) st := by
  refine ⟨?_, by unfold NoSkip; decide +kernel, ?_, by unfold Apart; decide +kernel, by unfold Apart; decide +kernel⟩
  · have key : ∀ x ∈ st, ∀ e, ∃ y ∈ st, (y.id ∈ x.trans ∧ y.state.1 = e) ∧ ∀ z ∈ st, z.id ∈ x.trans ∧ z.state.1 = e → z.id = y.id := by
      decide +kernel
    intro x hx e _
    obtain ⟨y, hy, h1, h2⟩ := key x hx e
    refine ⟨y, ⟨hy, h1⟩, ?_⟩
    rintro z ⟨z1, z2⟩
    exact eq_of_id_eq seeks.ids z1 hy (h2 z z1 z2)
  · unfold Waits
    decide +kernel

/-- Refusals: a goal that is not there, an unknown variable, a specification with an error, no automaton, no specification, `-e` and
`-f` together, automaton and specification both from standard input. -/
example : view (patchMain (world spec aut []) ["-a".toList, faut, "-r".toList, "3".toList, fspc]) = [[1]] ∧
    view (patchMain (world spec aut []) ["-a".toList, faut, "-f".toList, "c".toList, fspc]) = [[1]] ∧
    view (patchMain (world "SYS: a; SYSGOAL: []<>b;".toList aut []) ["-a".toList, faut, "-r".toList, "0".toList, fspc]) = [[2]] ∧
    view (patchMain (world spec aut []) ["-r".toList, "0".toList, fspc]) = [[1]] ∧
    view (patchMain (world spec aut []) ["-a".toList, faut, "-r".toList, "0".toList, "none".toList]) = [[-1]] ∧
    view (patchMain (world spec aut []) ["-a".toList, faut, "-e".toList, "c.edc".toList, "-f".toList, "a".toList, fspc]) = [[1]] ∧
    view (patchMain (world spec aut []) ["-a".toList, "-".toList, "-r".toList, "0".toList]) = [[1]] := by
  refine ⟨?_, ?_, ?_, ?_, ?_, ?_, ?_⟩ <;> decide +kernel

/-- The hypotheses of `patch_no_such_goal`: `-r 3` with three goals. -/
example : patchMain (world spec aut []) ["-a".toList, faut, "-r".toList, "3".toList, fspc] = .exit 1 none :=
  patch_no_such_goal (os := [.aut faut, .rm 3]) (f := some fspc) (d := d) (text := aut) (n := 3)
    ⟨⟨["-a".toList, faut, "-r".toList, "3".toList], [fspc], .cons (w := ["-a".toList, faut]) (.aut _)
        (.cons (w := ["-r".toList, "3".toList]) (.rm ⟨['3'], by decide, by decide, Or.inr ⟨Or.inl rfl, by decide⟩⟩ (by unfold IsInt; decide)) .nil),
        .file _ (by decide), rfl⟩,
      by decide, ⟨_, List.mem_cons_of_mem _ List.mem_cons_self, rfl⟩, Or.inl (by decide), ⟨spec, Or.inl ⟨_, rfl, rfl⟩, spec_says⟩,
      faut, by decide, Or.inr ⟨by decide, rfl⟩, fun h => by cases h⟩
    patchSpec.good patchSpec.prefixFree (by decide) (by decide) (by decide) (by decide)

theorem c_says : FormSays "c".toList (.var false ['c']) := by
  refine ⟨Fm.toks (.var false ['c']), ?_, FileEx.gram false _ ⟨by decide, by simp⟩ trivial⟩
  have : "c".toList ++ ['\n'] = lines (Fm.toks (.var false ['c'])) := by decide +kernel
  rw [this]
  exact lines_layout _ (by decide +kernel)

/-- The hypotheses of `patch_unknown_var`: a variable that is not declared. -/
example : patchMain (world spec aut []) ["-a".toList, faut, "-f".toList, "c".toList, fspc] = .exit 1 none :=
  patch_unknown_var (os := [.aut faut, .form "c".toList]) (f := some fspc) (d := d) (text := aut)
    ⟨⟨["-a".toList, faut, "-f".toList, "c".toList], [fspc], .cons (w := ["-a".toList, faut]) (.aut _)
        (.cons (w := ["-f".toList, "c".toList]) (.form _) .nil), .file _ (by decide), rfl⟩,
      by decide, ⟨_, List.mem_cons_of_mem _ List.mem_cons_self, rfl⟩, Or.inl (by decide), ⟨spec, Or.inl ⟨_, rfl, rfl⟩, spec_says⟩,
      faut, by decide, Or.inr ⟨by decide, rfl⟩, fun h => by cases h⟩
    patchSpec.good.scope (x := "c".toList) (by decide) c_says (by unfold Scoped; decide)

/-- The hypotheses of `patch_rejects` are `rm_called`; this run has status 0. -/
example : ∃ o, patchMain (world spec aut []) rmArgs = .exit 0 (some o) := by
  obtain ⟨o, ho⟩ := view_exit rm_view
  exact ⟨o, ho⟩

end PgEx

/-- The hypotheses of `patch_workflow`: `gr1c -t aut -o out s.spc`. -/
example (E : JsonEnv) : ∃ (w : World) (d : FileData), PatchSpec d ∧
    ∃ (st : Aut ℤ (IState d.evars d.svars)) (o : Output) (s : List Char), gr1cMain w MainEx.args1 = .exit 0 (some o) ∧
      o.dest = some "out".toList ∧ writeOut E o = some (.ok s) ∧ (AutFits (withStates stateValues st) → GivenStrategy d st s) := by
  obtain ⟨ts, h1, h2, h3⟩ := FileEx.toks
  obtain ⟨k1, st, o, s, k2, k3, k4, k5, -⟩ := patch_workflow (w := MainEx.world (lines ts) [] (synthBound GREx.evars GREx.svars GREx.sp))
    (args := MainEx.args1) (os := MainEx.opts1) (f := some "s.spc".toList) (d := ⟨GREx.evars, GREx.svars, GREx.sp⟩)
    ⟨⟨lines ts, ⟨MainEx.line1, by decide, by decide, by decide, by decide, Or.inl ⟨_, rfl, by simp [MainEx.world]⟩⟩,
      MainEx.fileSays_lines h1 h2 FileEx.data⟩, fun h => absurd h (by decide)⟩ MainEx.good1 (by decide) (by decide) MainEx.realizable1
    (by decide +kernel : ∃ s : IState GREx.evars GREx.svars, s ∈ initSet (GREx.sp.einit.map fmStates) ∧
      s ∈ initSet (GREx.sp.sinit.map fmStates)) MainEx.pfx1 (by unfold IntDecls; decide) (MainEx.world_sensible _ _ _)
    (Or.inl (by decide)) (Nat.le_refl _)
    (by
      intro f hf
      have h0 : (meaning MainEx.opts1 (some "s.spc".toList)).output = some "out".toList := by decide
      rw [h0] at hf
      cases hf
      simp [MainEx.world]) E
  exact ⟨_, _, k1, st, o, s, k2, k3, k4, k5⟩

/-! ## Defects -/

/-- **C64, a defect.** `-r` together with `-f` is accepted and not heeded: the goal that is to be removed stays. -/
theorem patch_r_and_f : ∃ (w : PatchWorld) (x : Arg), w.Sane ∧
    PgEx.view (patchMain w ["-a".toList, PgEx.faut, "-f".toList, x, "-r".toList, "1".toList, PgEx.fspc]) =
      PgEx.view (patchMain w ["-a".toList, PgEx.faut, "-f".toList, x, PgEx.fspc]) ∧
    (PgEx.view (patchMain w ["-a".toList, PgEx.faut, "-f".toList, x, PgEx.fspc])).head? = some [0] :=
  ⟨PgEx.world PgEx.spec PgEx.aut [], PgEx.form, PgEx.world_sane _ _ _, by decide +kernel, by decide +kernel⟩

/-- **C64, a defect.** `gr1c-patch -h -e FILE` does not print the help text: it ends with status 1. -/
theorem patch_help_refused (w : PatchWorld) (e : Arg) : patchMain w ["-h".toList, "-e".toList, e] = .exit 1 none := by
  have h : PgCmdLine [.help, .edges e] none ["-h".toList, "-e".toList, e] :=
    ⟨["-h".toList, "-e".toList, e], [], .cons (w := ["-h".toList]) (.flag (w := "-h") (by decide)) (.cons (w := ["-e".toList, e]) (.edges e) .nil),
      .nothing, rfl⟩
  unfold patchMain
  rw [pg_cli h]
  rfl

/-- **C64, a defect.** An automaton file whose name begins with `-` is not opened: standard input is read. -/
theorem patch_dash_file (w : PatchWorld) (n : List Char) : w.autText ('-' :: n) = some w.stdin := rfl

/-- **C64, a defect.** A word of `-m` that begins the name of no variable is not refused: the result is the one without `-m`. -/
theorem patch_unknown_metric (ev sv : VarList) {ws : List (List Char)} {m : Arg} (hw : BlankWords ws m)
    (h : ∃ n ∈ ws, ∀ v ∈ ev ++ sv, ¬ n <+: v.1) : metricOffsets ev sv (some m) = metricOffsets ev sv none := by
  obtain ⟨n, hn, hv⟩ := h
  have key : ∀ l : VarList, n ∈ l.map Prod.fst → getOffsetsList ev sv l = none := by
    intro l
    induction l with
    | nil => intro h; cases h
    | cons x l ih =>
      intro hx
      simp only [getOffsetsList]
      rw [List.map_cons, List.mem_cons] at hx
      rcases hx with rfl | hx
      · have h0 : offsetOf ev sv x.1 = none := by
          unfold offsetOf
          rw [findRun_none x.1 ev fun v h => no_pfx (hv v (List.mem_append_left _ h)),
            findRun_none x.1 sv fun v h => no_pfx (hv v (List.mem_append_right _ h))]
        rw [h0]
      · rw [ih hx]
        cases offsetOf ev sv x.1 <;> rfl
  change (getOffsetsList ev sv ((metricWords [] m).map fun n => (n, 0))).getD [] = []
  rw [key _ (by rw [blank_words hw, List.map_map]; simpa using hn)]
  rfl

/-- **C64, a defect.** `-m x` with the variables `xy` (Boolean) and `x` in [0,3] measures distance by the value of xy. -/
theorem patch_metric_prefix : BlankWords ["x".toList] "x".toList ∧
    metricOffsets (expDecls []) (expDecls [("xy".toList, -1), ("z".toList, -1), ("x".toList, 3)]) (some "x".toList) = [(0, 1)] ∧
    layoutFrom 0 [("xy".toList, -1), ("z".toList, -1), ("x".toList, 3)] = [(2, 2)] :=
  ⟨.cons 0 (by decide) (by decide) (Or.inl rfl) (.nil 0), by decide, by decide⟩

/-- The hypotheses of `patch_metric_offsets`: `-m " z  x"` with integers x, y, z and Booleans a, b. -/
example : metricOffsets (expDecls CmpEx.ev) (expDecls CmpEx.sv) (some " z  x".toList) = [(6, 1), (0, 3)] :=
  (patch_metric_offsets CmpEx.pfx (m := " z  x".toList)
    (ms := [([("x".toList, 5), ("a".toList, -1), ("b".toList, -1), ("y".toList, 0)], ("z".toList, 1)), ([], ("x".toList, 5))])
    (by decide) (.cons 1 (by decide) (by decide) (Or.inr ⟨_, rfl⟩) (.cons 2 (by decide) (by decide) (Or.inl rfl) (.nil 0)))).trans
    (by decide +kernel)

/-- The hypotheses of `patch_unknown_metric`. -/
example : metricOffsets (expDecls CmpEx.ev) (expDecls CmpEx.sv) (some "x w".toList) = [] :=
  patch_unknown_metric _ _ (ws := ["x".toList, "w".toList])
    (.cons 0 (by decide) (by decide) (Or.inr ⟨_, rfl⟩) (.cons 1 (by decide) (by decide) (Or.inl rfl) (.nil 0)))
    ⟨"w".toList, by decide, by decide⟩


/-- `patch_misuse`: help alone, no option that patches, a removal without automaton, both options that patch, both texts from standard input. -/
example (w : PatchWorld) :
    patchMain w ["-h".toList] = .exit 0 none ∧ patchMain w ["-l".toList] = .exit 1 none ∧
    patchMain w ["-r".toList, "1".toList] = .exit 1 none ∧
    patchMain w ["-e".toList, PgEx.faut, "-f".toList, PgEx.form, "-a".toList, PgEx.faut] = .exit 1 none ∧
    patchMain w ["-r".toList, "1".toList, "-a".toList, "-".toList] = .exit 1 none := by
  have hr : PgSpelled (.rm 1) ["-r".toList, "1".toList] :=
    .rm ⟨['1'], by decide, by decide, Or.inr ⟨Or.inl rfl, by decide⟩⟩ (by unfold IsInt; decide)
  have h1 : PgCmdLine [.help] none ["-h".toList] := ⟨["-h".toList], [], .cons (.flag (w := "-h") (by decide)) .nil, .nothing, rfl⟩
  have h2 : PgCmdLine [.logging] none ["-l".toList] := ⟨["-l".toList], [], .cons (.flag (w := "-l") (by decide)) .nil, .nothing, rfl⟩
  have h3 : PgCmdLine [.rm 1] none ["-r".toList, "1".toList] := ⟨["-r".toList, "1".toList], [], .cons hr .nil, .nothing, rfl⟩
  have h4 : PgCmdLine [.edges PgEx.faut, .form PgEx.form, .aut PgEx.faut] none ["-e".toList, PgEx.faut, "-f".toList, PgEx.form, "-a".toList, PgEx.faut] :=
    ⟨["-e".toList, PgEx.faut, "-f".toList, PgEx.form, "-a".toList, PgEx.faut], [], .cons (.edges PgEx.faut) (.cons (.form PgEx.form) (.cons (.aut PgEx.faut) .nil)), .nothing, rfl⟩
  have h5 : PgCmdLine [.rm 1, .aut "-".toList] none ["-r".toList, "1".toList, "-a".toList, "-".toList] :=
    ⟨["-r".toList, "1".toList, "-a".toList, "-".toList], [], .cons hr (.cons (.aut "-".toList) .nil), .nothing, rfl⟩
  refine ⟨(patch_misuse w h1).1 (by decide), (patch_misuse w h2).1 (by decide), ?_, ?_, ?_⟩
  · exact (patch_misuse w h3).2.1 ⟨_, List.mem_cons_self, rfl⟩ (by intro a; simp)
  · exact (patch_misuse w h4).2.2.1 ⟨PgEx.faut, by simp⟩ ⟨PgEx.form, by simp⟩
  · exact (patch_misuse w h5).2.2.2 ⟨_, List.mem_cons_self, rfl⟩ (by decide) rfl ⟨[], rfl⟩

end Gr1c
