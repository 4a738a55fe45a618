import Verif.MainOut
import Verif.SpinModelProps
import Verif.PrintProps

/-!
# C58: from the command line to the Promela model (`gr1c -P`)
-/

namespace Gr1c

/-- What `-P` writes to standard output after the strategy, `/repo/src/main.c` 484-510 and 676-684: the copies of the
parse trees are made after the defaults for empty sections. At most `fuel` moves of the environment are enumerated. -/
def writeModel (ver : List Char) (fuel : ℕ) (c : Cfg) (p : PState) (o : Output) : Option (List Char) :=
  if c.promela then spinDump ver fuel o.evars o.svars (omissionDefaults p.sp) o.aut else some []

/-! ## Proof -/

/-- The specification with the defaults for empty sections. -/
def filledSpec (sp : FSpec) : FSpec :=
  { sp with
    etrans := if sp.etrans = [] then [.const 1] else sp.etrans
    strans := if sp.strans = [] then [.const 1] else sp.strans
    sgoals := sysGoals sp }

theorem filledSpec_toT (sp : FSpec) : (filledSpec sp).toT = omissionDefaults sp.toT := by
  have key : ∀ l : List Fm, (if l = [] then [.const 1] else l).map Fm.toTree =
      if l.map Fm.toTree = [] then [initPtree .const none 1] else l.map Fm.toTree := by
    intro l
    cases l <;> rfl
  unfold FSpec.toT omissionDefaults filledSpec sysGoals
  simp only [key]

theorem all_filled {sp : FSpec} {P : Fm → Prop} (h1 : P (.const 1)) (h : ∀ f ∈ sp.all, P f) : ∀ f ∈ (filledSpec sp).all, P f := by
  intro f hf
  have def1 : ∀ {l : List Fm}, (∀ f ∈ l, P f) → f ∈ (if l = [] then [.const 1] else l) → P f := by
    intro l hl hf
    split_ifs at hf
    · rw [List.mem_singleton.1 hf]; exact h1
    · exact hl f hf
  unfold FSpec.all at hf h
  simp only [List.mem_append, filledSpec, sysGoals] at hf h
  rcases hf with ((((hf | hf) | hf) | hf) | hf) | hf
  · exact h f (by tauto)
  · exact h f (by tauto)
  · exact def1 (fun f hf => h f (by tauto)) hf
  · exact def1 (fun f hf => h f (by tauto)) hf
  · exact h f (by tauto)
  · exact def1 (fun f hf => h f (by tauto)) hf

theorem typed_filled {evars svars : Decls} {sp : FSpec} (h : TypedSpec evars svars sp) : TypedSpec evars svars (filledSpec sp) := by
  have def1 : ∀ {us ps : Decls} {l : List Fm}, (∀ f ∈ l, Typed us ps f) →
      ∀ f ∈ (if l = [] then [.const 1] else l), Typed us ps f := by
    intro us ps l hl f hf
    split_ifs at hf
    · rw [List.mem_singleton.1 hf]; exact ⟨by simp [Fm.bvars], by simp [Fm.zvars]⟩
    · exact hl f hf
  exact ⟨h.einit, h.sinit, def1 h.etrans, def1 h.strans, h.egoals, def1 h.sgoals⟩

theorem game_filled (evars svars : Decls) (sp : FSpec) : intGame evars svars (filledSpec sp) = intGame evars svars sp := by
  have key : ∀ (l : List Fm) (ρ : Env), ((if l = [] then [.const 1] else l).all fun f => f.eval ρ) = l.all fun f => f.eval ρ := by
    intro l ρ
    cases l <;> rfl
  unfold intGame filledSpec
  simp only [key]

theorem sysGoals_filled (sp : FSpec) : sysGoals (filledSpec sp) = sysGoals sp := by
  have hne : (filledSpec sp).sgoals ≠ [] := by
    show sysGoals sp ≠ []
    unfold sysGoals
    split_ifs with h
    · simp
    · exact h
  conv_lhs => rw [sysGoals, if_neg hne]
  rfl

theorem specStrategy_filled {evars svars : Decls} {flag : InitFlag} {sp : FSpec} {st : Aut ℤ (IState evars svars)}
    (h : SpecStrategy evars svars flag sp st) : SpecStrategy evars svars flag (filledSpec sp) st := by
  unfold SpecStrategy at h ⊢
  rw [game_filled, sysGoals_filled]
  exact h

theorem moreToks_parsable {primes : Bool} {sep : Tok} {fs : List Fm} {ts : List Tok} (h : MoreToks primes sep fs ts)
    (hw : ∀ n, .ident n ∈ ts → Writable (.ident n)) : ∀ f ∈ fs, Parsable primes f := by
  induction h with
  | nil => simp
  | cons h _ ih =>
    intro f hf
    rcases List.mem_cons.1 hf with rfl | hf
    · exact gram_parsable h fun n hn => hw n (by simp [hn])
    · exact ih (fun n hn => hw n (by simp [hn])) f hf

/-- The formulas of a section. -/
def Sec.fms : Sec → List Fm
  | .vars _ _ => []
  | .init _ f => f.toList
  | .trans _ fs => fs
  | .goal _ fs => fs

theorem secToks_parsable {rg : Bool} {s : Sec} {ts : List Tok} (h : SecToks rg s ts)
    (hw : ∀ n, .ident n ∈ ts → Writable (.ident n)) : ∀ f ∈ s.fms, ∃ primes, Parsable primes f := by
  intro f hf
  cases h with
  | vars => cases hf
  | init0 => cases hf
  | init1 _ h =>
    simp only [Sec.fms, Option.toList_some, List.mem_singleton] at hf
    rw [hf]
    exact ⟨_, gram_parsable h fun n hn => hw n (by simp [hn])⟩
  | trans0 => cases hf
  | trans1 _ h hs =>
    rcases List.mem_cons.1 hf with rfl | hf
    · exact ⟨_, gram_parsable h fun n hn => hw n (by simp [hn])⟩
    · exact ⟨_, moreToks_parsable hs (fun n hn => hw n (by simp [hn])) f hf⟩
  | goal0 => cases hf
  | goal1 _ _ h hs =>
    rcases List.mem_cons.1 hf with rfl | hf
    · exact ⟨_, gram_parsable h fun n hn => hw n (by simp [hn])⟩
    · exact ⟨_, moreToks_parsable hs (fun n hn => hw n (by simp [hn])) f hf⟩
  | reach _ h =>
    rw [List.mem_singleton.1 hf]
    exact ⟨_, gram_parsable h fun n hn => hw n (by simp [hn])⟩

theorem sec_add_parsed {d d' : FileData} {s : Sec} (h : s.add d = some d') (hs : ∀ f ∈ s.fms, ∃ primes, Parsable primes f)
    (hd : ParsedSpec d.sp) : ParsedSpec d'.sp := by
  have one : ∃ primes, Parsable primes (.const 1) := ⟨false, Or.inr rfl⟩
  unfold ParsedSpec FSpec.all at hd ⊢
  simp only [List.mem_append, Option.mem_toList] at hd ⊢
  cases s with
  | vars env ds =>
    simp only [Sec.add] at h
    split_ifs at h <;> cases h
    all_goals exact hd
  | init env o =>
    simp only [Sec.fms, Option.mem_toList] at hs
    cases env <;> simp only [Sec.add] at h <;> split_ifs at h <;> cases h <;> intro f hf <;> simp only at hf
    · rcases hf with ((((hf | hf) | hf) | hf) | hf) | hf
      · exact hd f (by tauto)
      · exact hs f hf
      all_goals exact hd f (by tauto)
    · rcases hf with ((((hf | hf) | hf) | hf) | hf) | hf
      · exact hs f hf
      all_goals exact hd f (by tauto)
  | trans env fs =>
    simp only [Sec.fms] at hs
    have key : ∀ {l : List Fm}, (∀ f ∈ l, ∃ primes, Parsable primes f) → ∀ f ∈ (if l ++ fs = [] then [.const 1] else l ++ fs),
        ∃ primes, Parsable primes f := by
      intro l hl f hf
      split_ifs at hf
      · rw [List.mem_singleton.1 hf]; exact one
      · rcases List.mem_append.1 hf with hf | hf
        · exact hl f hf
        · exact hs f hf
    cases env <;> simp only [Sec.add] at h <;> cases h <;> intro f hf <;> simp only at hf
    · rcases hf with ((((hf | hf) | hf) | hf) | hf) | hf
      · exact hd f (by tauto)
      · exact hd f (by tauto)
      · exact hd f (by tauto)
      · exact key (fun f hf => hd f (by tauto)) f hf
      all_goals exact hd f (by tauto)
    · rcases hf with ((((hf | hf) | hf) | hf) | hf) | hf
      · exact hd f (by tauto)
      · exact hd f (by tauto)
      · exact key (fun f hf => hd f (by tauto)) f hf
      all_goals exact hd f (by tauto)
  | goal env fs =>
    simp only [Sec.fms] at hs
    cases env <;> simp only [Sec.add] at h <;> cases h <;> intro f hf <;> simp only at hf
    · rcases hf with ((((hf | hf) | hf) | hf) | hf) | hf
      · exact hd f (by tauto)
      · exact hd f (by tauto)
      · exact hd f (by tauto)
      · exact hd f (by tauto)
      · exact hd f (by tauto)
      · split_ifs at hf
        · rw [List.mem_singleton.1 hf]; exact one
        · rcases List.mem_append.1 hf with hf | hf
          · exact hd f (by tauto)
          · exact hs f hf
    · rcases hf with ((((hf | hf) | hf) | hf) | hf) | hf
      · exact hd f (by tauto)
      · exact hd f (by tauto)
      · exact hd f (by tauto)
      · exact hd f (by tauto)
      · rcases List.mem_append.1 hf with hf | hf
        · exact hd f (by tauto)
        · exact hs f hf
      · exact hd f (by tauto)

/-- The formulas of a file can come from the parser. -/
theorem FileSays.parsedSpec {text : List Char} {d : FileData} (h : FileSays text d) : ParsedSpec d.sp := by
  obtain ⟨ts, ss, h1, h2, h3⟩ := h
  have hw : ∀ n, .ident n ∈ ts → Writable (.ident n) := by
    intro n hn
    rw [← layout_scanned h1] at hn
    exact lex_ident text.length true text le_rfl n hn
  clear h1
  have h0 : ParsedSpec FileData.empty.sp := by
    intro f hf
    simp [FSpec.all, FileData.empty] at hf
  generalize FileData.empty = d0 at h3 h0
  induction h2 generalizing d0 with
  | nil =>
    simp only [readSecs, Option.some.injEq] at h3
    exact h3 ▸ h0
  | @cons s ts ss tss h hs ih =>
    simp only [readSecs] at h3
    cases ha : s.add d0 with
    | none => rw [ha] at h3; cases h3
    | some d1 =>
      rw [ha] at h3
      exact ih (fun n hn => hw n (by simp [hn])) d1 h3
        (sec_add_parsed ha (secToks_parsable h fun n hn => hw n (by simp [hn])) h0)

/-! ## Theorem -/

/-- **C58, C53.** `gr1c -P -o FILE`: if the specification is realizable and has an initial state, the program ends with
status 0 after writing a strategy and then, to standard output, a Promela file with a formula that holds for the program
in it, for all executions, if intermediate states of `atomic` are not considered or every goal has one variable only. -/
theorem main_promela {w : World} {args : List Arg} {os : List Opt} {f : Option Arg} {d : FileData}
    (h : RunsOn w args os f d) (hg : GoodSpec d (meaning os f).init) (hr : (meaning os f).run = .synthesis)
    (hv : SpecRealizable d.evars d.svars (meaning os f).init d.sp)
    (hi : SpecHasInit d.evars d.svars (meaning os f).init d.sp)
    (hp : PfxFree (d.evars ++ d.svars)) (hI : IntDecls (d.evars ++ d.svars))
    (hw : w.Sensible) (henv : d.evars = [] → (∀ f ∈ d.sp.etrans, f = .const 1) ∧ d.sp.egoals = [])
    (hfuel : synthBound d.evars d.svars d.sp ≤ w.fuel) (hout : w.canOutput (meaning os f))
    (hP : (meaning os f).promela = true) (hsv : SpinVars d.evars d.svars) (hne : d.evars ++ d.svars ≠ [])
    {ver : List Char} (hver : '*' ∉ ver) {fuel : ℕ} (hf : (allMoves d.evars).length ≤ fuel) :
    ∃ (st : Aut ℤ (IState d.evars d.svars)) (o : Output) (text : List Char) (ms : List PMacro) (P : PProgram) (φ : Ltl),
      SpecStrategy d.evars d.svars (meaning os f).init d.sp st ∧
      gr1cMain w args = .exit 0 (some o) ∧ o.dest = (meaning os f).output ∧ o.aut = withStates stateValues st ∧
      writeModel ver fuel (meaning os f) d.toP o = some text ∧ SpinReads text ms P φ ∧
      ∀ fine, (fine = false ∨ ∀ f ∈ d.sp.egoals ++ d.sp.sgoals, OneVar f) → PVerifies P fine ms φ := by
  have henv' : d.evars ≠ [] ∨ ∀ f ∈ d.sp.etrans, f = .const 1 := by
    by_cases he : d.evars = []
    · exact Or.inr (henv he).1
    · exact Or.inl he
  obtain ⟨st, h1, h2, h3⟩ := main_strategy h hg hr hv hi hp hI hw henv' hfuel hout
  obtain ⟨text, -, hsays⟩ := h.called
  have hflag : (meaning os f).init ≠ .undefined := by
    intro h
    unfold SpecRealizable at hv
    rw [h] at hv
    exact hv
  obtain ⟨text, ms, P, φ, k1, k2, -, k3⟩ := spin_accepts hsv (typed_filled hg.typed)
    (all_filled ⟨false, Or.inr rfl⟩ hsays.parsedSpec) hflag (specStrategy_filled h1) h2 hne
    (by
      intro he
      refine ⟨?_, (henv he).2⟩
      intro f hf
      simp only [filledSpec] at hf
      split_ifs at hf
      · exact List.mem_singleton.1 hf
      · exact (henv he).1 f hf)
    hver hf
  refine ⟨st, _, text, ms, P, φ, h1, h3, rfl, rfl, ?_, k2, ?_⟩
  · unfold writeModel
    rw [filledSpec_toT] at k1
    rw [if_pos hP]
    exact k1
  · intro fine hfine
    refine k3 fine (hfine.imp_right fun ho f hf => ?_)
    rcases List.mem_append.1 hf with hf | hf
    · exact ho f (List.mem_append_left _ hf)
    · simp only [filledSpec, sysGoals] at hf
      split_ifs at hf
      · rw [List.mem_singleton.1 hf]
        exact ⟨[], by simp [Fm.bvars, Fm.zvars]⟩
      · exact ho f (List.mem_append_right _ hf)

namespace MainEx

/-- `gr1c -P -o out s.spc` on the specification `GREx`: all hypotheses of `main_promela` hold, for both readings of
`atomic`. -/
example : ∃ (w : World) (st : Aut ℤ (IState GREx.evars GREx.svars)) (o : Output) (text : List Char) (ms : List PMacro)
    (P : PProgram) (φ : Ltl),
    SpecStrategy GREx.evars GREx.svars .allEnvExistSys GREx.sp st ∧
    gr1cMain w ["-P".toList, "-o".toList, "out".toList, "s.spc".toList] = .exit 0 (some o) ∧ o.dest = some "out".toList ∧
    o.aut = withStates stateValues st ∧
    writeModel "0.13".toList 6 (meaning [.promela, .output "out".toList] (some "s.spc".toList))
      (FileData.toP ⟨GREx.evars, GREx.svars, GREx.sp⟩) o = some text ∧
    SpinReads text ms P φ ∧ ∀ fine, PVerifies P fine ms φ := by
  obtain ⟨ts, h1, h2, h3⟩ := FileEx.toks
  have hrun : RunsOn (world (lines ts) [] (synthBound GREx.evars GREx.svars GREx.sp))
      ["-P".toList, "-o".toList, "out".toList, "s.spc".toList] [.promela, .output "out".toList]
      (some "s.spc".toList) ⟨GREx.evars, GREx.svars, GREx.sp⟩ :=
    ⟨⟨lines ts, ⟨⟨["-P".toList, "-o".toList, "out".toList], ["s.spc".toList],
      .cons (.flag (by decide)) (.cons (.output _) .nil), .file _ (by decide), rfl⟩, by decide, by decide, by decide, by decide,
      Or.inl ⟨_, rfl, by simp [world]⟩⟩, fileSays_lines h1 h2 FileEx.data⟩, fun h => absurd h (by decide)⟩
  have hsv : SpinVars GREx.evars GREx.svars := by
    refine ⟨by decide, ?_, by decide, by decide +kernel, by decide⟩
    intro v hv
    have : v.1 = ['x'] ∨ v.1 = ['a'] ∨ v.1 = ['y'] ∨ v.1 = ['z'] := by
      revert v
      decide
    rcases this with h | h | h | h <;> rw [h] <;> exact ⟨_, [], rfl, by decide, by decide, by decide, by decide⟩
  obtain ⟨st, o, text, ms, P, φ, k1, k2, k3, k4, k5, k6, k7⟩ := main_promela hrun good1 rfl realizable1
    (by exact (by decide +kernel : ∃ s : IState GREx.evars GREx.svars, s ∈ initSet (GREx.sp.einit.map fmStates) ∧
      s ∈ initSet (GREx.sp.sinit.map fmStates)))
    pfx1 (by unfold IntDecls; decide) (world_sensible _ _ _) (fun h => absurd h (by decide)) (le_refl _)
    (by
      intro f hf
      have : (meaning [.promela, .output "out".toList] (some "s.spc".toList)).output = some "out".toList := by decide
      rw [this] at hf
      cases hf
      simp [world])
    (by decide) hsv (by decide) (ver := "0.13".toList) (by decide) (fuel := 6) (by decide)
  refine ⟨_, st, o, text, ms, P, φ, k1, k2, k3, k4, k5, k6, fun fine => k7 fine (Or.inr ?_)⟩
  intro f hf
  have : f = .var false ['a'] ∨ f = .cmp .eq false ['z'] 3 := by simpa [GREx.sp] using hf
  rcases this with rfl | rfl
  · exact ⟨['a'], by decide⟩
  · exact ⟨['z'], by decide⟩

end MainEx

end Gr1c
