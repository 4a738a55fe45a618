import Verif.SupportProps

/-!
# C67, C68: examples, and what `printwin` misses
-/

namespace Gr1c

namespace PwinEx

/-- One file, and cubes that are covers. -/
noncomputable def world (text : List Char) : World :=
  { MainEx.world text [] 0 with cover := fun _ b => mintermCover b }

theorem cover_ok (text : List Char) : ∀ N b, IsCover b ((world text).cover N b) := fun _ b => mintermCover_isCover b

end PwinEx

/-- All hypotheses of `printwin_lists` hold for `GREx`, whose environment variable `x` has the values 0, 1 and 2. -/
example : ∃ text : List Char, (PwinEx.world text).file "s.spc".toList = some text ∧
    FileSays text ⟨GREx.evars, GREx.svars, GREx.sp⟩ ∧ GoodSpec ⟨GREx.evars, GREx.svars, GREx.sp⟩ .allEnvExistSys ∧
    (∀ N b, IsCover b ((PwinEx.world text).cover N b)) ∧ 0 ∈ logEx.live ∧
    SpecRealizable GREx.evars GREx.svars .allEnvExistSys GREx.sp := by
  obtain ⟨ts, h1, h2, h3⟩ := FileEx.toks
  exact ⟨lines ts, by simp [PwinEx.world, MainEx.world], MainEx.fileSays_lines h1 h2 FileEx.data, MainEx.good1, PwinEx.cover_ok _,
    by decide, MainEx.realizable1⟩

/-- **C67, a defect.** There is a file for which the system has a winning strategy from some state, but `printwin` lists nothing and
passes a NULL pointer to `Cudd_ForeachCube`. -/
theorem printwin_null : ∃ (text : List Char) (d : FileData), FileSays text d ∧ GoodSpec d .allEnvExistSys ∧
    (∃ s : IState d.evars d.svars,
      Winnable (intGame d.evars d.svars d.sp) (d.sp.egoals.map fmStates) ((sysGoals d.sp).map fmStates) s) ∧
    ∀ (w : World) f stamp rest σ, w.file f = some text → pwinMain w stamp (f :: rest) σ = .nullSet := by
  obtain ⟨text, ht⟩ := MainEx.says2
  refine ⟨text, MainEx.d2, ht, MainEx.good2, ?_, fun w f stamp rest σ hf =>
    printwin_unrealizable stamp rest hf ht MainEx.good2 σ MainEx.unrealizable2⟩
  obtain ⟨W, hW⟩ := (winning_set_defined (intGame MainEx.d2.evars MainEx.d2.svars MainEx.d2.sp) (MainEx.d2.sp.egoals.map fmStates)
    ((sysGoals MainEx.d2.sp).map fmStates)).2 (by decide)
  have hne : W.Nonempty := by
    have key : computeWinningSet (intGame MainEx.d2.evars MainEx.d2.svars MainEx.d2.sp) (MainEx.d2.sp.egoals.map fmStates)
      ((sysGoals MainEx.d2.sp).map fmStates) ≠ some ∅ := by decide +kernel
    rw [Finset.nonempty_iff_ne_empty]
    rintro rfl
    exact key hW
  obtain ⟨s, hs⟩ := hne
  exact ⟨s, (winning_set_exact _ _ _ W hW s).1 hs⟩

/-- **C67, a defect.** There is a file with a realizable specification for which `printwin` lists a vector of bits that encodes no
state. -/
theorem printwin_extra : ∃ (text : List Char) (d : FileData), FileSays text d ∧ GoodSpec d .allEnvExistSys ∧
    SpecRealizable d.evars d.svars .allEnvExistSys d.sp ∧
    ∀ (w : World) f stamp rest (σ : LogSt), w.file f = some text → (∀ N b, IsCover b (w.cover N b)) → 0 ∈ σ.live →
      ∃ (τ : LogSt) (t : List Char) (A : XState d.evars d.svars → Prop), pwinMain w stamp (f :: rest) σ = .exit 0 τ ∧
        τ.text = (σ.more 0 t).text ∧ ListsStates t A ∧ ∃ s', A s' ∧ ∀ s : IState d.evars d.svars, encState s ≠ s' := by
  obtain ⟨ts, h1, h2, h3⟩ := FileEx.toks
  have hs := MainEx.fileSays_lines h1 h2 FileEx.data
  refine ⟨_, ⟨GREx.evars, GREx.svars, GREx.sp⟩, hs, MainEx.good1, MainEx.realizable1, fun w f stamp rest σ hf hc h0 => ?_⟩
  obtain ⟨τ, t, A, e1, e2, e3, e4, e5⟩ := printwin_lists stamp rest hf hs MainEx.good1 hc h0 MainEx.realizable1
  -- three values and one bit give less than eight vectors
  have hcard : ∃ v : Val (expDecls GREx.evars).length, ∀ e : DVal GREx.evars, encVal GREx.evars e ≠ v := by
    by_contra hcon
    push Not at hcon
    have hsurj : Function.Surjective (encVal GREx.evars) := hcon
    have := Fintype.card_le_of_surjective _ hsurj
    revert this
    decide +kernel
  obtain ⟨v, hv⟩ := hcard
  exact ⟨τ, t, A, e1, e2, e3, (v, fun _ => false), e5 _ hv, fun s he => hv s.1 (congrArg Prod.fst he)⟩

/-- Nine bits are listed as 0110 0001 1. -/
example : Fours "011000011".toList "0110 0001 1".toList :=
  .more (a := "0110".toList) rfl (by decide) (.more (a := "0001".toList) rfl (by decide) (.last _ (by decide)))

/-- Lines for a specification. -/
example : specLines ["a".toList] ["b".toList, "c".toList] none (some "b".toList) [] ["b".toList, "(b->c')".toList] [] ["c".toList] =
    ["ENV: a;", "SYS: b c;", "ENV INIT:  ;", "SYS INIT:  b;", "ENV TRANS:  (none);", "SYS TRANS:  [] b & [] (b->c');",
      "ENV GOALS:  (none);", "SYS GOALS:  []<> c;"].map String.toList := by decide +kernel

end Gr1c
