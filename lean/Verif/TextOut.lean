import Verif.RgProps
import Verif.DotProps
import Verif.ListProps

/-!
# C59, C60: from the command line to a text in any format
-/

namespace Gr1c

/-! ## Names and domains of a file -/

theorem plain_ident {w : List Char} (h : IsIdent w) : ∀ c ∈ w, XPlain c := by
  obtain ⟨x, xs, e, h1, h2⟩ := h
  intro c hc
  rw [e] at hc
  have hid : isIdChar c = true := by
    rcases List.mem_cons.1 hc with rfl | hc
    · simp [isIdChar, h1]
    · exact h2 c hc
  refine ⟨?_, ?_, ?_⟩ <;> (rintro rfl; revert hid; decide)

/-- What every file gives. -/
structure GoodVars (ev sv : VarList) : Prop where
  plain : PlainNames (ev ++ sv)
  xml : ∀ v ∈ ev ++ sv, ∀ c ∈ v.1, XPlain c
  least : ∀ v ∈ ev ++ sv, -1 ≤ v.2

theorem goodDecls_least {ds : Decls} (h : GoodDecls ds) : ∀ v ∈ ds, -1 ≤ v.2 := fun v hv => by
  rcases h v hv with h | h <;> omega

theorem FileSays.vars {text : List Char} {d : FileData} (h : FileSays text d) : GoodVars d.evars d.svars := by
  refine ⟨h.plain, fun v hv => plain_ident (h.idents v hv), ?_⟩
  obtain ⟨ts, ss, hl, hf, hd⟩ := h
  have := readSecs_good hf .empty d (fun x hx => absurd hx (by simp [FileData.empty]))
    (fun x hx => absurd hx (by simp [FileData.empty])) hd
  intro v hv
  rcases List.mem_append.1 hv with hv | hv
  · exact goodDecls_least this.1 v hv
  · exact goodDecls_least this.2 v hv

theorem RgFileSays.vars {text : List Char} {d : FileData} (h : RgFileSays text d) : GoodVars d.evars d.svars := by
  have hg := h.parsed.2
  refine ⟨h.plain, ?_, ?_⟩
  · obtain ⟨ts, ss, h1, h2, h3⟩ := h
    intro v hv
    refine plain_ident ?_
    rcases readSecs_vars h3 v hv with h | ⟨env, ds, h, h'⟩
    · cases h
    · exact layout_ident h1 _ (fileToks_vars h2 env ds h v h')
  · intro v hv
    rcases List.mem_append.1 hv with hv | hv
    · exact goodDecls_least hg.1 v hv
    · exact goodDecls_least hg.2 v hv

/-! ## What a text says -/

/-- No variable has an integer domain. -/
def NoInts (ev sv : VarList) : Prop := ∀ v ∈ ev ++ sv, v.2 < 0

instance (ev sv : VarList) : Decidable (NoInts ev sv) := inferInstanceAs (Decidable (∀ v ∈ ev ++ sv, v.2 < 0))

/-- The text describes the automaton, in the sense of its format. In `dot`, the text of each node must have less than 4094
characters; otherwise the text is no graph. In `aut`, numbers must fit into `int` and lines into 4094 characters. -/
def TextSays (fmt : OutFmt) (ev sv : VarList) (a : Aut ℤ (List ℤ)) (s : List Char) : Prop :=
  match fmt with
  | .json => (∃ j, JsonText j s) ∧ ∀ j, JsonText j s → j.IsStrategy ev sv a
  | .aut => a ≠ [] → ev ++ sv ≠ [] → a.length ≤ 2 ^ 31 →
      (∀ n ∈ a, (∀ v ∈ n.state, IsInt v) ∧ IsInt n.mode ∧ IsInt n.rgrad) →
      (∀ i n, a[i]? = some n → (nodeText 1 a i n).length < 4095) →
      ∃ l', loadVer (ev.length + sv.length) s = .ok l' 1 ∧ SameAut 1 a l'
  | .text => ∃ ls, readTxt s = some ls ∧ TxtSays a ls
  | .tulip => ∃ d, readTulip s = some d ∧ TulipSays ev sv a d
  | .dot =>
    ((∀ k n, a[k]? = some n → (nodeLabel (decide (NoInts ev sv)) false true ev.names sv.names k n).length < 4094) ∧
      ∃ g, readDot s = some g ∧ Draws (decide (NoInts ev sv)) false true ev.names sv.names a g) ∨
    ((∃ k n, a[k]? = some n ∧ 4094 ≤ (nodeLabel (decide (NoInts ev sv)) false true ev.names sv.names k n).length) ∧
      readDot s = none)

theorem dotFlags_eq (ev sv : VarList) : dotFlags ev sv = ⟨decide (NoInts ev sv), false, true⟩ := by
  unfold dotFlags
  congr 1
  rw [Bool.eq_iff_iff, List.all_eq_true, decide_eq_true_iff]
  simp [NoInts]

/-- **C59, C60.** Whatever the format is, the text written describes the automaton. -/
theorem written_says {E : JsonEnv} (hE : E.Sane) (hs : E.stamp ≠ none) {o : Output} (hv : GoodVars o.evars o.svars)
    (hn : (o.aut.map ANode.id).Nodup) (hc : ∀ n ∈ o.aut, ∀ t ∈ n.trans, ∃ m ∈ o.aut, m.id = t)
    (hl : ∀ n ∈ o.aut, n.state.length = o.evars.length + o.svars.length) :
    ∃ s, writeOut E o = some (.ok s) ∧ TextSays o.format o.evars o.svars o.aut s := by
  obtain ⟨dest, fmt, ev, sv, a⟩ := o
  simp only at hv hn hc hl
  have hok : DotOk ev sv a := by
    refine ⟨hn, hc, hl, ?_⟩
    intro x hx
    have : x ∈ (ev ++ sv).map Prod.fst := by simpa [VarList.names] using hx
    obtain ⟨v, hv', rfl⟩ := List.mem_map.1 this
    exact hv.plain v hv'
  cases fmt with
  | json =>
    obtain ⟨s, k1, k2, k3⟩ := json_dump_reads hE hs (fun v hv' => hv.plain v (List.mem_append_left _ hv'))
      (fun v hv' => hv.plain v (List.mem_append_right _ hv')) hl hn
    exact ⟨s, by simp only [writeOut, k1], k2, k3⟩
  | aut =>
    refine ⟨(dumpVer a 1).2, rfl, fun h0 h1 h2 h3 h4 => ?_⟩
    have hlen : 1 ≤ ev.length + sv.length := by
      rw [← List.length_append]
      exact List.length_pos_iff.2 h1
    obtain ⟨l', -, e2, e3⟩ := dump_load (len := ev.length + sv.length) (ver := 1) (Or.inr rfl) hlen ⟨hn, hc, hl, h2, h3⟩ h0 h4
    exact ⟨l', e2, e3⟩
  | text =>
    obtain ⟨s, ls, k1, k2, k3⟩ := txt_dump_says hn hc hl
    exact ⟨s, by simp only [writeOut, k1, Option.map_some], ls, k2, k3⟩
  | tulip =>
    obtain ⟨s, d, k1, k2, k3⟩ := tulip_dump_says hn hc hl hv.xml hv.least
    exact ⟨s, by simp only [writeOut, k1, Option.map_some], d, k2, k3⟩
  | dot =>
    by_cases hlong : ∀ k n, a[k]? = some n → (nodeLabel (decide (NoInts ev sv)) false true ev.names sv.names k n).length < 4094
    · obtain ⟨s, g, k1, k2, k3⟩ := dot_dump_draws (f := ⟨decide (NoInts ev sv), false, true⟩) hok hlong
      refine ⟨s, by simp only [writeOut, dotFlags_eq, k1], .inl ⟨hlong, g, k2, k3⟩⟩
    · simp only [not_forall, not_lt] at hlong
      obtain ⟨k, n, hk, hlen⟩ := hlong
      obtain ⟨s, k1, k2⟩ := dot_dump_long (f := ⟨decide (NoInts ev sv), false, true⟩) hok ⟨k, n, hk, hlen⟩
      refine ⟨s, by simp only [writeOut, dotFlags_eq, k1], .inr ⟨⟨k, n, hk, hlen⟩, k2⟩⟩

/-- **C59, C60, C53.** `gr1c` in any format: if the specification is realizable and has an initial state, the program ends
with status 0 after writing, to the requested place, a text that describes a strategy for the specification over the declared
values. -/
theorem main_writes {w : World} {args : List Arg} {os : List Opt} {f : Option Arg} {d : FileData}
    (h : RunsOn w args os f d) (hg : GoodSpec d (meaning os f).init) (hr : (meaning os f).run = .synthesis)
    (hv : SpecRealizable d.evars d.svars (meaning os f).init d.sp)
    (hi : SpecHasInit d.evars d.svars (meaning os f).init d.sp)
    (hp : PfxFree (d.evars ++ d.svars)) (hI : IntDecls (d.evars ++ d.svars))
    (hw : w.Sensible) (henv : d.evars ≠ [] ∨ ∀ f ∈ d.sp.etrans, f = .const 1)
    (hfuel : synthBound d.evars d.svars d.sp ≤ w.fuel) (hout : w.canOutput (meaning os f))
    {E : JsonEnv} (hE : E.Sane) (hs : E.stamp ≠ none) :
    ∃ (st : Aut ℤ (IState d.evars d.svars)) (o : Output) (s : List Char),
      SpecStrategy d.evars d.svars (meaning os f).init d.sp st ∧ (∃ x ∈ st, x.initial = true) ∧
      gr1cMain w args = .exit 0 (some o) ∧ o.dest = (meaning os f).output ∧
      writeOut E o = some (.ok s) ∧ TextSays (meaning os f).format d.evars d.svars (withStates stateValues st) s := by
  obtain ⟨st, h1, h2, h3⟩ := main_strategy h hg hr hv hi hp hI hw henv hfuel hout
  obtain ⟨text, -, hsays⟩ := h.called
  obtain ⟨s, k1, k2⟩ := written_says hE hs (o := ⟨(meaning os f).output, (meaning os f).format, d.evars, d.svars,
        withStates stateValues st⟩) hsays.vars
    (by
      have := h1.ids
      unfold withStates
      simpa [Function.comp_def] using this)
    (by
      intro n hn t ht
      obtain ⟨x, hx, rfl⟩ := List.mem_map.1 hn
      obtain ⟨y, hy, e⟩ := h1.edges x hx t ht
      exact ⟨_, List.mem_map_of_mem hy, e⟩)
    (by
      intro n hn
      obtain ⟨x, hx, rfl⟩ := List.mem_map.1 hn
      exact stateValues_length _)
  exact ⟨st, _, s, h1, h2, h3, rfl, k1, k2⟩

/-- **C59, C60, C57.** The same for `rg`. -/
theorem rg_writes {w : World} {args : List Arg} {os : List Opt} {f : Option Arg} {d : FileData}
    (h : RgRunsOn w args os f d) (hg : GoodSpec d .allInit) (h1 : d.sp.sgoals.length ≤ 1) (hs : Opt.synt ∉ os)
    (hv : RgSolvable d.evars d.svars d.sp)
    (hp : PfxFree (d.evars ++ d.svars)) (hI : IntDecls (d.evars ++ d.svars))
    (hw : w.Sensible) (henv : d.evars ≠ [] ∨ ∀ f ∈ d.sp.etrans, f = .const 1)
    (hfuel : rgBound d.evars d.svars ≤ w.fuel) (hout : w.canOutput (rgMeaning os f))
    {E : JsonEnv} (hE : E.Sane) (hst : E.stamp ≠ none) :
    ∃ (st : Aut ℤ (IState d.evars d.svars)) (o : Output) (s : List Char),
      RgStrategy d.evars d.svars d.sp st ∧ rgMain w args = .exit 0 (some o) ∧ o.dest = (rgMeaning os f).output ∧
      writeOut E o = some (.ok s) ∧ TextSays (rgMeaning os f).format d.evars d.svars (withStates stateValues st) s := by
  obtain ⟨st, h2, -, -, h3⟩ := rg_solved h hg h1 hs hv hp hI hw henv hfuel hout
  obtain ⟨text, -, hsays⟩ := h.called
  obtain ⟨s, k1, k2⟩ := written_says hE hst (o := ⟨(rgMeaning os f).output, (rgMeaning os f).format, d.evars, d.svars,
        withStates stateValues st⟩) hsays.vars
    (by
      have := h2.ids
      unfold withStates
      simpa [Function.comp_def] using this)
    (by
      intro n hn t ht
      obtain ⟨x, hx, rfl⟩ := List.mem_map.1 hn
      obtain ⟨y, hy, e⟩ := h2.edges x hx t ht
      exact ⟨_, List.mem_map_of_mem hy, e⟩)
    (by
      intro n hn
      obtain ⟨x, hx, rfl⟩ := List.mem_map.1 hn
      exact stateValues_length _)
  exact ⟨st, _, s, h2, h3, rfl, k1, k2⟩

namespace MainEx

theorem command (t : String) : ∀ v ∈ commandWords, ["-t".toList, t.toList, "s.spc".toList].head? ≠ some v.toList := by
  intro v hv
  rw [List.head?_cons]
  revert v
  decide

/-- `gr1c -t txt s.spc`, `gr1c -t dot s.spc` and so on, on the specification `GREx`: all hypotheses of `main_writes` hold. -/
example (fmt : OutFmt) (t : String) (ht : (fmt, t) ∈ fmtWords) :
    ∃ (w : World) (st : Aut ℤ (IState GREx.evars GREx.svars)) (o : Output) (s : List Char),
    SpecStrategy GREx.evars GREx.svars .allEnvExistSys GREx.sp st ∧ (∃ x ∈ st, x.initial = true) ∧
    gr1cMain w ["-t".toList, t.toList, "s.spc".toList] = .exit 0 (some o) ∧ o.dest = none ∧ writeOut JsonEx.env o = some (.ok s) ∧
    TextSays fmt GREx.evars GREx.svars (withStates stateValues st) s := by
  obtain ⟨ts, h1, h2, h3⟩ := FileEx.toks
  have hcl : CmdLine false [.format fmt] (some "s.spc".toList) ["-t".toList, t.toList, "s.spc".toList] :=
    ⟨["-t".toList, t.toList ++ []], ["s.spc".toList], .cons (.format [] (Or.inr rfl) ht) .nil, .file _ (by decide),
      by rw [List.append_nil]; rfl⟩
  have hrun : RunsOn (world (lines ts) [] (synthBound GREx.evars GREx.svars GREx.sp)) ["-t".toList, t.toList, "s.spc".toList]
      [.format fmt] (some "s.spc".toList) ⟨GREx.evars, GREx.svars, GREx.sp⟩ :=
    ⟨⟨lines ts, ⟨hcl, command t, by simp, by simp, by simp,
      Or.inl ⟨_, rfl, by simp [world]⟩⟩, fileSays_lines h1 h2 FileEx.data⟩, fun h => absurd h (by simp)⟩
  have hm : (meaning [.format fmt] (some "s.spc".toList)).init = .allEnvExistSys ∧
      (meaning [.format fmt] (some "s.spc".toList)).run = .synthesis ∧
      (meaning [.format fmt] (some "s.spc".toList)).output = none ∧
      (meaning [.format fmt] (some "s.spc".toList)).format = fmt := by cases fmt <;> decide
  obtain ⟨st, o, s, k1, k2, k3, k4, k5, k6⟩ := main_writes hrun (by rw [hm.1]; exact good1) hm.2.1 (by rw [hm.1]; exact realizable1)
    (by rw [hm.1]; exact (by decide +kernel : ∃ s : IState GREx.evars GREx.svars, s ∈ initSet (GREx.sp.einit.map fmStates) ∧
      s ∈ initSet (GREx.sp.sinit.map fmStates)))
    pfx1 (by unfold IntDecls; decide) (world_sensible _ _ _) (Or.inl (by decide)) (le_refl _)
    (by
      intro f hf
      rw [hm.2.2.1] at hf
      cases hf) JsonEx.env_sane (by decide)
  rw [hm.1] at k1
  rw [hm.2.2.1] at k4
  rw [hm.2.2.2] at k6
  exact ⟨_, st, o, s, k1, k2, k3, k4, k5, k6⟩

end MainEx

/-! ## A graph that is cut off -/

namespace DotLong

/-- `SYS: v; SYSINIT: v;` for a Boolean variable `v`. -/
def sp (v : Name) : FSpec := ⟨none, some (.var false v), [], [], [], []⟩

def data (v : Name) : FileData := ⟨[], [(v, -1)], sp v⟩

theorem readable {v : Name} (h : Writable (.ident v)) : ∃ text, FileSays text (data v) := by
  have ht : FileToks false [.vars false [(v, -1)], .init false (some (.var false v))] _ :=
    .cons (.vars false _ (by intro d hd; simp at hd; rw [hd]; exact Or.inl rfl))
      (.cons (.init1 false (.up (by omega) (.up (by omega) (.up (by omega) (.var false v (by simp)))))) .nil)
  refine ⟨_, MainEx.fileSays_lines ht ?_ rfl⟩
  intro t hm
  simp [declToks, primeToks] at hm
  rcases hm with rfl | rfl | rfl | rfl | rfl | rfl <;> first | exact h | trivial | decide

theorem good (v : Name) : GoodSpec (data v) .allEnvExistSys := by
  refine ⟨⟨by simp [data], by simp [data, expDecls]⟩, ?_, ?_, ?_⟩
  · constructor <;> simp [data, sp, Typed, Fm.bvars, Fm.zvars]
  · constructor <;> simp [data, sp, Scoped, Fm.vars]
  · intro d hd h0
    simp [data] at hd
    rw [hd] at h0
    have h0 : (-1 : ℤ) = 0 := h0
    omega

theorem winnable (v : Name) (s : IState (data v).evars (data v).svars) :
    Winnable (intGame (data v).evars (data v).svars (data v).sp) ((data v).sp.egoals.map fmStates) ((sysGoals (data v).sp).map fmStates) s := by
  refine ⟨fun h _ => h.head?.map Prod.snd, ?_, ?_⟩
  · intro s h _ e' _
    exact ⟨s.2, rfl, rfl⟩
  · intro π _ _ i N
    refine ⟨N, le_refl N, ?_⟩
    have : ∀ B ∈ (sysGoals (data v).sp).map fmStates, π N ∈ B := by
      intro B hB
      have : B = fmStates (.const 1) := List.mem_singleton.1 hB
      rw [this]
      simp [fmStates, Fm.eval]
    exact this _ (List.get_mem _ _)

/-- The state in which `v` holds. -/
def one (v : Name) : DVal (data v).svars := fun i => match i with | ⟨0, _⟩ => (⟨1, by decide⟩ : Fin 2)

theorem stVal_eq (v : Name) (s : IState (data v).evars (data v).svars) : stVal s v = (s.2 ⟨0, Nat.one_pos⟩).val := by
  have e : ((data v).svars.map Prod.fst).idxOf v = 0 := by simp [data]
  unfold stVal valOfName
  rw [if_neg (by simp [data]), dif_pos (by rw [e]; exact Nat.one_pos)]
  have key : ∀ (j : ℕ) (hj : j < (data v).svars.length), j = 0 → ((s.2 ⟨j, hj⟩).val : ℤ) = (s.2 ⟨0, Nat.one_pos⟩).val := by
    rintro _ _ rfl
    rfl
  exact key _ _ e

theorem holds_iff (v : Name) (s : IState (data v).evars (data v).svars) :
    s ∈ fmStates (.var false v) ↔ (s.2 ⟨0, Nat.one_pos⟩).val ≠ 0 := by
  simp [fmStates, Fm.eval, intEnv, stVal_eq]

theorem realizable (v : Name) : SpecRealizable (data v).evars (data v).svars .allEnvExistSys (data v).sp := by
  intro e _
  refine ⟨one v, Finset.mem_univ _, ?_, winnable v _⟩
  exact (holds_iff v (e, one v)).2 (by show (1 : ℕ) ≠ 0; decide)

theorem hasInit (v : Name) : SpecHasInit (data v).evars (data v).svars .allEnvExistSys (data v).sp :=
  ⟨(fun i => absurd i.isLt (by simp [data]), one v), Finset.mem_univ _,
    (holds_iff v _).2 (by show (1 : ℕ) ≠ 0; decide)⟩

/-- The text of a node in which `v` holds contains the name. -/
theorem label_length (v : Name) (k : ℕ) (n : ANode ℤ (List ℤ)) (x : ℤ) (hx : x ≠ 0) (hn : n.state = [x]) :
    v.length ≤ (nodeLabel true false true (VarList.names []) (VarList.names [(v, -1)]) k n).length := by
  simp [nodeLabel, hn, VarList.names, shownVals, hx, braced, List.intercalate]
  omega

/-- **C59.** For all names with 4094 characters or more: `gr1c -t dot` on `SYS: v; SYSINIT: v;`, which is realizable, ends with
status 0 and the text written is no graph. -/
theorem cut {v : Name} (hv : Writable (.ident v)) (hlen : 4094 ≤ v.length) {E : JsonEnv} (hE : E.Sane) (hs : E.stamp ≠ none) :
    ∃ (w : World) (text : List Char) (o : Output) (s : List Char), w.Sensible ∧ w.file "s.spc".toList = some text ∧
      FileSays text (data v) ∧ gr1cMain w ["-t".toList, "dot".toList, "s.spc".toList] = .exit 0 (some o) ∧
      writeOut E o = some (.ok s) ∧ readDot s = none := by
  obtain ⟨text, htext⟩ := readable hv
  have hcl : CmdLine false [.format .dot] (some "s.spc".toList) ["-t".toList, "dot".toList, "s.spc".toList] :=
    ⟨["-t".toList, "dot".toList ++ []], ["s.spc".toList], .cons (.format [] (Or.inr rfl) (by decide)) .nil, .file _ (by decide), rfl⟩
  have hrun : RunsOn (MainEx.world text [] (synthBound (data v).evars (data v).svars (data v).sp))
      ["-t".toList, "dot".toList, "s.spc".toList] [.format .dot] (some "s.spc".toList) (data v) :=
    ⟨⟨text, ⟨hcl, MainEx.command "dot", by simp, by simp, by simp,
      Or.inl ⟨_, rfl, by simp [MainEx.world]⟩⟩, htext⟩, fun h => absurd h (by simp)⟩
  obtain ⟨st, o, s, k1, k2, k3, k4, k5, k6⟩ := main_writes hrun (good v) rfl (realizable v) (hasInit v)
    ⟨by
      intro A d B he h0
      have : d ∈ (data v).evars ++ (data v).svars := by rw [he]; simp
      have : d = (v, -1) := by simpa [data] using this
      rw [this] at h0
      exact absurd h0 (by show ¬ (0 : ℤ) ≤ -1; decide),
    by
      intro d hd h0
      have : d = (v, -1) := by simpa [data] using hd
      rw [this] at h0
      exact absurd h0 (by show ¬ (0 : ℤ) ≤ -1; decide)⟩
    (by
      intro d hd
      have : d = (v, -1) := by simpa [data] using hd
      rw [this]
      show (-1 : ℤ) < 2 ^ 31
      decide)
    (MainEx.world_sensible _ _ _) (Or.inr (by simp [data, sp])) (le_refl _)
    (by intro f hf; cases hf) hE hs
  refine ⟨_, text, o, s, MainEx.world_sensible _ _ _, by simp [MainEx.world], htext, k3, k5, ?_⟩
  rcases k6 with ⟨h, -⟩ | ⟨-, h⟩
  · exfalso
    obtain ⟨x, hx1, n, hn1, hn2⟩ := k1.required (fun i => absurd i.isLt (by simp [data])) ⟨one v, Finset.mem_univ _⟩
    have hx1 := (holds_iff v _).1 hx1
    have hmem : ({ n with state := stateValues n.state } : ANode ℤ (List ℤ)) ∈ withStates stateValues st :=
      List.mem_map_of_mem hn1
    obtain ⟨k, hk⟩ := List.mem_iff_getElem?.1 hmem
    have h1 := h k _ hk
    have hno : NoInts (data v).evars (data v).svars := by
      intro d hd
      have : d = (v, -1) := by simpa [data] using hd
      rw [this]
      show (-1 : ℤ) < 0
      decide
    rw [decide_eq_true hno] at h1
    have h2 := label_length v k { n with state := stateValues n.state } ((x ⟨0, Nat.one_pos⟩).val : ℤ) (by exact_mod_cast hx1) (by
      rw [hn2]
      rfl)
    have h3 := lt_of_le_of_lt h2 h1
    omega
  · exact h

/-- Such names exist. -/
example : ∃ (w : World) (o : Output) (s : List Char), w.Sensible ∧
    gr1cMain w ["-t".toList, "dot".toList, "s.spc".toList] = .exit 0 (some o) ∧
    writeOut JsonEx.env o = some (.ok s) ∧ readDot s = none := by
  have key : ∃ v : Name, Writable (.ident v) ∧ 4094 ≤ v.length := by
    refine ⟨'a' :: List.replicate 4100 'a', ⟨⟨_, _, rfl, by decide, fun d hd => ?_⟩, ?_, ?_⟩, ?_⟩
    · rw [List.eq_of_mem_replicate hd]
      decide
    · intro h
      have h2 : some 'a' = some 'T' := congrArg List.head? h
      exact absurd h2 (by decide)
    · intro h
      have h2 : some 'a' = some 'F' := congrArg List.head? h
      exact absurd h2 (by decide)
    · rw [List.length_cons, List.length_replicate]
      omega
  obtain ⟨v, h1, h2⟩ := key
  obtain ⟨w, -, o, s, k1, -, -, k2, k3, k4⟩ := cut h1 h2 JsonEx.env_sane (by decide : JsonEx.env.stamp ≠ none)
  exact ⟨w, o, s, k1, k2, k3, k4⟩

end DotLong

end Gr1c
