import Verif.MainProps
import Verif.JsonProps
import Verif.AutIOProps
import Verif.Dot
import Verif.ListDump

/-!
# C56: from the command line to the text of the strategy

`/repo/src/main.c` 655-675 and `/repo/src/rg_main.c` 567-583 select a writer by the format.
-/

namespace Gr1c

/-- The flags for `dot_aut_dump`, `/repo/src/main.c` 658-664: `nonbool_var_list` has the variables whose value is not
negative (`/repo/src/util.c` 78-112). -/
def dotFlags (ev sv : VarList) : DotFlags := ⟨(ev ++ sv).all fun v => v.2 < 0, false, true⟩

/-- What is written for an output, `/repo/src/main.c` 655-675. Values returned by the writers are ignored there. `none`: a
state array is read beyond its end. -/
def writeOut (E : JsonEnv) (o : Output) : Option JsonRes :=
  match o.format with
  | .json => some (jsonDump E o.aut o.evars o.svars)
  | .aut => some (.ok (dumpVer o.aut 1).2)
  | .text => (listDump o.aut (o.evars.length + o.svars.length)).map .ok
  | .tulip => (tulipDump o.aut o.evars o.svars).map .ok
  | .dot =>
    match dotDump (dotFlags o.evars o.svars) o.aut o.evars o.svars with
    | .ub => none
    | .done _ s => some (.ok s)

/-! ## Names in a file are identifiers -/

theorem layout_ident {b : Bool} {ts : List Tok} {s : List Char} (h : Layout b ts s) :
    ∀ w, Tok.ident w ∈ ts → IsIdent w := by
  induction h with
  | done => simp
  | blank _ _ _ _ _ _ ih => exact ih
  | newline _ _ _ _ ih => exact ih
  | comment _ _ _ _ _ _ ih => exact ih
  | header _ _ t w hw _ _ _ ih =>
    intro v hv
    rcases List.mem_cons.1 hv with rfl | hv
    · simp [sectionNames] at hw
    · exact ih v hv
  | tok _ t w hw _ _ _ _ ih =>
    intro v hv
    rcases List.mem_cons.1 hv with rfl | hv
    · cases hw with
      | fixed _ _ h => simp [fixedSpelling] at h
      | ident _ h => exact h
    · exact ih v hv

theorem declToks_ident (d : Name × ℤ) : Tok.ident d.1 ∈ declToks d := by
  unfold declToks
  split <;> simp

theorem fileToks_vars {rg : Bool} {ss : List Sec} {ts : List Tok} (h : FileToks rg ss ts) :
    ∀ env ds, Sec.vars env ds ∈ ss → ∀ d ∈ ds, Tok.ident d.1 ∈ ts := by
  induction h with
  | nil => simp
  | cons hs _ ih =>
    intro env ds hm d hd
    rcases List.mem_cons.1 hm with rfl | hm
    · cases hs with
      | vars =>
        refine List.mem_append_left _ (List.mem_cons_of_mem _ ?_)
        exact List.mem_flatMap.2 ⟨d, hd, declToks_ident d⟩
    · exact List.mem_append_right _ (List.mem_cons_of_mem _ (ih env ds hm d hd))

theorem sec_add_vars {d d' : FileData} {s : Sec} (h : s.add d = some d') :
    ∀ v, v ∈ d'.evars ++ d'.svars → v ∈ d.evars ++ d.svars ∨ ∃ env ds, s = .vars env ds ∧ v ∈ ds := by
  intro v hv
  cases s with
  | vars env ds =>
    simp only [Sec.add] at h
    split at h
    · cases h
      cases env
      · simp only [Bool.false_eq_true, if_false, List.mem_append] at hv
        rcases hv with hv | hv | hv
        · exact Or.inl (List.mem_append_left _ hv)
        · exact Or.inl (List.mem_append_right _ hv)
        · exact Or.inr ⟨_, _, rfl, hv⟩
      · simp only [if_true, List.mem_append] at hv
        rcases hv with (hv | hv) | hv
        · exact Or.inl (List.mem_append_left _ hv)
        · exact Or.inr ⟨_, _, rfl, hv⟩
        · exact Or.inl (List.mem_append_right _ hv)
    · cases h
  | init env f =>
    left
    cases env <;> simp only [Sec.add] at h <;> split at h <;> cases h <;> exact hv
  | trans env fs => left; cases env <;> simp only [Sec.add] at h <;> cases h <;> exact hv
  | goal env fs => left; cases env <;> simp only [Sec.add] at h <;> cases h <;> exact hv

theorem readSecs_vars : ∀ {ss : List Sec} {d d' : FileData}, readSecs d ss = some d' →
    ∀ v ∈ d'.evars ++ d'.svars, v ∈ d.evars ++ d.svars ∨ ∃ env ds, Sec.vars env ds ∈ ss ∧ v ∈ ds := by
  intro ss
  induction ss with
  | nil =>
    intro d d' h v hv
    simp only [readSecs, Option.some.injEq] at h
    exact Or.inl (h ▸ hv)
  | cons s ss ih =>
    intro d d' h v hv
    simp only [readSecs] at h
    cases hs : s.add d with
    | none => rw [hs] at h; cases h
    | some d1 =>
      rw [hs] at h
      rcases ih h v hv with h1 | ⟨env, ds, h1, h2⟩
      · rcases sec_add_vars hs v h1 with h2 | ⟨env, ds, rfl, h2⟩
        · exact Or.inl h2
        · exact Or.inr ⟨env, ds, List.mem_cons_self .., h2⟩
      · exact Or.inr ⟨env, ds, List.mem_cons_of_mem _ h1, h2⟩

/-- Every declared name is an identifier. -/
theorem FileSays.idents {text : List Char} {d : FileData} (h : FileSays text d) :
    ∀ v ∈ d.evars ++ d.svars, IsIdent v.1 := by
  obtain ⟨ts, ss, h1, h2, h3⟩ := h
  intro v hv
  rcases readSecs_vars h3 v hv with h | ⟨env, ds, h, h'⟩
  · cases h
  · exact layout_ident h1 _ (fileToks_vars h2 env ds h v h')

theorem plain_idChar {c : Char} (h : isIdChar c = true) : JPlain c := by
  refine ⟨?_, ?_, ?_⟩
  · rintro rfl; revert h; decide
  · rintro rfl; revert h; decide
  · have e1 : '0'.toNat = 48 := rfl
    have e2 : 'a'.toNat = 97 := rfl
    have e3 : 'A'.toNat = 65 := rfl
    simp only [isIdChar, isIdStart, isDig, Bool.or_eq_true, Bool.and_eq_true, decide_eq_true_eq, beq_iff_eq] at h
    rcases h with ((((h | h) | rfl) | h) | rfl)
    · omega
    · omega
    · decide
    · omega
    · decide

theorem FileSays.plain {text : List Char} {d : FileData} (h : FileSays text d) : PlainNames (d.evars ++ d.svars) := by
  intro v hv c hc
  obtain ⟨x, xs, e, h1, h2⟩ := h.idents v hv
  rw [e] at hc
  refine plain_idChar ?_
  rcases List.mem_cons.1 hc with rfl | hc
  · simp [isIdChar, h1]
  · exact h2 c hc

theorem stateValues_length {evars svars : Decls} (s : IState evars svars) :
    (stateValues s).length = evars.length + svars.length := by
  simp [stateValues, declValues]

/-- **C56, C53.** From the command line and the text of the specification to the text of the strategy, in
the default format: if the specification is realizable and has an initial state, the program ends with
status 0 after writing, to the requested place, one JSON text that says, by the grammar of JSON and the
documented meaning of the members, the declared variables and a strategy for the specification over the
declared values. -/
theorem main_json {w : World} {args : List Arg} {os : List Opt} {f : Option Arg} {d : FileData}
    (h : RunsOn w args os f d) (hg : GoodSpec d (meaning os f).init) (hr : (meaning os f).run = .synthesis)
    (hv : SpecRealizable d.evars d.svars (meaning os f).init d.sp)
    (hi : SpecHasInit d.evars d.svars (meaning os f).init d.sp)
    (hp : PfxFree (d.evars ++ d.svars)) (hI : IntDecls (d.evars ++ d.svars))
    (hw : w.Sensible) (henv : d.evars ≠ [] ∨ ∀ f ∈ d.sp.etrans, f = .const 1)
    (hfuel : synthBound d.evars d.svars d.sp ≤ w.fuel) (hout : w.canOutput (meaning os f))
    (hf : (meaning os f).format = .json) {E : JsonEnv} (hE : E.Sane) (hs : E.stamp ≠ none) :
    ∃ (st : Aut ℤ (IState d.evars d.svars)) (o : Output) (s : List Char),
      SpecStrategy d.evars d.svars (meaning os f).init d.sp st ∧
      gr1cMain w args = .exit 0 (some o) ∧ o.dest = (meaning os f).output ∧
      writeOut E o = some (.ok s) ∧ (∃ j, JsonText j s) ∧
      ∀ j, JsonText j s → j.IsStrategy d.evars d.svars (withStates stateValues st) := by
  obtain ⟨st, h1, -, h2⟩ := main_strategy h hg hr hv hi hp hI hw henv hfuel hout
  obtain ⟨text, -, hsays⟩ := h.called
  have hpl := hsays.plain
  obtain ⟨s, k1, k2, k3⟩ := json_dump_reads hE hs (a := withStates stateValues st) (ev := d.evars) (sv := d.svars)
    (fun v hv => hpl v (List.mem_append_left _ hv)) (fun v hv => hpl v (List.mem_append_right _ hv))
    (by
      intro n hn
      obtain ⟨x, hx, rfl⟩ := List.mem_map.1 hn
      exact stateValues_length _)
    (by
      have := h1.ids
      unfold withStates
      simpa [Aut.ids, Function.comp_def] using this)
  refine ⟨st, _, s, h1, h2, rfl, ?_, k2, k3⟩
  simp only [writeOut, hf, k1]

theorem declValues_int {ds : Decls} (h : IntDecls ds) (v : DVal ds) : ∀ x ∈ declValues ds v, IsInt x := by
  intro x hx
  simp only [declValues, List.mem_ofFn] at hx
  obtain ⟨i, rfl⟩ := hx
  have h1 := h ds[i] (List.getElem_mem _)
  have h2 := (v i).isLt
  simp only [dcard] at h2
  unfold IsInt
  split at h2 <;> omega

/-- **C25, C53.** The same for the format `aut`, if the numbers that annotate nodes fit into `int` and no
line reaches 4095 characters: reading the text back gives the strategy. -/
theorem main_aut {w : World} {args : List Arg} {os : List Opt} {f : Option Arg} {d : FileData}
    (h : RunsOn w args os f d) (hg : GoodSpec d (meaning os f).init) (hr : (meaning os f).run = .synthesis)
    (hv : SpecRealizable d.evars d.svars (meaning os f).init d.sp)
    (hi : SpecHasInit d.evars d.svars (meaning os f).init d.sp)
    (hp : PfxFree (d.evars ++ d.svars)) (hI : IntDecls (d.evars ++ d.svars))
    (hw : w.Sensible) (henv : d.evars ≠ [] ∨ ∀ f ∈ d.sp.etrans, f = .const 1)
    (hfuel : synthBound d.evars d.svars d.sp ≤ w.fuel) (hout : w.canOutput (meaning os f))
    (hf : (meaning os f).format = .aut) (E : JsonEnv) (hne : d.evars ++ d.svars ≠ []) :
    ∃ (st : Aut ℤ (IState d.evars d.svars)) (o : Output) (s : List Char),
      SpecStrategy d.evars d.svars (meaning os f).init d.sp st ∧
      gr1cMain w args = .exit 0 (some o) ∧ o.dest = (meaning os f).output ∧
      writeOut E o = some (.ok s) ∧
      (st ≠ [] → st.length ≤ 2 ^ 31 → (∀ x ∈ st, IsInt x.mode ∧ IsInt x.rgrad) →
        (∀ i n, (withStates stateValues st)[i]? = some n → (nodeText 1 (withStates stateValues st) i n).length < 4095) →
        ∃ l', loadVer (d.evars.length + d.svars.length) s = .ok l' 1 ∧ SameAut 1 (withStates stateValues st) l') := by
  obtain ⟨st, h1, -, h2⟩ := main_strategy h hg hr hv hi hp hI hw henv hfuel hout
  refine ⟨st, _, (dumpVer (withStates stateValues st) 1).2, h1, h2, rfl, ?_, fun k0 k1 k2 k3 => ?_⟩
  · simp only [writeOut, hf]
  have hlen : 1 ≤ d.evars.length + d.svars.length := by
    rw [← List.length_append]
    exact List.length_pos_iff.2 hne
  obtain ⟨l', -, e2, e3⟩ := dump_load (len := d.evars.length + d.svars.length) (ver := 1) (Or.inr rfl) hlen
    (l := withStates stateValues st)
    { nodup := by
        have := h1.ids
        unfold withStates
        simpa [Function.comp_def] using this
      closed := by
        intro n hn t ht
        obtain ⟨x, hx, rfl⟩ := List.mem_map.1 hn
        obtain ⟨y, hy, e⟩ := h1.edges x hx t ht
        exact ⟨_, List.mem_map_of_mem hy, e⟩
      length := by
        intro n hn
        obtain ⟨x, hx, rfl⟩ := List.mem_map.1 hn
        exact stateValues_length _
      small := by simpa [withStates] using k1
      ints := by
        intro n hn
        obtain ⟨x, hx, rfl⟩ := List.mem_map.1 hn
        refine ⟨fun v hv => ?_, k2 x hx⟩
        rcases List.mem_append.1 hv with hv | hv
        · exact declValues_int (fun y hy => hI y (List.mem_append_left _ hy)) _ v hv
        · exact declValues_int (fun y hy => hI y (List.mem_append_right _ hy)) _ v hv }
    (by simpa [withStates] using k0) k3
  exact ⟨l', e2, e3⟩

namespace MainEx

/-- `gr1c s.spc` on the specification `GREx`: all hypotheses of `main_json` hold. -/
example : ∃ (w : World) (st : Aut ℤ (IState GREx.evars GREx.svars)) (o : Output) (s : List Char),
    SpecStrategy GREx.evars GREx.svars .allEnvExistSys GREx.sp st ∧
    gr1cMain w ["s.spc".toList] = .exit 0 (some o) ∧ o.dest = none ∧ writeOut JsonEx.env o = some (.ok s) ∧
    (∃ j, JsonText j s) ∧ ∀ j, JsonText j s → j.IsStrategy GREx.evars GREx.svars (withStates stateValues st) := by
  obtain ⟨ts, h1, h2, h3⟩ := FileEx.toks
  have hrun : RunsOn (world (lines ts) [] (synthBound GREx.evars GREx.svars GREx.sp)) ["s.spc".toList] []
      (some "s.spc".toList) ⟨GREx.evars, GREx.svars, GREx.sp⟩ :=
    ⟨⟨lines ts, ⟨⟨[], ["s.spc".toList], .nil, .file _ (by decide), rfl⟩, by decide, by decide, by decide, by decide,
      Or.inl ⟨_, rfl, by simp [world]⟩⟩, fileSays_lines h1 h2 FileEx.data⟩, fun h => absurd h (by decide)⟩
  refine ⟨_, main_json hrun good1 rfl realizable1 ?_ pfx1 ?_ (world_sensible _ _ _) (Or.inl (by decide)) (le_refl _) ?_ rfl
    JsonEx.env_sane (by decide)⟩
  · exact (by decide +kernel : ∃ s : IState GREx.evars GREx.svars, s ∈ initSet (GREx.sp.einit.map fmStates) ∧
      s ∈ initSet (GREx.sp.sinit.map fmStates))
  · unfold IntDecls; decide
  · intro f hf
    have : (meaning [] (some "s.spc".toList)).output = none := by decide
    rw [this] at hf
    cases hf

end MainEx

end Gr1c
