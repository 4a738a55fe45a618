import Verif.AutmanProps

/-!
# Cases and witnesses for `gr1c-autman`
-/

namespace Gr1c
namespace AmEx

/-- Two files and standard input. -/
def world (spec aut inp : List Char) : AmWorld where
  file := fun a => if a = "s.spc".toList then some spec else if a = "a.aut".toList then some aut else none
  stdin := inp
  canWrite := fun a => a = "out".toList
  json := JsonEx.env
  fuel := 6

/-- Two nodes over the variables `x`, `a`, `y`, `z` of `GREx`. -/
def autText : List Char := "1\n0 1 1 0 3 1 0 1 1\n1 2 0 0 2 0 0 0 0 1\n".toList

def nodes : List FileNode := [⟨0, [1, 1, 0, 3], true, 0, 1, [1]⟩, ⟨1, [2, 0, 0, 2], false, 0, 0, [0, 1]⟩]

theorem aut_file : AutFile 1 nodes autText := by
  refine AutFile.version 1 ['1'] ['\n'] _ _ ⟨['1'], by decide, by decide, Or.inr ⟨Or.inl rfl, by decide⟩⟩ (by decide) (Or.inl rfl)
    (.node _ "0 1 1 0 3 1 0 1 1\n".toList _ _ ⟨by decide, "0 1 1 0 3 1 0 1 1".toList, ['\n'], ?_, Or.inl rfl, rfl⟩
    (.node _ "1 2 0 0 2 0 0 0 0 1\n".toList _ _ ⟨by decide, "1 2 0 0 2 0 0 0 0 1".toList, ['\n'], ?_, Or.inl rfl, rfl⟩ .nil))
  · exact row_print 0 [1, 1, 0, 3, 1, 0, 1, 1]
  · exact row_print 1 [2, 0, 0, 2, 0, 0, 0, 0, 1]

theorem nodes_ok : ∀ r ∈ nodes, r.Ok 1 4 := by unfold FileNode.Ok; decide

def aut : Aut ℤ (IState GREx.evars GREx.svars) :=
  [⟨0, (PmlEx.vals _ [1, 1], PmlEx.vals _ [0, 3]), 0, 1, true, [1]⟩, ⟨1, (PmlEx.vals _ [2, 0], PmlEx.vals _ [0, 2]), 0, 0, false, [0, 1]⟩]

theorem loaded : ∃ l, loadVer 4 autText = .ok l 1 ∧ l.map (LNode.toANode false) = withStates stateValues aut :=
  ⟨[⟨0, [1, 1, 0, 3], some true, 0, 1, [1]⟩, ⟨1, [2, 0, 0, 2], some false, 0, 0, [0, 1]⟩], by decide +kernel, by decide +kernel⟩

def d : FileData := ⟨GREx.evars, GREx.svars, GREx.sp⟩

theorem spec : ∃ text, FileSays text d := by
  obtain ⟨ts, h1, h2, -⟩ := FileEx.toks
  exact ⟨_, MainEx.fileSays_lines h1 h2 FileEx.data⟩

/-- `gr1c-autman -i s.spc a.aut -t TYPE -o out`: the hypotheses of `autman_converts_file`. -/
example (fmt : OutFmt) (t : String) (ht : (fmt, t) ∈ fmtWords) : ∃ w s,
    Puts (autmanMain w ["-i".toList, "s.spc".toList, "a.aut".toList, "-t".toList, t.toList, "-o".toList, "out".toList])
      (amMeaning [.spc "s.spc".toList, .input "a.aut".toList, .format fmt, .output "out".toList]) s ∧
    AmSays fmt GREx.evars GREx.svars (fileAut nodes) s := by
  obtain ⟨text, hs⟩ := spec
  have hi : AmItems false [.spc "s.spc".toList, .input "a.aut".toList, .format fmt, .output "out".toList]
      ["-i".toList, "s.spc".toList, "a.aut".toList, "-t".toList, t.toList, "-o".toList, "out".toList] := by
    have h : AmSpelled false (.format fmt) ["-t".toList, t.toList] := by
      have := AmSpelled.format (loose := false) [] (Or.inr rfl) ht
      rwa [List.append_nil] at this
    exact .cons (w := ["-i".toList, "s.spc".toList]) (.spc _) (.cons (w := ["a.aut".toList]) (.input _ (by decide))
      (.cons (w := ["-t".toList, t.toList]) h (.cons (w := ["-o".toList, "out".toList]) (.output _) .nil)))
  have hc : AmCalled (world text autText []) _ _ d := ⟨hi, "s.spc".toList, text, rfl, rfl, hs⟩
  obtain ⟨s, k1, k2⟩ := autman_converts_file hc rfl (text := autText) rfl (ver := 1) (rs := nodes) (Or.inr rfl) (by decide) aut_file
    nodes_ok (by decide) (by decide) (by decide) (by intro f hf; cases hf; rfl) JsonEx.env_sane (by decide : JsonEx.env.stamp ≠ none)
  exact ⟨_, s, k1, k2⟩

/-- `gr1c-autman -L 4 a.aut` and `gr1c-autman -s -i s.spc` with the automaton on standard input. -/
example : autmanMain (world [] autText []) ["-L".toList, "4".toList, "a.aut".toList] = .exit 0 "1\n".toList none :=
  autman_syntax (os := [.len 4, .input "a.aut".toList])
    (.cons (w := ["-L".toList, "4".toList]) (.len ⟨['4'], by decide, by decide, Or.inr ⟨Or.inl rfl, by decide⟩⟩ (by unfold IsInt; decide))
      (.cons (w := ["a.aut".toList]) (.input _ (by decide)) .nil))
    (Or.inr ⟨rfl, rfl⟩) (len := 4) (by decide) rfl (text := autText) rfl (ver := 1) (Or.inr rfl) aut_file nodes_ok (by decide)
    (by decide) (by decide) (fun f hf => by cases hf)

example : ∃ text, autmanMain (world text [] autText) ["-s".toList, "-i".toList, "s.spc".toList] = .exit 0 "1\n".toList none := by
  obtain ⟨text, hs⟩ := spec
  have hi : AmItems false [.synt, .spc "s.spc".toList] ["-s".toList, "-i".toList, "s.spc".toList] :=
    .cons (w := ["-s".toList]) (.flag (w := "-s") (by decide)) (.cons (w := ["-i".toList, "s.spc".toList]) (.spc _) .nil)
  exact ⟨text, autman_syntax hi (len := 4) (Or.inl ⟨d, ⟨hi, "s.spc".toList, text, rfl, rfl, hs⟩, rfl⟩) (by decide) rfl
    (text := autText) rfl (ver := 1) (Or.inr rfl) aut_file nodes_ok (by decide) (by decide) (by decide) (fun f hf => by cases hf)⟩

/-- `gr1c-autman -L 4 -t txt a.aut`. -/
example : ∃ s, autmanMain (world [] autText []) ["-L".toList, "4".toList, "-t".toList, "txt".toList, "a.aut".toList] =
    .exit 0 s none ∧ ∃ ls, readTxt s = some ls ∧ TxtSays (withStates stateValues aut) ls := by
  obtain ⟨l, h1, h2⟩ := loaded
  obtain ⟨s, k1, k2, -⟩ := autman_convert_len (w := world [] autText []) (os := [.len 4, .format .text, .input "a.aut".toList])
    (args := ["-L".toList, "4".toList, "-t".toList, "txt".toList, "a.aut".toList])
    (.cons (w := ["-L".toList, "4".toList]) (.len ⟨['4'], by decide, by decide, Or.inr ⟨Or.inl rfl, by decide⟩⟩ (by unfold IsInt; decide))
      (.cons (w := ["-t".toList, "txt".toList]) (.format (w := "txt") [] (Or.inr rfl) (by decide))
      (.cons (w := ["a.aut".toList]) (.input _ (by decide)) .nil)))
    (len := 4) rfl rfl rfl (Or.inl rfl) (text := autText) rfl h1 (Or.inr rfl) (fun f hf => by cases hf)
  rw [h2] at k2
  exact ⟨s, k1.2 rfl, k2 rfl⟩

theorem spin_vars : SpinVars GREx.evars GREx.svars := by
  refine ⟨by decide, ?_, by decide, by decide +kernel, by decide⟩
  intro v hv
  have : v.1 = ['x'] ∨ v.1 = ['a'] ∨ v.1 = ['y'] ∨ v.1 = ['z'] := by
    revert v
    decide
  rcases this with h | h | h | h <;> rw [h] <;> exact ⟨_, [], rfl, by decide, by decide, by decide, by decide⟩

theorem model_items : AmItems false [.spc "s.spc".toList, .input "a.aut".toList, .model, .output "out".toList]
    ["-i".toList, "s.spc".toList, "a.aut".toList, "-P".toList, "-o".toList, "out".toList] :=
  .cons (w := ["-i".toList, "s.spc".toList]) (.spc _) (.cons (w := ["a.aut".toList]) (.input _ (by decide))
    (.cons (w := ["-P".toList]) (.flag (w := "-P") (by decide)) (.cons (w := ["-o".toList, "out".toList]) (.output _) .nil)))

/-- `gr1c-autman -i s.spc a.aut -P -o out`: the hypotheses of `autman_model`. -/
example : ∃ w f s ms P φ, autmanMain w ["-i".toList, "s.spc".toList, "a.aut".toList, "-P".toList, "-o".toList, "out".toList] =
    .exit 0 f (some ("out".toList, s)) ∧ LtlText f φ ∧ SpinReads s ms P φ ∧
      ∀ fine, (PVerifies P fine ms φ ↔ ∀ b m, IsPlay aut b m → (d.evars ≠ [] → EnvSeen fine d.sp fun r => (b r).s) →
        (SysSeen fine d.sp fun r => (b r).s) ∧ ∀ r, (b r).bad = false) := by
  obtain ⟨text, hs⟩ := spec
  obtain ⟨l, h1, h2⟩ := loaded
  have hc : AmCalled (world text autText []) _ _ d := ⟨model_items, "s.spc".toList, text, rfl, rfl, hs⟩
  obtain ⟨s, ms, P, φ, k1, k2, k3⟩ := autman_model hc rfl (text := autText) rfl (l := l) (ver := 1) h1 (Or.inr rfl)
    (by intro f hf; cases hf; rfl) spin_vars MainEx.good1.typed (st := aut) h2 ⟨_, List.mem_cons_self, rfl⟩
    (by decide : (allMoves d.evars).length ≤ 6)
  obtain ⟨f, k4, k5⟩ := k1.1 "out".toList rfl
  exact ⟨_, f, s, ms, P, φ, k4, k5, k2, k3⟩

/-- `gr1c -t aut s.spc > a.aut` and `gr1c-autman -i s.spc a.aut -P -o out`: the hypotheses of `verify_workflow`. -/
example : ∃ (w : World) (st : Aut ℤ (IState GREx.evars GREx.svars)) (o : Output) (s : List Char),
    SpecStrategy GREx.evars GREx.svars .allEnvExistSys GREx.sp st ∧
    gr1cMain w ["-t".toList, "aut".toList, "s.spc".toList] = .exit 0 (some o) ∧ writeOut JsonEx.env o = some (.ok s) ∧
    (AutFits (withStates stateValues st) → ∃ w' f text ms P φ,
      autmanMain w' ["-i".toList, "s.spc".toList, "a.aut".toList, "-P".toList, "-o".toList, "out".toList] =
        .exit 0 f (some ("out".toList, text)) ∧ LtlText f φ ∧ SpinReads text ms P φ ∧ ∀ fine, PVerifies P fine ms φ) := by
  obtain ⟨ts, h1, h2, -⟩ := FileEx.toks
  have hsays := MainEx.fileSays_lines h1 h2 FileEx.data
  have hrun : RunsOn (MainEx.world (lines ts) [] (synthBound GREx.evars GREx.svars GREx.sp)) ["-t".toList, "aut".toList, "s.spc".toList]
      [.format .aut] (some "s.spc".toList) d :=
    ⟨⟨lines ts, ⟨⟨["-t".toList, "aut".toList], ["s.spc".toList], .cons (.format (w := "aut") [] (Or.inr rfl) (by decide)) .nil,
      .file _ (by decide), rfl⟩, by decide, by decide, by decide, by decide,
      Or.inl ⟨_, rfl, by simp [MainEx.world]⟩⟩, hsays⟩, fun h => absurd h (by decide)⟩
  obtain ⟨st, o, s, k1, k2, -, k4, k5⟩ := verify_workflow hrun MainEx.good1 rfl rfl MainEx.realizable1
    (by exact (by decide +kernel : ∃ s : IState GREx.evars GREx.svars, s ∈ initSet (GREx.sp.einit.map fmStates) ∧
      s ∈ initSet (GREx.sp.sinit.map fmStates)))
    MainEx.pfx1 (by unfold IntDecls; decide) (MainEx.world_sensible _ _ _) (fun h => absurd h (by decide)) (le_refl _)
    (by
      intro f hf
      have : (meaning [.format .aut] (some "s.spc".toList)).output = none := by decide
      rw [this] at hf
      cases hf)
    spin_vars (by decide) JsonEx.env_sane (by decide)
  refine ⟨_, st, o, s, k1, k2, k4, fun hfit => ?_⟩
  obtain ⟨text, ms, P, φ, g1, g2, g3⟩ := k5 hfit (world (lines ts) s []) _ _ ⟨model_items, "s.spc".toList, lines ts, rfl, rfl, hsays⟩
    rfl rfl (by intro f hf; cases hf; rfl) (by decide : (allMoves d.evars).length ≤ 6)
  obtain ⟨f, g4, g5⟩ := g1.1 "out".toList rfl
  refine ⟨_, f, text, ms, P, φ, g4, g5, g2, fun fine => g3 fine (Or.inr ?_)⟩
  intro f hf
  have : f = .var false ['a'] ∨ f = .cmp .eq false ['z'] 3 := by simpa [GREx.sp, d] using hf
  rcases this with rfl | rfl
  · exact ⟨['a'], by decide⟩
  · exact ⟨['z'], by decide⟩

/-- Statuses: the text of the specification is not one; nothing can be loaded; the input is missing. -/
example : autmanMain (world "SYSGOAL: []".toList [] []) ["-i".toList, "s.spc".toList] = .exit 2 [] none := by decide +kernel
example : autmanMain (world [] "1\n0 5 1 0 0 7\n".toList []) ["-L".toList, "1".toList, "a.aut".toList] = .exit 3 [] none := by decide +kernel
example : autmanMain (world [] [] []) ["-L".toList, "1".toList, "b.aut".toList] = .exit (-1) [] none := by decide +kernel
example : autmanMain (world [] [] []) ["-P".toList, "-L".toList, "1".toList] = .exit 1 [] none := by decide +kernel

end AmEx

/-! ## Departures from the documentation -/

/-- **C61 is false for `-`**, which the help text gives as a name of standard input: memory beyond the argument is read. -/
theorem autman_dash (w : AmWorld) : autmanMain w ["-L".toList, "1".toList, "-".toList] = .ub := by
  have : amLoop .default ["-L".toList, "1".toList, "-".toList] = .ub := by decide +kernel
  unfold autmanMain
  rw [this]

/-- **C61 is false for `-s`.** The help text has "print format version number, or -1 if error". For a file that is no automaton
nothing is printed, and a file with an unknown version passes the check; its conversion uses an uninitialised field. -/
theorem autman_check_wrong :
    autmanMain (AmEx.world [] "1\n0 5 1 0 0 7\n".toList []) ["-s".toList, "-L".toList, "1".toList, "a.aut".toList] = .exit 3 [] none ∧
    autmanMain (AmEx.world [] "7\n0 5 0 0 0\n".toList []) ["-s".toList, "-L".toList, "1".toList, "a.aut".toList] =
      .exit 0 "7\n".toList none ∧
    autmanMain (AmEx.world [] "7\n0 5 0 0 0\n".toList []) ["-t".toList, "txt".toList, "-L".toList, "1".toList, "a.aut".toList] =
      .ub := by
  refine ⟨by decide +kernel, by decide +kernel, by decide +kernel⟩

/-- `-o FILE` with `-s`: the version is printed to standard output, and an existing file is emptied. -/
theorem autman_check_output :
    autmanMain (AmEx.world [] "1\n0 5 1 0 0 0\n".toList []) ["-L".toList, "1".toList, "-o".toList, "out".toList, "a.aut".toList] =
      .exit 0 "1\n".toList (some ("out".toList, [])) := by decide +kernel

/-- Conversion to the automaton format of a file with its lines in another order: the status is 0, and the edges of the two nodes
are exchanged. With the lines in the order of IDs the text is copied. (The loader is wrong, see `load_order_wrong`.) -/
theorem autman_order_wrong :
    autmanMain (AmEx.world [] "1\n1 7 0 0 0 1\n0 5 1 0 0 0\n".toList [])
      ["-t".toList, "aut".toList, "-L".toList, "1".toList, "a.aut".toList] = .exit 0 "1\n0 5 1 0 0 1\n1 7 0 0 0 0\n".toList none ∧
    autmanMain (AmEx.world [] "1\n0 5 1 0 0 0\n1 7 0 0 0 1\n".toList [])
      ["-t".toList, "aut".toList, "-L".toList, "1".toList, "a.aut".toList] = .exit 0 "1\n0 5 1 0 0 0\n1 7 0 0 0 1\n".toList none := by
  constructor <;> decide +kernel

def AmEx.oneNode : List Char := "1\n0 5 1 0 0 0\n".toList

/-- `SYS: y; SYSINIT: z;` -/
def AmEx.undeclared : FileData := ⟨[], [(['y'], -1)], ⟨none, some (.var false ['z']), [], [], [], []⟩⟩

/-- The form of a specification is not examined: `gr1c -s` rejects the use of an undeclared variable with status 2,
`gr1c-autman` goes on to the automaton (compare `autman_two`). -/
theorem autman_no_form_check : ∃ text : List Char, FileSays text AmEx.undeclared ∧ (∀ w : World, w.file "s.spc".toList = some text →
      gr1cMain w ["-s".toList, "s.spc".toList] = .exit 2 none) ∧
    autmanMain (AmEx.world text [] AmEx.oneNode) ["-s".toList, "-i".toList, "s.spc".toList] = .exit 0 "1\n".toList none := by
  have hx : Writable (.ident ['z']) := by decide
  have hf : FileToks false _ _ := .cons (.vars false [(['y'], -1)] (by unfold GoodDecls; decide +kernel))
    (.cons (.init1 false (FileEx.gram false (.var false ['z']) ⟨hx, by simp⟩ trivial)) .nil)
  have hs : FileSays _ AmEx.undeclared := MainEx.fileSays_lines hf (by decide +kernel) rfl
  refine ⟨_, hs, fun w hw => ?_, ?_⟩
  · have hc : Called w ["-s".toList, "s.spc".toList] [.synt] (some "s.spc".toList) _ :=
      ⟨⟨["-s".toList], ["s.spc".toList], .cons (.flag (by decide)) .nil, .file _ (by decide), rfl⟩, by decide, by decide, by decide,
        by decide, Or.inl ⟨_, rfl, hw⟩⟩
    obtain ⟨hp, -⟩ := hs.parsed
    refine (main_two w _ none).2 ⟨rfl, _, _, called_run hc, hc.source.source, fun p h => ?_⟩
    rw [hp] at h
    cases h
    decide +kernel
  · have hi : AmItems false [.synt, .spc "s.spc".toList] ["-s".toList, "-i".toList, "s.spc".toList] :=
      .cons (w := ["-s".toList]) (.flag (w := "-s") (by decide)) (.cons (w := ["-i".toList, "s.spc".toList]) (.spc _) .nil)
    refine autman_syntax hi (len := 1) (Or.inl ⟨AmEx.undeclared, ⟨hi, "s.spc".toList, _, rfl, rfl, hs⟩, rfl⟩) (by decide) rfl
      (text := AmEx.oneNode) rfl (ver := 1) (rs := [⟨0, [5], true, 0, 0, [0]⟩]) (Or.inr rfl) ?_ (by unfold FileNode.Ok; decide) (by decide)
      (by decide) (by decide) (fun f hf => by cases hf)
    refine AutFile.version 1 ['1'] ['\n'] _ _ ⟨['1'], by decide, by decide, Or.inr ⟨Or.inl rfl, by decide⟩⟩ (by decide) (Or.inl rfl)
      (.node _ "0 5 1 0 0 0\n".toList _ _ ⟨by decide, "0 5 1 0 0 0".toList, ['\n'], ?_, Or.inl rfl, rfl⟩ .nil)
    exact row_print 0 [5, 1, 0, 0, 0]

end Gr1c
