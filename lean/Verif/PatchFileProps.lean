import Verif.PatchFileSpec
import Verif.PatchMoved
import Verif.SynthAnnotProps
import Verif.AutmanProps

/-!
# C62: the change file of `patch_localfixpoint`

What `patch_localfixpoint` does with the text of a change file is what the commands in it mean, if all variables are Boolean; the
strategy it loads is the one that was written. Malformed files are refused. With integer variables only `blocksys` works.
-/

namespace Gr1c

section
variable {w : PatchVars} {m : ℕ} {eps : List (BState w.ne w.ns → Val w.ne → Bool)} {sps : List (BState w.ne w.ns → BState w.ne w.ns → Bool)}
  {eg : Fin m → Finset (BState w.ne w.ns)} {n : ℕ} {os : Game (Val w.ne) (Val w.ns) → ℕ → Oracle (Val w.ne) (Val w.ns)} {fuel : ℕ} {b : Bool} {strategy changes : List Char}
  {st : Aut ℤ (BState w.ne w.ns)} {N : List (BState w.ne w.ns)} {cs : List (Change (Val w.ne) (Val w.ns))}

theorem rows_bool (hw : w.AllBool) : ∀ vs ∈ N.map (fun x => written01 (stBits x)), vs.length = w.oe + w.os ∧ vs.map stored = vs ∧
    expandVals w.boolOnly vs w.offw (w.ne + w.ns) = .ok (vs.map fun v => decide (v = 1)) := by
  intro vs hvs
  obtain ⟨x, -, rfl⟩ := List.mem_map.1 hvs
  refine ⟨by rw [written01_length, stBits_length, hw.oe, hw.os], written01_stored _, ?_⟩
  rw [expandVals_bool hw, written01_eq]

theorem rows_states : (N.map fun x => written01 (stBits x)).map (fun vs => asState w.ne w.ns (vs.map fun v => decide (v = 1))) = N := by
  rw [List.map_map]
  conv_rhs => rw [← List.map_id N]
  refine List.map_congr_left fun x _ => ?_
  simp only [Function.comp, written01_eq, asState_bits, id]

theorem enonbool_bool (hw : w.AllBool) : w.enonbool = some 0 := by
  unfold PatchVars.enonbool
  rw [if_pos hw.offw]

/-- The file up to `tail`, in a specification without integer variables. -/
theorem patchFiles_bool (hw : w.AllBool) (hs : 0 < w.ns) (hload : loadStrategy w b strategy = .ok st) {tail : List Char}
    (h : ChangeFile tail (N.map fun x => written01 (stBits x)) (cs.map changeText) changes) (ht : StopsHere tail) :
    patchFiles w eps sps eg n os fuel b strategy changes =
      finishPatch eg n os fuel N st (cmdThen w 0 n N st cs.isEmpty tail (processChanges n N st cs (localGame N eps sps) [])) := by
  obtain ⟨f', h1, h2⟩ := patchFiles_cmds (eps := eps) (sps := sps) (eg := eg) (n := n) (os := os) (fuel := fuel) hload (enonbool_bool hw)
    (by rw [hw.oe, hw.os]; omega) h ht (fun vs => vs.map fun v => decide (v = 1)) (rows_bool hw)
  rw [rows_states] at h2
  rw [h2, cmdLoop_changes hw hs h1 rfl, Bool.true_and]

/-- **C62, the commands.** The texts of a strategy and of a change file have the effect of the strategy, the neighbourhood and the
commands they stand for, if all variables are Boolean and there is a system variable. -/
theorem change_file_read (hw : w.AllBool) (hs : 0 < w.ns) (hload : loadStrategy w b strategy = .ok st)
    (h : ChangeFileSays N cs changes) :
    patchFiles w eps sps eg n os fuel b strategy changes = (patchLocalfixpoint eps sps eg n N cs (os (cs.foldl applyChange (localGame N eps sps))) fuel st).toP := by
  rw [patchFiles_bool hw hs hload h (Or.inl rfl)]
  exact finish_end N cs _

/-! ## Malformed files -/

/-- **C62, refusals: states.** A line of the first part with too few numbers is refused. -/
theorem short_state_refused (hw : w.AllBool) (hload : loadStrategy w b strategy = .ok st) {line s : List Char} {vs : List ℤ}
    (h : ChangeFile (line ++ s) (N.map fun x => written01 (stBits x)) [] changes) (hl : NumberLine vs line s) (hv : vs ≠ [])
    (hlen : vs.length < w.ne + w.ns) :
    patchFiles w eps sps eg n os fuel b strategy changes = .err := by
  have hh := hoodLoop_states (by rw [hw.oe, hw.os]; omega) h (fun vs => vs.map fun v => decide (v = 1)) (rows_bool hw) []
  rw [List.nil_append, rows_states] at hh
  rcases hh with ⟨-, e⟩ | ⟨h1, -⟩
  · obtain ⟨r, hb, hn⟩ := number_reads hl hv
    have hr : readStateStr line ((w.oe : ℤ) + w.os) = vs.map stored := by
      have := read_state_str_exact hn ((w.oe + w.os : ℕ) : ℤ)
      rw [if_neg (by omega), Int.toNat_natCast, List.take_of_length_le (by rw [hw.oe, hw.os]; omega)] at this
      exact_mod_cast this
    have hstop : hoodLoop w N (line ++ s) = .err := by
      rw [hoodLoop, dif_neg r.full]
      simp only [r.text, r.rest, hr]
      rw [if_neg (by rw [hb]; decide), if_neg (by simpa using hv), if_pos (by rw [List.length_map, hw.oe, hw.os]; omega)]
    unfold patchFiles
    simp only [hload, enonbool_bool hw, e, hstop]
  · exact absurd rfl h1

/-- Is the command a number of values that is not allowed? -/
def WrongCount (ne ns : ℕ) (word : List Char) (vs : List ℤ) : Prop :=
  if word = "blocksys".toList then vs.length < ns else vs.length < 2 * (ne + ns) ∧ vs.length ≠ 2 * ne + ns

theorem changeEdge_count (hw : w.AllBool) {ke : ℕ} (relax : Bool) {vs : List ℤ} {args : List Char} (h : Numbers vs args)
    (hl : vs.length < 2 * (w.ne + w.ns) ∧ vs.length ≠ 2 * w.ne + w.ns) (x : CmdState w) :
    changeEdge w ke n N st relax args x = .err := by
  have hr : readStateStr args (2 * ((w.oe : ℤ) + w.os)) = vs.map stored := by
    have := read_state_str_exact h ((2 * (w.oe + w.os) : ℕ) : ℤ)
    rw [if_neg (by omega), Int.toNat_natCast, List.take_of_length_le (by rw [hw.oe, hw.os]; omega)] at this
    exact_mod_cast this
  unfold changeEdge
  rw [hr]
  simp only [List.length_map]
  rw [if_pos ⟨by rw [hw.oe, hw.os]; omega, by rw [hw.oe, hw.os]; exact hl.2⟩]

theorem changeBlock_count (hw : w.AllBool) {ke : ℕ} (first : Bool) {vs : List ℤ} {args : List Char} (h : Numbers vs args)
    (hl : vs.length < w.ns) (x : CmdState w) :
    changeBlock w ke n N st first args x = if vs = [] ∨ first = true then .err else .ub := by
  have hr : readStateStr args (w.os : ℤ) = vs.map stored := by
    have := read_state_str_exact h ((w.os : ℕ) : ℤ)
    rw [if_neg (by omega), Int.toNat_natCast, List.take_of_length_le (by rw [hw.os]; omega)] at this
    exact this
  unfold changeBlock
  rw [hr]
  simp only [List.length_map, List.map_eq_nil_iff]
  rw [if_pos (by rw [hw.os]; omega)]

/-- The strategies `patch_localfixpoint` expects: distinct addresses, edges inside, modes of goals. -/
structure PatchInput (n : ℕ) (st : Aut ℤ (BState w.ne w.ns)) : Prop where
  ids : (st.map (·.id)).Nodup
  closed : ∀ x ∈ st, ∀ j ∈ x.trans, ∃ y ∈ st, y.id = j
  modes : ∀ x ∈ st, ∃ j : Fin n, x.mode = (j.val : ℤ)

theorem processed_cases (hin : PatchInput n st) (cs : List (Change (Val w.ne) (Val w.ns))) (G : Game (Val w.ne) (Val w.ns)) :
    processChanges n N st cs G [] = .err ∨
      ((∀ x ∈ st, ∀ c ∈ cs, Touches st c x → x.state ∈ N) ∧ ∃ x, processChanges n N st cs G [] = .ok x) := by
  by_cases h : ∃ x ∈ st, ∃ c ∈ cs, Touches st c x ∧ x.state ∉ N
  · exact Or.inl (processChanges_err hin.ids hin.closed hin.modes cs G [] h)
  · push Not at h
    have h' : ∀ x ∈ st, ∀ c ∈ cs, Touches st c x → x.state ∈ N := fun x hx c hc ht => h x hx c hc ht
    obtain ⟨a, ha⟩ := processChanges_ok hin.ids hin.closed hin.modes cs G [] h'
    exact Or.inr ⟨h', _, ha⟩

/-- A word line where the first loop stops. -/
theorem word_stops {word : List Char} {vs : List ℤ} {line s : List Char} (hw : IsChangeWord word) (h : WordLine word vs line s) :
    StopsHere (line ++ s) := by
  obtain ⟨r, hb, hz, -⟩ := word_reads hw h
  exact Or.inr ⟨line, s, rfl, r, hb, hz⟩

theorem blocksys_ne : ¬ ("restrict".toList = "blocksys".toList) ∧ ¬ ("relax".toList = "blocksys".toList) := by decide

/-- What the loop does at a command with a wrong number of values. -/
theorem cmdLoop_count (hw : w.AllBool) {word : List Char} {vs : List ℤ} {line s : List Char} (hword : IsChangeWord word)
    (hl : WordLine word vs line s) (hc : WrongCount w.ne w.ns word vs) (first : Bool) (x : CmdState w) :
    cmdLoop w 0 n N st first (line ++ s) x = if word = "blocksys".toList ∧ vs ≠ [] ∧ first = false then .ub else .err := by
  obtain ⟨r, hb, -, args, rfl, ha⟩ := word_reads hword hl
  rw [cmdLoop_line r hb]
  unfold WrongCount at hc
  rcases hword with rfl | rfl | rfl
  · rw [if_neg blocksys_ne.1] at hc
    rw [cmdLine_restrict, changeEdge_count hw false ha hc, if_neg (fun h => blocksys_ne.1 h.1)]
    rfl
  · rw [if_neg blocksys_ne.2] at hc
    rw [cmdLine_relax, changeEdge_count hw true ha hc, if_neg (fun h => blocksys_ne.2 h.1)]
    rfl
  · rw [if_pos rfl] at hc
    rw [cmdLine_blocksys, changeBlock_count hw first ha hc]
    cases vs with
    | nil => simp [cmdNext]
    | cons v vs => cases first <;> simp [cmdNext]

/-- **C62, refusals: numbers of values.** A command with a wrong number of values is refused after whatever commands, if it is not
`blocksys`, or has no values, or is the first command. -/
theorem wrong_count_refused (hw : w.AllBool) (hs : 0 < w.ns) (hload : loadStrategy w b strategy = .ok st) (hin : PatchInput n st)
    {word : List Char} {vs : List ℤ} {line s : List Char} (hword : IsChangeWord word) (hl : WordLine word vs line s)
    (hc : WrongCount w.ne w.ns word vs) (hfree : word ≠ "blocksys".toList ∨ vs = [] ∨ cs = [])
    (h : ChangeFile (line ++ s) (N.map fun x => written01 (stBits x)) (cs.map changeText) changes) :
    patchFiles w eps sps eg n os fuel b strategy changes = .err := by
  rw [patchFiles_bool hw hs hload h (word_stops hword hl)]
  rcases processed_cases (N := N) hin cs (localGame N eps sps) with h1 | ⟨-, x, h1⟩
  · rw [h1]; rfl
  · rw [h1]
    simp only [cmdThen]
    rw [cmdLoop_count hw hword hl hc, if_neg]
    · rfl
    · rintro ⟨h2, h3, h4⟩
      rcases hfree with h5 | h5 | h5
      · exact h5 h2
      · exact h3 h5
      · rw [h5] at h4; cases h4

/-- **Defect: double free.** `blocksys` with too few values (at least one) as a later command frees the array of the command before
it a second time, `/repo/src/patching.c` 916. -/
theorem wrong_block_double_free (hw : w.AllBool) (hs : 0 < w.ns) (hload : loadStrategy w b strategy = .ok st) (hin : PatchInput n st)
    {vs : List ℤ} {line s : List Char} (hl : WordLine "blocksys".toList vs line s) (hc : vs.length < w.ns) (hv : vs ≠ []) (hcs : cs ≠ [])
    (hN : ∀ x ∈ st, ∀ c ∈ cs, Touches st c x → x.state ∈ N)
    (h : ChangeFile (line ++ s) (N.map fun x => written01 (stBits x)) (cs.map changeText) changes) :
    patchFiles w eps sps eg n os fuel b strategy changes = .ub := by
  have hword : IsChangeWord "blocksys".toList := Or.inr (Or.inr rfl)
  rw [patchFiles_bool hw hs hload h (word_stops hword hl)]
  obtain ⟨a, ha⟩ := processChanges_ok hin.ids hin.closed hin.modes cs (localGame N eps sps) [] hN
  rw [ha]
  simp only [cmdThen]
  rw [cmdLoop_count hw hword hl (by unfold WrongCount; rw [if_pos rfl]; exact hc), if_pos ⟨rfl, hv, by cases cs with
    | nil => exact absurd rfl hcs
    | cons c cs => rfl⟩]
  rfl

/-- A line that is no command: not blank, no comment, no number in front, none of the three words with a blank after it. -/
def NoCommand (line s : List Char) : Prop :=
  line.length < 1024 ∧ NoNumber line ∧ line.head? ≠ some '#' ∧
    (∃ body e, (∀ c ∈ body, c ≠ '\n' ∧ c ≠ Char.ofNat 0) ∧ body ≠ [] ∧ LineEnd e s ∧ line = body ++ e) ∧
    ∀ word, IsChangeWord word → ¬ (word ++ [' ']) <+: line

/-- **C62, refusals: words.** A line that is neither a state nor a command is refused. -/
theorem no_command_refused (hw : w.AllBool) (hs : 0 < w.ns) (hload : loadStrategy w b strategy = .ok st) (hin : PatchInput n st)
    {line s : List Char} (hl : NoCommand line s)
    (h : ChangeFile (line ++ s) (N.map fun x => written01 (stBits x)) (cs.map changeText) changes) :
    patchFiles w eps sps eg n os fuel b strategy changes = .err := by
  obtain ⟨h1, h2, h3, ⟨body, e, h4, h5, h6, rfl⟩, h7⟩ := hl
  have hr := line_read (s := s) h4 h6 h1
  have r : ReadsAs (body ++ e) s := ⟨hr.1, hr.2, by simp [h5]⟩
  have hb : blankLine (body ++ e) = false := by
    cases body with
    | nil => exact absurd rfl h5
    | cons c body =>
      have := (h4 c (by simp)).1
      simp only [List.cons_append, List.head?_cons, ne_eq, Option.some.injEq] at h3
      simp [blankLine, this, h3]
  have hz : ∀ m, readStateStr (body ++ e) m = [] := by
    intro m
    rw [read_state_str_exact (.nil _ h2)]
    split <;> simp
  rw [patchFiles_bool hw hs hload h (Or.inr ⟨_, s, rfl, r, hb, hz⟩)]
  have hcmd : ∀ first x, cmdLine w 0 n N st first (body ++ e) x = .err := by
    intro first x
    have p1 : ¬ ("restrict ".toList.isPrefixOf (body ++ e) = true) := by
      rw [List.isPrefixOf_iff_prefix]; exact h7 "restrict".toList (Or.inl rfl)
    have p2 : ¬ ("relax ".toList.isPrefixOf (body ++ e) = true) := by
      rw [List.isPrefixOf_iff_prefix]; exact h7 "relax".toList (Or.inr (Or.inl rfl))
    have p3 : ¬ ("blocksys ".toList.isPrefixOf (body ++ e) = true) := by
      rw [List.isPrefixOf_iff_prefix]; exact h7 "blocksys".toList (Or.inr (Or.inr rfl))
    unfold cmdLine
    exact (if_neg p1).trans ((if_neg p2).trans (if_neg p3))
  rcases processed_cases (N := N) hin cs (localGame N eps sps) with h8 | ⟨-, x, h8⟩
  · rw [h8]; rfl
  · rw [h8]
    simp only [cmdThen]
    rw [cmdLoop_line r hb, hcmd]
    rfl

/-! ## From synthesis to patching, through the files -/

/-- **C62, workflow** (partial: `NoWrap` and `NoCross` as for C54). A strategy for a specification without integer variables that
`synthesize` returned after a positive verdict is written in the format `gr1c aut`; `patch_localfixpoint` with this text and a change
file returns a strategy in which every edge is legal in the changed game, every run satisfies the liveness part, and, if no edge from
another mode enters the neighbourhood part of a touched mode and the environment is never blocked, every move is answered. -/
theorem patch_workflow_partial (hw : w.AllBool) (hs : 0 < w.ns) {G G' : Game (Val w.ne) (Val w.ns)}
    {egs sgs : List (Finset (BState w.ne w.ns))} {flag : InitFlag} {einit sinit : Option (Finset (BState w.ne w.ns))}
    {W : Finset (BState w.ne w.ns)} {o : Oracle (Val w.ne) (Val w.ns)} (ho : o.Valid G)
    (hr : checkRealizable G egs sgs flag einit sinit = some (some W)) {fuel' : ℕ}
    {st : Aut (Fin sgs.length) (BState w.ne w.ns)} (h : synthesize G egs sgs flag einit sinit o fuel' = .ok st) (hne : st ≠ [])
    (hfit : AutFits (withStates (fun s => written01 (stBits s)) (intModes st)))
    (hG : IsConjunction eps sps G) (hW : NoWrap sgs.get N cs (intModes st)) (hC : ChangedByAll G cs G')
    (ho' : ∀ g, (os (cs.foldl applyChange (localGame N eps sps)) g).Valid (cs.foldl applyChange (localGame N eps sps))) (hf : ChangeFileSays N cs changes)
    {R : Aut ℤ (BState w.ne w.ns)}
    (hp : patchFiles w eps sps (withDefaultGoal egs).get sgs.length os fuel b
      (dumpVer (withStates (fun s => written01 (stBits s)) (intModes st)) 1).2 changes = .ok R) :
    (∀ x ∈ R, EdgesSound G' R x) ∧ (∀ ρ, IsRun R ρ → (∀ A ∈ egs, InfOften (fun k => (ρ k).state) A) →
      ∀ i, InfOften (fun k => (ρ k).state) (sgs.get i)) ∧
    (NoCross N cs (intModes st) → (∀ s, ∃ e, G'.etr s e = true) → ∀ x ∈ R, Answered G' R x) := by
  obtain ⟨h1, h2⟩ := synthesize_seeks ho hr h
  have h3 := (synthesize_annotated ho hr h).1
  have hgood : GoodAut (w.ne + w.ns) (withStates (fun s => written01 (stBits s)) (intModes st)) := by
    refine ⟨?_, ?_, ?_, hfit.small, hfit.ints⟩
    · have := h1.ids
      simpa [withStates, Function.comp_def] using this
    · intro x hx j hj
      unfold withStates at hx
      obtain ⟨y, hy, rfl⟩ := List.mem_map.1 hx
      obtain ⟨z, hz, hid⟩ := h1.closed y hy j hj
      exact ⟨_, by unfold withStates; exact List.mem_map.2 ⟨z, hz, rfl⟩, hid⟩
    · intro x hx
      unfold withStates at hx
      obtain ⟨y, hy, rfl⟩ := List.mem_map.1 hx
      simp only [written01_length, stBits_length]
  obtain ⟨st', hm, hload⟩ := load_written hw (by unfold intModes; simpa using hne) (by omega) hgood hfit.short b
  rw [change_file_read hw hs hload hf] at hp
  have hp' : patchLocalfixpoint eps sps (withDefaultGoal egs).get sgs.length N cs (os (cs.foldl applyChange (localGame N eps sps))) fuel st' = .ok R := by
    cases hq : patchLocalfixpoint eps sps (withDefaultGoal egs).get sgs.length N cs (os (cs.foldl applyChange (localGame N eps sps))) fuel st' with
    | ok R' => rw [hq] at hp; cases hp; rfl
    | ub => rw [hq] at hp; cases hp
    | err => rw [hq] at hp; cases hp
    | timeout => rw [hq] at hp; cases hp
  have h1' := hm.seeks h1
  have h2' := hm.answersAll h2
  have h3' := hm.annotated h3
  have hW' := hm.noWrap hW
  obtain ⟨-, -, q1, q2⟩ := patch_runs_partial hG h1' h2' h3' hW' hC ho' hp'
  refine ⟨q1, fun ρ hρ henv => q2 ρ hρ ?_,
    fun hX hE => patch_answers_partial hG h1' h2' h3' hW' hC ho' (hm.noCross hX) hE hp'⟩
  intro r
  by_cases he : egs = []
  · have hall : ∀ A ∈ withDefaultGoal egs, A = Finset.univ := by
      unfold withDefaultGoal
      rw [if_pos he]
      simp
    rw [hall _ (List.get_mem _ r)]
    exact fun N => ⟨N, le_rfl, Finset.mem_univ _⟩
  · have hall : ∀ A ∈ withDefaultGoal egs, A ∈ egs := by
      unfold withDefaultGoal
      rw [if_neg he]
      simp
    exact henv _ (hall _ (List.get_mem _ r))

end

/-! ## Integer variables -/

section
variable {evars svars : Decls} {m : ℕ}
  {eps : List (BState (declVars evars svars).ne (declVars evars svars).ns → Val (declVars evars svars).ne → Bool)}
  {sps : List (BState (declVars evars svars).ne (declVars evars svars).ns → BState (declVars evars svars).ne (declVars evars svars).ns → Bool)}
  {eg : Fin m → Finset (BState (declVars evars svars).ne (declVars evars svars).ns)} {n : ℕ}
  {os : Game (Val (declVars evars svars).ne) (Val (declVars evars svars).ns) → ℕ → Oracle (Val (declVars evars svars).ne) (Val (declVars evars svars).ns)} {fuel : ℕ} {b : Bool} {strategy changes : List Char}
  {st : Aut ℤ (BState (declVars evars svars).ne (declVars evars svars).ns)}
  {N : List (BState (declVars evars svars).ne (declVars evars svars).ns)}

/-- The variables known to the function are those of the declarations, if no name of an integer variable is the beginning of another
name (C32). -/
theorem declVars_offsets (hp : PfxFree (evars ++ svars)) :
    getOffsetsList (declVars evars svars).ev (declVars evars svars).sv (declVars evars svars).nonbool = some (declVars evars svars).offw :=
  get_offsets_partial hp

/-- **Defect: reading beyond the end of an array.** If there are integer variables of the environment and none of the system, the
loop that counts them (`/repo/src/patching.c` 432-434) runs past the end of `offw`, whatever the change file. -/
theorem env_integers_overread (he : ∃ d ∈ evars, 0 ≤ d.2) (hs : ∀ d ∈ svars, ¬ 0 ≤ d.2)
    (hload : loadStrategy (declVars evars svars) b strategy = .ok st) :
    patchFiles (declVars evars svars) eps sps eg n os fuel b strategy changes = .ub := by
  have hint : ∃ d ∈ evars ++ svars, 0 ≤ d.2 := by
    obtain ⟨d, hd, h0⟩ := he
    exact ⟨d, List.mem_append.2 (Or.inl hd), h0⟩
  unfold patchFiles
  have := declVars_enonbool hint
  rw [if_pos hs] at this
  simp only [hload, this]

theorem rows_int (hint : ∃ d ∈ evars ++ svars, 0 ≤ d.2) (hi : IntDecls (evars ++ svars)) (D : List ℤ → List Bool)
    (hD : ∀ x ∈ N, D (bitValues evars svars (stBits x)) = stBits x) :
    ∀ vs ∈ N.map (fun x => bitValues evars svars (stBits x)), vs.length = (declVars evars svars).oe + (declVars evars svars).os ∧
      vs.map stored = vs ∧ expandVals (declVars evars svars).boolOnly vs (declVars evars svars).offw
        ((declVars evars svars).ne + (declVars evars svars).ns) = .ok (D vs) := by
  intro vs hvs
  obtain ⟨x, hx, rfl⟩ := List.mem_map.1 hvs
  refine ⟨bitValues_length _, bitValues_int hi _, ?_⟩
  rw [hD x hx]
  exact expand_row hint hi (by rw [stBits_length, declVars_width])

/-- The bits of values. -/
theorem bits_back (hi : IntDecls (evars ++ svars)) (x : BState (declVars evars svars).ne (declVars evars svars).ns) :
    ((encList (evars ++ svars) (bitValues evars svars (stBits x))).map fun v => decide (v = 1)) = stBits x := by
  unfold bitValues
  rw [enc_dec _ _ hi (by rw [written01_length, stBits_length, declVars_width]) (written01_01 _), written01_eq]

theorem patchFiles_int (hint : ∃ d ∈ svars, 0 ≤ d.2) (hi : IntDecls (evars ++ svars))
    (hload : loadStrategy (declVars evars svars) b strategy = .ok st) {tail : List Char} {cs : List (List Char × List ℤ)}
    (h : ChangeFile tail (N.map fun x => bitValues evars svars (stBits x)) cs changes) (ht : StopsHere tail) :
    ∃ f', ChangeCmds tail cs f' ∧ patchFiles (declVars evars svars) eps sps eg n os fuel b strategy changes =
      finishPatch eg n os fuel N st (cmdLoop (declVars evars svars) (layoutFrom 0 evars).length n N st true f' (localGame N eps sps, [])) := by
  have hall : ∃ d ∈ evars ++ svars, 0 ≤ d.2 := by
    obtain ⟨d, hd, h0⟩ := hint
    exact ⟨d, List.mem_append.2 (Or.inr hd), h0⟩
  have hk := declVars_enonbool hall
  rw [if_neg (by
    intro hc
    obtain ⟨d, hd, h0⟩ := hint
    exact hc d hd h0)] at hk
  have hpos : 0 < (declVars evars svars).oe + (declVars evars svars).os := by
    obtain ⟨d, hd, -⟩ := hall
    have := List.length_pos_of_mem hd
    rw [List.length_append] at this
    exact this
  obtain ⟨f', h1, h2⟩ := patchFiles_cmds (eps := eps) (sps := sps) (eg := eg) (n := n) (os := os) (fuel := fuel) hload hk hpos h ht
    (fun vs => (encList (evars ++ svars) vs).map fun v => decide (v = 1)) (rows_int hall hi _ fun x _ => bits_back hi x)
  refine ⟨f', h1, ?_⟩
  have hN : (N.map fun x => bitValues evars svars (stBits x)).map (fun vs => asState (declVars evars svars).ne (declVars evars svars).ns
      ((encList (evars ++ svars) vs).map fun v => decide (v = 1))) = N := by
    rw [List.map_map]
    conv_rhs => rw [← List.map_id N]
    refine List.map_congr_left fun x _ => ?_
    simp only [Function.comp, bits_back hi, asState_bits, id]
  rw [hN] at h2
  exact h2

/-- **Defect: reading beyond the end of an array.** In a specification with an integer variable of the system, every command
`restrict` or `relax` for a controlled edge makes `expand_nonbool_state` read beyond the end of the values: the offsets of the second
state are those of the first (`/repo/src/patching.c` 436-442). So does a command for an uncontrolled edge, if a variable of the
environment is an integer. The values do not matter. -/
theorem edge_command_overread (hint : ∃ d ∈ svars, 0 ≤ d.2) (hi : IntDecls (evars ++ svars))
    (hload : loadStrategy (declVars evars svars) b strategy = .ok st) {word : List Char} {vs : List ℤ} {line s : List Char}
    (hword : word = "restrict".toList ∨ word = "relax".toList) (hl : WordLine word vs line s)
    (hc : 2 * (evars.length + svars.length) ≤ vs.length ∨ (vs.length = 2 * evars.length + svars.length ∧ ∃ d ∈ evars, 0 ≤ d.2))
    (h : ChangeFile (line ++ s) (N.map fun x => bitValues evars svars (stBits x)) [] changes) :
    patchFiles (declVars evars svars) eps sps eg n os fuel b strategy changes = .ub := by
  have hall : ∃ d ∈ evars ++ svars, 0 ≤ d.2 := by
    obtain ⟨d, hd, h0⟩ := hint
    exact ⟨d, List.mem_append.2 (Or.inr hd), h0⟩
  have hw : IsChangeWord word := hword.elim Or.inl fun h => Or.inr (Or.inl h)
  obtain ⟨r, hb, -, args, rfl, ha⟩ := word_reads hw hl
  obtain ⟨f', h1, h2⟩ := patchFiles_int (eps := eps) (sps := sps) (eg := eg) (n := n) (os := os) (fuel := fuel) hint hi hload h (word_stops hw hl)
  have hloop : ∀ f' x, ChangeCmds (word ++ ' ' :: args ++ s) [] f' →
      cmdLoop (declVars evars svars) (layoutFrom 0 evars).length n N st true f' x = .ub := by
    intro f' x hf
    generalize hcs : ([] : List (List Char × List ℤ)) = cs at hf
    induction hf with
    | nil =>
      rw [cmdLoop_line r hb]
      rcases hword with rfl | rfl
      · rw [cmdLine_restrict, changeEdge_int hall false ha hc]; rfl
      · rw [cmdLine_relax, changeEdge_int hall true ha hc]; rfl
    | skip line s cs h1 _ ih => rw [cmdLoop_skip h1]; exact ih hcs
    | cmd word vs line s cs _ _ _ _ => cases hcs
  rw [h2, hloop f' _ h1]
  rfl

/-- **C62, integer variables.** With integer variables of the system a change file of states and `blocksys` commands has the effect
of what it stands for. -/
theorem blocksys_file_read (hint : ∃ d ∈ svars, 0 ≤ d.2) (hi : IntDecls (evars ++ svars))
    (hload : loadStrategy (declVars evars svars) b strategy = .ok st) {vals : List (Val (declVars evars svars).ns)}
    (h : ChangeFile [] (N.map fun x => bitValues evars svars (stBits x))
      (vals.map fun v => ("blocksys".toList, decList svars (written01 (List.ofFn v)))) changes) :
    patchFiles (declVars evars svars) eps sps eg n os fuel b strategy changes =
      (patchLocalfixpoint eps sps eg n N (vals.map Change.blockSys)
        (os ((vals.map Change.blockSys).foldl applyChange (localGame N eps sps))) fuel st).toP := by
  obtain ⟨f', h1, h2⟩ := patchFiles_int (eps := eps) (sps := sps) (eg := eg) (n := n) (os := os) (fuel := fuel) hint hi hload h (Or.inl rfl)
  rw [h2, cmdLoop_means (cs := vals.map Change.blockSys) (tr := fun c => match c with
      | .blockSys v => ("blocksys".toList, decList svars (written01 (List.ofFn v)))
      | c => changeText c) h1 (by rw [List.map_map]; rfl)]
  · exact finish_end N _ _
  · intro c hc first args x ha
    obtain ⟨v, -, rfl⟩ := List.mem_map.1 hc
    exact (cmdLine_blocksys first args x).trans (changeBlock_int hint hi first v ha x)

/-- What `restrict` and `relax` do to the moves of the environment when only system variables are integers: the first
`ne - (ns - os)` bits of the target decide. -/
def WideEffect (relax : Bool) {ne ns : ℕ} (k : ℕ) (s : BState ne ns) (e : Val ne) (G G' : Game (Val ne) (Val ns)) : Prop :=
  G'.str = G.str ∧ ∀ a f, G'.etr a f = true ↔
    if relax then G.etr a f = true ∨ (a = s ∧ ∀ i : Fin ne, i.val < k → f i = e i)
    else G.etr a f = true ∧ ¬ (a = s ∧ ∀ i : Fin ne, i.val < k → f i = e i)

theorem take_ofFn_eq {k j : ℕ} (f e : Val k) : (List.ofFn f).take j = (List.ofFn e).take j ↔ ∀ i : Fin k, i.val < j → f i = e i := by
  constructor
  · intro h i hi
    have := congrArg (fun l => l[i.val]?) h
    simp only [List.getElem?_take, hi, if_true, List.getElem?_ofFn, i.isLt, dite_true, Option.some.injEq] at this
    exact this
  · intro h
    refine List.ext_getElem? fun i => ?_
    simp only [List.getElem?_take, List.getElem?_ofFn]
    split
    · rename_i hi
      split
      · rename_i hk
        rw [h ⟨i, hk⟩ hi]
      · rfl
    · rfl

theorem edgeEffect_wide (relax : Bool) {ne ns k : ℕ} (s : BState ne ns) (e : Val ne) (G : Game (Val ne) (Val ns)) :
    WideEffect relax k s e G (edgeEffect relax true k s (List.ofFn e) G) := by
  refine ⟨by unfold edgeEffect; rfl, fun a f => ?_⟩
  unfold edgeEffect
  cases relax
  · simp only [if_true, Bool.false_eq_true, if_false, Bool.and_eq_true, Bool.not_eq_true', Bool.and_eq_false_iff, decide_eq_false_iff_not,
      take_ofFn_eq]
    tauto
  · simp only [if_true, Bool.or_eq_true, Bool.and_eq_true, decide_eq_true_eq, take_ofFn_eq]
    tauto

/-- **Defect: too few bits.** `restrict` for an uncontrolled edge when only system variables are integers: the moves of the
environment that are removed are those that agree with the given one in the first `ne - (ns - os)` of `ne` bits, where `ns` is the
number of bits of the `os` system variables (`/repo/src/patching.c` 876 subtracts a number of bits from a number of variables). -/
theorem restrict_env_wide (hb : ∀ d ∈ evars, ¬ 0 ≤ d.2) (hint : ∃ d ∈ svars, 0 ≤ d.2) (hi : IntDecls (evars ++ svars))
    (s : BState (declVars evars svars).ne (declVars evars svars).ns) (e : Val (declVars evars svars).ne) {args : List Char}
    (h : Numbers (bitValues evars svars (stBits s) ++ written01 (List.ofFn e)) args) (first : Bool)
    (G : Game (Val (declVars evars svars).ne) (Val (declVars evars svars).ns)) (a : List (ℤ × ℕ)) :
    ∃ G', cmdLine (declVars evars svars) (layoutFrom 0 evars).length n N st first ("restrict".toList ++ ' ' :: args) (G, a) = .ok (G', a) ∧
      WideEffect false (evars.length + svars.length - totalWidth svars) s e G G' := by
  refine ⟨_, ?_, edgeEffect_wide false s e G⟩
  rw [cmdLine_restrict, changeEdge_env_int hb hint hi false s e h]
  rfl

end

/-! ## Concrete cases -/

namespace ChangeEx

/-- Three Boolean variables of the system. -/
def w3 : PatchVars := ⟨0, 3, [], [(['a'], -1), (['b'], -1), (['c'], -1)], [], []⟩

theorem w3_bool : w3.AllBool := ⟨rfl, rfl, rfl⟩

def num (v : Val 3) : ℕ := (if v 0 then 4 else 0) + (if v 1 then 2 else 0) + (if v 2 then 1 else 0)

/-- The graph of `PatchEx.Ga`, with a state 7 that leads to 1. -/
def succs (k : ℕ) : List ℕ :=
  if k = 0 then [1] else if k = 1 then [2] else if k = 2 then [3, 5] else if k = 3 then [4] else if k = 4 then [0]
  else if k = 5 then [3] else [1]

def G3 : Game (Val 0) (Val 3) := ⟨fun _ _ => true, fun s t => num t.2 ∈ succs (num s.2)⟩

def pt (k : ℕ) : BState 0 3 := asState 0 3 [k / 4 % 2 = 1, k / 2 % 2 = 1, k % 2 = 1]

def goal3 (l : List ℕ) : Finset (BState 0 3) := Finset.univ.filter fun s => num s.2 ∈ l

def sg3 : List (Finset (BState 0 3)) := [goal3 [4], goal3 [0]]

def orc3 (G : Game (Val 0) (Val 3)) (base : ℕ) : Oracle (Val 0) (Val 3) :=
  let o := stdOracle G ((List.range 8).map pt) [(pt 0).1] (pt 0)
  { o with alloc := fun c l => o.alloc c l + base }

theorem orc3_valid (G : Game (Val 0) (Val 3)) (base : ℕ) : (orc3 G base).Valid G :=
  PatchEx.valid_add (stdOracle_valid G _ _ _ (by decide +kernel) (by decide +kernel) (by decide) (by decide +kernel)) base rfl

/-- The strategy `synthesize` returns. -/
def st3 : Aut (Fin 2) (BState 0 3) :=
  [⟨6, pt 0, 0, 4, false, [2]⟩, ⟨5, pt 4, 1, 1, false, [6]⟩, ⟨4, pt 3, 0, 1, false, [5]⟩,
    ⟨3, pt 2, 0, 2, false, [4]⟩, ⟨2, pt 1, 0, 3, false, [3]⟩, ⟨1, pt 6, 0, 4, true, [2]⟩]

theorem st3_real : checkRealizable G3 [] sg3 .allInit none (some (goal3 [6])) = some (some Finset.univ) := by decide +kernel

theorem st3_synth : synthesize G3 [] sg3 .allInit none (some (goal3 [6])) (orc3 G3 0) 100 = .ok st3 := by decide +kernel

/-- The file `gr1c -t aut` writes. -/
def text3 : List Char :=
  "1\n0 0 0 0 0 0 4 4\n".toList ++ "1 1 0 0 0 1 1 0\n".toList ++ "2 0 1 1 0 0 1 1\n".toList ++ "3 0 1 0 0 0 2 2\n".toList ++
    "4 0 0 1 0 0 3 3\n".toList ++ "5 1 1 0 1 0 4 4\n".toList

theorem text3_dump : (dumpVer (withStates (fun s => written01 (stBits s)) (intModes st3)) 1).2 = text3 := by decide +kernel

/-- The change file: four states and the removal of an edge. -/
def changes3 : List Char :=
  "# obstacle\n".toList ++ ("0 0 1\n".toList ++ ("0 1 0\n".toList ++ ("0 1 1\n".toList ++ ("1 0 1\n".toList ++ ("\n".toList ++
    ("restrict 0 1 0 0 1 1\n".toList ++ []))))))

def N3 : List (BState 0 3) := [pt 1, pt 2, pt 3, pt 5]

def c3 : List (Change (Val 0) (Val 3)) := [.restrictSys (pt 2) (pt 3)]

theorem number3 (a b c : ℤ) (line s : List Char) (h : line = printInt a ++ [b, c].flatMap sp ++ ['\n']) (hl : line.length < 1024) :
    NumberLine [a, b, c] line s :=
  ⟨hl, _, ['\n'], row_print a [b, c], Or.inl (Or.inl rfl), h⟩

theorem changes3_says : ChangeFileSays N3 c3 changes3 := by
  have e1 : N3.map (fun x => written01 (stBits x)) = [[0, 0, 1], [0, 1, 0], [0, 1, 1], [1, 0, 1]] := by decide +kernel
  have e2 : c3.map changeText = [("restrict".toList, [0, 1, 0, 0, 1, 1])] := by decide +kernel
  unfold ChangeFileSays
  rw [e1, e2]
  refine .skip _ _ _ _ ⟨by decide, Or.inr ⟨" obstacle".toList, ['\n'], by decide, Or.inl (Or.inl rfl), by decide⟩⟩ ?_
  refine .state _ _ _ _ _ (number3 0 0 1 _ _ (by decide +kernel) (by decide)) ?_
  refine .state _ _ _ _ _ (number3 0 1 0 _ _ (by decide +kernel) (by decide)) ?_
  refine .state _ _ _ _ _ (number3 0 1 1 _ _ (by decide +kernel) (by decide)) ?_
  refine .state _ _ _ _ _ (number3 1 0 1 _ _ (by decide +kernel) (by decide)) ?_
  refine .skip _ _ _ _ ⟨by decide, Or.inl (by decide)⟩ ?_
  refine .cmds _ _ (.cmd _ _ _ _ _ (Or.inl rfl) ?_ .nil)
  exact ⟨by decide, _, ['\n'], row_print 0 [1, 0, 0, 1, 1], Or.inl (Or.inl rfl), by decide +kernel⟩

/-- The strategy that is loaded: the addresses are those of the loader. -/
def loaded3 : Aut ℤ (BState 0 3) :=
  [⟨0, pt 0, 0, 4, false, [4]⟩, ⟨1, pt 4, 1, 1, false, [0]⟩, ⟨2, pt 3, 0, 1, false, [1]⟩, ⟨3, pt 2, 0, 2, false, [2]⟩,
    ⟨4, pt 1, 0, 3, false, [3]⟩, ⟨5, pt 6, 0, 4, true, [4]⟩]

set_option synthInstance.maxSize 1000 in
theorem loaded3_eq : loadStrategy w3 false text3 = .ok loaded3 := by decide +kernel

theorem loaded3_input : PatchInput (w := w3) 2 loaded3 := by
  have h1 : (loaded3.map (·.id)).Nodup := by decide
  have h2 : ∀ x ∈ loaded3, ∀ j ∈ x.trans, ∃ y ∈ loaded3, y.id = j := by decide
  have h3 : ∀ x ∈ loaded3, ∃ j : Fin 2, x.mode = (j.val : ℤ) := by decide
  exact ⟨h1, h2, h3⟩

/-- The result: from 2 to 5. -/
def patched3 : Aut ℤ (BState 0 3) :=
  [⟨0, pt 0, 0, 12, false, [106]⟩, ⟨1, pt 4, 1, 3, false, [0]⟩, ⟨2, pt 3, 0, 3, false, [1]⟩, ⟨5, pt 6, 0, 12, true, [106]⟩,
    ⟨308, pt 5, 0, 4, false, [2]⟩, ⟨207, pt 2, 0, 5, false, [308]⟩, ⟨106, pt 1, 0, 6, false, [207]⟩]

def os3 : Game (Val 0) (Val 3) → ℕ → Oracle (Val 0) (Val 3) := fun G _ => orc3 G 100

set_option synthInstance.maxSize 1000 in
theorem patched3_eq : patchFiles w3 [] [G3.str] (withDefaultGoal []).get 2 os3 100 false text3 changes3 = .ok patched3 := by decide +kernel

theorem fit3 : AutFits (withStates (fun s => written01 (stBits s)) (intModes st3)) := by
  refine ⟨?_, ?_, ?_⟩
  · have hl : (withStates (fun s => written01 (stBits s)) (intModes st3)).length = 6 := by decide
    rw [hl]; decide
  · unfold IsInt
    decide +kernel
  · have key : ∀ i : Fin (withStates (fun s => written01 (stBits s)) (intModes st3)).length,
        (nodeText 1 (withStates (fun s => written01 (stBits s)) (intModes st3)) i
          (withStates (fun s => written01 (stBits s)) (intModes st3))[i]).length < 4095 := by decide +kernel
    intro i n hn
    obtain ⟨hlt, rfl⟩ := List.getElem?_eq_some_iff.1 hn
    exact key ⟨i, hlt⟩

theorem nowrap3 : NoWrap sg3.get N3 c3 (intModes st3) := by
  have h : ∀ x ∈ intModes st3, ∀ y ∈ intModes st3, y.id ∈ x.trans → y.mode = x.mode → x.state ∈ N3 → y.state ∈ N3 →
      ∃ i : Fin sg3.length, x.state ∉ sg3.get i := by decide +kernel
  exact fun x hx y hy h1 h2 _ h3 h4 => h x hx y hy h1 h2 h3 h4

/-- The workflow: the strategy is written, read and patched; the result is correct in the changed game. -/
example : (∀ x ∈ patched3, EdgesSound (c3.foldl applyChange G3) patched3 x) ∧
    (∀ ρ, IsRun patched3 ρ → ∀ i, InfOften (fun k => (ρ k).state) (sg3.get i)) ∧
    ∀ x ∈ patched3, Answered (c3.foldl applyChange G3) patched3 x := by
  have e1 : IsConjunction [] [G3.str] G3 := ⟨fun s e => by simp [G3], fun s t => by simp⟩
  have e3 : NoCross N3 c3 (intModes st3) := by unfold NoCross; decide +kernel
  have e4 : st3 ≠ [] := by unfold st3; simp
  have e5 : patchFiles w3 [] [G3.str] (withDefaultGoal []).get 2 os3 100 false
      (dumpVer (withStates (fun s => written01 (stBits s)) (intModes st3)) 1).2 changes3 = .ok patched3 := text3_dump ▸ patched3_eq
  have h := patch_workflow_partial (w := w3) (eps := []) (sps := [G3.str]) (b := false) (fuel := 100) (os := os3) w3_bool (by decide)
    (orc3_valid G3 0) st3_real st3_synth e4 fit3 e1 nowrap3 (changedByAll_foldl G3 c3) (fun _ => orc3_valid _ 100) changes3_says e5
  exact ⟨h.1, fun ρ hρ => h.2.1 ρ hρ (fun _ hg => absurd hg List.not_mem_nil), h.2.2 e3 fun _ => ⟨fun _ => false, rfl⟩⟩

/-- A state with two values instead of three is refused. -/
example : patchFiles w3 [] [G3.str] (withDefaultGoal []).get 2 os3 100 false text3 "0 1\n".toList = .err :=
  short_state_refused (N := []) w3_bool loaded3_eq (line := "0 1\n".toList) (s := []) (vs := [0, 1]) (.cmds _ _ .nil)
    ⟨by decide, _, ['\n'], row_print 0 [1], Or.inl (Or.inl rfl), by decide +kernel⟩ (by decide) (by decide)

/-- An edge with four values is refused; a word that is not known is refused. -/
example : patchFiles w3 [] [G3.str] (withDefaultGoal []).get 2 os3 100 false text3 "relax 0 1 0 1\n".toList = .err ∧
    patchFiles w3 [] [G3.str] (withDefaultGoal []).get 2 os3 100 false text3 "block 0 1 0\n".toList = .err := by
  refine ⟨wrong_count_refused (N := []) (cs := []) w3_bool (by decide) loaded3_eq loaded3_input (word := "relax".toList)
      (line := "relax 0 1 0 1\n".toList) (s := []) (vs := [0, 1, 0, 1]) (Or.inr (Or.inl rfl))
      ⟨by decide, _, ['\n'], row_print 0 [1, 0, 1], Or.inl (Or.inl rfl), by decide +kernel⟩ (by unfold WrongCount; decide) (Or.inl (by decide))
      (.cmds _ _ .nil),
    no_command_refused (N := []) (cs := []) w3_bool (by decide) loaded3_eq loaded3_input (line := "block 0 1 0\n".toList) (s := [])
      ⟨by decide, strtol_none.1 (by decide +kernel), by decide, ⟨"block 0 1 0".toList, ['\n'], by decide, by decide, Or.inl (Or.inl rfl), by decide⟩, ?_⟩
      (.cmds _ _ .nil)⟩
  rintro word (rfl | rfl | rfl) <;> decide

/-- `blocksys` with two values after a command: double free. -/
example : patchFiles w3 [] [G3.str] (withDefaultGoal []).get 2 os3 100 false text3
    ("relax 0 0 0 0 0 0\n".toList ++ ("blocksys 1 0\n".toList ++ [])) = .ub :=
  wrong_block_double_free (N := []) (cs := [.relaxSys (pt 0) (pt 0)]) w3_bool (by decide) loaded3_eq loaded3_input
    (line := "blocksys 1 0\n".toList) (s := []) (vs := [1, 0])
    ⟨by decide, _, ['\n'], row_print 1 [0], Or.inl (Or.inl rfl), by decide +kernel⟩ (by decide) (by decide) (by decide)
    (fun x _ c hc ht => by rw [List.mem_singleton] at hc; subst hc; exact ht.elim)
    (.cmds _ _ (.cmd _ _ _ _ _ (Or.inr (Or.inl rfl))
      ⟨by decide, _, ['\n'], row_print 0 [0, 0, 0, 0, 0], Or.inl (Or.inl rfl), by decide +kernel⟩ .nil))

/-! ### Integer variables -/

/-- One integer variable `x [0,2]` of the system. -/
def sx : Decls := [(['x'], 2)]

/-- A strategy that goes from 0 to 1 and back. -/
def textx : List Char := "1\n0 0 1 0 1 1\n1 1 0 0 1 0\n".toList

def loadedx : Aut ℤ (BState (declVars [] sx).ne (declVars [] sx).ns) :=
  [⟨0, asState _ _ [false, false], 0, 1, true, [1]⟩, ⟨1, asState _ _ [true, false], 0, 1, false, [0]⟩]

set_option synthInstance.maxSize 1000 in
theorem loadedx_eq : loadStrategy (declVars [] sx) false textx = .ok loadedx := by decide +kernel

theorem sx_int : ∃ d ∈ sx, 0 ≤ d.2 := ⟨(['x'], 2), by decide, by decide⟩

theorem sx_small : IntDecls ([] ++ sx) := by unfold IntDecls; decide

/-- `restrict 0 1` reads beyond the end of the two values. -/
example (os) : patchFiles (declVars [] sx) [] [] (withDefaultGoal []).get 1 os 100 false textx "restrict 0 1\n".toList = .ub :=
  edge_command_overread (N := []) sx_int sx_small loadedx_eq (line := "restrict 0 1\n".toList) (s := []) (vs := [0, 1]) (Or.inl rfl)
    ⟨by decide, _, ['\n'], row_print 0 [1], Or.inl (Or.inl rfl), by decide +kernel⟩ (Or.inl (by decide)) (.cmds _ _ .nil)

/-- The value 2 as bits. -/
def two : Val (declVars [] sx).ns := fun i => i.val = 1

/-- `blocksys 2` with the neighbourhood of the states 0 and 1 has no effect on this strategy. -/
example (os) : patchFiles (declVars [] sx) [] [] (withDefaultGoal []).get 1 (fun _ => os) 100 false textx ("0\n".toList ++ ("1\n".toList ++ ("blocksys 2\n".toList ++ []))) =
    (patchLocalfixpoint [] [] (withDefaultGoal []).get 1 [(fun i => i.elim0, fun _ => false), (fun i => i.elim0, fun i => i.val = 0)]
      [.blockSys two] os 100 loadedx).toP := by
  refine blocksys_file_read sx_int sx_small loadedx_eq (vals := [two]) ?_
  have e1 : [((fun i => i.elim0, fun _ => false) : BState (declVars [] sx).ne (declVars [] sx).ns), (fun i => i.elim0, fun i => i.val = 0)].map
      (fun x => bitValues [] sx (stBits x)) = [[0], [1]] := by decide +kernel
  have e2 : [two].map (fun v => ("blocksys".toList, decList sx (written01 (List.ofFn v)))) = [("blocksys".toList, [2])] := by decide +kernel
  rw [e1, e2]
  refine .state _ _ _ _ _ ⟨by decide, _, ['\n'], row_print 0 [], Or.inl (Or.inl rfl), by decide +kernel⟩ ?_
  refine .state _ _ _ _ _ ⟨by decide, _, ['\n'], row_print 1 [], Or.inl (Or.inl rfl), by decide +kernel⟩ ?_
  exact .cmds _ _ (.cmd _ _ _ _ _ (Or.inr (Or.inr rfl)) ⟨by decide, _, ['\n'], row_print 2 [], Or.inl (Or.inl rfl), by decide +kernel⟩ .nil)

/-- An integer variable of the environment and a Boolean variable of the system. -/
def ex : Decls := [(['e'], 2)]
def sy : Decls := [(['y'], -1)]
def texte : List Char := "1\n0 0 1 1 0 1 0\n".toList
def loadede : Aut ℤ (BState (declVars ex sy).ne (declVars ex sy).ns) := [⟨0, asState _ _ [false, false, true], 0, 1, true, [0]⟩]

set_option synthInstance.maxSize 1000 in
theorem loadede_eq : loadStrategy (declVars ex sy) false texte = .ok loadede := by decide +kernel

/-- Even an empty change file. -/
example (os) : patchFiles (declVars ex sy) [] [] (withDefaultGoal []).get 1 os 100 false texte [] = .ub :=
  env_integers_overread ⟨(['e'], 2), by decide, by decide⟩ (by decide) loadede_eq

/-- **Defect, concrete.** One Boolean variable of the environment and `x [0,2]` of the system: `restrict 0 0 1` (from the state 0, 0
the move of the environment to 1) removes both moves of the environment from this state. -/
theorem restrict_env_removes_all :
    ∃ G', cmdLine (declVars [(['a'], -1)] sx) 0 1 [] [] true "restrict 0 0 1\n".toList (⟨fun _ _ => true, fun _ _ => true⟩, []) = .ok (G', []) ∧
      ∀ f, G'.etr (fun _ => false, fun _ => false) f = false := by
  obtain ⟨G', h1, h2⟩ := restrict_env_wide (evars := [(['a'], -1)]) (svars := sx) (n := 1) (N := []) (st := []) (by decide) sx_int
    (by unfold IntDecls; decide) (fun _ => false, fun _ => false) (fun _ => true) (args := "0 0 1\n".toList)
    (by
      have e : bitValues [(['a'], -1)] sx (stBits ((fun _ => false, fun _ => false) : BState (declVars [(['a'], -1)] sx).ne (declVars [(['a'], -1)] sx).ns)) ++
          written01 (List.ofFn fun _ : Fin (declVars [(['a'], -1)] sx).ne => true) = [0, 0, 1] := by decide +kernel
      rw [e]
      exact row_numbers (row_print 0 [0, 1]) (e := ['\n']) (by unfold Spaces; decide)) true ⟨fun _ _ => true, fun _ _ => true⟩ []
  refine ⟨G', h1, fun f => ?_⟩
  rw [Bool.eq_false_iff]
  intro hc
  have := (h2.2 _ f).1 hc
  rw [if_neg (by decide)] at this
  refine this.2 ⟨rfl, fun i hi => ?_⟩
  have : [((['a'] : Name), (-1 : ℤ))].length + sx.length - totalWidth sx = 0 := by decide
  omega

end ChangeEx

end Gr1c
