import Verif.Rg
import Verif.Autman
import Verif.PatchFile
import Verif.AddGoal

/-!
# Model of the main function of `gr1c-patch`, `/repo/exp/grpatch.c` 50-731

From the command line to the exit status and the automaton that is written. As in `Verif.Main`, messages, log files and the files of
`-p` are left out, allocation and the creation of the temporary file succeed, and a status of -1 is seen as 255 by the shell.
-/

namespace Gr1c

/-! ## Command line -/

/-- The variables set by the options, `/repo/exp/grpatch.c` 52-87. An index into `argv` that is -1 is `none`. -/
structure PgCfg where
  help : Bool := false
  ptdump : Bool := false
  logging : Bool := false
  verbose : ℕ := 0
  format : OutFmt := .json
  metric : Option Arg := none
  edges : Option Arg := none
  aut : Option Arg := none
  output : Option Arg := none
  form : Option Arg := none
  /-- `remove_goal_mode` -/
  rm : ℤ := -1
  /-- `run_option` is `GR1C_MODE_PATCH` -/
  patch : Bool := false
  input : Option Arg := none
  deriving DecidableEq

/-- Outcome of the loop over the arguments. -/
inductive PgOptRes
  /-- an error, status 1 -/
  | usage
  /-- status 0 -/
  | version
  /-- `argv[i][2]` of a lone `-` -/
  | ub
  | go (c : PgCfg)
  deriving DecidableEq

/-- A flag without an argument, `/repo/exp/grpatch.c` 98-115. -/
def pgPlainFlag (c : PgCfg) (f : Char) (more : List Char) : Option PgCfg :=
  if f = 'h' then some { c with help := true }
  else if f = 'v' then
    -- `unsigned char verbose`; the loop 108-111 runs at most once
    some { c with verbose := (c.verbose + 1 + if more.head? = some 'v' then 1 else 0) % 256 }
  else if f = 'l' then some { c with logging := true }
  else if f = 'p' then some { c with ptdump := true }
  else none

/-- Does the flag take an argument? `/repo/exp/grpatch.c` 116-186. -/
def pgTakesArg (f : Char) : Bool :=
  f = 'm' || f = 't' || f = 'e' || f = 'a' || f = 'o' || f = 'f' || f = 'r'

/-- A flag with an argument, `/repo/exp/grpatch.c` 116-186. -/
def pgArgFlag (c : PgCfg) (f : Char) (x : Arg) : Option PgCfg :=
  if f = 'm' then some { c with metric := some x }
  else if f = 't' then (formatOf x).map fun y => { c with format := y }
  else if f = 'e' then some { c with patch := true, edges := some x }
  else if f = 'a' then some { c with aut := some x }
  else if f = 'o' then some { c with output := some x }
  else if f = 'f' then some { c with patch := true, form := some x }
  else if lenArg x < 0 then none                                  -- 181-185
  else some { c with patch := true, rm := lenArg x }

/-- The loop over the arguments, `/repo/exp/grpatch.c` 90-208. -/
def pgOptLoop (reading : Bool) (c : PgCfg) : List Arg → PgOptRes
  | [] => .go c
  | a :: rest =>
    match argKind reading a with
    | .dash => .ub
    | .long more =>
      if more = [] then pgOptLoop false c rest
      else if hasPfx "help" more then pgOptLoop true { c with help := true } rest
      else if hasPfx "version" more then .version
      else .usage
    | .short f more =>
      if more ≠ [] ∧ ¬ (f = 'v' ∧ more.head? = some 'v') then .usage
      else if f = 'V' then .version
      else if pgTakesArg f then
        match rest with
        | [] => .usage
        | x :: rest' =>
          match pgArgFlag c f x with
          | none => .usage
          | some c' => pgOptLoop true c' rest'
      else
        match pgPlainFlag c f more with
        | none => .usage
        | some c' => pgOptLoop true c' rest
    | .other => pgOptLoop reading (if c.input = none then { c with input := some a } else c) rest
  termination_by args => args.length
  decreasing_by all_goals (simp_wf; try omega)

/-- Is the automaton read from standard input? `!strncmp( argv[aut_input_index], "-", 1 )`. -/
def fromStdin (f : Arg) : Bool := f.head? = some '-'

/-- The checks after the loop, `/repo/exp/grpatch.c` 210-258, in their order: `some s` if the program ends here with status `s`. -/
def pgCheck (c : PgCfg) : Option ℤ :=
  if c.edges.isSome ∧ c.form.isSome then some 1
  else if (c.edges.isSome ∨ c.form.isSome ∨ 0 ≤ c.rm) ∧ c.aut = none then some 1
  else if c.help then some 0
  else if c.input = none ∧ c.patch = true ∧ (match c.aut with | some f => fromStdin f | none => false) = true then some 1
  else if c.patch = false then some 1
  else none

/-! ## Metric variables -/

/-- The words of a text divided by blanks, `strtok( var_str, " " )` in `/repo/src/solve_metric.c` 42 and 92. -/
def metricWords (w : List Char) : List Char → List (List Char)
  | [] => if w = [] then [] else [w]
  | c :: r => if c = ' ' then (if w = [] then metricWords [] r else w :: metricWords [] r) else metricWords (w ++ [c]) r

/-- `get_offsets`, `/repo/src/solve_metric.c` 26-97. The empty list stands for NULL: no word, or a word that is not the beginning of the
name of a variable. -/
def getOffsets (ev sv : VarList) (text : List Char) : List (ℕ × ℕ) :=
  (getOffsetsList ev sv ((metricWords [] text).map fun n => (n, 0))).getD []

/-- `/repo/exp/grpatch.c` 527: nothing without `-m`. -/
def metricOffsets (ev sv : VarList) : Option Arg → List (ℕ × ℕ)
  | some m => getOffsets ev sv m
  | none => []

/-! ## The world -/

/-- What `gr1c-patch` finds around it. -/
structure PatchWorld extends World where
  /-- choices of the BDD library and the allocator for the `k`-th substrategy of `add_metric_sysgoal` and `rm_sysgoal`; the list has the
  addresses of the nodes of the loaded strategy -/
  sub : (k ne ns : ℕ) → Game (Val ne) (Val ns) → List ℕ → Oracle (Val ne) (Val ns)
  /-- the same for `patch_localfixpoint`, the game after the changes and the goal mode `g` -/
  local_ : (ne ns : ℕ) → Game (Val ne) (Val ns) → (g : ℕ) → Oracle (Val ne) (Val ns)
  /-- what an uninitialised mark `initial` happens to be -/
  stale : Bool

/-- The text of the automaton, `/repo/exp/grpatch.c` 536-544. -/
def PatchWorld.autText (w : PatchWorld) (f : Arg) : Option (List Char) := if fromStdin f then some w.stdin else w.file f

/-! ## From the parsed texts to the result -/

/-- The variables for the loaders. `get_offsets_list` is called again by `aut_expand_bool`, which fails when it fails. -/
def patchVars (oe os : ℕ) (ev sv nb : VarList) : PatchVars :=
  ⟨oe, os, ev, sv, nb, (getOffsetsList ev sv nb).getD (nb.map fun _ => (0, 0))⟩

/-- The new goal after the loop over the variables that are not Boolean, `/repo/exp/grpatch.c` 503-514. `none`: a NULL pointer is
followed in `expand_to_bool`. Without a formula (`nil`) there is nothing to do. -/
def expandForm : VarList → PTree → Option PTree
  | [], t => some t
  | (n, v) :: r, t =>
    match expandToBool n v t with
    | none => none
    | some t' => expandForm r t'

/-- What is left to do after the patching function, `/repo/exp/grpatch.c` 644-711. -/
def pgWrite {ne ns : ℕ} (w : PatchWorld) (c : PgCfg) (ev sv nb : VarList) : PRes (Aut ℤ (BState ne ns)) → MainRes
  | .ub => .ub
  | .timeout => .timeout
  | .odd => .unmodelled
  | .err => .exit (-1) none                                       -- 644-647
  | .ok st =>
    if st = [] then .exit (-1) none                               -- 644-647
    else
      match compactAll (st.map fun x => ⟨x.id, bitVector x.state, x.mode, x.rgrad, x.initial, x.trans⟩) ev sv nb with
      | .ok (a, ev', sv') =>
        if (match c.output with | some f => w.canWrite f | none => true) then
          .exit 0 (some ⟨c.output, c.format, ev', sv', a⟩)
        else .exit (-1) none                                      -- 667-670
      | _ => .ub

/-- A function applied to the loaded strategy. -/
def onLoaded {v : PatchVars} (f : Aut ℤ (BState v.ne v.ns) → SRes (Aut ℤ (BState v.ne v.ns))) :
    PRes (Aut ℤ (BState v.ne v.ns)) → PRes (Aut ℤ (BState v.ne v.ns))
  | .ok st => (f st).toP
  | .ub => .ub
  | .err => .err
  | .odd => .odd
  | .timeout => .timeout

/-- `rm_sysgoal` with its file, `/repo/src/patching_hotswap.c` 562-912. -/
def rmFile (w : PatchWorld) (v : PatchVars) (B : BitSpec v.ne v.ns) (d : ℤ) (text : List Char) : PRes (Aut ℤ (BState v.ne v.ns)) :=
  onLoaded (fun st => rmSysgoal B.game (withDefaultGoal B.egs).get B.sgs.length d (w.sub 0 _ _ B.game (st.map (·.id))) w.fuel st)
    (loadStrategy v w.stale text)

/-- `add_metric_sysgoal` with its file, `/repo/src/patching_hotswap.c` 37-559. -/
def addFile (w : PatchWorld) (v : PatchVars) (B : BitSpec v.ne v.ns) (offw : List (ℕ × ℕ)) (new : Bdd (2 * (v.ne + v.ns)))
    (text : List Char) : PRes (Aut ℤ (BState v.ne v.ns)) :=
  onLoaded (fun st => addMetricSysgoal B.game (withDefaultGoal B.egs).get B.sgs (w.cover _) offw (statesOf new)
    (w.sub 0 _ _ B.game (st.map (·.id))) (w.sub 1 _ _ B.game (st.map (·.id))) w.fuel st) (loadStrategy v w.stale text)

/-- `patch_localfixpoint` with its files, `/repo/src/patching.c` 352-1069; the parts of the transition rules are turned into BDDs one by
one. `none`: a formula has no BDD. -/
def edgesFile (w : PatchWorld) (v : PatchVars) (vl : PTree) (sp : TSpec) (text changes : List Char) :
    Option (PRes (Aut ℤ (BState v.ne v.ns))) :=
  match bddList (2 * (v.ne + v.ns)) vl sp.etrans, bddList (2 * (v.ne + v.ns)) vl sp.strans, bddList (2 * (v.ne + v.ns)) vl sp.egoals with
  | some et, some st, some eg =>
    some (patchFiles v (et.map fun b => (bitGame b b).etr) (st.map fun b => (bitGame b b).str)
      (withDefaultGoal (eg.map statesOf)).get sp.sgoals.length (w.local_ v.ne v.ns) w.fuel w.stale text changes)
  | _, _, _ => none

/-- `/repo/exp/grpatch.c` 527-711: `v` are the variables, `vl` is the chained variable list, `sp` the expanded specification, `text` the
automaton. The initial conditions are not looked at. The outcome `unmodelled` (a formula without BDD) takes precedence over errors in
the automaton and the change file. -/
def pgPatch (w : PatchWorld) (c : PgCfg) (v : PatchVars) (vl : PTree) (sp : TSpec) (form : PTree) (text : List Char) : MainRes :=
  match c.edges with
  | some e =>
    match w.file e with
    | none => .exit (-1) none                                     -- 553-556
    | some changes =>
      match edgesFile w v vl sp text changes with
      | none => .unmodelled
      | some r => pgWrite w c v.ev v.sv v.nonbool r
  | none =>
    if c.form.isSome then
      match buildBits v.ne v.ns vl { sp with einit := .nil, sinit := .nil }, ptreeBdd (2 * (v.ne + v.ns)) vl form with
      | some B, .ok new =>
        pgWrite w c v.ev v.sv v.nonbool
          (addFile w v B (metricOffsets v.ev v.sv c.metric) new text)
      | _, _ => .unmodelled
    else if (sp.sgoals.length : ℤ) - 1 < c.rm then .exit 1 none   -- 601-607
    else
      match buildBits v.ne v.ns vl { sp with einit := .nil, sinit := .nil } with
      | some B => pgWrite w c v.ev v.sv v.nonbool (rmFile w v B c.rm text)
      | none => .unmodelled

/-- `/repo/exp/grpatch.c` 494-544: expansion, and opening the automaton file `f`. -/
def pgExpand (w : PatchWorld) (c : PgCfg) (p : PState) (form : PTree) (f : Arg) : MainRes :=
  match expandNonboolGR1 p.ev p.sv .allEnvExistSys (omissionDefaults p.sp) with
  | .ub => .ub
  | .err => .exit (-1) none                                       -- 494-499
  | .ok sp' =>
    match expandNonboolVariables p.ev p.sv with
    | none => .ub
    | some (ev, sv, nb) =>
      match expandForm (varListOf nb) form with
      | none => .ub
      | some form' =>
        match w.autText f with
        | none => .exit (-1) none                                 -- 540-543
        | some text =>
          pgPatch w c (patchVars p.ev.size p.sv.size (varListOf ev) (varListOf sv) (varListOf nb)) (chainVars ev sv) sp' form' text

/-- The formula of `-f`, `/repo/exp/grpatch.c` 279-301: the text and a newline are read by the parser of specifications, whose result
is not looked at. `none`: a syntax error; the tree that is left over is not modelled. -/
def pgForm (c : PgCfg) : Option PTree :=
  match c.form with
  | none => some .nil
  | some x => (parseFile false (x ++ ['\n'])).map PState.gen

/-- `/repo/exp/grpatch.c` 338-711, for a parsed specification. -/
def pgRun (w : PatchWorld) (c : PgCfg) (f : Arg) (p : PState) : MainRes :=
  if checkGr1cForm p.ev p.sv .undefined p.sp < 0 then .exit 2 none       -- 338-343
  else
    match pgForm c with
    | none => .unmodelled
    | some form =>
      if (checkVars (chainVars p.sv p.ev) .nil form).isSome then .exit 1 none    -- 357-360
      else pgExpand w c p form f

/-- The main function of `gr1c-patch`, `/repo/exp/grpatch.c` 50-731; the list does not contain `argv[0]`. -/
def patchMain (w : PatchWorld) (args : List Arg) : MainRes :=
  match pgOptLoop true {} args with
  | .usage => .exit 1 none
  | .version => .exit 0 none
  | .ub => .ub
  | .go c =>
    match pgCheck c, c.aut with
    | some s, _ => .exit s none
    | none, none => .ub
    | none, some f =>
      match w.source c.input with
      | none => .exit (-1) none                                   -- 317-320
      | some text =>
        match parseFile false text with
        | none => .exit 2 none                                    -- 333-334
        | some p => pgRun w c f p

end Gr1c
