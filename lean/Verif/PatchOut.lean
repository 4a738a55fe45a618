import Verif.AutmanOut
import Verif.FormLeft
import Verif.ParseErr

/-!
# What `gr1c-patch` prints (`/repo/exp/grpatch.c` 260-731)

A run is a list of things to print (`PgEv`), which are written one after the other. Stream 0 is standard output. Messages on standard error
are not part of the model. The log calls inside of the expansion and of the patching functions are arguments of the model (`Screen.front`,
`Screen.synth`).
-/

namespace Gr1c

/-- Something that is printed. -/
inductive PgEv
  /-- `if (verbose > n) logprint( ... );` -/
  | note (n : ℕ) (fmt : String) (as : List LogArg)
  /-- several calls with `if (verbose > n)` -/
  | calls (n : ℕ) (cs : List LogCmd)
  /-- on standard output -/
  | print (t : List Char)
  /-- the listing of `-p`, 402-491 -/
  | listing (p : PState)
  /-- `closelogfile` -/
  | close

def pgEvStep (X : Screen) (v : ℕ) : PgEv → LogSt → LogRes LogSt
  | .note n fmt as, σ => sayAt X n v fmt as σ
  | .calls n cs, σ => if n < v then logRun cs σ else .ok σ
  | .print t, σ => σ.put 0 t
  | .listing p, σ => (σ.put 0 (varsText 0 p.ev p.sv)).bind (printGr1Spec X.stamp p.ev p.sv (omissionDefaults p.sp) (some 0))
  | .close, σ => closeLogFile σ

def pgEvRun (X : Screen) (v : ℕ) : List PgEv → LogSt → LogRes LogSt
  | [], σ => .ok σ
  | e :: es, σ => (pgEvStep X v e σ).bind (pgEvRun X v es)

/-- The line at which `yyparse` stops to read: that of the token with the error, or that of the end. -/
def yyStop (rg : Bool) : PMem → PS → List (Tok × ℕ) → ℕ → ℕ
  | _, _, [], l => l
  | m, s, t :: ts, l =>
    match yyStep rg m s t.1 t.2 with
    | .error _ => t.2
    | .ok r => yyStop rg r.1 r.2 ts l

/-- What the parser writes to standard output, `/repo/src/gr1c_parse.y` 73-140 (see `PErr.out`), if `yylloc.last_line` is `l` when it
begins. -/
def parserSays (l : ℕ) (text : List Char) : List Char :=
  match yyRun false (yyToks true l text).1 (yyToks true l text).2 with
  | .error e => e.out
  | .ok _ => []

/-- `yylloc.last_line` when the parser begins to read the specification: `yylloc` is a variable of the generated parser that is set to 1
when the program begins; neither `yyparse` nor `yyrestart` sets it again, so that it has the value that the text of `-f` and the
line end after it (`/repo/exp/grpatch.c` 290) have left. -/
def specLine (c : PgCfg) : ℕ :=
  match c.form with
  | none => 1
  | some x => yyStop false .init .start (yyToks true 1 (x ++ ['\n'])).1 (yyToks true 1 (x ++ ['\n'])).2

/-- The formula of `-f`, `/repo/exp/grpatch.c` 279-310. `form` is the tree. -/
def pgFormEv (X : Screen) (c : PgCfg) (form : PTree) : List PgEv :=
  match c.form with
  | none => []
  | some x =>
    [.note 1 "Parsing command-line formula \"%s\"..." [.str x], .print (parserSays 1 (x ++ ['\n'])),
     .calls 1 [.start X.stamp, .raw "Command-line formula, printed from ptree: ".toList [],
       .raw "%s".toList [.str (printFormula false form)], .stop]]

/-- Beginning, `/repo/exp/grpatch.c` 270-310. -/
def pgFirstEv (X : Screen) (c : PgCfg) (v : ℕ) (form : PTree) : List PgEv :=
  [.note 0 "Running with verbosity level %d." [.int v]] ++
  (if c.metric = some [] then [.note 1 "Empty metric variable list given at command-line." []] else []) ++ pgFormEv X c form

/-- The strategy and the end, `/repo/exp/grpatch.c` 644-731; `none` is undefined behaviour or outside of the model. -/
def pgLastEv (X : Screen) (c : PgCfg) : MainRes → Option (List PgEv)
  | .exit _ none => some []
  | .exit _ (some o) =>
    match writeOut X.json o with
    | some (.ok s) =>
      some ([.note 0 "Dumping automaton of size %d..." [.int o.aut.length], .print (if o.dest = none then s else []),
        .calls 1 [.print X.stamp "Cudd_CheckZeroRef -> %d".toList [.int X.refs]]] ++ if c.logging then [.close] else [])
    | some .failed =>
      some ([.note 0 "Dumping automaton of size %d..." [.int o.aut.length],
        .calls 1 [.print X.stamp "Cudd_CheckZeroRef -> %d".toList [.int X.refs]]] ++ if c.logging then [.close] else [])
    | _ => none
  | _ => none

/-- Are the files opened and is the number of the goal to be removed one of a goal? `/repo/exp/grpatch.c` 494-499, 536-556, 601-607. -/
def pgReaches (w : PatchWorld) (c : PgCfg) (f : Arg) (p : PState) : Bool :=
  (match expandNonboolGR1 p.ev p.sv .allEnvExistSys (omissionDefaults p.sp) with | .ok _ => true | _ => false) &&
  (w.autText f).isSome &&
  (match c.edges with
   | some e => (w.file e).isSome
   | none => c.form.isSome || decide (c.rm ≤ ((omissionDefaults p.sp).sgoals.length : ℤ) - 1))

/-- `/repo/exp/grpatch.c` 494-731. -/
def pgWorkEv (X : Screen) (w : PatchWorld) (c : PgCfg) (f : Arg) (p : PState) (form : PTree) : Option (List PgEv) :=
  (pgLastEv X c (pgExpand w c p form f)).map fun es =>
    [.calls 1 X.front] ++
    (if pgReaches w c f p then [.note 0 "Patching given strategy..." [], .calls 0 X.synth, .note 0 "Done." []] else []) ++ es

/-- `/repo/exp/grpatch.c` 338-731. -/
def pgParsedEv (X : Screen) (w : PatchWorld) (c : PgCfg) (f : Arg) (p : PState) (form : PTree) : Option (List PgEv) :=
  if checkGr1cForm p.ev p.sv .undefined p.sp < 0 then some []
  else if (checkVars (chainVars p.sv p.ev) .nil form).isSome then some []
  else (pgWorkEv X w c f p form).map fun es => (if c.ptdump then [.listing p] else []) ++ es

/-- `/repo/exp/grpatch.c` 312-731. -/
def pgInputEv (X : Screen) (w : PatchWorld) (c : PgCfg) (f : Arg) (form : PTree) : Option (List PgEv) :=
  match w.source c.input with
  | none => some []
  | some text =>
    match parseFile false text with
    | none => some [.note 0 "Parsing input..." [], .print (parserSays (specLine c) text)]
    | some p => (pgParsedEv X w c f p form).map fun es => [.note 0 "Parsing input..." [], .note 0 "Done." []] ++ es

/-- `/repo/exp/grpatch.c` 260-268: the log, and the value of `verbose` afterwards. -/
def pgStart (X : Screen) (c : PgCfg) (σ : LogSt) : LogRes (LogSt × ℕ) :=
  if c.logging then
    (openLogFile X.pid X.day X.openLog none σ).bind fun r => .ok (r.1, if c.verbose = 0 then 1 else c.verbose)
  else .ok (setLogOpt 1 (setLogStream (some 0) σ), c.verbose)

/-- `/repo/exp/grpatch.c` 260-731. -/
def pgScrRun (X : Screen) (w : PatchWorld) (c : PgCfg) (f : Arg) (form : PTree) (σ : LogSt) : ScrRes :=
  (pgStart X c σ).scr fun r =>
    match pgInputEv X w c f form with
    | none => .other
    | some es => (pgEvRun X r.2 (pgFirstEv X c r.2 form ++ es) r.1).scr .done

/-- What a call of `gr1c-patch` prints, after the options and their checks; help, usage and messages on wrong combinations of options are
not part of this model. -/
def pgScrMain (X : Screen) (w : PatchWorld) (args : List Arg) (σ : LogSt) : ScrRes :=
  match pgOptLoop true {} args with
  | .go c =>
    match pgCheck c, c.aut, pgFormAny c with
    | none, some f, some form => pgScrRun X w c f form σ
    | _, _, _ => .other
  | _ => .other

end Gr1c
