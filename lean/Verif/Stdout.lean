import Verif.PtDump
import Verif.MainSpin

/-!
# What `gr1c` and `gr1c-rg` print

`/repo/src/main.c` 313-345, 391-480, 555-562, 590-625, 649-684 and 726-730, `/repo/src/rg_main.c` 201-228, 297-388 and 421-594: lines of the
log, texts on standard output, and where they go. Stream 0 is standard output. Messages on standard error, except those of the log,
usage and version texts, and the dialogue of the interactive mode are not part of the model.
-/

namespace Gr1c

/-- What the program finds around it when it prints. -/
structure Screen where
  json : JsonEnv
  /-- version number in a Promela file -/
  ver : List Char
  /-- bound on the moves enumerated in a Promela file -/
  moves : ℕ
  /-- the time at the beginning of a line, the same for all lines; `none` if `strftime` fails -/
  stamp : Option (List Char)
  pid : ℕ
  /-- text of the date in the name of the log file -/
  day : List Char
  /-- `fopen` for the log file -/
  openLog : List Char → Option ℕ
  /-- log calls of `expand_nonbool_GR1`, `expand_nonbool_variables` and `print_GR1_spec` with `-vv` -/
  front : List LogCmd
  /-- log calls of `check_realizable` with `-vv` (of the construction of BDDs in `gr1c-rg`) -/
  win : List LogCmd
  /-- log calls of the synthesis with `-vv` -/
  synth : List LogCmd
  /-- result of `Cudd_CheckZeroRef` -/
  refs : ℤ
  /-- message of the parser for a file that it rejects -/
  parseText : List Char

/-- How the printing ends. -/
inductive ScrRes
  /-- state of the streams when `main` returns -/
  | done (σ : LogSt)
  | ub
  /-- `exit(-1)` in `openlogfile` -/
  | quit
  /-- outside of this model: another program, usage and version texts, interactive mode, a formula without BDD, a bound that was too small -/
  | other

/-- Go on after a call that writes. -/
def LogRes.scr {α : Type} : LogRes α → (α → ScrRes) → ScrRes
  | .ok a, k => k a
  | .exit, _ => .quit
  | .ub, _ => .ub

/-- `if (verbose) logprint( ... );` -/
def say (X : Screen) (v : ℕ) (fmt : String) (as : List LogArg) (σ : LogSt) : LogRes LogSt :=
  if 0 < v then logPrint X.stamp fmt.toList as σ else .ok σ

/-- Calls with `if (verbose > 1)`. -/
def sayMore (v : ℕ) (cs : List LogCmd) (σ : LogSt) : LogRes LogSt := if 1 < v then logRun cs σ else .ok σ

/-- `/repo/src/main.c` 313-321: the log, and the value of `verbose` afterwards. -/
def scrStart (X : Screen) (c : Cfg) (σ : LogSt) : LogRes (LogSt × ℕ) :=
  if c.logging then
    (openLogFile X.pid X.day X.openLog none σ).bind fun r => .ok (r.1, if c.verbose = 0 then 1 else c.verbose)
  else .ok (setLogOpt 1 (setLogStream (some 0) σ), c.verbose)

/-- `-p`, `/repo/src/main.c` 421-479; the files are those of `dumpFiles`. -/
def scrEcho (X : Screen) (c : Cfg) (p : PState) (σ : LogSt) : LogRes LogSt :=
  if c.ptdump then
    (σ.put 0 (varsText (-1) p.ev p.sv)).bind (printGr1Spec X.stamp p.ev p.sv (omissionDefaults p.sp) (some 0))
  else .ok σ

/-- `/repo/src/main.c` 598 and 600, 607 and 609. -/
def verdictText (yes : Bool) : String := if yes then "Realizable." else "Not realizable."

/-- `/repo/src/main.c` 595-611. -/
def scrVerdict (X : Screen) (c : Cfg) (v : ℕ) (yes : Bool) (σ : LogSt) : LogRes LogSt :=
  (if c.run = .realizable ∧ (v = 0 ∨ σ.fp ≠ some 0) then σ.put 0 ((verdictText yes).toList ++ ['\n']) else .ok σ).bind
    (say X v (verdictText yes) [])

/-- `/repo/src/main.c` 726-730. -/
def scrEnd (X : Screen) (c : Cfg) (v : ℕ) (σ : LogSt) : ScrRes :=
  (sayMore v [.print X.stamp "Cudd_CheckZeroRef -> %d".toList [.int X.refs]] σ).scr fun σ =>
    (if c.logging then closeLogFile σ else .ok σ).scr .done

/-- The strategy, `/repo/src/main.c` 640-675, `/repo/src/rg_main.c` 554-586. What goes to a file is not recorded here. -/
def scrWrite (X : Screen) (o : Output) (σ : LogSt) : LogRes LogSt :=
  match writeOut X.json o with
  | none => .ub
  | some .ub => .ub
  | some .failed => .ok σ
  | some (.ok s) => if o.dest = none then σ.put 0 s else .ok σ

/-- The Promela file, `/repo/src/main.c` 676-684. -/
def scrModel (X : Screen) (c : Cfg) (p : PState) (o : Output) (σ : LogSt) : LogRes LogSt :=
  match writeModel X.ver X.moves c p o with
  | none => .ub
  | some t => σ.put 0 t

/-- `/repo/src/main.c` 649-684. -/
def scrOutput (X : Screen) (c : Cfg) (v : ℕ) (p : PState) (o : Output) (σ : LogSt) : ScrRes :=
  (say X v "Dumping automaton of size %d..." [.int o.aut.length] σ).scr fun σ =>
    (scrWrite X o σ).scr fun σ => (scrModel X c p o σ).scr (scrEnd X c v)

/-- After the result of the synthesis, `/repo/src/main.c` 620-730; if there is no strategy or no file to write it to, `main` returns
without a further word on these streams. -/
def scrResult (X : Screen) (c : Cfg) (v : ℕ) (p : PState) (r : MainRes) (σ : LogSt) : ScrRes :=
  match r with
  | .exit _ none => .done σ
  | .exit _ (some o) => scrOutput X c v p o σ
  | .ub => .ub
  | _ => .other

/-- `/repo/src/main.c` 613-730 after a positive verdict. -/
def scrSynth {ne ns : ℕ} (X : Screen) (w : World) (c : Cfg) (v : ℕ) (p : PState) (ev sv nb : PTree) (B : BitSpec ne ns) (σ : LogSt) :
    ScrRes :=
  (say X v "Synthesizing a strategy..." [] σ).scr fun σ =>
    (sayMore v X.synth σ).scr fun σ =>
      (say X v "Done." [] σ).scr (scrResult X c v p (synthAndWrite w c ev sv nb B))

/-- `/repo/src/main.c` 590-730. -/
def scrGame {ne ns : ℕ} (X : Screen) (w : World) (c : Cfg) (v : ℕ) (p : PState) (ev sv nb : PTree) (B : BitSpec ne ns) (σ : LogSt) :
    ScrRes :=
  (sayMore v X.win σ).scr fun σ =>
    match B.check c.init with
    | none => .ub
    | some T =>
      (scrVerdict X c v T.isSome σ).scr fun σ =>
        if c.run = .synthesis ∧ T.isSome then scrSynth X w c v p ev sv nb B σ else scrEnd X c v σ

/-- `/repo/src/main.c` 512-730. -/
def scrFront (X : Screen) (w : World) (c : Cfg) (v : ℕ) (p : PState) (σ : LogSt) : ScrRes :=
  match frontEnd p.ev p.sv c.init p.sp with
  | .formError => .done σ
  | .ub => .ub
  | .error => .done σ
  | .noBdd => .other
  | .ok ev sv nb _ _ B => if c.run = .interactive then .other else scrGame X w c v p ev sv nb B σ

/-- `/repo/src/main.c` 344-730, for a parsed specification. -/
def scrParsed (X : Screen) (w : World) (c : Cfg) (v : ℕ) (p : PState) (σ : LogSt) : ScrRes :=
  (say X v "Done." [] σ).scr fun σ =>
    if checkGr1cForm p.ev p.sv c.init p.sp < 0 then .done σ
    else if c.run = .syntaxOnly then .done σ
    else if c.ptdump = true ∧ w.canDump = false then .done σ
    else (scrEcho X c p σ).scr fun σ => (sayMore v X.front σ).scr (scrFront X w c v p)

/-- `/repo/src/main.c` 337-730. -/
def scrText (X : Screen) (w : World) (c : Cfg) (v : ℕ) (text : List Char) (σ : LogSt) : ScrRes :=
  (say X v "Parsing input..." [] σ).scr fun σ =>
    match parseFile false text with
    | none => (σ.put 0 X.parseText).scr .done
    | some p => scrParsed X w c v p σ

/-- `/repo/src/main.c` 313-730, for a configuration. -/
def scrRun (X : Screen) (w : World) (c : Cfg) (σ : LogSt) : ScrRes :=
  (scrStart X c σ).scr fun r =>
    (say X r.2 "Running with verbosity level %d." [.int r.2] r.1).scr fun σ =>
      match w.source c.input with
      | none => .done σ
      | some text => scrText X w c r.2 text σ

/-- What a call of `gr1c` prints; the list does not contain `argv[0]`. -/
def scrMain (X : Screen) (w : World) (args : List Arg) (σ : LogSt) : ScrRes :=
  match cliMain args with
  | .run c => scrRun X w c σ
  | _ => .other

/-! ## `gr1c-rg` -/

/-- `/repo/src/rg_main.c` 201-207. -/
def rgScrStart (X : Screen) (c : Cfg) (σ : LogSt) : LogRes (LogSt × ℕ) :=
  if c.logging then (openLogFile X.pid X.day X.openLog (some "rg".toList) σ).bind fun r => .ok (r.1, 1)
  else .ok (setLogOpt 1 (setLogStream (some 0) σ), c.verbose)

/-- `-p`, `/repo/src/rg_main.c` 297-388. -/
def rgScrEcho (c : Cfg) (p : PState) (σ : LogSt) : LogRes LogSt :=
  if c.ptdump then σ.put 0 (varsText (-1) p.ev p.sv ++ rgFormulas .nil .nil (rgDefaults p.sp)) else .ok σ

/-- After the result of the synthesis, `/repo/src/rg_main.c` 540-621. -/
def rgScrResult (X : Screen) (c : Cfg) (v : ℕ) (r : MainRes) (σ : LogSt) : ScrRes :=
  match r with
  | .exit _ none => .done σ
  | .exit _ (some o) => (scrWrite X o σ).scr (scrEnd X c v)
  | .ub => .ub
  | _ => .other

/-- `/repo/src/rg_main.c` 391-621. Calls with `-vv` before and after 442-443 are put together. -/
def rgScrFront (X : Screen) (w : World) (c : Cfg) (v : ℕ) (p : PState) (σ : LogSt) : ScrRes :=
  match rgFront p.ev p.sv c.init p.sp with
  | .formError => .done σ
  | .ub => .ub
  | .error => .done σ
  | .noBdd => .other
  | .ok ev sv nb _ _ B =>
    (sayMore v X.win σ).scr fun σ =>
      (say X v "Synthesizing a reachability game strategy..." [] σ).scr fun σ =>
        (sayMore v X.synth σ).scr (rgScrResult X c v (rgSynthAndWrite w c ev sv nb B))

/-- `/repo/src/rg_main.c` 227-621, for a parsed specification. -/
def rgScrParsed (X : Screen) (w : World) (c : Cfg) (v : ℕ) (p : PState) (σ : LogSt) : ScrRes :=
  (say X v "Done." [] σ).scr fun σ =>
    if 1 < p.sp.sgoals.length then .done σ
    else if checkGr1cForm p.ev p.sv c.init p.sp < 0 then .done σ
    else if c.run = .syntaxOnly then .done σ
    else if c.ptdump = true ∧ w.canDump = false then .done σ
    else (rgScrEcho c p σ).scr fun σ => (sayMore v X.front σ).scr (rgScrFront X w c v p)

/-- `/repo/src/rg_main.c` 221-621. -/
def rgScrText (X : Screen) (w : World) (c : Cfg) (v : ℕ) (text : List Char) (σ : LogSt) : ScrRes :=
  (say X v "Parsing input..." [] σ).scr fun σ =>
    match parseFile true text with
    | none => (σ.put 0 X.parseText).scr .done
    | some p => rgScrParsed X w c v p σ

/-- `/repo/src/rg_main.c` 201-621, for a configuration. -/
def rgScrRun (X : Screen) (w : World) (c : Cfg) (σ : LogSt) : ScrRes :=
  (rgScrStart X c σ).scr fun r =>
    match w.source c.input with
    | none => .done r.1
    | some text => rgScrText X w c r.2 text r.1

/-- What a call of `gr1c-rg` prints; the list does not contain `argv[0]`. -/
def rgScrMain (X : Screen) (w : World) (args : List Arg) (σ : LogSt) : ScrRes :=
  match rgOptLoop true Cfg.rgDefault args with
  | .go c => if c.help then .other else rgScrRun X w c σ
  | _ => .other

end Gr1c
