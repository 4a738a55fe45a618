import Verif.Autman
import Verif.Stdout

/-!
# What `gr1c-autman` prints (`/repo/aux/autman.c` 202-323)

Lines of the log, texts on standard output, and where they go. Stream 0 is standard output. Messages on standard error and the texts of
`-h` (modelled in `HelpText.lean`) and `-V` are not part of this model. The log file is not closed by the program.
-/

namespace Gr1c

/-- `if (verbose > n) logprint( ... );` -/
def sayAt (X : Screen) (n v : ℕ) (fmt : String) (as : List LogArg) (σ : LogSt) : LogRes LogSt :=
  if n < v then logPrint X.stamp fmt.toList as σ else .ok σ

/-- `/repo/aux/autman.c` 204-211: the log, and the value of `verbose` afterwards. -/
def amStart (X : Screen) (c : AmCfg) (σ : LogSt) : LogRes (LogSt × ℕ) :=
  if c.logging then
    (openLogFile X.pid X.day X.openLog none σ).bind fun r => .ok (r.1, if c.verbose = 0 then 1 else c.verbose)
  else .ok (setLogOpt 1 (setLogStream (some 0) σ), c.verbose)

/-- The note on the input, `/repo/aux/autman.c` 243-248. -/
def amSayInput (X : Screen) (c : AmCfg) (v : ℕ) (σ : LogSt) : LogRes LogSt :=
  match c.input with
  | none => sayAt X 1 v "Using stdin for input." [] σ
  | some f => sayAt X 1 v "Using file \"%s\" for input." [.str f] σ

/-- The results on standard output, `/repo/aux/autman.c` 283-323. -/
def amScrPut (r : AmRes) (σ : LogSt) : ScrRes :=
  match r with
  | .exit _ s _ => (σ.put 0 s).scr .done
  | .ub => .ub
  | _ => .other

/-- `/repo/aux/autman.c` 264-323, after the automaton is loaded. -/
def amScrLoaded (X : Screen) (w : AmWorld) (c : AmCfg) (v : ℕ) (len : ℤ) (p : PState) (l : List LNode) (ver : ℤ) (σ : LogSt) : ScrRes :=
  (sayAt X 1 v "Done." [] σ).scr fun σ =>
    (sayAt X 0 v "Detected format version %d." [.int ver] σ).scr fun σ =>
      (sayAt X 0 v "Given automaton has size %d." [.int l.length] σ).scr (amScrPut (amWork w c len p))

/-- `/repo/aux/autman.c` 242-323. -/
def amScrWork (X : Screen) (w : AmWorld) (c : AmCfg) (v : ℕ) (len : ℤ) (p : PState) (σ : LogSt) : ScrRes :=
  (amSayInput X c v σ).scr fun σ =>
    match amSource w c with
    | none => .done σ
    | some text =>
      (sayAt X 1 v "Loading automaton..." [] σ).scr fun σ =>
        match loadVer len text with
        | .ub => .ub
        | .null => .done σ
        | .ok l ver => amScrLoaded X w c v len p l ver σ

/-- `/repo/aux/autman.c` 230-240, after the parser. -/
def amScrSpec (X : Screen) (w : AmWorld) (c : AmCfg) (v : ℕ) (text : List Char) (σ : LogSt) : ScrRes :=
  match parseFile false text with
  | none => (σ.put 0 X.parseText).scr .done
  | some p =>
    (sayAt X 0 v "Done." [] σ).scr fun σ =>
      (sayAt X 0 v "Detected state vector length of %d." [.int ((varListOf p.ev).length + (varListOf p.sv).length)] σ).scr
        (amScrWork X w c v ((varListOf p.ev).length + (varListOf p.sv).length) p)

/-- `/repo/aux/autman.c` 202-323. -/
def amScrRun (X : Screen) (w : AmWorld) (c : AmCfg) (σ : LogSt) : ScrRes :=
  (amStart X c σ).scr fun r =>
    (sayAt X 0 r.2 "Running with verbosity level %d." [.int r.2] r.1).scr fun σ =>
      match c.spc with
      | none => amScrWork X w c r.2 c.len .init σ
      | some f =>
        (sayAt X 1 r.2 "Using file \"%s\" for reference specification." [.str f] σ).scr fun σ =>
          match w.file f with
          | none => .done σ
          | some text => (sayAt X 0 r.2 "Parsing reference specification file..." [] σ).scr (amScrSpec X w c r.2 text)

/-- What a call of `gr1c-autman` prints. Arguments that do not fit together (`/repo/aux/autman.c` 169-194) are refused before anything
is printed on these streams. -/
def amScrMain (X : Screen) (w : AmWorld) (args : List Arg) (σ : LogSt) : ScrRes :=
  match amLoop .default args with
  | .ub => .ub
  | .help => .other
  | .version => .other
  | .bad => .done σ
  | .go c =>
    if c.spc = none ∧ (c.run = .model ∨ (c.run = .convert ∧ c.format.needsSpec = true) ∨ c.len < 1) then .done σ
    else amScrRun X w c σ

end Gr1c
