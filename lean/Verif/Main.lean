import Verif.Cli
import Verif.Parse
import Verif.Pipeline
import Verif.Synth
import Verif.Compact
import Verif.Interactive
import Verif.AutIO

/-!
# Model of `main`, `/repo/src/main.c` 56-738

From the command line to the exit status and the automaton that is written. Messages, log files and the
text of the output formats are left out here (`AutIO`, `SpinDump` and `Cli` model some of them).
Allocation succeeds, and log files can be opened. A status of -1 is seen as 255 by the shell.
-/

namespace Gr1c

/-- What the program finds around it. -/
structure World where
  /-- contents of a file; `none` if it cannot be opened -/
  file : Arg → Option (List Char)
  stdin : List Char
  /-- whether a file can be opened for writing -/
  canWrite : Arg → Bool
  /-- whether the files of `-p` can be written -/
  canDump : Bool
  /-- choices made by the BDD library and the allocator during synthesis -/
  oracle : (ne ns : ℕ) → Game (Val ne) (Val ns) → Oracle (Val ne) (Val ns)
  /-- the cubes into which the BDD library divides a set, for the interactive mode -/
  cover : (N : ℕ) → Bdd N → List (CubeArr N)
  /-- lines typed in the interactive mode; the end of the list is the end of input -/
  lines : List (List Char)
  /-- bound on the iterations of the main loop of `synthesize` -/
  fuel : ℕ

/-- The automaton written at the end, `/repo/src/main.c` 640-693. -/
structure Output where
  /-- argument of `-o`; standard output if `none` -/
  dest : Option Arg
  format : OutFmt
  evars : VarList
  svars : VarList
  aut : Aut ℤ (List ℤ)

/-- How `main` ends. -/
inductive MainRes
  /-- replaced by another program -/
  | exec (cmd : String) (args : List Arg)
  /-- memory error -/
  | ub
  /-- the bound `fuel` was too small -/
  | timeout
  /-- something outside of the model: a formula without BDD, vectors with entries other than 0 and 1 -/
  | unmodelled
  | exit (status : ℤ) (out : Option Output)
  /-- end of an interactive session with these answers; the status is 0 -/
  | session (answers : List IOut)

/-- A variable list as a list of names and values. -/
def varListOf : PTree → VarList
  | .nil => []
  | .node _ nm v l _ => (nm.getD [], v) :: varListOf l

/-! ## Interactive mode -/

/-- How the session ends. -/
inductive SessRes
  /-- the answers to the commands; messages such as those of `help` are left out -/
  | ok (answers : List IOut)
  /-- an error code is returned, or `exit(-1)` is called -/
  | err
  | ub
  | unmodelled

/-- The loop of `levelset_interactive` with `command_loop`, `/repo/src/interactive.c` 542-958 and 117-401. -/
def sessLoop {ne ns m n : ℕ} (cover : Bdd (2 * (ne + ns)) → List (CubeArr (2 * (ne + ns))))
    (sp : ISpec ne ns m n) (σ : ISess ne ns m n) : List (List Char) → SessRes
  | [] => .ok []
  | l :: ls =>
    match parseLine ne ns n l with
    | .cmd c =>
      match iStep cover sp σ c with
      | .ub => .ub
      | .null => .err
      | .ok (σ', o) =>
        match sessLoop cover sp σ' ls with
        | .ok os => .ok (o :: os)
        | r => r
    | .quit => .ok []
    | .unmodelled => .unmodelled
    | .invalid => sessLoop cover sp σ ls
    | .badMode => sessLoop cover sp σ ls
    | .other => sessLoop cover sp σ ls

/-- The specification as used by `levelset_interactive`, `/repo/src/interactive.c` 437-442 and 484-522. -/
def BitSpec.interactive {ne ns : ℕ} (B : BitSpec ne ns) :
    ISpec ne ns (withDefaultGoal B.egs).length B.sgs.length :=
  ⟨B.etrans, B.strans, (withDefaultGoal B.egs).get, B.sgs.get⟩

/-- `levelset_interactive`, `/repo/src/interactive.c` 404-1003. It returns 1 or a negative number. -/
def levelsetInteractive {ne ns : ℕ} (w : World) (B : BitSpec ne ns) : SessRes :=
  match iStep (w.cover _) B.interactive (iStart B.interactive) .relevels with
  | .ub => .ub
  | .null => .err
  | .ok (σ, _) => sessLoop (w.cover _) B.interactive σ w.lines

/-! ## Synthesis -/

/-- State vector of a bit state: environment bits, then system bits, `/repo/src/solve.c` 682-685. -/
def bitVector {ne ns : ℕ} (s : BState ne ns) : List ℤ :=
  (List.ofFn fun i => if s.1 i then 1 else 0) ++ List.ofFn fun i => if s.2 i then 1 else 0

/-- The automaton as a data structure of C: modes are `int`, states are arrays. -/
def bitAut {ne ns n : ℕ} (st : Aut (Fin n) (BState ne ns)) : Aut ℤ (List ℤ) :=
  st.map fun x => ⟨x.id, bitVector x.state, (x.mode.val : ℤ), x.rgrad, x.initial, x.trans⟩

/-- `/repo/src/main.c` 613-738 after a positive verdict: synthesis, conversion of the states to declared
values, output. An empty automaton is a NULL pointer. -/
def synthAndWrite {ne ns : ℕ} (w : World) (c : Cfg) (ev sv nb : PTree) (B : BitSpec ne ns) : MainRes :=
  match synthesize B.game B.egs B.sgs c.init B.ei B.si (w.oracle ne ns B.game) w.fuel with
  | .ub => .ub
  | .timeout => .timeout
  | .err => .exit (-1) none                                       -- 621-624
  | .ok st =>
    if st = [] then .exit (-1) none                               -- 621-624
    else
      match compactAll (bitAut st) (varListOf ev) (varListOf sv) (varListOf nb) with
      | .ok (a, ev', sv') =>
        if (match c.output with | some f => w.canWrite f | none => true) then
          .exit 0 (some ⟨c.output, c.format, ev', sv', a⟩)
        else .exit (-1) none                                      -- 643-647
      | _ => .ub

/-! ## Everything -/

/-- `/repo/src/main.c` 347-738, for a parsed specification. -/
def runParsed (w : World) (c : Cfg) (p : PState) : MainRes :=
  match c.run with
  | .syntaxOnly => if checkGr1cForm p.ev p.sv c.init p.sp < 0 then .exit 2 none else .exit 0 none
  | _ =>
    if c.ptdump = true ∧ w.canDump = false ∧ ¬ checkGr1cForm p.ev p.sv c.init p.sp < 0 then .exit (-1) none
    else
      match frontEnd p.ev p.sv c.init p.sp with
      | .formError => .exit 2 none
      | .ub => .ub
      | .error => .exit (-1) none
      | .noBdd => .unmodelled
      | .ok ev sv nb _ _ B =>
        match c.run with
        | .interactive =>
          if nb ≠ .nil then .exit (-1) none
          else
            match levelsetInteractive w B with
            | .ok os => .session os
            | .err => .exit (-1) none
            | .ub => .ub
            | .unmodelled => .unmodelled
        | r =>
          match B.check c.init with
          | none => .ub
          | some none => .exit 3 none
          | some (some _) =>
            if r = .synthesis then synthAndWrite w c ev sv nb B else .exit 0 none

/-- The text of the specification, `/repo/src/main.c` 322-333; `none` if the file cannot be opened. -/
def World.source (w : World) : Option Arg → Option (List Char)
  | some f => w.file f
  | none => some w.stdin

/-- `main`, `/repo/src/main.c` 56-738; the list does not contain `argv[0]`. -/
def gr1cMain (w : World) (args : List Arg) : MainRes :=
  match cliMain args with
  | .exec cmd rest => .exec cmd rest
  | .ub => .ub
  | .exit s => .exit s none
  | .run c =>
    match w.source c.input with
    | none => .exit (-1) none                                     -- 326-329
    | some text =>
      match parseFile false text with
      | none => .exit 2 none                                      -- 341-342
      | some p => runParsed w c p

end Gr1c
