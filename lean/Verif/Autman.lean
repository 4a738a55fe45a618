import Verif.MainOut
import Verif.SpinModel

/-!
# Model of `gr1c-autman`, `/repo/aux/autman.c`

Messages on stderr, the texts of `-h` and `-V`, and the log (`-v`, `-l`) are left out; with `-v` and without `-l` the log
goes to standard output before the text modelled here.
-/

namespace Gr1c

/-- Runtime modes, `/repo/aux/autman.c` 36-40. `AUTMAN_VARTYPES` is never selected: `-ss` is rejected at 67-71. -/
inductive AmRun
  | syntaxOnly | model | convert
  deriving DecidableEq

/-- The variables set by the option loop, `/repo/aux/autman.c` 48-63. -/
structure AmCfg where
  run : AmRun
  format : OutFmt
  /-- `state_len` -/
  len : ℤ
  spc : Option Arg
  output : Option Arg
  input : Option Arg
  /-- an `unsigned char` -/
  verbose : ℕ
  logging : Bool
  deriving DecidableEq

def AmCfg.default : AmCfg := ⟨.syntaxOnly, .json, -1, none, none, none, 0, false⟩

/-- How the option loop ends. -/
inductive AmCli
  /-- reads beyond the end of an argument -/
  | ub
  /-- `-h`: usage, status 0 -/
  | help
  /-- `-V`: version, status 0 -/
  | version
  /-- an error, status 1 -/
  | bad
  | go (c : AmCfg)
  deriving DecidableEq

/-- `state_len = strtol( argv[i+1], NULL, 10 )`, `/repo/aux/autman.c` 148: 0 without a number. -/
def lenArg (a : Arg) : ℤ :=
  match strtol a with
  | some (v, _) => toInt v
  | none => 0

/-- Flags without an argument, `/repo/aux/autman.c` 99-114 and 150-152; `more` is what follows the letter. -/
def amFlag (c : AmCfg) (x : Char) (more : List Char) : Option AmCfg :=
  if x = 'v' then some { c with verbose := (c.verbose + if more = [] then 1 else 2) % 256 }
  else if x = 'l' then some { c with logging := true }
  else if x = 's' then some { c with run := .syntaxOnly }
  else if x = 'P' then some { c with run := .model }
  else none

/-- Flags with an argument, `/repo/aux/autman.c` 115-149 and 153-163. -/
def amArg (c : AmCfg) (x : Char) (a : Arg) : Option AmCfg :=
  if x = 't' then (formatOf a).map fun f => { c with run := .convert, format := f }
  else if x = 'i' then some { c with spc := some a }
  else if x = 'L' then some { c with len := lenArg a }
  else if x = 'o' then some { c with output := some a }
  else none

/-- Kinds of arguments, `/repo/aux/autman.c` 66, 164. -/
inductive AmKind
  /-- a single dash: `argv[i][2]` (line 67) is beyond the end -/
  | dash
  | flag (x : Char) (more : List Char)
  | other

def amKind : Arg → AmKind
  | [] => .other
  | [y] => if y = '-' then .dash else .other
  | y :: x :: more => if y = '-' then .flag x more else .other

/-- The option loop, `/repo/aux/autman.c` 65-167. -/
def amLoop (c : AmCfg) : List Arg → AmCli
  | [] => .go c
  | arg :: rest =>
    match amKind arg with
    | .dash => .ub
    | .flag x more =>
      if more ≠ [] ∧ ¬ (x = 'v' ∧ more.head? = some 'v') then .bad
      else if x = 'h' then .help
      else if x = 'V' then .version
      else
        match amFlag c x more with
        | some c' => amLoop c' rest
        | none =>
          match rest with
          | [] => .bad
          | a :: rest' =>
            match amArg c x a with
            | some c' => amLoop c' rest'
            | none => .bad
    | .other => amLoop { c with input := some arg } rest
termination_by args => args.length

/-- What the program meets. -/
structure AmWorld where
  /-- contents of a file; `none` if it cannot be opened -/
  file : Arg → Option (List Char)
  stdin : List Char
  canWrite : Arg → Bool
  json : JsonEnv
  /-- bound on the moves of the environment that `spin_aut_dump` enumerates -/
  fuel : ℕ

/-- How the program ends. -/
inductive AmRes
  /-- memory error, use of an uninitialised value, or too small `fuel` -/
  | ub
  | help
  | version
  /-- status, text on standard output, file opened with `-o` and text in it -/
  | exit (status : ℤ) (stdout : List Char) (file : Option (Arg × List Char))
  deriving DecidableEq

/-- A node of the loaded automaton as a node of `Automaton.lean`; `b` in place of an uninitialised field. -/
def LNode.toANode (b : Bool) (n : LNode) : ANode ℤ (List ℤ) := ⟨n.id, n.state, n.mode, n.rgrad, n.initial.getD b, n.trans⟩

/-- The loaded automaton for a function that reads the field `initial`: `none` if it is uninitialised somewhere. -/
def loadedAut (l : List LNode) : Option (Aut ℤ (List ℤ)) :=
  if l.all (fun n => n.initial.isSome) then some (l.map (LNode.toANode false)) else none

/-- `case AUTMAN_CONVERT`, `/repo/aux/autman.c` 300-314: the text written; `none` is undefined behaviour. Values returned
by the writers are ignored. `tulip_aut_dump` does not read the field `initial`. -/
def amConvert (E : JsonEnv) (fmt : OutFmt) (len : ℕ) (ev sv : VarList) (l : List LNode) : Option (List Char) :=
  match fmt with
  | .tulip => tulipDump (l.map (LNode.toANode false)) ev sv
  | .text => (loadedAut l).bind fun a => listDump a len
  | .aut => (loadedAut l).map fun a => (dumpVer a 1).2
  | .dot => (loadedAut l).bind fun a =>
    match dotDump ⟨false, false, true⟩ a ev sv with
    | .ub => none
    | .done _ s => some s
  | .json => (loadedAut l).bind fun a =>
    match jsonDump E a ev sv with
    | .ub => none
    | .failed => some []
    | .ok s => some s

/-- A text for the file of `-o`, or else for standard output. -/
def amPut (out : Option Arg) (s : List Char) : AmRes :=
  match out with
  | some f => .exit 0 [] (some (f, s))
  | none => .exit 0 s none

/-- The input, `/repo/aux/autman.c` 242-254. An input name never begins with a dash. -/
def amSource (w : AmWorld) (c : AmCfg) : Option (List Char) :=
  match c.input with
  | some f => w.file f
  | none => some w.stdin

/-- Whether the output can be opened, `/repo/aux/autman.c` 273-281. -/
def amOpens (w : AmWorld) (c : AmCfg) : Bool :=
  match c.output with
  | some f => w.canWrite f
  | none => true

/-- `/repo/aux/autman.c` 242-323: the automaton is loaded, then the output is opened and written. In mode `-P` with `-o` the
formula goes to standard output. -/
def amWork (w : AmWorld) (c : AmCfg) (len : ℤ) (p : PState) : AmRes :=
  match amSource w c with
  | none => .exit (-1) [] none                                        -- 250-253
  | some text =>
    match loadVer len text with
    | .ub => .ub
    | .null => .exit 3 [] none                                        -- 259-263
    | .ok l ver =>
      if amOpens w c then
        match c.run with
        | .syntaxOnly => .exit 0 (printInt ver ++ ['\n']) (c.output.map fun f => (f, []))
        | .convert =>
          match amConvert w.json c.format len.toNat (varListOf p.ev) (varListOf p.sv) l with
          | some s => amPut c.output s
          | none => .ub
        | .model =>
          match (loadedAut l).bind fun a => spinDump gr1cVersion w.fuel (varListOf p.ev) (varListOf p.sv) p.sp a with
          | some s =>
            match c.output with
            | some f => .exit 0 (spinLtl (varListOf p.ev).length (decide (p.sp.einit ≠ .nil)) (decide (p.sp.sinit ≠ .nil))
                p.sp.egoals.length p.sp.sgoals.length) (some (f, s))
            | none => .exit 0 s none
          | none => .ub
      else .exit (-1) [] none                                         -- 275-278

/-- Formats that need a specification, `/repo/aux/autman.c` 175-184. -/
def OutFmt.needsSpec : OutFmt → Bool
  | .dot | .json | .tulip => true
  | .text | .aut => false

/-- `main`, `/repo/aux/autman.c` 46-324. -/
def autmanMain (w : AmWorld) (args : List Arg) : AmRes :=
  match amLoop .default args with
  | .ub => .ub
  | .help => .help
  | .version => .version
  | .bad => .exit 1 [] none
  | .go c =>
    match c.spc with
    | none =>
      if c.run = .model ∨ (c.run = .convert ∧ c.format.needsSpec = true) ∨ c.len < 1 then .exit 1 [] none
      else amWork w c c.len .init
    | some f =>
      match w.file f with
      | none => .exit (-1) [] none                                    -- 222-225
      | some text =>
        match parseFile false text with
        | none => .exit 2 [] none                                     -- 230-231
        | some p => amWork w c ((varListOf p.ev).length + (varListOf p.sv).length) p

end Gr1c
