import Verif.Realizable

/-!
# Model of the command line of `gr1c`, `/repo/src/main.c` 56-321

An argument is its list of characters, without the final NUL. The messages that are printed are not
part of the model.
-/

namespace Gr1c

/-- A command-line argument. -/
abbrev Arg := List Char

/-- `GR1C_MODE_*`, `/repo/src/main.c` 47-50. -/
inductive RunMode
  | syntaxOnly | realizable | synthesis | interactive
  deriving DecidableEq

/-- `OUTPUT_FORMAT_*`, `/repo/src/main.c` 36-40. -/
inductive OutFmt
  | text | tulip | dot | aut | json
  deriving DecidableEq

/-- The local variables that options set, `/repo/src/main.c` 58-71. `argv[output_file_index]` and
`argv[input_index]` stand for the indices; -1 is `none`. -/
structure Cfg where
  run : RunMode
  help : Bool
  ptdump : Bool
  logging : Bool
  init : InitFlag
  format : OutFmt
  verbose : ℕ
  promela : Bool
  output : Option Arg
  input : Option Arg
  deriving DecidableEq

/-- Initial values, `/repo/src/main.c` 58-71. -/
def Cfg.default : Cfg := ⟨.synthesis, false, false, false, .allEnvExistSys, .json, 0, false, none, none⟩

/-- How reading the options ends. -/
inductive OptRes
  /-- `return 1` -/
  | usage
  /-- the version is printed, `return 0` -/
  | version
  /-- an argument is read beyond its NUL -/
  | ub
  /-- all arguments were read -/
  | go (c : Cfg)
  deriving DecidableEq

/-- `!strncmp( a, w, strlen( w ) )`. -/
def hasPfx (w : String) (a : Arg) : Bool := w.toList.isPrefixOf a

/-- `-t`, `/repo/src/main.c` 196-211. -/
def formatOf (a : Arg) : Option OutFmt :=
  if hasPfx "txt" a then some .text
  else if hasPfx "tulip" a then some .tulip
  else if hasPfx "dot" a then some .dot
  else if hasPfx "aut" a then some .aut
  else if hasPfx "json" a then some .json
  else none

/-- `-n`, `/repo/src/main.c` 218-235, with `tolower` of the C locale. -/
def initOf (a : Arg) : Option InitFlag :=
  let b := a.map Char.toLower
  if hasPfx "all_env_exist_sys_init" b then some .allEnvExistSys
  else if hasPfx "all_init" b then some .allInit
  else if hasPfx "one_side_init" b then some .oneSide
  else none

/-- A flag without an argument, `/repo/src/main.c` 166-191 and 244-245; `more` is the argument from
index 2 on. -/
def plainFlag (c : Cfg) (f : Char) (more : List Char) : Option Cfg :=
  if f = 'h' then some { c with help := true }
  else if f = 'v' then
    -- `unsigned char verbose`; the loop 175-178 runs at most once
    some { c with verbose := (c.verbose + 1 + if more.head? = some 'v' then 1 else 0) % 256 }
  else if f = 'l' then some { c with logging := true }
  else if f = 's' then some { c with run := .syntaxOnly }
  else if f = 'p' then some { c with ptdump := true }
  else if f = 'r' then some { c with run := .realizable }
  else if f = 'i' then some { c with run := .interactive }
  else if f = 'P' then some { c with promela := true }
  else none

/-- A flag with an argument, `/repo/src/main.c` 191-243. -/
def argFlag (c : Cfg) (f : Char) (x : Arg) : Option Cfg :=
  if f = 't' then (formatOf x).map fun y => { c with format := y }
  else if f = 'n' then (initOf x).map fun y => { c with init := y }
  else if f = 'o' then some { c with output := some x }
  else none

/-- The cases of the tests on the first characters, `/repo/src/main.c` 159-163, 250-251 and 260. -/
inductive ArgKind
  /-- `-` alone; `argv[i][2]` at line 160 is beyond the NUL -/
  | dash
  /-- `--` and the rest -/
  | long (more : List Char)
  /-- `-`, a flag and the rest -/
  | short (f : Char) (more : List Char)
  | other

/-- `reading` is `reading_options`. -/
def argKind (reading : Bool) (a : Arg) : ArgKind :=
  if reading then
    match a with
    | [] => .other
    | [c] => if c = '-' then .dash else .other
    | c :: f :: more => if c = '-' then (if f = '-' then .long more else .short f more) else .other
  else .other

/-- The loop over the arguments, `/repo/src/main.c` 158-268; the first argument is
`reading_options`. -/
def optLoop (reading : Bool) (c : Cfg) : List Arg → OptRes
  | [] => .go c
  | a :: rest =>
    match argKind reading a with
    | .dash => .ub
    | .long more =>
      if more = [] then optLoop false c rest
      else if hasPfx "help" more then optLoop true { c with help := true } rest
      else if hasPfx "version" more then .version
      else .usage
    | .short f more =>
      if more ≠ [] ∧ ¬ (f = 'v' ∧ more.head? = some 'v') then .usage
      else if f = 'V' then .version
      else if f = 't' ∨ f = 'n' ∨ f = 'o' then
        match rest with
        | [] => .usage
        | x :: rest' =>
          match argFlag c f x with
          | none => .usage
          | some c' => optLoop true c' rest'
      else
        match plainFlag c f more with
        | none => .usage
        | some c' => optLoop true c' rest
    | .other =>
      if c.input = none then
        if rest ≠ [] then .usage else .go { c with input := some a }
      else optLoop reading c rest
  termination_by args => args.length
  decreasing_by all_goals (simp_wf; try omega)

/-- The start of `main`, `/repo/src/main.c` 94-321. -/
inductive CliRes
  /-- control passes to another program with the remaining arguments -/
  | exec (cmd : String) (args : List Arg)
  | ub
  /-- return with this status -/
  | exit (status : ℤ)
  /-- go on with this configuration -/
  | run (c : Cfg)
  deriving DecidableEq

/-- After the options, `/repo/src/main.c` 270-321. -/
def afterOptions : OptRes → CliRes
  | .usage => .exit 1
  | .version => .exit 0
  | .ub => .ub
  | .go c =>
    if c.help then .exit 0
    else if c.input = none ∧ c.run = .interactive then .exit 1
    else if c.promela ∧ c.output = none then .exit 1
    else .run c

/-- `/repo/src/main.c` 93-321; the list does not contain `argv[0]`. -/
def cliMain (args : List Arg) : CliRes :=
  match args with
  | [] => afterOptions (optLoop true Cfg.default [])
  | a :: rest =>
    if a = "rg".toList then .exec "gr1c-rg" rest
    else if a = "patch".toList then .exec "gr1c-patch" rest
    else if a = "autman".toList then .exec "gr1c-autman" rest
    else if a = "help".toList then afterOptions (optLoop false { Cfg.default with help := true } (a :: rest))
    else afterOptions (optLoop true Cfg.default (a :: rest))

end Gr1c
