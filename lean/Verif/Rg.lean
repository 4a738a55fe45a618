import Verif.Main
import Verif.ReachGame

/-!
# Model of the main function of `gr1c-rg`, `/repo/src/rg_main.c` 57-635

From the command line to the exit status and the automaton that is written. As in `Verif.Main`, messages
and log files are left out, allocation succeeds, and a status of -1 is seen as 255 by the shell.
-/

namespace Gr1c

/-! ## Command line -/

/-- Initial values, `/repo/src/rg_main.c` 60-69. The fields `promela` and the modes other than syntax and
synthesis are not used by this program. -/
def Cfg.rgDefault : Cfg := { Cfg.default with init := .allInit }

/-- A flag without an argument, `/repo/src/rg_main.c` 94-113. -/
def rgPlainFlag (c : Cfg) (f : Char) (more : List Char) : Option Cfg :=
  if f = 'h' then some { c with help := true }
  else if f = 'v' then
    -- `unsigned char verbose`; the loop 104-107 runs at most once
    some { c with verbose := (c.verbose + 1 + if more.head? = some 'v' then 1 else 0) % 256 }
  else if f = 'l' then some { c with logging := true }
  else if f = 's' then some { c with run := .syntaxOnly }
  else if f = 'p' then some { c with ptdump := true }
  else none

/-- A flag with an argument, `/repo/src/rg_main.c` 117-160. -/
def rgArgFlag (c : Cfg) (f : Char) (x : Arg) : Option Cfg :=
  if f = 't' then (formatOf x).map fun y => { c with format := y }
  else if f = 'n' then
    if hasPfx "all_init" (x.map Char.toLower) then some { c with init := .allInit } else none
  else if f = 'o' then some { c with output := some x }
  else none

/-- The loop over the arguments, `/repo/src/rg_main.c` 86-182. Unlike in `gr1c`, options may follow the file
name, and further names are ignored. -/
def rgOptLoop (reading : Bool) (c : Cfg) : List Arg → OptRes
  | [] => .go c
  | a :: rest =>
    match argKind reading a with
    | .dash => .ub
    | .long more =>
      if more = [] then rgOptLoop false c rest
      else if hasPfx "help" more then rgOptLoop true { c with help := true } rest
      else if hasPfx "version" more then .version
      else .usage
    | .short f more =>
      if more ≠ [] ∧ ¬ (f = 'v' ∧ more.head? = some 'v') then .usage
      else if f = 'V' then .version
      else if f = 't' ∨ f = 'n' ∨ f = 'o' then
        match rest with
        | [] => .usage
        | x :: rest' =>
          match rgArgFlag c f x with
          | none => .usage
          | some c' => rgOptLoop true c' rest'
      else
        match rgPlainFlag c f more with
        | none => .usage
        | some c' => rgOptLoop true c' rest
    | .other => rgOptLoop reading (if c.input = none then { c with input := some a } else c) rest
  termination_by args => args.length
  decreasing_by all_goals (simp_wf; try omega)

/-! ## From the parsed specification to the result -/

/-- "Omission implies empty", `/repo/src/rg_main.c` 251-269; a missing system goal is not replaced. -/
def rgDefaults (sp : TSpec) : TSpec :=
  { sp with
    etrans := if sp.etrans = [] then [initPtree .const none 1] else sp.etrans
    strans := if sp.strans = [] then [initPtree .const none 1] else sp.strans }

/-- `/repo/src/rg_main.c` 251-269 and 391-511: from the parse trees to the BDDs. The environment goal that is
added if there is none (449-454) is part of `rgSynthesize`. -/
def rgFront (evars svars : PTree) (flag : InitFlag) (sp : TSpec) : FrontRes :=
  match expandNonboolGR1 evars svars flag (rgDefaults sp) with
  | .ub => .ub
  | .err => .error
  | .ok sp' =>
    match expandNonboolVariables evars svars with
    | none => .ub
    | some (ev, sv, nb) => frontBits ev sv nb (buildBits ev.size sv.size (chainVars ev sv) sp')

/-- `/repo/src/rg_main.c` 535-587: synthesis, conversion of the states to declared values, output. -/
def rgSynthAndWrite {ne ns : ℕ} (w : World) (c : Cfg) (ev sv nb : PTree) (B : BitSpec ne ns) : MainRes :=
  match rgSynthesize B.game B.egs B.sgs.head? B.ei B.si (w.oracle ne ns B.game) w.fuel with
  | .ub => .ub
  | .timeout => .timeout
  | .err => .exit (-1) none                                       -- 540-542
  | .ok st =>
    if st = [] then .exit (-1) none                               -- 540-542
    else
      match compactAll (st.map fun x => ⟨x.id, bitVector x.state, x.mode, x.rgrad, x.initial, x.trans⟩)
          (varListOf ev) (varListOf sv) (varListOf nb) with
      | .ok (a, ev', sv') =>
        if (match c.output with | some f => w.canWrite f | none => true) then
          .exit 0 (some ⟨c.output, c.format, ev', sv', a⟩)
        else .exit (-1) none                                      -- 558-562
      | _ => .ub

/-- `/repo/src/rg_main.c` 230-635, for a parsed specification. -/
def rgRun (w : World) (c : Cfg) (p : PState) : MainRes :=
  if 1 < p.sp.sgoals.length then .exit 2 none                     -- 230-235
  else if checkGr1cForm p.ev p.sv c.init p.sp < 0 then .exit 2 none     -- 237-242
  else if c.run = .syntaxOnly then .exit 0 none                   -- 244-245
  else if c.ptdump = true ∧ w.canDump = false then .exit (-1) none   -- 272-389
  else
    match rgFront p.ev p.sv c.init p.sp with
    | .formError => .exit 2 none
    | .ub => .ub
    | .error => .exit (-1) none
    | .noBdd => .unmodelled
    | .ok ev sv nb _ _ B => rgSynthAndWrite w c ev sv nb B

/-- The main function of `gr1c-rg`, `/repo/src/rg_main.c` 57-635; the list does not contain `argv[0]`. -/
def rgMain (w : World) (args : List Arg) : MainRes :=
  match rgOptLoop true Cfg.rgDefault args with
  | .usage => .exit 1 none
  | .version => .exit 0 none
  | .ub => .ub
  | .go c =>
    if c.help then .exit 0 none
    else
      match w.source c.input with
      | none => .exit (-1) none                                   -- 213-219
      | some text =>
        match parseFile true text with
        | none => .exit 2 none                                    -- 225-226
        | some p => rgRun w c p

end Gr1c
