import Verif.Print

/-!
# Model of the log, `/repo/src/logging.c`

Streams are numbers; 0 is `stdout`, 1 is `stderr`. What the clock, `getpid` and `fopen` deliver are arguments. Writing, `fflush` and
`fclose` succeed on open streams.
-/

namespace Gr1c

/-- Global variables of `/repo/src/logging.c` 21-23 and what they refer to. -/
structure LogSt where
  /-- `logfp`; `none` is NULL -/
  fp : Option ℕ
  /-- `logopt` -/
  opt : ℤ
  /-- `logfilename` -/
  name : List Char
  /-- streams that can be written -/
  live : List ℕ
  /-- what was written to a stream so far -/
  text : ℕ → List Char

/-- Outcome of a function. -/
inductive LogRes (α : Type)
  | ok (a : α)
  /-- `exit(-1)` -/
  | exit
  /-- use of NULL or of a closed stream, or reading beyond the end of a format or of the arguments -/
  | ub

def LogRes.bind {α β : Type} : LogRes α → (α → LogRes β) → LogRes β
  | .ok a, f => f a
  | .exit, _ => .exit
  | .ub, _ => .ub

/-- `fputc` and `fprintf` to a stream. -/
def LogSt.put (σ : LogSt) (k : ℕ) (t : List Char) : LogRes LogSt :=
  if k ∈ σ.live then .ok { σ with text := fun j => if j = k then σ.text j ++ t else σ.text j } else .ub

/-- Arguments after a format. A `double` is given by the text that `%f` prints for it. -/
inductive LogArg
  | int (v : ℤ)
  | flt (s : List Char)
  | str (s : List Char)
  deriving DecidableEq

/-- The loop over the format, `/repo/src/logging.c` 124-144 and 191-211. `none`: an argument is missing or of another type, or the format
ends with `%`, after which the code reads beyond its end. -/
def logExpand : List Char → List LogArg → Option (List Char)
  | [], _ => some []
  | c :: r, as =>
    if c = '%' then
      match r with
      | [] => none
      | d :: r' =>
        if d = 'f' then
          match as with
          | .flt s :: as' => (logExpand r' as').map (s ++ ·)
          | _ => none
        else if d = 'd' then
          match as with
          | .int v :: as' => (logExpand r' as').map (printInt v ++ ·)
          | _ => none
        else if d = 's' then
          match as with
          | .str s :: as' => (logExpand r' as').map (s ++ ·)
          | _ => none
        else (logExpand r' as).map (d :: ·)
    else (logExpand r as).map (c :: ·)
  termination_by f => f.length

/-- `setlogstream`, `/repo/src/logging.c` 26-34. -/
def setLogStream (fp : Option ℕ) (σ : LogSt) : LogSt := { σ with name := [], fp := some (fp.getD 0) }

/-- `setlogopt`, `/repo/src/logging.c` 42-45. -/
def setLogOpt (o : ℤ) (σ : LogSt) : LogSt := { σ with opt := o }

/-- The message without a log, `/repo/src/logging.c` 107, 159 and 186. -/
def noLogText : List Char := "WARNING: Attempted to write to non-existent log.".toList

/-- The message when `strftime` fails, `/repo/src/logging.c` 71, 116 and 168. -/
def noTimeText : List Char := "ERROR: strftime() failed to create timestamp.".toList

/-- `closelogfile`, `/repo/src/logging.c` 88-97; `logfp` stays as it is. -/
def closeLogFile (σ : LogSt) : LogRes LogSt :=
  match σ.fp with
  | none => .ok σ
  | some k => if k = 0 then .ok σ else if k ∈ σ.live then .ok { σ with live := σ.live.filter (· ≠ k) } else .ub

/-- What is put before the date, `/repo/src/logging.c` 58-64. -/
def logPrefix (pid : ℕ) : Option (List Char) → List Char
  | some p => p.take 255
  | none => "gr1c-".toList ++ printInt pid

/-- `openlogfile`, `/repo/src/logging.c` 53-86. `day` is the text of the format `-%Y%m%d.log`, and `open_` is `fopen`. The second
component is the result; `none` is NULL. -/
def openLogFile (pid : ℕ) (day : List Char) (open_ : List Char → Option ℕ) (pre : Option (List Char)) (σ : LogSt) :
    LogRes (LogSt × Option ℕ) :=
  if 256 - (logPrefix pid pre).length < day.length + 1 then
    (({ σ with name := logPrefix pid pre } : LogSt).put 1 noTimeText).bind fun σ' => .ok (σ', none)
  else
    (closeLogFile { σ with name := logPrefix pid pre ++ day }).bind fun σ' =>
      match open_ σ'.name with
      | none => .exit
      | some k => .ok ({ σ' with fp := some k, live := k :: σ'.live }, some k)

/-- Is the time shown? `(logopt & 0x1) == LOGOPT_TIME`, `/repo/src/logging.c` 111 and 163. -/
def LogSt.timed (σ : LogSt) : Bool := σ.opt % 2 == 0

/-- `logprint_startline`, `/repo/src/logging.c` 152-173. `stamp` is the text made by `strftime`, `none` if it fails. -/
def logStartLine (stamp : Option (List Char)) (σ : LogSt) : LogRes LogSt :=
  match σ.fp with
  | none => σ.put 1 noLogText
  | some k =>
    if σ.timed then
      match stamp with
      | none => σ.put 1 noTimeText
      | some t => σ.put k (t ++ [' '])
    else .ok σ

/-- `logprint_endline`, `/repo/src/logging.c` 175-179. -/
def logEndLine (σ : LogSt) : LogRes LogSt :=
  match σ.fp with
  | none => .ub
  | some k => σ.put k ['\n']

/-- `logprint_raw`, `/repo/src/logging.c` 181-214. -/
def logRaw (fmt : List Char) (as : List LogArg) (σ : LogSt) : LogRes LogSt :=
  match σ.fp with
  | none => σ.put 1 noLogText
  | some k =>
    match logExpand fmt as with
    | none => .ub
    | some t => σ.put k t

/-- The line after the time, `/repo/src/logging.c` 122-148; `pre` is the time. -/
def logBody (k : ℕ) (pre fmt : List Char) (as : List LogArg) (σ : LogSt) : LogRes LogSt :=
  match logExpand fmt as with
  | none => .ub
  | some t => σ.put k (pre ++ (t ++ ['\n']))

/-- `logprint`, `/repo/src/logging.c` 99-149. -/
def logPrint (stamp : Option (List Char)) (fmt : List Char) (as : List LogArg) (σ : LogSt) : LogRes LogSt :=
  match σ.fp with
  | none => σ.put 1 noLogText
  | some k =>
    if σ.timed then
      match stamp with
      | none => σ.put 1 noTimeText
      | some s => logBody k (s ++ [' ']) fmt as σ
    else logBody k [] fmt as σ

/-- Calls that write. -/
inductive LogCmd
  | print (stamp : Option (List Char)) (fmt : List Char) (as : List LogArg)
  | start (stamp : Option (List Char))
  | raw (fmt : List Char) (as : List LogArg)
  | stop

def logStep : LogCmd → LogSt → LogRes LogSt
  | .print s f as => logPrint s f as
  | .start s => logStartLine s
  | .raw f as => logRaw f as
  | .stop => logEndLine

/-- Calls one after the other. -/
def logRun : List LogCmd → LogSt → LogRes LogSt
  | [], σ => .ok σ
  | c :: cs, σ => (logStep c σ).bind (logRun cs)

end Gr1c
