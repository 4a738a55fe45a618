import Verif.Log
import Verif.BddProps
import Verif.Main

/-!
# Model of `print_support`, `/repo/src/util.c` 745-798, of `print_GR1_spec`, `/repo/src/util.c` 442-548, and of
`/repo/examples/api/printwin.c`
-/

namespace Gr1c

/-- The loop over a state, `/repo/src/util.c` 774-778 and 783-787, at index `i`. -/
def rowCmds (i : ℕ) : List ℕ → List LogCmd
  | [] => []
  | v :: r => (if 0 < i ∧ i % 4 = 0 then [.raw [' '] []] else []) ++ .raw ['%', 'd'] [.int v] :: rowCmds (i + 1) r

/-- Calls for a state, `/repo/src/util.c` 773-779 and 782-788. -/
def stateCmds (stamp : Option (List Char)) (v : List ℕ) : List LogCmd := .start stamp :: (rowCmds 0 v ++ [.stop])

/-- Calls with the log set to a stream for their time, `/repo/src/util.c` 455-460, 544-547, 755-760 and 794-797. `outf` is NULL if
`none`. -/
def logOn (outf : Option ℕ) (cs : List LogCmd) (σ : LogSt) : LogRes LogSt :=
  match outf with
  | none => logRun cs σ
  | some k => (logRun cs (setLogOpt 1 (setLogStream (some k) σ))).bind fun τ => .ok (setLogOpt σ.opt (setLogStream σ.fp τ))

/-- `print_support`, `/repo/src/util.c` 745-798. `cubes` are those of `X` as enumerated by `Cudd_ForeachCube`. Every line gets the same time
here. -/
def printSupport {N : ℕ} (stamp : Option (List Char)) (len : ℕ) (cubes : List (CubeArr N)) (outf : Option ℕ) (σ : LogSt) :
    LogRes LogSt :=
  match enumCover 0 len cubes with
  | none => .ub
  | some vs => logOn outf (vs.flatMap (stateCmds stamp)) σ

/-- How `main` of `printwin.c` ends. -/
inductive PwinRes
  /-- exit status and state of the log -/
  | exit (status : ℤ) (σ : LogSt)
  /-- `print_support` is called with a NULL pointer for the set -/
  | nullSet
  | ub
  /-- a formula without BDD -/
  | unmodelled

/-- `/repo/examples/api/printwin.c` 38-41. -/
def pwinUsage : List Char := "Usage: printwin FILE\n".toList

/-- The result of `print_support` before the end of `main`. -/
def pwinEnd : LogRes LogSt → PwinRes
  | .ok σ => .exit 0 σ
  | .exit => .exit (-1) { fp := none, opt := 0, name := [], live := [], text := fun _ => [] }
  | .ub => .ub

/-- `main`, `/repo/examples/api/printwin.c` 28-160, after the parser. -/
def pwinParsed (w : World) (stamp : Option (List Char)) (p : PState) (σ : LogSt) : PwinRes :=
  match frontEnd p.ev p.sv .allEnvExistSys p.sp with
  | .formError => .exit 2 σ
  | .ub => .ub
  | .error => .exit (-1) σ
  | .noBdd => .unmodelled
  | .ok _ _ _ ne ns B =>
    match B.check .allEnvExistSys with
    | none => .ub
    | some none => .nullSet
    | some (some W) =>
      pwinEnd (printSupport stamp (ne + ns) (w.cover (2 * (ne + ns)) (bddOf W)) (some 0) σ)

/-- `main`, `/repo/examples/api/printwin.c` 28-160; the list does not contain `argv[0]`. -/
def pwinMain (w : World) (stamp : Option (List Char)) (args : List Arg) (σ : LogSt) : PwinRes :=
  match args with
  | [] => pwinEnd (σ.put 0 pwinUsage)
  | f :: _ =>
    match w.file f with
    | none => .exit (-1) σ
    | some text =>
      match parseFile false text with
      | none => .exit 2 σ
      | some p => pwinParsed w stamp p σ

/-! ## `print_GR1_spec` -/

/-- Names in a list of variables, `/repo/src/util.c` 463-467 and 471-475. A name that is NULL is not expected in such lists. -/
def nameCmds : PTree → List LogCmd
  | .nil => []
  | .node _ nm _ l _ => .raw [' ', '%', 's'] [.str (nm.getD [])] :: nameCmds l

/-- `print_formula` writes to the stream of the log; here it is a call that writes its text as it is. (Without a log it would write to
`stdout`, but then the `logprint_endline` that follows uses a NULL pointer.) -/
def formulaCmd (t : PTree) : LogCmd := .raw ['%', 's'] [.str (printFormula false t)]

/-- Formulas that have to hold always (`op` is `[]`) or infinitely often (`op` is `[]<>`), `/repo/src/util.c` 489-499, 503-513, 517-527 and
531-541. -/
def listCmds (op : List Char) : List PTree → List LogCmd
  | [] => [.raw "(none)".toList []]
  | f :: fs => .raw (op ++ [' ']) [] :: formulaCmd f :: fs.flatMap fun g => [.raw (" & ".toList ++ op ++ [' ']) [], formulaCmd g]

/-- An initial condition, `/repo/src/util.c` 479-480 and 484-485. -/
def initCmds : PTree → List LogCmd
  | .nil => []
  | .node ty nm v l r => [formulaCmd (.node ty nm v l r)]

/-- One line of `print_GR1_spec`. -/
def lineCmds (stamp : Option (List Char)) (head : List Char) (cs : List LogCmd) : List LogCmd :=
  .start stamp :: .raw head [] :: (cs ++ [.raw [';'] [], .stop])

/-- `print_GR1_spec`, `/repo/src/util.c` 442-548. -/
def specCmds (stamp : Option (List Char)) (ev sv : PTree) (sp : TSpec) : List LogCmd :=
  lineCmds stamp "ENV:".toList (nameCmds ev) ++ lineCmds stamp "SYS:".toList (nameCmds sv) ++
  lineCmds stamp "ENV INIT:  ".toList (initCmds sp.einit) ++ lineCmds stamp "SYS INIT:  ".toList (initCmds sp.sinit) ++
  lineCmds stamp "ENV TRANS:  ".toList (listCmds "[]".toList sp.etrans) ++
  lineCmds stamp "SYS TRANS:  ".toList (listCmds "[]".toList sp.strans) ++
  lineCmds stamp "ENV GOALS:  ".toList (listCmds "[]<>".toList sp.egoals) ++
  lineCmds stamp "SYS GOALS:  ".toList (listCmds "[]<>".toList sp.sgoals)

/-- `print_GR1_spec`, `/repo/src/util.c` 442-548. -/
def printGr1Spec (stamp : Option (List Char)) (ev sv : PTree) (sp : TSpec) (outf : Option ℕ) (σ : LogSt) : LogRes LogSt :=
  logOn outf (specCmds stamp ev sv sp) σ

end Gr1c
