import Verif.TreeDot
import Verif.Support
import Verif.Rg
import Verif.PatchMain

/-!
# The option `-p`: parse trees in files, variables and formulas on the screen

`/repo/src/main.c` 391-480, `/repo/src/rg_main.c` 272-389 and `/repo/exp/grpatch.c` 303-304 and 403-493.
-/

namespace Gr1c

/-- `%05d` for a natural number. -/
def padFive (i : ℕ) : List Char := List.replicate (5 - (decimal i).length) '0' ++ decimal i

/-- `snprintf( dumpfilename, sizeof(dumpfilename), "env_trans%05d_ptree.dot", i )` and the like, `/repo/src/main.c` 396-397, 401-402, 408-409
and 415-416. The buffer has 64 characters, more than there can be. -/
def dumpName (sec : List Char) (i : ℕ) : List Char := sec ++ (padFive i ++ "_ptree.dot".toList)

/-- One of the loops over an array of formulas, from index `i` on: names of the files and trees, `/repo/src/main.c` 395-399. -/
def secFiles (sec : List Char) : ℕ → List PTree → List (List Char × PTree)
  | _, [] => []
  | i, t :: ts => (dumpName sec i, t) :: secFiles sec (i + 1) ts

/-- The calls of `tree_dot_dump`: `/repo/src/main.c` 392-419, and `/repo/src/rg_main.c` 273-295 if `rg`. -/
def dumpCalls (rg : Bool) (sp : TSpec) : List (List Char × PTree) :=
  ("env_init_ptree.dot".toList, sp.einit) :: ("sys_init_ptree.dot".toList, sp.sinit) ::
    (secFiles "env_trans".toList 0 sp.etrans ++ (secFiles "sys_trans".toList 0 sp.strans ++
      (secFiles "env_goal".toList 0 sp.egoals ++
        (if rg then
          match sp.sgoals with
          | [] => []
          | t :: _ => [("sys_goal_ptree.dot".toList, t)]
        else secFiles "sys_goal".toList 0 sp.sgoals))))

/-- The files: names and contents, in the order of writing. Addresses of nodes are given by `addr`, for each call. -/
def dumpFiles (addr : ℕ → List Bool → ℕ) (rg : Bool) (sp : TSpec) : List (List Char × List Char) :=
  (dumpCalls rg sp).zipIdx.map fun x => (x.1.1, treeDotDump (addr x.2) x.1.2)

/-- Loop over a list of variables, `/repo/src/main.c` 426-445 and 454-473, `/repo/src/rg_main.c` 302-321 and 330-349,
`/repo/exp/grpatch.c` 439-458 and 467-486. The value that is taken to mean Boolean is `b`. -/
def varsLoop (b : ℤ) : ℕ → PTree → List Char
  | _, .nil => []
  | i, .node _ nm v l _ =>
    nm.getD [] ++ (" (".toList ++ (printInt i ++ ((if v = b then "; bool)".toList else "; {0..".toList ++ (printInt v ++ "})".toList)) ++
      ((if l = .nil then [] else ", ".toList) ++ varsLoop b (i + 1) l))))

/-- A list of variables on the screen, `/repo/src/main.c` 422-447 and 449-474, `/repo/src/rg_main.c` 298-323 and 325-350,
`/repo/exp/grpatch.c` 435-460 and 462-488. -/
def varsPart (b : ℤ) (head : List Char) (i : ℕ) (vl : PTree) : List Char :=
  head ++ ((if vl = .nil then "(none)".toList else varsLoop b i vl) ++ "\n\n".toList)

/-- Both lists, `/repo/src/main.c` 421-474, `/repo/src/rg_main.c` 297-350, `/repo/exp/grpatch.c` 434-488. -/
def varsText (b : ℤ) (ev sv : PTree) : List Char :=
  varsPart b "Environment variables (indices; domains): ".toList 0 ev ++
    varsPart b "System variables (indices; domains): ".toList ev.size sv

/-- Environment goals as printed by `gr1c-rg`, `/repo/src/rg_main.c` 369-378. -/
def rgEgoals : List PTree → List Char
  | [] => "(none)".toList
  | g :: gs => "[]<> ".toList ++ (printFormula false g ++ gs.flatMap fun g => " & []<> ".toList ++ printFormula false g)

/-- The goal as printed by `gr1c-rg`, `/repo/src/rg_main.c` 382-387. -/
def rgGoal : List PTree → List Char
  | [] => "(none)".toList
  | g :: _ => "<> ".toList ++ printFormula false g

/-- The formulas as printed by `gr1c-rg`, `/repo/src/rg_main.c` 352-388. `etrans` and `strans` are `spc.env_trans` and `spc.sys_trans`. -/
def rgFormulas (etrans strans : PTree) (sp : TSpec) : List Char :=
  "ENV INIT:  ".toList ++ printFormula false sp.einit ++ "\nSYS INIT:  ".toList ++ printFormula false sp.sinit ++
  "\nENV TRANS:  [] ".toList ++ printFormula false etrans ++ "\nSYS TRANS:  [] ".toList ++ printFormula false strans ++
  "\nENV GOALS:  ".toList ++ rgEgoals sp.egoals ++ "\nSYS GOAL:  ".toList ++ rgGoal sp.sgoals ++ "\n".toList

/-- What `-p` does: files, and the streams afterwards; stream 0 is standard output. -/
structure PtDump where
  files : List (List Char × List Char)
  out : LogRes LogSt

/-- `-p` in `/repo/src/main.c` 347-480 for a parsed specification; `none` if that part of the program is not reached or not asked for. -/
def ptDump (addr : ℕ → List Bool → ℕ) (stamp : Option (List Char)) (c : Cfg) (p : PState) (σ : LogSt) : Option PtDump :=
  if checkGr1cForm p.ev p.sv c.init p.sp < 0 then none
  else if c.run = .syntaxOnly then none
  else if c.ptdump then
    some ⟨dumpFiles addr false (omissionDefaults p.sp),
      (σ.put 0 (varsText (-1) p.ev p.sv)).bind (printGr1Spec stamp p.ev p.sv (omissionDefaults p.sp) (some 0))⟩
  else none

/-- `-p` in `/repo/src/rg_main.c` 230-389. The fields `env_trans` and `sys_trans` are NULL until 401-411. -/
def rgPtDump (addr : ℕ → List Bool → ℕ) (c : Cfg) (p : PState) (σ : LogSt) : Option PtDump :=
  if 1 < p.sp.sgoals.length then none
  else if checkGr1cForm p.ev p.sv c.init p.sp < 0 then none
  else if c.run = .syntaxOnly then none
  else if c.ptdump then
    some ⟨dumpFiles addr true (rgDefaults p.sp), σ.put 0 (varsText (-1) p.ev p.sv ++ rgFormulas .nil .nil (rgDefaults p.sp))⟩
  else none

/-- `-p` in `/repo/exp/grpatch.c` 303-304 and 338-493, for a parsed specification; `none` if the end of that part is not reached. In the
lists of variables, 0 is taken to mean Boolean (442 and 470). -/
def pgPtDump (addr : ℕ → List Bool → ℕ) (stamp : Option (List Char)) (c : PgCfg) (p : PState) (σ : LogSt) : Option PtDump :=
  if checkGr1cForm p.ev p.sv .undefined p.sp < 0 then none
  else
    (pgForm c).bind fun form =>
      if (checkVars (chainVars p.sv p.ev) .nil form).isSome then none
      else if c.ptdump then
        some ⟨(if c.form.isSome then [("clformula_ptree.dot".toList, treeDotDump (addr 0) form)] else []) ++
            dumpFiles (fun i => addr (i + 1)) false (omissionDefaults p.sp),
          (σ.put 0 (varsText 0 p.ev p.sv)).bind (printGr1Spec stamp p.ev p.sv (omissionDefaults p.sp) (some 0))⟩
      else none

/-- What `-p` does in a call of `gr1c`, if all files can be written. -/
def mainDump (w : World) (addr : ℕ → List Bool → ℕ) (stamp : Option (List Char)) (args : List Arg) (σ : LogSt) : Option PtDump :=
  match cliMain args with
  | .run c => (w.source c.input).bind fun text => (parseFile false text).bind fun p => ptDump addr stamp c p σ
  | _ => none

/-- What `-p` does in a call of `gr1c-rg`, if all files can be written. -/
def rgDump (w : World) (addr : ℕ → List Bool → ℕ) (args : List Arg) (σ : LogSt) : Option PtDump :=
  match rgOptLoop true Cfg.rgDefault args with
  | .go c =>
    if c.help then none else (w.source c.input).bind fun text => (parseFile true text).bind fun p => rgPtDump addr c p σ
  | _ => none

end Gr1c
