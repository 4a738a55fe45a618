import Verif.PathCover
import Verif.MainOut
import Verif.Rg

/-!
# The project's own tests, run on the model

`/repo/tests` has specifications with the outputs that gr1c is expected to produce. Here the model is
run on the same inputs and must produce the same bytes. These are tests of the model, not proofs: they
show that the functions of the model behave as the program does on the cases its authors have chosen.
The choices of the BDD library are those of `Verif.PathCover`.

`example`s are evaluated by the kernel. The inputs with integer variables use functions the kernel
does not unfold (well-founded recursion over trees); for these `#guard` evaluates the definitions
with the interpreter, which proves nothing but fails the build if the result differs.
-/

namespace Gr1c

namespace RepoTests

/-- One file `s` with the given text, and the choices of CUDD. -/
def repoWorld (text : List Char) (ls : List (List Char) := []) : World where
  file := fun a => if a = "s".toList then some text else none
  stdin := []
  canWrite := fun _ => true
  canDump := false
  oracle := pathOracle
  cover := pathCover
  lines := ls
  fuel := 1000

/-- The theorems about command lines apply to this world. -/
theorem repoWorld_sensible (text : List Char) (ls : List (List Char)) : (repoWorld text ls).Sensible :=
  fun ne ns G h => pathOracle_valid ne ns G h

/-- Exit status and standard output (without `-o`, `-l` and `-v`). -/
def shown : MainRes → Option (ℤ × List Char)
  | .exit s none => some (s, [])
  | .exit s (some o) =>
    match writeOut JsonEx.env o with
    | some (.ok t) => some (s, t)
    | _ => none
  | _ => none

/-- `/repo/tests/specs/trivial_2var.spc`. -/
def specs_trivial_2var : List Char := "# Expected output after synthesis and calling list_aut_dump() is in
# tests/expected_outputs/trivial_2var.spc.listdump.out
#
# SCL; 18 Mar 2013.
ENV: x;
SYS: y;

ENVINIT:x;
ENVTRANS:;
ENVGOAL:[]<>x;

SYSINIT:y;
SYSTRANS:;
SYSGOAL:[]<>(y&x)
& []<>(!y);
".toList

/-- `gr1c -t txt trivial_2var.spc` writes `/repo/tests/expected_outputs/trivial_2var.spc.listdump.out`. -/
example : shown (gr1cMain (repoWorld specs_trivial_2var) ["-t".toList, "txt".toList, "s".toList]) = some (0, "   0 : 1,0 -  0 -  1 - [ 1 2]
   1 : 0,0 -  0 -  1 - [ 1 2]
   2 (init) : 1,1 -  1 -  1 - [ 1 0]
".toList) := by decide +kernel

/-- `/repo/tests/specs/trivial_mustblock.spc`. -/
def specs_trivial_mustblock : List Char := "ENV: x;
SYS: y;

ENVGOAL: []<> x & !y
& []<> x & y;

SYSGOAL: []<> False;
".toList

/-- `gr1c -t txt trivial_mustblock.spc` writes `/repo/tests/expected_outputs/trivial_mustblock.spc.listdump.out`. -/
example : shown (gr1cMain (repoWorld specs_trivial_mustblock) ["-t".toList, "txt".toList, "s".toList]) = some (0, "   0 : 1,1 -  0 -  1 - [ 1 0]
   1 (init) : 0,0 -  0 -  1 - [ 1 0]
   2 (init) : 1,0 -  0 -  1 - [ 1 0]
".toList) := by decide +kernel

/-- `/repo/tests/specs/count_onestep.spc`. -/
def specs_count_onestep : List Char := "# Expected output after synthesis and calling list_aut_dump() is in
# tests/expected_outputs/count_onestep.spc.listdump.out

ENV: ;
SYS: y [0,2];
ENVINIT: ;
ENVTRANS:;
ENVGOAL: ;

SYSINIT: ;
SYSTRANS: ;

# The subformula y != 0 is included as a regression test for erroneous
# != operator expansion (cf. https://github.com/tulip-control/gr1c/issues/17)
SYSGOAL: []<>(y = 1 & y != 0);
".toList

-- `gr1c -t txt count_onestep.spc` writes `/repo/tests/expected_outputs/count_onestep.spc.listdump.out`.
#guard shown (gr1cMain (repoWorld specs_count_onestep) ["-t".toList, "txt".toList, "s".toList]) = some (0, "   0 : 1 -  0 -  0 - [ 0]
   1 (init) : 0 -  0 -  1 - [ 0]
".toList)

-- `gr1c -n ALL_INIT -t txt count_onestep.spc` writes `/repo/tests/expected_outputs/count_onestep.spc.ALL_INIT.listdump.out`.
#guard shown (gr1cMain (repoWorld specs_count_onestep) ["-n".toList, "ALL_INIT".toList, "-t".toList, "txt".toList, "s".toList]) = some (0, "   0 (init) : 0 -  0 -  1 - [ 2]
   1 (init) : 2 -  0 -  1 - [ 2]
   2 (init) : 1 -  0 -  0 - [ 2]
".toList)

/-- `/repo/tests/specs/free_counter.spc`. -/
def specs_free_counter : List Char := "# Expected output after synthesis and calling list_aut_dump() is in
# tests/expected_outputs/free_counter.spc.listdump.out

ENV:;
SYS: z y [0,4];

SYSINIT: y = 0;
SYSTRANS:   [] (y=0) -> (y'=2 | y'=4)
          & [] (y < 4);
SYSGOAL: []<> (y=3);
".toList

-- `gr1c -t txt free_counter.spc` writes `/repo/tests/expected_outputs/free_counter.spc.listdump.out`.
#guard shown (gr1cMain (repoWorld specs_free_counter) ["-t".toList, "txt".toList, "s".toList]) = some (0, "   0 : 0,3 -  0 -  0 - [ 0]
   1 : 0,2 -  0 -  1 - [ 0]
   2 (init) : 0,0 -  0 -  2 - [ 1]
".toList)

/-- `/repo/tests/specs/reach_2var.spc`. -/
def specs_reach_2var : List Char := "# Compare with tests/specs/reach_2var_mustblock.spc

ENV: x;
SYS: y;

ENVINIT:x;
ENVTRANS:[](y->!x');
ENVGOAL: []<> x;

SYSINIT:!y;
SYSTRANS:;
SYSGOAL:<>y;
".toList

/-- `gr1c-rg -t txt reach_2var.spc` writes `/repo/tests/expected_outputs/reach_2var.spc.listdump.out`. -/
example : shown (rgMain (repoWorld specs_reach_2var) ["-t".toList, "txt".toList, "s".toList]) = some (0, "   0 : 1,1 - -1 -  0 - []
   1 : 0,1 - -1 -  0 - []
   2 : 1,0 - -1 -  1 - [ 1 0]
".toList) := by decide +kernel

/-- `/repo/tests/specs/reach_2var_mustblock.spc`. -/
def specs_reach_2var_mustblock : List Char := "# Compare with tests/specs/reach_2var.spc

ENV: x;
SYS: y;

ENVINIT:x;
ENVTRANS:[](y->!x');
ENVGOAL: []<> x;

SYSINIT:!y;
SYSTRANS:;
".toList

/-- `gr1c-rg -t txt reach_2var_mustblock.spc` writes `/repo/tests/expected_outputs/reach_2var_mustblock.spc.listdump.out`. -/
example : shown (rgMain (repoWorld specs_reach_2var_mustblock) ["-t".toList, "txt".toList, "s".toList]) = some (0, "   0 : 0,1 - -1 -  1 - [ 0]
   1 : 1,1 - -1 -  2 - [ 0]
   2 : 0,0 - -1 -  2 - [ 0 1]
   3 : 1,0 - -1 -  3 - [ 2 1]
".toList) := by decide +kernel

/-- `/repo/tests/specs/reach_count_onestep.spc`. -/
def specs_reach_count_onestep : List Char := "# Expected output after synthesis and calling list_aut_dump() is in
# tests/expected_outputs/reach_count_onestep.spc.listdump.out

ENV: ;
SYS: y [0,2];
ENVINIT: ;
ENVTRANS:;
ENVGOAL: ;

SYSINIT: ;
SYSTRANS: ;
SYSGOAL: <>(y = 1);
".toList

-- `gr1c-rg -t txt reach_count_onestep.spc` writes `/repo/tests/expected_outputs/reach_count_onestep.spc.listdump.out`.
#guard shown (rgMain (repoWorld specs_reach_count_onestep) ["-t".toList, "txt".toList, "s".toList]) = some (0, "   0 : 0 - -1 -  1 - [ 2]
   1 : 2 - -1 -  1 - [ 2]
   2 : 1 - -1 -  0 - []
".toList)

/-- `/repo/tests/specs/reach_free_counter.spc`. -/
def specs_reach_free_counter : List Char := "ENV: x [0,2];
SYS: y [0,4];

ENVINIT: x=0;
ENVTRANS:  []((x=0) -> (x'=0 | x'=1))
         & []((x=1) -> (x'=0 | x'=1 | x'=2))
         & []((x=2) -> (x'=1 | x'=2))

         & []((y=2) -> (x'=0 | x'=2));

SYSINIT: y = 0;
SYSTRANS:  []((y=0) -> (y'=2 | y'=4))
         & [](y' < 4);
SYSGOAL: <> (y=3);
".toList

-- `gr1c-rg -t txt reach_free_counter.spc` writes `/repo/tests/expected_outputs/reach_free_counter.spc.listdump.out`.
#guard shown (rgMain (repoWorld specs_reach_free_counter) ["-t".toList, "txt".toList, "s".toList]) = some (0, "   0 : 2,3 - -1 -  0 - []
   1 : 0,3 - -1 -  0 - []
   2 : 1,2 - -1 -  1 - [ 1 0]
   3 : 0,2 - -1 -  1 - [ 1]
   4 : 0,0 - -1 -  2 - [ 3 2]
".toList)

/-- `/repo/tests/specs/reach_free_counter_mustblock.spc`. -/
def specs_reach_free_counter_mustblock : List Char := "ENV: x [0,2];
SYS: y [0,4];

ENVINIT: x=0;
ENVTRANS:  []((x=0) -> (x'=0 | x'=1))
         & []((x=1) -> (x'=0 | x'=1 | x'=2))
         & []((x=2) -> (x'=1 | x'=2))

         & []((y=2) -> (x'=0 | x'=2));
ENVGOAL: []<>(x=1);

SYSINIT: y = 0;
SYSTRANS:  []((y=0) -> (y'=2 | y'=4))
         & [](y' < 4);
SYSGOAL:   <>(y  = 4);
".toList

-- `gr1c-rg -t txt reach_free_counter_mustblock.spc` writes `/repo/tests/expected_outputs/reach_free_counter_mustblock.spc.listdump.out`.
#guard shown (rgMain (repoWorld specs_reach_free_counter_mustblock) ["-t".toList, "txt".toList, "s".toList]) = some (0, "   0 : 2,2 - -1 -  1 - [ 0]
   1 : 1,2 - -1 -  2 - [ 2 0]
   2 : 0,2 - -1 -  1 - [ 2]
   3 : 0,0 - -1 -  2 - [ 2 1]
".toList)

/-- `gr1c -r specs/trivial_2var.spc` ends with status 0. -/
example : shown (gr1cMain (repoWorld specs_trivial_2var) ["-r".toList, "s".toList]) = some (0, []) := by decide +kernel

/-- `/repo/tests/specs/empty.spc`. -/
def specs_empty : List Char := "ENV: ;
SYS: x;

ENVINIT:;
ENVTRANS:;
ENVGOAL:;

SYSINIT:;
SYSTRANS:;
SYSGOAL:;
".toList

/-- `gr1c -r specs/empty.spc` ends with status 0. -/
example : shown (gr1cMain (repoWorld specs_empty) ["-r".toList, "s".toList]) = some (0, []) := by decide +kernel

/-- `gr1c -r specs/trivial_mustblock.spc` ends with status 0. -/
example : shown (gr1cMain (repoWorld specs_trivial_mustblock) ["-r".toList, "s".toList]) = some (0, []) := by decide +kernel

-- `gr1c -r specs/free_counter.spc` ends with status 0.
#guard shown (gr1cMain (repoWorld specs_free_counter) ["-r".toList, "s".toList]) = some (0, [])

/-- `/repo/tests/specs/trivial_un.spc`. -/
def specs_trivial_un : List Char := "ENV: x;
SYS: y;

ENVINIT:x;
ENVTRANS:;
ENVGOAL:[]<>x;

SYSINIT:;
SYSTRANS:[](x' -> !y');
SYSGOAL:[]<>(y&x);
".toList

/-- `gr1c -r specs/trivial_un.spc` ends with status 3. -/
example : shown (gr1cMain (repoWorld specs_trivial_un) ["-r".toList, "s".toList]) = some (3, []) := by decide +kernel

/-- `/repo/tests/specs/trivial_partwin.spc`. -/
def specs_trivial_partwin : List Char := "# For example, regarding states as bitvectors, 1011 is not in winning
# set, while 1010 is. (Ordering is x ze y zs.)

ENV: x ze;
SYS: y zs;

ENVINIT: x & !ze;
ENVTRANS: [] (zs -> ze') & []((!ze & !zs) -> !ze');
ENVGOAL: []<>x;

SYSINIT: y;
SYSTRANS:;
SYSGOAL: []<>y&x & []<>!y & []<> !ze;
".toList

-- `gr1c -r -n ALL_INIT specs/trivial_partwin.spc` ends with status 3.
#guard shown (gr1cMain (repoWorld specs_trivial_partwin) ["-r".toList, "-n".toList, "ALL_INIT".toList, "s".toList]) = some (3, [])

/-- `/repo/tests/flawed_specs/duplicate_crossvars.spc`. -/
def flawed_specs_duplicate_crossvars : List Char := "ENV: x;
SYS: y x;

ENVINIT: !x;
ENVTRANS: [](x <-> !x');
ENVGOAL: []<>x;

SYSINIT: y;
SYSGOAL:
  []<>(y&x)
& []<>(!y);
".toList

/-- `gr1c -s flawed_specs/duplicate_crossvars.spc` ends with status 2. -/
example : shown (gr1cMain (repoWorld flawed_specs_duplicate_crossvars) ["-s".toList, "s".toList]) = some (2, []) := by decide +kernel

/-- `/repo/tests/flawed_specs/duplicate_envvars.spc`. -/
def flawed_specs_duplicate_envvars : List Char := "ENV: x x;
SYS: y;

ENVINIT: !x;
ENVTRANS: [](x <-> !x');
ENVGOAL: []<>x;

SYSINIT: y;
SYSGOAL:
  []<>(y&x)
& []<>(!y);
".toList

/-- `gr1c -s flawed_specs/duplicate_envvars.spc` ends with status 2. -/
example : shown (gr1cMain (repoWorld flawed_specs_duplicate_envvars) ["-s".toList, "s".toList]) = some (2, []) := by decide +kernel

/-- `/repo/tests/flawed_specs/invalidvarnames.spc`. -/
def flawed_specs_invalidvarnames : List Char := "SYS: y[ [0,2];
".toList

/-- `gr1c -s flawed_specs/invalidvarnames.spc` ends with status 2. -/
example : shown (gr1cMain (repoWorld flawed_specs_invalidvarnames) ["-s".toList, "s".toList]) = some (2, []) := by decide +kernel

/-- `/repo/tests/flawed_specs/trivial_dupeinit.spc`. -/
def flawed_specs_trivial_dupeinit : List Char := "ENV: x;
SYS: y;

ENVINIT:x;
ENVINIT:;
ENVTRANS:[](y->x');
ENVGOAL:[]<>x;

SYSINIT:y;
SYSTRANS:;
SYSGOAL:[]<>(y&x)
& []<>(!y);
".toList

/-- `gr1c -s flawed_specs/trivial_dupeinit.spc` ends with status 2. -/
example : shown (gr1cMain (repoWorld flawed_specs_trivial_dupeinit) ["-s".toList, "s".toList]) = some (2, []) := by decide +kernel

/-- `/repo/tests/flawed_specs/trivial_novars.spc`. -/
def flawed_specs_trivial_novars : List Char := "ENVINIT:x;
ENVTRANS:;
ENVGOAL:[]<>x;

SYSINIT:y;
SYSTRANS:;
SYSGOAL:[]<>(y&x)
& []<>(!y);
".toList

/-- `gr1c -s flawed_specs/trivial_novars.spc` ends with status 2. -/
example : shown (gr1cMain (repoWorld flawed_specs_trivial_novars) ["-s".toList, "s".toList]) = some (2, []) := by decide +kernel

/-- `/repo/tests/flawed_specs/trivial_trans.spc`. -/
def flawed_specs_trivial_trans : List Char := "ENV: x;
SYS: y;

ENVINIT:x;
ENVTRANS:y->x';
ENVGOAL:[]<>x;

SYSINIT:y;
SYSTRANS:;
SYSGOAL:[]<>(y&x)
& []<>(!y);
".toList

/-- `gr1c -s flawed_specs/trivial_trans.spc` ends with status 2. -/
example : shown (gr1cMain (repoWorld flawed_specs_trivial_trans) ["-s".toList, "s".toList]) = some (2, []) := by decide +kernel

/-- `/repo/tests/flawed_specs/trivial_trans2.spc`. -/
def flawed_specs_trivial_trans2 : List Char := "ENV: x;
SYS: y;

ENVINIT:x;
ENVTRANS:
ENVGOAL:[]<>x;

SYSINIT:y;
SYSTRANS:;
SYSGOAL:[]<>(y&x)
& []<>(!y);
".toList

/-- `gr1c -s flawed_specs/trivial_trans2.spc` ends with status 2. -/
example : shown (gr1cMain (repoWorld flawed_specs_trivial_trans2) ["-s".toList, "s".toList]) = some (2, []) := by decide +kernel

/-- `/repo/tests/flawed_specs/trivial_trans3.spc`. -/
def flawed_specs_trivial_trans3 : List Char := "ENV: x;
SYS: y;

ENVINIT:x;
ENVTRANS:[](y'->x');
ENVGOAL:[]<>x;

SYSINIT:y;
SYSTRANS:;
SYSGOAL:[]<>(y&x)
& []<>(!y);
".toList

/-- `gr1c -s flawed_specs/trivial_trans3.spc` ends with status 2. -/
example : shown (gr1cMain (repoWorld flawed_specs_trivial_trans3) ["-s".toList, "s".toList]) = some (2, []) := by decide +kernel

/-- `/repo/tests/flawed_specs/trivialnb_lowerbound.spc`. -/
def flawed_specs_trivialnb_lowerbound : List Char := "SYS: y [2,10];

SYSINIT:y=2;
SYSTRANS:;
SYSGOAL:[]<>(y=3);
".toList

/-- `gr1c -s flawed_specs/trivialnb_lowerbound.spc` ends with status 2. -/
example : shown (gr1cMain (repoWorld flawed_specs_trivialnb_lowerbound) ["-s".toList, "s".toList]) = some (2, []) := by decide +kernel

/-- `/repo/tests/flawed_reach_specs/duplicate_crossvars.spc`. -/
def flawed_reach_specs_duplicate_crossvars : List Char := "ENV: x;
SYS: y x;

ENVINIT:x;
ENVTRANS:[](y->!x');
ENVGOAL: []<> x;

SYSINIT:!y;
SYSTRANS:;
SYSGOAL:<>y;
".toList

/-- `gr1c-rg -s flawed_reach_specs/duplicate_crossvars.spc` ends with status 2. -/
example : shown (rgMain (repoWorld flawed_reach_specs_duplicate_crossvars) ["-s".toList, "s".toList]) = some (2, []) := by decide +kernel

/-- `/repo/tests/flawed_reach_specs/duplicate_envvars.spc`. -/
def flawed_reach_specs_duplicate_envvars : List Char := "ENV: x x;
SYS: y;

ENVINIT:x;
ENVTRANS:[](y->!x');
ENVGOAL: []<> x;

SYSINIT:!y;
SYSTRANS:;
SYSGOAL:<>y;
".toList

/-- `gr1c-rg -s flawed_reach_specs/duplicate_envvars.spc` ends with status 2. -/
example : shown (rgMain (repoWorld flawed_reach_specs_duplicate_envvars) ["-s".toList, "s".toList]) = some (2, []) := by decide +kernel

/-- `/repo/tests/flawed_reach_specs/trivial_extragoals.spc`. -/
def flawed_reach_specs_trivial_extragoals : List Char := "ENV: x;
SYS: y;

ENVINIT:x;
ENVTRANS:[](y->!x');
ENVGOAL: []<> x;

SYSINIT:!y;
SYSTRANS:;
SYSGOAL:<>y & <> !x;
".toList

/-- `gr1c-rg -s flawed_reach_specs/trivial_extragoals.spc` ends with status 2. -/
example : shown (rgMain (repoWorld flawed_reach_specs_trivial_extragoals) ["-s".toList, "s".toList]) = some (2, []) := by decide +kernel

/-- `/repo/tests/flawed_reach_specs/trivial_repgoal.spc`. -/
def flawed_reach_specs_trivial_repgoal : List Char := "ENV: x;
SYS: y;

ENVINIT:x;
ENVTRANS:[](y->!x');
ENVGOAL: []<> x;

SYSINIT:!y;
SYSTRANS:;
SYSGOAL:[]<>y;
".toList

/-- `gr1c-rg -s flawed_reach_specs/trivial_repgoal.spc` ends with status 2. -/
example : shown (rgMain (repoWorld flawed_reach_specs_trivial_repgoal) ["-s".toList, "s".toList]) = some (2, []) := by decide +kernel

/-- `/repo/tests/interaction_scripts/trivial_partwin_IN.txt`. -/
def partwinIn : List (List Char) :=
  ["var".toList,
   "numgoals".toList,
   "printgoal 0".toList,
   "printgoal 1".toList,
   "printgoal 2".toList,
   "printgoal 3".toList,
   "winning 1 0 1 1".toList,
   "winning 1 0 1 0".toList,
   "winning 0 0 0 0".toList,
   "sysnexta 0 0 0 0  0 0".toList,
   "sysnext 0 0 0 0  0 0  2".toList,
   "printegoals".toList,
   "blocksys 1 0".toList,
   "winning 0 0 0 0".toList,
   "refresh winning".toList,
   "winning 0 0 0 0".toList,
   "clear".toList,
   "refresh winning".toList,
   "winning 0 0 0 0".toList,
   "getindex 0 0 1 0  0".toList,
   "getindex 0 0 0 0  1".toList,
   "getindex 1 0 1 1  0".toList,
   "quit".toList,
   "".toList]

/-- The answers in `/repo/tests/interaction_scripts/trivial_partwin_OUT.txt`; the commands `var`, `numgoals`, `printgoal` and
`printegoals` are not modelled, and nothing is printed for `blocksys`, `refresh` and `clear`. -/
def partwinOut : List IOut :=
  [.truth false, .truth true, .truth true, .rows [[0, 0], [0, 1], [1, 0], [1, 1]], .rows [[0, 0], [1, 0]],
   .nothing, .truth true, .nothing, .truth false, .nothing, .nothing, .truth true, .index 1, .index 1, .inf]

def answers : MainRes → Option (List IOut)
  | .session l => some l
  | _ => none

-- `gr1c -i trivial_partwin.spc < trivial_partwin_IN.txt`
#guard answers (gr1cMain (repoWorld specs_trivial_partwin partwinIn) ["-i".toList, "s".toList]) = some partwinOut

/-! ## `/repo/tests/test-cli.sh` -/

example : [["-notoption"], ["-hh"], ["--00f"], ["--", "rg"], ["f00f"]].all (fun a =>
    match gr1cMain (repoWorld []) (a.map String.toList) with
    | .exit s _ => decide (s ≠ 0)
    | _ => false) = true := by decide +kernel

-- `echo "SYS: x;" | gr1c`
#guard (shown (gr1cMain { repoWorld [] with stdin := "SYS: x;\n".toList } [])).map Prod.fst = some 0

-- `gr1c rg` with a specification on standard input: another program is started, and it succeeds
example : (match gr1cMain (repoWorld []) ["rg".toList] with | .exec cmd args => (cmd, args) | _ => ("", [[]])) = ("gr1c-rg", []) := by
  decide +kernel
#guard (shown (rgMain { repoWorld [] with stdin := "SYS: x;\nSYSGOAL:<>x;\n".toList } [])).map Prod.fst = some 0

-- `gr1c help`, `gr1c -h` and `gr1c --help` do the same
example : (cliMain ["help".toList], cliMain ["--help".toList]) = (cliMain ["-h".toList], cliMain ["-h".toList]) := by decide +kernel

end RepoTests

end Gr1c
