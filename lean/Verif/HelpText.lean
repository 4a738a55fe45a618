import Verif.Cli
import Verif.Rg
import Verif.PatchMain
import Verif.Autman

/-!
# Model of the help texts (`/repo/src/main.c` 270-304, `/repo/src/rg_main.c` 184-201, `/repo/exp/grpatch.c` 225-245, `/repo/aux/autman.c` 73-93)

The texts that `-h` writes to standard output, line by line; `me` is `argv[0]`.
-/

namespace Gr1c

/-- `gr1c -h`, `/repo/src/main.c` 272-302. -/
def helpGr1c (me : List Char) : List (List Char) :=
  ["Usage: ".toList ++ me ++ " [-hVvlspriP] [-n INIT] [-t TYPE] [-o FILE] [[--] FILE]".toList,
   "".toList,
   "  -h          this help message".toList,
   "  -V          print version and exit".toList,
   "  -v          be verbose; use -vv to be more verbose".toList,
   "  -l          enable logging".toList,
   "  -t TYPE     strategy output format; default is \"json\";".toList,
   "              supported formats: txt, dot, aut, json, tulip".toList,
   "  -n INIT     initial condition interpretation; (not case sensitive)".toList,
   "              one of".toList,
   "                  ALL_ENV_EXIST_SYS_INIT (default)".toList,
   "                  ALL_INIT".toList,
   "                  ONE_SIDE_INIT".toList,
   "  -s          only check specification syntax (return 2 on error)".toList,
   "  -p          dump parse trees to DOT files, and echo formulas to screen".toList,
   "  -r          only check realizability; do not synthesize strategy".toList,
   "              (return 0 if realizable, 3 if not)".toList,
   "  -i          interactive mode".toList,
   "  -o FILE     output strategy to FILE, rather than stdout (default)".toList,
   "  -P          create Spin Promela model of strategy;".toList,
   "              output to stdout, so requires -o flag to also be used".toList,
   "".toList,
   "For other commands, use: ".toList ++ me ++ " COMMAND [...]".toList,
   "".toList,
   "  rg          solve reachability game".toList,
   "  autman      manipulate finite-memory strategies".toList,
   "  patch       patch or modify a given strategy (incremental synthesis)".toList,
   "  help        this help message (equivalent to -h)".toList,
   "".toList,
   "When applicable, any arguments after COMMAND are passed on to the".toList,
   "appropriate program. Use -h to get the corresponding help message.".toList]

/-- `gr1c-rg -h`, `/repo/src/rg_main.c` 186-200; the lines 197-198 are a comment. -/
def helpRg (me : List Char) : List (List Char) :=
  ["Usage: ".toList ++ me ++ " [-hVvls] [-t TYPE] [-o FILE] [[--] FILE]".toList,
   "".toList,
   "  -h        this help message".toList,
   "  -V        print version and exit".toList,
   "  -v        be verbose".toList,
   "  -l        enable logging".toList,
   "  -t TYPE   strategy output format; default is \"json\";".toList,
   "            supported formats: txt, dot, aut, json, tulip".toList,
   "  -n INIT   initial condition interpretation; (not case sensitive)".toList,
   "              one of".toList,
   "                  ALL_INIT (default)".toList,
   "  -s        only check specification syntax (return 2 on error)".toList,
   "  -o FILE   output strategy to FILE, rather than stdout (default)".toList]

/-- `gr1c-patch -h`, `/repo/exp/grpatch.c` 227-244. -/
def helpPatch (me : List Char) : List (List Char) :=
  ["Usage: ".toList ++ me ++ " [-hVvlp] [-m VARS] [-t TYPE] [-aeo FILE] [-f FORM] [-r N] [[--] FILE]".toList,
   "".toList,
   "  -h          this help message".toList,
   "  -V          print version and exit".toList,
   "  -v          be verbose; use -vv to be more verbose".toList,
   "  -l          enable logging".toList,
   "  -t TYPE     strategy output format; default is \"json\";".toList,
   "              supported formats: txt, dot, aut, json, tulip".toList,
   "  -p          dump parse trees to DOT files, and echo formulas to screen".toList,
   "  -m VARS     VARS is a space-separated list of metric variables".toList,
   "  -a FILE     automaton input file, in gr1c \"aut\" format;".toList,
   "              if FILE is -, then read from stdin".toList,
   "  -e FILE     patch, given game edge set change file; requires -a flag".toList,
   "  -o FILE     output strategy to FILE, rather than stdout (default)".toList,
   "  -f FORM     FORM is a Boolean (state) formula, currently only".toList,
   "              used for appending a system goal; requires -a flag.".toList,
   "  -r N        remove system goal N (in order, according to given file);".toList,
   "              requires -a flag.".toList]

/-- `gr1c-autman -h`, `/repo/aux/autman.c` 74-92; the lines 83-84 are a comment. -/
def helpAutman (me : List Char) : List (List Char) :=
  ["Usage: ".toList ++ me ++ " [-hVvlsP] [-t TYPE] [-L N] [-i FILE] [-o FILE] [FILE]".toList,
   "".toList,
   "If no input file is given, or if FILE is -, read from stdin.  If no action".toList,
   "is requested, then assume -s.".toList,
   "".toList,
   "  -h          this help message".toList,
   "  -V          print version and exit".toList,
   "  -v          be verbose; use -vv to be more verbose".toList,
   "  -l          enable logging".toList,
   "  -s          check syntax and get version;".toList,
   "              print format version number, or -1 if error.".toList,
   "  -t TYPE     convert to format: txt, dot, aut, json, tulip".toList,
   "              some of these require a reference specification.".toList,
   "  -P          create Spin Promela model of strategy".toList,
   "              if used with -o, then the LTL formula is printed to stdout.".toList,
   "  -L N        declare that state vector size is N".toList,
   "  -i FILE     process strategy with respect to specification FILE".toList,
   "  -o FILE     output to FILE, rather than stdout (default)".toList]

end Gr1c
