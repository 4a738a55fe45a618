import Verif.Cli

/-!
# Specification of the command line of `gr1c`

From the help text (`/repo/src/main.c` 272-302) and the manual page (`/repo/doc/gr1c.1`): which
argument vectors are command lines and what they ask for, independent of the loop that reads them.
-/

namespace Gr1c

/-- The options. -/
inductive Opt
  | help | verbose (two : Bool) | logging | synt | ptdump | real | inter | promela
  | format (f : OutFmt) | init (i : InitFlag) | output (a : Arg)
  deriving DecidableEq

/-- Names of the output formats, `/repo/doc/gr1c.1` "-t TYPE". -/
def fmtWords : List (OutFmt × String) :=
  [(.text, "txt"), (.dot, "dot"), (.aut, "aut"), (.json, "json"), (.tulip, "tulip")]

/-- Names of the interpretations of initial conditions, `/repo/doc/gr1c.1` "-n INIT" (not case
sensitive). -/
def initWords : List (InitFlag × String) :=
  [(.allEnvExistSys, "all_env_exist_sys_init"), (.allInit, "all_init"), (.oneSide, "one_side_init")]

/-- Flags without an argument. -/
def flagWords : List (Opt × String) :=
  [(.help, "-h"), (.help, "--help"), (.verbose false, "-v"), (.verbose true, "-vv"), (.logging, "-l"),
    (.synt, "-s"), (.ptdump, "-p"), (.real, "-r"), (.inter, "-i"), (.promela, "-P")]

/-- Words after which the program ignores further characters. -/
def looseWords : List String := ["--help", "-vv"]

/-- `ws` are the arguments that give the option; `loose` adds the spellings with further characters
that the program takes too. -/
inductive Spelled (loose : Bool) : Opt → List Arg → Prop
  | flag {o w} (h : (o, w) ∈ flagWords) : Spelled loose o [w.toList]
  | flagMore {o w} (x : Arg) (hl : loose = true) (h : (o, w) ∈ flagWords) (hw : w ∈ looseWords) :
      Spelled loose o [w.toList ++ x]
  | format {f w} (x : Arg) (hl : loose = true ∨ x = []) (h : (f, w) ∈ fmtWords) :
      Spelled loose (.format f) [['-', 't'], w.toList ++ x]
  | init {i w} (a x : Arg) (hl : loose = true ∨ x = []) (h : (i, w) ∈ initWords)
      (ha : a.map Char.toLower = w.toList ++ x) : Spelled loose (.init i) [['-', 'n'], a]
  | output (a : Arg) : Spelled loose (.output a) [['-', 'o'], a]

/-- Options one after the other. -/
inductive Opts (loose : Bool) : List Opt → List Arg → Prop
  | nil : Opts loose [] []
  | cons {o w os ws} (h : Spelled loose o w) (hs : Opts loose os ws) : Opts loose (o :: os) (w ++ ws)

/-- What may follow the options: nothing, or a file name, after `--` if it begins with a dash. -/
inductive Tail : Option Arg → List Arg → Prop
  | nothing : Tail none []
  | dashes : Tail none [['-', '-']]
  | file (a : Arg) (h : a.head? ≠ some '-') : Tail (some a) [a]
  | dashesFile (a : Arg) : Tail (some a) [['-', '-'], a]

/-- A command line. -/
def CmdLine (loose : Bool) (os : List Opt) (f : Option Arg) (args : List Arg) : Prop :=
  ∃ ws t, Opts loose os ws ∧ Tail f t ∧ args = ws ++ t

/-- Ways to ask for the version, with further characters that are ignored. -/
def VersionWord (a : Arg) : Prop := a = ['-', 'V'] ∨ ∃ x, a = "--version".toList ++ x

/-- The last value given, or the default. -/
def lastOf {α : Type} (f : Opt → Option α) (d : α) (os : List Opt) : α := (os.filterMap f).getLast?.getD d

/-- The mode an option selects. -/
def Opt.run? : Opt → Option RunMode
  | .synt => some .syntaxOnly
  | .real => some .realizable
  | .inter => some .interactive
  | _ => none

def Opt.format? : Opt → Option OutFmt
  | .format f => some f
  | _ => none

def Opt.init? : Opt → Option InitFlag
  | .init i => some i
  | _ => none

def Opt.output? : Opt → Option (Option Arg)
  | .output a => some (some a)
  | _ => none

def Opt.loud : Opt → ℕ
  | .verbose two => if two then 2 else 1
  | _ => 0

/-- What a command line asks for: of every kind the last one counts, the verbosity adds up (in an
`unsigned char`). -/
def meaning (os : List Opt) (f : Option Arg) : Cfg where
  run := lastOf Opt.run? .synthesis os
  help := decide (Opt.help ∈ os)
  ptdump := decide (Opt.ptdump ∈ os)
  logging := decide (Opt.logging ∈ os)
  init := lastOf Opt.init? .allEnvExistSys os
  format := lastOf Opt.format? .json os
  verbose := (os.map Opt.loud).sum % 256
  promela := decide (Opt.promela ∈ os)
  output := lastOf Opt.output? none os
  input := f

end Gr1c
