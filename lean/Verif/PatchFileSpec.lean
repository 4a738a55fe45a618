import Verif.PatchSpec
import Verif.AutIOSpec
import Verif.BddProps

/-!
# The change file, `/repo/doc/formats.md` 125-142 and `/repo/doc/interaction.md` 89-110

"Files of this form consist of two parts: first a list (one per line) of states considered to be in the neighborhood; and second
a sequence of restrict, relax, or blocksys commands. Blank lines and lines beginning with # are ignored." Written from the
documentation and independent of the program. Deviations: a word is followed by exactly one blank before the (optional) blanks of
the numbers, a line of blanks only is not a blank line (the program rejects it), lines are shorter than 1023 characters.
-/

namespace Gr1c

/-- Bits of a state: environment variables first. -/
def stBits {ne ns : ℕ} (s : BState ne ns) : List Bool := List.ofFn s.1 ++ List.ofFn s.2

/-- Values as they are written: 0 and 1. -/
def written01 (bs : List Bool) : List ℤ := bs.map fun b => if b then 1 else 0

/-- The end of a line: newline, possibly after a carriage return, or the end of the file. `s` is what follows. -/
def LineEnd (e s : List Char) : Prop := EndLine e ∨ (e = [] ∧ s = [])

/-- A blank line or a comment; `s` is what follows. -/
def SkippedLine (line s : List Char) : Prop :=
  line.length < 1024 ∧ (line = ['\n'] ∨ ∃ c e, (∀ d ∈ c, d ≠ '\n' ∧ d ≠ Char.ofNat 0) ∧ LineEnd e s ∧ line = '#' :: (c ++ e))

/-- A line of numbers. -/
def NumberLine (vs : List ℤ) (line s : List Char) : Prop :=
  line.length < 1024 ∧ ∃ row e, Row vs row ∧ LineEnd e s ∧ line = row ++ e

/-- A command: a word, a blank, and numbers. -/
def WordLine (word : List Char) (vs : List ℤ) (line s : List Char) : Prop :=
  line.length < 1024 ∧ ∃ row e, Row vs row ∧ LineEnd e s ∧ line = word ++ ' ' :: (row ++ e)

/-- The words of the commands. -/
def IsChangeWord (word : List Char) : Prop := word = "restrict".toList ∨ word = "relax".toList ∨ word = "blocksys".toList

/-- The second part of a change file: commands (word and numbers), then the text `tail`. A whole file has the tail `[]`. -/
inductive ChangeCmds (tail : List Char) : List (List Char × List ℤ) → List Char → Prop
  | nil : ChangeCmds tail [] tail
  | skip (line s : List Char) (cs) : SkippedLine line s → ChangeCmds tail cs s → ChangeCmds tail cs (line ++ s)
  | cmd (word : List Char) (vs : List ℤ) (line s : List Char) (cs) : IsChangeWord word → WordLine word vs line s → ChangeCmds tail cs s →
      ChangeCmds tail ((word, vs) :: cs) (line ++ s)

/-- A change file: states (the numbers of each), then commands, then the text `tail`. A whole file has the tail `[]`. -/
inductive ChangeFile (tail : List Char) : List (List ℤ) → List (List Char × List ℤ) → List Char → Prop
  | cmds (cs) (s : List Char) : ChangeCmds tail cs s → ChangeFile tail [] cs s
  | skip (N cs) (line s : List Char) : SkippedLine line s → ChangeFile tail N cs s → ChangeFile tail N cs (line ++ s)
  | state (vs : List ℤ) (N cs) (line s : List Char) : NumberLine vs line s → ChangeFile tail N cs s →
      ChangeFile tail (vs :: N) cs (line ++ s)

variable {ne ns : ℕ}

/-- How a command is written when all variables are Boolean: the word and the values. -/
def changeText : Change (Val ne) (Val ns) → List Char × List ℤ
  | .restrictSys s t => ("restrict".toList, written01 (stBits s ++ stBits t))
  | .restrictEnv s e => ("restrict".toList, written01 (stBits s ++ List.ofFn e))
  | .relaxSys s t => ("relax".toList, written01 (stBits s ++ stBits t))
  | .relaxEnv s e => ("relax".toList, written01 (stBits s ++ List.ofFn e))
  | .blockSys x => ("blocksys".toList, written01 (List.ofFn x))

/-- The text is a change file with neighbourhood `N` and commands `cs`, when all variables are Boolean. -/
def ChangeFileSays (N : List (BState ne ns)) (cs : List (Change (Val ne) (Val ns))) (text : List Char) : Prop :=
  ChangeFile [] (N.map fun x => written01 (stBits x)) (cs.map changeText) text

end Gr1c
