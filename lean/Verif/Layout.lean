import Verif.Scan
import Mathlib.Data.Nat.Digits.Defs

/-!
# Specification of scanning (C46)

`Layout` says, without reference to the scanner, when a text is a way to write down a sequence of tokens:
tokens are spelled out one after the other, with any blanks, line ends and comments in between, provided
that two tokens which would run together are kept apart.
-/

namespace Gr1c

/-! ## Specification -/

/-- Value of a decimal digit. -/
def digitVal (c : Char) : ℕ := c.toNat - 48

/-- Texts of the operators that have a fixed spelling. -/
def fixedSpelling : List (Tok × List Char) :=
  [(.live, ['[', ']', '<', '>']), (.safe, ['[', ']']), (.ev, ['<', '>']), (.le, ['<', '=']),
   (.ge, ['>', '=']), (.ne, ['!', '=']), (.equiv, ['<', '-', '>']), (.implies, ['-', '>'])]

/-- Symbols that are tokens by themselves. -/
def singleSymbols : List Char := ['(', ')', '&', '|', '!', '=', '\'', ';', ',', '<', '>', '[', ']']

/-- Section headers. -/
def sectionNames : List (Tok × String) :=
  [(.evars, "ENV:"), (.svars, "SYS:"), (.einit, "ENVINIT:"), (.etrans, "ENVTRANS:"), (.egoal, "ENVGOAL:"),
   (.sinit, "SYSINIT:"), (.strans, "SYSTRANS:"), (.sgoal, "SYSGOAL:")]

/-- Names: a letter or underscore, then letters, digits, underscores and dots. -/
def IsIdent (w : List Char) : Prop := ∃ c cs, w = c :: cs ∧ isIdStart c = true ∧ ∀ d ∈ cs, isIdChar d = true

/-- The texts of a token that is not a section header. -/
inductive Spells : Tok → List Char → Prop
  | andLive (bl : List Char) (h : ∀ c ∈ bl, c = ' ' ∨ c = '\t') :
      Spells .andLive ('&' :: (bl ++ ['[', ']', '<', '>']))
  | andSafe (bl : List Char) (h : ∀ c ∈ bl, c = ' ' ∨ c = '\t') : Spells .andSafe ('&' :: (bl ++ ['[', ']']))
  | fixed (t : Tok) (w : List Char) (h : (t, w) ∈ fixedSpelling) : Spells t w
  | tt : Spells .tt ['T', 'r', 'u', 'e']
  | ff : Spells .ff ['F', 'a', 'l', 's', 'e']
  | ident (w : List Char) (h : IsIdent w) (h1 : w ≠ ['T', 'r', 'u', 'e'])
      (h2 : w ≠ ['F', 'a', 'l', 's', 'e']) : Spells (.ident w) w
  | num (ds fr : List Char) (h : ds ≠ []) (hd : ∀ c ∈ ds, isDig c = true)
      (hf : fr = [] ∨ ∃ es, es ≠ [] ∧ fr = '.' :: es ∧ ∀ c ∈ es, isDig c = true) :
      Spells (.num (Nat.ofDigits 10 (ds.reverse.map digitVal))) (ds ++ fr)
  | sym (c : Char) (h : c ∈ singleSymbols) : Spells (.chr c) [c]

/-- What may follow a token directly: the text after it must not run together with it. -/
def Stops : Tok → List Char → Prop
  | .tt, s | .ff, s | .ident _, s => ∀ c, s.head? = some c → isIdChar c = false ∧ c ≠ ':'
  | .num _, s => ∀ c, s.head? = some c → isDig c = false ∧ c ≠ '.'
  | .safe, s | .andSafe, s => s.head? ≠ some '<'
  | .chr c, s =>
    if c = '&' then (s.dropWhile fun d => d == ' ' || d == '\t').head? ≠ some '['
    else if c = '<' then s.head? ≠ some '=' ∧ s.head? ≠ some '>' ∧ s.head? ≠ some '-'
    else if c = '>' ∨ c = '!' then s.head? ≠ some '='
    else if c = '[' then s.head? ≠ some ']'
    else True
  | _, _ => True

/-- `Layout b ts s`: the text `s` (at the beginning of a line if `b`) writes down the tokens `ts`. -/
inductive Layout : Bool → List Tok → List Char → Prop
  | done (b : Bool) : Layout b [] []
  | blank (b : Bool) (c : Char) (ts s) (h : c = ' ' ∨ c = '\t' ∨ c = '\r') (hl : Layout false ts s) :
      Layout b ts (c :: s)
  | newline (b : Bool) (ts s) (hl : Layout true ts s) : Layout b ts ('\n' :: s)
  | comment (b : Bool) (w : List Char) (ts s) (h : '\n' ∉ w) (hl : Layout true ts s) :
      Layout b ts ('#' :: (w ++ '\n' :: s))
  | header (bl : List Char) (h : ∀ c ∈ bl, c = ' ' ∨ c = '\t' ∨ c = '\r') (t : Tok) (w : String)
      (hw : (t, w) ∈ sectionNames) (ts s) (hl : Layout false ts s) :
      Layout true (t :: ts) (bl ++ (w.toList ++ s))
  | tok (b : Bool) (t : Tok) (w : List Char) (hw : Spells t w) (ts s) (hs : Stops t s)
      (hl : Layout false ts s) : Layout b (t :: ts) (w ++ s)

end Gr1c
