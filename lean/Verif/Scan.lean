import Verif.PTree

/-!
# Model of the scanner (`/repo/src/gr1c_scan.l`)

The scanner that flex generates takes, at each position, the longest match of any rule, and the earliest
rule among matches of equal length (trusted semantics of flex). `lexOne` is that choice worked out by
cases on the first character; the scanner state is one flag, "at the beginning of a line", which decides
whether the rules starting with `^` are eligible.

Simplifications: characters are Lean characters instead of bytes, line counting is left out, and a number
is an unbounded integer instead of the `int` that receives the result of `strtol`.
-/

namespace Gr1c

/-- Tokens, `/repo/src/gr1c_parse.y` 30-58. -/
inductive Tok
  | andLive | andSafe | live | safe | ev
  | le | ge | ne | equiv | implies
  | chr (c : Char)
  | tt | ff
  | evars | svars | einit | etrans | egoal | sinit | strans | sgoal
  | ident (n : Name)
  | num (v : ℕ)
  deriving DecidableEq, Repr

/-- The class `[ \t\r]`, `/repo/src/gr1c_scan.l` 51-60, 68. -/
def isBlank (c : Char) : Bool := c == ' ' || c == '\t' || c == '\r'

/-- The class `[ \t]`, `/repo/src/gr1c_scan.l` 26-27. -/
def isSpTab (c : Char) : Bool := c == ' ' || c == '\t'

/-- The class `[a-zA-Z_]`, `/repo/src/gr1c_scan.l` 21. -/
def isIdStart (c : Char) : Bool :=
  ('a'.toNat ≤ c.toNat && c.toNat ≤ 'z'.toNat) || ('A'.toNat ≤ c.toNat && c.toNat ≤ 'Z'.toNat) || c == '_'

/-- The class `[0-9]`, `/repo/src/gr1c_scan.l` 22. -/
def isDig (c : Char) : Bool := '0'.toNat ≤ c.toNat && c.toNat ≤ '9'.toNat

/-- The class `[a-zA-Z0-9_\.]`, `/repo/src/gr1c_scan.l` 21. -/
def isIdChar (c : Char) : Bool := isIdStart c || isDig c || c == '.'

/-- Rest of a text after a given beginning. -/
def stripPre : List Char → List Char → Option (List Char)
  | [], cs => some cs
  | _ :: _, [] => none
  | p :: ps, c :: cs => if p = c then stripPre ps cs else none

/-- The first entry of a list of (text, token) whose text the given text begins with, and the rest. -/
def firstRule (rules : List (List Char × Tok)) (cs : List Char) : Option (Tok × List Char) :=
  rules.findSome? fun p => (stripPre p.1 cs).map fun r => (p.2, r)

/-- The section headers, `/repo/src/gr1c_scan.l` 51-60; at most one fits a text. -/
def headers : List (List Char × Tok) :=
  [("ENV:".toList, .evars), ("SYS:".toList, .svars), ("ENVINIT:".toList, .einit),
   ("ENVTRANS:".toList, .etrans), ("ENVGOAL:".toList, .egoal), ("SYSINIT:".toList, .sinit),
   ("SYSTRANS:".toList, .strans), ("SYSGOAL:".toList, .sgoal)]

/-- Value of a run of decimal digits (`strtol( yytext, NULL, 10 )`, `/repo/src/gr1c_scan.l` 63). -/
def digitsVal (ds : List Char) : ℕ := ds.foldl (fun a c => 10 * a + (c.toNat - '0'.toNat)) 0

/-- The optional fractional part `([.][0-9]+)?` of a number, `/repo/src/gr1c_scan.l` 22; `strtol` stops
before it. -/
def dropFraction : List Char → List Char
  | '.' :: c :: cs => if isDig c then cs.dropWhile isDig else '.' :: c :: cs
  | cs => cs

/-- The rules `True`, `False` and `{identifier}`, `/repo/src/gr1c_scan.l` 48-49, 62. -/
def wordTok (w : Name) : Tok :=
  if w = "True".toList then .tt else if w = "False".toList then .ff else .ident w

/-- The rules for tokens made of several symbols and beginning with a given one, without that symbol,
longest first. `/repo/src/gr1c_scan.l` 26-38. -/
def symRules (c : Char) : List (List Char × Tok) :=
  if c = '&' then [(['[', ']', '<', '>'], .andLive), (['[', ']'], .andSafe)]
  else if c = '[' then [([']', '<', '>'], .live), ([']'], .safe)]
  else if c = '<' then [(['-', '>'], .equiv), (['='], .le), (['>'], .ev)]
  else if c = '>' then [(['='], .ge)]
  else if c = '!' then [(['='], .ne)]
  else if c = '-' then [(['>'], .implies)]
  else []

/-- Text in which the rest of a token beginning with the given symbol is looked for: blanks and tabs may
follow `&`. `/repo/src/gr1c_scan.l` 26-27. -/
def symRest (c : Char) (cs : List Char) : List Char := if c = '&' then cs.dropWhile isSpTab else cs

/-- The rules that do not begin with a symbol of several-symbol tokens, and the single symbols,
`/repo/src/gr1c_scan.l` 39-49, 62-70. -/
def lexSimple (c : Char) (cs : List Char) : Option Tok × Bool × List Char :=
  if c = '\n' then (none, true, cs)
  else if c = '#' then
    -- the comment rule needs a newline; `unput` gives it back (65-66)
    if '\n' ∈ cs then (none, true, cs.dropWhile (· != '\n')) else (some (.chr '#'), false, cs)
  else if isBlank c then (none, false, cs.dropWhile isBlank)
  else if isIdStart c then (some (wordTok (c :: cs.takeWhile isIdChar)), false, cs.dropWhile isIdChar)
  else if isDig c then
    (some (.num (digitsVal (c :: cs.takeWhile isDig))), false, dropFraction (cs.dropWhile isDig))
  else (some (.chr c), false, cs)

/-- Rules other than section headers at a text `c :: cs`: the token, if one is returned, whether the
text matched ends a line (`yy_at_bol`), and the remaining text. `/repo/src/gr1c_scan.l` 26-49, 62-70. -/
def lexPlain (c : Char) (cs : List Char) : Option Tok × Bool × List Char :=
  match firstRule (symRules c) (symRest c cs) with
  | some (t, r) => (some t, false, r)
  | none => lexSimple c cs

/-- One match of the scanner. A section header, with the blanks before it, is longer than any match of
the other rules, so it wins whenever it is eligible. `/repo/src/gr1c_scan.l` 26-70. -/
def lexOne (bol : Bool) (c : Char) (cs : List Char) : Option Tok × Bool × List Char :=
  if bol then
    match firstRule headers ((c :: cs).dropWhile isBlank) with
    | some (t, r) => (some t, false, r)
    | none => lexPlain c cs
  else lexPlain c cs

theorem stripPre_le {p cs r : List Char} (h : stripPre p cs = some r) : r.length + p.length = cs.length := by
  induction p generalizing cs with
  | nil => simp only [stripPre, Option.some.injEq] at h; simp [h]
  | cons q ps ih =>
    cases cs with
    | nil => simp [stripPre] at h
    | cons c cs =>
      simp only [stripPre] at h
      split at h
      · have := ih h; simp; omega
      · cases h

theorem dropWhile_le (p : Char → Bool) (cs : List Char) : (cs.dropWhile p).length ≤ cs.length :=
  (List.dropWhile_suffix p).length_le

theorem dropFraction_le (cs : List Char) : (dropFraction cs).length ≤ cs.length := by
  unfold dropFraction
  split
  · rename_i c cs
    split
    · have := dropWhile_le isDig cs; simp; omega
    · exact Nat.le_refl _
  · exact Nat.le_refl _

theorem firstRule_spec {rules : List (List Char × Tok)} {cs r : List Char} {t : Tok}
    (h : firstRule rules cs = some (t, r)) : ∃ w, (w, t) ∈ rules ∧ stripPre w cs = some r := by
  unfold firstRule at h
  rw [List.findSome?_eq_some_iff] at h
  obtain ⟨l1, a, l2, h1, h2, -⟩ := h
  simp only [Option.map_eq_some_iff, Prod.mk.injEq] at h2
  obtain ⟨r', h3, h4, rfl⟩ := h2
  exact ⟨a.1, by rw [h1, ← h4]; simp, h3⟩

theorem symRest_le (c : Char) (cs : List Char) : (symRest c cs).length ≤ cs.length := by
  unfold symRest
  split
  · exact dropWhile_le _ _
  · exact Nat.le_refl _

theorem lexSimple_le (c : Char) (cs : List Char) : (lexSimple c cs).2.2.length ≤ cs.length := by
  unfold lexSimple
  split
  · exact Nat.le_refl _
  split
  · split
    · exact dropWhile_le _ _
    · exact Nat.le_refl _
  split
  · exact dropWhile_le _ _
  split
  · exact dropWhile_le _ _
  split
  · exact (dropFraction_le _).trans (dropWhile_le _ _)
  · exact Nat.le_refl _

theorem lexPlain_le (c : Char) (cs : List Char) : (lexPlain c cs).2.2.length ≤ cs.length := by
  unfold lexPlain
  split
  · rename_i t r h
    obtain ⟨w, -, h2⟩ := firstRule_spec h
    have := stripPre_le h2
    have := symRest_le c cs
    simp only; omega
  · exact lexSimple_le c cs

theorem firstRule_header_lt {cs r : List Char} {t : Tok} (h : firstRule headers cs = some (t, r)) :
    r.length < cs.length := by
  obtain ⟨w, h1, h2⟩ := firstRule_spec h
  have h4 := stripPre_le h2
  have h6 : 0 < w.length := by
    have h0 : ∀ p ∈ headers, 0 < p.1.length := by decide
    exact h0 _ h1
  omega

theorem lexOne_le (bol : Bool) (c : Char) (cs : List Char) : (lexOne bol c cs).2.2.length ≤ cs.length := by
  unfold lexOne
  split
  · split
    · rename_i t r h
      have h1 := firstRule_header_lt h
      have h2 := dropWhile_le isBlank (c :: cs)
      simp only [List.length_cons] at h2
      simp only; omega
    · exact lexPlain_le c cs
  · exact lexPlain_le c cs

/-- The sequence of tokens that repeated calls of `yylex` return. `/repo/src/gr1c_scan.l`. -/
def lex (bol : Bool) : List Char → List Tok
  | [] => []
  | c :: cs =>
    (lexOne bol c cs).1.toList ++ lex (lexOne bol c cs).2.1 (lexOne bol c cs).2.2
  termination_by cs => cs.length
  decreasing_by
    have := lexOne_le bol c cs
    simp only [List.length_cons]; omega

/-- Tokens of a whole file: scanning starts at the beginning of a line. -/
def lexFile (text : List Char) : List Tok := lex true text

end Gr1c
