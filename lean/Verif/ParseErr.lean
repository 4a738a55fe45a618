import Verif.Parse
import Verif.Print

/-!
# Model of the errors of `yyparse` (`/repo/src/gr1c_scan.l`, `/repo/src/gr1c_parse.y`, `/repo/src/rg_parse.y`)

`Parse` says which token sequences are accepted. Here the parser runs from token to token, so that it is seen where it stops,
with which message, and which line number is in the message.

bison (trusted semantics of a generated LALR(1) parser): a token is shifted as soon as the tokens so far and it begin a sentence;
where only one reduction is possible in a state it is done without asking for the next token being fit for it (default reductions);
a rule's location `@1` is that of its first component, and the last line of a component is the line of its last token; at a syntax
error `yyerror` is called and states are given up until one that takes the token `error`. Only the state after `input` takes it
(`/repo/src/gr1c_parse.y` 65, 140); inside of a formula before the first section that state has not been reached, and the parser ends
without a message of its own. A token number that is not positive is the end of the input.

A token is paired with its line. `yylloc` is 1 at the beginning and `last_line` grows at line ends only (`/repo/src/gr1c_scan.l` 41-46);
comments give their line end back (65-66). A character of more than 7 bits is a sequence of bytes, each of them negative as a `char`.

Simplification: numbers are unbounded, as in `Scan`, so an upper bound is never negative.
-/

namespace Gr1c

/-- `return yytext[0]`, `/repo/src/gr1c_scan.l` 70: the zero byte, or a byte that is negative as a `char`, is the end of the input for
`yyparse`. -/
def endTok : Tok → Bool
  | .chr c => c.toNat == 0 || 128 ≤ c.toNat
  | _ => false

/-- Line after a match that begins with the given character: only the rule for `\n` begins with it, `/repo/src/gr1c_scan.l` 41-46. -/
def nextLine (line : ℕ) (c : Char) : ℕ := if c = '\n' then line + 1 else line

/-- The tokens that `yyparse` gets, each with `yylloc.last_line`, and that number at the end. `/repo/src/gr1c_scan.l` 13, 24-70. -/
def yyToks (bol : Bool) (line : ℕ) : List Char → List (Tok × ℕ) × ℕ
  | [] => ([], line)
  | c :: cs =>
    match (lexOne bol c cs).1 with
    | some t =>
      if endTok t then ([], line)
      else
        let r := yyToks (lexOne bol c cs).2.1 line (lexOne bol c cs).2.2
        ((t, line) :: r.1, r.2)
    | none => yyToks (lexOne bol c cs).2.1 (nextLine line c) (lexOne bol c cs).2.2
  termination_by cs => cs.length
  decreasing_by
    all_goals
      have := lexOne_le bol c cs
      simp only [List.length_cons]; omega

/-- What the actions ask for: names in `spc.evar_list` and `spc.svar_list`, and whether `spc.env_init` and `spc.sys_init` are set. -/
structure PMem where
  names : List Name
  einit : Bool
  sinit : Bool
  deriving DecidableEq

/-- `SPC_INIT`, `/repo/include/common.h` 57-76. -/
def PMem.init : PMem := ⟨[], false, false⟩

/-- Is `spc.env_init`, or `spc.sys_init`, set? -/
def PMem.isSet (m : PMem) (env : Bool) : Bool := if env then m.einit else m.sinit

/-- Set it. -/
def PMem.set (m : PMem) (env : Bool) : PMem := if env then { m with einit := true } else { m with sinit := true }

/-- Add a name. -/
def PMem.declare (m : PMem) (n : Name) : PMem := { m with names := m.names ++ [n] }

/-- Within a formula: an operand is expected, an operand may end or go on after a name or a primed name, a number is expected, an
operand is complete. `/repo/src/gr1c_parse.y` 347-556. -/
inductive FS
  | need | var | prime | cmp | full
  deriving DecidableEq

/-- Where a formula stands: before the first section, in an initial condition whose header was in the given line, among transition
formulas, among goals (`more`: further goals may follow). -/
inductive FCtx
  | lead
  | init (env : Bool) (line : ℕ)
  | trans
  | goal (more : Bool)
  deriving DecidableEq

/-- Within declarations. The first number is the last line of the declarations so far (`@1.last_line`), the second in `id` the line of
the name. `/repo/src/gr1c_parse.y` 143-249. -/
inductive DS
  | names (l : ℕ)
  | id (n : Name) (l l' : ℕ)
  | lb (n : Name) (l : ℕ)
  | low (n : Name) (l : ℕ) (a : ℕ)
  | comma (n : Name) (l : ℕ) (a : ℕ)
  | high (n : Name) (l : ℕ) (a : ℕ)
  deriving DecidableEq

/-- States of the parser: nothing read, after `input`, after the header of a section other than declarations (with its line), in a
formula with a number of open parentheses, in declarations. -/
inductive PS
  | start
  | top
  | head (t : Tok) (l : ℕ)
  | form (c : FCtx) (f : FS) (d : ℕ)
  | decl (s : DS)
  deriving DecidableEq

/-- How `yyparse` fails. The numbers are those printed. -/
inductive PErr
  /-- a syntax error, `/repo/src/gr1c_parse.y` 140 -/
  | syntax (l : ℕ)
  /-- a syntax error where `error` is not possible -/
  | silent
  /-- `/repo/src/gr1c_parse.y` 150-153, 183-186, 204-207, 237-240 -/
  | dupVar (l : ℕ)
  /-- `/repo/src/gr1c_parse.y` 165-169, 219-223 -/
  | lower (l : ℕ)
  /-- `/repo/src/gr1c_parse.y` 71-81, 101-111 -/
  | dupInit (env : Bool) (l : ℕ)
  deriving DecidableEq

/-- Operators between operands, `/repo/src/gr1c_parse.y` 363-374. -/
def isOpTok : Tok → Bool
  | .chr '&' | .chr '|' | .implies | .equiv => true
  | _ => false

/-- The next token after a complete operand. -/
def fullStep (d : ℕ) (t : Tok) : Option (FS × ℕ) :=
  if isOpTok t then some (.need, d)
  else if t = .chr ')' ∧ 0 < d then some (.full, d - 1)
  else none

/-- The next token where an operand is expected. -/
def needStep (d : ℕ) : Tok → Option (FS × ℕ)
  | .tt | .ff => some (.full, d)
  | .ident _ => some (.var, d)
  | .chr '!' => some (.need, d)
  | .chr '(' => some (.need, d + 1)
  | _ => none

/-- The next token within a formula, `none` if the formula cannot go on with it. `/repo/src/gr1c_parse.y` 347-416, 418-556. -/
def fstep (primes : Bool) (f : FS) (d : ℕ) (t : Tok) : Option (FS × ℕ) :=
  match f with
  | .need => needStep d t
  | .var =>
    if primes = true ∧ t = .chr '\'' then some (.prime, d)
    else if (cmpTok t).isSome then some (.cmp, d)
    else fullStep d t
  | .prime => if (cmpTok t).isSome then some (.cmp, d) else fullStep d t
  | .cmp =>
    match t with
    | .num _ => some (.full, d)
    | _ => none
  | .full => fullStep d t

/-- May the operand end here? -/
def FS.ends : FS → Bool
  | .var | .prime | .full => true
  | _ => false

/-- Primed variables occur in transition formulas. -/
def FCtx.primes : FCtx → Bool
  | .trans => true
  | _ => false

/-- A step, or an error. -/
abbrev YStep := Except PErr (PMem × PS)

/-- After `input`, `/repo/src/gr1c_parse.y` 69-141. -/
def topStep (m : PMem) (t : Tok) (l : ℕ) : YStep :=
  if t = .evars ∨ t = .svars then .ok (m, .decl (.names l))
  else if isHeader t then .ok (m, .head t l)
  else .error (.syntax l)

/-- After the header of a section, `/repo/src/gr1c_parse.y` 71-139, `/repo/src/rg_parse.y` 323. -/
def headStep (rg : Bool) (m : PMem) (h : Tok) (lh : ℕ) (t : Tok) (l : ℕ) : YStep :=
  if h = .einit ∨ h = .sinit then
    if t = .chr ';' then if m.isSet (h = .einit) then .error (.dupInit (h = .einit) lh) else .ok (m, .top)
    else
      match needStep 0 t with
      | some (f, d) => .ok (m, .form (.init (h = .einit) lh) f d)
      | none => .error (.syntax l)
  else if t = .chr ';' then .ok (m, .top)
  else if h = .etrans ∨ h = .strans then
    if t = .safe then .ok (m, .form .trans .need 0) else .error (.syntax l)
  else if rg = true ∧ h = .sgoal then
    if t = .ev then .ok (m, .form (.goal false) .need 0) else .error (.syntax l)
  else if t = .live then .ok (m, .form (.goal true) .need 0)
  else .error (.syntax l)

/-- A token after a complete formula that does not belong to it. -/
def endStep (m : PMem) (c : FCtx) (t : Tok) (l : ℕ) : YStep :=
  match c with
  | .lead => topStep m t l
  | .init env lh =>
    if t = .chr ';' then if m.isSet env then .error (.dupInit env lh) else .ok (m.set env, .top)
    else .error (.syntax l)
  | .trans =>
    if t = .chr ';' then .ok (m, .top)
    else if t = .andSafe then .ok (m, .form .trans .need 0)
    else .error (.syntax l)
  | .goal more =>
    if t = .chr ';' then .ok (m, .top)
    else if more = true ∧ t = .andLive then .ok (m, .form (.goal more) .need 0)
    else .error (.syntax l)

/-- A token that a formula which is not complete cannot go on with. -/
def badStep (c : FCtx) (l : ℕ) : PErr := if c = .lead then .silent else .syntax l

/-- Within a formula. -/
def formStep (m : PMem) (c : FCtx) (f : FS) (d : ℕ) (t : Tok) (l : ℕ) : YStep :=
  match fstep c.primes f d t with
  | some (f', d') => .ok (m, .form c f' d')
  | none => if f.ends = true ∧ d = 0 then endStep m c t l else .error (badStep c l)

/-- After complete declarations. -/
def namesStep (m : PMem) (l0 : ℕ) (t : Tok) (l : ℕ) : YStep :=
  match t with
  | .ident n => .ok (m, .decl (.id n l0 l))
  | .chr ';' => .ok (m, .top)
  | _ => .error (.syntax l)

/-- Within declarations, `/repo/src/gr1c_parse.y` 143-249. The rule for a name alone is a default reduction. -/
def declStep (m : PMem) (s : DS) (t : Tok) (l : ℕ) : YStep :=
  match s with
  | .names l0 => namesStep m l0 t l
  | .id n l0 l1 =>
    if t = .chr '[' then .ok (m, .decl (.lb n l0))
    else if n ∈ m.names then .error (.dupVar l0)
    else namesStep (m.declare n) l1 t l
  | .lb n l0 =>
    match t with
    | .num a => .ok (m, .decl (.low n l0 a))
    | _ => .error (.syntax l)
  | .low n l0 a => if t = .chr ',' then .ok (m, .decl (.comma n l0 a)) else .error (.syntax l)
  | .comma n l0 a =>
    match t with
    | .num _ => .ok (m, .decl (.high n l0 a))
    | _ => .error (.syntax l)
  | .high n l0 a =>
    if t = .chr ']' then
      if a ≠ 0 then .error (.lower l0)
      else if n ∈ m.names then .error (.dupVar l0)
      else .ok (m.declare n, .decl (.names l))
    else .error (.syntax l)

/-- One token with its line. -/
def yyStep (rg : Bool) (m : PMem) (st : PS) (t : Tok) (l : ℕ) : YStep :=
  match st with
  | .start =>
    match needStep 0 t with
    | some (f, d) => .ok (m, .form .lead f d)
    | none => topStep m t l
  | .top => topStep m t l
  | .head h lh => headStep rg m h lh t l
  | .form c f d => formStep m c f d t l
  | .decl s => declStep m s t l

/-- The end of the input, in the given line. -/
def yyEnd (m : PMem) (st : PS) (l : ℕ) : Except PErr Unit :=
  match st with
  | .start | .top => .ok ()
  | .head _ _ => .error (.syntax l)
  | .form c f d => if c = .lead then if f.ends = true ∧ d = 0 then .ok () else .error .silent else .error (.syntax l)
  | .decl (.id n l0 _) => if n ∈ m.names then .error (.dupVar l0) else .error (.syntax l)
  | .decl _ => .error (.syntax l)

/-- Many tokens. -/
def yySteps (rg : Bool) (m : PMem) (st : PS) : List (Tok × ℕ) → YStep
  | [] => .ok (m, st)
  | x :: xs =>
    match yyStep rg m st x.1 x.2 with
    | .error e => .error e
    | .ok r => yySteps rg r.1 r.2 xs

/-- `yyparse` on tokens with their lines and the line of the end. -/
def yyRun (rg : Bool) (ts : List (Tok × ℕ)) (l : ℕ) : Except PErr Unit :=
  match yySteps rg .init .start ts with
  | .error e => .error e
  | .ok r => yyEnd r.1 r.2 l

/-- `yyparse` on a text. -/
def yyText (rg : Bool) (text : List Char) : Except PErr Unit := yyRun rg (yyToks true 1 text).1 (yyToks true 1 text).2

/-- What an error writes to standard output, `/repo/src/gr1c_parse.y` 73, 79, 103, 109, 140. -/
def PErr.out : PErr → List Char
  | .syntax l => "Error detected on line ".toList ++ (printInt l ++ ".\n".toList)
  | .dupInit true l => "Error detected on line ".toList ++ (printInt l ++ ".  Duplicate ENVINIT\n".toList)
  | .dupInit false l => "Error detected on line ".toList ++ (printInt l ++ ".  Duplicate SYSINIT.\n".toList)
  | _ => []

/-- What an error writes to standard error, `/repo/src/gr1c_parse.y` 150-152, 165-168, 561-564; the argument of `yyerror` is the
standard one. -/
def PErr.err : PErr → List Char
  | .syntax _ | .silent => "syntax error\n".toList
  | .dupVar l => "Duplicate variable detected on line ".toList ++ (printInt l ++ ".\n".toList)
  | .lower l => "Error detected on line ".toList ++ (printInt l ++ ".  Lower bound must be zero.\n".toList)
  | .dupInit _ _ => []

end Gr1c
