import Verif.Scan
import Verif.Expand

/-!
# Model of the parser (`/repo/src/gr1c_parse.y`, `/repo/src/rg_parse.y`)

The parser that bison generates is modelled for formulas as the shift/reduce machine that the grammar
rules and the precedence declarations (52-60) determine: on an operator, a rule whose operator is on the
same or a higher level is reduced first (all levels are declared `%left`), otherwise the operator is
shifted. The semantic actions work on `gen_tree_ptr` with `pusht_terminal` and `pusht_operator`, as in the
code. The comparison and primed-variable rules consist of terminals only, so they are recognized by
`atomAfter` in one step.

Sections are separated by `;`, which occurs in no formula and no declaration, so a file is first cut at
the semicolons. Any syntax error makes `yyparse` fail (rule `exp: error`, 140), here `none`.
-/

namespace Gr1c

/-! ## Formulas -/

/-- Binary Boolean operators. -/
inductive BOp
  | and | or | imp | equiv
  deriving DecidableEq, Repr

/-- Node type pushed for an operator, `/repo/src/gr1c_parse.y` 363-374, 447-458. -/
def BOp.ty : BOp → PTy
  | .and => .and | .or => .or | .imp => .imp | .equiv => .equiv

/-- Precedence of an operator, `/repo/src/gr1c_parse.y` 52-60: later declarations bind tighter. -/
def BOp.lv : BOp → ℕ
  | .equiv => 0 | .imp => 1 | .and => 2 | .or => 2

/-- What a VARIABLE token and the tokens after it reduce to, and the constants. -/
inductive Atom
  | const (v : ℤ)
  | var (nx : Bool) (n : Name)
  | cmp (ty : PTy) (nx : Bool) (n : Name) (k : ℤ)
  deriving DecidableEq, Repr

/-- Tokens of a formula with atoms recognized. -/
inductive ETok
  | lp | rp | neg
  | op (o : BOp)
  | atom (a : Atom)
  deriving DecidableEq, Repr

/-- Comparison operators, `/repo/src/gr1c_parse.y` 375-422, 459-554. -/
def cmpTok : Tok → Option PTy
  | .chr '=' => some .eq
  | .chr '<' => some .lt
  | .chr '>' => some .gt
  | .le => some .le
  | .ge => some .ge
  | .ne => some .noteq
  | _ => none

/-- Terminals after `VARIABLE` or `VARIABLE '\''`: with a comparison or without, and the tokens left.
`/repo/src/gr1c_parse.y` 375-422, 459-554. -/
def cmpAfter (nx : Bool) (n : Name) : List Tok → Atom × List Tok
  | t :: .num k :: ts =>
    match cmpTok t with
    | some ty => (.cmp ty nx n k, ts)
    | none => (.var nx n, t :: .num k :: ts)
  | ts => (.var nx n, ts)

/-- Terminals after `VARIABLE`; `primes` tells whether the formula may have primed variables
(`tpropformula`). `/repo/src/gr1c_parse.y` 355-359, 375-422, 434-443, 459-554. -/
def atomAfter (primes : Bool) (n : Name) : List Tok → Atom × List Tok
  | .chr '\'' :: ts => if primes then cmpAfter true n ts else (.var false n, .chr '\'' :: ts)
  | ts => cmpAfter false n ts

/-- Tokens of formulas other than VARIABLE. -/
def plainETok : Tok → Option ETok
  | .tt => some (.atom (.const 1))
  | .ff => some (.atom (.const 0))
  | .chr '(' => some .lp
  | .chr ')' => some .rp
  | .chr '!' => some .neg
  | .chr '&' => some (.op .and)
  | .chr '|' => some (.op .or)
  | .implies => some (.op .imp)
  | .equiv => some (.op .equiv)
  | _ => none

theorem cmpAfter_le (nx : Bool) (n : Name) (ts : List Tok) : (cmpAfter nx n ts).2.length ≤ ts.length := by
  unfold cmpAfter
  split
  · split
    · simp; omega
    · exact Nat.le_refl _
  · exact Nat.le_refl _

theorem atomAfter_le (pr : Bool) (n : Name) (ts : List Tok) : (atomAfter pr n ts).2.length ≤ ts.length := by
  unfold atomAfter
  split
  · split
    · exact (cmpAfter_le _ _ _).trans (by simp)
    · exact Nat.le_refl _
  · exact cmpAfter_le _ _ _

/-- Recognition of atoms in a token sequence; `none`: a token that no formula contains. -/
def groupAtoms (primes : Bool) : List Tok → Option (List ETok)
  | [] => some []
  | .ident n :: ts =>
    (groupAtoms primes (atomAfter primes n ts).2).map (ETok.atom (atomAfter primes n ts).1 :: ·)
  | t :: ts =>
    match plainETok t with
    | some e => (groupAtoms primes ts).map (e :: ·)
    | none => none
  termination_by ts => ts.length
  decreasing_by
    all_goals simp only [List.length_cons]
    · have := atomAfter_le primes n ts; omega
    · omega

/-- Semantic actions for an atom, `/repo/src/gr1c_parse.y` 347-359, 375-443, 459-554. -/
def pushAtom (g : PTree) : Atom → PTree
  | .const v => pushtTerminal g .const none v
  | .var nx n => pushtTerminal g (if nx then .next else .var) (some n) 0
  | .cmp ty nx n k =>
    pushtOperator (pushtTerminal (pushtTerminal g (if nx then .next else .var) (some n) 0) .const none k) ty

/-- Symbols waiting on the parser's stack: an opening parenthesis, a negation, or a binary operator whose
left operand has been reduced. -/
inductive Sym
  | lp | neg
  | bin (o : BOp)
  deriving DecidableEq, Repr

/-- Reductions before an operator of level `j` (0: before `)` or the end): negations, and binary operators
of at least that level, since all levels are left-associative. `/repo/src/gr1c_parse.y` 52-60, 360-374,
444-458. -/
def reduceTo (j : ℕ) : List Sym → PTree → List Sym × PTree
  | .neg :: st, g => reduceTo j st (pushtOperator g .neg)
  | .bin o :: st, g => if j ≤ o.lv then reduceTo j st (pushtOperator g o.ty) else (.bin o :: st, g)
  | st, g => (st, g)

/-- The shift/reduce machine for formulas: whether an operand is expected, the stack, `gen_tree_ptr` and
the tokens left. `/repo/src/gr1c_parse.y` 347-556. -/
def runFormula : Bool → List Sym → PTree → List ETok → Option PTree
  | true, st, g, .lp :: ts => runFormula true (.lp :: st) g ts
  | true, st, g, .neg :: ts => runFormula true (.neg :: st) g ts
  | true, st, g, .atom a :: ts => runFormula false st (pushAtom g a) ts
  | true, _, _, _ => none
  | false, st, g, [] =>
    match reduceTo 0 st g with
    | ([], g') => some g'
    | _ => none
  | false, st, g, .op o :: ts =>
    runFormula true (.bin o :: (reduceTo o.lv st g).1) (reduceTo o.lv st g).2 ts
  | false, st, g, .rp :: ts =>
    match reduceTo 0 st g with
    | (.lp :: st', g') => runFormula false st' g' ts
    | _ => none
  | false, _, _, _ => none

/-- Parse a `propformula` or, with `primes`, a `tpropformula`: the value of `gen_tree_ptr` afterwards if it
was `g` before. `/repo/src/gr1c_parse.y` 347-556. -/
def parseFormula (primes : Bool) (g : PTree) (ts : List Tok) : Option PTree :=
  match groupAtoms primes ts with
  | none => none
  | some es => runFormula true [] g es

/-! ## Files -/

/-- Cut a list at the elements equal to `sep`; there is one piece more than there are such elements. -/
def splitOn (sep : Tok) : List Tok → List (List Tok)
  | [] => [[]]
  | t :: ts =>
    if t = sep then [] :: splitOn sep ts
    else
      match splitOn sep ts with
      | [] => [[t]]
      | p :: ps => (t :: p) :: ps

/-- What the parser has collected: variable lists, formulas, and `gen_tree_ptr`. -/
structure PState where
  ev : PTree
  sv : PTree
  sp : TSpec
  gen : PTree
  deriving DecidableEq

/-- `SPC_INIT` and a NULL `gen_tree_ptr`, `/repo/include/common.h` 57-76, `/repo/src/gr1c_parse.y` 17-20. -/
def PState.init : PState := ⟨.nil, .nil, ⟨.nil, .nil, [], [], [], []⟩, .nil⟩

/-- Add a declared variable to the list `mine`, unless its name is in a list already.
`/repo/src/gr1c_parse.y` 144-162, 177-193 (198-216, 231-247 for system variables). The two calls of
`find_list_item` on the same list are one. -/
def declare (mine : PTree) (ev sv : PTree) (n : Name) (v : ℤ) : Option PTree :=
  if (ev ≠ .nil ∧ findListItem ev .var (some n) v ≠ -1) ∨ (sv ≠ .nil ∧ findListItem sv .var (some n) v ≠ -1) then
    none
  else if mine = .nil then some (initPtree .var (some n) v)
  else some (appendListItem mine .var (some n) v)

/-- Declarations of environment (`env`) or system variables, `/repo/src/gr1c_parse.y` 143-249. The token
NUMBER is never negative, so the check at 170-176 is not needed. -/
def parseDecls (env : Bool) : List Tok → PTree → PTree → Option (PTree × PTree)
  | [], ev, sv => some (ev, sv)
  | .ident n :: .chr '[' :: .num a :: .chr ',' :: .num b :: .chr ']' :: ts, ev, sv =>
    if a ≠ 0 then none
    else
      match declare (if env then ev else sv) ev sv n b with
      | none => none
      | some l => if env then parseDecls env ts l sv else parseDecls env ts ev l
  | .ident n :: ts, ev, sv =>
    match declare (if env then ev else sv) ev sv n (-1) with
    | none => none
    | some l => if env then parseDecls env ts l sv else parseDecls env ts ev l
  | _ :: _, _, _ => none

/-- The formulas of a section, one after the other; `gen_tree_ptr` is NULL after each.
`/repo/src/gr1c_parse.y` 251-345. -/
def parsePieces (primes : Bool) (g : PTree) : List (List Tok) → Option (List PTree)
  | [] => some []
  | p :: ps =>
    match parseFormula primes g p, parsePieces primes .nil ps with
    | some t, some ts => some (t :: ts)
    | _, _ => none

/-- `ENVINIT` or `SYSINIT`, given the formula so far: it and `gen_tree_ptr` afterwards.
`/repo/src/gr1c_parse.y` 71-86, 101-116. -/
def parseInit (cur g : PTree) (body : List Tok) : Option (PTree × PTree) :=
  if body = [] then if cur ≠ .nil then none else some (cur, g)
  else
    match parseFormula false g body with
    | none => none
    | some t => if cur ≠ .nil then none else some (t, .nil)

/-- `ENVTRANS` or `SYSTRANS`, given the formulas so far. `/repo/src/gr1c_parse.y` 87-98, 117-128, 251-297. -/
def parseTrans (cur : List PTree) (g : PTree) (body : List Tok) : Option (List PTree × PTree) :=
  match body with
  | [] => some (if cur = [] then [initPtree .const none 1] else cur, g)
  | .safe :: ts => (parsePieces true g (splitOn .andSafe ts)).map fun l => (cur ++ l, .nil)
  | _ => none

/-- `ENVGOAL` or, if `sys`, `SYSGOAL`, given the formulas so far. `/repo/src/gr1c_parse.y` 99-100, 129-139,
299-345; with `rg`, the rule of `/repo/src/rg_parse.y` 323-334 for a single `<>`. -/
def parseGoal (rg sys : Bool) (cur : List PTree) (g : PTree) (body : List Tok) : Option (List PTree × PTree) :=
  match body with
  | [] => some (if sys then [initPtree .const none 1] else cur, g)
  | .live :: ts =>
    if rg && sys then none
    else (parsePieces false g (splitOn .andLive ts)).map fun l => (cur ++ l, .nil)
  | .ev :: ts =>
    if rg && sys then (parseFormula false g ts).map fun t => (cur ++ [t], .nil)
    else none
  | _ => none

/-- One section without its semicolon, `/repo/src/gr1c_parse.y` 69-141. -/
def parseSection (rg : Bool) (s : PState) : List Tok → Option PState
  | .evars :: body => (parseDecls true body s.ev s.sv).map fun p => { s with ev := p.1, sv := p.2 }
  | .svars :: body => (parseDecls false body s.ev s.sv).map fun p => { s with ev := p.1, sv := p.2 }
  | .einit :: body =>
    (parseInit s.sp.einit s.gen body).map fun p => { s with sp := { s.sp with einit := p.1 }, gen := p.2 }
  | .sinit :: body =>
    (parseInit s.sp.sinit s.gen body).map fun p => { s with sp := { s.sp with sinit := p.1 }, gen := p.2 }
  | .etrans :: body =>
    (parseTrans s.sp.etrans s.gen body).map fun p => { s with sp := { s.sp with etrans := p.1 }, gen := p.2 }
  | .strans :: body =>
    (parseTrans s.sp.strans s.gen body).map fun p => { s with sp := { s.sp with strans := p.1 }, gen := p.2 }
  | .egoal :: body =>
    (parseGoal rg false s.sp.egoals s.gen body).map fun p =>
      { s with sp := { s.sp with egoals := p.1 }, gen := p.2 }
  | .sgoal :: body =>
    (parseGoal rg true s.sp.sgoals s.gen body).map fun p =>
      { s with sp := { s.sp with sgoals := p.1 }, gen := p.2 }
  | _ => none

/-- The sections of a file: after the last semicolon nothing may follow. `/repo/src/gr1c_parse.y` 64-67. -/
def parseSections (rg : Bool) : PState → List (List Tok) → Option PState
  | s, [] => some s
  | s, [p] => if p = [] then some s else none
  | s, p :: q :: ps =>
    match parseSection rg s p with
    | none => none
    | some s' => parseSections rg s' (q :: ps)

/-- Section headers. -/
def isHeader : Tok → Bool
  | .evars | .svars | .einit | .etrans | .egoal | .sinit | .strans | .sgoal => true
  | _ => false

/-- `yyparse` on a token sequence: a formula may stand before the first section
(`/repo/src/gr1c_parse.y` 66); its tree stays in `gen_tree_ptr`. -/
def parseToks (rg : Bool) (ts : List Tok) : Option PState :=
  let lead := ts.takeWhile fun t => !isHeader t
  let rest := ts.dropWhile fun t => !isHeader t
  if lead = [] then parseSections rg PState.init (splitOn (.chr ';') rest)
  else
    match parseFormula false .nil lead with
    | none => none
    | some g => parseSections rg { PState.init with gen := g } (splitOn (.chr ';') rest)

/-- Scan and parse a specification file. -/
def parseFile (rg : Bool) (text : List Char) : Option PState := parseToks rg (lexFile text)

end Gr1c
