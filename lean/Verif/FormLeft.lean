import Verif.PatchMain

/-!
# Model of `-f` with a formula that the parser refuses (`/repo/exp/grpatch.c` 279-313, `/repo/src/gr1c_parse.y` 347-443)

`gr1c-patch` does not look at the result of `yyparse` for the formula of `-f`. After a syntax error, `gen_tree_ptr` is what the actions
have made of it so far. The parser that bison generates does all default reductions before it finds an error: after a complete operand
every pending operator up to the innermost open parenthesis is reduced. Texts with headers of sections are left to `pgForm`.
-/

namespace Gr1c

/-- Within a formula without primes: an operand is expected, after a name, after a comparison sign, an operand is complete.
`/repo/src/gr1c_parse.y` 347-429. -/
inductive LeftSt
  | need
  | var (n : Name)
  | cmp (ty : PTy) (n : Name)
  | full
  deriving DecidableEq

/-- A token after a complete operand: the stack and `gen_tree_ptr` afterwards, or `gen_tree_ptr` at a syntax error. The reduction of
`input: propformula` (66) has no action. `/repo/src/gr1c_parse.y` 52-67, 360-374. -/
def fullLeft (st : List Sym) (g : PTree) (t : Tok) : Except PTree (LeftSt × List Sym × PTree) :=
  match plainETok t with
  | some (.op o) => .ok (.need, .bin o :: (reduceTo o.lv st g).1, (reduceTo o.lv st g).2)
  | some .rp =>
    match reduceTo 0 st g with
    | (.lp :: st', g') => .ok (.full, st', g')
    | (_, g') => .error g'
  | _ => .error (reduceTo 0 st g).2

/-- A token where an operand is expected; there are no default reductions. `/repo/src/gr1c_parse.y` 347-362, 429. -/
def needLeft (st : List Sym) (g : PTree) : Tok → Except PTree (LeftSt × List Sym × PTree)
  | .tt => .ok (.full, st, pushAtom g (.const 1))
  | .ff => .ok (.full, st, pushAtom g (.const 0))
  | .ident n => .ok (.var n, st, g)
  | .chr '!' => .ok (.need, .neg :: st, g)
  | .chr '(' => .ok (.need, .lp :: st, g)
  | _ => .error g

/-- A token after a name: a comparison sign is shifted, otherwise `VARIABLE` is reduced (default reduction).
`/repo/src/gr1c_parse.y` 355-359, 375-428. -/
def varLeft (n : Name) (st : List Sym) (g : PTree) (t : Tok) : Except PTree (LeftSt × List Sym × PTree) :=
  match cmpTok t with
  | some ty => .ok (.cmp ty n, st, g)
  | none => fullLeft st (pushAtom g (.var false n)) t

/-- A token after a comparison sign. `/repo/src/gr1c_parse.y` 375-428. -/
def cmpLeft (ty : PTy) (n : Name) (st : List Sym) (g : PTree) : Tok → Except PTree (LeftSt × List Sym × PTree)
  | .num k => .ok (.full, st, pushAtom g (.cmp ty false n k))
  | _ => .error g

/-- One token of a formula. -/
def leftStep : LeftSt → List Sym → PTree → Tok → Except PTree (LeftSt × List Sym × PTree)
  | .need, st, g, t => needLeft st g t
  | .var n, st, g, t => varLeft n st g t
  | .cmp ty n, st, g, t => cmpLeft ty n st g t
  | .full, st, g, t => fullLeft st g t

/-- The end of the text. -/
def leftEnd : LeftSt → List Sym → PTree → PTree
  | .need, _, g => g
  | .var n, st, g => (reduceTo 0 st (pushAtom g (.var false n))).2
  | .cmp _ _, _, g => g
  | .full, st, g => (reduceTo 0 st g).2

/-- `gen_tree_ptr` after `yyparse`, whatever it returns. -/
def genLeft : LeftSt → List Sym → PTree → List Tok → PTree
  | s, st, g, [] => leftEnd s st g
  | s, st, g, t :: ts =>
    match leftStep s st g t with
    | .error g' => g'
    | .ok (s', st', g') => genLeft s' st' g' ts

/-- The formula of `-f`, `/repo/exp/grpatch.c` 279-301. `none`: a syntax error in a text with sections. -/
def pgFormAny (c : PgCfg) : Option PTree :=
  match c.form with
  | none => some .nil
  | some x => if (lexFile (x ++ ['\n'])).any isHeader then pgForm c else some (genLeft .need [] .nil (lexFile (x ++ ['\n'])))

/-- `pgRun` with any formula, `/repo/exp/grpatch.c` 338-711. -/
def pgRunAny (w : PatchWorld) (c : PgCfg) (f : Arg) (p : PState) : MainRes :=
  if checkGr1cForm p.ev p.sv .undefined p.sp < 0 then .exit 2 none       -- 338-343
  else
    match pgFormAny c with
    | none => .unmodelled
    | some form =>
      if (checkVars (chainVars p.sv p.ev) .nil form).isSome then .exit 1 none    -- 357-360
      else pgExpand w c p form f

/-- The main function of `gr1c-patch` with any formula, `/repo/exp/grpatch.c` 50-731. -/
def patchMainAny (w : PatchWorld) (args : List Arg) : MainRes :=
  match pgOptLoop true {} args with
  | .usage => .exit 1 none
  | .version => .exit 0 none
  | .ub => .ub
  | .go c =>
    match pgCheck c, c.aut with
    | some s, _ => .exit s none
    | none, none => .ub
    | none, some f =>
      match w.source c.input with
      | none => .exit (-1) none                                   -- 317-320
      | some text =>
        match parseFile false text with
        | none => .exit 2 none                                    -- 333-334
        | some p => pgRunAny w c f p

end Gr1c
