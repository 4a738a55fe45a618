import Verif.Automaton
import Verif.CTextProps

/-!
# Specification: graphs in the language DOT, and drawings of strategies (C59)

After <https://graphviz.org/doc/info/lang.html>. Left out: numerals and HTML strings as names, ports, subgraphs,
undirected graphs, attribute statements, line comments, and lists of attributes with more than one entry.
-/

namespace Gr1c

/-! ## Texts -/

/-- Tokens. -/
inductive DTok
  | word (w : List Char)
  | quoted (w : List Char)
  | arrow
  | lbrace
  | rbrace
  | lbrack
  | rbrack
  | eq
  | semi
  | bad
  deriving DecidableEq

/-- Where the reader is. -/
inductive DState
  | start
  | word (w : List Char)
  | quote (w : List Char)
  | esc (w : List Char)
  | slash
  | comment
  | star
  | minus

def isDotAlpha (c : Char) : Bool := ('a' ≤ c && c ≤ 'z') || ('A' ≤ c && c ≤ 'Z') || c == '_'

def isDotWord (c : Char) : Bool := isDotAlpha c || ('0' ≤ c && c ≤ '9')

/-- A character between tokens. -/
def dotStart (c : Char) : List DTok × DState :=
  if c = ' ' ∨ c = '\n' ∨ c = '\t' ∨ c = '\r' then ([], .start)
  else if c = '{' then ([.lbrace], .start)
  else if c = '}' then ([.rbrace], .start)
  else if c = '[' then ([.lbrack], .start)
  else if c = ']' then ([.rbrack], .start)
  else if c = '=' then ([.eq], .start)
  else if c = ';' then ([.semi], .start)
  else if c = '"' then ([], .quote [])
  else if c = '/' then ([], .slash)
  else if c = '-' then ([], .minus)
  else if isDotAlpha c then ([], .word [c])
  else ([.bad], .start)

/-- One character. In a quoted string `\"` stands for a quote, a backslash before the end of a line joins lines, and
any other backslash is kept. -/
def dotStep : DState → Char → List DTok × DState
  | .start, c => dotStart c
  | .word w, c => if isDotWord c then ([], .word (w ++ [c])) else (.word w :: (dotStart c).1, (dotStart c).2)
  | .quote w, c => if c = '"' then ([.quoted w], .start) else if c = '\\' then ([], .esc w) else ([], .quote (w ++ [c]))
  | .esc w, c => if c = '"' then ([], .quote (w ++ [c])) else if c = '\n' then ([], .quote w) else ([], .quote (w ++ ['\\', c]))
  | .slash, c => if c = '*' then ([], .comment) else ([.bad], .start)
  | .comment, c => if c = '*' then ([], .star) else ([], .comment)
  | .star, c => if c = '/' then ([], .start) else if c = '*' then ([], .star) else ([], .comment)
  | .minus, c => if c = '>' then ([.arrow], .start) else ([.bad], .start)

/-- The tokens of a text. -/
def dotToks : DState → List Char → List DTok
  | .start, [] => []
  | .word w, [] => [.word w]
  | _, [] => [.bad]
  | st, c :: r => (dotStep st c).1 ++ dotToks (dotStep st c).2 r

/-- Names: strings in quotes, or words other than keywords. -/
def DTok.name? : DTok → Option (List Char)
  | .quoted w => some w
  | .word w =>
    if w.map Char.toLower ∈ ["node", "edge", "graph", "digraph", "subgraph", "strict"].map String.toList then none else some w
  | _ => none

/-- Statements, with their attributes. -/
inductive DStmt
  | node (x : List Char) (attrs : List (List Char × List Char))
  | edge (x y : List Char) (attrs : List (List Char × List Char))
  deriving DecidableEq

/-- An optional list of attributes. -/
def readAttrs : List DTok → Option (List (List Char × List Char) × List DTok)
  | .lbrack :: k :: .eq :: v :: .rbrack :: r =>
    match k.name?, v.name? with
    | some k, some v => some ([(k, v)], r)
    | _, _ => none
  | .lbrack :: _ => none
  | r => some ([], r)

/-- Statements up to the closing brace; at most `fuel` of them. -/
def readStmts : ℕ → List DTok → Option (List DStmt)
  | 0, _ => none
  | fuel + 1, ts =>
    if ts = [.rbrace] then some []
    else
      match ts with
      | [] => none
      | t :: r =>
        if t = .semi then readStmts fuel r
        else
          match t.name? with
          | none => none
          | some x =>
            match r with
            | .arrow :: u :: r' =>
              match u.name?, readAttrs r' with
              | some y, some (as, r'') => (readStmts fuel r'').map (DStmt.edge x y as :: ·)
              | _, _ => none
            | _ =>
              match readAttrs r with
              | some (as, r') => (readStmts fuel r').map (DStmt.node x as :: ·)
              | none => none

/-- The statements of a text `digraph NAME { … }`. -/
def readDot (s : List Char) : Option (List DStmt) :=
  match dotToks .start s with
  | .word w :: x :: .lbrace :: r =>
    if w.map Char.toLower = "digraph".toList ∧ x.name? ≠ none then readStmts (r.length + 1) r else none
  | _ => none

/-! ## Graphs -/

/-- The nodes of a graph: all names that occur. -/
def DStmt.names : DStmt → List (List Char)
  | .node x _ => [x]
  | .edge x y _ => [x, y]

/-- The edges of a graph with their attributes. -/
def DStmt.edge? : DStmt → Option (List Char × List Char × List (List Char × List Char))
  | .node _ _ => none
  | .edge x y as => some (x, y, as)

/-! ## Drawings of strategies -/

/-- Shown values: `name=value`, or in the binary form the names of variables that are not zero. -/
def shownVals (bin : Bool) (vs : List (List Char × ℤ)) : List (List Char) :=
  if bin then (vs.filter fun v => v.2 ≠ 0).map Prod.fst else vs.map fun v => v.1 ++ '=' :: printInt v.2

/-- Separated by commas; `{}` if there are none. -/
def braced (l : List (List Char)) : List Char := if l = [] then "{}".toList else (", ".toList).intercalate l

/-- The text that stands for a node: number, annotation and values. `\n` is DOT's sign for a new line. -/
def nodeLabel (bin input attrib : Bool) (enames snames : List (List Char)) (k : ℕ) (n : ANode ℤ (List ℤ)) : List Char :=
  decimal k ++ ";\\n".toList ++
  (if attrib then "(".toList ++ printInt n.mode ++ ", ".toList ++ printInt n.rgrad ++ ")\\n".toList else []) ++
  braced (shownVals bin (if input then snames.zip (n.state.drop enames.length) else (enames ++ snames).zip n.state))

/-- The attributes of an edge: with `input`, the values of the environment in the target. -/
def edgeAttrs (bin input : Bool) (enames : List (List Char)) (n : ANode ℤ (List ℤ)) : List (List Char × List Char) :=
  if input then [("label".toList, braced (shownVals bin (enames.zip n.state)))] else []

/-- The statements draw the automaton: the nodes of the graph are the nodes of the automaton and one with an empty
name, the edges are those of the automaton and one from the empty name to each initial node. -/
structure Draws (bin input attrib : Bool) (enames snames : List (List Char)) (a : Aut ℤ (List ℤ)) (g : List DStmt) : Prop where
  nodes : ∀ x, (∃ s ∈ g, x ∈ s.names) ↔ x = [] ∨ ∃ k n, a[k]? = some n ∧ x = nodeLabel bin input attrib enames snames k n
  edges : (g.filterMap DStmt.edge?).Perm
    (((a.zipIdx.filter fun n => n.1.initial).map fun n =>
      (([], nodeLabel bin input attrib enames snames n.2 n.1, []) : List Char × List Char × List (List Char × List Char))) ++
    a.zipIdx.flatMap fun n => n.1.trans.flatMap fun t => (a.zipIdx.filter fun m => m.1.id = t).map fun m =>
      ((nodeLabel bin input attrib enames snames n.2 n.1, nodeLabel bin input attrib enames snames m.2 m.1,
        edgeAttrs bin input enames m.1) : List Char × List Char × List (List Char × List Char)))

end Gr1c
