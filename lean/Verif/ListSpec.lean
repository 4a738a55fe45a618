import Verif.CTextProps
import Verif.Automaton

/-!
# Specification: reading the formats `txt` and `tulip` (C60)
-/

namespace Gr1c

/-! ## Numbers and lines -/

/-- A number after blanks, and what follows it. -/
def blankNum (s : List Char) : Option (ℤ × List Char) :=
  let s1 := s.dropWhile (· == ' ')
  let neg := s1.head? == some '-'
  let s2 := if neg then s1.tail else s1
  let ds := s2.takeWhile isDig
  if ds = [] then none
  else some (if neg then -(Nat.ofDigits 10 (ds.reverse.map digitVal) : ℕ) else (Nat.ofDigits 10 (ds.reverse.map digitVal) : ℕ),
    s2.dropWhile isDig)

/-- The text after a given beginning. -/
def afterLit (lit s : List Char) : Option (List Char) := if lit.isPrefixOf s then some (s.drop lit.length) else none

/-- Numbers separated by commas; at most `fuel` of them. -/
def commaNums : ℕ → List Char → Option (List ℤ × List Char)
  | 0, _ => none
  | fuel + 1, s =>
    match blankNum s with
    | none => none
    | some (v, r) =>
      if r.head? = some ',' then (commaNums fuel r.tail).map fun x => (v :: x.1, x.2) else some ([v], r)

/-- All numbers of a text in which nothing else occurs. -/
def blankNums : ℕ → List Char → Option (List ℤ)
  | 0, _ => none
  | fuel + 1, s =>
    if s.all (· == ' ') then some []
    else
      match blankNum s with
      | none => none
      | some (v, r) => (blankNums fuel r).map (v :: ·)

/-- The lines of a text, each ended by a newline. -/
def cutLines (acc : List Char) : List Char → Option (List (List Char))
  | [] => if acc = [] then some [] else none
  | c :: r => if c = '\n' then (cutLines [] r).map (acc :: ·) else cutLines (acc ++ [c]) r

/-! ## The format `txt` -/

/-- What a line says: number of the node, mark of initial nodes, values, annotation, numbers of successors. -/
structure TxtNode where
  num : ℤ
  initial : Bool
  state : List ℤ
  mode : ℤ
  rgrad : ℤ
  trans : List ℤ
  deriving DecidableEq

/-- The mark of initial nodes, if there. -/
def txtInit (s : List Char) : Bool × List Char :=
  match afterLit "(init) ".toList s with
  | some s' => (true, s')
  | none => (false, s)

/-- The values: `(nil)` or numbers separated by commas. -/
def txtState (s : List Char) : Option (List ℤ × List Char) :=
  match afterLit "(nil)".toList s with
  | some s' => some ([], s')
  | none => commaNums (s.length + 1) s

/-- A line `NUMBER [(init) ]: VALUES - MODE - RGRAD - [SUCCESSORS]`; values are separated by commas, `(nil)` if there are
none. -/
def readTxtNode (s : List Char) : Option TxtNode := do
  let (k, s) ← blankNum s
  let s ← afterLit " ".toList s
  let (ini, s) := txtInit s
  let s ← afterLit ": ".toList s
  let (st, s) ← txtState s
  let s ← afterLit " - ".toList s
  let (m, s) ← blankNum s
  let s ← afterLit " - ".toList s
  let (r, s) ← blankNum s
  let s ← afterLit " - [".toList s
  if s.getLast? = some ']' then
    let ts ← blankNums (s.length + 1) s.dropLast
    some ⟨k, ini, st, m, r, ts⟩
  else none

/-- All lines. -/
def readTxt (s : List Char) : Option (List TxtNode) := do
  let ls ← cutLines [] s
  ls.mapM readTxtNode

/-- The position of the node with the identifier `t`. -/
def IsPos (a : Aut ℤ (List ℤ)) (t : ℕ) (p : ℤ) : Prop := ∃ (j : ℕ) (m : ANode ℤ (List ℤ)), a[j]? = some m ∧ m.id = t ∧ p = j

/-- The lines describe the automaton, node by node. -/
def TxtSays (a : Aut ℤ (List ℤ)) (ls : List TxtNode) : Prop :=
  List.Forall₂ (fun (n : ANode ℤ (List ℤ) × ℕ) (x : TxtNode) => x.num = n.2 ∧ x.initial = n.1.initial ∧ x.state = n.1.state ∧
    x.mode = n.1.mode ∧ x.rgrad = n.1.rgrad ∧ List.Forall₂ (IsPos a) n.1.trans x.trans) a.zipIdx ls


/-! ## XML -/

/-- Pieces of an XML text. -/
inductive XTok where
  | opening (name : List Char) (attrs : List (List Char × List Char))
  | single (name : List Char) (attrs : List (List Char × List Char))
  | closing (name : List Char)
  | text (t : List Char)
  | bad
  deriving DecidableEq

/-- Where the reader is. -/
inductive XmlState where
  /-- Between tags. -/
  | text (t : List Char)
  /-- After `<`. -/
  | tagStart
  /-- In `<? ... ?>`. -/
  | pi
  /-- There, after `?`. -/
  | piEnd
  /-- In the name of a tag. -/
  | name (n : List Char)
  /-- In a tag, before an attribute. -/
  | tag (n : List Char) (as : List (List Char × List Char))
  /-- In the name of an attribute. -/
  | attr (n : List Char) (as : List (List Char × List Char)) (k : List Char)
  /-- After `=`. -/
  | eq (n : List Char) (as : List (List Char × List Char)) (k : List Char)
  /-- In the value of an attribute. -/
  | val (n : List Char) (as : List (List Char × List Char)) (k v : List Char)
  /-- After a value. -/
  | after (n : List Char) (as : List (List Char × List Char))
  /-- After `/` at the end of a tag. -/
  | slash (n : List Char) (as : List (List Char × List Char))
  /-- In the name of a closing tag. -/
  | close (n : List Char)
  /-- Not XML. -/
  | wrong
  deriving DecidableEq

/-- White space of XML. -/
def isXmlBlank (c : Char) : Bool := c == ' ' || c == '\n' || c == '\t' || c == '\r'

/-- Characters of names: letters, digits, `_`, `-`, `.` and `:`. -/
def isXmlName (c : Char) : Bool := c.isAlphanum || c == '_' || c == '-' || c == '.' || c == ':'

/-- One character: the pieces that end with it and the next state. References (`&`) are not read. -/
def xStep : XmlState → Char → List XTok × XmlState
  | .text t, c => if c = '<' then ([.text t], .tagStart) else if c = '&' then ([.bad], .wrong) else ([], .text (t ++ [c]))
  | .tagStart, c =>
    if c = '?' then ([], .pi) else if c = '/' then ([], .close []) else if isXmlName c then ([], .name [c]) else ([.bad], .wrong)
  | .pi, c => if c = '?' then ([], .piEnd) else ([], .pi)
  | .piEnd, c => if c = '>' then ([], .text []) else if c = '?' then ([], .piEnd) else ([], .pi)
  | .name n, c =>
    if c = '>' then ([.opening n []], .text []) else if c = '/' then ([], .slash n [])
    else if isXmlBlank c then ([], .tag n []) else if isXmlName c then ([], .name (n ++ [c])) else ([.bad], .wrong)
  | .tag n as, c =>
    if c = '>' then ([.opening n as], .text []) else if c = '/' then ([], .slash n as)
    else if isXmlBlank c then ([], .tag n as) else if isXmlName c then ([], .attr n as [c]) else ([.bad], .wrong)
  | .attr n as k, c => if c = '=' then ([], .eq n as k) else if isXmlName c then ([], .attr n as (k ++ [c])) else ([.bad], .wrong)
  | .eq n as k, c => if c = '"' then ([], .val n as k []) else ([.bad], .wrong)
  | .val n as k v, c =>
    if c = '"' then ([], .after n (as ++ [(k, v)])) else if c = '<' ∨ c = '&' then ([.bad], .wrong)
    else ([], .val n as k (v ++ [c]))
  | .after n as, c =>
    if c = '>' then ([.opening n as], .text []) else if c = '/' then ([], .slash n as)
    else if isXmlBlank c then ([], .tag n as) else ([.bad], .wrong)
  | .slash n as, c => if c = '>' then ([.single n as], .text []) else ([.bad], .wrong)
  | .close n, c => if c = '>' then ([.closing n], .text []) else if isXmlName c then ([], .close (n ++ [c])) else ([.bad], .wrong)
  | .wrong, _ => ([], .wrong)

/-- The pieces of a text. -/
def xToks (st : XmlState) : List Char → List XTok
  | [] =>
    match st with
    | .text t => [.text t]
    | _ => [.bad]
  | c :: r => (xStep st c).1 ++ xToks (xStep st c).2 r

/-- Elements and texts. -/
inductive XNode where
  | elem (name : List Char) (attrs : List (List Char × List Char)) (kids : List XNode)
  | text (t : List Char)

/-- An element of which the end has not been read: its name, its attributes, what stood before it. -/
abbrev XFrame := List Char × List (List Char × List Char) × List XNode

/-- Elements out of pieces. Opening and closing tags must match; no attribute occurs twice; texts of white space count for
nothing. -/
def xBuild (stack : List XFrame) (kids : List XNode) : List XTok → Option (List XNode)
  | [] => if stack.isEmpty then some kids else none
  | .opening n as :: r => if (as.map Prod.fst).Nodup then xBuild ((n, as, kids) :: stack) [] r else none
  | .single n as :: r => if (as.map Prod.fst).Nodup then xBuild stack (kids ++ [.elem n as []]) r else none
  | .closing n :: r =>
    match stack with
    | [] => none
    | f :: st => if f.1 = n then xBuild st (f.2.2 ++ [.elem n f.2.1 kids]) r else none
  | .text t :: r => if t.all isXmlBlank then xBuild stack kids r else xBuild stack (kids ++ [.text t]) r
  | .bad :: _ => none

/-- A document: one element. -/
def readXml (s : List Char) : Option XNode :=
  match xBuild [] [] (xToks (.text []) s) with
  | some [x] => some x
  | _ => none

/-! ## Documents of the format `tulip` -/

/-- The numbers in the text of an element. -/
def kidNums : List XNode → Option (List ℤ)
  | [] => some []
  | [.text t] => blankNums (t.length + 1) t
  | _ => none

/-- The value of an attribute. -/
def attrOf (k : String) (as : List (List Char × List Char)) : Option (List Char) :=
  (as.find? fun a => a.1 = k.toList).map Prod.snd

/-- A text that is one number. -/
def oneNum (t : List Char) : Option ℤ :=
  match blankNums (t.length + 1) t with
  | some [v] => some v
  | _ => none

/-- A variable with its domain: -1 for `boolean`, `n` for `[0,n]`. -/
def readDomain (t : List Char) : Option ℤ :=
  if t = "boolean".toList then some (-1)
  else
    match (afterLit "[0,".toList t).bind blankNum with
    | some (v, r) => if r = "]".toList ∧ 0 ≤ v then some v else none
    | none => none

/-- `<item key="KEY" value="VALUE" />`, the value read by `f`. -/
def readItem (f : List Char → Option ℤ) : XNode → Option (List Char × ℤ)
  | .elem n as [] => if n = "item".toList then do
      let k ← attrOf "key" as
      let v ← (attrOf "value" as).bind f
      some (k, v)
    else none
  | _ => none

/-- What an element `node` says. -/
structure TulNode where
  num : ℤ
  anno : List ℤ
  trans : List ℤ
  state : List (List Char × ℤ)
  deriving DecidableEq

/-- The children of an element with the given name. -/
def kidsOf (k : String) : XNode → Option (List XNode)
  | .elem n _ ks => if n = k.toList then some ks else none
  | .text _ => none

/-- An element `node` with its `id`, `anno`, `child_list` and `state`. -/
def readTulNode (x : XNode) : Option TulNode :=
  match kidsOf "node" x with
  | some [i, an, ch, st] => do
    let i ← (kidsOf "id" i).bind kidNums
    let an ← (kidsOf "anno" an).bind kidNums
    let ch ← (kidsOf "child_list" ch).bind kidNums
    let st ← (kidsOf "state" st).bind fun ks => ks.mapM (readItem oneNum)
    match i with
    | [k] => some ⟨k, an, ch, st⟩
    | _ => none
  | _ => none

/-- What a document says. -/
structure TulDoc where
  evars : List (List Char × ℤ)
  svars : List (List Char × ℤ)
  nodes : List TulNode
  deriving DecidableEq

/-- A document `tulipcon` with its `env_vars`, `sys_vars`, `spec`, `aut` and `extra`. -/
def readTulip (s : List Char) : Option TulDoc :=
  match (readXml s).bind (kidsOf "tulipcon") with
  | some [e, sy, spec, au, ex] => do
    let e ← (kidsOf "env_vars" e).bind fun ks => ks.mapM (readItem readDomain)
    let sy ← (kidsOf "sys_vars" sy).bind fun ks => ks.mapM (readItem readDomain)
    let _ ← kidsOf "spec" spec
    let au ← (kidsOf "aut" au).bind fun ks => ks.mapM readTulNode
    let _ ← kidsOf "extra" ex
    some ⟨e, sy, au⟩
  | _ => none

/-- The document describes the automaton. Variables are given with their largest value, -1 for Boolean ones; the annotation
is left out if one of its numbers is -1; nothing tells initial nodes. -/
def TulipSays (evars svars : List (List Char × ℤ)) (a : Aut ℤ (List ℤ)) (d : TulDoc) : Prop :=
  d.evars = evars ∧ d.svars = svars ∧
  List.Forall₂ (fun (n : ANode ℤ (List ℤ) × ℕ) (x : TulNode) => x.num = n.2 ∧
    x.anno = (if n.1.mode = -1 ∨ n.1.rgrad = -1 then [] else [n.1.mode, n.1.rgrad]) ∧
    List.Forall₂ (IsPos a) n.1.trans x.trans ∧ x.state = ((evars ++ svars).map Prod.fst).zip n.1.state) a.zipIdx d.nodes

end Gr1c
