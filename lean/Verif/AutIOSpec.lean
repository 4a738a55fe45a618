import Verif.CTextProps

/-!
# The gr1c automaton format, `/repo/doc/formats.md` 83-128

Written from the documentation and independent of the loader. One deviation: a line that consists of
blanks only is not admitted as a blank line (the loader rejects it), and lines are shorter than 4095
characters.
-/

namespace Gr1c

/-- What a node line says: `i S I m r t0 t1 ...`. -/
structure FileNode where
  id : ℕ
  state : List ℤ
  initial : Bool
  mode : ℤ
  rgrad : ℤ
  trans : List ℕ
  deriving DecidableEq

/-- The numbers of the line of a node: version 1 has the field `I`, version 0 has not. -/
def FileNode.values (ver : ℕ) (r : FileNode) : List ℤ :=
  (r.id : ℤ) :: (r.state ++ ((if ver = 1 then [if r.initial then 1 else 0] else []) ++
    (r.mode :: r.rgrad :: r.trans.map (fun (t : ℕ) => (t : ℤ)))))

/-- The values of a line fit into an `int`, the state has `len` entries, and a version 0 file does not
mark initial nodes. -/
def FileNode.Ok (ver len : ℕ) (r : FileNode) : Prop :=
  r.state.length = len ∧ (ver = 0 → r.initial = false) ∧ ∀ v ∈ r.values ver, -2 ^ 31 ≤ v ∧ v < 2 ^ 31

/-- A text of numbers, each after optional blanks and separated by at least one. -/
inductive Row : List ℤ → List Char → Prop
  | nil (s : List Char) : (∀ c ∈ s, isSpTab c = true) → Row [] s
  | cons (ws w : List Char) (v : ℤ) (vs : List ℤ) (s : List Char) : (∀ c ∈ ws, isSpTab c = true) → IntText w v →
      (∀ c, s.head? = some c → isSpTab c = true) → Row vs s → Row (v :: vs) (ws ++ (w ++ s))

/-- The end of a line: a newline, possibly after a carriage return. -/
def EndLine (e : List Char) : Prop := e = ['\n'] ∨ e = ['\r', '\n']

/-- A comment line or an empty line, with its end. -/
def Ignored (line : List Char) : Prop :=
  line.length < 4096 ∧ (EndLine line ∨ ∃ c, (∀ d ∈ c, d ≠ '\n' ∧ d ≠ Char.ofNat 0) ∧ line = '#' :: (c ++ ['\n']))

/-- A node line, with its end. -/
def NodeLine (ver : ℕ) (r : FileNode) (line : List Char) : Prop :=
  line.length < 4096 ∧ ∃ s e, Row (r.values ver) s ∧ EndLine e ∧ line = s ++ e

/-- A sequence of node lines, in any order of IDs, and ignored lines. -/
inductive NodeLines (ver : ℕ) : List FileNode → List Char → Prop
  | nil : NodeLines ver [] []
  | skip (line s : List Char) (rs : List FileNode) : Ignored line → NodeLines ver rs s → NodeLines ver rs (line ++ s)
  | node (r : FileNode) (line s : List Char) (rs : List FileNode) : NodeLine ver r line → NodeLines ver rs s →
      NodeLines ver (r :: rs) (line ++ s)

/-- A file: ignored lines, the version number on a line of its own (missing: version 0), node lines. -/
inductive AutFile : ℕ → List FileNode → List Char → Prop
  | skip (ver : ℕ) (line s : List Char) (rs : List FileNode) : Ignored line → AutFile ver rs s → AutFile ver rs (line ++ s)
  | version (ver : ℕ) (w e s : List Char) (rs : List FileNode) : IntText w ver → (w ++ e).length < 4096 → EndLine e →
      NodeLines ver rs s → AutFile ver rs (w ++ (e ++ s))
  | legacy (s : List Char) (rs : List FileNode) : NodeLines 0 rs s → AutFile 0 rs s

/-- "The list of IDs is assumed to be tight, meaning if there are N nodes, then the file must contain
indices 0 through N-1 (not necessarily in order)"; edges lead to nodes of the file. -/
def Tight (rs : List FileNode) : Prop :=
  (rs.map FileNode.id).Perm (List.range rs.length) ∧ ∀ r ∈ rs, ∀ t ∈ r.trans, t < rs.length

end Gr1c
