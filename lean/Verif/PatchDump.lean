import Verif.PtDumpProps
import Verif.PatchMainEx

/-!
# `gr1c-patch -p` from the command line (C70)
-/

namespace Gr1c

/-- The drawing of the formula of `-f`, `/repo/exp/grpatch.c` 303-304. -/
def pgFormFile (addr : ℕ → List Bool → ℕ) (c : PgCfg) (form : PTree) : List (List Char × List Char) :=
  if c.form.isSome ∧ c.ptdump = true then [("clformula_ptree.dot".toList, treeDotDump (addr 0) form)] else []

/-- What `-p` does in a call of `gr1c-patch`, `/repo/exp/grpatch.c` 50-493, if all files can be written. The formula is drawn before the
specification is read. `none`: a formula with a syntax error (see `pgForm`). -/
def pgDump (w : PatchWorld) (addr : ℕ → List Bool → ℕ) (stamp : Option (List Char)) (args : List Arg) (σ : LogSt) : Option PtDump :=
  match pgOptLoop true {} args with
  | .go c =>
    if (pgCheck c).isSome then some ⟨[], .ok σ⟩
    else (pgForm c).map fun form =>
      (((w.source c.input).bind fun text => (parseFile false text).bind fun p => pgPtDump addr stamp c p σ).getD
        ⟨pgFormFile addr c form, .ok σ⟩)
  | _ => some ⟨[], .ok σ⟩

/-- Specification: the formula given with `-f`, if there is one. -/
def PgFormula (os : List PgItem) (f : Option Arg) (φ : Option Fm) : Prop :=
  ((pgMeaning os f).form = none ∧ φ = none) ∨ ∃ x g, (pgMeaning os f).form = some x ∧ φ = some g ∧ FormSays x g

theorem PgFormula.tree {os : List PgItem} {f : Option Arg} {φ : Option Fm} (hf : PgFormula os f φ) :
    pgForm (pgMeaning os f) = some (optTree φ) := by
  rcases hf with ⟨e1, rfl⟩ | ⟨x, g, e1, rfl, e3⟩
  · exact pgForm_none e1
  · exact pgForm_some e1 e3

theorem pgDump_called {w : PatchWorld} {args : List Arg} {os : List PgItem} {f : Option Arg} {d : FileData} {text : List Char}
    (h : PgCalled w args os f d text) {φ : Option Fm} (hf : PgFormula os f φ) (addr : ℕ → List Bool → ℕ) (stamp : Option (List Char))
    (σ : LogSt) :
    pgDump w addr stamp args σ = some ((pgPtDump addr stamp (pgMeaning os f) d.toP σ).getD
      ⟨pgFormFile addr (pgMeaning os f) (optTree φ), .ok σ⟩) := by
  obtain ⟨fa, a1, a2, a3⟩ := h.aut
  obtain ⟨t, t1, t2⟩ := h.spec
  unfold pgDump
  rw [pg_cli h.line]
  have h1 := pgCheck_ok h.noHelp h.patches h.one a1 a3
  have h2 : w.toWorld.source (pgMeaning os f).input = some t := t1.source
  simp only [h1, Option.isSome_none, Bool.false_eq_true, if_false, h2, Option.bind_some, t2.parsed.1, hf.tree, Option.map_some]

/-- **C70.** A call of `gr1c-patch` with `-p` on a well-scoped specification, with a formula (if one is given with `-f`) over current values
of declared variables: every part of the specification is drawn in a file of its own, and so is the formula; variables with their indices
and the lines of `print_GR1_spec` are written to the screen. What is wrong is the domain of Boolean variables in the list
(`patch_echo_domains`). -/
theorem dump_patch_cli_partial {w : PatchWorld} {args : List Arg} {os : List PgItem} {f : Option Arg} {d : FileData} {text : List Char}
    (h : PgCalled w args os f d text) (hp : PgItem.ptdump ∈ os) (hs : WellScoped d.evars d.svars .undefined d.sp) {φ : Option Fm}
    (hf : PgFormula os f φ) (hv : ∀ g, φ = some g → Scoped ((d.evars ++ d.svars).map Prod.fst) [] g) {addr : ℕ → List Bool → ℕ}
    (ha : NodesApart addr (("clformula_ptree.dot".toList, optTree φ) :: dumpCalls false (filledSpec d.sp).toT))
    (stamp : Option (List Char)) {σ : LogSt} (hσ : 0 ∈ σ.live) :
    ∃ D rest τ, pgDump w addr stamp args σ = some D ∧ DumpsParts false (filledSpec d.sp) rest ∧
      (φ = none → D.files = rest) ∧
      (∀ g, φ = some g → ∃ x G name, D.files = ("clformula_ptree.dot".toList, x) :: rest ∧ readDot x = some G ∧
        DrawsTree (addr 0) g.toTree G name) ∧
      D.out = .ok τ ∧
      τ.text = (σ.more 0 (listingBy 0 d.evars d.svars ++ formulaLines d.evars d.svars (filledSpec d.sp))).text := by
  obtain ⟨t, t1, t2⟩ := h.spec
  have hform := hf.tree
  obtain ⟨x, G, name, rest, τ, D, d1, d2, d3, d4, d5, d6, d7⟩ :=
    dump_patch_partial (c := pgMeaning os f) (by simp [pgMeaning, hp]) hs t2.plain hform hv ha stamp hσ
  refine ⟨D, rest, τ, by rw [pgDump_called h hf, d1]; rfl, d2, ?_, ?_, d6, d7⟩
  · rintro rfl
    rcases hf with ⟨e1, -⟩ | ⟨x, g, -, e2, -⟩
    · rw [d5, if_pos e1, List.nil_append]
    · cases e2
  · rintro g rfl
    rcases hf with ⟨-, e2⟩ | ⟨y, g', e1, -, -⟩
    · cases e2
    · exact ⟨x, G, name, by rw [d5, if_neg (by rw [e1]; simp), List.cons_append, List.nil_append], d3, d4⟩

/-- **C70.** Without `-p` no file is written and nothing is echoed. If the specification is not well scoped, or if the formula has a
variable that is not declared or primed, nothing is echoed and no part of the specification is drawn; but a formula is drawn. -/
theorem dump_patch_not {w : PatchWorld} {args : List Arg} {os : List PgItem} {f : Option Arg} {d : FileData} {text : List Char}
    (h : PgCalled w args os f d text) {φ : Option Fm} (hf : PgFormula os f φ) (addr : ℕ → List Bool → ℕ) (stamp : Option (List Char))
    (σ : LogSt) :
    (PgItem.ptdump ∉ os → pgDump w addr stamp args σ = some ⟨[], .ok σ⟩) ∧
    (¬ WellScoped d.evars d.svars .undefined d.sp ∨ (∃ g, φ = some g ∧ ¬ Scoped ((d.evars ++ d.svars).map Prod.fst) [] g) →
      ∃ D, pgDump w addr stamp args σ = some D ∧ D.out = .ok σ ∧ (∀ x ∈ D.files, x.1 = "clformula_ptree.dot".toList ∧ φ ≠ none) ∧
        (PgItem.ptdump ∈ os → φ ≠ none → D.files = [("clformula_ptree.dot".toList, treeDotDump (addr 0) (optTree φ))])) := by
  rw [pgDump_called h hf addr stamp σ]
  have hform := hf.tree
  have hce := check_form_exact d.evars d.svars .undefined d.sp
  constructor
  · intro hn
    have e : (pgMeaning os f).ptdump = false := by simp [pgMeaning, hn]
    have e1 : pgPtDump addr stamp (pgMeaning os f) d.toP σ = none := by
      unfold pgPtDump
      rw [hform, e]
      simp
    rw [e1]
    simp [pgFormFile, e]
  · intro hn
    have e1 : pgPtDump addr stamp (pgMeaning os f) d.toP σ = none := by
      unfold pgPtDump
      by_cases hs : WellScoped d.evars d.svars .undefined d.sp
      swap
      · have : checkGr1cForm d.toP.ev d.toP.sv .undefined d.toP.sp = -1 := hce.2 hs
        rw [this, if_pos (by decide)]
      have : checkGr1cForm d.toP.ev d.toP.sv .undefined d.toP.sp = 0 := hce.1 hs
      rw [this, if_neg (by decide), hform, Option.bind_some]
      rcases hn with hn | ⟨g, rfl, hg⟩
      · exact absurd hs hn
      · rw [if_pos]
        cases hcv : (checkVars (chainVars d.toP.sv d.toP.ev) .nil (optTree (some g))).isSome with
        | true => rfl
        | false =>
          exfalso
          apply hg
          have hcv : (checkVars (chainVars d.svars.tree d.evars.tree) (Decls.tree []) g.toTree).isSome = false := hcv
          rw [chain_tree, checkVars_scoped] at hcv
          exact (scoped_congr (fun n => by simp only [List.map_append, List.mem_append]; exact Or.comm) (fun _ => Iff.rfl) g).1 hcv
    rw [e1]
    refine ⟨_, rfl, rfl, ?_, ?_⟩
    swap
    · intro hp hφ
      have e2 : (pgMeaning os f).form.isSome = true := by
        rcases hf with ⟨-, e⟩ | ⟨x, g, e, -, -⟩
        · exact absurd e hφ
        · rw [e]; rfl
      have e3 : (pgMeaning os f).ptdump = true := by simp [pgMeaning, hp]
      simp only [Option.getD_none, pgFormFile, e2, e3, and_self, if_true]
    simp only [Option.getD_none, pgFormFile]
    split_ifs with hc
    · intro x hx
      rw [List.mem_singleton.1 hx]
      refine ⟨rfl, ?_⟩
      rcases hf with ⟨e2, -⟩ | ⟨_, g, -, rfl, -⟩
      · rw [e2] at hc; simp at hc
      · simp
    · simp

/-- **C70.** Nothing is drawn and nothing is listed if the options are refused: none of `-e`, `-f`, `-r`; one of them without an automaton;
both `-e` and `-f`; automaton and specification both from standard input. -/
theorem dump_patch_refused (w : PatchWorld) (addr : ℕ → List Bool → ℕ) (stamp : Option (List Char)) {args : List Arg} {os : List PgItem}
    {f : Option Arg} (h : PgCmdLine os f args) (σ : LogSt)
    (hr : (∀ o ∈ os, o.patches = false) ∨ ((∃ o ∈ os, o.patches = true) ∧ ∀ a, PgItem.aut a ∉ os) ∨
      ((∃ a, PgItem.edges a ∈ os) ∧ ∃ a, PgItem.form a ∈ os) ∨
      ((∃ o ∈ os, o.patches = true) ∧ f = none ∧ ∃ n, (pgMeaning os f).aut = some ('-' :: n))) :
    pgDump w addr stamp args σ = some ⟨[], .ok σ⟩ := by
  have key : (pgCheck (pgMeaning os f)).isSome = true := by
    rcases hr with hr | ⟨hp, ha⟩ | ⟨h1, h2⟩ | ⟨hp, hf, n, ha⟩
    · have h3 : (pgMeaning os f).patch = false := List.any_eq_false.2 fun o ho => by rw [hr o ho]; decide
      unfold pgCheck
      rw [h3]
      split_ifs <;> simp_all
    · have h3 : (pgMeaning os f).aut = none := lastVal_none _ _ fun o ho => by cases o <;> first | rfl | exact absurd ho (ha _)
      unfold pgCheck
      split
      · rfl
      · rw [if_pos ⟨(pg_patches (f := f)).1 hp, h3⟩]; rfl
    · unfold pgCheck
      rw [if_pos ⟨pg_edges.2 h1, pg_form.2 h2⟩]; rfl
    · have h3 : (pgMeaning os f).patch = true := List.any_eq_true.2 hp
      have h5 : (pgMeaning os f).input = none := hf
      unfold pgCheck
      rw [ha, h3, h5]
      split_ifs <;> simp_all [fromStdin]
  unfold pgDump
  rw [pg_cli h]
  simp only [key, if_true]

namespace PgEx

def dumpArgs : List Arg := ["-p".toList, "-a".toList, faut, "-f".toList, form, fspc]
def dumpOpts : List PgItem := [.ptdump, .aut faut, .form form]

theorem dump_called : PgCalled (world spec aut []) dumpArgs dumpOpts (some fspc) d aut :=
  ⟨⟨["-p".toList, "-a".toList, faut, "-f".toList, form], [fspc], .cons (w := ["-p".toList]) (.flag (by decide))
      (.cons (w := ["-a".toList, faut]) (.aut _) (.cons (w := ["-f".toList, form]) (.form _) .nil)), .file _ (by decide), rfl⟩,
    by decide +kernel, ⟨.form form, by simp [dumpOpts], rfl⟩, Or.inl (by decide +kernel), ⟨spec, Or.inl ⟨_, rfl, rfl⟩, spec_says⟩,
    faut, by decide +kernel, Or.inr ⟨by decide, rfl⟩, fun h => by cases h⟩

theorem dump_formula : PgFormula dumpOpts (some fspc) (some φ) := Or.inr ⟨form, φ, by decide +kernel, rfl, form_says⟩

/-- `gr1c-patch -p -a a.aut -f '!a & !b' s.spc` -/
example (stamp : Option (List Char)) : ∃ D rest τ, pgDump (world spec aut []) PtDumpEx.addr stamp dumpArgs PtDumpEx.σ = some D ∧
    DumpsParts false (filledSpec d.sp) rest ∧
    (∃ x G name, D.files = ("clformula_ptree.dot".toList, x) :: rest ∧ readDot x = some G ∧ DrawsTree (PtDumpEx.addr 0) φ.toTree G name) ∧
    D.out = .ok τ ∧
    τ.text 0 = "Environment variables (indices; domains): (none)\n\nSystem variables (indices; domains): a (0; {0..-1}), b (1; {0..-1})\n\n".toList
      ++ formulaLines d.evars d.svars (filledSpec d.sp) := by
  obtain ⟨D, rest, τ, h1, h2, -, h3, h4, h5⟩ := dump_patch_cli_partial dump_called (by simp [dumpOpts]) patchSpec.good.scope dump_formula
    (by rintro g hg; cases hg; unfold Scoped; decide +kernel) (addr := PtDumpEx.addr) (PtDumpEx.apart _) stamp (σ := PtDumpEx.σ)
    (by simp [PtDumpEx.σ])
  refine ⟨D, rest, τ, h1, h2, h3 _ rfl, h4, ?_⟩
  rw [h5]
  show [] ++ (listingBy 0 d.evars d.svars ++ _) = _
  rw [List.nil_append]
  exact congrArg (· ++ _) (show listingBy 0 d.evars d.svars = _ by decide +kernel)

/-- `gr1c-patch -p -f '!a & !b'`: nothing is drawn, not even the formula, because there is no automaton. -/
example (w : PatchWorld) (stamp : Option (List Char)) :
    pgDump w PtDumpEx.addr stamp ["-p".toList, "-f".toList, form] PtDumpEx.σ = some ⟨[], .ok PtDumpEx.σ⟩ := by
  have h : PgCmdLine [.ptdump, .form form] none ["-p".toList, "-f".toList, form] :=
    ⟨["-p".toList, "-f".toList, form], [], .cons (w := ["-p".toList]) (.flag (by decide)) (.cons (w := ["-f".toList, form]) (.form _) .nil),
      .nothing, rfl⟩
  exact dump_patch_refused w _ _ h _ (Or.inr (Or.inl ⟨⟨.form form, by simp, rfl⟩, by intro a; simp⟩))

end PgEx

end Gr1c
