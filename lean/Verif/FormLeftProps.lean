import Verif.FormLeftLemmas
import Verif.PatchMainEx

/-!
# C75: the formula of `-f`

Specification, independent of the model: the text of `-f` should be a formula (`FormSays`, `Gram`), and `gr1c-patch` should refuse to run
otherwise, as it does for a specification that cannot be parsed. The code does not check this.
-/

namespace Gr1c

/-- What a formula with the tokens `F` can have before and after it without the parser seeing a different formula: `k` parentheses that
are opened, and a text that does not go on with a comparison sign or an operator or close one of these parentheses. -/
def Around (k : ℕ) (R : List Tok) : Prop :=
  ∀ u, R.head? = some u → cmpTok u = none ∧ u ≠ .chr '&' ∧ u ≠ .chr '|' ∧ u ≠ .implies ∧ u ≠ .equiv ∧ (u = .chr ')' → k = 0)

theorem Around.noCmp {k : ℕ} {R : List Tok} (h : Around k R) : NoCmp R := fun u hu => (h u hu).1

theorem plainOp_cases {u : Tok} {o : BOp} (h : plainETok u = some (.op o)) : u = .chr '&' ∨ u = .chr '|' ∨ u = .implies ∨ u = .equiv := by
  unfold plainETok at h
  split at h <;> simp at h ⊢

theorem plainRp_eq {u : Tok} (h : plainETok u = some .rp) : u = .chr ')' := by
  unfold plainETok at h
  split at h <;> simp at h ⊢

theorem full_around {k : ℕ} {u : Tok} {rest : List Tok} (h : Around k (u :: rest)) {st : List Sym} {g t : PTree}
    (hr : reduceTo 0 st g = ([], t)) : fullLeft (st ++ openSyms k) g u = .error t := by
  obtain ⟨-, h1, h2, h3, h4, h5⟩ := h u rfl
  unfold fullLeft
  rw [reduceTo_open, hr]
  split
  · rename_i o ho
    rcases plainOp_cases ho with rfl | rfl | rfl | rfl
    · exact absurd rfl h1
    · exact absurd rfl h2
    · exact absurd rfl h3
    · exact absurd rfl h4
  · rename_i hrp
    cases h5 (plainRp_eq hrp)
    rfl
  · rfl

/-- **C75, a defect.** Whatever stands around a formula in this way, the tree that `gr1c-patch` uses is that of the formula. -/
theorem junk_ignored {F R : List Tok} {k : ℕ} {φ : Fm} (hF : Gram false 0 F φ) (hR : Around k R) :
    genLeft .need [] .nil (List.replicate k (.chr '(') ++ (F ++ R)) = φ.toTree := by
  obtain ⟨st, g, h1, h2⟩ := left_formula ((formula_parsed false F _).2 ⟨φ, hF, rfl⟩)
  rw [h2 k R hR.noCmp]
  cases R with
  | nil => simp only [genLeft, leftEnd, reduceTo_open, h1]
  | cons u R => simp only [genLeft, leftStep, full_around hR h1]

theorem full_more {st : List Sym} {g t : PTree} (hr : reduceTo 0 st g = ([], t)) (k : ℕ) (n : Name) :
    genLeft .full (st ++ openSyms k) g [.equiv, .ident n] = .node .equiv none 0 t (.node .var (some n) 0 .nil .nil) := by
  have h : fullLeft (st ++ openSyms k) g .equiv = .ok (.need, .bin .equiv :: openSyms k, t) := by
    simp [fullLeft, plainETok, BOp.lv, reduceTo_open, hr]
  have h2 : ∀ g', reduceTo 0 (openSyms k) g' = (openSyms k, g') := by
    intro g'
    have := reduceTo_open 0 [] g' k
    simpa [reduceTo] using this
  simp [genLeft, leftStep, h, needLeft, leftEnd, reduceTo, h2, BOp.lv, BOp.ty, pushAtom, pushtTerminal, pushtOperator, initPtree,
    PTree.setLeft, cutStack, stopTy]

/-- **C75.** With a parenthesis that is not closed, or something after the formula, the text is not a formula. -/
theorem junk_is_error {F R : List Tok} {k : ℕ} {φ : Fm} (hF : Gram false 0 F φ) (hR : Around k R) (h : 0 < k ∨ R ≠ []) (ψ : Fm) :
    ¬ Gram false 0 (List.replicate k (.chr '(') ++ (F ++ R)) ψ := by
  intro hψ
  obtain ⟨st, g, h1, h2⟩ := left_formula ((formula_parsed false F _).2 ⟨φ, hF, rfl⟩)
  obtain ⟨st', g', h1', h2'⟩ := left_formula ((formula_parsed false _ _).2 ⟨ψ, hψ, rfl⟩)
  have hsz : ∀ t : PTree, ∀ n, PTree.node .equiv none 0 t (.node .var (some n) 0 .nil .nil) ≠ t := by
    intro t n e
    have := congrArg PTree.size e
    simp only [PTree.size] at this
    omega
  have nc : NoCmp [.equiv, .ident ['x']] := fun u hu => by cases hu; rfl
  have nc' : NoCmp [.chr ')', .equiv, .ident ['x']] := fun u hu => by cases hu; decide
  have he : φ.toTree = ψ.toTree := by
    have a := junk_ignored hF hR
    have b := junk_ignored hψ (k := 0) (R := []) (fun u hu => by cases hu)
    simp only [List.replicate_zero, List.nil_append, List.append_nil] at b
    exact a.symm.trans b
  cases R with
  | cons u R =>
    have a := h2' 0 _ nc
    rw [full_more h1'] at a
    simp only [List.replicate_zero, List.nil_append, List.append_assoc, List.cons_append] at a
    have b := junk_ignored hF (k := k) (R := u :: (R ++ [.equiv, .ident ['x']])) (fun v hv => hR v hv)
    rw [b, he] at a
    exact hsz _ _ a.symm
  | nil =>
    have hk : 0 < k := by
      rcases h with h | h
      · exact h
      · exact absurd rfl h
    obtain ⟨j, rfl⟩ : ∃ j, k = j + 1 := ⟨k - 1, by omega⟩
    have a := h2' 0 _ nc'
    have b := h2 (j + 1) _ nc'
    simp only [List.replicate_zero, List.nil_append, List.append_nil, List.append_assoc] at a b
    rw [b] at a
    have c : fullLeft (st' ++ openSyms 0) g' (.chr ')') = .error ψ.toTree :=
      full_around (k := 0) (rest := []) (fun u hu => by cases hu; decide) h1'
    have d : fullLeft (st ++ openSyms (j + 1)) g (.chr ')') = .ok (.full, openSyms j, φ.toTree) := by
      unfold fullLeft
      rw [reduceTo_open, h1]
      rfl
    have e : genLeft .full (openSyms j) φ.toTree [.equiv, .ident ['x']] =
        .node .equiv none 0 φ.toTree (.node .var (some ['x']) 0 .nil .nil) :=
      full_more (st := []) (g := φ.toTree) (t := φ.toTree) rfl j ['x']
    rw [genLeft, leftStep, d] at a
    rw [genLeft, leftStep, c] at a
    simp only [e] at a
    rw [he] at a
    exact hsz _ _ a

/-- **C75.** A formula after which `<->` stands is what is left, whether the text ends there or in a comparison. -/
theorem cut_off_ignored {F : List Tok} {φ : Fm} (hF : Gram false 0 F φ) (n : Name) {u : Tok} {ty : PTy} (hu : cmpTok u = some ty) :
    genLeft .need [] .nil (F ++ [.equiv]) = φ.toTree ∧ genLeft .need [] .nil (F ++ [.equiv, .ident n, u]) = φ.toTree ∧
    genLeft .need [] .nil [.ident n, u] = .nil := by
  obtain ⟨st, g, h1, h2⟩ := left_formula ((formula_parsed false F _).2 ⟨φ, hF, rfl⟩)
  have h : fullLeft (st ++ openSyms 0) g .equiv = .ok (.need, [.bin .equiv], φ.toTree) := by
    simp [fullLeft, plainETok, BOp.lv, reduceTo_open, h1, openSyms]
  have a := h2 0 [.equiv] (fun u hu => by cases hu; rfl)
  have b := h2 0 [.equiv, .ident n, u] (fun u hu => by cases hu; rfl)
  simp only [List.replicate_zero, List.nil_append] at a b
  refine ⟨?_, ?_, ?_⟩
  · rw [a]; simp only [genLeft, leftStep, h, leftEnd]
  · rw [b]; simp only [genLeft, leftStep, h, leftEnd, needLeft, varLeft, hu]
  · simp only [genLeft, leftStep, leftEnd, needLeft, varLeft, hu]

/-- Tokens with which an operand can begin. -/
def OperandTok (t : Tok) : Prop := t = .tt ∨ t = .ff ∨ (∃ n, t = .ident n) ∨ t = .chr '!' ∨ t = .chr '('

/-- **C75.** The same if after `<->` something stands that is no operand, or that is no number after a comparison sign, whatever follows. -/
theorem wrong_operand_ignored {F : List Tok} {φ : Fm} (hF : Gram false 0 F φ) (n : Name) {u : Tok} {ty : PTy} (hu : cmpTok u = some ty)
    (t : Tok) (r : List Tok) :
    (¬ OperandTok t → genLeft .need [] .nil (F ++ .equiv :: t :: r) = φ.toTree) ∧
    ((∀ k, t ≠ .num k) → genLeft .need [] .nil (F ++ .equiv :: .ident n :: u :: t :: r) = φ.toTree) := by
  obtain ⟨st, g, h1, h2⟩ := left_formula ((formula_parsed false F _).2 ⟨φ, hF, rfl⟩)
  have h : fullLeft (st ++ openSyms 0) g .equiv = .ok (.need, [.bin .equiv], φ.toTree) := by
    simp [fullLeft, plainETok, BOp.lv, reduceTo_open, h1, openSyms]
  have a := h2 0 (.equiv :: t :: r) (fun u hu => by cases hu; rfl)
  have b := h2 0 (.equiv :: .ident n :: u :: t :: r) (fun u hu => by cases hu; rfl)
  simp only [List.replicate_zero, List.nil_append] at a b
  refine ⟨fun ht => ?_, fun ht => ?_⟩
  · rw [a]
    have e : ∀ st g, needLeft st g t = .error g := by
      intro st g
      unfold needLeft
      split
      · exact absurd (.inl rfl) ht
      · exact absurd (.inr (.inl rfl)) ht
      · exact absurd (.inr (.inr (.inl ⟨_, rfl⟩))) ht
      · exact absurd (.inr (.inr (.inr (.inl rfl)))) ht
      · exact absurd (.inr (.inr (.inr (.inr rfl)))) ht
      · rfl
    simp only [genLeft, leftStep, h, e]
  · rw [b]
    have e : ∀ st g, cmpLeft ty n st g t = .error g := by
      intro st g
      unfold cmpLeft
      split
      · exact absurd rfl (ht _)
      · rfl
    simp only [genLeft, leftStep, h, needLeft, varLeft, hu, e]

/-- `a <-> ) ...`. -/
example (r : List Tok) : genLeft .need [] .nil ([.ident ['a']] ++ .equiv :: .chr ')' :: r) = (Fm.var false ['a']).toTree :=
  (wrong_operand_ignored (F := [.ident ['a']]) (.up (by decide) (.up (by decide) (.up (by decide) (Gram.var false ['a'] (by decide))))) ['b'] (u := .chr '=') rfl (.chr ')') r).1 (by rintro (h | h | ⟨n, h⟩ | h | h) <;> cases h)

/-! ## The program -/

theorem notHeader_split {ts : List Tok} (h : ts.any isHeader = false) :
    ts.takeWhile (fun t => !isHeader t) = ts ∧ ts.dropWhile (fun t => !isHeader t) = [] := by
  induction ts with
  | nil => exact ⟨rfl, rfl⟩
  | cons t ts ih =>
    simp only [List.any_cons, Bool.or_eq_false_iff] at h
    obtain ⟨i1, i2⟩ := ih h.2
    simp [h.1, i1, i2]

/-- A formula that the parser accepts is used as it is. -/
theorem form_any {c : PgCfg} {t : PTree} (h : pgForm c = some t) : pgFormAny c = some t := by
  unfold pgFormAny
  unfold pgForm at h
  split
  · rename_i e; rw [e] at h; exact h
  · rename_i x e
    rw [e] at h
    split
    · unfold pgForm; rw [e]; exact h
    · rename_i hh
      simp only [Bool.not_eq_true] at hh
      obtain ⟨p, hp, rfl⟩ := Option.map_eq_some_iff.1 h
      obtain ⟨e1, e2⟩ := notHeader_split hh
      unfold parseFile parseToks at hp
      simp only [e1, e2] at hp
      split at hp
      · rename_i e3
        simp only [splitOn, parseSections, if_true, Option.some.injEq] at hp
        rw [e3, ← hp]; rfl
      · split at hp
        · cases hp
        · rename_i g hg
          simp only [splitOn, parseSections, if_true, Option.some.injEq] at hp
          obtain ⟨φ, h1, h2⟩ := (formula_parsed false _ _).1 hg
          have h3 := junk_ignored h1 (k := 0) (R := []) (fun u hu => by cases hu)
          simp only [List.replicate_zero, List.nil_append, List.append_nil] at h3
          rw [h3, ← hp, ← h2]

/-- **C75.** Where the model of `gr1c-patch` says something, this one says the same. -/
theorem patch_any (w : PatchWorld) (args : List Arg) (h : patchMain w args ≠ .unmodelled) : patchMainAny w args = patchMain w args := by
  unfold patchMainAny
  unfold patchMain at h ⊢
  cases hc : pgOptLoop true {} args with
  | usage => rfl
  | version => rfl
  | ub => rfl
  | go c =>
    simp only [hc] at h ⊢
    cases e1 : pgCheck c with
    | some s => rfl
    | none =>
      cases e2 : c.aut with
      | none => rfl
      | some f =>
        simp only [e1, e2] at h ⊢
        cases e3 : w.source c.input with
        | none => rfl
        | some text =>
          simp only [e3] at h ⊢
          cases e4 : parseFile false text with
          | none => rfl
          | some p =>
            simp only [e4] at h ⊢
            unfold pgRunAny
            unfold pgRun at h ⊢
            split
            · rfl
            · rename_i e5
              rw [if_neg e5] at h
              cases e6 : pgForm c with
              | none => rw [e6] at h; exact absurd rfl h
              | some t => simp only [form_any e6]

/-- Only the tree of the formula, and that there is one, matters. -/
theorem run_form {w : PatchWorld} {c : PgCfg} {f : Arg} {p : PState} {x x' : Arg} (hx : c.form = some x)
    (h : pgFormAny c = pgFormAny { c with form := some x' }) : pgRunAny w c f p = pgRunAny w { c with form := some x' } f p := by
  unfold pgRunAny
  rw [h]
  have h2 : ∀ v vl sp form text, pgPatch w c v vl sp form text = pgPatch w { c with form := some x' } v vl sp form text := by
    intro v vl sp form text
    unfold pgPatch
    rw [hx]
    rfl
  have h3 : ∀ form, pgExpand w c p form f = pgExpand w { c with form := some x' } p form f := by
    intro form
    unfold pgExpand
    simp only [h2]
  simp only [h3]

/-- **C75 is false** (a defect): `gr1c-patch` with a text `x` that is not a formula, but has one in it as above, does exactly what it
does with that formula. -/
theorem bad_form_used {w : PatchWorld} {args args' : List Arg} {os os' : List PgItem} {f : Option Arg} (h : PgCmdLine os f args)
    (h' : PgCmdLine os' f args') {x x' : Arg} (hm : pgMeaning os' f = { pgMeaning os f with form := some x' })
    (hx : (pgMeaning os f).form = some x) {φ : Fm} (hφ : FormSays x' φ) {k : ℕ} {R : List Tok}
    (hl : lexFile (x ++ ['\n']) = List.replicate k (.chr '(') ++ (lexFile (x' ++ ['\n']) ++ R)) (hR : Around k R)
    (hh : ∀ t ∈ R, isHeader t = false) : patchMainAny w args = patchMainAny w args' := by
  obtain ⟨ts, hlay, hg⟩ := hφ
  have hts : lexFile (x' ++ ['\n']) = ts := layout_scanned hlay
  have hx' : (pgMeaning os' f).form = some x' := by rw [hm]
  have hnh : ∀ t ∈ ts, isHeader t = false := fun t ht => ftok_not_header (gram_toks hg t ht)
  have a1 : pgFormAny (pgMeaning os f) = some φ.toTree := by
    unfold pgFormAny
    rw [hx]
    dsimp only
    rw [if_neg, hl, hts, junk_ignored hg hR]
    rw [hl, hts, Bool.not_eq_true, List.any_eq_false]
    intro t ht
    rw [Bool.not_eq_true]
    rcases List.mem_append.1 ht with h3 | h3
    · rw [List.mem_replicate] at h3; rw [h3.2]; rfl
    · rcases List.mem_append.1 h3 with h3 | h3
      · exact hnh t h3
      · exact hh t h3
  have a2 : pgFormAny { pgMeaning os f with form := some x' } = some φ.toTree := by
    rw [← hm]
    exact form_any (pgForm_some hx' ⟨ts, hlay, hg⟩)
  have hr : ∀ fa p, pgRunAny w (pgMeaning os f) fa p = pgRunAny w (pgMeaning os' f) fa p := by
    intro fa p
    rw [hm]
    exact run_form hx (a1.trans a2.symm)
  have hc : pgCheck (pgMeaning os f) = pgCheck (pgMeaning os' f) := by
    rw [hm]; unfold pgCheck; rw [hx]; rfl
  have hi : (pgMeaning os' f).input = (pgMeaning os f).input ∧ (pgMeaning os' f).aut = (pgMeaning os f).aut := by rw [hm]; exact ⟨rfl, rfl⟩
  unfold patchMainAny
  rw [pg_cli h, pg_cli h']
  simp only [hc, hi.1, hi.2, hr]

namespace FormLeftEx

open PgEx

/-- A formula that is cut off, one with something after it, one with a parenthesis open: none of them is a formula. -/
example : pgForm { form := some "!a & !b )".toList } = none ∧ pgForm { form := some "((!a & !b".toList } = none ∧
    pgForm { form := some "!a & !b a".toList } = none ∧ pgForm { form := some "!a & !b <->".toList } = none := by decide +kernel

/-- All of them are read as `!a & !b`; with `->` and `&`, the last operand is all that is left of a text that is cut off, with the tree of
the other one below it. -/
example : pgFormAny { form := some "!a & !b )".toList } = pgForm { form := some "!a & !b".toList } ∧
    pgFormAny { form := some "((!a & !b".toList } = pgForm { form := some "!a & !b".toList } ∧
    pgFormAny { form := some "!a & !b a".toList } = pgForm { form := some "!a & !b".toList } ∧
    pgFormAny { form := some "!a & !b <->".toList } = pgForm { form := some "!a & !b".toList } ∧
    pgFormAny { form := some "a -> b &".toList } =
      some (.node .var (some ['b']) 0 (.node .var (some ['a']) 0 .nil .nil) .nil) ∧
    pgFormAny { form := some "a = b".toList } = some .nil := by decide +kernel

/-- `gr1c-patch -a a.aut -f '(!a & !b' s.spc`. -/
def badArgs : List Arg := ["-a".toList, faut, "-f".toList, '(' :: form, fspc]

theorem bad_same : patchMainAny (world spec aut []) badArgs = patchMainAny (world spec aut []) addArgs := by
  refine bad_form_used (os := [.aut faut, .form ('(' :: form)]) (os' := addOpts) (f := some fspc) (x := '(' :: form) (x' := form) (k := 1)
    (R := []) ?_ add_called.1 ?_ ?_ form_says ?_ (fun u hu => by cases hu) (fun u hu => by cases hu)
  · exact ⟨["-a".toList, faut, "-f".toList, '(' :: form], [fspc], .cons (w := ["-a".toList, faut]) (.aut _)
      (.cons (w := ["-f".toList, '(' :: form]) (.form _) .nil), .file _ (by decide), rfl⟩
  · rfl
  · rfl
  · decide +kernel

/-- The parenthesis is not closed, yet a strategy for `!a & !b` is written, with status 0. -/
example : view (patchMainAny (world spec aut []) badArgs) =
    [[0], [0, 1, 0, 1, 27, 0, 0], [2, 0, 2, 1, 3, 1, 1], [3, 0, 3, 1, 24, 1, 0], [24, 0, 0, 1, 27, 0, 0], [27, 0, 1, 1, 2, 0, 1]] := by
  rw [bad_same, patch_any]
  · exact add_view
  · intro h
    have := add_view
    rw [show ["-a".toList, "a.aut".toList, "-f".toList, form, "s.spc".toList] = addArgs from rfl, h] at this
    cases this

end FormLeftEx

end Gr1c
