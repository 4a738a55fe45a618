import Verif.FileLemmas
import Verif.PrintLemmas
import Verif.ScanProps
import Verif.PipelineProps

/-!
# C47: the grammar gives operators one well-defined meaning; from the text of a file to the verdict
-/

namespace Gr1c

open PTree

/-! ## Formulas -/

/-- **C47.** The parser accepts exactly the token sequences of the stratified grammar, and builds the
tree of the formula that the grammar assigns to them. -/
theorem formula_parsed (primes : Bool) (ts : List Tok) (t : PTree) :
    parseFormula primes .nil ts = some t ↔ ∃ f, Gram primes 0 ts f ∧ t = f.toTree := by
  constructor
  · exact parse_sound
  · rintro ⟨f, h, rfl⟩
    exact parse_complete h

/-- **C47.** No token sequence is two different formulas. -/
theorem grammar_unambiguous {primes : Bool} {ts : List Tok} {f g : Fm} (hf : Gram primes 0 ts f)
    (hg : Gram primes 0 ts g) : f = g := by
  have h := parse_complete hf
  rw [parse_complete hg] at h
  exact Fm.toTree_inj (Option.some.inj h).symm

/-- **C47.** `&` and `|` are on the same level and group to the left: an operand, followed by any number of
`&` or `|` with further operands, is parsed from left to right. -/
theorem and_or_left {primes : Bool} {ts : List Tok} {f : Fm} (h : Gram primes 3 ts f)
    (rest : List (Bool × List Tok × Fm)) (hr : ∀ r ∈ rest, Gram primes 3 r.2.1 r.2.2) :
    parseFormula primes .nil (rest.foldl (fun a r => a ++ .chr (if r.1 then '&' else '|') :: r.2.1) ts) =
      some (rest.foldl (fun a r => if r.1 then Fm.and a r.2.2 else .or a r.2.2) f).toTree := by
  have key : ∀ (rest : List (Bool × List Tok × Fm)) (ts : List Tok) (f : Fm), Gram primes 2 ts f →
      (∀ r ∈ rest, Gram primes 3 r.2.1 r.2.2) →
      Gram primes 2 (rest.foldl (fun a r => a ++ .chr (if r.1 then '&' else '|') :: r.2.1) ts)
        (rest.foldl (fun a r => if r.1 then Fm.and a r.2.2 else .or a r.2.2) f) := by
    intro rest
    induction rest with
    | nil => intro ts f h _; exact h
    | cons r rest ih =>
      intro ts f h hr
      refine ih _ _ ?_ fun r' hr' => hr r' (by simp [hr'])
      have h3 := hr r (by simp)
      obtain ⟨b, ts', g⟩ := r
      cases b
      · exact .or h h3
      · exact .and h h3
  exact parse_complete (.up (by omega) (.up (by omega) (key rest ts f (.up (by omega) h) hr)))

/-- `! a & x' >= 3 | b -> c -> d <-> True`, as a concrete case: the grouping is
`((((!a) & x' >= 3) | b -> c) -> d) <-> True`. -/
example : parseFormula true .nil (lexFile "! a & x' >= 3 | b -> c -> d <-> True".toList) =
    some (Fm.equiv (.imp (.imp (.or (.and (.neg (.var false ['a'])) (.cmp .ge true ['x'] 3)) (.var false ['b']))
      (.var false ['c'])) (.var false ['d'])) (.const 1)).toTree := by
  decide +kernel

/-- The operands of `and_or_left` in a concrete case. -/
example : parseFormula false .nil [.ident ['a'], .chr '|', .ident ['b'], .chr '&', .chr '!', .ident ['c']] =
    some (Fm.and (.or (.var false ['a']) (.var false ['b'])) (.neg (.var false ['c']))).toTree :=
  and_or_left (ts := [.ident ['a']]) (.var false ['a'] (by simp))
    [(false, [.ident ['b']], .var false ['b']), (true, [.chr '!', .ident ['c']], .neg (.var false ['c']))]
    (by
      intro r hr
      simp only [List.mem_cons, List.not_mem_nil, or_false] at hr
      rcases hr with rfl | rfl
      · exact .var false ['b'] (by simp)
      · exact .neg (.var false ['c'] (by simp)))

/-- The documentation calls the syntax C-like (`/repo/doc/spc_format.md` 82-83), but `a | b & c`
is not `a | (b & c)`: the two differ when `a` holds and `c` does not. -/
theorem not_c_like :
    parseFormula false .nil (lexFile "a | b & c".toList) =
      some (Fm.and (.or (.var false ['a']) (.var false ['b'])) (.var false ['c'])).toTree ∧
    parseFormula false .nil (lexFile "a | (b & c)".toList) =
      some (Fm.or (.var false ['a']) (.and (.var false ['b']) (.var false ['c']))).toTree ∧
    ∃ ρ : Env, (Fm.and (.or (.var false ['a']) (.var false ['b'])) (.var false ['c'])).eval ρ ≠
      (Fm.or (.var false ['a']) (.and (.var false ['b']) (.var false ['c']))).eval ρ := by
  refine ⟨by decide +kernel, by decide +kernel, ⟨fun _ n => n == ['a'], fun _ _ => 0⟩, by decide⟩

/-! ## Files -/

theorem takeWhile_header {t : Tok} {ts : List Tok} (h : isHeader t = true) :
    (t :: ts).takeWhile (fun t => !isHeader t) = [] ∧ (t :: ts).dropWhile (fun t => !isHeader t) = t :: ts :=
  ⟨List.takeWhile_cons_of_neg (by simp [h]), List.dropWhile_cons_of_neg (by simp [h])⟩

/-- **C47.** A specification file is read as what its sections say, and rejected if they contradict each
other (a variable declared twice, two initial conditions). -/
theorem file_parsed {rg : Bool} {ss : List Sec} {ts : List Tok} (h : FileToks rg ss ts) :
    parseToks rg ts = (readSecs .empty ss).map FileData.toP := by
  have h0 : ∀ ts : List Tok, FileToks rg ss ts → ts.takeWhile (fun t => !isHeader t) = [] →
      ts.dropWhile (fun t => !isHeader t) = ts → parseToks rg ts = (readSecs .empty ss).map FileData.toP := by
    intro ts h h1 h2
    unfold parseToks
    simp only [h1, h2, if_true]
    exact parseSections_eq h .empty
  cases h with
  | nil => exact h0 [] .nil rfl rfl
  | cons h hs =>
    obtain ⟨t, ts', rfl, ht⟩ := secToks_header h
    obtain ⟨h1, h2⟩ := takeWhile_header (ts := ts' ++ .chr ';' :: _) ht
    exact h0 _ (.cons h hs) h1 h2

/-- **C47.** Conversely, of the token sequences that begin with a section header only specification files
are accepted. -/
theorem file_accepted {rg : Bool} {t : Tok} {ts : List Tok} (ht : isHeader t = true) (s : PState) :
    parseToks rg (t :: ts) = some s ↔
      ∃ ss d, FileToks rg ss (t :: ts) ∧ readSecs .empty ss = some d ∧ s = d.toP := by
  constructor
  · intro h
    have h' := h
    unfold parseToks at h'
    obtain ⟨h1, h2⟩ := takeWhile_header (ts := ts) ht
    simp only [h1, h2, if_true] at h'
    obtain ⟨ss, hss⟩ := parseSections_sound _ (t :: ts) .empty s (Nat.le_refl _) h'
    rw [file_parsed hss] at h
    obtain ⟨d, h3, h4⟩ := Option.map_eq_some_iff.1 h
    exact ⟨ss, d, hss, h3, h4.symm⟩
  · rintro ⟨ss, d, h1, h2, rfl⟩
    rw [file_parsed h1, h2]; rfl

/-- A formula before the first section is accepted, and left over in `gen_tree_ptr`: the next formula in
the file gets it as a left child. Here the constant True of ENVINIT has the child `a`. -/
theorem leading_formula :
    parseFile false "a\nENVINIT: True;".toList =
      some ⟨.nil, .nil, ⟨.node .const none 1 (.node .var (some ['a']) 0 .nil .nil) .nil, .nil, [], [], [], []⟩,
        .nil⟩ := by
  decide +kernel

/-! ## From text to verdict -/

theorem readSecs_good {rg : Bool} {ss : List Sec} {ts : List Tok} (h : FileToks rg ss ts) :
    ∀ d d' : FileData, GoodDecls d.evars → GoodDecls d.svars → readSecs d ss = some d' →
      GoodDecls d'.evars ∧ GoodDecls d'.svars := by
  induction h with
  | nil => intro d d' h1 h2 h; simp only [readSecs, Option.some.injEq] at h; subst h; exact ⟨h1, h2⟩
  | @cons s ts ss tss h hs ih =>
    intro d d' h1 h2 h'
    simp only [readSecs] at h'
    split at h'
    · cases h'
    · rename_i d1 hd1
      refine ih d1 d' ?_ ?_ h'
      · cases h with
        | vars env ds hg =>
          simp only [Sec.add] at hd1
          split at hd1
          · simp only [Option.some.injEq] at hd1
            subst hd1
            cases env
            · exact h1
            · intro x hx
              rcases List.mem_append.1 hx with hx | hx
              · exact h1 x hx
              · exact hg x hx
          · cases hd1
        | init0 env => cases env <;> simp only [Sec.add] at hd1 <;> split at hd1 <;> simp at hd1 <;> subst hd1 <;> exact h1
        | init1 env _ => cases env <;> simp only [Sec.add] at hd1 <;> split at hd1 <;> simp at hd1 <;> subst hd1 <;> exact h1
        | trans0 env => cases env <;> simp only [Sec.add, Option.some.injEq] at hd1 <;> subst hd1 <;> exact h1
        | trans1 env _ _ => cases env <;> simp only [Sec.add, Option.some.injEq] at hd1 <;> subst hd1 <;> exact h1
        | goal0 env => cases env <;> simp only [Sec.add, Option.some.injEq] at hd1 <;> subst hd1 <;> exact h1
        | goal1 env _ _ _ => cases env <;> simp only [Sec.add, Option.some.injEq] at hd1 <;> subst hd1 <;> exact h1
        | reach _ _ => simp only [Sec.add, Option.some.injEq] at hd1; subst hd1; exact h1
      · cases h with
        | vars env ds hg =>
          simp only [Sec.add] at hd1
          split at hd1
          · simp only [Option.some.injEq] at hd1
            subst hd1
            cases env
            · intro x hx
              rcases List.mem_append.1 hx with hx | hx
              · exact h2 x hx
              · exact hg x hx
            · exact h2
          · cases hd1
        | init0 env => cases env <;> simp only [Sec.add] at hd1 <;> split at hd1 <;> simp at hd1 <;> subst hd1 <;> exact h2
        | init1 env _ => cases env <;> simp only [Sec.add] at hd1 <;> split at hd1 <;> simp at hd1 <;> subst hd1 <;> exact h2
        | trans0 env => cases env <;> simp only [Sec.add, Option.some.injEq] at hd1 <;> subst hd1 <;> exact h2
        | trans1 env _ _ => cases env <;> simp only [Sec.add, Option.some.injEq] at hd1 <;> subst hd1 <;> exact h2
        | goal0 env => cases env <;> simp only [Sec.add, Option.some.injEq] at hd1 <;> subst hd1 <;> exact h2
        | goal1 env _ _ _ => cases env <;> simp only [Sec.add, Option.some.injEq] at hd1 <;> subst hd1 <;> exact h2
        | reach _ _ => simp only [Sec.add, Option.some.injEq] at hd1; subst hd1; exact h2

/-- **C45, C46, C47 together.** Take any text that writes down the tokens of a specification file saying
`d`, under the conditions of `pipeline_exact`. Then scanning, parsing and the run up to `check_realizable`
deliver the verdict for the game over the declared values. -/
theorem text_to_verdict {text : List Char} {ts : List Tok} {ss : List Sec} {d : FileData}
    (hl : Layout true ts text) (hf : FileToks false ss ts) (hd : readSecs .empty ss = some d)
    (hF : Fresh d.evars d.svars) (flag : InitFlag) (hT : TypedSpec d.evars d.svars d.sp)
    (hW : WellScoped d.evars d.svars flag d.sp) (hne : NoNe0 (d.evars ++ d.svars) d.sp.all) :
    ∃ s, parseFile false text = some s ∧ ∃ r : Option (Finset (XState d.evars d.svars)),
      pipeline s.ev s.sv flag s.sp = .verdict (expDecls d.evars).length (expDecls d.svars).length r ∧
      (r ≠ none ↔ CodeRealizable (intGame d.evars d.svars d.sp) (d.sp.egoals.map fmStates)
        ((sysGoals d.sp).map fmStates) flag (d.sp.einit.map fmStates) (d.sp.sinit.map fmStates)) := by
  refine ⟨d.toP, ?_, ?_⟩
  · unfold parseFile lexFile
    rw [layout_scanned hl, file_parsed hf, hd]; rfl
  · obtain ⟨h1, h2⟩ := readSecs_good hf .empty d (fun x hx => absurd hx (by simp [FileData.empty]))
      (fun x hx => absurd hx (by simp [FileData.empty])) hd
    obtain ⟨r, h3, h4, -⟩ := pipeline_exact h1 h2 hF flag d.sp hT hW hne
    exact ⟨r, h3, h4⟩

/-! ## A file that meets the hypotheses -/

namespace FileEx

open GREx in
/-- The sections of the specification `GREx`. -/
def secs : List Sec :=
  [.vars true evars, .vars false svars, .init true sp.einit, .trans true sp.etrans, .trans false sp.strans,
   .goal true sp.egoals, .goal false sp.sgoals]

theorem gram (primes : Bool) (f : Fm) (hp : Parsable primes f) (hb : NoBareConst f) : Gram primes 0 f.toks f :=
  (Gram.lower (print_gram hp hb)).2.2

/-- Its tokens. -/
theorem toks : ∃ ts, FileToks false secs ts ∧ (∀ t ∈ ts, Writable t) ∧ ∃ t ts', ts = t :: ts' ∧ isHeader t = true := by
  have hx : Writable (.ident ['x']) := by decide
  have hy : Writable (.ident ['y']) := by decide
  have hz : Writable (.ident ['z']) := by decide
  have ha : Writable (.ident ['a']) := by decide
  refine ⟨_, .cons (.vars true _ (by unfold GoodDecls; decide +kernel))
    (.cons (.vars false _ (by unfold GoodDecls; decide +kernel))
    (.cons (.init1 true (gram false _ ⟨hx, by simp, by omega⟩ trivial))
    (.cons (.trans1 true (gram true _ ⟨⟨ha, by simp⟩, hx, by simp, by omega⟩ (by decide)) .nil)
    (.cons (.trans1 false (gram true _ ⟨hz, by simp, by omega⟩ trivial)
      (.cons (gram true _ ⟨⟨hy, by simp, by omega⟩, ha, by simp⟩ (by decide)) .nil))
    (.cons (.goal1 true (Or.inl rfl) (gram false _ ⟨ha, by simp⟩ trivial) .nil)
    (.cons (.goal1 false (Or.inr rfl) (gram false _ ⟨hz, by simp, by omega⟩ trivial) .nil) .nil)))))),
    ?_, ?_⟩
  · decide +kernel
  · exact ⟨_, _, rfl, by decide⟩

/-- What the sections say. -/
theorem data : readSecs .empty secs = some ⟨GREx.evars, GREx.svars, GREx.sp⟩ := by rfl

/-- All hypotheses of `text_to_verdict`, `file_parsed` and `file_accepted` hold for this file. -/
example : ∃ text ts, Layout true ts text ∧ FileToks false secs ts ∧
    readSecs .empty secs = some ⟨GREx.evars, GREx.svars, GREx.sp⟩ ∧ Fresh GREx.evars GREx.svars ∧
    TypedSpec GREx.evars GREx.svars GREx.sp ∧ WellScoped GREx.evars GREx.svars .allEnvExistSys GREx.sp ∧
    NoNe0 (GREx.evars ++ GREx.svars) GREx.sp.all ∧ ∃ t ts', ts = t :: ts' ∧ isHeader t = true := by
  obtain ⟨ts, h1, h2, h3⟩ := toks
  refine ⟨_, ts, lines_layout ts h2, h1, data, ⟨by decide +kernel, by decide +kernel⟩, ?_, ?_,
    by unfold NoNe0; decide +kernel, h3⟩
  · constructor <;> unfold Typed <;> decide +kernel
  · by_contra h
    have := (check_form_exact GREx.evars GREx.svars .allEnvExistSys GREx.sp).2 h
    revert this
    decide +kernel

/-- The same specification as one would write it. -/
example : parseFile false ("ENV: x [0,2] a;  # environment\nSYS: y [0,0] z [0,3];\nENVINIT: x < 2;\n" ++
    "ENVTRANS: [](a -> x' != 0);\nSYSTRANS:\n  [] z' >= 2\n  & [] y' <= 0 | a';\n" ++
    "ENVGOAL: []<> a;\nSYSGOAL: []<>z=3;\n").toList =
      some (FileData.toP ⟨GREx.evars, GREx.svars, GREx.sp⟩) := by
  decide +kernel

end FileEx

end Gr1c
