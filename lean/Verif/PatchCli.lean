import Verif.PatchMainSpec
import Verif.AutmanLemmas

/-!
# The command line of `gr1c-patch`
-/

namespace Gr1c

/-- The effect of one option. -/
def PgCfg.set (c : PgCfg) : PgItem → PgCfg
  | .help => { c with help := true }
  | .verbose two => { c with verbose := (c.verbose + if two then 2 else 1) % 256 }
  | .logging => { c with logging := true }
  | .ptdump => { c with ptdump := true }
  | .metric a => { c with metric := some a }
  | .format f => { c with format := f }
  | .edges a => { c with patch := true, edges := some a }
  | .aut a => { c with aut := some a }
  | .output a => { c with output := some a }
  | .form a => { c with patch := true, form := some a }
  | .rm n => { c with patch := true, rm := n }

theorem lastVal_cons {I α : Type} (f : I → Option α) (d : α) (o : I) (os : List I) :
    lastVal f d (o :: os) = lastVal f ((f o).getD d) os := by
  unfold lastVal
  cases h : f o with
  | none => simp [List.filterMap_cons, h]
  | some x =>
    simp only [List.filterMap_cons, h, Option.getD_some]
    cases List.filterMap f os <;> simp [List.getLast?_cons]

theorem foldl_pgMeaning (os : List PgItem) (c : PgCfg) (hv : c.verbose < 256) : os.foldl PgCfg.set c =
    { help := c.help || decide (PgItem.help ∈ os), ptdump := c.ptdump || decide (PgItem.ptdump ∈ os),
      logging := c.logging || decide (PgItem.logging ∈ os), verbose := (c.verbose + (os.map PgItem.loud).sum) % 256,
      format := lastVal PgItem.format? c.format os, metric := lastVal PgItem.metric? c.metric os,
      edges := lastVal PgItem.edges? c.edges os, aut := lastVal PgItem.aut? c.aut os, output := lastVal PgItem.output? c.output os,
      form := lastVal PgItem.form? c.form os, rm := lastVal PgItem.rm? c.rm os, patch := c.patch || os.any PgItem.patches,
      input := c.input } := by
  induction os generalizing c with
  | nil => simp [lastVal, Nat.mod_eq_of_lt hv]
  | cons o os ih =>
    rw [List.foldl_cons, ih]
    · simp only [lastVal_cons, List.any_cons]
      cases o <;> simp [PgCfg.set, PgItem.metric?, PgItem.format?, PgItem.edges?, PgItem.aut?, PgItem.output?, PgItem.form?,
        PgItem.rm?, PgItem.loud, PgItem.patches] <;> omega
    · cases o <;> simp [PgCfg.set, hv] <;> omega

theorem pgOptLoop_nil (b : Bool) (c : PgCfg) : pgOptLoop b c [] = .go c := by rw [pgOptLoop]

theorem pgOptLoop_long (c : PgCfg) (more : List Char) (rest : List Arg) :
    pgOptLoop true c (('-' :: '-' :: more) :: rest) =
      if more = [] then pgOptLoop false c rest
      else if hasPfx "help" more then pgOptLoop true { c with help := true } rest
      else if hasPfx "version" more then .version
      else .usage := by
  rw [pgOptLoop]; rfl

theorem pgOptLoop_short (c : PgCfg) (f : Char) (hf : f ≠ '-') (more : List Char) (rest : List Arg) :
    pgOptLoop true c (('-' :: f :: more) :: rest) =
      if more ≠ [] ∧ ¬ (f = 'v' ∧ more.head? = some 'v') then .usage
      else if f = 'V' then .version
      else if pgTakesArg f then
        match rest with
        | [] => .usage
        | x :: rest' =>
          match pgArgFlag c f x with
          | none => .usage
          | some c' => pgOptLoop true c' rest'
      else
        match pgPlainFlag c f more with
        | none => .usage
        | some c' => pgOptLoop true c' rest := by
  have : argKind true ('-' :: f :: more) = .short f more := by simp [argKind, hf]
  rw [pgOptLoop, this]
  cases rest <;> rfl

theorem pgOptLoop_file (b : Bool) (c : PgCfg) (a : Arg) (rest : List Arg) (h : b = false ∨ a.head? ≠ some '-') :
    pgOptLoop b c (a :: rest) = pgOptLoop b (if c.input = none then { c with input := some a } else c) rest := by
  have : argKind b a = .other := by
    rcases h with rfl | h
    · rfl
    · match a with
      | [] => cases b <;> rfl
      | [x] => cases b <;> simp [argKind] at h ⊢; exact h
      | x :: f :: more => cases b <;> simp [argKind] at h ⊢; exact fun e => absurd e h
  rw [pgOptLoop, this]

/-- Reading one option. -/
theorem pgOptLoop_spelled {o : PgItem} {w : List Arg} (h : PgSpelled o w) (c : PgCfg) (rest : List Arg) :
    pgOptLoop true c (w ++ rest) = pgOptLoop true (c.set o) rest := by
  cases h with
  | flag h =>
    simp only [pgFlagWords, List.mem_cons, Prod.mk.injEq, List.not_mem_nil, or_false] at h
    rcases h with ⟨rfl, rfl⟩ | ⟨rfl, rfl⟩ | ⟨rfl, rfl⟩ | ⟨rfl, rfl⟩ | ⟨rfl, rfl⟩ | ⟨rfl, rfl⟩
    · exact pgOptLoop_short c 'h' (by decide) [] rest
    · exact pgOptLoop_long c "help".toList rest
    · exact pgOptLoop_short c 'v' (by decide) [] rest
    · exact pgOptLoop_short c 'v' (by decide) ['v'] rest
    · exact pgOptLoop_short c 'l' (by decide) [] rest
    · exact pgOptLoop_short c 'p' (by decide) [] rest
  | metric a => exact pgOptLoop_short c 'm' (by decide) [] (a :: rest)
  | format h =>
    refine (pgOptLoop_short c 't' (by decide) [] (_ :: rest)).trans ?_
    simp only [fmtWords, List.mem_cons, Prod.mk.injEq, List.not_mem_nil, or_false] at h
    rcases h with ⟨rfl, rfl⟩ | ⟨rfl, rfl⟩ | ⟨rfl, rfl⟩ | ⟨rfl, rfl⟩ | ⟨rfl, rfl⟩ <;> rfl
  | edges a => exact pgOptLoop_short c 'e' (by decide) [] (a :: rest)
  | aut a => exact pgOptLoop_short c 'a' (by decide) [] (a :: rest)
  | output a => exact pgOptLoop_short c 'o' (by decide) [] (a :: rest)
  | form a => exact pgOptLoop_short c 'f' (by decide) [] (a :: rest)
  | @rm a n h hn =>
    refine (pgOptLoop_short c 'r' (by decide) [] (_ :: rest)).trans ?_
    have e := lenArg_int h hn
    have : pgArgFlag c 'r' a = some { c with patch := true, rm := (n : ℤ) } := by
      have h0 : ¬ ((n : ℤ) < 0) := by omega
      simp [pgArgFlag, e, h0]
    simp only [this]; rfl

theorem pgOptLoop_items {os : List PgItem} {ws : List Arg} (h : PgItems os ws) (c : PgCfg) (rest : List Arg) :
    pgOptLoop true c (ws ++ rest) = pgOptLoop true (os.foldl PgCfg.set c) rest := by
  induction h generalizing c with
  | nil => rfl
  | cons h _ ih => rw [List.append_assoc, pgOptLoop_spelled h, ih]; rfl

theorem pgOptLoop_tail {f : Option Arg} {t : List Arg} (h : Tail f t) (c : PgCfg) (hc : c.input = none) :
    pgOptLoop true c t = .go { c with input := f } := by
  cases h with
  | nothing => rw [pgOptLoop_nil]; cases c; simp_all
  | dashes => rw [pgOptLoop_long, if_pos rfl, pgOptLoop_nil]; cases c; simp_all
  | file a h => rw [pgOptLoop_file true c a [] (Or.inr h), if_pos hc, pgOptLoop_nil]
  | dashesFile a =>
    rw [pgOptLoop_long, if_pos rfl, pgOptLoop_file false c a [] (Or.inl rfl), if_pos hc, pgOptLoop_nil]

/-- Command lines of `gr1c-patch` are understood. -/
theorem pg_cli {os : List PgItem} {f : Option Arg} {args : List Arg} (h : PgCmdLine os f args) :
    pgOptLoop true {} args = .go (pgMeaning os f) := by
  obtain ⟨ws, t, h1, h2, rfl⟩ := h
  rw [pgOptLoop_items h1, pgOptLoop_tail h2 _ (by rw [foldl_pgMeaning _ _ (by decide)]), foldl_pgMeaning _ _ (by decide)]
  simp [pgMeaning]

/-- When the checks let a run through. -/
theorem pgCheck_ok {os : List PgItem} {f : Option Arg} {fa : Arg} (h : PgItem.help ∉ os) (hp : ∃ o ∈ os, o.patches = true)
    (h1 : (pgMeaning os f).edges = none ∨ (pgMeaning os f).form = none) (ha : (pgMeaning os f).aut = some fa)
    (hf : f = none → fa.head? ≠ some '-') : pgCheck (pgMeaning os f) = none := by
  have hh : (pgMeaning os f).help = false := by simp [pgMeaning, h]
  have hpa : (pgMeaning os f).patch = true := List.any_eq_true.2 hp
  have hin : (pgMeaning os f).input = f := rfl
  unfold pgCheck
  rw [if_neg (by rintro ⟨a, b⟩; rcases h1 with h1 | h1 <;> simp [h1] at a b), if_neg (by rw [ha]; simp), hh, ha, hpa, hin]
  simp only [Bool.false_eq_true, if_false, Bool.true_eq_false]
  rw [if_neg]
  rintro ⟨a, -, b⟩
  exact hf a (by simpa [fromStdin] using b)

theorem GivenAut.text {w : PatchWorld} {fa : Arg} {text : List Char} (h : GivenAut w.toWorld fa text) : w.autText fa = some text := by
  unfold PatchWorld.autText fromStdin
  rcases h with ⟨h1, h2⟩ | ⟨h1, h2⟩
  · simp [h1, h2]
  · simp [h1, h2]

theorem ftok_not_header {t : Tok} (h : isFTok t = true) : isHeader t = false := by
  cases t <;> first | rfl | cases h

/-- The parser of specifications takes the formula as its lone formula. -/
theorem FormSays.gen {x : List Char} {φ : Fm} (h : FormSays x φ) : (parseFile false (x ++ ['\n'])).map PState.gen = some φ.toTree := by
  obtain ⟨ts, hl, hg⟩ := h
  have hh : ∀ t ∈ ts, (!isHeader t) = true := fun t ht => by rw [ftok_not_header (gram_toks hg t ht)]; rfl
  unfold parseFile lexFile
  rw [layout_scanned hl]
  unfold parseToks
  have e : ∀ l : List Tok, (∀ t ∈ l, (!isHeader t) = true) → l.takeWhile (fun t => !isHeader t) = l ∧ l.dropWhile (fun t => !isHeader t) = [] := by
    intro l
    induction l with
    | nil => intro _; exact ⟨rfl, rfl⟩
    | cons t l ih =>
      intro h
      obtain ⟨i1, i2⟩ := ih fun t ht => h t (List.mem_cons_of_mem _ ht)
      have h1 := h t List.mem_cons_self
      rw [List.takeWhile_cons, List.dropWhile_cons, if_pos h1, if_pos h1, i1, i2]
      exact ⟨rfl, rfl⟩
  obtain ⟨e1, e2⟩ := e ts hh
  simp only [e1, e2, if_neg (gram_ne_nil hg), (formula_parsed false ts _).2 ⟨φ, hg, rfl⟩]
  rfl

theorem pgForm_none {os : List PgItem} {f : Option Arg} (h : (pgMeaning os f).form = none) : pgForm (pgMeaning os f) = some .nil := by
  unfold pgForm; rw [h]

theorem pgForm_some {os : List PgItem} {f : Option Arg} {x : Arg} {φ : Fm} (h : (pgMeaning os f).form = some x) (hx : FormSays x φ) :
    pgForm (pgMeaning os f) = some φ.toTree := by
  unfold pgForm; rw [h]; exact hx.gen

/-- Up to the parsed specification. -/
theorem pg_called {w : PatchWorld} {args : List Arg} {os : List PgItem} {f : Option Arg} {d : FileData} {text : List Char}
    (h : PgCalled w args os f d text) :
    ∃ fa, w.autText fa = some text ∧ patchMain w args = pgRun w (pgMeaning os f) fa d.toP := by
  obtain ⟨fa, a1, a2, a3⟩ := h.aut
  obtain ⟨t, t1, t2⟩ := h.spec
  refine ⟨fa, a2.text, ?_⟩
  unfold patchMain
  rw [pg_cli h.line]
  have h1 := pgCheck_ok h.noHelp h.patches h.one a1 a3
  have h2 : w.toWorld.source (pgMeaning os f).input = some t := t1.source
  simp only [h1, a1, h2, t2.parsed.1]

end Gr1c
