import Verif.PatchEdgesEx

/-!
# Arguments and files that `gr1c-patch` refuses

The rest of the exit statuses of C64.
-/

namespace Gr1c

/-- **C64, version.** After documented options, `-V` or `--version` ends the program with status 0. -/
theorem patch_version (w : PatchWorld) {os : List PgItem} {ws : List Arg} (h : PgItems os ws) (a : Arg)
    (ha : a = "-V".toList ∨ a = "--version".toList) (rest : List Arg) : patchMain w (ws ++ a :: rest) = .exit 0 none := by
  unfold patchMain
  rw [pgOptLoop_items h]
  rcases ha with rfl | rfl
  · have := pgOptLoop_short (os.foldl PgCfg.set {}) 'V' (by decide) [] rest
    rw [show pgOptLoop true _ ("-V".toList :: rest) = _ from this]
    rfl
  · have := pgOptLoop_long (os.foldl PgCfg.set {}) "version".toList rest
    rw [show pgOptLoop true _ ("--version".toList :: rest) = _ from this]
    rfl

/-- **C64, usage.** After documented options, these end the program with status 1: a flag that is none of the documented ones, a flag
that needs an argument and is the last one, `-t` with a word that begins with no format, and `-r` with a negative number. -/
theorem patch_usage (w : PatchWorld) {os : List PgItem} {ws : List Arg} (h : PgItems os ws) :
    (∀ c more rest, c ∉ "-hVvlpmteaofr".toList → patchMain w (ws ++ ('-' :: c :: more) :: rest) = .exit 1 none) ∧
    (∀ c, c ∈ "mteaofr".toList → patchMain w (ws ++ [['-', c]]) = .exit 1 none) ∧
    (∀ a rest, (∀ x ∈ fmtWords, ¬ x.2.toList <+: a) → patchMain w (ws ++ "-t".toList :: a :: rest) = .exit 1 none) ∧
    (∀ a (n : ℤ) rest, IntText a n → IsInt n → n < 0 → patchMain w (ws ++ "-r".toList :: a :: rest) = .exit 1 none) := by
  refine ⟨fun c more rest hc => ?_, fun c hc => ?_, fun a rest ha => ?_, fun a n rest ha hi hn => ?_⟩
  · have e : "-hVvlpmteaofr".toList = ['-', 'h', 'V', 'v', 'l', 'p', 'm', 't', 'e', 'a', 'o', 'f', 'r'] := rfl
    rw [e] at hc
    simp only [List.mem_cons, List.not_mem_nil, or_false, not_or] at hc
    obtain ⟨h1, h2, h3, h4, h5, h6, h7, h8, h9, h10, h11, h12, h13⟩ := hc
    unfold patchMain
    rw [pgOptLoop_items h, pgOptLoop_short _ c h1 more rest]
    have hp : ∀ k, pgPlainFlag k c more = none := by intro k; simp [pgPlainFlag, h2, h4, h5, h6]
    have ht : pgTakesArg c = false := by simp [pgTakesArg, h7, h8, h9, h10, h11, h12, h13]
    by_cases hm : more = []
    · rw [if_neg (by simp [hm]), if_neg h3, ht, hp]; rfl
    · rw [if_pos ⟨hm, fun h => h4 h.1⟩]
  · have e : "mteaofr".toList = ['m', 't', 'e', 'a', 'o', 'f', 'r'] := rfl
    rw [e] at hc
    have h1 : c ≠ '-' ∧ c ≠ 'V' ∧ pgTakesArg c = true := by
      revert c
      decide
    unfold patchMain
    rw [pgOptLoop_items h, pgOptLoop_short _ c h1.1 [] [], if_neg (by simp), if_neg h1.2.1, h1.2.2]
    rfl
  · unfold patchMain
    rw [pgOptLoop_items h]
    have := pgOptLoop_short (os.foldl PgCfg.set {}) 't' (by decide) [] (a :: rest)
    rw [show pgOptLoop true _ ("-t".toList :: a :: rest) = _ from this]
    have h1 : formatOf a = none := by
      have key : ∀ f s, (f, s) ∈ fmtWords → hasPfx s a = false := by
        intro f s hs
        by_contra hc
        exact ha _ hs (List.isPrefixOf_iff_prefix.1 (by simpa [hasPfx] using hc))
      simp [fmtWords] at key
      simp [formatOf, key]
    simp [pgTakesArg, pgArgFlag, h1]
  · unfold patchMain
    rw [pgOptLoop_items h]
    have := pgOptLoop_short (os.foldl PgCfg.set {}) 'r' (by decide) [] (a :: rest)
    rw [show pgOptLoop true _ ("-r".toList :: a :: rest) = _ from this]
    have e := lenArg_int ha hi
    simp [pgTakesArg, pgArgFlag, e, hn]

/-- **C64, files.** A specification that cannot be opened gives status -1, and so does one that can with a change file that cannot, or
with a text that is no automaton: nothing is written. -/
theorem patch_unreadable {w : PatchWorld} {args : List Arg} {os : List PgItem} {f : Option Arg} :
    (∀ a fa, PgCmdLine os f args → PgItem.help ∉ os → (∃ o ∈ os, o.patches = true) →
      (pgMeaning os f).edges = none ∨ (pgMeaning os f).form = none → (pgMeaning os f).aut = some fa → f = some a → w.file a = none →
      patchMain w args = .exit (-1) none) ∧
    (∀ d text x, PgCalled w args os f d text → PatchSpec d → (pgMeaning os f).edges = some x → w.file x = none →
      patchMain w args = .exit (-1) none) ∧
    (∀ d text, PgCalled w args os f d text → PatchSpec d → loadVer (d.evars.length + d.svars.length) text = .null →
      (∀ x, (pgMeaning os f).form = some x → ∃ φ, FormSays x φ ∧ Typed (d.evars ++ d.svars) [] φ ∧ NoNe0 (d.evars ++ d.svars) [φ]) →
      ((pgMeaning os f).edges = none → (pgMeaning os f).form = none → (pgMeaning os f).rm < (sysGoals d.sp).length) →
      patchMain w args = .exit (-1) none) := by
  refine ⟨fun a fa h hh hp h1 ha hf hw => ?_, fun d text x h hs he hx => ?_, fun d text h hs hl hform hrm => ?_⟩
  · unfold patchMain
    rw [pg_cli h]
    have h1 := pgCheck_ok hh hp h1 ha (fun h => by rw [hf] at h; cases h)
    have h2 : w.toWorld.source (pgMeaning os f).input = none := by rw [show (pgMeaning os f).input = some a from hf]; exact hw
    simp only [h1, ha, h2]
  · have hf : (pgMeaning os f).form = none := by
      rcases h.one with h' | h'
      · rw [he] at h'; cases h'
      · exact h'
    obtain ⟨sp', B, h1, hB, h3, h4⟩ := pg_front h hs.good hs.prefixFree
    rw [h4 .nil .nil (pgForm_none hf) rfl (expandForm_nil _)]
    unfold pgPatch
    rw [he]
    simp only [hx]
  · obtain ⟨sp', B, h1, hB, h3, h4⟩ := pg_front h hs.good hs.prefixFree
    have hload : loadStrategy (declVars d.evars d.svars) w.stale text = .err := by
      unfold loadStrategy
      have e : (((declVars d.evars d.svars).oe + (declVars d.evars d.svars).os : ℕ) : ℤ) = d.evars.length + d.svars.length := by
        simp [declVars]
      rw [e, hl]
    cases he : (pgMeaning os f).edges with
    | some x =>
      have hf : (pgMeaning os f).form = none := by
        rcases h.one with h' | h'
        · rw [he] at h'; cases h'
        · exact h'
      obtain ⟨et, tr, eg, g1, g2, g3, g4, hH⟩ := build_parts h1
      rw [h4 .nil .nil (pgForm_none hf) rfl (expandForm_nil _)]
      unfold pgPatch
      rw [he]
      cases hx : w.file x with
      | none => simp only [hx]
      | some changes =>
        simp only [hx]
        have g1' : bddList (2 * ((declVars d.evars d.svars).ne + (declVars d.evars d.svars).ns)) (expDecls d.evars ++ expDecls d.svars).tree
          sp'.toT.etrans = some et := g1
        have g2' : bddList (2 * ((declVars d.evars d.svars).ne + (declVars d.evars d.svars).ns)) (expDecls d.evars ++ expDecls d.svars).tree
          sp'.toT.strans = some tr := g2
        have g3' : bddList (2 * ((declVars d.evars d.svars).ne + (declVars d.evars d.svars).ns)) (expDecls d.evars ++ expDecls d.svars).tree
          sp'.toT.egoals = some eg := g3
        unfold edgesFile
        rw [g1', g2', g3']
        simp only [patchFiles, hload]
        rfl
    | none =>
      obtain ⟨B', b1, b2, b3, b4⟩ := buildBits_noinit h1
      have b1' : buildBits (declVars d.evars d.svars).ne (declVars d.evars d.svars).ns (expDecls d.evars ++ expDecls d.svars).tree
          { sp'.toT with einit := .nil, sinit := .nil } = some B' := b1
      cases hf : (pgMeaning os f).form with
      | some x =>
        obtain ⟨φ, hx, hT, hne⟩ := hform x hf
        obtain ⟨φ', b, f1, f2, f3⟩ := form_bdd hs.good.fresh hT hne
        rw [h4 _ _ (pgForm_some hf hx) (form_scoped hT) f1]
        unfold pgPatch
        rw [he, hf]
        simp only [Option.isSome_some, if_true]
        have f2' : ptreeBdd (2 * ((declVars d.evars d.svars).ne + (declVars d.evars d.svars).ns)) (expDecls d.evars ++ expDecls d.svars).tree
            φ'.toTree = .ok b := f2
        rw [b1', f2']
        simp only [addFile, hload, onLoaded]
        rfl
      | none =>
        rw [h4 .nil .nil (pgForm_none hf) rfl (expandForm_nil _)]
        unfold pgPatch
        rw [he, hf]
        simp only [Option.isSome_none, Bool.false_eq_true, if_false]
        have hlen : (sp'.toT.sgoals.length : ℤ) = (sysGoals d.sp).length := by
          rw [← h3]; simp [FSpec.toT]
        rw [hlen, if_neg (by have := hrm he hf; omega), b1']
        simp only [rmFile, hload, onLoaded]
        rfl

namespace EdgEx

open PgEx

example (w : PatchWorld) : patchMain w ["-v".toList, "-V".toList, "-x".toList] = .exit 0 none :=
  patch_version w (.cons (w := ["-v".toList]) (.flag (o := .verbose false) (w := "-v") (by decide)) .nil) _ (Or.inl rfl) _

example (w : PatchWorld) : patchMain w ["-v".toList, "-x".toList, "-V".toList] = .exit 1 none ∧
    patchMain w ["-v".toList, "-e".toList] = .exit 1 none ∧
    patchMain w ["-v".toList, "-t".toList, "pdf".toList] = .exit 1 none := by
  have h := patch_usage w (.cons (w := ["-v".toList]) (.flag (o := .verbose false) (w := "-v") (by decide)) .nil)
  exact ⟨h.1 'x' [] _ (by decide), h.2.1 'e' (by decide), h.2.2.1 "pdf".toList [] (by decide)⟩

theorem called_bad : PgCalled (world spec [] changes) args opts (some fspc) d [] :=
  ⟨called.line, called.noHelp, called.patches, called.one, ⟨spec, Or.inl ⟨_, rfl, rfl⟩, spec_says⟩, faut, by decide +kernel,
    Or.inr ⟨by decide, rfl⟩, fun h => by cases h⟩

/-- An empty automaton file. -/
example : patchMain (world spec [] changes) args = .exit (-1) none :=
  patch_unreadable.2.2 d [] called_bad patchSpec (by decide +kernel) (fun x h => by
    rw [show (pgMeaning opts (some fspc)).form = none by decide +kernel] at h; cases h)
    (fun h => by rw [show (pgMeaning opts (some fspc)).edges = some fchg by decide +kernel] at h; cases h)

end EdgEx
end Gr1c
