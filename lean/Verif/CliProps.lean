import Verif.CliLemmas

/-!
# Properties of the command line (C38)
-/

namespace Gr1c

theorem optLoop_nil (b : Bool) (c : Cfg) : optLoop b c [] = .go c := by
  rw [optLoop]

theorem optLoop_dash (c : Cfg) (rest : List Arg) : optLoop true c (['-'] :: rest) = .ub := by
  rw [optLoop]; rfl

theorem optLoop_long (c : Cfg) (more : List Char) (rest : List Arg) :
    optLoop true c (('-' :: '-' :: more) :: rest) =
      if more = [] then optLoop false c rest
      else if hasPfx "help" more then optLoop true { c with help := true } rest
      else if hasPfx "version" more then .version
      else .usage := by
  rw [optLoop]; rfl

theorem optLoop_short (c : Cfg) (f : Char) (hf : f ≠ '-') (more : List Char) (rest : List Arg) :
    optLoop true c (('-' :: f :: more) :: rest) =
      if more ≠ [] ∧ ¬ (f = 'v' ∧ more.head? = some 'v') then .usage
      else if f = 'V' then .version
      else if f = 't' ∨ f = 'n' ∨ f = 'o' then
        match rest with
        | [] => .usage
        | x :: rest' =>
          match argFlag c f x with
          | none => .usage
          | some c' => optLoop true c' rest'
      else
        match plainFlag c f more with
        | none => .usage
        | some c' => optLoop true c' rest := by
  have : argKind true ('-' :: f :: more) = .short f more := by simp [argKind, hf]
  rw [optLoop, this]
  cases rest <;> rfl

theorem optLoop_file (b : Bool) (c : Cfg) (hc : c.input = none) (a : Arg) (rest : List Arg)
    (h : b = false ∨ a.head? ≠ some '-') :
    optLoop b c (a :: rest) = if rest ≠ [] then .usage else .go { c with input := some a } := by
  have : argKind b a = .other := by
    rcases h with rfl | h
    · rfl
    · match a with
      | [] => cases b <;> rfl
      | [x] => cases b <;> simp [argKind] at h ⊢; exact h
      | x :: f :: more => cases b <;> simp [argKind] at h ⊢; exact fun e => absurd e h
  rw [optLoop, this]
  simp [hc]

/-- Reading one option. -/
theorem optLoop_spelled {o : Opt} {w : List Arg} (h : Spelled true o w) (c : Cfg) (rest : List Arg) :
    optLoop true c (w ++ rest) = optLoop true (c.set o) rest := by
  cases h with
  | flag h =>
    simp only [flagWords, List.mem_cons, Prod.mk.injEq, List.not_mem_nil, or_false] at h
    rcases h with ⟨rfl, rfl⟩ | ⟨rfl, rfl⟩ | ⟨rfl, rfl⟩ | ⟨rfl, rfl⟩ | ⟨rfl, rfl⟩ | ⟨rfl, rfl⟩ | ⟨rfl, rfl⟩ |
      ⟨rfl, rfl⟩ | ⟨rfl, rfl⟩ | ⟨rfl, rfl⟩
    · exact optLoop_short c 'h' (by decide) [] rest
    · exact optLoop_long c "help".toList rest
    · exact optLoop_short c 'v' (by decide) [] rest
    · exact optLoop_short c 'v' (by decide) ['v'] rest
    · exact optLoop_short c 'l' (by decide) [] rest
    · exact optLoop_short c 's' (by decide) [] rest
    · exact optLoop_short c 'p' (by decide) [] rest
    · exact optLoop_short c 'r' (by decide) [] rest
    · exact optLoop_short c 'i' (by decide) [] rest
    · exact optLoop_short c 'P' (by decide) [] rest
  | flagMore x _ h hw =>
    simp only [looseWords, List.mem_cons, List.not_mem_nil, or_false] at hw
    rcases hw with rfl | rfl
    · have : o = .help := by
        simp only [flagWords, List.mem_cons, Prod.mk.injEq, List.not_mem_nil, or_false] at h
        revert h; simp
      subst this
      exact optLoop_long c ("help".toList ++ x) rest
    · have : o = .verbose true := by
        simp only [flagWords, List.mem_cons, Prod.mk.injEq, List.not_mem_nil, or_false] at h
        revert h; simp
      subst this
      exact optLoop_short c 'v' (by decide) ('v' :: x) rest
  | format x _ h =>
    refine (optLoop_short c 't' (by decide) [] (_ :: rest)).trans ?_
    simp only [fmtWords, List.mem_cons, Prod.mk.injEq, List.not_mem_nil, or_false] at h
    rcases h with ⟨rfl, rfl⟩ | ⟨rfl, rfl⟩ | ⟨rfl, rfl⟩ | ⟨rfl, rfl⟩ | ⟨rfl, rfl⟩ <;> rfl
  | init a x _ h ha =>
    refine (optLoop_short c 'n' (by decide) [] (_ :: rest)).trans ?_
    have : ∀ i, initOf a = some i → argFlag c 'n' a = some { c with init := i } := by
      intro i hi
      simp [argFlag, hi]
    simp only [initWords, List.mem_cons, Prod.mk.injEq, List.not_mem_nil, or_false] at h
    rcases h with ⟨rfl, rfl⟩ | ⟨rfl, rfl⟩ | ⟨rfl, rfl⟩
    · have hi : initOf a = some .allEnvExistSys := by unfold initOf; rw [ha]; rfl
      simp only [this _ hi]; rfl
    · have hi : initOf a = some .allInit := by unfold initOf; rw [ha]; rfl
      simp only [this _ hi]; rfl
    · have hi : initOf a = some .oneSide := by unfold initOf; rw [ha]; rfl
      simp only [this _ hi]; rfl
  | output a => exact optLoop_short c 'o' (by decide) [] (a :: rest)

theorem optLoop_opts {os : List Opt} {ws : List Arg} (h : Opts true os ws) (c : Cfg) (rest : List Arg) :
    optLoop true c (ws ++ rest) = optLoop true (os.foldl Cfg.set c) rest := by
  induction h generalizing c with
  | nil => rfl
  | cons h _ ih => rw [List.append_assoc, optLoop_spelled h, ih]; rfl

theorem foldl_input (os : List Opt) (c : Cfg) : (os.foldl Cfg.set c).input = c.input := by
  induction os generalizing c with
  | nil => rfl
  | cons o os ih => rw [List.foldl_cons, ih, set_input]

theorem foldl_meaning (os : List Opt) (c : Cfg) (hv : c.verbose < 256) (f : Option Arg) :
    { os.foldl Cfg.set c with input := f } = meaningFrom c os f := by
  induction os generalizing c with
  | nil =>
    unfold meaningFrom lastOf
    simp [Nat.mod_eq_of_lt hv]
  | cons o os ih => rw [List.foldl_cons, ih _ (set_verbose c o hv), meaningFrom_cons]

theorem optLoop_tail {f : Option Arg} {t : List Arg} (h : Tail f t) (c : Cfg) (hc : c.input = none) :
    optLoop true c t = .go { c with input := f } := by
  cases h with
  | nothing => rw [optLoop_nil]; cases c; simp_all
  | dashes => rw [optLoop_long, if_pos rfl, optLoop_nil]; cases c; simp_all
  | file a h => rw [optLoop_file true c hc a [] (Or.inr h)]; rfl
  | dashesFile a => rw [optLoop_long, if_pos rfl, optLoop_file false c hc a [] (Or.inl rfl)]; rfl

theorem optLoop_version {a : Arg} (h : VersionWord a) (c : Cfg) (rest : List Arg) :
    optLoop true c (a :: rest) = .version := by
  rcases h with rfl | ⟨x, rfl⟩
  · exact optLoop_short c 'V' (by decide) [] rest
  · exact optLoop_long c ("version".toList ++ x) rest

theorem hasPfx_iff {w : String} {a : Arg} : hasPfx w a = true ↔ ∃ x, a = w.toList ++ x := by
  unfold hasPfx
  rw [List.isPrefixOf_iff_prefix]
  exact ⟨fun ⟨x, h⟩ => ⟨x, h.symm⟩, fun ⟨x, h⟩ => ⟨x, h.symm⟩⟩

/-- Every argument vector is options followed by an end of one of four kinds. -/
theorem optLoop_classify : ∀ (n : ℕ) (args : List Arg) (c : Cfg), args.length ≤ n → c.input = none →
    ∃ os ws rest, Opts true os ws ∧ args = ws ++ rest ∧
      ((∃ f, Tail f rest) ∨ (∃ a rest', rest = a :: rest' ∧ VersionWord a) ∨ (∃ rest', rest = ['-'] :: rest') ∨
        optLoop true c args = .usage) := by
  intro n
  induction n with
  | zero =>
    intro args c h _
    have : args = [] := List.length_eq_zero_iff.1 (by omega)
    subst this
    exact ⟨[], [], [], .nil, rfl, Or.inl ⟨none, .nothing⟩⟩
  | succ n ih =>
    intro args c hlen hc
    -- an option first
    have step : ∀ o w rest, Spelled true o w → w ≠ [] → args = w ++ rest → ∃ os ws rest, Opts true os ws ∧
        args = ws ++ rest ∧ ((∃ f, Tail f rest) ∨ (∃ a rest', rest = a :: rest' ∧ VersionWord a) ∨
          (∃ rest', rest = ['-'] :: rest') ∨ optLoop true c args = .usage) := by
      intro o w rest hsp hw hargs
      have hl : rest.length ≤ n := by
        have := List.length_pos_iff.2 hw
        rw [hargs, List.length_append] at hlen
        omega
      obtain ⟨os, ws, r, h1, h2, h3⟩ := ih rest (c.set o) hl (by rw [set_input]; exact hc)
      refine ⟨o :: os, w ++ ws, r, .cons hsp h1, by rw [hargs, h2, List.append_assoc], ?_⟩
      rcases h3 with h3 | h3 | h3 | h3
      · exact Or.inl h3
      · exact Or.inr (Or.inl h3)
      · exact Or.inr (Or.inr (Or.inl h3))
      · exact Or.inr (Or.inr (Or.inr (by rw [hargs, optLoop_spelled hsp]; exact h3)))
    have stop : ((∃ f, Tail f args) ∨ (∃ a rest', args = a :: rest' ∧ VersionWord a) ∨
          (∃ rest', args = ['-'] :: rest') ∨ optLoop true c args = .usage) → ∃ os ws rest, Opts true os ws ∧
        args = ws ++ rest ∧ ((∃ f, Tail f rest) ∨ (∃ a rest', rest = a :: rest' ∧ VersionWord a) ∨
          (∃ rest', rest = ['-'] :: rest') ∨ optLoop true c args = .usage) :=
      fun h => ⟨[], [], args, .nil, rfl, h⟩
    cases args with
    | nil => exact stop (Or.inl ⟨none, .nothing⟩)
    | cons a rest =>
      by_cases hd : a.head? = some '-'
      · match a, hd with
        | [x], hd =>
          have : x = '-' := by simpa using hd
          subst this
          exact stop (Or.inr (Or.inr (Or.inl ⟨rest, rfl⟩)))
        | x :: f :: more, hd =>
          have : x = '-' := by simpa using hd
          subst this
          by_cases hf : f = '-'
          · subst hf
            by_cases hm : more = []
            · subst hm
              cases rest with
              | nil => exact stop (Or.inl ⟨none, .dashes⟩)
              | cons b rest =>
                cases rest with
                | nil => exact stop (Or.inl ⟨some b, .dashesFile b⟩)
                | cons b' rest =>
                  refine stop (Or.inr (Or.inr (Or.inr ?_)))
                  rw [optLoop_long, if_pos rfl, optLoop_file false c hc b _ (Or.inl rfl)]
                  rfl
            · by_cases h1 : hasPfx "help" more = true
              · obtain ⟨x, rfl⟩ := hasPfx_iff.1 h1
                exact step .help ["--help".toList ++ x] rest
                  (.flagMore x rfl (by simp [flagWords]) (by simp [looseWords])) (by simp) rfl
              · by_cases h2 : hasPfx "version" more = true
                · obtain ⟨x, rfl⟩ := hasPfx_iff.1 h2
                  exact stop (Or.inr (Or.inl ⟨_, rest, rfl, Or.inr ⟨x, rfl⟩⟩))
                · refine stop (Or.inr (Or.inr (Or.inr ?_)))
                  rw [optLoop_long, if_neg hm, if_neg h1, if_neg h2]
          · by_cases hv : more ≠ [] ∧ ¬ (f = 'v' ∧ more.head? = some 'v')
            · refine stop (Or.inr (Or.inr (Or.inr ?_)))
              rw [optLoop_short c f hf, if_pos hv]
            · by_cases hm : more = []
              · subst hm
                by_cases hV : f = 'V'
                · subst hV
                  exact stop (Or.inr (Or.inl ⟨_, rest, rfl, Or.inl rfl⟩))
                · by_cases ht : f = 't' ∨ f = 'n' ∨ f = 'o'
                  · cases rest with
                    | nil =>
                      refine stop (Or.inr (Or.inr (Or.inr ?_)))
                      rw [optLoop_short c f hf, if_neg hv, if_neg hV, if_pos ht]
                    | cons y rest =>
                      cases hx : argFlag c f y with
                      | none =>
                        refine stop (Or.inr (Or.inr (Or.inr ?_)))
                        rw [optLoop_short c f hf, if_neg hv, if_neg hV, if_pos ht]
                        simp only [hx]
                      | some c' =>
                        rcases ht with rfl | rfl | rfl
                        · cases hy : formatOf y with
                          | none => simp [argFlag, hy] at hx
                          | some fm =>
                            have : ∃ w x, (fm, w) ∈ fmtWords ∧ y = w.toList ++ x := by
                              unfold formatOf at hy
                              split at hy
                              · next h => obtain ⟨x, h⟩ := hasPfx_iff.1 h; cases hy; exact ⟨_, x, by simp [fmtWords], h⟩
                              split at hy
                              · next h => obtain ⟨x, h⟩ := hasPfx_iff.1 h; cases hy; exact ⟨_, x, by simp [fmtWords], h⟩
                              split at hy
                              · next h => obtain ⟨x, h⟩ := hasPfx_iff.1 h; cases hy; exact ⟨_, x, by simp [fmtWords], h⟩
                              split at hy
                              · next h => obtain ⟨x, h⟩ := hasPfx_iff.1 h; cases hy; exact ⟨_, x, by simp [fmtWords], h⟩
                              split at hy
                              · next h => obtain ⟨x, h⟩ := hasPfx_iff.1 h; cases hy; exact ⟨_, x, by simp [fmtWords], h⟩
                              · cases hy
                            obtain ⟨w, x, h1, rfl⟩ := this
                            exact step (.format fm) [['-', 't'], w.toList ++ x] rest (.format x (Or.inl rfl) h1)
                              (by simp) rfl
                        · cases hy : initOf y with
                          | none => simp [argFlag, hy] at hx
                          | some i =>
                            have : ∃ w x, (i, w) ∈ initWords ∧ y.map Char.toLower = w.toList ++ x := by
                              unfold initOf at hy
                              simp only at hy
                              split at hy
                              · next h => obtain ⟨x, h⟩ := hasPfx_iff.1 h; cases hy; exact ⟨_, x, by simp [initWords], h⟩
                              split at hy
                              · next h => obtain ⟨x, h⟩ := hasPfx_iff.1 h; cases hy; exact ⟨_, x, by simp [initWords], h⟩
                              split at hy
                              · next h => obtain ⟨x, h⟩ := hasPfx_iff.1 h; cases hy; exact ⟨_, x, by simp [initWords], h⟩
                              · cases hy
                            obtain ⟨w, x, h1, h2⟩ := this
                            exact step (.init i) [['-', 'n'], y] rest (.init y x (Or.inl rfl) h1 h2) (by simp) rfl
                        · exact step (.output y) [['-', 'o'], y] rest (.output y) (by simp) rfl
                  · cases hx : plainFlag c f [] with
                    | none =>
                      refine stop (Or.inr (Or.inr (Or.inr ?_)))
                      rw [optLoop_short c f hf, if_neg hv, if_neg hV, if_neg ht]
                      simp only [hx]
                    | some c' =>
                      have : ∃ o, (o, String.ofList ['-', f]) ∈ flagWords := by
                        unfold plainFlag at hx
                        by_cases h : f = 'h'
                        · subst h; exact ⟨.help, by decide⟩
                        by_cases h : f = 'v'
                        · subst h; exact ⟨.verbose false, by decide⟩
                        by_cases h : f = 'l'
                        · subst h; exact ⟨.logging, by decide⟩
                        by_cases h : f = 's'
                        · subst h; exact ⟨.synt, by decide⟩
                        by_cases h : f = 'p'
                        · subst h; exact ⟨.ptdump, by decide⟩
                        by_cases h : f = 'r'
                        · subst h; exact ⟨.real, by decide⟩
                        by_cases h : f = 'i'
                        · subst h; exact ⟨.inter, by decide⟩
                        by_cases h : f = 'P'
                        · subst h; exact ⟨.promela, by decide⟩
                        simp_all
                      obtain ⟨o, ho⟩ := this
                      exact step o [['-', f]] rest (by simpa using Spelled.flag (loose := true) ho) (by simp) rfl
              · have : f = 'v' ∧ more.head? = some 'v' := by
                  by_contra h; exact hv ⟨hm, h⟩
                obtain ⟨rfl, h2⟩ := this
                cases more with
                | nil => exact absurd rfl hm
                | cons y more =>
                  have : y = 'v' := by simpa using h2
                  subst this
                  exact step (.verbose true) ["-vv".toList ++ more] rest
                    (.flagMore more rfl (by simp [flagWords]) (by simp [looseWords])) (by simp) rfl
      · cases rest with
        | nil => exact stop (Or.inl ⟨some a, .file a hd⟩)
        | cons b rest =>
          refine stop (Or.inr (Or.inr (Or.inr ?_)))
          rw [optLoop_file true c hc a _ (Or.inr hd)]
          rfl

/-- **C38, options.** The loop over the arguments ends with a configuration exactly for command lines
(in the loose spelling), and the configuration is what the command line asks for. It prints the version
exactly when options are followed by a request for it, whatever comes after. It reads beyond an argument
exactly when options are followed by a single dash. In all other cases it reports wrong usage. -/
theorem options_exact (args : List Arg) :
    (∀ c, optLoop true Cfg.default args = .go c ↔ ∃ os f, CmdLine true os f args ∧ c = meaning os f) ∧
    (optLoop true Cfg.default args = .version ↔
      ∃ os ws a rest, Opts true os ws ∧ VersionWord a ∧ args = ws ++ a :: rest) ∧
    (optLoop true Cfg.default args = .ub ↔ ∃ os ws rest, Opts true os ws ∧ args = ws ++ ['-'] :: rest) := by
  have g1 : ∀ os f, CmdLine true os f args → optLoop true Cfg.default args = .go (meaning os f) := by
    rintro os f ⟨ws, t, h1, h2, rfl⟩
    rw [optLoop_opts h1, optLoop_tail h2 _ (by rw [foldl_input]; rfl), foldl_meaning _ _ (by decide), meaning_eq]
  have g2 : (∃ os ws a rest, Opts true os ws ∧ VersionWord a ∧ args = ws ++ a :: rest) →
      optLoop true Cfg.default args = .version := by
    rintro ⟨os, ws, a, rest, h1, h2, rfl⟩
    rw [optLoop_opts h1, optLoop_version h2]
  have g3 : (∃ os ws rest, Opts true os ws ∧ args = ws ++ ['-'] :: rest) →
      optLoop true Cfg.default args = .ub := by
    rintro ⟨os, ws, rest, h1, rfl⟩
    rw [optLoop_opts h1, optLoop_dash]
  obtain ⟨os, ws, rest, h1, h2, h3⟩ := optLoop_classify args.length args Cfg.default le_rfl rfl
  have h3 : (∃ f, CmdLine true os f args) ∨
      (∃ os ws a rest, Opts true os ws ∧ VersionWord a ∧ args = ws ++ a :: rest) ∨
      (∃ os ws rest, Opts true os ws ∧ args = ws ++ ['-'] :: rest) ∨
      optLoop true Cfg.default args = .usage := by
    rcases h3 with ⟨f, h3⟩ | ⟨a, r, rfl, h3⟩ | ⟨r, rfl⟩ | h3
    · exact Or.inl ⟨f, ws, rest, h1, h3, h2⟩
    · exact Or.inr (Or.inl ⟨os, ws, a, r, h1, h3, h2⟩)
    · exact Or.inr (Or.inr (Or.inl ⟨os, ws, r, h1, h2⟩))
    · exact Or.inr (Or.inr (Or.inr h3))
  refine ⟨fun c => ⟨fun h => ?_, ?_⟩, ⟨fun h => ?_, g2⟩, ⟨fun h => ?_, g3⟩⟩
  · rcases h3 with ⟨f, h3⟩ | h3 | h3 | h3
    · have := g1 os f h3
      rw [h] at this
      exact ⟨os, f, h3, OptRes.go.inj this⟩
    · rw [g2 h3] at h; cases h
    · rw [g3 h3] at h; cases h
    · rw [h3] at h; cases h
  · rintro ⟨os, f, h, rfl⟩; exact g1 os f h
  · rcases h3 with ⟨f, h3⟩ | h3 | h3 | h3
    · rw [g1 os f h3] at h; cases h
    · exact h3
    · rw [g3 h3] at h; cases h
    · rw [h3] at h; cases h
  · rcases h3 with ⟨f, h3⟩ | h3 | h3 | h3
    · rw [g1 os f h3] at h; cases h
    · rw [g2 h3] at h; cases h
    · exact h3
    · rw [h3] at h; cases h

theorem Spelled.loosen {b : Bool} {o : Opt} {w : List Arg} (h : Spelled b o w) : Spelled true o w := by
  cases h with
  | flag h => exact .flag h
  | flagMore x _ h hw => exact .flagMore x rfl h hw
  | format x _ h => exact .format x (Or.inl rfl) h
  | init a x _ h ha => exact .init a x (Or.inl rfl) h ha
  | output a => exact .output a

theorem Opts.loosen {b : Bool} {os : List Opt} {ws : List Arg} (h : Opts b os ws) : Opts true os ws := by
  induction h with
  | nil => exact .nil
  | cons h _ ih => exact .cons h.loosen ih

/-- The first arguments that name another program or ask for help. -/
def commandWords : List String := ["rg", "patch", "autman", "help"]

/-- What the program does with the configuration of a command line. -/
def CfgResult (c : Cfg) : CliRes :=
  if c.help then .exit 0
  else if (c.input = none ∧ c.run = .interactive) ∨ (c.promela ∧ c.output = none) then .exit 1
  else .run c

theorem afterOptions_go (c : Cfg) : afterOptions (.go c) = CfgResult c := by
  unfold afterOptions CfgResult
  by_cases h1 : c.help = true
  · simp [h1]
  · by_cases h2 : c.input = none ∧ c.run = .interactive
    · simp [h1, h2]
    · by_cases h3 : (c.promela : Prop) ∧ c.output = none
      · simp [h1, h2, h3]
      · simp only [h1, if_neg h2, if_neg h3, if_neg (not_or.2 ⟨h2, h3⟩)]

/-- **C38, documented use.** Every command line in the documented spelling is understood as documented:
`-h` gives status 0, interaction without a file and `-P` without `-o` give status 1, otherwise the
program goes on with the options asked for, of every kind the last. -/
theorem cli_documented {os : List Opt} {f : Option Arg} {args : List Arg} (h : CmdLine false os f args)
    (hcmd : ∀ w ∈ commandWords, args.head? ≠ some w.toList) : cliMain args = CfgResult (meaning os f) := by
  have h' : CmdLine true os f args := by
    obtain ⟨ws, t, h1, h2, h3⟩ := h
    exact ⟨ws, t, h1.loosen, h2, h3⟩
  have := ((options_exact args).1 _).2 ⟨os, f, h', rfl⟩
  rw [← afterOptions_go, ← this]
  cases args with
  | nil => rfl
  | cons a rest =>
    simp only [commandWords, List.mem_cons, List.not_mem_nil, or_false, forall_eq_or_imp, forall_eq,
      List.head?_cons, ne_eq, Option.some.injEq] at hcmd
    obtain ⟨a1, a2, a3, a4⟩ := hcmd
    simp only [cliMain, if_neg a1, if_neg a2, if_neg a3, if_neg a4]

/-- **C38, all argument vectors.** The exact behaviour of the program up to reading the specification. -/
theorem cli_exact (args : List Arg) (hcmd : ∀ w ∈ commandWords, args.head? ≠ some w.toList) :
    (∀ c, cliMain args = .run c ↔ ∃ os f, CmdLine true os f args ∧ c = meaning os f ∧
      Opt.help ∉ os ∧ ¬ (f = none ∧ c.run = .interactive) ∧ ¬ (Opt.promela ∈ os ∧ c.output = none)) ∧
    (cliMain args = .ub ↔ ∃ os ws rest, Opts true os ws ∧ args = ws ++ ['-'] :: rest) ∧
    (cliMain args = .exit 0 ↔ (∃ os f, CmdLine true os f args ∧ Opt.help ∈ os) ∨
      ∃ os ws a rest, Opts true os ws ∧ VersionWord a ∧ args = ws ++ a :: rest) ∧
    ((∃ c, cliMain args = .run c) ∨ cliMain args = .ub ∨ cliMain args = .exit 0 ∨ cliMain args = .exit 1) := by
  have hmain : cliMain args = afterOptions (optLoop true Cfg.default args) := by
    cases args with
    | nil => rfl
    | cons a rest =>
      simp only [commandWords, List.mem_cons, List.not_mem_nil, or_false, forall_eq_or_imp, forall_eq,
        List.head?_cons, ne_eq, Option.some.injEq] at hcmd
      obtain ⟨a1, a2, a3, a4⟩ := hcmd
      simp only [cliMain, if_neg a1, if_neg a2, if_neg a3, if_neg a4]
  obtain ⟨k1, k2, k3⟩ := options_exact args
  rw [hmain]
  refine ⟨fun c => ⟨fun h => ?_, ?_⟩, ⟨fun h => ?_, fun h => ?_⟩, ⟨fun h => ?_, ?_⟩, ?_⟩
  · cases hl : optLoop true Cfg.default args with
    | usage => rw [hl] at h; cases h
    | version => rw [hl] at h; cases h
    | ub => rw [hl] at h; cases h
    | go c' =>
      rw [hl, afterOptions_go] at h
      obtain ⟨os, f, h1, h2⟩ := (k1 c').1 hl
      unfold CfgResult at h
      split at h
      · cases h
      · split at h
        · cases h
        · next n1 n2 =>
          cases h
          rw [not_or] at n2
          subst h2
          exact ⟨os, f, h1, rfl, by simpa [meaning] using n1, n2.1, by simpa [meaning] using n2.2⟩
  · rintro ⟨os, f, h1, rfl, n1, n2, n3⟩
    rw [(k1 _).2 ⟨os, f, h1, rfl⟩, afterOptions_go]
    unfold CfgResult
    rw [if_neg (by simpa [meaning] using n1), if_neg]
    rw [not_or]
    exact ⟨n2, by simpa [meaning] using n3⟩
  · cases hl : optLoop true Cfg.default args with
    | usage => rw [hl] at h; cases h
    | version => rw [hl] at h; cases h
    | ub => exact k3.1 hl
    | go c' =>
      rw [hl, afterOptions_go] at h
      unfold CfgResult at h
      split at h
      · cases h
      · split at h <;> cases h
  · rw [k3.2 h]; rfl
  · cases hl : optLoop true Cfg.default args with
    | usage => rw [hl] at h; cases h
    | version => exact Or.inr (k2.1 hl)
    | ub => rw [hl] at h; cases h
    | go c' =>
      rw [hl, afterOptions_go] at h
      obtain ⟨os, f, h1, h2⟩ := (k1 c').1 hl
      unfold CfgResult at h
      split at h
      · next n1 => subst h2; exact Or.inl ⟨os, f, h1, by simpa [meaning] using n1⟩
      · split at h <;> cases h
  · rintro (⟨os, f, h1, h2⟩ | h)
    · rw [(k1 _).2 ⟨os, f, h1, rfl⟩, afterOptions_go]
      unfold CfgResult
      rw [if_pos (by simpa [meaning] using h2)]
    · rw [k2.2 h]; rfl
  · cases hl : optLoop true Cfg.default args with
    | usage => exact Or.inr (Or.inr (Or.inr rfl))
    | version => exact Or.inr (Or.inr (Or.inl rfl))
    | ub => exact Or.inr (Or.inl rfl)
    | go c' =>
      rw [afterOptions_go]
      unfold CfgResult
      split
      · exact Or.inr (Or.inr (Or.inl rfl))
      · split
        · exact Or.inr (Or.inr (Or.inr rfl))
        · exact Or.inl ⟨c', rfl⟩

/-- **C38, commands.** `rg`, `patch` and `autman` as first argument pass all further arguments on; `help`
gives the help message only if it is the only argument. -/
theorem cli_commands (rest : List Arg) :
    cliMain ("rg".toList :: rest) = .exec "gr1c-rg" rest ∧
    cliMain ("patch".toList :: rest) = .exec "gr1c-patch" rest ∧
    cliMain ("autman".toList :: rest) = .exec "gr1c-autman" rest ∧
    (cliMain ("help".toList :: rest) = .exit 0 ↔ rest = []) := by
  refine ⟨rfl, rfl, rfl, ?_⟩
  have : cliMain ("help".toList :: rest) =
      afterOptions (optLoop false { Cfg.default with help := true } ("help".toList :: rest)) := rfl
  rw [this, optLoop_file false _ rfl _ _ (Or.inl rfl)]
  by_cases h : rest = []
  · subst h; simp [afterOptions]
  · simp [h, afterOptions]

/-! ## Examples and departures from the documentation -/

/-- A documented command line: `gr1c -v -r -t dot -n all_init -t aut -o out -s -- -beef`. -/
example : ∃ os f, CmdLine false os f (["-v", "-r", "-t", "dot", "-n", "ALL_init", "-t", "aut", "-o", "out", "-s", "--",
      "-beef"].map String.toList) ∧ (meaning os f).format = .aut ∧ (meaning os f).run = .syntaxOnly ∧
      (meaning os f).input = some "-beef".toList ∧ (meaning os f).init = .allInit := by
  refine ⟨[.verbose false, .real, .format .dot, .init .allInit, .format .aut, .output "out".toList, .synt],
    some "-beef".toList, ?_, by decide, by decide, by decide, by decide⟩
  refine ⟨["-v", "-r", "-t", "dot", "-n", "ALL_init", "-t", "aut", "-o", "out", "-s"].map String.toList,
    ["--".toList, "-beef".toList], ?_, .dashesFile _, rfl⟩
  exact .cons (.flag (w := "-v") (by decide)) (.cons (.flag (w := "-r") (by decide))
    (.cons (.format (w := "dot") [] (Or.inr rfl) (by decide))
    (.cons (.init (w := "all_init") "ALL_init".toList [] (Or.inr rfl) (by decide) (by decide))
    (.cons (.format (w := "aut") [] (Or.inr rfl) (by decide))
    (.cons (.output "out".toList) (.cons (.flag (w := "-s") (by decide)) .nil))))))

/-- **Departures from the documentation.** Misspelt words are taken (`-t jsonx`, `--helpless`, `-vvx`),
`gr1c help x` is wrong usage, a single dash is read beyond its end, and 256 times `-v` is quiet. -/
theorem cli_departures :
    (∃ c, cliMain (["-t", "jsonx"].map String.toList) = .run c ∧ c.format = .json) ∧
    cliMain (["--helpless"].map String.toList) = .exit 0 ∧
    (∃ c, cliMain (["-vvx"].map String.toList) = .run c ∧ c.verbose = 2) ∧
    cliMain (["help", "x"].map String.toList) = .exit 1 ∧
    cliMain (["-"].map String.toList) = .ub ∧
    (∃ c, cliMain (List.replicate 256 "-v".toList) = .run c ∧ c.verbose = 0) := by
  refine ⟨⟨Cfg.default, by decide +kernel, by decide +kernel⟩, by decide +kernel,
    ⟨{ Cfg.default with verbose := 2 }, by decide +kernel, by decide +kernel⟩,
    by decide +kernel, by decide +kernel, ?_⟩
  refine ⟨Cfg.default, by decide +kernel, rfl⟩

end Gr1c
