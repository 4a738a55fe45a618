import Verif.DialogLemmas
import Verif.SpinDumpProps
import Verif.PathCover

/-!
# C72: the dialogue of the interactive mode
-/

namespace Gr1c

/-! ## The transcript -/

/-- **C72, the transcript.** `gr1c -i`, called in the documented way and without `-v`, `-l` and `-p` on a file that meets `GoodSpec`, with
Boolean variables only and at least one of the system: for every text typed, standard output has, for each line, the prompt and the reply:
to questions about the specification what `Query.reply` says about the file, to commands about the game the answers specified by
`ACmd.Answer`; and the prompt in the end. (Partial: lines have at most 254 characters, see `long_line_split` and `long_state_refused`;
`addvar` is refused, see `addvar_not`; `sysnext` must only be used for winning states with up to date levels.) -/
theorem session_dialogue_partial {w : World} {args : List Arg} {os : List Opt} {f : Option Arg} {d : FileData}
    (h : RunsOn w args os f d) (hg : GoodSpec d (meaning os f).init) (hr : (meaning os f).run = .interactive)
    (hv : (meaning os f).verbose = 0) (hl : (meaning os f).logging = false) (hp : (meaning os f).ptdump = false)
    (hb : ∀ x ∈ d.evars ++ d.svars, x.2 < 0) (hs : d.svars ≠ []) (hn : (sysGoals d.sp).length ≤ 2 ^ 31)
    (hcov : ∀ N (f : Bdd N), IsCover f (w.cover N f)) :
    ∃ B : BitSpec (expDecls d.evars).length (expDecls d.svars).length,
      Represents d.evars d.svars (meaning os f).init d.sp B ∧
      let sp : ISpec _ _ _ _ := ⟨B.etrans, B.strans, (withDefaultGoal B.egs).get, B.sgs.get⟩
      ∀ (typed : List Char) (its : List (SItem _ _ B.sgs.length)), SessionText typed its →
        Asks sp B.game ⟨B.game, B.game, B.game⟩ (sessionCmds its) →
        ∃ answers, Answers sp B.game ⟨B.game, B.game, B.game⟩ (sessionCmds its) answers ∧
          talkMain w args typed = .ok (transcript (sessionReplies d its answers)) ∧
          gr1cMain { w with lines := ttyLines typed } args = .session answers := by
  obtain ⟨h1, h2, B, h3, h4, h5⟩ := main_front h hg
  refine ⟨B, h5, ?_⟩
  intro sp typed its hsc hask
  obtain ⟨text, hcall, hsays⟩ := h.called
  obtain ⟨hpar, hge, hgs⟩ := hsays.parsed
  have hbe : ∀ x ∈ d.evars, x.2 < 0 := fun x hx => hb x (List.mem_append_left _ hx)
  have hbs : ∀ x ∈ d.svars, x.2 < 0 := fun x hx => hb x (List.mem_append_right _ hx)
  have hsurj : ∀ (ds : Decls), (∀ x ∈ ds, x.2 < 0) → ((expDecls ds).map Prod.fst).Nodup →
      ∀ v : Val (expDecls ds).length, ∃ u, encVal ds u = v := by
    intro ds hds hnd v
    apply enc_surj hnd
    intro x hx h0
    have := hds x hx
    omega
  have hse := hsurj d.evars hbe hg.fresh.xevars
  have hss := hsurj d.svars hbs hg.fresh.xsvars
  have hE : NoPrimedSys B.etrans := by
    rintro ⟨s1, s2⟩ e x x'
    obtain ⟨s1, rfl⟩ := hse s1
    obtain ⟨s2, rfl⟩ := hss s2
    obtain ⟨e, rfl⟩ := hse e
    obtain ⟨x, rfl⟩ := hss x
    obtain ⟨x', rfl⟩ := hss x'
    have a := h5.unprimed (s1, s2) e x
    have b := h5.unprimed (s1, s2) e x'
    exact Bool.eq_iff_iff.2 (a.trans b.symm)
  have hns : 0 < (expDecls d.svars).length := by
    rw [exp_none _ hbs]
    exact List.length_pos_iff.2 hs
  have hlen : B.sgs.length = (sysGoals d.sp).length := by
    rw [← h5.sgs.length_eq, List.length_map]
  obtain ⟨σ', as, hrun⟩ := interactive_total (w.cover _) (hcov _) (withDefaultGoal_pos B.egs)
    (List.length_pos_iff.2 h4) hns B.interactive hE (sessionCmds its) hask
  obtain ⟨as', rfl, hans, -⟩ := interactive_session (w.cover _) (hcov _) (withDefaultGoal_pos B.egs)
    (List.length_pos_iff.2 h4) hns B.interactive hE (sessionCmds its) σ' as hrun
  have hnil : (d.evars ++ d.svars).filter (fun d => decide (0 ≤ d.2)) = [] := by
    rw [List.filter_eq_nil_iff]
    intro x hx
    have := hb x hx
    simp; omega
  rw [hnil] at h3
  have hexp : expandNonboolGR1 d.toP.ev d.toP.sv (meaning os f).init (omissionDefaults d.toP.sp) =
      .ok (omissionDefaults d.toP.sp) := expand_none hge hgs hb _ _
  have hom : omissionDefaults d.toP.sp = (withDefaults d.sp).toT := omissionDefaults_toT d.sp
  have hI : InfoOf d ⟨(expDecls d.evars).tree, (expDecls d.svars).tree, sessGoals (omissionDefaults d.toP.sp),
      (omissionDefaults d.toP.sp).sgoals⟩ B.sgs.length := by
    refine ⟨by rw [exp_none _ hbe], by rw [exp_none _ hbs], hs, ?_, ?_, hlen, by omega⟩
    · rw [hom]
      show (if d.sp.egoals.map Fm.toTree = [] then [initPtree .const none 1] else d.sp.egoals.map Fm.toTree) = _
      cases d.sp.egoals with
      | nil => rfl
      | cons a b => rfl
    · rw [hom]; rfl
  have hstart : ∃ σ1, iStep (w.cover _) B.interactive (iStart B.interactive) .relevels = .ok (σ1, .nothing) ∧
      iRun (w.cover _) B.interactive σ1 ((sessionCmds its).map ACmd.enc) = .ok (σ', as') := by
    rw [iRun] at hrun
    split at hrun
    · cases hrun
    · cases hrun
    · rename_i σ1 o1 hstep
      split at hrun
      · cases hrun
      · cases hrun
      · rename_i σ2 os2 hrest
        simp only [CRes.ok.injEq, Prod.mk.injEq, List.cons.injEq] at hrun
        obtain ⟨rfl, rfl, rfl⟩ := hrun
        exact ⟨σ1, hstep, hrest⟩
  obtain ⟨σ1, hstep, hrest⟩ := hstart
  obtain ⟨t1, t2⟩ := talk_text hI hsc _ _ _ hrest
  refine ⟨as', hans, ?_, ?_⟩
  · unfold talkMain
    rw [called_run hcall]
    simp only
    rw [if_pos ⟨hr, hv, hl, hp⟩]
    have e : w.source (meaning os f).input = some text := hcall.source.source
    simp only [e, hpar]
    unfold talkParsed
    rw [h3, hexp]
    simp only
    rw [if_neg (by decide)]
    unfold talkGame
    rw [hstep]
    exact t1
  · have hW : RunsOn { w with lines := ttyLines typed } args os f d :=
      ⟨⟨text, ⟨hcall.line, hcall.command, hcall.noHelp, hcall.needsFile, hcall.needsOutput, hcall.source⟩, hsays⟩, h.dump⟩
    rw [main_parsed hW]
    generalize hc : meaning os f = c at *
    unfold runParsed
    simp only [hr, if_neg h2, h3]
    rw [if_neg (by decide)]
    have hl' : levelsetInteractive { w with lines := ttyLines typed } B = .ok as' := by
      unfold levelsetInteractive
      simp only [hstep]
      exact t2
    rw [hl']

/-! ## Reading a transcript -/

theorem span_unique {p : Char → Prop} {a b : List Char} (ha : ∀ c ∈ a, p c) (hb : ∀ c ∈ b, p c) {x y : Char} (hx : ¬ p x) (hy : ¬ p y)
    {s t : List Char} (h : a ++ x :: s = b ++ y :: t) : a = b ∧ x :: s = y :: t := by
  induction a generalizing b with
  | nil =>
    cases b with
    | nil => exact ⟨rfl, h⟩
    | cons c b =>
      simp only [List.nil_append, List.cons_append, List.cons.injEq] at h
      exact absurd (h.1 ▸ hb c (List.mem_cons_self ..)) hx
  | cons c a ih =>
    cases b with
    | nil =>
      simp only [List.nil_append, List.cons_append, List.cons.injEq] at h
      exact absurd (h.1 ▸ ha c (List.mem_cons_self ..)) hy
    | cons c' b =>
      simp only [List.cons_append, List.cons.injEq] at h
      obtain ⟨h1, h2⟩ := ih (fun c hc => ha c (List.mem_cons_of_mem _ hc)) (fun c hc => hb c (List.mem_cons_of_mem _ hc)) h.2
      exact ⟨by rw [h.1, h1], h2⟩

theorem natText_digits (x : ℕ) : ∀ c ∈ printInt (x : ℤ), isDig c = true := by
  rw [printInt_nonneg (by omega)]
  exact decimal_digits _

theorem natText_inj {x y : ℕ} (h : printInt (x : ℤ) = printInt (y : ℤ)) : x = y := by
  rw [printInt_nonneg (by omega), printInt_nonneg (by omega)] at h
  have := decimal_inj h
  omega

theorem natText_ne (x : ℕ) : printInt (x : ℤ) ≠ [] := by
  rw [printInt_nonneg (by omega)]
  exact decimal_ne_nil _

/-- The text of a row without its newline. -/
def rowBody (row : List ℕ) : List Char := List.intercalate [' '] (row.map fun x : ℕ => printInt x)

theorem rowBody_chars (row : List ℕ) : ∀ c ∈ rowBody row, isDig c = true ∨ c = ' ' := by
  unfold rowBody
  induction row with
  | nil => intro c hc; simp at hc
  | cons x xs ih =>
    intro c hc
    cases xs with
    | nil => simp only [List.map_cons, List.map_nil, List.intercalate_singleton] at hc; exact Or.inl (natText_digits x c hc)
    | cons y ys =>
      rw [List.map_cons, List.map_cons, List.intercalate_cons_cons] at hc
      simp only [List.append_assoc, List.mem_append, List.mem_singleton] at hc
      rcases hc with hc | hc | hc
      · exact Or.inl (natText_digits x c hc)
      · exact Or.inr hc
      · exact ih c (by rw [List.map_cons]; exact hc)

theorem map_natText_inj {a b : List ℕ} (h : (a.map fun x : ℕ => printInt (x : ℤ)) = b.map fun x : ℕ => printInt (x : ℤ)) : a = b := by
  induction a generalizing b with
  | nil => cases b with
    | nil => rfl
    | cons y ys => simp at h
  | cons x xs ih =>
    cases b with
    | nil => simp at h
    | cons y ys =>
      simp only [List.map_cons, List.cons.injEq] at h
      rw [natText_inj h.1, ih h.2]

theorem rowBody_inj {a b : List ℕ} (h : rowBody a = rowBody b) : a = b := by
  have key : ∀ l : List ℕ, l ≠ [] → (rowBody l).splitOn ' ' = l.map fun x : ℕ => printInt (x : ℤ) := by
    intro l hl
    unfold rowBody
    apply List.splitOn_intercalate
    · intro t ht hm
      obtain ⟨x, -, rfl⟩ := List.mem_map.1 ht
      exact absurd (natText_digits x _ hm) (by decide)
    · simpa using hl
  have ne : ∀ x xs, rowBody (x :: xs) ≠ [] := by
    intro x xs h0
    unfold rowBody at h0
    cases xs with
    | nil => simp only [List.map_cons, List.map_nil, List.intercalate_singleton] at h0; exact natText_ne x h0
    | cons y ys =>
      rw [List.map_cons, List.map_cons, List.intercalate_cons_cons] at h0
      simp at h0
  cases a with
  | nil =>
    cases b with
    | nil => rfl
    | cons y ys => exact absurd h.symm (ne y ys)
  | cons x xs =>
    cases b with
    | nil => exact absurd h (ne x xs)
    | cons y ys =>
      have := congrArg (fun s => s.splitOn ' ') h
      simp only [key _ (List.cons_ne_nil x xs), key _ (List.cons_ne_nil y ys)] at this
      exact map_natText_inj this

theorem bitsText_eq (row : List ℕ) : bitsText row = rowBody row ++ ['\n'] := rfl

theorem rows_inj {a b : List (List ℕ)} (h : (a.map bitsText).flatten ++ "---\n".toList = (b.map bitsText).flatten ++ "---\n".toList) : a = b := by
  have key : ∀ (row : List ℕ) (t : List Char), "---\n".toList ≠ bitsText row ++ t := by
    intro row t h
    rw [bitsText_eq] at h
    have hc := rowBody_chars row
    cases hb : rowBody row with
    | nil =>
      rw [hb] at h
      have := congrArg List.head? h
      exact absurd this (by simp)
    | cons c cs =>
      rw [hb] at h
      have := congrArg List.head? h
      have e : c = '-' := by simpa using this.symm
      have := hc c (by rw [hb]; exact List.mem_cons_self ..)
      rw [e] at this
      exact absurd this (by decide)
  induction a generalizing b with
  | nil =>
    cases b with
    | nil => rfl
    | cons y ys =>
      simp only [List.map_nil, List.flatten_nil, List.nil_append, List.map_cons, List.flatten_cons, List.append_assoc] at h
      exact absurd h (key y _)
  | cons x xs ih =>
    cases b with
    | nil =>
      simp only [List.map_nil, List.flatten_nil, List.nil_append, List.map_cons, List.flatten_cons, List.append_assoc] at h
      exact absurd h.symm (key x _)
    | cons y ys =>
      simp only [List.map_cons, List.flatten_cons, List.append_assoc, bitsText_eq, List.singleton_append] at h
      have hnl : ∀ row : List ℕ, ∀ c ∈ rowBody row, c ≠ '\n' := by
        intro row c hc e
        have := rowBody_chars row c hc
        rw [e] at this
        exact absurd this (by decide)
      obtain ⟨h1, h2⟩ := span_unique (p := fun c => c ≠ '\n') (hnl x) (hnl y) (x := '\n') (y := '\n') (by simp) (by simp) h
      rw [rowBody_inj h1, ih (List.cons.inj h2).2]

theorem rows_dash (l : List (List ℕ)) : '-' ∈ answerText (.rows l) := by
  show '-' ∈ (l.map bitsText).flatten ++ "---\n".toList
  exact List.mem_append_right _ (by decide)

/-- The text of an answer tells the answer. -/
theorem answerText_inj {o o' : IOut} (h : answerText o = answerText o') : o = o' := by
  have dash : ∀ l (t : List Char), '-' ∉ t → answerText (.rows l) ≠ t := fun l t ht e => ht (e ▸ rows_dash l)
  have hidx : ∀ j : ℕ, '-' ∉ answerText (.index j) := by
    intro j hm
    rcases List.mem_append.1 (show '-' ∈ printInt (j : ℤ) ++ ['\n'] from hm) with h | h
    · exact absurd (natText_digits j _ h) (by decide)
    · exact absurd h (by decide)
  have hhd : ∀ j : ℕ, ∃ c t, answerText (.index j) = c :: t ∧ isDig c = true := by
    intro j
    obtain ⟨c, t, hct⟩ := List.exists_cons_of_ne_nil (natText_ne j)
    refine ⟨c, t ++ ['\n'], ?_, natText_digits j c (by rw [hct]; exact List.mem_cons_self ..)⟩
    show printInt (j : ℤ) ++ ['\n'] = _
    rw [hct]; rfl
  have hidx2 : ∀ (j : ℕ) (t : List Char), (∀ c, t.head? = some c → isDig c = false) → answerText (.index j) ≠ t := by
    intro j t ht e
    obtain ⟨c, s, h1, h2⟩ := hhd j
    have := ht c (by rw [← e, h1]; rfl)
    rw [this] at h2
    cases h2
  have hT : ∀ b, answerText (.truth b) = if b then "True\n".toList else "False\n".toList := by intro b; cases b <;> rfl
  cases o with
  | nothing =>
    cases o' with
    | nothing => rfl
    | rows l => exact absurd h.symm (dash l _ (by decide))
    | noEnv => exact absurd h (by decide)
    | truth b => cases b <;> exact absurd h (by decide)
    | inf => exact absurd h (by decide)
    | index j => exact absurd h.symm (hidx2 j _ (by simp [answerText]))
  | rows l =>
    cases o' with
    | nothing => exact absurd h (dash l _ (by decide))
    | rows l' => rw [rows_inj h]
    | noEnv => exact absurd h (dash l _ (by decide))
    | truth b => cases b <;> exact absurd h (dash l _ (by decide))
    | inf => exact absurd h (dash l _ (by decide))
    | index j => exact absurd h (dash l _ (hidx j))
  | noEnv =>
    cases o' with
    | nothing => exact absurd h (by decide)
    | rows l => exact absurd h.symm (dash l _ (by decide))
    | noEnv => rfl
    | truth b => cases b <;> exact absurd h (by decide)
    | inf => exact absurd h (by decide)
    | index j => exact absurd h.symm (hidx2 j _ (by decide))
  | truth b =>
    cases o' with
    | nothing => cases b <;> exact absurd h (by decide)
    | rows l => cases b <;> exact absurd h.symm (dash l _ (by decide))
    | noEnv => cases b <;> exact absurd h (by decide)
    | truth b' => cases b <;> cases b' <;> first | rfl | exact absurd h (by decide)
    | inf => cases b <;> exact absurd h (by decide)
    | index j => cases b <;> exact absurd h.symm (hidx2 j _ (by decide))
  | inf =>
    cases o' with
    | nothing => exact absurd h (by decide)
    | rows l => exact absurd h.symm (dash l _ (by decide))
    | noEnv => exact absurd h (by decide)
    | truth b => cases b <;> exact absurd h (by decide)
    | inf => rfl
    | index j => exact absurd h.symm (hidx2 j _ (by decide))
  | index j =>
    cases o' with
    | nothing => exact absurd h (hidx2 j _ (by simp [answerText]))
    | rows l => exact absurd h.symm (dash l _ (hidx j))
    | noEnv => exact absurd h (hidx2 j _ (by decide))
    | truth b => cases b <;> exact absurd h (hidx2 j _ (by decide))
    | inf => exact absurd h (hidx2 j _ (by decide))
    | index j' =>
      have h' : printInt (j : ℤ) ++ ['\n'] = printInt (j' : ℤ) ++ ['\n'] := h
      rw [natText_inj (List.append_cancel_right h')]

theorem answerText_noprompt (o : IOut) : ∀ c ∈ answerText o, c ≠ '>' := by
  have hd : ∀ x : ℕ, ∀ c ∈ printInt (x : ℤ), c ≠ '>' := by
    intro x c hc e
    have := natText_digits x c hc
    rw [e] at this
    exact absurd this (by decide)
  cases o with
  | nothing => intro c hc; cases hc
  | rows l =>
    intro c hc
    rcases List.mem_append.1 (show c ∈ (l.map bitsText).flatten ++ "---\n".toList from hc) with h | h
    · simp only [List.mem_flatten, List.mem_map] at h
      obtain ⟨_, ⟨row, -, rfl⟩, h2⟩ := h
      rcases List.mem_append.1 (show c ∈ rowBody row ++ ['\n'] from h2) with h3 | h3
      · rcases rowBody_chars row c h3 with h4 | h4
        · rintro rfl; exact absurd h4 (by decide)
        · rw [h4]; decide
      · rw [List.mem_singleton.1 h3]; decide
    · exact (show ∀ c ∈ "---\n".toList, c ≠ '>' by decide) c h
  | noEnv => decide
  | truth b => cases b <;> decide
  | inf => decide
  | index j =>
    intro c hc
    rcases List.mem_append.1 (show c ∈ printInt (j : ℤ) ++ ['\n'] from hc) with h | h
    · exact hd j c h
    · rw [List.mem_singleton.1 h]; decide

theorem transcript_head (rs : List (List Char)) : ∃ t, transcript rs = '>' :: t := by
  cases rs with
  | nil => exact ⟨_, rfl⟩
  | cons r rs => exact ⟨_, rfl⟩

/-- **C72, the transcript tells the answers.** For the same lines typed, different answers give different transcripts: nothing that a
command about the game finds out is lost. -/
theorem transcript_answers {ne ns n : ℕ} (d : FileData) (its : List (SItem ne ns n)) (os os' : List IOut)
    (h : os.length = (sessionCmds its).length) (h' : os'.length = (sessionCmds its).length)
    (e : transcript (sessionReplies d its os) = transcript (sessionReplies d its os')) : os = os' := by
  induction its generalizing os os' with
  | nil =>
    rw [List.eq_nil_of_length_eq_zero (l := os) h, List.eq_nil_of_length_eq_zero (l := os') h']
  | cons it its ih =>
    cases it with
    | ask q =>
      simp only [sessionReplies, transcript_cons] at e
      exact ih os os' h h' (List.append_cancel_left e)
    | cmd c =>
      cases os with
      | nil => simp [sessionCmds] at h
      | cons o os =>
        cases os' with
        | nil => simp [sessionCmds] at h'
        | cons o' os' =>
          simp only [sessionReplies, transcript_cons, List.append_assoc] at e
          have e2 := List.append_cancel_left e
          obtain ⟨t, ht⟩ := transcript_head (sessionReplies d its os)
          obtain ⟨t', ht'⟩ := transcript_head (sessionReplies d its os')
          rw [ht, ht'] at e2
          obtain ⟨k1, k2⟩ := span_unique (p := fun c => c ≠ '>') (answerText_noprompt o) (answerText_noprompt o') (by simp) (by simp) e2
          rw [← ht, ← ht'] at k2
          rw [answerText_inj k1, ih os os' (by simpa [sessionCmds] using h) (by simpa [sessionCmds] using h') k2]

/-! ## What does not work -/

/-- **C72 is false as documented.** `addvar` is in the list that `help` prints, but every line that begins with it is refused as
unknown. -/
theorem addvar_not (ne ns n : ℕ) (I : IInfo) (r : List Char) :
    "addvar env (sys) VARIABLE" ∈ sessionHelp ∧ parseLine ne ns n ("addvar".toList ++ r) = .other ∧
      lineSays I ne ns n ("addvar".toList ++ r) = "Unrecognized command: addvar".toList ++ r ++ ['\n'] :=
  ⟨by decide, rfl, rfl⟩

/-- A longer line is taken for two. -/
theorem long_line_split (l rest : List Char) (hl : ∀ c ∈ l, c ≠ '\n' ∧ c ≠ Char.ofNat 0) (hlen : l.length = 255) :
    ttyLines (l ++ rest) = l :: ttyLines rest := by
  have key : ∀ (n : ℕ) (a b : List Char), (∀ c ∈ a, c ≠ '\n') → a.length = n → fgets n (a ++ b) = (a, b) := by
    intro n a
    induction a generalizing n with
    | nil => intro b _ h; rw [← h]; rfl
    | cons c a ih =>
      intro b hc h
      obtain ⟨m, rfl⟩ : ∃ m, n = m + 1 := ⟨a.length, by simpa using h.symm⟩
      rw [List.cons_append, fgets, if_neg (hc c (List.mem_cons_self ..)),
        ih m b (fun x hx => hc x (List.mem_cons_of_mem _ hx)) (by simpa using h)]
  have h0 : l ++ rest ≠ [] := by
    intro e
    rw [List.append_eq_nil_iff] at e
    rw [e.1] at hlen
    cases hlen
  rw [ttyLines, dif_neg h0, key 255 l rest (fun c hc => (hl c hc).1) hlen, cstr_id fun c hc => (hl c hc).2]

theorem numbers_space {vs : List ℤ} {s : List Char} (h : Numbers vs s) :
    2 * vs.length ≤ s.length + 1 ∧ ((∀ c, s.head? = some c → isDig c = false) → 2 * vs.length ≤ s.length) := by
  induction h with
  | nil s _ => simp
  | cons ws w v vs s hws hw hs _ ih =>
    have i2 := ih.2 hs
    obtain ⟨ds, hds, hdig, hw⟩ := hw
    have hdl : 1 ≤ ds.length := List.length_pos_iff.2 hds
    have hwl : ds.length ≤ w.length := by
      rcases hw with ⟨rfl, -⟩ | ⟨rfl | rfl, -⟩ <;> simp
    refine ⟨by simp only [List.length_cons, List.length_append]; omega, ?_⟩
    intro hh
    cases ws with
    | cons a ws => simp only [List.length_cons, List.length_append]; omega
    | nil =>
      rcases hw with ⟨rfl, -⟩ | ⟨rfl | rfl, -⟩
      · simp only [List.length_cons, List.length_append, List.nil_append]; omega
      · obtain ⟨c, cs, rfl⟩ := List.exists_cons_of_ne_nil hds
        have := hh c rfl
        rw [hdig c (List.mem_cons_self ..)] at this
        cases this
      · simp only [List.length_cons, List.length_append, List.nil_append]; omega

theorem ttyLines_short (typed : List Char) : ∀ l ∈ ttyLines typed, l.length ≤ 255 := by
  have key : ∀ (n : ℕ) (s : List Char), (fgets n s).1.length ≤ n := by
    intro n
    induction n with
    | zero => intro s; simp [fgets]
    | succ n ih =>
      intro s
      cases s with
      | nil => simp [fgets]
      | cons c s =>
        rw [fgets]
        split
        · simp
        · have := ih s
          simp only [List.length_cons]
          omega
  fun_induction ttyLines typed with
  | case1 => intro l hl; cases hl
  | case2 typed h ih =>
    intro l hl
    rcases List.mem_cons.1 hl with rfl | hl
    · exact le_trans (List.takeWhile_sublist _).length_le (key 255 typed)
    · exact ih l hl

/-- **C72, a limit of the dialogue.** With more than 124 variables there is no way to ask whether a state is winning: whatever is typed,
no line leads to the command `winning`, because a line has at most 255 characters. -/
theorem long_state_refused (ne ns n : ℕ) (h : 124 < ne + ns) (typed : List Char) (r : List Char)
    (hl : "winning ".toList ++ r ∈ ttyLines typed) : parseLine ne ns n ("winning ".toList ++ r) = .invalid := by
  have hlen := ttyLines_short typed _ hl
  obtain ⟨vs, hvs⟩ := numbers_exists r
  have hb := (numbers_space hvs).1
  have h8 : ("winning ".toList ++ r).length = 8 + r.length := by rw [List.length_append]; rfl
  rw [line_winning, argCmd_short hvs _ _ (drop_winning r) _ _ (by omega)]

/-! ## Examples -/

namespace DialogEx

open MainEx

/-- Typed: four lines, the last three a command, a wrong one and `quit`. -/
def talk : List Char := "sysvar\nwinning 0\nprintgoal 7\nwinning\nquit\n".toList

def talkItems (n : ℕ) : List (SItem 0 1 n) :=
  [.ask .sysvar, .cmd (.winning (fun _ => false, fun _ => false)), .ask (.nogoal 7), .ask (.unknown "winning\n".toList)]

theorem talk_text_ex (n : ℕ) (hn : n ≤ 7) : SessionText talk (talkItems n) := by
  have h0 : Numbers [0] "0\n".toList := .cons [] ['0'] 0 _ _ (by unfold Spaces; decide)
    ⟨['0'], by decide, by decide, Or.inr ⟨Or.inl rfl, by decide⟩⟩ (by decide) nothing_more
  have h7 : Numbers [7] "7\n".toList := .cons [] ['7'] 7 _ _ (by unfold Spaces; decide)
    ⟨['7'], by decide, by decide, Or.inr ⟨Or.inl rfl, by decide⟩⟩ (by decide) nothing_more
  exact .line (.ask .sysvar) "sysvar".toList _ _ (by decide) (by decide) (.ask _ _ (.sysvar ['\n']))
    (.line _ "winning 0".toList _ _ (by decide) (by decide) (.cmd (.winning (fun _ => false, fun _ => false)) "0\n".toList h0)
    (.line _ "printgoal 7".toList _ _ (by decide) (by decide)
      (.ask _ _ (.nogoal "printgoal " 0 (by decide) "7\n".toList [] 7 [] h7 rfl (Or.inr (by omega)) (by decide) (by decide)))
    (.line _ "winning".toList _ _ (by decide) (by decide) (.ask _ _ (.unknown "winning\n".toList (by decide) (by decide)))
    (.quit "\n".toList))))

/-- All hypotheses of `session_dialogue_partial` hold for `gr1c -i s.spc` with this text typed. -/
example : ∃ w a, (a = "True\n" ∨ a = "False\n") ∧ talkMain w ["-i".toList, "s.spc".toList] talk =
    .ok (">>> x (0)\n".toList ++ ">>> ".toList ++ a.toList ++ ">>> Invalid mode: 7\n".toList ++
      ">>> Unrecognized command: winning\n\n".toList ++ ">>> ".toList) := by
  obtain ⟨text, ht⟩ := says2
  let w : World := { world text [] 0 with cover := fun _ f => mintermCover f }
  have hrun : RunsOn w ["-i".toList, "s.spc".toList] [.inter] (some "s.spc".toList) d2 :=
    ⟨⟨text, ⟨⟨["-i".toList], ["s.spc".toList], .cons (.flag (by decide)) .nil, .file _ (by decide), rfl⟩, by decide, by decide,
      by simp, by decide, Or.inl ⟨_, rfl, by simp [w, world]⟩⟩, ht⟩, fun h => absurd h (by decide)⟩
  obtain ⟨B, h1, h2⟩ := session_dialogue_partial hrun good2 rfl rfl rfl rfl (by decide) (by decide) (by decide)
    (fun _ f => mintermCover_isCover f)
  have hl : B.sgs.length = 1 := by rw [← h1.sgs.length_eq, List.length_map]; rfl
  obtain ⟨as, h3, h4, -⟩ := h2 talk (talkItems _) (talk_text_ex _ (by omega)) ⟨trivial, trivial⟩
  match as, h3 with
  | [o], h3 =>
    obtain ⟨b, hb, -⟩ := h3.1
    rw [hb] at h4
    refine ⟨w, if b then "True\n" else "False\n", by cases b <;> decide, ?_⟩
    rw [h4]
    cases b <;> rfl

/-- The texts of different answers differ. -/
example : transcript (sessionReplies d2 (talkItems 1) [.truth true]) ≠ transcript (sessionReplies d2 (talkItems 1) [.truth false]) :=
  fun h => absurd (transcript_answers d2 (talkItems 1) _ _ rfl rfl h) (by decide)

/-- 255 letters and `quit`: the session ends. -/
example : ttyLines (List.replicate 255 'a' ++ "quit\n".toList) = [List.replicate 255 'a', "quit\n".toList] := by
  rw [long_line_split _ _ (by intro c hc; rw [List.eq_of_mem_replicate hc]; decide) List.length_replicate,
    show ttyLines "quit\n".toList = ["quit\n".toList] by
      have := ttyLines_line "quit".toList [] (by decide) (by decide)
      rw [ttyLines_nil] at this
      exact this]

/-- 125 variables, 125 values: refused. -/
example : parseLine 60 65 1 ("winning ".toList ++ (List.replicate 123 ['0', ' ']).flatten ++ ['0']) = .invalid := by
  have hm : "winning ".toList ++ ((List.replicate 123 ['0', ' ']).flatten ++ ['0']) ∈
      ttyLines ("winning ".toList ++ (List.replicate 125 ['0', ' ']).flatten) := by
    have e : "winning ".toList ++ (List.replicate 125 ['0', ' ']).flatten =
        ("winning ".toList ++ ((List.replicate 123 ['0', ' ']).flatten ++ ['0'])) ++ " 0 ".toList := by decide +kernel
    rw [e, long_line_split _ _ (by decide +kernel) (by decide +kernel)]
    exact List.mem_cons_self ..
  have := long_state_refused 60 65 1 (by decide) _ _ hm
  rwa [← List.append_assoc] at this

end DialogEx

end Gr1c
