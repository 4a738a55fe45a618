import Verif.Dialog
import Verif.DialogSpec
import Verif.MainProps
import Verif.PatchFileLemmas
import Verif.PatchMainLemmas

/-!
# Lemmas for C72
-/

namespace Gr1c

/-! ## Lines -/

theorem ttyLines_line (l text : List Char) (hl : ∀ c ∈ l, c ≠ '\n' ∧ c ≠ Char.ofNat 0) (hlen : l.length ≤ 254) :
    ttyLines (l ++ '\n' :: text) = (l ++ ['\n']) :: ttyLines text := by
  rw [ttyLines, dif_neg (by simp), fgets_line 255 l text (fun c hc => (hl c hc).1) (by omega)]
  congr 1
  apply cstr_id
  intro c hc
  rcases List.mem_append.1 hc with h | h
  · exact (hl c h).2
  · rw [List.mem_singleton.1 h]; decide

theorem ttyLines_nil : ttyLines [] = [] := by rw [ttyLines, dif_pos rfl]

theorem ttyLines_last (l : List Char) (hl : ∀ c ∈ l, c ≠ '\n' ∧ c ≠ Char.ofNat 0) (hlen : l.length ≤ 254) (h0 : l ≠ []) :
    ttyLines l = [l] := by
  rw [ttyLines, dif_neg h0, fgets_last 255 l (fun c hc => (hl c hc).1) (by omega), ttyLines_nil, cstr_id fun c hc => (hl c hc).2]

theorem ttyLines_quit (rest : List Char) : ∃ r ls, ttyLines ("quit".toList ++ rest) = ("quit".toList ++ r) :: ls := by
  have h0 : "quit".toList ++ rest ≠ [] := by simp
  have hf : (fgets 255 ("quit".toList ++ rest)).1 = "quit".toList ++ (fgets 251 rest).1 := rfl
  refine ⟨cstr (fgets 251 rest).1, ttyLines (fgets 255 ("quit".toList ++ rest)).2, ?_⟩
  rw [ttyLines, dif_neg h0, hf]
  rfl

/-! ## Words -/

theorem read_len {vs : List ℤ} {rest : List Char} (h : Numbers vs rest) (k : ℕ) : (readStateStr rest k).length = min k vs.length := by
  rw [read_state_str_exact h, if_neg (by omega), List.length_map, List.length_take, Int.toNat_natCast]

theorem argCmd_short {vs : List ℤ} {rest : List Char} (h : Numbers vs rest) (input w : List Char) (hd : input.drop (w.length + 1) = rest)
    (len : ℕ) (mk : List ℕ → ICmd) (hk : vs.length < len) : argCmd input w len mk = .invalid := by
  unfold argCmd
  have := read_len h len
  simp only [hd]
  rw [if_neg (by omega)]

theorem modeCmd_short {vs : List ℤ} {rest : List Char} (h : Numbers vs rest) (input w : List Char) (hd : input.drop (w.length + 1) = rest)
    (len n : ℕ) (mk : List ℕ → ℕ → ICmd) (hk : vs.length < len + 1) : modeCmd input w len n mk = .invalid := by
  unfold modeCmd
  have := read_len h (len + 1)
  simp only [hd]
  rw [if_pos (by omega)]

theorem edgeCmd_short {vs : List ℤ} {rest : List Char} (h : Numbers vs rest) (input w : List Char) (hd : input.drop (w.length + 1) = rest)
    (ne ns : ℕ) (mk : List ℕ → ICmd) (hk : vs.length < 2 * (ne + ns)) (hk' : vs.length ≠ 2 * ne + ns) :
    edgeCmd ne ns input w mk = .invalid := by
  unfold edgeCmd
  have := read_len h (2 * (ne + ns))
  simp only [hd]
  rw [if_neg (by omega)]

theorem read_goal {vs more : List ℤ} {i : ℤ} {rest : List Char} (h : Numbers (vs ++ i :: more) rest) {len : ℕ} (hk : vs.length = len)
    (h1 : -2 ^ 31 ≤ i) (h2 : i < 2 ^ 31) : (readStateStr rest (len + 1 : ℕ)).length = len + 1 ∧ (readStateStr rest (len + 1 : ℕ)).getD len 0 = i := by
  refine ⟨?_, ?_⟩
  · rw [read_len h]; simp; omega
  · rw [read_state_str_exact h, if_neg (by omega), Int.toNat_natCast]
    subst hk
    rw [List.getD_eq_getElem?_getD, List.getElem?_map, List.getElem?_take_of_lt (by omega), List.getElem?_append_right le_rfl]
    simp [stored_int h1 h2]

theorem modeCmd_bad {vs more : List ℤ} {i : ℤ} {rest : List Char} (h : Numbers (vs ++ i :: more) rest) (input w : List Char)
    (hd : input.drop (w.length + 1) = rest) {len n : ℕ} (mk : List ℕ → ℕ → ICmd) (hk : vs.length = len) (h1 : -2 ^ 31 ≤ i) (h2 : i < 2 ^ 31)
    (hi : i < 0 ∨ (n : ℤ) ≤ i) : modeCmd input w len n mk = .badMode := by
  unfold modeCmd
  obtain ⟨a, b⟩ := read_goal h hk h1 h2
  simp only [hd, a, b]
  rw [if_neg (by omega), if_pos (by omega)]

theorem line_printgoal (ne ns n : ℕ) (r : List Char) : parseLine ne ns n ("printgoal ".toList ++ r) = .other := rfl

theorem not_starts {w : String} {line : List Char} (h : ¬ w.toList <+: line) : startsWith w.toList line = false := by
  unfold startsWith
  rw [← Bool.not_eq_true, List.isPrefixOf_iff_prefix]
  exact h

theorem line_unknown (ne ns n : ℕ) {line : List Char} (h : ∀ w ∈ sessionWords, ¬ w.toList <+: line) : parseLine ne ns n line = .other := by
  have k : ∀ w ∈ sessionWords, startsWith w.toList line = false := fun w hw => not_starts (h w hw)
  simp only [sessionWords, List.mem_cons, List.not_mem_nil, or_false, forall_eq_or_imp, forall_eq] at k
  obtain ⟨a1, a2, a3, a4, a5, a6, a7, a8, a9, b1, b2, b3, b4, b5, b6, b7, b8, b9, c1, c2, c3, c4⟩ := k
  unfold parseLine
  simp only [a1, a2, a3, a4, a5, a6, a7, a8, a9, b1, b2, b3, b4, b5, b6, b7, b8, b9, c1, c2, c3, c4, Bool.false_eq_true, if_false,
    ite_self]

theorem info_unknown (I : IInfo) {line : List Char} (h : ∀ w ∈ sessionWords, ¬ w.toList <+: line) :
    infoSays I line = "Unrecognized command: ".toList ++ line := by
  have k : ∀ w ∈ sessionWords, startsWith w.toList line = false := fun w hw => not_starts (h w hw)
  simp only [sessionWords, List.mem_cons, List.not_mem_nil, or_false, forall_eq_or_imp, forall_eq] at k
  obtain ⟨a1, a2, a3, a4, a5, a6, a7, a8, a9, b1, b2, b3, b4, b5, b6, b7, b8, b9, c1, c2, c3, c4⟩ := k
  unfold infoSays
  simp only [a2, a3, a4, a5, a6, a7, a8, b2, b3, Bool.false_eq_true, if_false]

/-! ## Variables -/

theorem varLoop_eq (ds : Decls) : ∀ k, varLoop k ds.tree = listVars k ds := by
  induction ds with
  | nil => intro k; rfl
  | cons d ds ih =>
    intro k
    cases ds with
    | nil =>
      show varItem (some d.1) k = _
      simp [listVars, varItem, List.intercalate]
    | cons d2 ds =>
      have e : varLoop k (Decls.tree (d :: d2 :: ds)) = varItem (some d.1) k ++ ", ".toList ++ varLoop (k + 1) (Decls.tree (d2 :: ds)) := rfl
      rw [e, ih (k + 1)]
      simp [listVars, varItem, List.intercalate, List.intersperse]

theorem listVars_append (k : ℕ) (a b : Decls) (hb : b ≠ []) : listVars k (a ++ b) = varLoopAll k a.tree ++ listVars (k + a.length) b := by
  induction a generalizing k with
  | nil => simp [varLoopAll, Decls.tree, ofItems]
  | cons d a ih =>
    have e : varLoopAll k (Decls.tree (d :: a)) = varItem (some d.1) k ++ ", ".toList ++ varLoopAll (k + 1) (Decls.tree a) := rfl
    rw [e, List.append_assoc, List.length_cons, show k + (a.length + 1) = k + 1 + a.length by omega, ← ih (k + 1)]
    obtain ⟨x, xs, hx⟩ : ∃ x xs, a ++ b = x :: xs := by
      cases a with
      | nil => exact List.exists_cons_of_ne_nil hb
      | cons y ys => exact ⟨_, _, rfl⟩
    rw [List.cons_append, hx]
    simp [listVars, varItem, List.intercalate, List.intersperse]

/-! ## Replies -/

theorem answerRow_eq (row : List ℕ) : answerRow row = bitsText row := by
  cases row with
  | nil => rfl
  | cons x xs =>
    induction xs generalizing x with
    | nil => simp [answerRow, bitsText, List.intercalate]
    | cons y ys ih =>
      have := ih y
      simp only [answerRow, bitsText, List.intercalate, List.flatMap_cons, List.map_cons, List.intersperse, List.flatten_cons,
        List.cons_append, List.append_assoc, List.nil_append] at this ⊢
      rw [this]

theorem outText_eq (o : IOut) : outText o = answerText o := by
  cases o with
  | rows l =>
    show l.flatMap answerRow ++ _ = (l.map bitsText).flatten ++ _
    rw [List.flatMap_def, funext answerRow_eq]
  | truth b => cases b <;> rfl
  | _ => rfl

/-- What the questions look at. -/
structure InfoOf (d : FileData) (I : IInfo) (n : ℕ) : Prop where
  ev : I.ev = d.evars.tree
  sv : I.sv = d.svars.tree
  svars : d.svars ≠ []
  egoals : I.egoals = (if d.sp.egoals = [] then [.const 1] else d.sp.egoals).map Fm.toTree
  sgoals : I.sgoals = (sysGoals d.sp).map Fm.toTree
  number : n = (sysGoals d.sp).length
  small : n ≤ 2 ^ 31

theorem tree_nil_iff (ds : Decls) : ds.tree = .nil ↔ ds = [] := by cases ds <;> simp [Decls.tree, ofItems]

theorem sgoal_at {d : FileData} {I : IInfo} {n : ℕ} (h : InfoOf d I n) (i : ℕ) (hi : i < n) :
    printFormula false (I.sgoals.getD i .nil) = ((sysGoals d.sp)[i]?).elim [] fmText := by
  have hi' : i < (sysGoals d.sp).length := by rw [← h.number]; exact hi
  rw [h.sgoals, List.getD_eq_getElem?_getD, List.getElem?_map, List.getElem?_eq_getElem hi']
  rfl

theorem says_other {I : IInfo} {ne ns n : ℕ} {line : List Char} (h : parseLine ne ns n line = .other) (h0 : line ≠ []) :
    lineSays I ne ns n line = infoSays I line ++ ['\n'] := by
  unfold lineSays
  rw [h]
  simp only [if_neg h0]

/-- A line that leads to no command. -/
def QuietLine (ne ns n : ℕ) (line : List Char) : Prop :=
  parseLine ne ns n line = .other ∨ parseLine ne ns n line = .invalid ∨ parseLine ne ns n line = .badMode

theorem says_invalid {I : IInfo} {ne ns n : ℕ} {line : List Char} (h : parseLine ne ns n line = .invalid) :
    QuietLine ne ns n line ∧ lineSays I ne ns n line = "Invalid arguments.\n".toList := by
  refine ⟨Or.inr (Or.inl h), ?_⟩
  unfold lineSays
  rw [h]

theorem word_says {I : IInfo} {ne ns n : ℕ} {line t : List Char} (h : parseLine ne ns n line = .other) (h0 : line ≠ [])
    (ht : infoSays I line ++ ['\n'] = t) : QuietLine ne ns n line ∧ lineSays I ne ns n line = t :=
  ⟨Or.inl h, (says_other h h0).trans ht⟩

theorem info_printgoal (I : IInfo) (r : List Char) : infoSays I ("printgoal ".toList ++ r) = printGoal I ("printgoal ".toList ++ r) := rfl

theorem says_printgoal {d : FileData} {I : IInfo} {ne ns n : ℕ} (h : InfoOf d I n) (i : ℕ) (hi : i < n) (r : List Char) (more : List ℤ) (hn : Numbers ((i : ℤ) :: more) r) :
    QuietLine ne ns n ("printgoal ".toList ++ r) ∧ lineSays I ne ns n ("printgoal ".toList ++ r) = Query.reply d (.printgoal i) := by
  refine word_says rfl (by simp) ?_
  obtain ⟨a, b⟩ := read_goal (vs := []) (more := more) (i := i) hn rfl (by omega) (by have := h.small; omega)
  rw [info_printgoal]
  unfold printGoal
  have e : ("printgoal ".toList ++ r).drop 10 = r := rfl
  rw [e]
  have hr : readStateStr r 1 = [(i : ℤ)] := by
    have a' : (readStateStr r 1).length = 1 := a
    have b' : (readStateStr r 1).getD 0 0 = i := b
    match hx : readStateStr r 1, a' with
    | [x], _ => rw [hx] at b'; simpa using b'
  rw [hr]
  simp only
  have hl : I.sgoals.length = n := by rw [h.sgoals, List.length_map, h.number]
  rw [if_neg (by rw [hl]; omega), Int.toNat_natCast, sgoal_at h i hi]
  rfl

theorem says_printegoals {d : FileData} {I : IInfo} {ne ns n : ℕ} (h : InfoOf d I n) (r : List Char) :
    QuietLine ne ns n ("printegoals".toList ++ r) ∧ lineSays I ne ns n ("printegoals".toList ++ r) = Query.reply d .printegoals := by
  refine word_says rfl (by simp) ?_
  show printEgoals I ++ ['\n'] = _
  have e : Query.reply d .printegoals = ((if d.sp.egoals = [] then [.const 1] else d.sp.egoals).flatMap fun f => fmText f ++ ['\n']) ++
    ("---".toList ++ ['\n']) := rfl
  rw [e, ← List.append_assoc]
  congr 1
  unfold printEgoals fmText
  rw [h.egoals, List.flatMap_map]

theorem says_short {d : FileData} {I : IInfo} {ne ns n : ℕ} (h : InfoOf d I n) (w : String) (k : ℕ) (hw : (w, k) ∈ wordNumbers ne ns) (r : List Char) (vs : List ℤ) (hn : Numbers vs r)
    (hk : vs.length < k) :
    QuietLine ne ns n (w.toList ++ r) ∧ lineSays I ne ns n (w.toList ++ r) = Query.reply d .short := by
  simp only [wordNumbers, List.mem_cons, List.not_mem_nil, or_false, Prod.mk.injEq] at hw
  rcases hw with ⟨rfl, rfl⟩ | ⟨rfl, rfl⟩ | ⟨rfl, rfl⟩ | ⟨rfl, rfl⟩ | ⟨rfl, rfl⟩ | ⟨rfl, rfl⟩ | ⟨rfl, rfl⟩ | ⟨rfl, rfl⟩
  · exact says_invalid (by rw [line_winning, argCmd_short hn _ _ (drop_winning r) _ _ hk])
  · exact says_invalid (by rw [line_envnext, argCmd_short hn _ _ (drop_envnext r) _ _ hk])
  · exact says_invalid (by rw [line_sysnext, modeCmd_short hn _ _ (drop_sysnext r) _ _ _ (by omega)])
  · exact says_invalid (by rw [line_sysnexta, argCmd_short hn _ _ (drop_sysnexta r) _ _ (by omega)])
  · exact says_invalid (by rw [line_blockenv, argCmd_short hn _ _ (drop_blockenv r) _ _ hk])
  · exact says_invalid (by rw [line_blocksys, argCmd_short hn _ _ (drop_blocksys r) _ _ hk])
  · exact says_invalid (by rw [line_getindex, modeCmd_short hn _ _ (drop_getindex r) _ _ _ (by omega)])
  · refine word_says rfl (by simp) ?_
    rw [info_printgoal]
    unfold printGoal
    have e : ("printgoal ".toList ++ r).drop 10 = r := rfl
    rw [e]
    have a' : (readStateStr r 1).length = min 1 vs.length := read_len hn 1
    rw [List.eq_nil_of_length_eq_zero (l := readStateStr r 1) (by omega)]
    rfl

theorem says_nogoal {d : FileData} {I : IInfo} {ne ns n : ℕ} (h : InfoOf d I n) (w : String) (k : ℕ) (hw : (w, k) ∈ goalNumbers ne ns) (r : List Char) (vs : List ℤ) (i : ℤ) (more : List ℤ)
    (hn : Numbers (vs ++ i :: more) r) (hk : vs.length = k) (hi : i < 0 ∨ (n : ℤ) ≤ i) (h1 : -2 ^ 31 ≤ i) (h2 : i < 2 ^ 31) :
    QuietLine ne ns n (w.toList ++ r) ∧ lineSays I ne ns n (w.toList ++ r) = Query.reply d (.nogoal i) := by
  simp only [goalNumbers, List.mem_cons, List.not_mem_nil, or_false, Prod.mk.injEq] at hw
  rcases hw with ⟨rfl, rfl⟩ | ⟨rfl, rfl⟩ | ⟨rfl, rfl⟩
  · have e : parseLine ne ns n ("sysnext ".toList ++ r) = .badMode := by
      rw [line_sysnext, modeCmd_bad hn _ _ (drop_sysnext r) _ (by omega) h1 h2 hi]
    refine ⟨Or.inr (Or.inr e), ?_⟩
    unfold lineSays
    rw [e]
    simp only
    have e2 : badModeOf ne ns ("sysnext ".toList ++ r) = (readStateStr r (2 * ne + ns + 1 : ℕ)).getD (2 * ne + ns) 0 := rfl
    rw [e2, (read_goal hn (by omega) h1 h2).2]
    rfl
  · have e : parseLine ne ns n ("getindex ".toList ++ r) = .badMode := by
      rw [line_getindex, modeCmd_bad hn _ _ (drop_getindex r) _ hk h1 h2 hi]
    refine ⟨Or.inr (Or.inr e), ?_⟩
    unfold lineSays
    rw [e]
    simp only
    have e2 : badModeOf ne ns ("getindex ".toList ++ r) = (readStateStr r (ne + ns + 1 : ℕ)).getD (ne + ns) 0 := rfl
    rw [e2, (read_goal hn hk h1 h2).2]
    rfl
  · refine word_says rfl (by simp) ?_
    obtain ⟨a, b⟩ := read_goal hn hk h1 h2
    rw [info_printgoal]
    unfold printGoal
    have e : ("printgoal ".toList ++ r).drop 10 = r := rfl
    rw [e]
    have hr : readStateStr r 1 = [i] := by
      have a' : (readStateStr r 1).length = 1 := a
      have b' : (readStateStr r 1).getD 0 0 = i := b
      match hx : readStateStr r 1, a' with
      | [x], _ => rw [hx] at b'; simpa using b'
    rw [hr]
    simp only
    have hl : I.sgoals.length = n := by rw [h.sgoals, List.length_map, h.number]
    rw [if_pos (by rw [hl]; omega)]
    rfl

/-- The replies to questions. -/
theorem query_says {d : FileData} {I : IInfo} {ne ns n : ℕ} (h : InfoOf d I n) {q : Query} {line : List Char} (hq : q.Line ne ns n line) :
    QuietLine ne ns n line ∧ lineSays I ne ns n line = q.reply d := by
  cases hq with
  | help r =>
    refine word_says rfl (by simp) ?_
    show helpStr ++ ['\n'] = sessionHelp.flatMap fun s => s.toList ++ ['\n']
    decide +kernel
  | enable r => exact word_says rfl (by simp) rfl
  | disable r => exact word_says rfl (by simp) rfl
  | numgoals r =>
    refine word_says rfl (by simp) ?_
    show printInt I.sgoals.length ++ ['\n'] = _
    rw [h.sgoals, List.length_map]
    rfl
  | envvar r =>
    refine word_says rfl (by simp) ?_
    show (if I.ev = .nil then "(none)".toList else varLoop 0 I.ev) ++ ['\n'] = _
    simp only [h.ev, tree_nil_iff, varLoop_eq]
    rfl
  | sysvar r =>
    refine word_says rfl (by simp) ?_
    show (if I.sv = .nil then "(none)".toList else varLoop I.ev.size I.sv) ++ ['\n'] = _
    simp only [h.sv, h.ev, tree_nil_iff, varLoop_eq, tree_size]
    rfl
  | var r =>
    refine word_says rfl (by simp) ?_
    show varLoopAll 0 I.ev ++ varLoop I.ev.size I.sv ++ ['\n'] = _
    rw [h.sv, h.ev, varLoop_eq, tree_size]
    have := listVars_append 0 d.evars d.svars h.svars
    rw [Nat.zero_add] at this
    rw [← this]
    rfl
  | printgoal i hi r more hn => exact says_printgoal h i hi r more hn
  | printegoals r => exact says_printegoals h r
  | short w k hw r vs hn hk => exact says_short h w k hw r vs hn hk
  | shortEdge w hw r vs hn hk hk' =>
    rcases hw with rfl | rfl
    · exact says_invalid (by rw [line_restrict, edgeCmd_short hn _ _ (drop_restrict r) _ _ _ hk (by omega)])
    · exact says_invalid (by rw [line_relax, edgeCmd_short hn _ _ (drop_relax r) _ _ _ hk (by omega)])
  | nogoal w k hw r vs i more hn hk hi h1 h2 => exact says_nogoal h w k hw r vs i more hn hk hi h1 h2
  | unknown _ h0 hw =>
    refine word_says (line_unknown ne ns n hw) h0 ?_
    rw [info_unknown I hw]
    rfl

/-! ## The loop -/

theorem talk_quiet {ne ns m n : ℕ} {cover : Bdd (2 * (ne + ns)) → List (CubeArr (2 * (ne + ns)))} {sp : ISpec ne ns m n} {I : IInfo}
    {σ : ISess ne ns m n} {l : List Char} {ls : List (List Char)} (h : QuietLine ne ns n l) :
    talkLoop cover sp I σ (l :: ls) = (talkLoop cover sp I σ ls).after (iPrompt ++ lineSays I ne ns n l) ∧
      sessLoop cover sp σ (l :: ls) = sessLoop cover sp σ ls := by
  rcases h with h | h | h <;> exact ⟨by rw [talkLoop, h], by rw [sessLoop, h]⟩

theorem talk_cmd {ne ns m n : ℕ} {cover : Bdd (2 * (ne + ns)) → List (CubeArr (2 * (ne + ns)))} {sp : ISpec ne ns m n} {I : IInfo}
    {σ σ1 : ISess ne ns m n} {l : List Char} {ls : List (List Char)} {c : ICmd} {o : IOut} {os : List IOut} {t : List Char}
    (h : parseLine ne ns n l = .cmd c) (hc : iStep cover sp σ c = .ok (σ1, o)) (ht : talkLoop cover sp I σ1 ls = .ok t)
    (hs : sessLoop cover sp σ1 ls = .ok os) :
    talkLoop cover sp I σ (l :: ls) = .ok (iPrompt ++ outText o ++ t) ∧ sessLoop cover sp σ (l :: ls) = .ok (o :: os) := by
  refine ⟨?_, ?_⟩
  · rw [talkLoop, h]
    simp only [hc, ht]
    rfl
  · rw [sessLoop, h]
    simp only [hc, hs]

theorem transcript_cons (r : List Char) (rs : List (List Char)) : transcript (r :: rs) = iPrompt ++ r ++ transcript rs := by
  simp [transcript, iPrompt]

/-- One line, with what comes after. -/
theorem talk_line {ne ns m n : ℕ} {cover : Bdd (2 * (ne + ns)) → List (CubeArr (2 * (ne + ns)))} {sp : ISpec ne ns m n} {I : IInfo}
    {d : FileData} (hI : InfoOf d I n) {it : SItem ne ns n} {line : List Char} (h : it.Line line) {ls : List (List Char)}
    {its : List (SItem ne ns n)}
    (ih : ∀ (σ σ' : ISess ne ns m n) (os : List IOut), iRun cover sp σ ((sessionCmds its).map ACmd.enc) = .ok (σ', os) →
      talkLoop cover sp I σ ls = .ok (transcript (sessionReplies d its os)) ∧ sessLoop cover sp σ ls = .ok os)
    (σ σ' : ISess ne ns m n) (os : List IOut) (hr : iRun cover sp σ ((sessionCmds (it :: its)).map ACmd.enc) = .ok (σ', os)) :
    talkLoop cover sp I σ (line :: ls) = .ok (transcript (sessionReplies d (it :: its) os)) ∧ sessLoop cover sp σ (line :: ls) = .ok os := by
  cases h with
  | ask q _ hq =>
    obtain ⟨h1, h2⟩ := query_says hI hq
    obtain ⟨k1, k2⟩ := talk_quiet (cover := cover) (sp := sp) (I := I) (σ := σ) (ls := ls) h1
    obtain ⟨i1, i2⟩ := ih σ σ' os hr
    refine ⟨?_, k2.trans i2⟩
    rw [k1, i1, h2, sessionReplies, transcript_cons]
    rfl
  | cmd c r hnum =>
    have hp := parse_command (n := n) hI.small c r [] (by cases c <;> trivial) (by simpa using hnum)
    have e : (sessionCmds (.cmd c :: its)).map ACmd.enc = c.enc :: (sessionCmds its).map ACmd.enc := rfl
    rw [e, iRun] at hr
    cases hc : iStep cover sp σ c.enc with
    | ub => rw [hc] at hr; cases hr
    | null => rw [hc] at hr; cases hr
    | ok x =>
      obtain ⟨σ1, o⟩ := x
      rw [hc] at hr
      simp only at hr
      split at hr
      · cases hr
      · cases hr
      · rename_i σ2 os2 h2
        simp only [CRes.ok.injEq, Prod.mk.injEq] at hr
        obtain ⟨rfl, rfl⟩ := hr
        obtain ⟨i1, i2⟩ := ih _ _ _ h2
        obtain ⟨k1, k2⟩ := talk_cmd hp hc i1 i2
        refine ⟨?_, k2⟩
        rw [k1, sessionReplies, transcript_cons, outText_eq]

theorem talk_text {ne ns m n : ℕ} {cover : Bdd (2 * (ne + ns)) → List (CubeArr (2 * (ne + ns)))} {sp : ISpec ne ns m n} {I : IInfo}
    {d : FileData} (hI : InfoOf d I n) {typed : List Char} {its : List (SItem ne ns n)} (h : SessionText typed its) :
    ∀ (σ σ' : ISess ne ns m n) (os : List IOut), iRun cover sp σ ((sessionCmds its).map ACmd.enc) = .ok (σ', os) →
      talkLoop cover sp I σ (ttyLines typed) = .ok (transcript (sessionReplies d its os)) ∧
        sessLoop cover sp σ (ttyLines typed) = .ok os := by
  have hend : ∀ (σ σ' : ISess ne ns m n) (os : List IOut), iRun cover sp σ ((sessionCmds ([] : List (SItem ne ns n))).map ACmd.enc) = .ok (σ', os) →
      os = [] := by
    intro σ σ' os hr
    simp only [sessionCmds, List.filterMap_nil, List.map_nil, iRun, CRes.ok.injEq, Prod.mk.injEq] at hr
    exact hr.2.symm
  induction h with
  | eof =>
    intro σ σ' os hr
    rw [ttyLines_nil, hend σ σ' os hr]
    exact ⟨rfl, rfl⟩
  | quit rest =>
    intro σ σ' os hr
    obtain ⟨r, ls, e⟩ := ttyLines_quit rest
    rw [e, hend σ σ' os hr]
    exact ⟨rfl, rfl⟩
  | line it l text its hl hlen hw ht ih =>
    rw [ttyLines_line l text hl hlen]
    exact talk_line hI hw ih
  | last it l hl hlen h0 hw =>
    rw [ttyLines_last l hl hlen h0]
    refine talk_line hI hw ?_
    intro σ σ' os hr
    rw [hend σ σ' os hr]
    exact ⟨rfl, rfl⟩

/-! ## Nothing to expand -/

theorem exp_none (ds : Decls) (h : ∀ x ∈ ds, x.2 < 0) : expDecls ds = ds := by
  induction ds with
  | nil => rfl
  | cons d ds ih =>
    rw [expDecls_cons, ih fun x hx => h x (List.mem_cons_of_mem _ hx)]
    have := h d (List.mem_cons_self ..)
    unfold expDecls
    rw [List.flatMap_singleton, if_neg (by omega)]
    rfl

theorem expandAll_none (ds : Decls) (h : ∀ x ∈ ds, x.2 < 0) (sp : TSpec) : expandAll ds.tree sp = .ok sp := by
  induction ds with
  | nil => rfl
  | cons d ds ih =>
    have := h d (List.mem_cons_self ..)
    show expandAll (.node .var (some d.1) d.2 (Decls.tree ds) .nil) sp = _
    rw [expandAll, if_neg (by omega), ih fun x hx => h x (List.mem_cons_of_mem _ hx)]

theorem blockEnv_none (flag : InitFlag) (ds : Decls) (h : ∀ x ∈ ds, x.2 = -1) (sp : TSpec) : blockEnv flag ds.tree sp = sp := by
  induction ds with
  | nil => rfl
  | cons d ds ih =>
    show blockEnv flag (.node .var (some d.1) d.2 (Decls.tree ds) .nil) sp = _
    rw [blockEnv, if_pos (h d (List.mem_cons_self ..)), ih fun x hx => h x (List.mem_cons_of_mem _ hx)]

theorem blockSys_none (flag : InitFlag) (ds : Decls) (h : ∀ x ∈ ds, x.2 = -1) (sp : TSpec) : blockSys flag ds.tree sp = sp := by
  induction ds with
  | nil => rfl
  | cons d ds ih =>
    show blockSys flag (.node .var (some d.1) d.2 (Decls.tree ds) .nil) sp = _
    rw [blockSys, if_pos (h d (List.mem_cons_self ..)), ih fun x hx => h x (List.mem_cons_of_mem _ hx)]

theorem expand_none {e s : Decls} (he : GoodDecls e) (hs : GoodDecls s) (hb : ∀ x ∈ e ++ s, x.2 < 0) (flag : InitFlag) (sp : TSpec) :
    expandNonboolGR1 e.tree s.tree flag sp = .ok sp := by
  have h1 : ∀ x ∈ e, x.2 = -1 := fun x hx => (he x hx).resolve_right (by have := hb x (List.mem_append_left _ hx); omega)
  have h2 : ∀ x ∈ s, x.2 = -1 := fun x hx => (hs x hx).resolve_right (by have := hb x (List.mem_append_right _ hx); omega)
  unfold expandNonboolGR1
  rw [chain_tree, blockEnv_none flag e h1, blockSys_none flag s h2, expandAll_none _ hb]

end Gr1c
