import Verif.AutIO
import Verif.AutIOSpec

/-!
# Reading the text of an automaton file
-/

namespace Gr1c

theorem spTab_space {c : Char} (h : isSpTab c = true) : isSpaceC c = true := by
  simp only [isSpTab, Bool.or_eq_true, beq_iff_eq] at h
  rcases h with rfl | rfl <;> decide

theorem spTab_notDig {c : Char} (h : isSpTab c = true) : isDig c = false := by
  simp only [isSpTab, Bool.or_eq_true, beq_iff_eq] at h
  rcases h with rfl | rfl <;> decide

theorem endLine_head {e : List Char} (h : EndLine e) : ∀ c, e.head? = some c → isDig c = false := by
  intro c hc
  rcases h with rfl | rfl <;> (simp only [List.head?_cons, Option.some.injEq] at hc; subst hc; decide)

theorem endLine_ne {e : List Char} (h : EndLine e) : e ≠ [] := by rcases h with rfl | rfl <;> simp

theorem endLine_spaces {e : List Char} (h : EndLine e) : Spaces e := by
  unfold Spaces
  rcases h with rfl | rfl <;> decide

theorem row_head {s e : List Char} (hs : ∀ c, s.head? = some c → isSpTab c = true) (he : EndLine e) :
    ∀ c, (s ++ e).head? = some c → isDig c = false := by
  intro c hc
  cases s with
  | nil => exact endLine_head he c hc
  | cons d s => exact spTab_notDig (hs c hc)

theorem strtol_row {v : ℤ} {vs : List ℤ} {s e : List Char} (h : Row (v :: vs) s) (he : EndLine e) :
    ∃ s', strtol (s ++ e) = some (clampLong v, s' ++ e) ∧ Row vs s' ∧ ∀ c, s'.head? = some c → isSpTab c = true := by
  cases h with
  | cons ws w _ _ s' h1 h2 h3 h4 =>
    refine ⟨s', ?_, h4, h3⟩
    rw [List.append_assoc, List.append_assoc]
    exact strtol_int (fun c hc => spTab_space (h1 c hc)) h2 (row_head h3 he)

theorem strtol_spaces {s : List Char} (h : Spaces s) : strtol s = none := by
  unfold strtol
  have : s.dropWhile isSpaceC = [] := by
    have := dropWhile_append_all (a := s) (b := []) h
    simpa using this
  simp [this, splitSign]

theorem strtol_row_nil {s e : List Char} (h : Row [] s) (he : EndLine e) : strtol (s ++ e) = none := by
  cases h with
  | nil _ hs =>
    refine strtol_spaces fun c hc => ?_
    rcases List.mem_append.1 hc with hc | hc
    · exact spTab_space (hs c hc)
    · exact endLine_spaces he c hc

theorem readInts_row {e : List Char} (he : EndLine e) (vs us : List ℤ) {s : List Char} (h : Row (vs ++ us) s) :
    ∃ s', readInts vs.length (s ++ e) = some (vs.map stored, s' ++ e) ∧ Row us s' := by
  induction vs generalizing s with
  | nil => exact ⟨s, rfl, h⟩
  | cons v vs ih =>
    obtain ⟨s1, h1, h2, _⟩ := strtol_row h he
    obtain ⟨s2, h3, h4⟩ := ih h2
    refine ⟨s2, ?_, h4⟩
    rw [List.length_cons, readInts, if_neg (by simp [endLine_ne he]), h1]
    simp only [h3, Option.map_some, List.map_cons, stored]

theorem readAll_row {e : List Char} (he : EndLine e) (vs : List ℤ) {s : List Char} (h : Row vs s) :
    readAll (s ++ e) = vs.map stored := by
  induction vs generalizing s with
  | nil =>
    rw [readAll]
    split
    · rfl
    · rename_i h1; rw [strtol_row_nil h he] at h1; cases h1
  | cons v vs ih =>
    obtain ⟨s1, h1, h2, _⟩ := strtol_row h he
    rw [readAll]
    split
    · rename_i h3; rw [h1] at h3; cases h3
    · rename_i h3; rw [h1] at h3; cases h3
      rw [ih h2]; rfl

/-- What the loader stores for a node of the file. -/
def FileNode.lineRec (r : FileNode) : LineRec :=
  ⟨r.id, r.state, some r.initial, r.mode, r.rgrad, r.trans.map fun (t : ℕ) => (t : ℤ)⟩

theorem map_stored {vs : List ℤ} (h : ∀ v ∈ vs, -2 ^ 31 ≤ v ∧ v < 2 ^ 31) : vs.map stored = vs := by
  conv_rhs => rw [← List.map_id vs]
  exact List.map_congr_left fun v hv => stored_int (h v hv).1 (h v hv).2

theorem readInitial_row {ver : ℕ} (hv : ver = 0 ∨ ver = 1) {b : Bool} (hb : ver = 0 → b = false) {us : List ℤ}
    {s e : List Char} (he : EndLine e)
    (h : Row ((if ver = 1 then [if b then 1 else 0] else []) ++ us) s) :
    ∃ s', readInitial ver (s ++ e) = some (some b, s' ++ e) ∧ Row us s' := by
  rcases hv with rfl | rfl
  · rw [hb rfl]
    exact ⟨s, rfl, h⟩
  · rw [if_pos rfl] at h
    obtain ⟨s1, h1, h2, _⟩ := strtol_row h he
    refine ⟨s1, ?_, h2⟩
    unfold readInitial
    rw [if_pos (by rfl), h1]
    simp only [List.append_eq_nil_iff, endLine_ne he, and_false, if_false]
    cases b
    · rw [if_pos (by decide)]
    · rw [if_neg (by decide), if_pos (by decide)]

theorem readLine_row {ver len : ℕ} (hv : ver = 0 ∨ ver = 1) {r : FileNode} (hr : r.Ok ver len) {s e : List Char}
    (he : EndLine e) (h : Row ((r.values ver).tail) s) : readLine len ver r.id (s ++ e) = .ok r.lineRec := by
  obtain ⟨h1, h2, h3⟩ := hr
  unfold FileNode.values at h h3
  rw [List.tail_cons] at h
  obtain ⟨s1, e1, k1⟩ := readInts_row he _ _ h
  obtain ⟨s2, e2, k2⟩ := readInitial_row hv h2 he k1
  obtain ⟨s3, e3, k3, _⟩ := strtol_row k2 he
  obtain ⟨s4, e4, k4, _⟩ := strtol_row k3 he
  have e5 := readAll_row he _ k4
  rw [map_stored fun v hv => h3 v (by simp only [List.mem_cons, List.mem_append]; tauto)] at e1 e5
  unfold readLine
  rw [← h1, e1]
  simp only [e2, e3, e4, List.append_eq_nil_iff, endLine_ne he, and_false, if_false, e5]
  have hm := h3 r.mode (by simp)
  have hg := h3 r.rgrad (by simp)
  have e6 : toInt (clampLong r.mode) = r.mode := stored_int hm.1 hm.2
  have e7 : toInt (clampLong r.rgrad) = r.rgrad := stored_int hg.1 hg.2
  rw [e6, e7]
  rfl

/-! ## Lines -/

theorem fgets_line (n : ℕ) (line s : List Char) (h : ∀ c ∈ line, c ≠ '\n') (hl : line.length < n) :
    fgets n (line ++ '\n' :: s) = (line ++ ['\n'], s) := by
  induction line generalizing n with
  | nil =>
    cases n with
    | zero => simp at hl
    | succ n => simp [fgets]
  | cons c line ih =>
    cases n with
    | zero => simp at hl
    | succ n =>
      rw [List.cons_append, fgets, if_neg (h c (by simp)),
        ih n (fun d hd => h d (by simp [hd])) (by simpa using hl)]
      rfl

theorem cstr_id {s : List Char} (h : ∀ c ∈ s, c ≠ Char.ofNat 0) : cstr s = s := by
  unfold cstr
  have := takeWhile_append_all (p := (· != Char.ofNat 0)) (a := s) (b := []) (fun c hc => by simpa using h c hc)
  simpa using this

/-- A line as the loop sees it: complete, without NUL, ended by a newline. -/
def IsLine (line : List Char) : Prop :=
  ∃ l, line = l ++ ['\n'] ∧ (∀ c ∈ l, c ≠ '\n' ∧ c ≠ Char.ofNat 0) ∧ line.length < 4096

theorem isLine_read {line : List Char} (h : IsLine line) (s : List Char) :
    cstr (fgets 4095 (line ++ s)).1 = line ∧ (fgets 4095 (line ++ s)).2 = s ∧ line ++ s ≠ [] := by
  obtain ⟨l, rfl, h1, h2⟩ := h
  simp only [List.length_append, List.length_singleton] at h2
  rw [List.append_assoc, List.singleton_append, fgets_line 4095 l s (fun c hc => (h1 c hc).1) (by omega)]
  refine ⟨cstr_id fun c hc => ?_, rfl, by simp⟩
  rcases List.mem_append.1 hc with hc | hc
  · exact (h1 c hc).2
  · simp only [List.mem_singleton] at hc; subst hc; decide

theorem int_chars {w : List Char} {v : ℤ} (h : IntText w v) :
    ∀ c ∈ w, (c = '-' ∨ c = '+' ∨ isDig c = true) := by
  obtain ⟨ds, _, h1, h2⟩ := h
  intro c hc
  rcases h2 with ⟨rfl, _⟩ | ⟨rfl | rfl, _⟩
  · rcases List.mem_cons.1 hc with rfl | hc
    · exact Or.inl rfl
    · exact Or.inr (Or.inr (h1 c hc))
  · exact Or.inr (Or.inr (h1 c hc))
  · rcases List.mem_cons.1 hc with rfl | hc
    · exact Or.inr (Or.inl rfl)
    · exact Or.inr (Or.inr (h1 c hc))

/-- Characters of rows. -/
def RowChar (c : Char) : Prop := c = '-' ∨ c = '+' ∨ isDig c = true ∨ isSpTab c = true

theorem rowChar_ne {c : Char} (h : RowChar c) : c ≠ '\n' ∧ c ≠ Char.ofNat 0 ∧ c ≠ '#' ∧ c ≠ '\r' := by
  refine ⟨?_, ?_, ?_, ?_⟩ <;> (rintro rfl; revert h; unfold RowChar; decide)

theorem row_chars {vs : List ℤ} {s : List Char} (h : Row vs s) : ∀ c ∈ s, RowChar c := by
  induction h with
  | nil s hs => exact fun c hc => Or.inr (Or.inr (Or.inr (hs c hc)))
  | cons ws w v vs s h1 h2 h3 _ ih =>
    intro c hc
    rcases List.mem_append.1 hc with hc | hc
    · exact Or.inr (Or.inr (Or.inr (h1 c hc)))
    · rcases List.mem_append.1 hc with hc | hc
      · have := int_chars h2 c hc; unfold RowChar; tauto
      · exact ih c hc

theorem isLine_row {s e : List Char} (h : ∀ c ∈ s, RowChar c) (he : EndLine e) (hl : (s ++ e).length < 4096) : IsLine (s ++ e) := by
  rcases he with rfl | rfl
  · exact ⟨s, rfl, fun c hc => ⟨(rowChar_ne (h c hc)).1, (rowChar_ne (h c hc)).2.1⟩, hl⟩
  · refine ⟨s ++ ['\r'], by simp, fun c hc => ?_, hl⟩
    rcases List.mem_append.1 hc with hc | hc
    · exact ⟨(rowChar_ne (h c hc)).1, (rowChar_ne (h c hc)).2.1⟩
    · simp only [List.mem_singleton] at hc; subst hc; decide

theorem ignored_line {line : List Char} (h : Ignored line) :
    IsLine line ∧ (line.head? = some '#' ∨ line.head? = some '\n' ∨ line.head? = some '\r') := by
  obtain ⟨hl, h | ⟨c, h, rfl⟩⟩ := h
  · refine ⟨isLine_row (s := []) (by simp) h hl, ?_⟩
    rcases h with rfl | rfl <;> simp
  · refine ⟨⟨'#' :: c, by simp, fun d hd => ?_, hl⟩, by simp⟩
    rcases List.mem_cons.1 hd with rfl | hd
    · decide
    · exact h d hd

/-! ## The loop -/

theorem readLoop_ignored {line : List Char} (h : Ignored line) (len : ℕ) (ver : Option ℤ) (rs : List LineRec) (s : List Char) :
    readLoop len ver rs (line ++ s) = readLoop len ver rs s := by
  obtain ⟨h1, h2⟩ := ignored_line h
  obtain ⟨k1, k2, k3⟩ := isLine_read h1 s
  rw [readLoop, dif_neg k3]
  simp only [k1, k2]
  rw [if_pos (Or.inr h2)]

theorem row_start {v : ℤ} {vs : List ℤ} {s : List Char} (h : Row (v :: vs) s) : ∃ c cs, s = c :: cs ∧ RowChar c := by
  have hc := row_chars h
  cases s with
  | nil =>
    generalize hs : ([] : List Char) = s at h
    cases h with
    | cons ws w _ _ s' h1 h2 h3 h4 =>
      obtain ⟨ds, h, _, h'⟩ := h2
      rcases h' with ⟨rfl, _⟩ | ⟨rfl | rfl, _⟩ <;> simp [h] at hs
  | cons c cs => exact ⟨c, cs, rfl, hc c (by simp)⟩

theorem readLoop_node {ver len : ℕ} (hv : ver = 0 ∨ ver = 1) {r : FileNode} (hr : r.Ok ver len) {line : List Char}
    (h : NodeLine ver r line) (dv : Option ℤ) (hd : dv = some (ver : ℤ) ∨ (dv = none ∧ ver = 0)) (rs : List LineRec) (s : List Char) :
    readLoop len dv rs (line ++ s) = readLoop len (some ver) (rs ++ [r.lineRec]) s := by
  obtain ⟨hl, t, e, h1, he, rfl⟩ := h
  obtain ⟨k1, k2, k3⟩ := isLine_read (isLine_row (row_chars h1) he hl) s
  obtain ⟨c, cs, hc, hrc⟩ := row_start h1
  have hne := rowChar_ne hrc
  obtain ⟨s1, e1, h2, h3⟩ := strtol_row h1 he
  have hid : toInt (clampLong (r.id : ℤ)) = r.id := stored_int (hr.2.2 _ (by simp [FileNode.values])).1 (hr.2.2 _ (by simp [FileNode.values])).2
  have hhead : ¬ (s1 ++ e = [] ∨ (s1 ++ e).head? = some '\n' ∨ (s1 ++ e).head? = some '\r') := by
    have hx : ∃ v vs, r.state ++ ((if ver = 1 then [if r.initial then 1 else 0] else []) ++
      (r.mode :: r.rgrad :: r.trans.map (fun (t : ℕ) => (t : ℤ)))) = v :: vs := by
      refine List.exists_cons_of_ne_nil ?_
      simp
    obtain ⟨v, vs, hx⟩ := hx
    rw [hx] at h2
    obtain ⟨d, ds, rfl, hrd⟩ := row_start h2
    have := rowChar_ne hrd
    simp [this]
  have hver : dv.getD 0 = (ver : ℤ) := by
    rcases hd with rfl | ⟨rfl, rfl⟩ <;> rfl
  rw [readLoop, dif_neg k3]
  simp only [k1, k2]
  rw [if_neg (by rw [hc]; simp [hne]), e1]
  simp only
  rw [if_neg (fun hx => hhead hx.2), hver, hid, readLine_row hv hr he h2]

theorem readLoop_nodes {ver len : ℕ} (hv : ver = 0 ∨ ver = 1) {rs : List FileNode} {s : List Char} (h : NodeLines ver rs s)
    (hr : ∀ r ∈ rs, r.Ok ver len) (acc : List LineRec) :
    readLoop len (some ver) acc s = .ok ver (acc ++ rs.map FileNode.lineRec) := by
  induction h generalizing acc with
  | nil => rw [readLoop, dif_pos rfl]; simp
  | skip line s rs h1 _ ih => rw [readLoop_ignored h1, ih hr]
  | node r line s rs h1 _ ih =>
    rw [readLoop_node hv (hr r (by simp)) h1 _ (Or.inl rfl), ih fun r' h => hr r' (by simp [h])]
    simp

theorem readLoop_legacy {len : ℕ} {rs : List FileNode} {s : List Char} (h : NodeLines 0 rs s)
    (hr : ∀ r ∈ rs, r.Ok 0 len) :
    readLoop len none [] s = .ok (if rs = [] then -1 else 0) (rs.map FileNode.lineRec) := by
  induction h with
  | nil => rw [readLoop, dif_pos rfl]; simp
  | skip line s rs h1 _ ih => rw [readLoop_ignored h1, ih hr]
  | node r line s rs h1 h2 ih =>
    rw [readLoop_node (Or.inl rfl) (hr r (by simp)) h1 _ (Or.inr ⟨rfl, rfl⟩),
      readLoop_nodes (Or.inl rfl) h2 fun r' h => hr r' (by simp [h])]
    simp

/-- All node lines of a file are read. -/
theorem readLoop_file {ver len : ℕ} (hv : ver = 0 ∨ ver = 1) {rs : List FileNode} {s : List Char} (h : AutFile ver rs s)
    (hr : ∀ r ∈ rs, r.Ok ver len) (hne : rs ≠ []) :
    readLoop len none [] s = .ok ver (rs.map FileNode.lineRec) := by
  induction h with
  | skip ver line s rs h1 _ ih => rw [readLoop_ignored h1, ih hv hr hne]
  | version ver w e s rs h1 hl he h2 =>
    have hrow : Row [(ver : ℤ)] ([] ++ (w ++ [])) := .cons [] w ver [] [] (by simp) h1 (by simp) (.nil [] (by simp))
    rw [List.nil_append, List.append_nil] at hrow
    obtain ⟨k1, k2, k3⟩ := isLine_read (isLine_row (row_chars hrow) he hl) s
    obtain ⟨c, cs, hc, hrc⟩ := row_start hrow
    have hne := rowChar_ne hrc
    have e1 : strtol (w ++ e) = some (clampLong ver, e) := strtol_int (ws := []) (by simp [Spaces]) h1 (endLine_head he)
    have hid : toInt (clampLong (ver : ℤ)) = ver := stored_int (by omega) (by omega)
    rw [← List.append_assoc, readLoop, dif_neg k3]
    simp only [k1, k2]
    rw [if_neg (by rw [hc]; simp [hne]), e1]
    simp only
    rw [if_pos ⟨trivial, by rcases he with rfl | rfl <;> simp⟩, hid, if_neg (by omega), readLoop_nodes hv h2 hr]
    simp
  | legacy s rs h =>
    rw [readLoop_legacy h hr, if_neg hne]; simp

end Gr1c
