import Verif.PatchFile
import Verif.PatchFileSpec
import Verif.AutIOLemmas

/-!
# Lemmas about reading the change file
-/

namespace Gr1c

/-! ## Lines -/

theorem lineEnd_spaces {e s : List Char} (h : LineEnd e s) : Spaces e := by
  rcases h with h | ⟨rfl, -⟩
  · exact endLine_spaces h
  · intro c hc; cases hc

theorem row_numbers {vs : List ℤ} {row e : List Char} (h : Row vs row) (he : Spaces e) : Numbers vs (row ++ e) := by
  induction h with
  | nil s hs =>
    refine .nil _ (strtol_none.1 (strtol_spaces ?_))
    intro c hc
    rcases List.mem_append.1 hc with hc | hc
    · exact spTab_space (hs c hc)
    · exact he c hc
  | cons ws w v vs s h1 h2 h3 _ ih =>
    rw [List.append_assoc, List.append_assoc]
    refine .cons ws w v vs _ (fun c hc => spTab_space (h1 c hc)) h2 ?_ ih
    intro c hc
    cases s with
    | nil =>
      have hm : c ∈ e := List.mem_of_mem_head? hc
      have hsp := he c hm
      by_contra hd
      rw [Bool.not_eq_false] at hd
      rw [dig_not_space hd] at hsp
      cases hsp
    | cons d s => exact spTab_notDig (h3 c hc)

theorem fgets_last (n : ℕ) (line : List Char) (h : ∀ c ∈ line, c ≠ '\n') (hl : line.length ≤ n) :
    fgets n line = (line, []) := by
  induction line generalizing n with
  | nil => cases n <;> rfl
  | cons c line ih =>
    cases n with
    | zero => simp at hl
    | succ n =>
      rw [fgets, if_neg (h c (by simp)), ih n (fun d hd => h d (by simp [hd])) (by simpa using hl)]

/-- A complete line is read as such. -/
theorem line_read {body e s : List Char} (hb : ∀ c ∈ body, c ≠ '\n' ∧ c ≠ Char.ofNat 0) (he : LineEnd e s)
    (hl : (body ++ e).length < 1024) :
    cstr (fgets 1023 (body ++ e ++ s)).1 = body ++ e ∧ (fgets 1023 (body ++ e ++ s)).2 = s := by
  have hz : ∀ b : List Char, (∀ c ∈ b, c ≠ '\n' ∧ c ≠ Char.ofNat 0) → (b ++ ['\n']).length < 1024 →
      cstr (fgets 1023 (b ++ ['\n'] ++ s)).1 = b ++ ['\n'] ∧ (fgets 1023 (b ++ ['\n'] ++ s)).2 = s := by
    intro b hb hl
    rw [List.append_assoc, List.singleton_append, fgets_line 1023 b s (fun c hc => (hb c hc).1) (by simp at hl; omega)]
    refine ⟨cstr_id fun c hc => ?_, rfl⟩
    rcases List.mem_append.1 hc with hc | hc
    · exact (hb c hc).2
    · simp only [List.mem_singleton] at hc; subst hc; decide
  rcases he with (rfl | rfl) | ⟨rfl, rfl⟩
  · exact hz body hb hl
  · have := hz (body ++ ['\r']) (fun c hc => ?_) (by simpa using hl)
    · simpa using this
    · rcases List.mem_append.1 hc with hc | hc
      · exact hb c hc
      · simp only [List.mem_singleton] at hc; subst hc; decide
  · rw [List.append_nil, List.append_nil, fgets_last 1023 body (fun c hc => (hb c hc).1) (by simp at hl; omega)]
    exact ⟨cstr_id fun c hc => (hb c hc).2, rfl⟩

/-- What a loop sees of a line. -/
structure ReadsAs (line s : List Char) : Prop where
  text : cstr (fgets 1023 (line ++ s)).1 = line
  rest : (fgets 1023 (line ++ s)).2 = s
  ne : line ≠ []

theorem ReadsAs.full {line s : List Char} (h : ReadsAs line s) : line ++ s ≠ [] := by
  intro hc
  exact h.ne (List.append_eq_nil_iff.1 hc).1

theorem skipped_reads {line s : List Char} (h : SkippedLine line s) : ReadsAs line s ∧ blankLine line = true := by
  obtain ⟨hl, rfl | ⟨c, e, h1, h2, rfl⟩⟩ := h
  · have := line_read (body := []) (e := ['\n']) (s := s) (by simp) (Or.inl (Or.inl rfl)) (by simp)
    exact ⟨⟨this.1, this.2, by simp⟩, by decide⟩
  · have := line_read (body := '#' :: c) (e := e) (s := s) (fun d hd => by
      rcases List.mem_cons.1 hd with rfl | hd
      · decide
      · exact h1 d hd) h2 hl
    exact ⟨⟨this.1, this.2, by simp⟩, by simp [blankLine]⟩

theorem row_ne {v : ℤ} {vs : List ℤ} {row : List Char} (h : Row (v :: vs) row) : row ≠ [] := by
  cases h with
  | cons ws w v vs s h1 h2 h3 h4 =>
    obtain ⟨ds, hd, -, ha⟩ := h2
    rcases ha with ⟨rfl, -⟩ | ⟨rfl | rfl, -⟩ <;> simp [hd]

theorem number_reads {vs : List ℤ} {line s : List Char} (h : NumberLine vs line s) (hv : vs ≠ []) :
    ReadsAs line s ∧ blankLine line = false ∧ Numbers vs line := by
  obtain ⟨hl, row, e, h1, h2, rfl⟩ := h
  have hr := line_read (body := row) (s := s) (fun c hc => ⟨(rowChar_ne (row_chars h1 c hc)).1, (rowChar_ne (row_chars h1 c hc)).2.1⟩) h2 hl
  cases vs with
  | nil => exact absurd rfl hv
  | cons v vs =>
    have hne := row_ne h1
    refine ⟨⟨hr.1, hr.2, by simp [hne]⟩, ?_, row_numbers h1 (lineEnd_spaces h2)⟩
    cases row with
    | nil => exact absurd rfl hne
    | cons c row =>
      have := rowChar_ne (row_chars h1 c (by simp))
      simp [blankLine, this.1, this.2.2.1]

theorem word_reads {word : List Char} {vs : List ℤ} {line s : List Char} (hw : IsChangeWord word) (h : WordLine word vs line s) :
    ReadsAs line s ∧ blankLine line = false ∧ (∀ m, readStateStr line m = []) ∧
      ∃ args, line = word ++ ' ' :: args ∧ Numbers vs args := by
  obtain ⟨hl, row, e, h1, h2, rfl⟩ := h
  have hchars : ∀ c ∈ word ++ ' ' :: row, c ≠ '\n' ∧ c ≠ Char.ofNat 0 := by
    intro c hc
    rcases List.mem_append.1 hc with hc | hc
    · have hall : ∀ w : List Char, IsChangeWord w → ∀ c ∈ w, c ≠ '\n' ∧ c ≠ Char.ofNat 0 := by
        rintro w (rfl | rfl | rfl) <;> decide
      exact hall word hw c hc
    · rcases List.mem_cons.1 hc with rfl | hc
      · decide
      · exact ⟨(rowChar_ne (row_chars h1 c hc)).1, (rowChar_ne (row_chars h1 c hc)).2.1⟩
  have e1 : word ++ ' ' :: (row ++ e) = (word ++ ' ' :: row) ++ e := by simp
  have hr := line_read (s := s) hchars h2 (by rw [← e1]; exact hl)
  rw [← e1] at hr
  have hlet : ∃ c r, word = c :: r ∧ c ≠ '\n' ∧ c ≠ '#' ∧ isSpaceC c = false ∧ c ≠ '-' ∧ c ≠ '+' ∧ isDig c = false := by
    rcases hw with rfl | rfl | rfl <;> exact ⟨_, _, rfl, by decide, by decide, by decide, by decide, by decide, by decide⟩
  obtain ⟨c, r, rfl, k1, k2, k3, k4, k5, k6⟩ := hlet
  refine ⟨⟨hr.1, hr.2, by simp⟩, by simp [blankLine, k1, k2], fun m => ?_, _, rfl, row_numbers h1 (lineEnd_spaces h2)⟩
  have hn : strtol (c :: r ++ ' ' :: (row ++ e)) = none := by
    have e2 : splitSign (c :: (r ++ ' ' :: (row ++ e))) = (false, c :: (r ++ ' ' :: (row ++ e))) := by
      rw [splitSign, if_neg k4, if_neg k5]
    have e3 : (c :: r ++ ' ' :: (row ++ e)).dropWhile isSpaceC = c :: (r ++ ' ' :: (row ++ e)) := by
      simp [List.dropWhile_cons, k3]
    unfold strtol
    rw [e3, e2]
    simp [k6]
  rw [read_state_str_exact (Numbers.nil _ (strtol_none.1 hn))]
  simp

/-! ## Values -/

theorem bitList_bools (bs : List Bool) : bitList ((written01 bs).map some) = .ok bs := by
  induction bs with
  | nil => rfl
  | cons b bs ih =>
    unfold written01 at ih ⊢
    simp only [List.map_cons, bitList, ih]
    cases b <;> simp

theorem written01_stored (bs : List Bool) : (written01 bs).map stored = written01 bs := by
  refine map_stored fun v hv => ?_
  unfold written01 at hv
  obtain ⟨b, -, rfl⟩ := List.mem_map.1 hv
  cases b <;> simp

theorem read_01 {bs : List Bool} {s : List Char} (h : Numbers (written01 bs) s) {m : ℕ} (hm : bs.length ≤ m) :
    readStateStr s (m : ℤ) = written01 bs := by
  rw [read_state_str_exact h, if_neg (by omega), Int.toNat_natCast, List.take_of_length_le (by simpa [written01] using hm), written01_stored]

theorem written01_length (bs : List Bool) : (written01 bs).length = bs.length := by simp [written01]

variable {ne ns : ℕ}

theorem stBits_length (s : BState ne ns) : (stBits s).length = ne + ns := by simp [stBits]

theorem asVal_ofFn {k : ℕ} (v : Val k) : asVal k (List.ofFn v) = v := by
  funext i
  simp [asVal, List.getD_eq_getElem?_getD, List.getElem?_ofFn]

theorem asState_bits (s : BState ne ns) : asState ne ns (stBits s) = s := by
  unfold asState stBits
  rw [List.take_left' (by simp), List.drop_left' (by simp), asVal_ofFn, asVal_ofFn]

theorem ofFn_inj {k : ℕ} {v v' : Val k} : List.ofFn v = List.ofFn v' ↔ v = v' := List.ofFn_inj

theorem stBits_inj {s t : BState ne ns} : stBits s = stBits t ↔ s = t := by
  refine ⟨fun h => ?_, fun h => h ▸ rfl⟩
  rw [← asState_bits s, h, asState_bits]

/-! ## Commands when all variables are Boolean -/

/-- A specification without integer variables. -/
structure PatchVars.AllBool (w : PatchVars) : Prop where
  offw : w.offw = []
  oe : w.oe = w.ne
  os : w.os = w.ns

section
variable {w : PatchVars} {ke n : ℕ} {N : List (BState w.ne w.ns)} {st : Aut ℤ (BState w.ne w.ns)}

theorem PatchVars.AllBool.only (hw : w.AllBool) : w.boolOnly = true := by
  unfold PatchVars.boolOnly; rw [hw.offw]; rfl

theorem expandVals_bool (hw : w.AllBool) (bs : List Bool) (o : List (ℕ × ℕ)) (l : ℕ) :
    expandVals w.boolOnly (written01 bs) o l = .ok bs := by
  unfold expandVals
  rw [if_pos hw.only, bitList_bools]

/-- One command of the model in `Verif.Patch`. -/
def oneChange (n : ℕ) (N : List (BState ne ns)) (st : Aut ℤ (BState ne ns)) (c : Change (Val ne) (Val ns))
    (x : Game (Val ne) (Val ns) × List (ℤ × ℕ)) : PRes (Game (Val ne) (Val ns) × List (ℤ × ℕ)) :=
  match (affectedBy n N st c x.2).toP with
  | .ok a => .ok (applyChange x.1 c, a)
  | .ub => .ub
  | .err => .err
  | .odd => .odd
  | .timeout => .timeout

theorem effect_sys (relax : Bool) (s t : BState ne ns) (G : Game (Val ne) (Val ns)) {k : ℕ} (hk : k = ne + ns) :
    edgeEffect relax false k s (stBits t) G = applyChange G (if relax then .relaxSys s t else .restrictSys s t) := by
  subst hk
  have hh : ∀ b : BState ne ns, ((List.ofFn b.1 ++ List.ofFn b.2).take (ne + ns) = (stBits t).take (ne + ns)) ↔ b = t := by
    intro b
    rw [List.take_of_length_le (by simp), List.take_of_length_le (by rw [stBits_length])]
    exact stBits_inj (s := b) (t := t)
  unfold edgeEffect
  cases relax
  · simp only [applyChange, Bool.false_eq_true, if_false, hh, Bool.not_and]
  · simp only [applyChange, if_true, hh]
    rfl

theorem effect_env (relax : Bool) (s : BState ne ns) (e : Val ne) (G : Game (Val ne) (Val ns)) {k : ℕ} (hk : k = ne) :
    edgeEffect relax true k s (List.ofFn e) G = applyChange G (if relax then .relaxEnv s e else .restrictEnv s e) := by
  subst hk
  have hh : ∀ b : Val k, ((List.ofFn b).take k = (List.ofFn e).take k) ↔ b = e := by
    intro b
    rw [List.take_of_length_le (by simp), List.take_of_length_le (by simp)]
    exact ofFn_inj
  unfold edgeEffect
  cases relax
  · simp only [applyChange, if_true, Bool.false_eq_true, if_false, hh, Bool.not_and]
  · simp only [applyChange, if_true, hh]

theorem changeEdge_sys (hw : w.AllBool) (hs : 0 < w.ns) (relax : Bool) (s t : BState w.ne w.ns) {args : List Char}
    (h : Numbers (written01 (stBits s ++ stBits t)) args) (x : CmdState w) :
    changeEdge w ke n N st relax args x = oneChange n N st (if relax then .relaxSys s t else .restrictSys s t) x := by
  have hl : (stBits s ++ stBits t).length = 2 * (w.ne + w.ns) := by
    rw [List.length_append, stBits_length, stBits_length]; omega
  have hr : readStateStr args (2 * ((w.oe : ℤ) + w.os)) = written01 (stBits s ++ stBits t) := by
    have := read_01 h (m := 2 * (w.ne + w.ns)) (by omega)
    rw [hw.oe, hw.os]
    exact_mod_cast this
  have c1 : 2 * (w.ne + w.ns) = 2 * (w.oe + w.os) := by rw [hw.oe, hw.os]
  have c2 : ¬ (2 * (w.ne + w.ns) = 2 * w.oe + w.os) := by rw [hw.oe, hw.os]; omega
  have t1 : (stBits s ++ stBits t).take (w.ne + w.ns) = stBits s := List.take_left' (stBits_length s)
  have t2 : (stBits s ++ stBits t).drop (w.ne + w.ns) = stBits t := List.drop_left' (stBits_length s)
  have t5 : edgeEffect relax false (2 * (w.ne + w.ns) - (w.ne + w.ns)) s (stBits t) x.1 =
      applyChange x.1 (if relax then .relaxSys s t else .restrictSys s t) := effect_sys relax s t x.1 (by omega)
  have t6 : edgeAffected n N st relax true false s (stBits t) x.2 =
      affectedBy n N st (if relax then .relaxSys s t else .restrictSys s t) x.2 := by
    cases relax
    · simp only [edgeAffected, Bool.false_eq_true, if_false, if_true, asState_bits]
    · simp [edgeAffected, affectedBy]
  unfold changeEdge
  rw [hr]
  simp only [written01_length, hl, expandVals_bool hw, t1, t2, asState_bits, decide_eq_false c2, decide_eq_true c1, t5, t6]
  rw [if_neg (by rintro ⟨h1, -⟩; exact h1 c1)]
  rfl

theorem changeEdge_env (hw : w.AllBool) (hs : 0 < w.ns) (relax : Bool) (s : BState w.ne w.ns) (e : Val w.ne) {args : List Char}
    (h : Numbers (written01 (stBits s ++ List.ofFn e)) args) (x : CmdState w) :
    changeEdge w ke n N st relax args x = oneChange n N st (if relax then .relaxEnv s e else .restrictEnv s e) x := by
  have hl : (stBits s ++ List.ofFn e).length = 2 * w.ne + w.ns := by
    rw [List.length_append, stBits_length, List.length_ofFn]; omega
  have hr : readStateStr args (2 * ((w.oe : ℤ) + w.os)) = written01 (stBits s ++ List.ofFn e) := by
    have := read_01 h (m := 2 * (w.ne + w.ns)) (by omega)
    rw [hw.oe, hw.os]
    exact_mod_cast this
  have c1 : ¬ (2 * w.ne + w.ns = 2 * (w.oe + w.os)) := by rw [hw.oe, hw.os]; omega
  have c2 : 2 * w.ne + w.ns = 2 * w.oe + w.os := by rw [hw.oe, hw.os]
  have t1 : (stBits s ++ List.ofFn e).take (w.ne + w.ns) = stBits s := List.take_left' (stBits_length s)
  have t2 : (stBits s ++ List.ofFn e).drop (w.ne + w.ns) = List.ofFn e := List.drop_left' (stBits_length s)
  have t5 : edgeEffect relax true (2 * w.ne + w.ns - (w.ne + w.ns)) s (List.ofFn e) x.1 =
      applyChange x.1 (if relax then .relaxEnv s e else .restrictEnv s e) := effect_env relax s e x.1 (by omega)
  have t6 : edgeAffected n N st relax false true s (List.ofFn e) x.2 =
      affectedBy n N st (if relax then .relaxEnv s e else .restrictEnv s e) x.2 := by
    cases relax
    · simp [edgeAffected, affectedBy]
    · simp only [edgeAffected, if_true, asVal_ofFn]
  unfold changeEdge
  rw [hr]
  simp only [written01_length, hl, expandVals_bool hw, t1, t2, asState_bits, decide_eq_false c1, decide_eq_true c2, t5, t6]
  rw [if_neg (by rintro ⟨-, h1⟩; exact h1 c2)]
  rfl

theorem changeBlock_bool (hw : w.AllBool) (first : Bool) (v : Val w.ns) {args : List Char}
    (h : Numbers (written01 (List.ofFn v)) args) (x : CmdState w) :
    changeBlock w ke n N st first args x = oneChange n N st (.blockSys v) x := by
  have hr : readStateStr args (w.os : ℤ) = written01 (List.ofFn v) := read_01 h (by simp [hw.os])
  unfold changeBlock
  rw [hr]
  simp only [expandVals_bool hw, asVal_ofFn]
  rw [if_neg (by rw [written01_length, List.length_ofFn, not_not, hw.os])]
  rfl

theorem changeText_word (c : Change (Val ne) (Val ns)) : IsChangeWord (changeText c).1 := by
  cases c <;> unfold IsChangeWord changeText <;> simp

theorem cmdLine_restrict (first : Bool) (args : List Char) (x : CmdState w) :
    cmdLine w ke n N st first ("restrict".toList ++ ' ' :: args) x = changeEdge w ke n N st false args x := by
  have h : "restrict ".toList.isPrefixOf ("restrict".toList ++ ' ' :: args) = true := by
    rw [List.isPrefixOf_iff_prefix]; exact ⟨args, rfl⟩
  unfold cmdLine
  exact if_pos h

theorem cmdLine_relax (first : Bool) (args : List Char) (x : CmdState w) :
    cmdLine w ke n N st first ("relax".toList ++ ' ' :: args) x = changeEdge w ke n N st true args x := by
  have h : "relax ".toList.isPrefixOf ("relax".toList ++ ' ' :: args) = true := by
    rw [List.isPrefixOf_iff_prefix]; exact ⟨args, rfl⟩
  have h' : ¬ ("restrict ".toList.isPrefixOf ("relax".toList ++ ' ' :: args) = true) := by
    rw [show "restrict ".toList.isPrefixOf ("relax".toList ++ ' ' :: args) = false from rfl]; decide
  unfold cmdLine
  exact (if_neg h').trans (if_pos h)

theorem cmdLine_blocksys (first : Bool) (args : List Char) (x : CmdState w) :
    cmdLine w ke n N st first ("blocksys".toList ++ ' ' :: args) x = changeBlock w ke n N st first args x := by
  have h : "blocksys ".toList.isPrefixOf ("blocksys".toList ++ ' ' :: args) = true := by
    rw [List.isPrefixOf_iff_prefix]; exact ⟨args, rfl⟩
  have h' : ¬ ("restrict ".toList.isPrefixOf ("blocksys".toList ++ ' ' :: args) = true) := by
    rw [show "restrict ".toList.isPrefixOf ("blocksys".toList ++ ' ' :: args) = false from rfl]; decide
  have h'' : ¬ ("relax ".toList.isPrefixOf ("blocksys".toList ++ ' ' :: args) = true) := by
    rw [show "relax ".toList.isPrefixOf ("blocksys".toList ++ ' ' :: args) = false from rfl]; decide
  unfold cmdLine
  exact (if_neg h').trans ((if_neg h'').trans (if_pos h))

theorem cmdLine_change (hw : w.AllBool) (hs : 0 < w.ns) (first : Bool) (c : Change (Val w.ne) (Val w.ns)) {args : List Char}
    (h : Numbers (changeText c).2 args) (x : CmdState w) :
    cmdLine w ke n N st first ((changeText c).1 ++ ' ' :: args) x = oneChange n N st c x := by
  cases c with
  | restrictSys s t => exact (cmdLine_restrict first args x).trans (changeEdge_sys hw hs false s t h x)
  | restrictEnv s e => exact (cmdLine_restrict first args x).trans (changeEdge_env hw hs false s e h x)
  | relaxSys s t => exact (cmdLine_relax first args x).trans (changeEdge_sys hw hs true s t h x)
  | relaxEnv s e => exact (cmdLine_relax first args x).trans (changeEdge_env hw hs true s e h x)
  | blockSys v => exact (cmdLine_blocksys first args x).trans (changeBlock_bool hw first v h x)

/-! ## Loops -/

/-- The commands so far, then the rest. -/
def cmdThen (w : PatchVars) (ke n : ℕ) (N : List (BState w.ne w.ns)) (st : Aut ℤ (BState w.ne w.ns)) (first : Bool) (tail : List Char) :
    SRes (CmdState w) → PRes (CmdState w)
  | .ok x => cmdLoop w ke n N st first tail x
  | .ub => .ub
  | .err => .err
  | .timeout => .timeout

theorem cmdLoop_skip {line s : List Char} (h : SkippedLine line s) (first : Bool) (x : CmdState w) :
    cmdLoop w ke n N st first (line ++ s) x = cmdLoop w ke n N st first s x := by
  obtain ⟨r, hb⟩ := skipped_reads h
  rw [cmdLoop, dif_neg r.full]
  simp only [r.text, r.rest]
  rw [if_pos hb]

/-- What the loop does after a line. -/
def cmdNext (w : PatchVars) (ke n : ℕ) (N : List (BState w.ne w.ns)) (st : Aut ℤ (BState w.ne w.ns)) (tail : List Char) :
    PRes (CmdState w) → PRes (CmdState w)
  | .ok x => cmdLoop w ke n N st false tail x
  | .ub => .ub
  | .err => .err
  | .odd => .odd
  | .timeout => .timeout

theorem cmdLoop_line {line s : List Char} (r : ReadsAs line s) (hb : blankLine line = false) (first : Bool) (x : CmdState w) :
    cmdLoop w ke n N st first (line ++ s) x = cmdNext w ke n N st s (cmdLine w ke n N st first line x) := by
  rw [cmdLoop, dif_neg r.full]
  simp only [r.text, r.rest]
  rw [if_neg (by rw [hb]; decide)]
  cases cmdLine w ke n N st first line x <;> rfl

/-- Commands that mean changes: `tr` gives word and values. -/
theorem cmdLoop_means {tail : List Char} {rs : List (List Char × List ℤ)} {f : List Char} (h : ChangeCmds tail rs f)
    {cs : List (Change (Val w.ne) (Val w.ns))} {tr : Change (Val w.ne) (Val w.ns) → List Char × List ℤ} (hr : rs = cs.map tr)
    (hc : ∀ c ∈ cs, ∀ first args x, Numbers (tr c).2 args → cmdLine w ke n N st first ((tr c).1 ++ ' ' :: args) x = oneChange n N st c x)
    (first : Bool) (x : CmdState w) :
    cmdLoop w ke n N st first f x = cmdThen w ke n N st (first && cs.isEmpty) tail (processChanges n N st cs x.1 x.2) := by
  induction h generalizing first x cs with
  | nil =>
    cases cs with
    | nil => simp [cmdThen, processChanges]
    | cons c cs => cases hr
  | skip line s rs h1 _ ih => rw [cmdLoop_skip h1, ih hr hc]
  | cmd word vs line s rs hword h1 _ ih =>
    cases cs with
    | nil => cases hr
    | cons c cs =>
      rw [List.map_cons, List.cons.injEq] at hr
      obtain ⟨he, hcs⟩ := hr
      obtain ⟨r, hb, -, args, rfl, ha⟩ := word_reads hword h1
      have hl : cmdLine w ke n N st first (word ++ ' ' :: args) x = oneChange n N st c x := by
        have e1 : word = (tr c).1 := congrArg Prod.fst he
        have e2 : vs = (tr c).2 := congrArg Prod.snd he
        rw [e1]
        exact hc c (by simp) first args x (e2 ▸ ha)
      rw [cmdLoop_line r hb, hl]
      unfold oneChange processChanges
      cases affectedBy n N st c x.2 with
      | ok a =>
        have := ih hcs (fun d hd => hc d (by simp [hd])) false (applyChange x.1 c, a)
        simp only [Bool.false_and] at this
        simpa [cmdNext, SRes.toP] using this
      | ub => rfl
      | err => rfl
      | timeout => rfl

theorem cmdLoop_changes (hw : w.AllBool) (hs : 0 < w.ns) {tail : List Char} {rs : List (List Char × List ℤ)} {f : List Char}
    (h : ChangeCmds tail rs f) {cs : List (Change (Val w.ne) (Val w.ns))} (hr : rs = cs.map changeText) (first : Bool) (x : CmdState w) :
    cmdLoop w ke n N st first f x = cmdThen w ke n N st (first && cs.isEmpty) tail (processChanges n N st cs x.1 x.2) :=
  cmdLoop_means h hr (fun c _ first _ x ha => cmdLine_change hw hs first c ha x) first x

theorem hoodLoop_skip {line s : List Char} (h : SkippedLine line s) (N0 : List (BState w.ne w.ns)) :
    hoodLoop w N0 (line ++ s) = hoodLoop w N0 s := by
  obtain ⟨r, hb⟩ := skipped_reads h
  rw [hoodLoop, dif_neg r.full]
  simp only [r.text, r.rest]
  rw [if_pos hb]

/-- The first part: `D` are the bits of the states. -/
theorem hoodLoop_states (hpos : 0 < w.oe + w.os) {tail : List Char} {rs : List (List ℤ)} {cs : List (List Char × List ℤ)} {f : List Char}
    (h : ChangeFile tail rs cs f) (D : List ℤ → List Bool)
    (hD : ∀ vs ∈ rs, vs.length = w.oe + w.os ∧ vs.map stored = vs ∧ expandVals w.boolOnly vs w.offw (w.ne + w.ns) = .ok (D vs))
    (N0 : List (BState w.ne w.ns)) :
    (cs = [] ∧ hoodLoop w N0 f = hoodLoop w (N0 ++ rs.map fun vs => asState w.ne w.ns (D vs)) tail) ∨
      (cs ≠ [] ∧ ∃ f', ChangeCmds tail cs f' ∧ hoodLoop w N0 f = .ok ⟨N0 ++ rs.map (fun vs => asState w.ne w.ns (D vs)), some f'⟩) := by
  induction h generalizing N0 with
  | cmds cs s hc =>
    rw [List.map_nil, List.append_nil]
    induction hc with
    | nil => exact Or.inl ⟨rfl, rfl⟩
    | skip line s cs h1 _ ih => rw [hoodLoop_skip h1]; exact ih
    | cmd word vs line s cs hword h1 h2 _ =>
      obtain ⟨r, hb, hz, -⟩ := word_reads hword h1
      refine Or.inr ⟨by simp, line ++ s, .cmd word vs line s cs hword h1 h2, ?_⟩
      rw [hoodLoop, dif_neg r.full]
      simp only [r.text, r.rest]
      rw [if_neg (by rw [hb]; decide), if_pos (hz _)]
  | skip N cs line s h1 _ ih => rw [hoodLoop_skip h1]; exact ih hD N0
  | state vs N cs line s h1 _ ih =>
    obtain ⟨d1, d2, d3⟩ := hD vs (by simp)
    have hne : vs ≠ [] := by rw [← List.length_pos_iff, d1]; exact hpos
    obtain ⟨r, hb, hn⟩ := number_reads h1 hne
    have hr : readStateStr line ((w.oe : ℤ) + w.os) = vs := by
      have := read_state_str_exact hn ((w.oe + w.os : ℕ) : ℤ)
      rw [if_neg (by omega), Int.toNat_natCast, List.take_of_length_le (by omega), d2] at this
      exact_mod_cast this
    have hstep : hoodLoop w N0 (line ++ s) = hoodLoop w (N0 ++ [asState w.ne w.ns (D vs)]) s := by
      rw [hoodLoop, dif_neg r.full]
      simp only [r.text, r.rest, hr, d3]
      rw [if_neg (by rw [hb]; decide), if_neg hne, if_neg (by omega)]
    rw [hstep]
    have := ih (fun vs' h' => hD vs' (by simp [h'])) (N0 ++ [asState w.ne w.ns (D vs)])
    simpa using this

/-- Where the first loop stops: at the end, or at a line without a number. -/
def StopsHere (tail : List Char) : Prop :=
  tail = [] ∨ ∃ line s, tail = line ++ s ∧ ReadsAs line s ∧ blankLine line = false ∧ ∀ m, readStateStr line m = []

theorem hoodLoop_stop {tail : List Char} (h : StopsHere tail) (N0 : List (BState w.ne w.ns)) :
    (tail = [] ∧ hoodLoop w N0 tail = .ok ⟨N0, none⟩) ∨ (tail ≠ [] ∧ hoodLoop w N0 tail = .ok ⟨N0, some tail⟩) := by
  rcases h with rfl | ⟨line, s, rfl, r, hb, hz⟩
  · left
    refine ⟨rfl, ?_⟩
    rw [hoodLoop, dif_pos rfl]
  · right
    refine ⟨r.full, ?_⟩
    rw [hoodLoop, dif_neg r.full]
    simp only [r.text, r.rest]
    rw [if_neg (by rw [hb]; decide), if_pos (hz _)]

end

section
variable {w : PatchVars} {m : ℕ} {eps : List (BState w.ne w.ns → Val w.ne → Bool)} {sps : List (BState w.ne w.ns → BState w.ne w.ns → Bool)}
  {eg : Fin m → Finset (BState w.ne w.ns)} {n : ℕ} {os : Game (Val w.ne) (Val w.ns) → ℕ → Oracle (Val w.ne) (Val w.ns)} {fuel : ℕ} {b : Bool} {strategy : List Char}
  {st : Aut ℤ (BState w.ne w.ns)} {ke : ℕ}

/-- What follows the loop over the commands. -/
def finishPatch (eg : Fin m → Finset (BState w.ne w.ns)) (n : ℕ) (os : Game (Val w.ne) (Val w.ns) → ℕ → Oracle (Val w.ne) (Val w.ns)) (fuel : ℕ)
    (N : List (BState w.ne w.ns)) (st : Aut ℤ (BState w.ne w.ns)) : PRes (CmdState w) → PRes (Aut ℤ (BState w.ne w.ns))
  | .ok c => patchRun eg n os fuel N st c
  | .ub => .ub
  | .err => .err
  | .odd => .odd
  | .timeout => .timeout

/-- After the first part of the file come the commands. -/
theorem patchFiles_cmds (hload : loadStrategy w b strategy = .ok st) (hk : w.enonbool = some ke) (hpos : 0 < w.oe + w.os)
    {tail f : List Char} {rs : List (List ℤ)} {cs : List (List Char × List ℤ)} (h : ChangeFile tail rs cs f) (ht : StopsHere tail)
    (D : List ℤ → List Bool)
    (hD : ∀ vs ∈ rs, vs.length = w.oe + w.os ∧ vs.map stored = vs ∧ expandVals w.boolOnly vs w.offw (w.ne + w.ns) = .ok (D vs)) :
    ∃ f', ChangeCmds tail cs f' ∧ patchFiles w eps sps eg n os fuel b strategy f =
      finishPatch eg n os fuel (rs.map fun vs => asState w.ne w.ns (D vs)) st
        (cmdLoop w ke n (rs.map fun vs => asState w.ne w.ns (D vs)) st true f'
          (localGame (rs.map fun vs => asState w.ne w.ns (D vs)) eps sps, [])) := by
  have hh := hoodLoop_states hpos h D hD []
  rw [List.nil_append] at hh
  generalize (rs.map fun vs => asState w.ne w.ns (D vs)) = N at hh ⊢
  unfold patchFiles
  simp only [hload, hk]
  rcases hh with ⟨rfl, e⟩ | ⟨-, f', h1, e⟩
  · refine ⟨tail, .nil, ?_⟩
    rw [e]
    rcases hoodLoop_stop ht N with ⟨rfl, e1⟩ | ⟨-, e1⟩
    · rw [e1, cmdLoop, dif_pos rfl]
      rfl
    · rw [e1]
      simp only
      cases cmdLoop w ke n N st true tail (localGame N eps sps, []) <;> rfl
  · refine ⟨f', h1, ?_⟩
    rw [e]
    simp only
    cases cmdLoop w ke n N st true f' (localGame N eps sps, []) <;> rfl

theorem processChanges_game {N : List (BState w.ne w.ns)} : ∀ (cs : List (Change (Val w.ne) (Val w.ns))) (G : Game (Val w.ne) (Val w.ns))
    (a : List (ℤ × ℕ)) {x : Game (Val w.ne) (Val w.ns) × List (ℤ × ℕ)}, processChanges n N st cs G a = .ok x → x.1 = cs.foldl applyChange G := by
  intro cs
  induction cs with
  | nil => intro G a x h; cases h; rfl
  | cons c cs ih =>
    intro G a x h
    simp only [processChanges] at h
    split at h
    · cases h
    · cases h
    · cases h
    · exact ih _ _ h

/-- The whole file is read. -/
theorem finish_end (N : List (BState w.ne w.ns)) (cs : List (Change (Val w.ne) (Val w.ns))) (first : Bool) :
    finishPatch eg n os fuel N st (cmdThen w ke n N st first [] (processChanges n N st cs (localGame N eps sps) [])) =
      (patchLocalfixpoint eps sps eg n N cs (os (cs.foldl applyChange (localGame N eps sps))) fuel st).toP := by
  unfold patchLocalfixpoint
  cases hp : processChanges n N st cs (localGame N eps sps) [] with
  | ok x =>
    have hg := processChanges_game cs _ _ hp
    simp only [cmdThen]
    rw [cmdLoop, dif_pos rfl]
    obtain ⟨G, a⟩ := x
    simp only [finishPatch, patchRun]
    simp only at hg
    rw [← hg]
    cases patchModes G eg N (os G) fuel a n 0 st <;> rfl
  | ub => rfl
  | err => rfl
  | timeout => rfl

theorem finish_tail (N : List (BState w.ne w.ns)) (r : PRes (Aut ℤ (BState w.ne w.ns))) {x : CmdState w} {first : Bool} {tail : List Char}
    {cs : List (Change (Val w.ne) (Val w.ns))} (h : processChanges n N st cs (localGame N eps sps) [] = .ok x)
    (hr : finishPatch eg n os fuel N st (cmdLoop w ke n N st first tail x) = r) :
    finishPatch eg n os fuel N st (cmdThen w ke n N st first tail (processChanges n N st cs (localGame N eps sps) [])) = r := by
  rw [h]
  exact hr

end

end Gr1c
