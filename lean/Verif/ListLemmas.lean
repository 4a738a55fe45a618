import Verif.ListDump
import Verif.ListSpec
import Verif.AutIOProps

/-!
# Lemmas for C60: the format `txt`
-/

namespace Gr1c

/-! ## Numbers -/

theorem blankNum_int {w : List Char} {v : ℤ} (hw : w = printInt v) (j : ℕ) {r : List Char}
    (hr : ∀ c, r.head? = some c → isDig c = false) : blankNum (List.replicate j ' ' ++ (w ++ r)) = some (v, r) := by
  have hd := dropWhile_head hr
  have hb : ∀ c ∈ List.replicate j ' ', (c == ' ') = true := by
    intro c hc
    rw [List.eq_of_mem_replicate hc]
    rfl
  unfold blankNum
  rw [dropWhile_append_all hb, hw]
  unfold printInt
  have hds : ∀ n : ℕ, (decimal n ++ r).takeWhile isDig = decimal n := fun n => by
    rw [takeWhile_append_all (decimal_digits n), hd.2, List.append_nil]
  have hdr : ∀ n : ℕ, (decimal n ++ r).dropWhile isDig = r := fun n => by rw [dropWhile_append_all (decimal_digits n), hd.1]
  have hval : ∀ n : ℕ, Nat.ofDigits 10 ((decimal n).reverse.map digitVal) = n := fun n => decimal_value n
  split
  · rename_i hv
    have e : ('-' :: decimal (-v).toNat ++ r).dropWhile (· == ' ') = '-' :: (decimal (-v).toNat ++ r) := rfl
    simp only [e, List.head?_cons, beq_self_eq_true, if_true, List.tail_cons, hds, hdr, decimal_ne_nil, if_false, hval]
    congr 2
    omega
  · rename_i hv
    obtain ⟨d, ds, hdd⟩ := List.exists_cons_of_ne_nil (decimal_ne_nil v.toNat)
    have hdig : isDig d = true := decimal_digits v.toNat d (by rw [hdd]; simp)
    have h1 : (d == ' ') = false := by
      rw [beq_eq_false_iff_ne]
      rintro rfl
      exact absurd hdig (by decide)
    have h2 : (some d == some '-') = false := by
      rw [beq_eq_false_iff_ne]
      intro h
      cases h
      exact absurd hdig (by decide)
    have e : (decimal v.toNat ++ r).dropWhile (· == ' ') = decimal v.toNat ++ r := by
      rw [hdd, List.cons_append, List.dropWhile_cons_of_neg (by simp [h1])]
    have e2 : (decimal v.toNat ++ r).head? = some d := by rw [hdd]; rfl
    simp only [e, e2, h2, Bool.false_eq_true, if_false, hds, hdr, decimal_ne_nil, hval]
    congr 2
    omega

theorem blankNum_pad (w : ℕ) (v : ℤ) {r : List Char} (hr : ∀ c, r.head? = some c → isDig c = false) :
    blankNum (padInt w v ++ r) = some (v, r) := by
  unfold padInt
  rw [List.append_assoc]
  exact blankNum_int rfl _ hr

theorem blankNum_plain (v : ℤ) {r : List Char} (hr : ∀ c, r.head? = some c → isDig c = false) :
    blankNum (printInt v ++ r) = some (v, r) := blankNum_int rfl 0 hr

theorem blankNum_sp (v : ℤ) {r : List Char} (hr : ∀ c, r.head? = some c → isDig c = false) :
    blankNum (sp v ++ r) = some (v, r) := blankNum_int rfl 1 hr

theorem afterLit_append (lit s : List Char) : afterLit lit (lit ++ s) = some s := by
  unfold afterLit
  rw [if_pos (List.isPrefixOf_iff_prefix.2 (List.prefix_append lit s))]
  simp

theorem sp_flatMap_head (vs : List ℤ) : ∀ c, (vs.flatMap sp).head? = some c → isDig c = false := by
  intro c hc
  cases vs with
  | nil => cases hc
  | cons v vs =>
    have e : some ' ' = some c := hc
    cases e
    decide

theorem blankNums_sp : ∀ (vs : List ℤ) (n : ℕ), vs.length < n → blankNums n (vs.flatMap sp) = some vs := by
  intro vs
  induction vs with
  | nil =>
    intro n hn
    obtain ⟨n, rfl⟩ : ∃ m, n = m + 1 := ⟨n - 1, by simp at hn; omega⟩
    rfl
  | cons v vs ih =>
    intro n hn
    obtain ⟨n, rfl⟩ : ∃ m, n = m + 1 := ⟨n - 1, by simp at hn; omega⟩
    have h1 : ¬ ((v :: vs).flatMap sp).all (· == ' ') = true := by
      rw [List.flatMap_cons, List.all_append]
      unfold sp
      rw [List.all_cons]
      intro h
      simp only [Bool.and_eq_true] at h
      have := h.1.2
      rw [List.all_eq_true] at this
      have hne : printInt v ≠ [] := by
        unfold printInt
        split
        · simp
        · exact decimal_ne_nil _
      obtain ⟨d, ds, hd⟩ := List.exists_cons_of_ne_nil hne
      have hb := this d (by rw [hd]; simp)
      rw [beq_iff_eq] at hb
      have hp : d ∈ printInt v := by rw [hd]; simp
      unfold printInt at hp
      split at hp
      · rcases List.mem_cons.1 hp with h | h
        · rw [hb] at h; exact absurd h (by decide)
        · have := decimal_digits _ d h; rw [hb] at this; exact absurd this (by decide)
      · have := decimal_digits _ d hp; rw [hb] at this; exact absurd this (by decide)
    rw [blankNums, if_neg h1, List.flatMap_cons, blankNum_sp v (sp_flatMap_head vs)]
    simp only
    rw [ih n (by simp at hn; omega)]
    rfl

theorem commaNums_ints : ∀ (vs : List ℤ) (n : ℕ) (r : List Char), vs ≠ [] → vs.length ≤ n →
    (∀ c, r.head? = some c → isDig c = false ∧ c ≠ ',') → commaNums n (commaInts vs ++ r) = some (vs, r) := by
  intro vs
  induction vs with
  | nil => intro _ _ h; exact absurd rfl h
  | cons v vs ih =>
    intro n r _ hn hr
    obtain ⟨n, rfl⟩ : ∃ m, n = m + 1 := ⟨n - 1, by simp at hn; omega⟩
    cases vs with
    | nil =>
      show commaNums (n + 1) (printInt v ++ r) = _
      rw [commaNums, blankNum_plain v fun c hc => (hr c hc).1]
      simp only
      rw [if_neg]
      intro h
      exact (hr _ h).2 rfl
    | cons u vs =>
      have e : commaInts (v :: u :: vs) ++ r = printInt v ++ (',' :: (commaInts (u :: vs) ++ r)) := by simp [commaInts]
      rw [e, commaNums, blankNum_plain v (by intro c hc; have e : some ',' = some c := hc; cases e; decide)]
      simp only [List.head?_cons, if_true, List.tail_cons]
      rw [ih n r (by simp) (by simpa using hn) hr]
      rfl


/-! ## Lines -/

/-- A line without its end. -/
def txtLine (k : ℤ) (ini : Bool) (st : List ℤ) (m r : ℤ) (ts : List ℤ) : List Char :=
  padInt 4 k ++ (' ' :: ((if ini then "(init) ".toList else []) ++ (": ".toList ++
    ((if st = [] then "(nil)".toList else commaInts st) ++
    (" - ".toList ++ (padInt 2 m ++ (" - ".toList ++ (padInt 2 r ++ (" - [".toList ++
    (ts.flatMap sp ++ "]".toList))))))))))

theorem commaInts_length : ∀ vs : List ℤ, vs.length ≤ (commaInts vs).length := by
  intro vs
  induction vs with
  | nil => simp
  | cons v vs ih =>
    have hp : 0 < (printInt v).length := by
      unfold printInt
      split
      · simp
      · exact List.length_pos_of_ne_nil (decimal_ne_nil _)
    cases vs with
    | nil =>
      show 1 ≤ (printInt v).length
      omega
    | cons u vs =>
      show _ ≤ (printInt v ++ ',' :: commaInts (u :: vs)).length
      simp only [List.length_append, List.length_cons] at *
      omega

theorem sp_flatMap_length : ∀ vs : List ℤ, vs.length ≤ (vs.flatMap sp).length := by
  intro vs
  induction vs with
  | nil => simp
  | cons v vs ih =>
    rw [List.flatMap_cons, List.length_append, List.length_cons]
    have : 1 ≤ (sp v).length := by unfold sp; simp
    omega

theorem commaInts_head {v : ℤ} {vs : List ℤ} {r : List Char} : ∃ c s, commaInts (v :: vs) ++ r = c :: s ∧ (isDig c = true ∨ c = '-') := by
  have h : ∃ c s, printInt v = c :: s ∧ (isDig c = true ∨ c = '-') := by
    unfold printInt
    split
    · exact ⟨_, _, rfl, .inr rfl⟩
    · obtain ⟨d, ds, hdd⟩ := List.exists_cons_of_ne_nil (decimal_ne_nil v.toNat)
      exact ⟨d, ds, hdd, .inl (decimal_digits v.toNat d (by rw [hdd]; simp))⟩
  obtain ⟨c, s, h1, h2⟩ := h
  cases vs with
  | nil => exact ⟨c, s ++ r, by show printInt v ++ r = _; rw [h1]; rfl, h2⟩
  | cons u vs => exact ⟨c, s ++ ',' :: commaInts (u :: vs) ++ r, by show (printInt v ++ ',' :: commaInts (u :: vs)) ++ r = _; rw [h1]; rfl, h2⟩

theorem afterLit_nil_state {v : ℤ} {vs : List ℤ} {r : List Char} : afterLit "(nil)".toList (commaInts (v :: vs) ++ r) = none := by
  obtain ⟨c, s, h, hc⟩ := commaInts_head (v := v) (vs := vs) (r := r)
  rw [h]
  unfold afterLit
  rw [if_neg]
  intro hp
  rw [List.isPrefixOf_iff_prefix] at hp
  obtain ⟨t, ht⟩ := hp
  have e : '(' = c := by
    have := congrArg List.head? ht
    simpa using this
  subst e
  revert hc
  decide

theorem readTxtNode_line (k : ℤ) (ini : Bool) (st : List ℤ) (m r : ℤ) (ts : List ℤ) :
    readTxtNode (txtLine k ini st m r ts) = some ⟨k, ini, st, m, r, ts⟩ := by
  have tail : ∀ s0 : List Char, s0 = ts.flatMap sp ++ "]".toList →
      (if s0.getLast? = some ']' then
        (blankNums (s0.length + 1) s0.dropLast).bind fun x => some (TxtNode.mk k ini st m r x) else none) = some ⟨k, ini, st, m, r, ts⟩ := by
    intro s0 h0
    have e1 : s0.getLast? = some ']' := by rw [h0]; exact List.getLast?_concat
    have e2 : s0.dropLast = ts.flatMap sp := by rw [h0]; exact List.dropLast_concat
    have e3 : ts.length < s0.length + 1 := by
      rw [h0, List.length_append]
      have := sp_flatMap_length ts
      omega
    rw [if_pos e1, e2, blankNums_sp ts _ e3]
    rfl
  have hsp : ∀ (x : List Char) (c : Char), (" - ".toList ++ x).head? = some c → isDig c = false ∧ c ≠ ',' := by
    intro x c hc
    have e : some ' ' = some c := hc
    cases e
    decide
  have hsp2 : ∀ (x : List Char) (c : Char), (" - [".toList ++ x).head? = some c → isDig c = false := by
    intro x c hc
    have e : some ' ' = some c := hc
    cases e
    decide
  have hini : ∀ x : List Char, txtInit ((if ini then "(init) ".toList else []) ++ (": ".toList ++ x)) = (ini, ": ".toList ++ x) := by
    intro x
    unfold txtInit
    cases ini with
    | true => simp only [if_true, afterLit_append]
    | false => rfl
  have hst : ∀ x : List Char, txtState ((if st = [] then "(nil)".toList else commaInts st) ++ (" - ".toList ++ x)) =
      some (st, " - ".toList ++ x) := by
    intro x
    unfold txtState
    cases st with
    | nil => simp only [if_true, afterLit_append]
    | cons v vs =>
      simp only [reduceCtorEq, if_false, afterLit_nil_state]
      refine commaNums_ints _ _ _ (by simp) ?_ (hsp x)
      rw [List.length_append]
      have := commaInts_length (v :: vs)
      omega
  unfold readTxtNode txtLine
  rw [blankNum_pad 4 k (by intro c hc; have e : some ' ' = some c := hc; cases e; decide)]
  simp only [Option.bind_eq_bind, Option.bind_some]
  rw [show ∀ x : List Char, afterLit " ".toList (' ' :: x) = some x from fun x => afterLit_append " ".toList x]
  simp only [Option.bind_some]
  rw [hini]
  simp only [afterLit_append, Option.bind_some]
  rw [hst]
  simp only [afterLit_append, Option.bind_some]
  rw [blankNum_pad 2 m fun c hc => (hsp _ c hc).1]
  simp only [afterLit_append, Option.bind_some]
  rw [blankNum_pad 2 r (hsp2 _)]
  simp only [afterLit_append, Option.bind_some]
  exact tail _ rfl

theorem cutLines_line : ∀ (t acc u : List Char), '\n' ∉ t →
    cutLines acc (t ++ '\n' :: u) = (cutLines [] u).map ((acc ++ t) :: ·) := by
  intro t
  induction t with
  | nil => intro acc u _; simp [cutLines]
  | cons c t ih =>
    intro acc u h
    rw [List.cons_append, cutLines, if_neg (fun e => h (by rw [e]; simp)), ih _ _ (fun e => h (by simp [e]))]
    simp

theorem printInt_nonl (v : ℤ) : '\n' ∉ printInt v := by
  intro h
  unfold printInt at h
  split at h
  · rcases List.mem_cons.1 h with h | h
    · exact absurd h (by decide)
    · exact absurd (decimal_digits _ _ h) (by decide)
  · exact absurd (decimal_digits _ _ h) (by decide)

theorem padInt_nonl (w : ℕ) (v : ℤ) : '\n' ∉ padInt w v := by
  unfold padInt
  rw [List.mem_append]
  rintro (h | h)
  · exact absurd (List.eq_of_mem_replicate h) (by decide)
  · exact printInt_nonl v h

theorem commaInts_nonl : ∀ vs : List ℤ, '\n' ∉ commaInts vs := by
  intro vs
  induction vs with
  | nil => exact List.not_mem_nil
  | cons v vs ih =>
    cases vs with
    | nil => exact printInt_nonl v
    | cons u vs =>
      show '\n' ∉ printInt v ++ ',' :: commaInts (u :: vs)
      rw [List.mem_append, List.mem_cons]
      rintro (h | h | h)
      · exact printInt_nonl v h
      · exact absurd h (by decide)
      · exact ih h

theorem sp_flatMap_nonl (vs : List ℤ) : '\n' ∉ vs.flatMap sp := by
  rw [List.mem_flatMap]
  rintro ⟨v, _, h⟩
  unfold sp at h
  rcases List.mem_cons.1 h with h | h
  · exact absurd h (by decide)
  · exact printInt_nonl v h

theorem txtLine_nonl (k : ℤ) (ini : Bool) (st : List ℤ) (m r : ℤ) (ts : List ℤ) : '\n' ∉ txtLine k ini st m r ts := by
  have e1 : '\n' ∉ (if ini then "(init) ".toList else []) := by cases ini <;> decide
  have e2 : '\n' ∉ (if st = [] then "(nil)".toList else commaInts st) := by
    split
    · decide
    · exact commaInts_nonl st
  have e3 : '\n' ∉ " - ".toList := by decide
  have e4 : '\n' ∉ " - [".toList := by decide
  have e5 : '\n' ∉ ": ".toList := by decide
  have e6 : '\n' ∉ "]".toList := by decide
  have e7 : '\n' ≠ ' ' := by decide
  unfold txtLine
  simp only [List.mem_append, List.mem_cons, not_or]
  exact ⟨padInt_nonl _ _, e7, e1, e5, e2, e3, padInt_nonl _ _, e3, padInt_nonl _ _, e4, sp_flatMap_nonl _, e6⟩

theorem listNode_eq {l : Aut ℤ (List ℤ)} {len k : ℕ} {n : ANode ℤ (List ℤ)} (h : n.state.length = len) :
    listNode l len k n = some (txtLine k n.initial n.state n.mode n.rgrad (n.trans.map (indexInt l)) ++ ['\n']) := by
  unfold listNode txtLine
  rw [if_neg (by omega)]
  have e : (if 0 < len then commaInts (n.state.take len) else "(nil)".toList) =
      (if n.state = [] then "(nil)".toList else commaInts n.state) := by
    rw [← h, List.take_length]
    cases n.state with
    | nil => rfl
    | cons v vs => rw [if_pos (by simp), if_neg (by simp)]
  rw [e, show "]\n".toList = "]".toList ++ ['\n'] from rfl]
  simp only [List.append_assoc, List.cons_append]

/-- What the lines of the rest of the list say. -/
def txtNodes (l : Aut ℤ (List ℤ)) (k : ℕ) (r : Aut ℤ (List ℤ)) : List TxtNode :=
  (r.zipIdx k).map fun n => ⟨n.2, n.1.initial, n.1.state, n.1.mode, n.1.rgrad, n.1.trans.map (indexInt l)⟩

theorem listLoop_reads (l : Aut ℤ (List ℤ)) (len : ℕ) : ∀ (r : Aut ℤ (List ℤ)) (k : ℕ), (∀ n ∈ r, n.state.length = len) →
    ∃ s ls, listLoop l len k r = some s ∧ cutLines [] s = some ls ∧ ls.mapM readTxtNode = some (txtNodes l k r) := by
  intro r
  induction r with
  | nil => intro k _; exact ⟨[], [], rfl, rfl, rfl⟩
  | cons n r ih =>
    intro k h
    obtain ⟨s, ls, h1, h2, h3⟩ := ih (k + 1) fun n hn => h n (List.mem_cons_of_mem _ hn)
    refine ⟨(txtLine k n.initial n.state n.mode n.rgrad (n.trans.map (indexInt l)) ++ ['\n']) ++ s,
      txtLine k n.initial n.state n.mode n.rgrad (n.trans.map (indexInt l)) :: ls, ?_, ?_, ?_⟩
    · rw [listLoop, listNode_eq (h n List.mem_cons_self), h1]
    · rw [List.append_assoc, List.singleton_append, cutLines_line _ _ _ (txtLine_nonl _ _ _ _ _ _), h2]
      rfl
    · rw [List.mapM_cons, readTxtNode_line, h3]
      rfl

end Gr1c
