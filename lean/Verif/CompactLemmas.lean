import Verif.Compact
import Verif.IntGame

/-!
# Helper lemmas for the conversion of automata between bits and values
-/

namespace Gr1c

/-! ## Specification: layout, encoding, decoding -/

/-- Number of bits of a declared variable. -/
def declWidth (d : Name × ℤ) : ℕ := if 0 ≤ d.2 then domBits d.2 else 1

/-- Total number of bits. -/
def totalWidth (ds : Decls) : ℕ := (ds.map declWidth).sum

/-- First bit and number of bits of each integer variable, counting from `off`. -/
def layoutFrom : ℕ → Decls → List (ℕ × ℕ)
  | _, [] => []
  | off, d :: ds =>
    if 0 ≤ d.2 then (off, declWidth d) :: layoutFrom (off + declWidth d) ds
    else layoutFrom (off + declWidth d) ds

/-- Bits of a value, least significant first; a Boolean is its own bit. -/
def encOne (d : Name × ℤ) (x : ℤ) : List ℤ :=
  if 0 ≤ d.2 then (List.range (domBits d.2)).map fun i => if intBit x i then 1 else 0 else [x]

/-- Bits of a list of values of the declared variables. -/
def encList : Decls → List ℤ → List ℤ
  | d :: ds, x :: xs => encOne d x ++ encList ds xs
  | _, _ => []

/-- Values encoded by a list of bits. -/
def decList : Decls → List ℤ → List ℤ
  | [], _ => []
  | d :: ds, bs =>
    (if 0 ≤ d.2 then bitsVal (bs.take (declWidth d)) else bs.headD 0) :: decList ds (bs.drop (declWidth d))

/-- The integer variables. -/
def intVars (ds : Decls) : Decls := ds.filter fun d => 0 ≤ d.2

/-- No name of an integer variable is a prefix of the name of another variable or of the name of a bit
of another variable, and names of integer variables are short enough for `var_to_bool`. -/
structure PfxFree (ds : Decls) : Prop where
  free : ∀ A d B, ds = A ++ d :: B → 0 ≤ d.2 → ∀ d' ∈ A ++ B, ¬ d.1 <+: d'.1 ∧
    ∀ v ∈ expDecls [d'], ¬ d.1 <+: v.1
  short : ∀ d ∈ ds, 0 ≤ d.2 → d.1.length ≤ 1023

/-- Domains fit into `int`. -/
def IntDecls (ds : Decls) : Prop := ∀ d ∈ ds, d.2 < 2 ^ 31

theorem expDecls_append (A B : Decls) : expDecls (A ++ B) = expDecls A ++ expDecls B := by
  simp [expDecls]

theorem expDecls_cons (d : Name × ℤ) (B : Decls) : expDecls (d :: B) = expDecls [d] ++ expDecls B := by
  simp [expDecls]

theorem expDecls_one_length (d : Name × ℤ) : (expDecls [d]).length = declWidth d := by
  unfold expDecls declWidth
  by_cases h : 0 ≤ d.2 <;> simp [h]

theorem expDecls_length (ds : Decls) : (expDecls ds).length = totalWidth ds := by
  induction ds with
  | nil => rfl
  | cons d ds ih =>
    rw [expDecls_cons, List.length_append, ih, expDecls_one_length]
    simp [totalWidth]

theorem declWidth_pos (d : Name × ℤ) : 1 ≤ declWidth d := by
  unfold declWidth
  split
  · exact domBits_pos _
  · exact le_rfl

theorem declWidth_le {d : Name × ℤ} (h : d.2 < 2 ^ 31) : declWidth d ≤ 31 := by
  unfold declWidth
  split
  · rename_i h0
    rw [← bits_eq_domBits _ h0]
    split
    · apply Nat.clog_le_of_le_pow
      omega
    · omega
  · omega

theorem totalWidth_cons (d : Name × ℤ) (ds : Decls) : totalWidth (d :: ds) = declWidth d + totalWidth ds := by
  simp [totalWidth]

theorem totalWidth_nil : totalWidth [] = 0 := rfl

theorem totalWidth_append (A B : Decls) : totalWidth (A ++ B) = totalWidth A + totalWidth B := by
  simp [totalWidth]

theorem self_match {d : Name × ℤ} (h0 : 0 ≤ d.2) (hs : d.1.length ≤ 1023) :
    ∀ v ∈ expDecls [d], pfxOf d.1 v = true := by
  intro v hv
  unfold expDecls at hv
  simp only [List.flatMap_cons, List.flatMap_nil, List.append_nil, if_pos h0, List.mem_map] at hv
  obtain ⟨i, -, rfl⟩ := hv
  unfold pfxOf bitName
  rw [List.isPrefixOf_iff_prefix]
  refine List.prefix_take_iff.2 ⟨List.prefix_append _ _, hs⟩

/-! ## Finding a run -/

theorem findRun_split (name : List Char) (P R Q : VarList) (hP : ∀ v ∈ P, pfxOf name v = false)
    (hR : ∀ v ∈ R, pfxOf name v = true) (hne : R ≠ []) (hQ : ∀ v ∈ Q, pfxOf name v = false) :
    findRun name (P ++ R ++ Q) = some (P.length, R.length) := by
  have h1 : (P ++ R ++ Q).findIdx? (pfxOf name) = some P.length := by
    rw [List.append_assoc, List.findIdx?_append]
    have : P.findIdx? (pfxOf name) = none := List.findIdx?_eq_none_iff.2 hP
    rw [this]
    cases R with
    | nil => exact absurd rfl hne
    | cons r R =>
      simp [List.findIdx?_cons, hR r List.mem_cons_self]
  unfold findRun
  rw [h1]
  simp only [Option.some.injEq, Prod.mk.injEq, true_and]
  rw [List.append_assoc, List.drop_left, List.takeWhile_append_of_pos hR]
  cases Q with
  | nil => simp
  | cons q Q => simp [hQ q List.mem_cons_self]

theorem findRun_none (name : List Char) (l : VarList) (h : ∀ v ∈ l, pfxOf name v = false) :
    findRun name l = none := by
  unfold findRun
  rw [List.findIdx?_eq_none_iff.2 h]

theorem no_pfx {name : List Char} {v : List Char × ℤ} (h : ¬ name <+: v.1) : pfxOf name v = false := by
  unfold pfxOf
  rw [← Bool.not_eq_true, List.isPrefixOf_iff_prefix]
  exact h

theorem mem_expDecls {ds : Decls} {v : Name × ℤ} : v ∈ expDecls ds ↔ ∃ d ∈ ds, v ∈ expDecls [d] := by
  simp [expDecls]

variable {evars svars : Decls}

theorem pfx_exp (hp : PfxFree ds) {A B : Decls} {d : Name × ℤ} (he : ds = A ++ d :: B) (h0 : 0 ≤ d.2)
    {l : Decls} (hl : l ⊆ A ++ B) : ∀ v ∈ expDecls l, pfxOf d.1 v = false := by
  intro v hv
  obtain ⟨d', h1, h2⟩ := mem_expDecls.1 hv
  exact no_pfx ((hp.free A d B he h0 d' (hl h1)).2 v h2)

theorem pfx_dec (hp : PfxFree ds) {A B : Decls} {d : Name × ℤ} (he : ds = A ++ d :: B) (h0 : 0 ≤ d.2)
    {l : Decls} (hl : l ⊆ A ++ B) : ∀ v ∈ l, pfxOf d.1 v = false := by
  intro v hv
  exact no_pfx (hp.free A d B he h0 v (hl hv)).1

theorem exp_one_ne (d : Name × ℤ) : expDecls [d] ≠ [] := by
  rw [← List.length_pos_iff, expDecls_one_length]
  exact declWidth_pos d

/-- Where a declared variable stands. -/
theorem split_cases {A B : Decls} {d : Name × ℤ} (he : evars ++ svars = A ++ d :: B) :
    (∃ a, evars = A ++ d :: a ∧ B = a ++ svars) ∨ ∃ c, A = evars ++ c ∧ svars = c ++ d :: B := by
  rcases List.append_eq_append_iff.1 he with ⟨a, h1, h2⟩ | ⟨c, h1, h2⟩
  · exact Or.inr ⟨a, h1, h2⟩
  · cases c with
    | nil =>
      simp only [List.append_nil, List.nil_append] at h1 h2
      exact Or.inr ⟨[], by simp [h1], h2.symm⟩
    | cons x c =>
      simp only [List.cons_append, List.cons.injEq] at h2
      obtain ⟨rfl, rfl⟩ := h2
      exact Or.inl ⟨c, h1, rfl⟩

/-! ## Offsets -/

theorem offsetOf_eq (hp : PfxFree (evars ++ svars)) {A B : Decls} {d : Name × ℤ}
    (he : evars ++ svars = A ++ d :: B) (h0 : 0 ≤ d.2) :
    offsetOf (expDecls evars) (expDecls svars) d.1 = some (totalWidth A, declWidth d) := by
  have hs : d.1.length ≤ 1023 := hp.short d (by rw [he]; simp) h0
  have hself := self_match h0 hs
  unfold offsetOf
  rcases split_cases he with ⟨a, h1, h2⟩ | ⟨c, h1, h2⟩
  · have := findRun_split d.1 (expDecls A) (expDecls [d]) (expDecls a)
      (pfx_exp hp he h0 (by simp)) hself (exp_one_ne d) (pfx_exp hp he h0 (by rw [h2]; simp))
    rw [h1, expDecls_append, expDecls_cons d a, ← List.append_assoc, this]
    simp [expDecls_length, totalWidth_cons, totalWidth]
  · have hn := findRun_none d.1 (expDecls evars) (pfx_exp hp he h0 (by rw [h1]; simp))
    have := findRun_split d.1 (expDecls c) (expDecls [d]) (expDecls B)
      (pfx_exp hp he h0 (by rw [h1]; simp)) hself (exp_one_ne d) (pfx_exp hp he h0 (by simp))
    rw [hn, h2, expDecls_append, expDecls_cons d B, ← List.append_assoc, this, h1]
    simp only [expDecls_length, totalWidth_append]
    simp [totalWidth]

theorem getOffsets_eq (hp : PfxFree (evars ++ svars)) : ∀ (B A : Decls), evars ++ svars = A ++ B →
    getOffsetsList (expDecls evars) (expDecls svars) (intVars B) = some (layoutFrom (totalWidth A) B) := by
  intro B
  induction B with
  | nil => intro A _; rfl
  | cons d B ih =>
    intro A he
    have hr := ih (A ++ [d]) (by rw [he]; simp)
    have hw : totalWidth (A ++ [d]) = totalWidth A + declWidth d := by
      rw [totalWidth_append]; simp [totalWidth]
    rw [hw] at hr
    unfold layoutFrom intVars
    by_cases h0 : 0 ≤ d.2
    · rw [List.filter_cons_of_pos (by simpa using h0), if_pos h0]
      simp only [getOffsetsList]
      rw [offsetOf_eq hp he h0]
      change (match getOffsetsList _ _ (intVars B) with | none => none | some rs => some ((totalWidth A, declWidth d) :: rs)) = _
      rw [hr]
    · rw [List.filter_cons_of_neg (by simpa using h0), if_neg h0]
      exact hr

/-! ## Expansion of states -/

theorem encOne_length (d : Name × ℤ) (x : ℤ) : (encOne d x).length = declWidth d := by
  unfold encOne declWidth
  split <;> simp

theorem encList_length : ∀ (ds : Decls) (vs : List ℤ), vs.length = ds.length →
    (encList ds vs).length = totalWidth ds := by
  intro ds
  induction ds with
  | nil => intro vs _; simp [encList, totalWidth]
  | cons d ds ih =>
    intro vs h
    cases vs with
    | nil => simp at h
    | cons x vs =>
      simp only [List.length_cons, Nat.add_right_cancel_iff] at h
      rw [encList, List.length_append, encOne_length, ih vs h, totalWidth_cons]

theorem layoutFrom_ge : ∀ (ds : Decls) (off : ℕ), ∀ r ∈ layoutFrom off ds, off ≤ r.1 := by
  intro ds
  induction ds with
  | nil => intro off r hr; simp [layoutFrom] at hr
  | cons d ds ih =>
    intro off r hr
    unfold layoutFrom at hr
    split at hr
    · rcases List.mem_cons.1 hr with rfl | hr
      · exact le_rfl
      · have := ih _ r hr; omega
    · have := ih _ r hr; omega

theorem expandStateLoop_eq (N : ℕ) : ∀ (ds : Decls) (vs : List ℤ) (pre : List (Option ℤ)),
    vs.length = ds.length → IntDecls ds → pre.length + totalWidth ds = N → ∀ post : List (Option ℤ), post.length = totalWidth ds →
    expandStateLoop N vs (layoutFrom pre.length ds) pre.length (pre ++ post) =
      .ok (pre ++ (encList ds vs).map some) := by
  intro ds
  induction ds with
  | nil =>
    intro vs pre _ _ hN post hpost
    unfold expandStateLoop
    have : totalWidth [] = 0 := rfl
    rw [this] at hN hpost
    rw [if_neg (by omega)]
    simp [List.length_eq_zero_iff.1 hpost, encList]
  | cons d ds ih =>
    intro vs pre hl hi hN post hpost
    cases vs with
    | nil => simp at hl
    | cons x vs =>
      simp only [List.length_cons, Nat.add_right_cancel_iff] at hl
      have hw := declWidth_pos d
      rw [totalWidth_cons] at hN hpost
      have hi' : IntDecls ds := fun d hd => hi d (List.mem_cons_of_mem _ hd)
      have key := ih vs (pre ++ (encOne d x).map some) hl hi'
        (by simp only [List.length_append, List.length_map, encOne_length]; omega)
        (post.drop (declWidth d)) (by simp only [List.length_drop]; omega)
      have hplen : (pre ++ (encOne d x).map some).length = pre.length + declWidth d := by
        simp [encOne_length]
      rw [hplen] at key
      have hfin : pre ++ (encOne d x).map some ++ (encList ds vs).map some = pre ++ (encList (d :: ds) (x :: vs)).map some := by
        simp [encList]
      rw [hfin] at key
      unfold expandStateLoop
      rw [if_pos (by omega)]
      unfold layoutFrom
      by_cases h0 : 0 ≤ d.2
      · rw [if_pos h0]
        simp only
        rw [if_neg (by omega)]
        have hwd : declWidth d = domBits d.2 := by unfold declWidth; rw [if_pos h0]
        have hle := declWidth_le (hi d List.mem_cons_self)
        have hb : intToBitvec x (declWidth d) = .ok (encOne d x) := by
          unfold intToBitvec encOne
          rw [if_neg (by omega), if_neg (by omega), if_pos h0, hwd]
          rfl
        rw [hb]
        simp only
        have hwr : writeAt (pre ++ post) pre.length (encOne d x) =
            .ok (pre ++ (encOne d x).map some ++ post.drop (declWidth d)) := by
          unfold writeAt
          rw [encOne_length, if_neg (by simp only [List.length_append]; omega)]
          congr 1
          rw [List.take_left]
          congr 1
          rw [List.drop_append]
          simp
        rw [hwr]
        exact key
      · rw [if_neg h0]
        have hwd : declWidth d = 1 := by unfold declWidth; rw [if_neg h0]
        rw [hwd] at key ⊢
        have henc : encOne d x = [x] := by unfold encOne; rw [if_neg h0]
        rw [henc] at key
        have hset : (pre ++ post).set pre.length (some x) = pre ++ List.map some [x] ++ post.drop 1 := by
          cases post with
          | nil => simp at hpost; omega
          | cons y post => simp [List.set_append_right]
        simp only
        rw [hset]
        cases hlay : layoutFrom (pre.length + 1) ds with
        | nil =>
          simp only
          rw [hlay] at key
          exact key
        | cons r rs =>
          obtain ⟨s, w⟩ := r
          simp only
          have := layoutFrom_ge ds (pre.length + 1) (s, w) (by rw [hlay]; exact List.mem_cons_self)
          simp only at this
          rw [if_pos (by omega)]
          rw [hlay] at key
          exact key

theorem expandNonboolState_eq (ds : Decls) (vs : List ℤ) (hne : ds ≠ []) (hl : vs.length = ds.length)
    (hi : IntDecls ds) :
    expandNonboolState vs (layoutFrom 0 ds) (totalWidth ds) = .ok ((encList ds vs).map some) := by
  unfold expandNonboolState
  have hpos : totalWidth ds ≠ 0 := by
    cases ds with
    | nil => exact absurd rfl hne
    | cons d ds => rw [totalWidth_cons]; have := declWidth_pos d; omega
  rw [if_neg hpos]
  have := expandStateLoop_eq (totalWidth ds) ds vs [] hl hi (by simp) (List.replicate (totalWidth ds) none) (by simp)
  simpa using this

/-! ## Encoding and decoding -/

theorem enc_dec : ∀ (ds : Decls) (bs : List ℤ), IntDecls ds → bs.length = totalWidth ds → Is01 bs →
    encList ds (decList ds bs) = bs := by
  intro ds
  induction ds with
  | nil =>
    intro bs _ h _
    have : bs = [] := List.length_eq_zero_iff.1 (by simpa [totalWidth] using h)
    simp [decList, encList, this]
  | cons d ds ih =>
    intro bs hi h h01
    rw [totalWidth_cons] at h
    have hw := declWidth_pos d
    have hdrop := ih (bs.drop (declWidth d)) (fun d hd => hi d (List.mem_cons_of_mem _ hd))
      (by simp only [List.length_drop]; omega) (fun b hb => h01 b (List.mem_of_mem_drop hb))
    unfold decList encList
    rw [hdrop]
    conv_rhs => rw [← List.take_append_drop (declWidth d) bs]
    congr 1
    have htl : (bs.take (declWidth d)).length = declWidth d := by rw [List.length_take]; omega
    have ht01 : Is01 (bs.take (declWidth d)) := fun b hb => h01 b (List.mem_of_mem_take hb)
    by_cases h0 : 0 ≤ d.2
    · rw [if_pos h0]
      have hwd : declWidth d = domBits d.2 := by unfold declWidth; rw [if_pos h0]
      unfold encOne
      rw [if_pos h0]
      apply bitsVal_inj _ _ (by simp [htl, hwd]; omega) (bits_is01 _ _) ht01
      rw [bitsVal_bits]
      have hr := bitsVal_range _ ht01
      rw [htl, hwd] at hr
      rw [← hwd] at hr ⊢
      exact Int.emod_eq_of_lt hr.1 hr.2
    · rw [if_neg h0]
      have hwd : declWidth d = 1 := by unfold declWidth; rw [if_neg h0]
      unfold encOne
      rw [if_neg h0, hwd]
      cases bs with
      | nil => simp at h; omega
      | cons b bs => simp

/-- Values inside the encodable range: integer variables below 2^bits. -/
def InRange (ds : Decls) (vs : List ℤ) : Prop :=
  List.Forall₂ (fun d x => 0 ≤ d.2 → 0 ≤ x ∧ x < 2 ^ domBits d.2) ds vs

theorem dec_enc : ∀ (ds : Decls) (vs : List ℤ), InRange ds vs → decList ds (encList ds vs) = vs := by
  intro ds vs h
  induction h with
  | nil => rfl
  | @cons d x ds vs h1 h2 ih =>
    unfold encList decList
    have htk : (encOne d x ++ encList ds vs).take (declWidth d) = encOne d x := by
      rw [← encOne_length d x, List.take_left]
    have hdr : (encOne d x ++ encList ds vs).drop (declWidth d) = encList ds vs := by
      rw [← encOne_length d x, List.drop_left]
    rw [htk, hdr, ih]
    congr 1
    by_cases h0 : 0 ≤ d.2
    · rw [if_pos h0]
      unfold encOne
      rw [if_pos h0, bitsVal_bits, Int.emod_eq_of_lt (h1 h0).1 (h1 h0).2]
    · rw [if_neg h0]
      unfold encOne
      rw [if_neg h0]
      rfl

theorem decList_length : ∀ (ds : Decls) (bs : List ℤ), (decList ds bs).length = ds.length := by
  intro ds
  induction ds with
  | nil => intro bs; rfl
  | cons d ds ih => intro bs; simp [decList, ih]

theorem enc_01 : ∀ (ds : Decls) (vs : List ℤ), vs.length = ds.length →
    List.Forall₂ (fun d x => d.2 < 0 → x = 0 ∨ x = 1) ds vs → Is01 (encList ds vs) := by
  intro ds vs hl h
  induction h with
  | nil => intro b hb; simp [encList] at hb
  | @cons d x ds vs h1 h2 ih =>
    intro b hb
    unfold encList at hb
    rcases List.mem_append.1 hb with hb | hb
    · unfold encOne at hb
      split at hb
      · exact bits_is01 _ _ b hb
      · rename_i h0
        simp only [List.mem_singleton] at hb
        subst hb
        exact h1 (by omega)
    · exact ih (by simpa using hl) b hb

/-! ## Compaction -/

theorem mapStates_ok {M V W : Type} (f : V → CRes W) (g : V → W) : ∀ (a : Aut M V),
    (∀ x ∈ a, f x.state = .ok (g x.state)) →
    mapStates f a = .ok (a.map fun x => ⟨x.id, g x.state, x.mode, x.rgrad, x.initial, x.trans⟩) := by
  intro a
  induction a with
  | nil => intro _; rfl
  | cons x a ih =>
    intro h
    unfold mapStates
    rw [h x List.mem_cons_self, ih fun y hy => h y (List.mem_cons_of_mem _ hy)]
    rfl

theorem mapStates_map {M V W V' : Type} (f : V → CRes W) (g : V' → V) (g' : V' → W) : ∀ (a : Aut M V'),
    (∀ x ∈ a, f (g x.state) = .ok (g' x.state)) →
    mapStates f (a.map fun x => ⟨x.id, g x.state, x.mode, x.rgrad, x.initial, x.trans⟩) =
      .ok (a.map fun x => ⟨x.id, g' x.state, x.mode, x.rgrad, x.initial, x.trans⟩) := by
  intro a
  induction a with
  | nil => intro _; rfl
  | cons x a ih =>
    intro h
    simp only [List.map_cons, mapStates]
    rw [h x List.mem_cons_self, ih fun y hy => h y (List.mem_cons_of_mem _ hy)]

/-- State when the variables `A` have been compacted and those of `B` not yet. -/
def midState (A B : Decls) (bs : List ℤ) : List ℤ := decList A bs ++ bs.drop (totalWidth A)

theorem decList_append : ∀ (A B : Decls) (bs : List ℤ),
    decList (A ++ B) bs = decList A bs ++ decList B (bs.drop (totalWidth A)) := by
  intro A
  induction A with
  | nil => intro B bs; simp [decList, totalWidth]
  | cons d A ih =>
    intro B bs
    simp only [List.cons_append, decList, ih, totalWidth_cons, List.drop_drop]

theorem compactState_eq {A B : Decls} {d : Name × ℤ} {bs : List ℤ} (h0 : 0 ≤ d.2) (hi : d.2 < 2 ^ 31)
    (hl : bs.length = totalWidth (A ++ d :: B)) (h01 : Is01 bs) :
    compactState A.length (declWidth d) (A.length + totalWidth (d :: B)) (midState A (d :: B) bs) =
      .ok (midState (A ++ [d]) B bs) := by
  rw [totalWidth_append, totalWidth_cons] at hl
  unfold compactState midState
  have hdl := decList_length A bs
  rw [totalWidth_cons, if_neg (by simp only [List.length_append, List.length_drop]; omega)]
  have hd : (decList A bs ++ bs.drop (totalWidth A)).drop A.length = bs.drop (totalWidth A) := by
    rw [← hdl, List.drop_left]
  have ht : (decList A bs ++ bs.drop (totalWidth A)).take A.length = decList A bs := by
    rw [← hdl, List.take_left]
  have h01' : Is01 ((bs.drop (totalWidth A)).take (declWidth d)) :=
    fun b hb => h01 b (List.mem_of_mem_drop (List.mem_of_mem_take hb))
  have hlen : ((bs.drop (totalWidth A)).take (declWidth d)).length ≤ 31 := by
    have := declWidth_le hi
    rw [List.length_take]
    omega
  rw [hd, bitvec_value _ h01' hlen]
  simp only
  rw [ht]
  have hall : (decList A bs ++ bs.drop (totalWidth A)).take (A.length + (declWidth d + totalWidth B)) =
      decList A bs ++ bs.drop (totalWidth A) := by
    apply List.take_of_length_le
    simp only [List.length_append, List.length_drop]
    omega
  rw [hall]
  congr 1
  rw [decList_append]
  simp only [decList, if_pos h0]
  have : (decList A bs ++ bs.drop (totalWidth A)).drop (A.length + declWidth d) =
      bs.drop (totalWidth (A ++ [d])) := by
    rw [← List.drop_drop, hd, List.drop_drop, totalWidth_append]
    simp [totalWidth]
  rw [this]
  simp

theorem compactAll_eq {M : Type} (hp : PfxFree (evars ++ svars)) (hi : IntDecls (evars ++ svars))
    (a : Aut M (List ℤ)) (hl : ∀ x ∈ a, x.state.length = totalWidth (evars ++ svars) ∧ Is01 x.state) :
    ∀ (B A : Decls), evars ++ svars = A ++ B → ∀ ev sv,
      ((∃ a', evars = A ++ a' ∧ ev = A ++ expDecls a' ∧ sv = expDecls svars) ∨
        ∃ c c', A = evars ++ c ∧ svars = c ++ c' ∧ ev = evars ∧ sv = c ++ expDecls c') →
      compactAll (a.map fun x => ⟨x.id, midState A B x.state, x.mode, x.rgrad, x.initial, x.trans⟩) ev sv
        (intVars B) =
        .ok (a.map fun x => ⟨x.id, midState (A ++ B) [] x.state, x.mode, x.rgrad, x.initial, x.trans⟩,
          evars, svars) := by
  intro B
  induction B with
  | nil =>
    intro A he ev sv hv
    have hc : compactAll (a.map fun x => ⟨x.id, midState A [] x.state, x.mode, x.rgrad, x.initial, x.trans⟩) ev sv
        (intVars []) = .ok (a.map fun x => ⟨x.id, midState A [] x.state, x.mode, x.rgrad, x.initial, x.trans⟩, ev, sv) := rfl
    rw [hc]
    simp only [List.append_nil] at he ⊢
    rcases hv with ⟨a', h1, h2, h3⟩ | ⟨c, c', h1, h2, h3, h4⟩
    · rw [h1, List.append_assoc] at he
      have hn : a' ++ svars = [] := by simpa using he
      obtain ⟨rfl, hs⟩ := List.append_eq_nil_iff.1 hn
      rw [h2, h3, hs, h1]
      rfl
    · rw [h1, h2, ← List.append_assoc] at he
      have hn : c' = [] := by simpa using he
      rw [h3, h4, hn, h2, hn]
      rfl
  | cons d B ih =>
    intro A he ev sv hv
    have hA : A ++ d :: B = (A ++ [d]) ++ B := by simp
    have he' : evars ++ svars = (A ++ [d]) ++ B := by rw [he, hA]
    rw [hA]
    by_cases h0 : 0 ≤ d.2
    · have hf : intVars (d :: B) = d :: intVars B := by
        unfold intVars; rw [List.filter_cons_of_pos (by simpa using h0)]
      have hs : d.1.length ≤ 1023 := hp.short d (by rw [he]; simp) h0
      have hself := self_match h0 hs
      have hdi : d.2 < 2 ^ 31 := hi d (by rw [he]; simp)
      rw [hf]
      -- the states
      have hst : ∀ n, n = A.length + totalWidth (d :: B) →
          mapStates (compactState A.length (declWidth d) n)
            (a.map fun x => ⟨x.id, midState A (d :: B) x.state, x.mode, x.rgrad, x.initial, x.trans⟩) =
          .ok (a.map fun x => ⟨x.id, midState (A ++ [d]) B x.state, x.mode, x.rgrad, x.initial, x.trans⟩) := by
        rintro n rfl
        have hcomp : ∀ x ∈ a, compactState A.length (declWidth d) (A.length + totalWidth (d :: B))
            (midState A (d :: B) x.state) = .ok (midState (A ++ [d]) B x.state) := by
          intro x hx
          have h := hl x hx
          rw [he] at h
          exact compactState_eq h0 hdi h.1 h.2
        exact mapStates_map _ _ _ a hcomp
      rcases hv with ⟨a', h1, h2, h3⟩ | ⟨c, c', h1, h2, h3, h4⟩
      · rw [h1, List.append_assoc] at he
        have hB : a' ++ svars = d :: B := List.append_cancel_left he
        cases a' with
        | nil =>
          -- the next variable is the first system variable
          simp only [List.nil_append] at hB
          have hev : evars = A := by simpa using h1
          have hrun := findRun_split d.1 [] (expDecls [d]) (expDecls B) (by simp) hself (exp_one_ne d)
            (pfx_exp hp (A := A) (B := B) (by rw [h1, List.append_assoc, List.nil_append, hB]) h0 (by simp))
          have hnone := findRun_none d.1 ev (by
            rw [h2]; simp only [expDecls, List.flatMap_nil, List.append_nil]
            exact pfx_dec hp (A := A) (B := B) (by rw [h1, List.append_assoc, List.nil_append, hB]) h0 (by simp))
          have hsv : sv = [] ++ expDecls [d] ++ expDecls B := by
            rw [h3, hB, expDecls_cons]; rfl
          have hevA : ev = A := by rw [h2]; simp [expDecls]
          have hc1 : autCompact (a.map fun x => ⟨x.id, midState A (d :: B) x.state, x.mode, x.rgrad, x.initial, x.trans⟩)
              ev sv d.1 d.2 = .ok (a.map fun x => ⟨x.id, midState (A ++ [d]) B x.state, x.mode, x.rgrad, x.initial, x.trans⟩,
                evars, d :: expDecls B) := by
            unfold autCompact
            rw [hnone, hsv, hrun]
            simp only [List.length_nil, Nat.add_zero, expDecls_one_length]
            have := hst (ev.length + ([] ++ expDecls [d] ++ expDecls B).length) (by
              rw [hevA]
              simp only [List.nil_append, List.length_append, expDecls_length, totalWidth_cons, totalWidth_nil,
                Nat.add_zero])
            rw [show ev.length = A.length by rw [hevA]] at this ⊢
            rw [this]
            simp only
            congr 2
            rw [hevA, hev]
            congr 1
            unfold compactVars
            simp only [List.take_zero, List.nil_append, Nat.zero_add]
            rw [← expDecls_one_length d, List.drop_left]
          have : compactAll (a.map fun x => ⟨x.id, midState A (d :: B) x.state, x.mode, x.rgrad, x.initial, x.trans⟩)
              ev sv (d :: intVars B) = compactAll (a.map fun x => ⟨x.id, midState (A ++ [d]) B x.state, x.mode, x.rgrad, x.initial, x.trans⟩)
              evars (d :: expDecls B) (intVars B) := by
            simp only [compactAll]
            rw [hc1]
          rw [this]
          exact ih (A ++ [d]) he' _ _ (Or.inr ⟨[d], B, by rw [hev], by rw [hB]; rfl, rfl, rfl⟩)
        | cons d' a' =>
          simp only [List.cons_append, List.cons.injEq] at hB
          obtain ⟨rfl, hB⟩ := hB
          have hew : evars ++ svars = A ++ d' :: B := by rw [h1, List.append_assoc, List.cons_append, hB]
          have hrun := findRun_split d'.1 A (expDecls [d']) (expDecls a') (pfx_dec hp hew h0 (by simp))
            hself (exp_one_ne d') (pfx_exp hp hew h0 (by rw [← hB]; simp))
          have hevs : ev = A ++ expDecls [d'] ++ expDecls a' := by
            rw [h2, expDecls_cons, List.append_assoc]
          have hc1 : autCompact (a.map fun x => ⟨x.id, midState A (d' :: B) x.state, x.mode, x.rgrad, x.initial, x.trans⟩)
              ev sv d'.1 d'.2 = .ok (a.map fun x => ⟨x.id, midState (A ++ [d']) B x.state, x.mode, x.rgrad, x.initial, x.trans⟩,
                A ++ d' :: expDecls a', sv) := by
            unfold autCompact
            rw [hevs, hrun]
            simp only [expDecls_one_length]
            rw [hst _ (by
              rw [h3]
              simp only [List.length_append, expDecls_one_length, expDecls_length, totalWidth_cons, ← hB,
                totalWidth_append, totalWidth_nil]
              omega)]
            simp only
            congr 2
            unfold compactVars
            congr 1
            rw [List.append_assoc, List.take_left, ← List.drop_drop, List.drop_left, ← expDecls_one_length d',
              List.drop_left]
          have : compactAll (a.map fun x => ⟨x.id, midState A (d' :: B) x.state, x.mode, x.rgrad, x.initial, x.trans⟩)
              ev sv (d' :: intVars B) = compactAll (a.map fun x => ⟨x.id, midState (A ++ [d']) B x.state, x.mode, x.rgrad, x.initial, x.trans⟩)
              (A ++ d' :: expDecls a') sv (intVars B) := by
            simp only [compactAll]
            rw [hc1]
          rw [this]
          exact ih (A ++ [d']) he' _ _ (Or.inl ⟨a', by rw [h1]; simp, by simp, h3⟩)
      · have hc' : c' = d :: B := by
          rw [h1, h2, List.append_assoc] at he
          exact List.append_cancel_left (List.append_cancel_left he)
        have hnone := findRun_none d.1 evars (pfx_dec hp he h0 (by rw [h1]; simp))
        have hrun := findRun_split d.1 c (expDecls [d]) (expDecls B) (pfx_dec hp he h0 (by rw [h1]; simp))
          hself (exp_one_ne d) (pfx_exp hp he h0 (by simp))
        have hsv : sv = c ++ expDecls [d] ++ expDecls B := by
          rw [h4, hc', expDecls_cons, List.append_assoc]
        have hc1 : autCompact (a.map fun x => ⟨x.id, midState A (d :: B) x.state, x.mode, x.rgrad, x.initial, x.trans⟩)
            ev sv d.1 d.2 = .ok (a.map fun x => ⟨x.id, midState (A ++ [d]) B x.state, x.mode, x.rgrad, x.initial, x.trans⟩,
              evars, c ++ d :: expDecls B) := by
          unfold autCompact
          rw [h3, hnone, hsv, hrun]
          simp only [expDecls_one_length]
          have hAl : A.length = evars.length + c.length := by rw [h1, List.length_append]
          rw [← hAl, hst _ (by
            simp only [List.length_append, expDecls_one_length, expDecls_length, totalWidth_cons, totalWidth_nil]
            omega)]
          simp only
          congr 3
          unfold compactVars
          rw [List.append_assoc, List.take_left, ← List.drop_drop, List.drop_left, ← expDecls_one_length d,
            List.drop_left]
        have : compactAll (a.map fun x => ⟨x.id, midState A (d :: B) x.state, x.mode, x.rgrad, x.initial, x.trans⟩)
            ev sv (d :: intVars B) = compactAll (a.map fun x => ⟨x.id, midState (A ++ [d]) B x.state, x.mode, x.rgrad, x.initial, x.trans⟩)
            evars (c ++ d :: expDecls B) (intVars B) := by
          simp only [compactAll]
          rw [hc1]
        rw [this]
        exact ih (A ++ [d]) he' _ _ (Or.inr ⟨c ++ [d], B, by rw [h1]; simp, by rw [h2, hc']; simp, rfl, by simp⟩)
    · have hf : intVars (d :: B) = intVars B := by
        unfold intVars; rw [List.filter_cons_of_neg (by simpa using h0)]
      have hwd : declWidth d = 1 := by unfold declWidth; rw [if_neg h0]
      have hexp : expDecls [d] = [d] := by unfold expDecls; simp [h0]
      rw [hf]
      have hmid : ∀ x ∈ a, midState A (d :: B) x.state = midState (A ++ [d]) B x.state := by
        intro x hx
        have hlen := (hl x hx).1
        rw [he, totalWidth_append, totalWidth_cons] at hlen
        unfold midState
        rw [decList_append]
        simp only [decList, if_neg h0, totalWidth_append, List.append_assoc]
        congr 1
        have hw1 : totalWidth [d] = 1 := by simp [totalWidth, hwd]
        rw [hw1]
        cases hdr : x.state.drop (totalWidth A) with
        | nil =>
          have := congrArg List.length hdr
          simp only [List.length_drop, List.length_nil] at this
          omega
        | cons y ys =>
          have : x.state.drop (totalWidth A + 1) = ys := by
            rw [← List.drop_drop, hdr]; rfl
          rw [this]; rfl
      have hmap : (a.map fun x => (⟨x.id, midState A (d :: B) x.state, x.mode, x.rgrad, x.initial, x.trans⟩ : ANode M (List ℤ)))
          = a.map fun x => ⟨x.id, midState (A ++ [d]) B x.state, x.mode, x.rgrad, x.initial, x.trans⟩ := by
        apply List.map_congr_left
        intro x hx
        rw [hmid x hx]
      rw [hmap]
      apply ih (A ++ [d]) he'
      rcases hv with ⟨a', h1, h2, h3⟩ | ⟨c, c', h1, h2, h3, h4⟩
      · rw [h1, List.append_assoc] at he
        have hB : a' ++ svars = d :: B := List.append_cancel_left he
        cases a' with
        | nil =>
          simp only [List.nil_append] at hB
          have hev : evars = A := by simpa using h1
          refine Or.inr ⟨[d], B, by rw [hev], by rw [hB]; rfl, by rw [h2, hev]; simp [expDecls], ?_⟩
          rw [h3, hB, expDecls_cons, hexp]
        | cons d' a' =>
          simp only [List.cons_append, List.cons.injEq] at hB
          obtain ⟨rfl, hB⟩ := hB
          refine Or.inl ⟨a', by rw [h1]; simp, ?_, h3⟩
          rw [h2, expDecls_cons, hexp, List.append_assoc]
      · have hc' : c' = d :: B := by
          rw [h1, h2, List.append_assoc] at he
          exact List.append_cancel_left (List.append_cancel_left he)
        refine Or.inr ⟨c ++ [d], B, by rw [h1]; simp, by rw [h2, hc']; simp, h3, ?_⟩
        rw [h4, hc', expDecls_cons, hexp, List.append_assoc]

end Gr1c
