import Verif.ParseErrMore
import Verif.ParseProps

/-!
# The two models of the parser (C73, C47)

Auxiliary: the grammar as written in the source and the grammar with precedence levels have the same sentences.
-/

namespace Gr1c

theorem gram_down {p : Bool} {k : ℕ} {ts : List Tok} {f : Fm} (h : Gram p k ts f) (hk : k ≤ 3) : ∀ {j : ℕ}, j ≤ k → Gram p j ts f := by
  have : ∀ n j, j + n = k → Gram p j ts f := by
    intro n
    induction n with
    | zero => intro j hj; obtain rfl : j = k := by omega
              exact h
    | succ n ih => intro j hj; exact .up (by omega) (ih (j + 1) (by omega))
  intro j hj
  exact this (k - j) j (by omega)

theorem gram_level {p : Bool} {k : ℕ} {ts : List Tok} {f : Fm} (h : Gram p k ts f) : k ≤ 3 := by
  cases h <;> omega

theorem gram_formG {p : Bool} {k : ℕ} {ts : List Tok} {f : Fm} (h : Gram p k ts f) : FormG p ts := by
  induction h with
  | tt => exact .tt
  | ff => exact .ff
  | var nx n h => exact .var nx h n
  | cmp op nx n k h => exact .cmp op nx h n k
  | neg _ ih => exact .neg ih
  | paren _ ih => exact .paren ih
  | up _ _ ih => exact ih
  | and _ _ i1 i2 => exact .bin (by simp [binToks]) i1 i2
  | or _ _ i1 i2 => exact .bin (by simp [binToks]) i1 i2
  | imp _ _ i1 i2 => exact .bin (by simp [binToks]) i1 i2
  | equiv _ _ i1 i2 => exact .bin (by simp [binToks]) i1 i2

theorem bin_op {o : Tok} (h : o ∈ binToks) : ∃ b : BOp, o = b.tok := by
  simp only [binToks, List.mem_cons, List.not_mem_nil, or_false] at h
  rcases h with rfl | rfl | rfl | rfl
  · exact ⟨.and, rfl⟩
  · exact ⟨.or, rfl⟩
  · exact ⟨.imp, rfl⟩
  · exact ⟨.equiv, rfl⟩

/-- An operand more. -/
theorem gram_unit {p : Bool} (o : BOp) {u : List Tok} {g : Fm} (hu : Gram p 3 u g) {k : ℕ} {ts : List Tok} {f : Fm} (h : Gram p k ts f) :
    ∃ e, Gram p (min k o.lv) (ts ++ o.tok :: u) e := by
  have hov : o.lv < 3 := BOp.lv_lt o
  have direct : ∀ {k : ℕ} {ts : List Tok} {f : Fm}, Gram p k ts f → o.lv ≤ k → ∃ e, Gram p (min k o.lv) (ts ++ o.tok :: u) e := by
    intro k ts f h hk
    refine ⟨o.fm f g, ?_⟩
    rw [Nat.min_eq_right hk]
    exact gram_bin o (gram_down h (gram_level h) hk) (gram_down hu (by omega) (by omega))
  induction h with
  | tt => exact direct .tt (by omega)
  | ff => exact direct .ff (by omega)
  | var nx n h => exact direct (.var nx n h) (by omega)
  | cmp op nx n k h => exact direct (.cmp op nx n k h) (by omega)
  | neg h _ => exact direct (.neg h) (by omega)
  | paren h _ => exact direct (.paren h) (by omega)
  | @up k ts f hk h ih =>
    obtain ⟨e, he⟩ := ih
    exact ⟨e, gram_down he (by omega) (by omega)⟩
  | and h1 h2 _ _ => exact direct (.and h1 h2) (by omega)
  | or h1 h2 _ _ => exact direct (.or h1 h2) (by omega)
  | @imp ts f ts' g h1 h2 _ ih =>
    by_cases hk : o.lv ≤ 1
    · exact direct (.imp h1 h2) hk
    · obtain ⟨e, he⟩ := ih
      refine ⟨.imp f e, ?_⟩
      have := Gram.imp h1 (gram_down he (by omega) (show 2 ≤ min 2 o.lv by omega))
      rw [Nat.min_eq_left (by omega), List.append_assoc]
      exact this
  | @equiv ts f ts' g h1 h2 _ ih =>
    by_cases hk : o.lv ≤ 0
    · exact direct (.equiv h1 h2) hk
    · obtain ⟨e, he⟩ := ih
      refine ⟨.equiv f e, ?_⟩
      have := Gram.equiv h1 (gram_down he (by omega) (show 1 ≤ min 1 o.lv by omega))
      rw [Nat.min_eq_left (by omega), List.append_assoc]
      exact this

/-- Two formulas with an operator between them. -/
theorem gram_join {p : Bool} {k : ℕ} {ts' : List Tok} {g : Fm} (h : Gram p k ts' g) : ∀ (o : BOp) {ts : List Tok} {f : Fm},
    Gram p 0 ts f → ∃ e, Gram p 0 (ts ++ o.tok :: ts') e := by
  have unit : ∀ {u : List Tok} {g : Fm}, Gram p 3 u g → ∀ (o : BOp) {ts : List Tok} {f : Fm}, Gram p 0 ts f →
      ∃ e, Gram p 0 (ts ++ o.tok :: u) e := by
    intro u g hu o ts f h
    obtain ⟨e, he⟩ := gram_unit o hu h
    exact ⟨e, gram_down he (by omega) (by omega)⟩
  have two : ∀ {a b : List Tok} (o' : BOp), (∀ (o : BOp) {ts : List Tok} {f : Fm}, Gram p 0 ts f → ∃ e, Gram p 0 (ts ++ o.tok :: a) e) →
      (∀ (o : BOp) {ts : List Tok} {f : Fm}, Gram p 0 ts f → ∃ e, Gram p 0 (ts ++ o.tok :: b) e) →
      ∀ (o : BOp) {ts : List Tok} {f : Fm}, Gram p 0 ts f → ∃ e, Gram p 0 (ts ++ o.tok :: (a ++ o'.tok :: b)) e := by
    intro a b o' ha hb o ts f h
    obtain ⟨e, he⟩ := ha o h
    obtain ⟨e', he'⟩ := hb o' he
    exact ⟨e', by simpa using he'⟩
  induction h with
  | tt => exact unit .tt
  | ff => exact unit .ff
  | var nx n h => exact unit (.var nx n h)
  | cmp op nx n k h => exact unit (.cmp op nx n k h)
  | neg h _ => exact unit (.neg h)
  | paren h _ => exact unit (.paren h)
  | up _ _ ih => exact ih
  | and _ _ i1 i2 => exact two .and i1 i2
  | or _ _ i1 i2 => exact two .or i1 i2
  | imp _ _ i1 i2 => exact two .imp i1 i2
  | equiv _ _ i1 i2 => exact two .equiv i1 i2

theorem gram_neg {p : Bool} {k : ℕ} {ts : List Tok} {f : Fm} (h : Gram p k ts f) : ∃ e, Gram p k (.chr '!' :: ts) e := by
  induction h with
  | tt => exact ⟨_, .neg .tt⟩
  | ff => exact ⟨_, .neg .ff⟩
  | var nx n h => exact ⟨_, .neg (.var nx n h)⟩
  | cmp op nx n k h => exact ⟨_, .neg (.cmp op nx n k h)⟩
  | neg h _ => exact ⟨_, .neg (.neg h)⟩
  | paren h _ => exact ⟨_, .neg (.paren h)⟩
  | up hk _ ih => obtain ⟨e, he⟩ := ih; exact ⟨e, .up hk he⟩
  | and _ h2 i1 _ => obtain ⟨e, he⟩ := i1; exact ⟨_, .and he h2⟩
  | or _ h2 i1 _ => obtain ⟨e, he⟩ := i1; exact ⟨_, .or he h2⟩
  | imp _ h2 i1 _ => obtain ⟨e, he⟩ := i1; exact ⟨_, .imp he h2⟩
  | equiv _ h2 i1 _ => obtain ⟨e, he⟩ := i1; exact ⟨_, .equiv he h2⟩

theorem formG_gram {p : Bool} {ts : List Tok} (h : FormG p ts) : ∃ f, Gram p 0 ts f := by
  have down : ∀ {ts : List Tok} {f : Fm}, Gram p 3 ts f → ∃ f, Gram p 0 ts f := fun h => ⟨_, gram_down h (by omega) (by omega)⟩
  induction h with
  | tt => exact down .tt
  | ff => exact down .ff
  | var nx h n => exact down (.var nx n h)
  | cmp op nx h n k => exact down (.cmp op nx n k h)
  | neg _ ih => obtain ⟨f, hf⟩ := ih; exact gram_neg hf
  | bin ho _ _ i1 i2 =>
    obtain ⟨f, hf⟩ := i1
    obtain ⟨g, hg⟩ := i2
    obtain ⟨b, rfl⟩ := bin_op ho
    exact gram_join hg b hf
  | paren _ ih => obtain ⟨f, hf⟩ := ih; exact down (.paren hf)

/-! ## Sections -/

theorem moreToks_formsG {p : Bool} {sep : Tok} {fs : List Fm} {tss : List Tok} (h : MoreToks p sep fs tss) :
    ∀ {ts : List Tok}, FormsG p sep ts → FormsG p sep (ts ++ tss) := by
  induction h with
  | nil => intro ts h; simpa using h
  | cons hg _ ih =>
    intro ts h
    have := ih (FormsG.more h (gram_formG hg))
    simpa using this

theorem MoreToks.append {p : Bool} {sep : Tok} {fs gs : List Fm} {a b : List Tok} (h : MoreToks p sep fs a) (h' : MoreToks p sep gs b) :
    MoreToks p sep (fs ++ gs) (a ++ b) := by
  induction h with
  | nil => exact h'
  | cons hg _ ih => simpa using MoreToks.cons hg ih

theorem formsG_moreToks {p : Bool} {sep : Tok} {ts : List Tok} (h : FormsG p sep ts) :
    ∃ f fs a b, ts = a ++ b ∧ Gram p 0 a f ∧ MoreToks p sep fs b := by
  induction h with
  | @one ts h =>
    obtain ⟨f, hf⟩ := formG_gram h
    exact ⟨f, [], ts, [], by simp, hf, .nil⟩
  | @more ts ts' _ h' ih =>
    obtain ⟨f, fs, a, b, rfl, h1, h2⟩ := ih
    obtain ⟨g, hg⟩ := formG_gram h'
    exact ⟨f, fs ++ [g], a, b ++ (sep :: (ts' ++ [])), by simp, h1, h2.append (.cons hg .nil)⟩

/-- A declaration as the other model has it. -/
def RawDecl.toDecl (d : RawDecl) : Name × ℤ :=
  (d.name, match d.dom with | none => -1 | some x => (x.2 : ℤ))

/-- A declaration of the other model. -/
def rawDecl (d : Name × ℤ) : RawDecl := ⟨d.1, if d.2 < 0 then none else some (0, d.2.toNat)⟩

theorem rawDecl_toks (d : Name × ℤ) : (rawDecl d).toks = declToks d := by
  unfold rawDecl declToks RawDecl.toks
  by_cases h : d.2 < 0 <;> simp [h]

theorem toDecl_toks {d : RawDecl} (h : ∀ x, d.dom = some x → x.1 = 0) : declToks d.toDecl = d.toks := by
  obtain ⟨n, dom⟩ := d
  cases dom with
  | none => rfl
  | some x =>
    obtain ⟨a, b⟩ := x
    obtain rfl : a = 0 := h _ rfl
    have hb : ¬((b : ℤ) < 0) := by omega
    show (if (b : ℤ) < 0 then _ else _) = _
    rw [if_neg hb]
    simp [RawDecl.toks, RawDecl.toDecl]

/-- What is remembered of sections in the two models. -/
def SameFile (d : FileData) (ss : List RawSec) : Prop :=
  (∀ n, n ∈ d.names ↔ n ∈ declaredIn ss) ∧ (d.sp.einit = none ↔ RawSec.init true true ∉ ss) ∧
    (d.sp.sinit = none ↔ RawSec.init false true ∉ ss)

theorem same_nil : SameFile .empty [] := ⟨fun n => by simp [FileData.names, FileData.empty, declaredIn], by simp [FileData.empty], by simp [FileData.empty]⟩

theorem names_vars (d : FileData) (env : Bool) (ds : Decls) (n : Name) :
    n ∈ (if env then { d with evars := d.evars ++ ds } else { d with svars := d.svars ++ ds } : FileData).names ↔
      n ∈ d.names ∨ n ∈ ds.map Prod.fst := by
  cases env
  · simp only [FileData.names, Bool.false_eq_true, if_false, List.map_append, List.mem_append, or_assoc]
  · simp only [FileData.names, if_true, List.map_append, List.mem_append]
    constructor
    · rintro ((h | h) | h)
      · exact .inl (.inl h)
      · exact .inr h
      · exact .inl (.inr h)
    · rintro ((h | h) | h)
      · exact .inl (.inl h)
      · exact .inr h
      · exact .inl (.inr h)

theorem same_vars {d : FileData} {ss : List RawSec} (h : SameFile d ss) (env : Bool) {ds : Decls} {rs : List RawDecl}
    (hn : ds.map Prod.fst = rs.map RawDecl.name) :
    SameFile (if env then { d with evars := d.evars ++ ds } else { d with svars := d.svars ++ ds }) (ss ++ [.vars env rs]) := by
  refine ⟨fun n => ?_, ?_, ?_⟩
  · rw [names_vars, h.1, hn, declaredIn_append]; simp [declaredIn]
  · have := h.2.1; cases env <;> simpa using this
  · have := h.2.2; cases env <;> simpa using this

theorem same_other {d d' : FileData} {ss : List RawSec} (h : SameFile d ss) (h1 : d'.evars = d.evars) (h2 : d'.svars = d.svars)
    (h3 : d'.sp.einit = d.sp.einit) (h4 : d'.sp.sinit = d.sp.sinit) {s : RawSec} (hs : s = .other ∨ ∃ env, s = .init env false) :
    SameFile d' (ss ++ [s]) := by
  refine ⟨fun n => ?_, ?_, ?_⟩
  · have : d'.names = d.names := by unfold FileData.names; rw [h1, h2]
    rw [this, h.1, declaredIn_append]
    rcases hs with rfl | ⟨e, rfl⟩ <;> simp [declaredIn]
  · rw [h3, h.2.1]
    rcases hs with rfl | ⟨e, rfl⟩ <;> simp
  · rw [h4, h.2.2]
    rcases hs with rfl | ⟨e, rfl⟩ <;> simp

theorem fit_vars {d : FileData} {ss : List RawSec} (h : SameFile d ss) (hs : SecsFit ss) {ds : Decls} {rs : List RawDecl}
    (hn : ds.map Prod.fst = rs.map RawDecl.name) :
    ((∀ x ∈ ds, x.1 ∉ d.names) ∧ (ds.map Prod.fst).Nodup) ↔ (declaredIn ss ++ rs.map RawDecl.name).Nodup := by
  rw [← hn, List.nodup_append]
  constructor
  · rintro ⟨h1, h2⟩
    refine ⟨secsFit_nodup ss hs, h2, ?_⟩
    rintro a ha b hb rfl
    obtain ⟨x, hx, rfl⟩ := List.mem_map.1 hb
    exact h1 x hx ((h.1 _).2 ha)
  · rintro ⟨_, h2, h3⟩
    refine ⟨fun x hx hm => ?_, h2⟩
    exact h3 _ ((h.1 _).1 hm) _ (List.mem_map_of_mem hx) rfl

/-- A section of the other model is one of this model. -/
theorem secToks_secG {rg : Bool} {s : Sec} {ts : List Tok} (h : SecToks rg s ts) {d d' : FileData} {ss : List RawSec} (hd : SameFile d ss)
    (hf : SecsFit ss) (ha : s.add d = some d') : ∃ r, SecG rg r ts ∧ r.Fits ss ∧ SameFile d' (ss ++ [r]) := by
  cases h with
  | vars env ds hg =>
    have hn : ds.map Prod.fst = (ds.map rawDecl).map RawDecl.name := by simp [rawDecl]
    have ht : ds.flatMap declToks = (ds.map rawDecl).flatMap RawDecl.toks := by
      rw [List.flatMap_map]
      exact List.flatMap_congr fun d _ => (rawDecl_toks d).symm
    simp only [Sec.add] at ha
    split at ha
    · rename_i hc
      cases ha
      refine ⟨.vars env (ds.map rawDecl), ht ▸ .vars env _, ⟨?_, (fit_vars hd hf hn).1 hc⟩, same_vars hd env hn⟩
      intro r hr x hx
      obtain ⟨y, _, rfl⟩ := List.mem_map.1 hr
      unfold rawDecl at hx
      simp only at hx
      split at hx
      · cases hx
      · cases hx; rfl
    · cases ha
  | init0 env =>
    cases env with
    | true =>
      simp only [Sec.add] at ha
      split at ha
      · rename_i hc
        cases ha
        exact ⟨.init true false, .init0 true, hd.2.1.1 hc, same_other (d' := { d with sp := { d.sp with einit := none } }) hd rfl rfl hc.symm rfl (.inr ⟨true, rfl⟩)⟩
      · cases ha
    | false =>
      simp only [Sec.add] at ha
      split at ha
      · rename_i hc
        cases ha
        exact ⟨.init false false, .init0 false, hd.2.2.1 hc, same_other (d' := { d with sp := { d.sp with sinit := none } }) hd rfl rfl rfl hc.symm (.inr ⟨false, rfl⟩)⟩
      · cases ha
  | @init1 env f ts hg =>
    cases env with
    | true =>
      simp only [Sec.add] at ha
      split at ha
      · rename_i hc
        cases ha
        refine ⟨.init true true, .init1 true (gram_formG hg), hd.2.1.1 hc, fun n => ?_, by simp, ?_⟩
        · rw [declaredIn_append]; simpa [declaredIn, FileData.names] using hd.1 n
        · simpa using hd.2.2
      · cases ha
    | false =>
      simp only [Sec.add] at ha
      split at ha
      · rename_i hc
        cases ha
        refine ⟨.init false true, .init1 false (gram_formG hg), hd.2.2.1 hc, fun n => ?_, ?_, by simp⟩
        · rw [declaredIn_append]; simpa [declaredIn, FileData.names] using hd.1 n
        · simpa using hd.2.1
      · cases ha
  | trans0 env =>
    cases env <;> cases ha <;> exact ⟨.other, .trans0 _, trivial, same_other hd rfl rfl rfl rfl (.inl rfl)⟩
  | @trans1 env f ts fs tss hg hm =>
    have := moreToks_formsG hm (.one (gram_formG hg))
    cases env <;> cases ha <;> exact ⟨.other, .trans1 _ this, trivial, same_other hd rfl rfl rfl rfl (.inl rfl)⟩
  | goal0 env =>
    cases env <;> cases ha <;> exact ⟨.other, .goal0 _, trivial, same_other hd rfl rfl rfl rfl (.inl rfl)⟩
  | @goal1 env hr f ts fs tss hg hm =>
    have := moreToks_formsG hm (.one (gram_formG hg))
    cases env <;> cases ha <;> exact ⟨.other, .goal1 _ hr this, trivial, same_other hd rfl rfl rfl rfl (.inl rfl)⟩
  | reach hr hg =>
    cases ha
    exact ⟨.other, .reach hr (gram_formG hg), trivial, same_other hd rfl rfl rfl rfl (.inl rfl)⟩

/-- A section of this model is one of the other model. -/
theorem secG_secToks {rg : Bool} {r : RawSec} {ts : List Tok} (h : SecG rg r ts) {d : FileData} {ss : List RawSec} (hd : SameFile d ss)
    (hs : SecsFit ss) (hf : r.Fits ss) : ∃ s d', SecToks rg s ts ∧ s.add d = some d' ∧ SameFile d' (ss ++ [r]) := by
  cases h with
  | vars env ds =>
    have hn : (ds.map RawDecl.toDecl).map Prod.fst = ds.map RawDecl.name := by simp [RawDecl.toDecl]
    have ht : ds.flatMap RawDecl.toks = (ds.map RawDecl.toDecl).flatMap declToks := by
      rw [List.flatMap_map]
      exact List.flatMap_congr fun d hd => (toDecl_toks (hf.1 d hd)).symm
    have hc := (fit_vars hd hs hn).2 hf.2
    refine ⟨.vars env (ds.map RawDecl.toDecl), _, ht ▸ .vars env _ ?_, by simp only [Sec.add]; rw [if_pos hc], same_vars hd env hn⟩
    intro x hx
    obtain ⟨y, _, rfl⟩ := List.mem_map.1 hx
    obtain ⟨n, dom⟩ := y
    cases dom with
    | none => exact .inl rfl
    | some x => right; show (0 : ℤ) ≤ (x.2 : ℤ); omega
  | init0 env =>
    cases env with
    | true =>
      have hc := hd.2.1.2 hf
      exact ⟨.init true none, { d with sp := { d.sp with einit := none } }, .init0 true, by simp only [Sec.add]; rw [if_pos hc],
        same_other (d' := { d with sp := { d.sp with einit := none } }) hd rfl rfl hc.symm rfl (.inr ⟨true, rfl⟩)⟩
    | false =>
      have hc := hd.2.2.2 hf
      exact ⟨.init false none, { d with sp := { d.sp with sinit := none } }, .init0 false, by simp only [Sec.add]; rw [if_pos hc],
        same_other (d' := { d with sp := { d.sp with sinit := none } }) hd rfl rfl rfl hc.symm (.inr ⟨false, rfl⟩)⟩
  | init1 env hg =>
    obtain ⟨f, hf'⟩ := formG_gram hg
    cases env with
    | true =>
      have hc := hd.2.1.2 hf
      refine ⟨.init true (some f), _, .init1 true hf', by simp only [Sec.add]; rw [if_pos hc], fun n => ?_, by simp, ?_⟩
      · rw [declaredIn_append]; simpa [declaredIn, FileData.names] using hd.1 n
      · simpa using hd.2.2
    | false =>
      have hc := hd.2.2.2 hf
      refine ⟨.init false (some f), _, .init1 false hf', by simp only [Sec.add]; rw [if_pos hc], fun n => ?_, ?_, by simp⟩
      · rw [declaredIn_append]; simpa [declaredIn, FileData.names] using hd.1 n
      · simpa using hd.2.1
  | trans0 env =>
    cases env <;> exact ⟨.trans _ [], _, .trans0 _, rfl, same_other hd rfl rfl rfl rfl (.inl rfl)⟩
  | trans1 env hg =>
    obtain ⟨f, fs, a, b, rfl, h1, h2⟩ := formsG_moreToks hg
    cases env <;> exact ⟨.trans _ (f :: fs), _, .trans1 _ h1 h2, rfl, same_other hd rfl rfl rfl rfl (.inl rfl)⟩
  | goal0 env =>
    cases env <;> exact ⟨.goal _ [], _, .goal0 _, rfl, same_other hd rfl rfl rfl rfl (.inl rfl)⟩
  | goal1 env hr hg =>
    obtain ⟨f, fs, a, b, rfl, h1, h2⟩ := formsG_moreToks hg
    cases env <;> exact ⟨.goal _ (f :: fs), _, .goal1 _ hr h1 h2, rfl, same_other hd rfl rfl rfl rfl (.inl rfl)⟩
  | reach hr hg =>
    obtain ⟨f, hf'⟩ := formG_gram hg
    exact ⟨.goal false [f], _, .reach hr hf', rfl, same_other hd rfl rfl rfl rfl (.inl rfl)⟩

theorem FileToks.snoc {rg : Bool} {ss : List Sec} {a : List Tok} (h : FileToks rg ss a) {s : Sec} {ts : List Tok} (hs : SecToks rg s ts) :
    FileToks rg (ss ++ [s]) (a ++ (ts ++ [.chr ';'])) := by
  induction h with
  | nil => simpa using FileToks.cons hs .nil
  | cons h _ ih => simpa using FileToks.cons h ih

theorem readSecs_snoc {ss : List Sec} {s : Sec} : ∀ {d d' d'' : FileData}, readSecs d ss = some d' → s.add d' = some d'' →
    readSecs d (ss ++ [s]) = some d'' := by
  induction ss with
  | nil =>
    intro d d' d'' h h'
    cases h
    simp [readSecs, h']
  | cons t ss ih =>
    intro d d' d'' h h'
    simp only [readSecs, List.cons_append] at h ⊢
    cases e : t.add d with
    | none => rw [e] at h; cases h
    | some d1 => rw [e] at h; exact ih h h'

/-- Files of the other model are files of this model. -/
theorem fileToks_fileG {rg : Bool} {ss' : List Sec} {ts : List Tok} (h : FileToks rg ss' ts) : ∀ {d d' : FileData} {ss : List RawSec}
    {ts0 : List Tok}, FileG rg ss ts0 → SecsFit ss → SameFile d ss → readSecs d ss' = some d' →
    ∃ rs, FileG rg rs (ts0 ++ ts) ∧ SecsFit rs := by
  induction h with
  | nil => intro d d' ss ts0 h1 h2 _ _; exact ⟨ss, by simpa using h1, h2⟩
  | @cons s ts ss' tss h _ ih =>
    intro d d' ss ts0 h1 h2 h3 h4
    simp only [readSecs] at h4
    cases e : s.add d with
    | none => rw [e] at h4; cases h4
    | some d1 =>
      rw [e] at h4
      obtain ⟨r, g1, g2, g3⟩ := secToks_secG h h3 h2 e
      have := ih (.snoc h1 g1) ((secsFit_snoc _ _).2 ⟨h2, g2⟩) g3 h4
      simpa using this

/-- Files of this model without a formula in front are files of the other model. -/
theorem fileG_fileToks {rg : Bool} {rs : List RawSec} {ts : List Tok} (h : FileG rg rs ts) (hh : ∀ t, ts.head? = some t → isHeader t = true)
    (hf : SecsFit rs) : ∃ ss d, FileToks rg ss ts ∧ readSecs .empty ss = some d ∧ SameFile d rs := by
  induction h with
  | nil => exact ⟨[], .empty, .nil, rfl, same_nil⟩
  | lead h =>
    obtain ⟨t, ts', rfl, h1⟩ := formG_head h
    have h2 := hh t rfl
    exfalso
    cases t <;> first | exact absurd h2 Bool.false_ne_true | exact absurd h1 Bool.false_ne_true
  | @snoc rs ts r ts' h h' ih =>
    obtain ⟨f1, f2⟩ := (secsFit_snoc _ _).1 hf
    obtain ⟨ss, d, g1, g2, g3⟩ := ih (fun t ht => hh t (by rw [List.head?_append, ht]; rfl)) f1
    obtain ⟨s, d', k1, k2, k3⟩ := secG_secToks h' g3 f1 f2
    exact ⟨ss ++ [s], d', g1.snoc k1, readSecs_snoc g2 k2, k3⟩

end Gr1c
