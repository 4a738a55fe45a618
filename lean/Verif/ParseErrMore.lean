import Verif.ParseErrLemmas

/-!
# Files token by token, continued (C73)

Auxiliary: sequences of the grammar are read without syntax errors.
-/

namespace Gr1c

/-- Errors other than syntax errors. -/
def PErr.Sem : PErr → Prop
  | .syntax _ | .silent => False
  | _ => True

/-- States after complete sections. -/
def Rest : PS → Prop
  | .start | .top => True
  | .form .lead f 0 => f.ends = true
  | _ => False

theorem form_steps {rg : Bool} {m : PMem} {c : FCtx} (p : List (Tok × ℕ)) : ∀ {f f' : FS} {d d' : ℕ},
    fsteps c.primes f d (toksOf p) = some (f', d') → yySteps rg m (.form c f d) p = .ok (m, .form c f' d') := by
  induction p with
  | nil => intro f f' d d' h; cases h; rfl
  | cons x p ih =>
    intro f f' d d' h
    rw [toksOf_cons] at h
    simp only [fsteps] at h
    cases e : fstep c.primes f d x.1 with
    | none => rw [e] at h; cases h
    | some r =>
      rw [e] at h
      simp only [yySteps, yyStep, formStep, e]
      exact ih h

/-- After a header or separator: a formula is read. -/
theorem form_reads {rg : Bool} {m : PMem} {c : FCtx} {p : List (Tok × ℕ)} (h : FormG c.primes (toksOf p)) :
    ∃ f, f.ends = true ∧ yySteps rg m (.form c .need 0) p = .ok (m, .form c f 0) := by
  obtain ⟨f, hf, e⟩ := formG_steps h 0
  exact ⟨f, hf, form_steps p e⟩

/-- Tokens that end a formula. -/
def isEnder (t : Tok) : Prop := t = .chr ';' ∨ t = .andSafe ∨ t = .andLive ∨ isHeader t = true

theorem ender_step {rg : Bool} {m : PMem} {c : FCtx} {f : FS} (hf : f.ends = true) {t : Tok} (ht : isEnder t) (l : ℕ) :
    yyStep rg m (.form c f 0) t l = endStep m c t l := by
  have h : cmpTok t = none ∧ t ≠ .chr '\'' ∧ fullStep 0 t = none := by
    rcases ht with rfl | rfl | rfl | h
    · exact ⟨rfl, by decide, rfl⟩
    · exact ⟨rfl, by decide, rfl⟩
    · exact ⟨rfl, by decide, rfl⟩
    · cases t <;> first | exact absurd h Bool.false_ne_true | exact ⟨rfl, by decide, rfl⟩
  simp only [yyStep, formStep, ends_full hf h.1 h.2.1, h.2.2, hf, and_self, if_true]

/-- A header is taken in every state after complete sections. -/
theorem rest_header {rg : Bool} {m : PMem} {st : PS} (h : Rest st) {t : Tok} (ht : isHeader t = true) (l : ℕ) :
    yyStep rg m st t l = topStep m t l := by
  cases st with
  | start =>
    have : needStep 0 t = none := by cases t <;> first | exact absurd ht Bool.false_ne_true | rfl
    simp only [yyStep, this]
  | top => rfl
  | head t l => exact h.elim
  | form c f d =>
    cases c with
    | lead =>
      cases d with
      | zero => exact ender_step h (.inr (.inr (.inr ht))) l
      | succ d => exact h.elim
    | init _ _ => exact h.elim
    | trans => exact h.elim
    | goal _ => exact h.elim
  | decl s => exact h.elim

theorem toksOf_split {p : List (Tok × ℕ)} {a b : List Tok} (h : toksOf p = a ++ b) :
    ∃ p1 p2, p = p1 ++ p2 ∧ toksOf p1 = a ∧ toksOf p2 = b := by
  obtain ⟨p1, p2, h1, h2, h3⟩ := List.map_eq_append_iff.1 h
  exact ⟨p1, p2, h1, h2, h3⟩

theorem toksOf_uncons {p : List (Tok × ℕ)} {t : Tok} {b : List Tok} (h : toksOf p = t :: b) :
    ∃ l p', p = (t, l) :: p' ∧ toksOf p' = b := by
  obtain ⟨x, p', h1, h2, h3⟩ := List.map_eq_cons_iff.1 h
  exact ⟨x.2, p', by rw [h1, ← h2], h3⟩

theorem toksOf_empty {p : List (Tok × ℕ)} (h : toksOf p = []) : p = [] := List.map_eq_nil_iff.1 h

/-- Formulas with separators. -/
theorem forms_reads {rg : Bool} {m : PMem} {c : FCtx} {sep : Tok} (hs : isEnder sep) (hc : ∀ l, endStep m c sep l = .ok (m, .form c .need 0))
    {ts : List Tok} (h : FormsG c.primes sep ts) : ∀ p, toksOf p = ts →
    ∃ f, f.ends = true ∧ yySteps rg m (.form c .need 0) p = .ok (m, .form c f 0) := by
  induction h with
  | one h => rintro p rfl; exact form_reads h
  | more _ h' ih =>
    intro p hp
    obtain ⟨p1, p2, rfl, h1, h2⟩ := toksOf_split hp
    obtain ⟨l, p3, rfl, h3⟩ := toksOf_uncons h2
    obtain ⟨f, hf, e⟩ := ih p1 h1
    obtain ⟨f', hf', e'⟩ := form_reads (rg := rg) (m := m) (c := c) (p := p3) (h3 ▸ h')
    refine ⟨f', hf', ?_⟩
    rw [yySteps_append, e]
    simp only [yySteps, ender_step hf hs, hc]
    exact e'

/-- A formula after its first token was taken by `headStep`. -/
theorem init_reads {rg : Bool} {m : PMem} {env : Bool} {lh : ℕ} {p : List (Tok × ℕ)} (h : FormG false (toksOf p)) :
    ∃ f, f.ends = true ∧ yySteps rg m (.head (initHdr env) lh) p = .ok (m, .form (.init env lh) f 0) := by
  obtain ⟨h1, h2⟩ := initHdr_cases env
  obtain ⟨f, hf, e⟩ := form_reads (rg := rg) (m := m) (c := .init env lh) h
  refine ⟨f, hf, ?_⟩
  rw [← e]
  obtain ⟨t, ts, ht, hn⟩ := formG_head h
  obtain ⟨l, p', rfl, _⟩ := toksOf_uncons ht
  obtain ⟨r, hr⟩ := Option.isSome_iff_exists.1 hn
  have hsemi : t ≠ .chr ';' := by rintro rfl; cases hr
  have a1 : yyStep rg m (.head (initHdr env) lh) t l = .ok (m, .form (.init env lh) r.1 r.2) := by
    simp only [yyStep, headStep, if_pos h1, if_neg hsemi, hr, h2]
  have a2 : yyStep rg m (.form (.init env lh) .need 0) t l = .ok (m, .form (.init env lh) r.1 r.2) := by
    simp only [yyStep, formStep, fstep, hr]
  simp only [yySteps, a1, a2]

/-- The lower bound of a declaration is not 0. -/
def RawDecl.BadLow (d : RawDecl) : Prop := ∃ x, d.dom = some x ∧ x.1 ≠ 0

/-- One declaration, with a further token that shows it is complete. -/
theorem decl_one {rg : Bool} {m : PMem} {l : ℕ} {d : RawDecl} {u : List (Tok × ℕ)} (hu : toksOf u = d.toks) (x : Tok × ℕ)
    (hx : x.1 ≠ .chr '[') (rest : List (Tok × ℕ)) :
    (d.BadLow → yySteps rg m (.decl (.names l)) (u ++ x :: rest) = .error (.lower l)) ∧
    (¬d.BadLow → d.name ∈ m.names → yySteps rg m (.decl (.names l)) (u ++ x :: rest) = .error (.dupVar l)) ∧
    (¬d.BadLow → d.name ∉ m.names → yySteps rg m (.decl (.names l)) (u ++ x :: rest) =
      yySteps rg (m.declare d.name) (.decl (.names (lastLn l u))) (x :: rest)) := by
  obtain ⟨n, dom⟩ := d
  cases dom with
  | none =>
    obtain ⟨l1, u', rfl, h⟩ := toksOf_uncons hu
    obtain rfl := toksOf_empty h
    have hb : ¬RawDecl.BadLow ⟨n, none⟩ := by rintro ⟨x, h, _⟩; cases h
    refine ⟨fun h => absurd h hb, fun _ hn => ?_, fun _ hn => ?_⟩
    · have hn' : n ∈ m.names := hn
      simp only [List.cons_append, List.nil_append, yySteps, yyStep, declStep, namesStep, if_neg hx, if_pos hn']
    · have hn' : n ∉ m.names := hn
      simp only [List.cons_append, List.nil_append, yySteps, yyStep, declStep, namesStep, if_neg hx, if_neg hn']
      rfl
  | some ab =>
    obtain ⟨a, b⟩ := ab
    obtain ⟨l1, u1, rfl, k1⟩ := toksOf_uncons hu
    obtain ⟨l2, u2, rfl, k2⟩ := toksOf_uncons k1
    obtain ⟨l3, u3, rfl, k3⟩ := toksOf_uncons k2
    obtain ⟨l4, u4, rfl, k4⟩ := toksOf_uncons k3
    obtain ⟨l5, u5, rfl, k5⟩ := toksOf_uncons k4
    obtain ⟨l6, u6, rfl, k6⟩ := toksOf_uncons k5
    obtain rfl := toksOf_empty k6
    refine ⟨?_, ?_, ?_⟩
    · rintro ⟨y, hy, h0⟩
      cases hy
      simp only [List.cons_append, List.nil_append, yySteps, yyStep, declStep, namesStep, if_true, ne_eq, if_pos h0]
    · intro hb hn
      have h0 : ¬(a ≠ 0) := fun h => hb ⟨_, rfl, h⟩
      have hn' : n ∈ m.names := hn
      simp only [List.cons_append, List.nil_append, yySteps, yyStep, declStep, namesStep, if_true, if_neg h0, if_pos hn']
    · intro hb hn
      have h0 : ¬(a ≠ 0) := fun h => hb ⟨_, rfl, h⟩
      have hn' : n ∉ m.names := hn
      simp only [List.cons_append, List.nil_append, yySteps, yyStep, declStep, namesStep, if_true, if_neg h0, if_neg hn']
      rfl

theorem declToks_next (ds : List RawDecl) {u : List (Tok × ℕ)} (hu : toksOf u = ds.flatMap RawDecl.toks) (x : Tok × ℕ)
    (hx : x.1 ≠ .chr '[') (rest : List (Tok × ℕ)) : ∃ y rest', u ++ x :: rest = y :: rest' ∧ y.1 ≠ .chr '[' := by
  cases ds with
  | nil => obtain rfl := toksOf_empty hu; exact ⟨x, rest, rfl, hx⟩
  | cons d ds =>
    obtain ⟨l, u', rfl, h⟩ := toksOf_uncons hu
    exact ⟨_, _, rfl, by simp⟩

/-- Declarations, with a further token that shows they are complete. -/
theorem decls_read {rg : Bool} (x : Tok × ℕ) (hx : x.1 ≠ .chr '[') (rest : List (Tok × ℕ)) (ds : List RawDecl) :
    ∀ {m : PMem} {l : ℕ} {u : List (Tok × ℕ)}, toksOf u = ds.flatMap RawDecl.toks → m.names.Nodup →
    (DeclsFit m.names ds → ∃ m', m'.names = m.names ++ ds.map RawDecl.name ∧ (∀ env, m'.isSet env = m.isSet env) ∧
      yySteps rg m (.decl (.names l)) (u ++ x :: rest) = yySteps rg m' (.decl (.names (lastLn l u))) (x :: rest)) ∧
    (¬DeclsFit m.names ds → ∃ e, PErr.Sem e ∧ yySteps rg m (.decl (.names l)) (u ++ x :: rest) = .error e) := by
  induction ds with
  | nil =>
    intro m l u hu hm
    obtain rfl := toksOf_empty hu
    exact ⟨fun _ => ⟨m, by simp, fun _ => rfl, rfl⟩, fun h => absurd ⟨by simp, by simpa using hm⟩ h⟩
  | cons d ds ih =>
    intro m l u hu hm
    obtain ⟨u1, u2, rfl, h1, h2⟩ := toksOf_split hu
    obtain ⟨y, rest', hy, hy'⟩ := declToks_next ds h2 x hx rest
    obtain ⟨b1, b2, b3⟩ := decl_one (rg := rg) (m := m) (l := l) h1 y hy' rest'
    rw [List.append_assoc, hy]
    by_cases hl : d.BadLow
    · refine ⟨fun h => ?_, fun _ => ⟨.lower l, trivial, b1 hl⟩⟩
      obtain ⟨z, hz, h0⟩ := hl
      exact absurd (h.1 d (by simp) z hz) h0
    · by_cases hn : d.name ∈ m.names
      · refine ⟨fun h => ?_, fun _ => ⟨.dupVar l, trivial, b2 hl hn⟩⟩
        have := h.2
        simp only [List.map_cons, List.nodup_append] at this
        exact absurd rfl (this.2.2 _ hn d.name (by simp))
      · have hm' : (m.declare d.name).names.Nodup := by
          refine List.nodup_append.2 ⟨hm, List.nodup_singleton _, ?_⟩
          rintro a ha b hb rfl
          exact hn (List.mem_singleton.1 hb ▸ ha)
        have hiff : DeclsFit m.names (d :: ds) ↔ DeclsFit (m.declare d.name).names ds := by
          unfold DeclsFit
          constructor
          · rintro ⟨g1, g2⟩
            exact ⟨fun d' hd' => g1 d' (by simp [hd']), by simpa [PMem.declare] using g2⟩
          · rintro ⟨g1, g2⟩
            refine ⟨fun d' hd' z hz => ?_, by simpa [PMem.declare] using g2⟩
            rcases List.mem_cons.1 hd' with rfl | hd'
            · by_contra h0
              exact hl ⟨z, hz, h0⟩
            · exact g1 d' hd' z hz
        obtain ⟨i1, i2⟩ := ih (m := m.declare d.name) (l := lastLn l u1) h2 hm'
        rw [b3 hl hn, ← hy, hiff]
        refine ⟨fun h => ?_, i2⟩
        obtain ⟨m', e1, e2, e3⟩ := i1 h
        refine ⟨m', by simp [e1, PMem.declare], fun env => by rw [e2, declare_isSet], ?_⟩
        rw [e3, lastLn_append]

theorem semi_ender : isEnder (.chr ';') := .inl rfl

/-- A section after complete ones. -/
theorem sec_reads {rg : Bool} {m : PMem} {st : PS} {ss : List RawSec} {s : RawSec} {ts : List Tok} (hst : Rest st) (hm : MemOf m ss)
    (hs : SecsFit ss) (h : SecG rg s ts) {p : List (Tok × ℕ)} (hp : toksOf p = ts ++ [.chr ';']) :
    (s.Fits ss → ∃ m', yySteps rg m st p = .ok (m', .top) ∧ MemOf m' (ss ++ [s])) ∧
    (¬s.Fits ss → ∃ e, PErr.Sem e ∧ yySteps rg m st p = .error e) := by
  cases h with
  | vars env ds =>
    obtain ⟨lh, p1, rfl, h1⟩ := toksOf_uncons hp
    obtain ⟨u, p2, rfl, h2, h3⟩ := toksOf_split h1
    obtain ⟨l, p3, rfl, h4⟩ := toksOf_uncons h3
    obtain rfl := toksOf_empty h4
    have hst' : yyStep rg m st (if env then .evars else .svars) lh = .ok (m, .decl (.names lh)) := by
      rw [rest_header hst (by cases env <;> rfl)]
      cases env <;> rfl
    obtain ⟨g1, g2⟩ := decls_read (rg := rg) (.chr ';', l) (by simp) [] ds (m := m) (l := lh) h2 (hm.1 ▸ secsFit_nodup ss hs)
    simp only [yySteps, hst']
    simp only [RawSec.Fits, ← hm.1]
    refine ⟨fun h => ?_, g2⟩
    obtain ⟨m', e1, e2, e3⟩ := g1 h
    refine ⟨m', ?_, ?_, fun e => ?_⟩
    · rw [e3]; rfl
    · rw [e1, declaredIn_append, hm.1]; simp [declaredIn]
    · rw [e2, hm.2 e]; simp
  | init0 env =>
    obtain ⟨lh, p1, rfl, h1⟩ := toksOf_uncons hp
    obtain ⟨l, p2, rfl, h2⟩ := toksOf_uncons h1
    obtain rfl := toksOf_empty h2
    have hst' : yyStep rg m st (if env then .einit else .sinit) lh = .ok (m, .head (initHdr env) lh) := by
      rw [rest_header hst (by cases env <;> rfl)]
      cases env <;> rfl
    obtain ⟨i1, i2⟩ := initHdr_cases env
    have hh : yyStep rg m (.head (initHdr env) lh) (.chr ';') l =
        if m.isSet env then .error (.dupInit env lh) else .ok (m, .top) := by
      simp only [yyStep, headStep, if_pos i1, if_true, i2]
    simp only [yySteps, hst', hh]
    refine ⟨fun h => ⟨m, ?_, memOf_other hm (.inr ⟨env, rfl⟩)⟩, fun h => ⟨.dupInit env lh, trivial, ?_⟩⟩
    · rw [if_neg fun h' => h ((hm.2 env).1 h')]
    · rw [if_pos ((hm.2 env).2 (by simpa [RawSec.Fits] using h))]
  | @init1 env ts hf =>
    obtain ⟨lh, p1, rfl, h1⟩ := toksOf_uncons hp
    obtain ⟨u, p2, rfl, h2, h3⟩ := toksOf_split h1
    obtain ⟨l, p3, rfl, h4⟩ := toksOf_uncons h3
    obtain rfl := toksOf_empty h4
    have hst' : yyStep rg m st (if env then .einit else .sinit) lh = .ok (m, .head (initHdr env) lh) := by
      rw [rest_header hst (by cases env <;> rfl)]
      cases env <;> rfl
    obtain ⟨f, hfe, e⟩ := init_reads (rg := rg) (m := m) (env := env) (lh := lh) (p := u) (h2 ▸ hf)
    have hh : yyStep rg m (.form (.init env lh) f 0) (.chr ';') l =
        if m.isSet env then .error (.dupInit env lh) else .ok (m.set env, .top) := by
      rw [ender_step hfe semi_ender]; simp only [endStep, if_true]
    simp only [yySteps, hst', yySteps_append, e, hh]
    refine ⟨fun h => ⟨m.set env, ?_, memOf_set hm⟩, fun h => ⟨.dupInit env lh, trivial, ?_⟩⟩
    · rw [if_neg fun h' => h ((hm.2 env).1 h')]
    · rw [if_pos ((hm.2 env).2 (by simpa [RawSec.Fits] using h))]
  | trans0 env =>
    obtain ⟨lh, p1, rfl, h1⟩ := toksOf_uncons hp
    obtain ⟨l, p2, rfl, h2⟩ := toksOf_uncons h1
    obtain rfl := toksOf_empty h2
    refine ⟨fun _ => ⟨m, ?_, memOf_other hm (.inl rfl)⟩, fun h => absurd trivial h⟩
    have hst' : yyStep rg m st (if env then .etrans else .strans) lh = .ok (m, .head (transHdr env) lh) := by
      rw [rest_header hst (by cases env <;> rfl)]
      cases env <;> rfl
    simp only [yySteps, hst']
    cases env <;> rfl
  | @trans1 env ts hf =>
    obtain ⟨lh, p0, rfl, h0⟩ := toksOf_uncons hp
    obtain ⟨ls, p1, rfl, h1⟩ := toksOf_uncons h0
    obtain ⟨u, p2, rfl, h2, h3⟩ := toksOf_split h1
    obtain ⟨l, p3, rfl, h4⟩ := toksOf_uncons h3
    obtain rfl := toksOf_empty h4
    refine ⟨fun _ => ⟨m, ?_, memOf_other hm (.inl rfl)⟩, fun h => absurd trivial h⟩
    have hst' : yyStep rg m st (if env then .etrans else .strans) lh = .ok (m, .head (transHdr env) lh) := by
      rw [rest_header hst (by cases env <;> rfl)]
      cases env <;> rfl
    have hh : yyStep rg m (.head (transHdr env) lh) .safe ls = .ok (m, .form .trans .need 0) := by cases env <;> rfl
    obtain ⟨f, hfe, e⟩ := forms_reads (rg := rg) (m := m) (c := .trans) (.inr (.inl rfl)) (fun l => rfl) hf u h2
    have he : yyStep rg m (.form .trans f 0) (.chr ';') l = .ok (m, .top) := by rw [ender_step hfe semi_ender]; rfl
    simp only [yySteps, hst', hh, yySteps_append, e, he]
  | goal0 env =>
    obtain ⟨lh, p1, rfl, h1⟩ := toksOf_uncons hp
    obtain ⟨l, p2, rfl, h2⟩ := toksOf_uncons h1
    obtain rfl := toksOf_empty h2
    refine ⟨fun _ => ⟨m, ?_, memOf_other hm (.inl rfl)⟩, fun h => absurd trivial h⟩
    have hst' : yyStep rg m st (if env then .egoal else .sgoal) lh = .ok (m, .head (goalHdr env) lh) := by
      rw [rest_header hst (by cases env <;> rfl)]
      cases env <;> rfl
    simp only [yySteps, hst']
    cases env <;> rfl
  | @goal1 env hr ts hf =>
    obtain ⟨lh, p0, rfl, h0⟩ := toksOf_uncons hp
    obtain ⟨ls, p1, rfl, h1⟩ := toksOf_uncons h0
    obtain ⟨u, p2, rfl, h2, h3⟩ := toksOf_split h1
    obtain ⟨l, p3, rfl, h4⟩ := toksOf_uncons h3
    obtain rfl := toksOf_empty h4
    refine ⟨fun _ => ⟨m, ?_, memOf_other hm (.inl rfl)⟩, fun h => absurd trivial h⟩
    have hst' : yyStep rg m st (if env then .egoal else .sgoal) lh = .ok (m, .head (goalHdr env) lh) := by
      rw [rest_header hst (by cases env <;> rfl)]
      cases env <;> rfl
    have hh : yyStep rg m (.head (goalHdr env) lh) .live ls = .ok (m, .form (.goal true) .need 0) := by
      rcases hr with rfl | rfl
      · cases rg <;> rfl
      · cases env <;> rfl
    obtain ⟨f, hfe, e⟩ := forms_reads (rg := rg) (m := m) (c := .goal true) (.inr (.inr (.inl rfl))) (fun l => rfl) hf u h2
    have he : yyStep rg m (.form (.goal true) f 0) (.chr ';') l = .ok (m, .top) := by rw [ender_step hfe semi_ender]; rfl
    simp only [yySteps, hst', hh, yySteps_append, e, he]
  | @reach hr ts hf =>
    obtain ⟨lh, p0, rfl, h0⟩ := toksOf_uncons hp
    obtain ⟨ls, p1, rfl, h1⟩ := toksOf_uncons h0
    obtain ⟨u, p2, rfl, h2, h3⟩ := toksOf_split h1
    obtain ⟨l, p3, rfl, h4⟩ := toksOf_uncons h3
    obtain rfl := toksOf_empty h4
    refine ⟨fun _ => ⟨m, ?_, memOf_other hm (.inl rfl)⟩, fun h => absurd trivial h⟩
    subst hr
    have hst' : yyStep true m st .sgoal lh = .ok (m, .head .sgoal lh) := by
      rw [rest_header hst rfl]; rfl
    have hh : yyStep true m (.head .sgoal lh) .ev ls = .ok (m, .form (.goal false) .need 0) := rfl
    obtain ⟨f, hfe, e⟩ := form_reads (rg := true) (m := m) (c := .goal false) (p := u) (h2 ▸ hf)
    have he : yyStep true m (.form (.goal false) f 0) (.chr ';') l = .ok (m, .top) := by rw [ender_step hfe semi_ender]; rfl
    simp only [yySteps, hst', hh, yySteps_append, e, he]

/-- Files of the grammar. -/
theorem file_reads {rg : Bool} {ss : List RawSec} {ts : List Tok} (h : FileG rg ss ts) : ∀ p, toksOf p = ts →
    (SecsFit ss → ∃ m st, yySteps rg .init .start p = .ok (m, st) ∧ Rest st ∧ MemOf m ss) ∧
    (¬SecsFit ss → ∃ e, PErr.Sem e ∧ yySteps rg .init .start p = .error e) := by
  induction h with
  | nil =>
    intro p hp
    obtain rfl := toksOf_empty hp
    exact ⟨fun _ => ⟨.init, .start, rfl, trivial, memOf_nil⟩, fun h => absurd secsFit_nil h⟩
  | lead h =>
    intro p hp
    subst hp
    refine ⟨fun _ => ?_, fun h => absurd secsFit_nil h⟩
    obtain ⟨f, hf, e⟩ := form_reads (rg := rg) (m := .init) (c := .lead) h
    refine ⟨.init, .form .lead f 0, ?_, hf, memOf_nil⟩
    rw [← e]
    obtain ⟨t, ts, ht, hn⟩ := formG_head h
    obtain ⟨l, p', rfl, _⟩ := toksOf_uncons ht
    obtain ⟨r, hr⟩ := Option.isSome_iff_exists.1 hn
    have a1 : yyStep rg .init .start t l = .ok (.init, .form .lead r.1 r.2) := by
      simp only [yyStep, hr]
    have a2 : yyStep rg .init (.form .lead .need 0) t l = .ok (.init, .form .lead r.1 r.2) := by
      simp only [yyStep, formStep, fstep, hr]
    simp only [yySteps, a1, a2]
  | @snoc ss ts s ts' _ hs ih =>
    intro p hp
    obtain ⟨p1, p2, rfl, h1, h2⟩ := toksOf_split hp
    obtain ⟨i1, i2⟩ := ih p1 h1
    rw [yySteps_append, secsFit_snoc]
    by_cases hf : SecsFit ss
    · obtain ⟨m, st, e, hst, hm⟩ := i1 hf
      obtain ⟨j1, j2⟩ := sec_reads hst hm hf hs h2
      rw [e]
      refine ⟨fun h => ?_, fun h => ?_⟩
      · obtain ⟨m', e', hm'⟩ := j1 h.2
        exact ⟨m', .top, e', trivial, hm'⟩
      · exact j2 fun h' => h ⟨hf, h'⟩
    · obtain ⟨e, he, e'⟩ := i2 hf
      rw [e']
      exact ⟨fun h => absurd h.1 hf, fun _ => ⟨e, he, rfl⟩⟩

theorem rest_end {m : PMem} {st : PS} (h : Rest st) (l : ℕ) : yyEnd m st l = .ok () := by
  cases st with
  | start => rfl
  | top => rfl
  | head _ _ => exact h.elim
  | form c f d =>
    cases c with
    | lead =>
      cases d with
      | zero => simp only [yyEnd, if_true, show f.ends = true from h, and_self]
      | succ d => exact h.elim
    | init _ _ => exact h.elim
    | trans => exact h.elim
    | goal _ => exact h.elim
  | decl s => exact h.elim

end Gr1c
