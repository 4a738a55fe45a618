import Verif.ParseErrMore

/-!
# Where `yyparse` stops (C73)

Auxiliary: what has been read can be completed to a file; the state before an error; errors of each kind.
-/

namespace Gr1c

/-- The tokens can be completed to a file. -/
theorem PInv.begins {rg : Bool} {m : PMem} {p : List (Tok × ℕ)} {st : PS} (h : PInv rg m p st) :
    ∃ ext ss, FileG rg ss (toksOf p ++ ext) := by
  cases st with
  | start => obtain ⟨rfl, -⟩ := h; exact ⟨[], [], .nil⟩
  | top => obtain ⟨ss, hb⟩ := h; exact ⟨[], ss, by simpa using hb.1⟩
  | head t l =>
    obtain ⟨ss, q, rfl, hb, hh, hv⟩ := h
    obtain ⟨env, rfl | rfl | rfl⟩ := other_header hh hv
    · exact ⟨[.chr ';'], _, by simpa [toksOf, initHdr] using FileG.snoc hb.1 (.init0 env)⟩
    · exact ⟨[.chr ';'], _, by simpa [toksOf, transHdr] using FileG.snoc hb.1 (.trans0 env)⟩
    · exact ⟨[.chr ';'], _, by simpa [toksOf, goalHdr] using FileG.snoc hb.1 (.goal0 env)⟩
  | form c f d =>
    cases c with
    | lead =>
      obtain ⟨-, hf⟩ := h
      obtain ⟨e, he⟩ := hf.complete
      exact ⟨e, [], .lead he⟩
    | init env lh =>
      obtain ⟨ss, q, u, rfl, hb, hf⟩ := h
      obtain ⟨e, he⟩ := hf.complete
      exact ⟨e ++ [.chr ';'], _, by simpa [toksOf, initHdr] using FileG.snoc hb.1 (.init1 env he)⟩
    | trans =>
      obtain ⟨ss, q, env, w, v, hp, hb, hw, hf⟩ := h
      obtain ⟨e, he⟩ := hf.complete
      exact ⟨e ++ [.chr ';'], _, by rw [hp]; simpa [transHdr] using FileG.snoc hb.1 (.trans1 env (hw.forms he))⟩
    | goal more =>
      cases more with
      | true =>
        obtain ⟨ss, q, env, w, v, hp, hb, hr, hw, hf⟩ := h
        obtain ⟨e, he⟩ := hf.complete
        exact ⟨e ++ [.chr ';'], _, by rw [hp]; simpa [goalHdr] using FileG.snoc hb.1 (.goal1 env hr (hw.forms he))⟩
      | false =>
        obtain ⟨ss, q, v, hp, hb, hr, hf⟩ := h
        obtain ⟨e, he⟩ := hf.complete
        exact ⟨e ++ [.chr ';'], _, by rw [hp]; simpa using FileG.snoc hb.1 (.reach hr he)⟩
  | decl s =>
    obtain ⟨ss, q, env, lh, u, ds, r, rfl, hq, -, hu, -, -, -, hr⟩ := h
    have key : ∀ (ext : List Tok) (d : List RawDecl), toksOf r ++ ext = d.flatMap RawDecl.toks ++ [.chr ';'] →
        ∃ ext ss, FileG rg ss (toksOf (q ++ (varHdr env, lh) :: (u ++ r)) ++ ext) := by
      intro ext d hd
      refine ⟨ext, ss ++ [.vars env (ds ++ d)], ?_⟩
      have : toksOf (q ++ (varHdr env, lh) :: (u ++ r)) ++ ext =
          toksOf q ++ (((if env then .evars else .svars) :: (ds ++ d).flatMap RawDecl.toks) ++ [.chr ';']) := by
        rw [toksOf_append, toksOf_cons, toksOf_append, hu, List.append_assoc, List.cons_append, List.append_assoc, hd]
        simp [varHdr]
      rw [this]
      exact .snoc hq (.vars env (ds ++ d))
    cases s with
    | names l => exact key [.chr ';'] [] (by rw [hr.2]; rfl)
    | id n l l' => exact key [.chr ';'] [⟨n, none⟩] (by rw [hr.2]; rfl)
    | lb n l => exact key [.num 0, .chr ',', .num 0, .chr ']', .chr ';'] [⟨n, some (0, 0)⟩] (by rw [hr.2]; rfl)
    | low n l a => exact key [.chr ',', .num 0, .chr ']', .chr ';'] [⟨n, some (a, 0)⟩] (by rw [hr.2]; rfl)
    | comma n l a => exact key [.num 0, .chr ']', .chr ';'] [⟨n, some (a, 0)⟩] (by rw [hr.2]; rfl)
    | high n l a =>
      obtain ⟨-, b, hb⟩ := hr
      exact key [.chr ']', .chr ';'] [⟨n, some (a, b)⟩] (by rw [hb]; rfl)

/-- The token at which an error is found. -/
theorem yySteps_error {rg : Bool} (ts : List (Tok × ℕ)) : ∀ {m : PMem} {st : PS} {e : PErr}, yySteps rg m st ts = .error e →
    ∃ p x rest m' st', ts = p ++ x :: rest ∧ yySteps rg m st p = .ok (m', st') ∧ yyStep rg m' st' x.1 x.2 = .error e := by
  induction ts with
  | nil => intro m st e h; cases h
  | cons x ts ih =>
    intro m st e h
    simp only [yySteps] at h
    cases hx : yyStep rg m st x.1 x.2 with
    | error e' =>
      rw [hx] at h
      cases h
      exact ⟨[], x, ts, m, st, rfl, rfl, hx⟩
    | ok r =>
      rw [hx] at h
      obtain ⟨p, y, rest, m', st', h1, h2, h3⟩ := ih h
      refine ⟨x :: p, y, rest, m', st', by rw [h1]; rfl, ?_, h3⟩
      simp only [yySteps, hx]
      exact h2

/-- Reading in a state to the end. -/
def yyFrom (rg : Bool) (m : PMem) (st : PS) (ts : List (Tok × ℕ)) (l : ℕ) : Except PErr Unit :=
  match yySteps rg m st ts with
  | .error e => .error e
  | .ok r => yyEnd r.1 r.2 l

theorem yyRun_eq (rg : Bool) (ts : List (Tok × ℕ)) (l : ℕ) : yyRun rg ts l = yyFrom rg .init .start ts l := rfl

theorem yyFrom_append {rg : Bool} {m m' : PMem} {st st' : PS} {a : List (Tok × ℕ)} (h : yySteps rg m st a = .ok (m', st'))
    (b : List (Tok × ℕ)) (l : ℕ) : yyFrom rg m st (a ++ b) l = yyFrom rg m' st' b l := by
  unfold yyFrom
  rw [yySteps_append, h]

theorem yyFrom_cons {rg : Bool} {m m' : PMem} {st st' : PS} {x : Tok × ℕ} (h : yyStep rg m st x.1 x.2 = .ok (m', st'))
    (b : List (Tok × ℕ)) (l : ℕ) : yyFrom rg m st (x :: b) l = yyFrom rg m' st' b l := by
  unfold yyFrom
  simp only [yySteps, h]

theorem yyFrom_stop {rg : Bool} {m : PMem} {st : PS} {x : Tok × ℕ} {e : PErr} (h : yyStep rg m st x.1 x.2 = .error e)
    (b : List (Tok × ℕ)) (l : ℕ) : yyFrom rg m st (x :: b) l = .error e := by
  unfold yyFrom
  simp only [yySteps, h]

/-- An error comes from a token or from the end. -/
theorem yyRun_error {rg : Bool} {ts : List (Tok × ℕ)} {l : ℕ} {e : PErr} (h : yyRun rg ts l = .error e) :
    (∃ p x rest m st, ts = p ++ x :: rest ∧ yySteps rg .init .start p = .ok (m, st) ∧ yyStep rg m st x.1 x.2 = .error e) ∨
    ∃ m st, yySteps rg .init .start ts = .ok (m, st) ∧ yyEnd m st l = .error e := by
  unfold yyRun at h
  cases hs : yySteps rg .init .start ts with
  | error e' =>
    rw [hs] at h
    cases h
    exact .inl (yySteps_error ts hs)
  | ok r =>
    rw [hs] at h
    exact .inr ⟨r.1, r.2, rfl, h⟩

/-! ## Formulas in front -/

theorem lead_steps {rg : Bool} {p : List (Tok × ℕ)} (hp : p ≠ []) {f : FS} {d : ℕ} (h : fsteps false .need 0 (toksOf p) = some (f, d)) :
    yySteps rg .init .start p = .ok (.init, .form .lead f d) := by
  cases p with
  | nil => exact absurd rfl hp
  | cons x p =>
    rw [toksOf_cons] at h
    simp only [fsteps, fstep] at h
    cases hx : needStep 0 x.1 with
    | none => rw [hx] at h; cases h
    | some r =>
      rw [hx] at h
      simp only [yySteps, yyStep, hx]
      exact form_steps (c := .lead) p h

theorem fsteps_prefix {p : Bool} {a b : List Tok} {f : FS} {d : ℕ} {r : FS × ℕ} (h : fsteps p f d (a ++ b) = some r) :
    ∃ r', fsteps p f d a = some r' := by
  rw [fsteps_append] at h
  cases e : fsteps p f d a with
  | none => rw [e] at h; cases h
  | some r' => exact ⟨r', rfl⟩

/-- Is the parser within a formula that stands in front and is not complete? -/
def PS.leadOpen : PS → Bool
  | .form .lead f d => !(f.ends && d == 0)
  | _ => false

theorem leadOpen_iff {rg : Bool} {p : List (Tok × ℕ)} {m : PMem} {st : PS} (h : yySteps rg .init .start p = .ok (m, st)) :
    st.leadOpen = true ↔ p ≠ [] ∧ ¬FormG false (toksOf p) ∧ ∃ ext, FormG false (toksOf p ++ ext) := by
  constructor
  · intro ho
    have hi : PInv rg m p st := yySteps_start h
    cases st with
    | form c f d =>
      cases c with
      | lead =>
        refine ⟨?_, ?_, hi.2.complete⟩
        · rintro rfl; cases h
        · intro hg
          obtain ⟨f', hf, e⟩ := formG_steps hg 0
          have hp : p ≠ [] := by rintro rfl; cases h
          rw [lead_steps hp e] at h
          cases h
          simp [PS.leadOpen, hf] at ho
      | _ => cases ho
    | _ => cases ho
  · rintro ⟨hp, hn, ext, hg⟩
    obtain ⟨f', -, e⟩ := formG_steps hg 0
    obtain ⟨⟨f, d⟩, e'⟩ := fsteps_prefix e
    have h' := lead_steps (rg := rg) hp e'
    rw [h'] at h
    cases h
    have hi : PInv rg .init p (.form .lead f d) := yySteps_start h'
    simp only [PS.leadOpen, Bool.not_eq_true', Bool.and_eq_false_iff, beq_eq_false_iff_ne]
    by_cases hf : f.ends = true
    · right
      rintro rfl
      exact hn (hi.2.formG hf)
    · left; simpa using hf

/-! ## The kinds of errors -/

theorem topStep_error {m : PMem} {t : Tok} {l : ℕ} {e : PErr} (h : topStep m t l = .error e) : e = .syntax l := by
  unfold topStep at h
  split at h
  · cases h
  · split at h <;> cases h
    rfl

/-- An error at a token: a syntax error in its line, without a line, or what an action finds. -/
theorem yyStep_error {rg : Bool} {m : PMem} {st : PS} {t : Tok} {l : ℕ} {e : PErr} (h : yyStep rg m st t l = .error e) :
    (e = .syntax l ∧ st.leadOpen = false) ∨ (e = .silent ∧ st.leadOpen = true) ∨
    (∃ n l0 l1, st = .decl (.id n l0 l1) ∧ t ≠ .chr '[' ∧ n ∈ m.names ∧ e = .dupVar l0) ∨
    (∃ n l0 a, st = .decl (.high n l0 a) ∧ t = .chr ']' ∧ ((a ≠ 0 ∧ e = .lower l0) ∨ (a = 0 ∧ n ∈ m.names ∧ e = .dupVar l0))) ∨
    (∃ lh env, e = .dupInit env lh ∧ t = .chr ';' ∧ m.isSet env = true ∧
      (st = .head (initHdr env) lh ∨ ∃ f, f.ends = true ∧ st = .form (.init env lh) f 0)) := by
  cases st with
  | start =>
    simp only [yyStep] at h
    split at h
    · cases h
    · exact .inl ⟨topStep_error h, rfl⟩
  | top => exact .inl ⟨topStep_error h, rfl⟩
  | head ht lh =>
    simp only [yyStep, headStep] at h
    by_cases hi : ht = .einit ∨ ht = .sinit
    · rw [if_pos hi] at h
      have he : ht = initHdr (decide (ht = .einit)) := by rcases hi with rfl | rfl <;> rfl
      split at h
      · rename_i hsc
        split at h
        · rename_i hset
          cases h
          exact .inr (.inr (.inr (.inr ⟨lh, _, rfl, hsc, hset, .inl (by rw [← he])⟩)))
        · cases h
      · split at h <;> cases h
        exact .inl ⟨rfl, rfl⟩
    · rw [if_neg hi] at h
      left
      split at h
      · cases h
      · split at h
        · split at h <;> cases h
          exact ⟨rfl, rfl⟩
        · split at h
          · split at h <;> cases h
            exact ⟨rfl, rfl⟩
          · split at h <;> cases h
            exact ⟨rfl, rfl⟩
  | form c f d =>
    simp only [yyStep, formStep] at h
    split at h
    · cases h
    · split at h
      · rename_i hd
        obtain ⟨hf, rfl⟩ := hd
        have hlo : (PS.form c f 0).leadOpen = false := by cases c <;> simp [PS.leadOpen, hf]
        cases c with
        | lead => exact .inl ⟨topStep_error h, hlo⟩
        | init env lh =>
          simp only [endStep] at h
          split at h
          · rename_i hsc
            split at h <;> cases h
            rename_i hset
            exact .inr (.inr (.inr (.inr ⟨lh, env, rfl, hsc, hset, .inr ⟨f, hf, rfl⟩⟩)))
          · cases h
            exact .inl ⟨rfl, hlo⟩
        | trans =>
          simp only [endStep] at h
          split at h
          · cases h
          · split at h <;> cases h
            exact .inl ⟨rfl, hlo⟩
        | goal more =>
          simp only [endStep] at h
          split at h
          · cases h
          · split at h <;> cases h
            exact .inl ⟨rfl, hlo⟩
      · rename_i hd
        cases h
        unfold badStep
        split
        · rename_i hc
          subst hc
          refine .inr (.inl ⟨rfl, ?_⟩)
          simp only [PS.leadOpen, Bool.not_eq_true', Bool.and_eq_false_iff, beq_eq_false_iff_ne]
          by_cases hf : f.ends = true
          · right; exact fun h => hd ⟨hf, h⟩
          · left; simpa using hf
        · rename_i hc
          refine .inl ⟨rfl, ?_⟩
          cases c <;> first | exact absurd rfl hc | rfl
  | decl s =>
    have names : ∀ {m' : PMem} {l0 : ℕ}, namesStep m' l0 t l = .error e → e = .syntax l := by
      intro m' l0 h
      unfold namesStep at h
      split at h <;> cases h
      rfl
    simp only [yyStep, declStep] at h
    cases s with
    | names l0 => exact .inl ⟨names h, rfl⟩
    | id n l0 l1 =>
      simp only at h
      split at h
      · cases h
      · rename_i hb
        split at h
        · rename_i hn
          cases h
          exact .inr (.inr (.inl ⟨n, l0, l1, rfl, hb, hn, rfl⟩))
        · exact .inl ⟨names h, rfl⟩
    | lb n l0 =>
      simp only at h
      split at h <;> cases h
      exact .inl ⟨rfl, rfl⟩
    | low n l0 a =>
      simp only at h
      split at h <;> cases h
      exact .inl ⟨rfl, rfl⟩
    | comma n l0 a =>
      simp only at h
      split at h <;> cases h
      exact .inl ⟨rfl, rfl⟩
    | high n l0 a =>
      simp only at h
      split at h
      · rename_i hb
        split at h
        · rename_i ha
          cases h
          exact .inr (.inr (.inr (.inl ⟨n, l0, a, rfl, hb, .inl ⟨ha, rfl⟩⟩)))
        · rename_i ha
          split at h
          · rename_i hn
            cases h
            exact .inr (.inr (.inr (.inl ⟨n, l0, a, rfl, hb, .inr ⟨by simpa using ha, hn, rfl⟩⟩)))
          · cases h
      · cases h
        exact .inl ⟨rfl, rfl⟩

/-- An error at the end. -/
theorem yyEnd_error {m : PMem} {st : PS} {l : ℕ} {e : PErr} (h : yyEnd m st l = .error e) :
    (e = .syntax l ∧ st.leadOpen = false) ∨ (e = .silent ∧ st.leadOpen = true) ∨
    (∃ n l0 l1, st = .decl (.id n l0 l1) ∧ n ∈ m.names ∧ e = .dupVar l0) := by
  cases st with
  | start => cases h
  | top => cases h
  | head t lh => cases h; exact .inl ⟨rfl, rfl⟩
  | form c f d =>
    simp only [yyEnd] at h
    split at h
    · rename_i hc
      subst hc
      split at h
      · cases h
      · rename_i hd
        cases h
        refine .inr (.inl ⟨rfl, ?_⟩)
        simp only [PS.leadOpen, Bool.not_eq_true', Bool.and_eq_false_iff, beq_eq_false_iff_ne]
        by_cases hf : f.ends = true
        · right; exact fun h => hd ⟨hf, h⟩
        · left; simpa using hf
    · rename_i hc
      cases h
      refine .inl ⟨rfl, ?_⟩
      cases c <;> first | exact absurd rfl hc | rfl
  | decl s =>
    cases s with
    | id n l0 l1 =>
      simp only [yyEnd] at h
      split at h
      · rename_i hn
        cases h
        exact .inr (.inr ⟨n, l0, l1, rfl, hn, rfl⟩)
      · cases h
        exact .inl ⟨rfl, rfl⟩
    | _ => cases h; exact .inl ⟨rfl, rfl⟩

/-! ## Declarations that are refused -/

/-- A declaration in which an action finds an error. -/
theorem decl_bad {rg : Bool} {m : PMem} {k : ℕ} {d : RawDecl} {u : List (Tok × ℕ)} (hu : toksOf u = d.toks) (rest : List (Tok × ℕ)) (l : ℕ)
    (hx : d.dom = none → ∀ x ∈ rest.head?, x.1 ≠ .chr '[') :
    (d.BadLow → yyFrom rg m (.decl (.names k)) (u ++ rest) l = .error (.lower k)) ∧
    (¬d.BadLow → d.name ∈ m.names → yyFrom rg m (.decl (.names k)) (u ++ rest) l = .error (.dupVar k)) := by
  obtain ⟨n, dom⟩ := d
  cases dom with
  | none =>
    obtain ⟨l1, u', rfl, h⟩ := toksOf_uncons hu
    obtain rfl := toksOf_empty h
    refine ⟨fun ⟨x, h, _⟩ => by (cases h), fun _ hn => ?_⟩
    have hn' : n ∈ m.names := hn
    cases rest with
    | nil => simp only [List.cons_append, List.nil_append, yyFrom, yySteps, yyStep, declStep, namesStep, yyEnd, if_pos hn']
    | cons x rest =>
      have hx' := hx rfl x (by simp)
      simp only [List.cons_append, List.nil_append, yyFrom, yySteps, yyStep, declStep, namesStep, if_neg hx', if_pos hn']
  | some ab =>
    obtain ⟨a, b⟩ := ab
    obtain ⟨l1, u1, rfl, k1⟩ := toksOf_uncons hu
    obtain ⟨l2, u2, rfl, k2⟩ := toksOf_uncons k1
    obtain ⟨l3, u3, rfl, k3⟩ := toksOf_uncons k2
    obtain ⟨l4, u4, rfl, k4⟩ := toksOf_uncons k3
    obtain ⟨l5, u5, rfl, k5⟩ := toksOf_uncons k4
    obtain ⟨l6, u6, rfl, k6⟩ := toksOf_uncons k5
    obtain rfl := toksOf_empty k6
    refine ⟨?_, ?_⟩
    · rintro ⟨y, hy, h0⟩
      cases hy
      simp only [List.cons_append, List.nil_append, yyFrom, yySteps, yyStep, declStep, namesStep, if_true, ne_eq, if_pos h0]
    · intro hb hn
      have h0 : ¬(a ≠ 0) := fun h => hb ⟨_, rfl, h⟩
      have hn' : n ∈ m.names := hn
      simp only [List.cons_append, List.nil_append, yyFrom, yySteps, yyStep, declStep, namesStep, if_true, if_neg h0, if_pos hn']

end Gr1c
