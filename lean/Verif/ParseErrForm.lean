import Verif.ParseErrSpec

/-!
# Formulas token by token (C73)

Auxiliary: the machine for formulas accepts the sequences of the grammar, and only them.
-/

namespace Gr1c

/-- Many tokens of a formula. -/
def fsteps (primes : Bool) (f : FS) (d : ℕ) : List Tok → Option (FS × ℕ)
  | [] => some (f, d)
  | t :: ts =>
    match fstep primes f d t with
    | none => none
    | some r => fsteps primes r.1 r.2 ts

theorem fsteps_append (p : Bool) (a b : List Tok) : ∀ f d, fsteps p f d (a ++ b) =
    match fsteps p f d a with
    | none => none
    | some r => fsteps p r.1 r.2 b := by
  induction a with
  | nil => intro f d; rfl
  | cons t ts ih =>
    intro f d
    simp only [List.cons_append, fsteps]
    cases fstep p f d t with
    | none => rfl
    | some r => exact ih r.1 r.2

theorem isOpTok_iff (o : Tok) : isOpTok o = true ↔ o ∈ binToks := by
  constructor
  · intro h
    unfold isOpTok at h
    split at h <;> first | (simp [binToks]; done) | exact absurd h (by decide)
  · intro h
    simp only [binToks, List.mem_cons, List.not_mem_nil, or_false] at h
    rcases h with rfl | rfl | rfl | rfl <;> rfl

theorem op_cmp {o : Tok} (h : o ∈ binToks) : cmpTok o = none ∧ o ≠ .chr '\'' := by
  simp only [binToks, List.mem_cons, List.not_mem_nil, or_false] at h
  rcases h with rfl | rfl | rfl | rfl <;> exact ⟨rfl, by decide⟩

theorem ends_full {p : Bool} {f : FS} (hf : f.ends = true) {d : ℕ} {t : Tok} (h1 : cmpTok t = none) (h2 : t ≠ .chr '\'') :
    fstep p f d t = fullStep d t := by
  cases f with
  | need => exact absurd hf (by decide)
  | var => simp [fstep, h1, h2]
  | prime => simp [fstep, h1]
  | cmp => exact absurd hf (by decide)
  | full => rfl

theorem ends_op {p : Bool} {f : FS} (hf : f.ends = true) {d : ℕ} {o : Tok} (h : o ∈ binToks) : fstep p f d o = some (.need, d) := by
  rw [ends_full hf (op_cmp h).1 (op_cmp h).2, fullStep, if_pos ((isOpTok_iff o).2 h)]

theorem ends_close {p : Bool} {f : FS} (hf : f.ends = true) (d : ℕ) : fstep p f (d + 1) (.chr ')') = some (.full, d) := by
  rw [ends_full hf rfl (by decide)]
  rfl

theorem cmpTok_op (op : CmpOp) : (cmpTok op.tok).isSome = true ∧ op.tok ≠ .chr '\'' := by
  cases op <;> exact ⟨rfl, by decide⟩

theorem cmpTok_isSome {t : Tok} (h : (cmpTok t).isSome = true) : ∃ op : CmpOp, t = op.tok := by
  unfold cmpTok at h
  split at h
  · exact ⟨.eq, rfl⟩
  · exact ⟨.lt, rfl⟩
  · exact ⟨.gt, rfl⟩
  · exact ⟨.le, rfl⟩
  · exact ⟨.ge, rfl⟩
  · exact ⟨.ne, rfl⟩
  · exact absurd h (by decide)

/-- Sentences are accepted. -/
theorem formG_steps {p : Bool} {ts : List Tok} (h : FormG p ts) : ∀ d, ∃ f, f.ends = true ∧ fsteps p .need d ts = some (f, d) := by
  induction h with
  | tt => exact fun d => ⟨.full, rfl, rfl⟩
  | ff => exact fun d => ⟨.full, rfl, rfl⟩
  | var nx h n =>
    intro d
    cases nx with
    | false => exact ⟨.var, rfl, rfl⟩
    | true =>
      refine ⟨.prime, rfl, ?_⟩
      simp [primeToks, fsteps, fstep, needStep, h rfl]
  | cmp op nx h n k =>
    intro d
    have h1 := cmpTok_op op
    refine ⟨.full, rfl, ?_⟩
    cases nx with
    | false => simp [primeToks, fsteps, fstep, needStep, h1.1, h1.2]
    | true => simp [primeToks, fsteps, fstep, needStep, h1.1, h rfl]
  | neg _ ih =>
    intro d
    obtain ⟨f, hf, e⟩ := ih d
    exact ⟨f, hf, e⟩
  | @bin ts ts' o ho _ _ ih ih' =>
    intro d
    obtain ⟨f, hf, e⟩ := ih d
    obtain ⟨f', hf', e'⟩ := ih' d
    refine ⟨f', hf', ?_⟩
    rw [fsteps_append, e]
    simp only [fsteps, ends_op hf ho]
    exact e'
  | @paren ts _ ih =>
    intro d
    obtain ⟨f, hf, e⟩ := ih (d + 1)
    refine ⟨.full, rfl, ?_⟩
    show fsteps p .need (d + 1) (ts ++ [.chr ')']) = _
    rw [fsteps_append, e]
    simp only [fsteps, ends_close hf]

/-- Beginnings of formulas after which an operand is expected, with `d` open parentheses. -/
inductive Ctx (p : Bool) : ℕ → List Tok → Prop
  | nil : Ctx p 0 []
  | neg {d c} (h : Ctx p d c) : Ctx p d (c ++ [.chr '!'])
  | bin {d c u o} (ho : o ∈ binToks) (h : Ctx p d c) (hu : FormG p u) : Ctx p d (c ++ (u ++ [o]))
  | lp {d c} (h : Ctx p d c) : Ctx p (d + 1) (c ++ [.chr '('])

theorem Ctx.close {p : Bool} {d : ℕ} {c : List Tok} (h : Ctx p d c) : ∀ {e : ℕ}, d = e + 1 → ∀ {u : List Tok}, FormG p u →
    ∃ c' u', c ++ (u ++ [.chr ')']) = c' ++ u' ∧ Ctx p e c' ∧ FormG p u' := by
  induction h with
  | nil => intro e h; omega
  | neg _ ih =>
    intro e he u hu
    obtain ⟨c', u', h1, h2, h3⟩ := ih he hu.neg
    exact ⟨c', u', by rw [← h1]; simp, h2, h3⟩
  | bin ho _ hu ih =>
    intro e he v hv
    obtain ⟨c', u', h1, h2, h3⟩ := ih he (.bin ho hu hv)
    exact ⟨c', u', by rw [← h1]; simp, h2, h3⟩
  | @lp d c h _ =>
    intro e he u hu
    obtain rfl : d = e := by omega
    exact ⟨c, _, by simp, h, .paren hu⟩

theorem Ctx.done {p : Bool} {d : ℕ} {c : List Tok} (h : Ctx p d c) : d = 0 → ∀ {u : List Tok}, FormG p u → FormG p (c ++ u) := by
  induction h with
  | nil => intro _ u hu; exact hu
  | neg _ ih => intro he u hu; simpa using ih he hu.neg
  | bin ho _ hu ih => intro he v hv; simpa using ih he (.bin ho hu hv)
  | lp _ _ => intro h; omega

/-- Every beginning can be completed. -/
theorem Ctx.complete {p : Bool} : ∀ (d : ℕ) {c u : List Tok}, Ctx p d c → FormG p u → ∃ e, FormG p (c ++ (u ++ e)) := by
  intro d
  induction d with
  | zero => intro c u h hu; exact ⟨[], by simpa using h.done rfl hu⟩
  | succ d ih =>
    intro c u h hu
    obtain ⟨c', u', h1, h2, h3⟩ := h.close rfl hu
    obtain ⟨e, he⟩ := ih h2 h3
    refine ⟨.chr ')' :: e, ?_⟩
    have : c ++ (u ++ Tok.chr ')' :: e) = c' ++ (u' ++ e) := by
      rw [← List.append_assoc c' u' e, ← h1]; simp
    rw [this]; exact he

/-- What has been read of a formula. -/
def FInv (p : Bool) (d : ℕ) (v : List Tok) : FS → Prop
  | .need => Ctx p d v
  | .var => ∃ c n, v = c ++ [.ident n] ∧ Ctx p d c
  | .prime => ∃ c n, v = c ++ [.ident n, .chr '\''] ∧ Ctx p d c ∧ p = true
  | .cmp => ∃ c n nx, ∃ op : CmpOp, v = c ++ (.ident n :: (primeToks nx ++ [op.tok])) ∧ Ctx p d c ∧ (nx = true → p = true)
  | .full => ∃ c u, v = c ++ u ∧ Ctx p d c ∧ FormG p u

theorem FInv.ends {p : Bool} {d : ℕ} {v : List Tok} {f : FS} (h : FInv p d v f) (hf : f.ends = true) :
    ∃ c u, v = c ++ u ∧ Ctx p d c ∧ FormG p u := by
  cases f with
  | need => exact absurd hf (by decide)
  | var =>
    obtain ⟨c, n, rfl, h⟩ := h
    exact ⟨c, _, rfl, h, .var false (by simp) n⟩
  | prime =>
    obtain ⟨c, n, rfl, h, hp⟩ := h
    exact ⟨c, _, rfl, h, .var true (fun _ => hp) n⟩
  | cmp => exact absurd hf (by decide)
  | full => exact h

theorem FInv.formG {p : Bool} {v : List Tok} {f : FS} (h : FInv p 0 v f) (hf : f.ends = true) : FormG p v := by
  obtain ⟨c, u, rfl, h1, h2⟩ := h.ends hf
  exact h1.done rfl h2

/-- Every beginning of a formula can be completed. -/
theorem FInv.complete {p : Bool} {d : ℕ} {v : List Tok} {f : FS} (h : FInv p d v f) : ∃ e, FormG p (v ++ e) := by
  by_cases hf : f.ends = true
  · obtain ⟨c, u, rfl, h1, h2⟩ := h.ends hf
    obtain ⟨e, he⟩ := h1.complete d h2
    exact ⟨e, by simpa using he⟩
  · cases f with
    | need =>
      obtain ⟨e, he⟩ := Ctx.complete d h .tt
      exact ⟨_, he⟩
    | cmp =>
      obtain ⟨c, n, nx, op, rfl, h1, h2⟩ := h
      obtain ⟨e, he⟩ := h1.complete d (.cmp op nx h2 n 0)
      exact ⟨.num 0 :: e, by simpa using he⟩
    | var => exact absurd rfl hf
    | prime => exact absurd rfl hf
    | full => exact absurd rfl hf

theorem FInv.fullStep {p : Bool} {d d' : ℕ} {v c u : List Tok} {f' : FS} {t : Tok} (hv : v = c ++ u) (hc : Ctx p d c) (hu : FormG p u)
    (e : fullStep d t = some (f', d')) : FInv p d' (v ++ [t]) f' := by
  subst hv
  unfold Gr1c.fullStep at e
  split at e
  · rename_i ho
    obtain ⟨rfl, rfl⟩ := Prod.ext_iff.1 (Option.some.inj e)
    have := Ctx.bin ((isOpTok_iff t).1 ho) hc hu
    simpa [FInv] using this
  · split at e
    · rename_i hd
      obtain ⟨rfl, rfl⟩ := Prod.ext_iff.1 (Option.some.inj e)
      obtain ⟨rfl, hd⟩ := hd
      obtain ⟨c', u', h1, h2, h3⟩ := hc.close (show d = (d - 1) + 1 by omega) hu
      exact ⟨c', u', by rw [← h1]; simp, h2, h3⟩
    · cases e

theorem FInv.step {p : Bool} {d d' : ℕ} {v : List Tok} {f f' : FS} {t : Tok} (h : FInv p d v f)
    (e : fstep p f d t = some (f', d')) : FInv p d' (v ++ [t]) f' := by
  cases f with
  | need =>
    simp only [fstep] at e
    unfold needStep at e
    split at e
    · obtain ⟨rfl, rfl⟩ := Prod.ext_iff.1 (Option.some.inj e)
      exact ⟨v, _, rfl, h, .tt⟩
    · obtain ⟨rfl, rfl⟩ := Prod.ext_iff.1 (Option.some.inj e)
      exact ⟨v, _, rfl, h, .ff⟩
    · obtain ⟨rfl, rfl⟩ := Prod.ext_iff.1 (Option.some.inj e)
      exact ⟨v, _, rfl, h⟩
    · obtain ⟨rfl, rfl⟩ := Prod.ext_iff.1 (Option.some.inj e)
      exact Ctx.neg h
    · obtain ⟨rfl, rfl⟩ := Prod.ext_iff.1 (Option.some.inj e)
      exact Ctx.lp h
    · cases e
  | var =>
    simp only [fstep] at e
    split at e
    · rename_i hp
      obtain ⟨rfl, rfl⟩ := Prod.ext_iff.1 (Option.some.inj e)
      obtain ⟨c, n, rfl, hc⟩ := h
      exact ⟨c, n, by rw [hp.2]; simp, hc, hp.1⟩
    · split at e
      · rename_i ho
        obtain ⟨rfl, rfl⟩ := Prod.ext_iff.1 (Option.some.inj e)
        obtain ⟨op, rfl⟩ := cmpTok_isSome ho
        obtain ⟨c, n, rfl, hc⟩ := h
        exact ⟨c, n, false, op, by simp [primeToks], hc, by simp⟩
      · obtain ⟨c, u, hv, hc, hu⟩ := FInv.ends (f := .var) h rfl
        exact FInv.fullStep hv hc hu e
  | prime =>
    simp only [fstep] at e
    split at e
    · rename_i ho
      obtain ⟨rfl, rfl⟩ := Prod.ext_iff.1 (Option.some.inj e)
      obtain ⟨op, rfl⟩ := cmpTok_isSome ho
      obtain ⟨c, n, rfl, hc, hp⟩ := h
      exact ⟨c, n, true, op, by simp [primeToks], hc, fun _ => hp⟩
    · obtain ⟨c, u, hv, hc, hu⟩ := FInv.ends (f := .prime) h rfl
      exact FInv.fullStep hv hc hu e
  | cmp =>
    simp only [fstep] at e
    split at e
    · obtain ⟨rfl, rfl⟩ := Prod.ext_iff.1 (Option.some.inj e)
      rename_i k
      obtain ⟨c, n, nx, op, rfl, hc, hp⟩ := h
      exact ⟨c, .ident n :: (primeToks nx ++ [op.tok, .num k]), by simp, hc, .cmp op nx hp n k⟩
    · cases e
  | full =>
    obtain ⟨c, u, hv, hc, hu⟩ := FInv.ends (f := .full) h rfl
    exact FInv.fullStep hv hc hu e

/-- The beginning of a formula. -/
theorem FInv.start {p : Bool} {t : Tok} {f : FS} {d : ℕ} (e : needStep 0 t = some (f, d)) : FInv p d [t] f :=
  FInv.step (f := .need) (v := []) (show Ctx p 0 [] from .nil) e

/-- A formula begins with a token for an operand. -/
theorem formG_head {p : Bool} {ts : List Tok} (h : FormG p ts) : ∃ t ts', ts = t :: ts' ∧ (needStep 0 t).isSome = true := by
  obtain ⟨f, hf, e⟩ := formG_steps h 0
  cases ts with
  | nil => obtain ⟨rfl, _⟩ := Prod.ext_iff.1 (Option.some.inj e); exact absurd hf (by decide)
  | cons t ts =>
    refine ⟨t, ts, rfl, ?_⟩
    unfold fsteps at e
    simp only [fstep] at e
    cases h1 : needStep 0 t with
    | none => rw [h1] at e; cases e
    | some r => rfl

end Gr1c
