import Verif.Log

/-!
# C66: the log
-/

namespace Gr1c

/-! ## Specification -/

/-- Meaning of a format, from `/repo/include/logging.h` 48 (`%d`, `%f` and `%s` as in `printf`). -/
inductive Printf : List Char → List LogArg → List Char → Prop
  | nil : Printf [] [] []
  | char {c f as t} (h : c ≠ '%') (hf : Printf f as t) : Printf (c :: f) as (c :: t)
  | int {f as t} (v : ℤ) (hf : Printf f as t) : Printf ('%' :: 'd' :: f) (.int v :: as) (printInt v ++ t)
  | flt {f as t} (s : List Char) (hf : Printf f as t) : Printf ('%' :: 'f' :: f) (.flt s :: as) (s ++ t)
  | str {f as t} (s : List Char) (hf : Printf f as t) : Printf ('%' :: 's' :: f) (.str s :: as) (s ++ t)
  | percent {f as t} (hf : Printf f as t) : Printf ('%' :: '%' :: f) as ('%' :: t)

/-- What a call is to write, where `timed` tells whether lines begin with the time. -/
inductive Writes (timed : Bool) : LogCmd → List Char → Prop
  | print {f as t} (s : List Char) (h : Printf f as t) :
      Writes timed (.print (some s) f as) ((if timed then s ++ [' '] else []) ++ t ++ ['\n'])
  | start (s : List Char) : Writes timed (.start (some s)) (if timed then s ++ [' '] else [])
  | quiet (h : timed = false) : Writes timed (.start none) []
  | raw {f as t} (h : Printf f as t) : Writes timed (.raw f as) t
  | stop : Writes timed .stop ['\n']

/-- More text on a stream. -/
def LogSt.more (σ : LogSt) (k : ℕ) (t : List Char) : LogSt := { σ with text := fun j => if j = k then σ.text j ++ t else σ.text j }

/-- The log is a stream that can be written. -/
def LogSt.Open (σ : LogSt) (k : ℕ) : Prop := σ.fp = some k ∧ k ∈ σ.live

/-! ## Proofs -/

theorem logExpand_char {c : Char} (h : c ≠ '%') (f : List Char) (as : List LogArg) :
    logExpand (c :: f) as = (logExpand f as).map (c :: ·) := by
  rw [logExpand.eq_def]; exact if_neg h

theorem logExpand_percent (f : List Char) (as : List LogArg) :
    logExpand ('%' :: '%' :: f) as = (logExpand f as).map ('%' :: ·) := by
  rw [logExpand.eq_def]; rfl

theorem logExpand_printf {f : List Char} {as : List LogArg} {t : List Char} (h : Printf f as t) : logExpand f as = some t := by
  induction h with
  | nil => simp [logExpand]
  | char h _ ih => rw [logExpand_char h, ih]; rfl
  | int v _ ih => rw [logExpand.eq_def]; simp [ih]
  | flt s _ ih => rw [logExpand.eq_def]; simp [ih]
  | str s _ ih => rw [logExpand.eq_def]; simp [ih]
  | percent _ ih => rw [logExpand_percent, ih]; rfl

theorem printf_append {f g : List Char} {as bs : List LogArg} {t u : List Char} (h : Printf f as t) (h' : Printf g bs u) :
    Printf (f ++ g) (as ++ bs) (t ++ u) := by
  induction h with
  | nil => exact h'
  | char h _ ih => exact .char h ih
  | int v _ ih => rw [List.append_assoc]; exact .int v ih
  | flt s _ ih => rw [List.append_assoc]; exact .flt s ih
  | str s _ ih => rw [List.append_assoc]; exact .str s ih
  | percent _ ih => exact .percent ih

theorem printf_plain (t : List Char) (h : '%' ∉ t) : Printf t [] t := by
  induction t with
  | nil => exact .nil
  | cons c r ih =>
    exact .char (fun e => h (e ▸ List.mem_cons_self)) (ih fun e => h (List.mem_cons_of_mem _ e))

theorem put_more {σ : LogSt} {k : ℕ} (h : k ∈ σ.live) (t : List Char) : σ.put k t = .ok (σ.more k t) := if_pos h

theorem more_more (σ : LogSt) (k : ℕ) (t u : List Char) : (σ.more k t).more k u = σ.more k (t ++ u) := by
  unfold LogSt.more
  simp only [LogSt.mk.injEq, true_and]
  funext j
  split <;> simp

theorem more_nil (σ : LogSt) (k : ℕ) : σ.more k [] = σ := by
  unfold LogSt.more
  cases σ
  simp

theorem open_more {σ : LogSt} {k : ℕ} (h : σ.Open k) (t : List Char) : (σ.more k t).Open k := h

/-- **C66, one call.** -/
theorem log_step {σ : LogSt} {k : ℕ} (h : σ.Open k) {c : LogCmd} {t : List Char} (hc : Writes σ.timed c t) :
    logStep c σ = .ok (σ.more k t) := by
  obtain ⟨h1, h2⟩ := h
  cases hc with
  | print s hp =>
    simp only [logStep, logPrint, h1, logBody, logExpand_printf hp]
    cases ht : σ.timed <;> simp [put_more h2]
  | start s =>
    simp only [logStep, logStartLine, h1]
    cases ht : σ.timed
    · simp [more_nil]
    · simp [put_more h2]
  | quiet ht => simp [logStep, logStartLine, h1, ht, more_nil]
  | raw hp => simp only [logStep, logRaw, h1, logExpand_printf hp, put_more h2]
  | stop => simp only [logStep, logEndLine, h1, put_more h2]

/-- **C66, calls.** Calls with formats and arguments that fit write the texts they are to write, one after the other, to the log and
nowhere else. -/
theorem log_run {σ : LogSt} {k : ℕ} (h : σ.Open k) {cs : List LogCmd} {ts : List (List Char)}
    (hc : List.Forall₂ (Writes σ.timed) cs ts) : logRun cs σ = .ok (σ.more k ts.flatten) := by
  induction cs generalizing σ ts with
  | nil => cases hc; simp [logRun, more_nil]
  | cons c cs ih =>
    cases hc with
    | @cons _ t _ ts h1 h2 =>
      rw [logRun, log_step h h1]
      simp only [LogRes.bind, List.flatten_cons, ← more_more]
      exact ih (open_more h t) h2

/-- **C66, lines in pieces.** A line begun with `logprint_startline`, written in pieces with `logprint_raw` and ended with
`logprint_endline` is the line that `logprint` writes for the formats and arguments put together. -/
theorem log_pieces {σ : LogSt} {k : ℕ} (h : σ.Open k) (s : List Char) (ps : List (List Char × List LogArg))
    (hp : ∀ p ∈ ps, ∃ t, Printf p.1 p.2 t) :
    logRun (.start (some s) :: (ps.map fun p => .raw p.1 p.2) ++ [.stop]) σ =
      logPrint (some s) (ps.flatMap Prod.fst) (ps.flatMap Prod.snd) σ := by
  have key : ∃ ts : List (List Char), List.Forall₂ (Writes σ.timed) (ps.map fun p => LogCmd.raw p.1 p.2) ts ∧
      Printf (ps.flatMap Prod.fst) (ps.flatMap Prod.snd) ts.flatten := by
    induction ps with
    | nil => exact ⟨[], .nil, .nil⟩
    | cons p ps ih =>
      obtain ⟨t, ht⟩ := hp p List.mem_cons_self
      obtain ⟨ts, h1, h2⟩ := ih fun q hq => hp q (List.mem_cons_of_mem _ hq)
      exact ⟨t :: ts, .cons (.raw ht) h1, printf_append ht h2⟩
  obtain ⟨ts, h1, h2⟩ := key
  have h3 : List.Forall₂ (Writes σ.timed) ((ps.map fun p => LogCmd.raw p.1 p.2) ++ [.stop]) (ts ++ [['\n']]) := by
    clear h2 hp
    revert h1
    generalize (ps.map fun p => LogCmd.raw p.1 p.2) = l
    intro h1
    induction h1 with
    | nil => exact .cons .stop .nil
    | cons a _ ih => exact .cons a ih
  have e1 := log_run h (List.Forall₂.cons (Writes.start s) h3)
  have e2 := log_step h (Writes.print s h2)
  rw [List.cons_append]
  rw [e1]
  exact (e2.trans (by simp [List.append_assoc])).symm

/-- **C66, opening.** The log file is named after the prefix and the day, and the log is that file from then on; an open log
file is closed. -/
theorem log_open {σ : LogSt} {pid : ℕ} {day : List Char} {op : List Char → Option ℕ} {p : List Char} {k : ℕ}
    (hp : p.length + day.length < 256) (hl : ∀ j, σ.fp = some j → j = 0 ∨ j ∈ σ.live) (hk : op (p ++ day) = some k) :
    ∃ τ, openLogFile pid day op (some p) σ = .ok (τ, some k) ∧ τ.Open k ∧ τ.opt = σ.opt ∧ τ.text = σ.text ∧ τ.name = p ++ day ∧
      (∀ j, j ∈ τ.live ↔ j = k ∨ (j ∈ σ.live ∧ (σ.fp = some j → j = 0))) := by
  have e1 : logPrefix pid (some p) = p := List.take_of_length_le (by omega)
  have e2 : ¬ 256 - p.length < day.length + 1 := by omega
  unfold openLogFile
  rw [e1, if_neg e2]
  unfold closeLogFile
  cases hf : σ.fp with
  | none => exact ⟨{ σ with fp := some k, name := p ++ day, live := k :: σ.live }, by simp [LogRes.bind, hk], ⟨rfl, List.mem_cons_self⟩, rfl, rfl, rfl, fun j => by simp⟩
  | some j =>
    by_cases hj : j = 0
    · subst hj
      refine ⟨{ σ with fp := some k, name := p ++ day, live := k :: σ.live }, by simp [LogRes.bind, hk], ⟨rfl, List.mem_cons_self⟩, rfl, rfl, rfl, fun j => ?_⟩
      simp only [List.mem_cons, Option.some.injEq]
      exact or_congr_right ⟨fun a => ⟨a, fun b => b.symm⟩, fun a => a.1⟩
    · have hm : j ∈ σ.live := (hl j hf).resolve_left hj
      refine ⟨{ σ with fp := some k, name := p ++ day, live := k :: σ.live.filter (· ≠ j) },
        by simp [LogRes.bind, hk, hj, hm], ⟨rfl, List.mem_cons_self⟩, rfl, rfl, rfl, fun i => ?_⟩
      simp only [List.mem_cons, Option.some.injEq]
      refine or_congr_right ?_
      simp only [decide_not, List.mem_filter, Bool.not_eq_true', decide_eq_false_iff_not]
      exact and_congr_right fun _ => ⟨fun a b => absurd b.symm a, fun a b => hj (b ▸ a b.symm)⟩

/-- **C66, long prefixes.** When prefix and day take 256 characters or more, no file is opened, the log stays what it was and a message
goes to `stderr`. -/
theorem log_open_long {σ : LogSt} {pid : ℕ} {day : List Char} (op : List Char → Option ℕ) {p : List Char}
    (hp : 256 ≤ p.length + day.length) (hd : day ≠ []) (h1 : 1 ∈ σ.live) :
    ∃ τ, openLogFile pid day op (some p) σ = .ok (τ, none) ∧ τ.fp = σ.fp ∧ τ.live = σ.live ∧
      τ.text = (σ.more 1 noTimeText).text := by
  have e2 : 256 - (logPrefix pid (some p)).length < day.length + 1 := by
    have : (logPrefix pid (some p)).length = min 255 p.length := List.length_take
    have := List.length_pos_iff.2 hd
    omega
  unfold openLogFile
  rw [if_pos e2]
  simp only [LogSt.put, h1, if_true, LogRes.bind]
  exact ⟨_, rfl, rfl, rfl, rfl⟩

/-- **C66, a session.** A log file opened for a stream number in use by nothing else, written with calls that fit and closed: no
undefined behaviour, the file has gained the texts of the calls in order, all other streams have their text, and the
file is closed. -/
theorem log_session {σ : LogSt} {pid : ℕ} {day : List Char} {op : List Char → Option ℕ} {p : List Char} {k : ℕ}
    (hp : p.length + day.length < 256) (hl : ∀ j, σ.fp = some j → j = 0 ∨ j ∈ σ.live) (hk : op (p ++ day) = some k) (h0 : k ≠ 0)
    {cs : List LogCmd} {ts : List (List Char)} (hc : List.Forall₂ (Writes σ.timed) cs ts) :
    ∃ τ, ((openLogFile pid day op (some p) σ).bind fun r => (logRun cs r.1).bind closeLogFile) = .ok τ ∧
      τ.text = (σ.more k ts.flatten).text ∧ k ∉ τ.live := by
  obtain ⟨τ, e, ho, h2, h3, -, -⟩ := log_open (pid := pid) hp hl hk
  have ht : τ.timed = σ.timed := by unfold LogSt.timed; rw [h2]
  rw [e]
  simp only [LogRes.bind]
  rw [log_run ho (ht ▸ hc)]
  simp only [closeLogFile, LogSt.more, ho.1, h0, if_false, ho.2, if_true, h3]
  exact ⟨_, rfl, rfl, by simp⟩

/-- **C66, without a log.** Lines are replaced with a message on `stderr`; `logprint_endline` uses the NULL pointer. -/
theorem log_none {σ : LogSt} (h : σ.fp = none) (h1 : 1 ∈ σ.live) :
    (∀ s f as, logPrint s f as σ = .ok (σ.more 1 noLogText)) ∧ (∀ s, logStartLine s σ = .ok (σ.more 1 noLogText)) ∧
      (∀ f as, logRaw f as σ = .ok (σ.more 1 noLogText)) ∧ logEndLine σ = .ub := by
  refine ⟨fun s f as => ?_, fun s => ?_, fun f as => ?_, ?_⟩
  · simp only [logPrint, h, put_more h1]
  · simp only [logStartLine, h, put_more h1]
  · simp only [logRaw, h, put_more h1]
  · simp only [logEndLine, h]

/-- **C66, after closing.** The pointer is kept when a log file is closed: whatever is called then, other than `setlogstream`,
uses a closed stream. -/
theorem log_closed {σ τ : LogSt} {k : ℕ} (h : σ.Open k) (h0 : k ≠ 0) (hc : closeLogFile σ = .ok τ) :
    closeLogFile τ = .ub ∧ logEndLine τ = .ub ∧ (∀ f as t, Printf f as t → logRaw f as τ = .ub) ∧
      (∀ pid day op p, p.length + day.length < 256 → openLogFile pid day op (some p) τ = .ub) := by
  unfold closeLogFile at hc
  simp only [h.1, h0, if_false, h.2, if_true, LogRes.ok.injEq] at hc
  have hf : τ.fp = some k := by rw [← hc]
  have hk : k ∉ τ.live := by rw [← hc]; simp
  have hu : ∀ ρ : LogSt, ρ.fp = some k → ρ.live = τ.live → closeLogFile ρ = .ub := fun ρ e1 e2 => by
    unfold closeLogFile
    simp only [e1, h0, if_false, e2, hk]
  refine ⟨hu τ hf rfl, by simp only [logEndLine, hf, LogSt.put, hk, if_false], fun f as t hp => ?_, fun pid day op p hp => ?_⟩
  · simp only [logRaw, hf, logExpand_printf hp, LogSt.put, hk, if_false]
  · have e1 : logPrefix pid (some p) = p := List.take_of_length_le (by omega)
    have e2 : ¬ 256 - p.length < day.length + 1 := by omega
    unfold openLogFile
    rw [e1, if_neg e2, hu { τ with name := p ++ day } hf rfl]
    rfl

/-! ## Examples -/

/-- A program at its start. -/
def logEx : LogSt := { fp := none, opt := 0, name := [], live := [0, 1], text := fun _ => [] }

example : Printf "n=%d, %s 100%%".toList [.int (-7), .str "ok".toList] "n=-7, ok 100%".toList :=
  .char (by decide) (.char (by decide) (.int (-7) (.char (by decide) (.char (by decide) (.str "ok".toList
    (.char (by decide) (.char (by decide) (.char (by decide) (.char (by decide) (.percent .nil))))))))))

example : ∃ τ, ((openLogFile 12 "-20261116.log".toList (fun _ => some 3) (some "run".toList) logEx).bind fun r =>
    (logRun [.start (some "10:00".toList), .raw "a".toList [], .stop, .print (some "10:01".toList) "%d".toList [.int 5]] r.1).bind
      closeLogFile) = .ok τ ∧ τ.text 3 = "10:00 a\n10:01 5\n".toList ∧ τ.text 0 = [] := by
  obtain ⟨τ, h1, h2, -⟩ := log_session (σ := logEx) (pid := 12) (day := "-20261116.log".toList) (op := fun _ => some 3)
    (p := "run".toList) (k := 3) (by decide) (fun j h => by cases h) rfl (by decide)
    (.cons (.start "10:00".toList) (.cons (.raw (printf_plain "a".toList (by decide))) (.cons .stop
      (.cons (.print "10:01".toList (.int 5 .nil)) .nil))))
  exact ⟨τ, h1, by rw [h2]; rfl, by rw [h2]; rfl⟩

example : LogSt.Open { logEx with fp := some 0 } 0 := ⟨rfl, by decide⟩

end Gr1c
