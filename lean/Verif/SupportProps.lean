import Verif.Support
import Verif.LogProps
import Verif.MetricProps
import Verif.MainProps

/-!
# C67: `print_support` and `printwin`; C68: `print_GR1_spec`
-/

namespace Gr1c

/-! ## Specification -/

/-- Characters in groups of four, separated with blanks. -/
inductive Fours : List Char → List Char → Prop
  | last (r : List Char) (h : r.length ≤ 4) : Fours r r
  | more {a r t : List Char} (h : a.length = 4) (hr : r ≠ []) (ht : Fours r t) : Fours (a ++ r) (a ++ ' ' :: t)

/-- The bits of a state, environment first. -/
def bitChars {ne ns : ℕ} (s : BState ne ns) : List Char :=
  (List.ofFn s.1 ++ List.ofFn s.2).map fun b => if b then '1' else '0'

/-- The text lists the states of a set, each on one line and no other, as bits in groups of four. -/
def ListsStates {ne ns : ℕ} (t : List Char) (A : BState ne ns → Prop) : Prop :=
  ∃ (ls : List (BState ne ns)) (ts : List (List Char)), ls.Nodup ∧ (∀ s, s ∈ ls ↔ A s) ∧
    List.Forall₂ (fun s l => Fours (bitChars s) l) ls ts ∧ t = ts.flatMap (· ++ ['\n'])

/-! ## Proofs -/

theorem fours_unique {r t t' : List Char} (h : Fours r t) (h' : Fours r t') : t = t' := by
  induction h generalizing t' with
  | last r h =>
    cases h' with
    | last => rfl
    | more h1 h2 h3 => simp only [List.length_append, h1] at h; exact absurd (List.length_eq_zero_iff.1 (by omega)) h2
  | @more a r t h1 h2 h3 ih =>
    generalize hq : a ++ r = q at h'
    cases h' with
    | last _ h =>
      rw [← hq, List.length_append, h1] at h
      exact absurd (List.length_eq_zero_iff.1 (by omega)) h2
    | @more b u w k1 k2 k3 =>
      obtain ⟨rfl, rfl⟩ := List.append_inj hq (h1.trans k1.symm)
      rw [ih k3]

/-- The text of the loop over a state. -/
def rowText (i : ℕ) : List Char → List Char
  | [] => []
  | c :: r => (if 0 < i ∧ i % 4 = 0 then [' '] else []) ++ c :: rowText (i + 1) r

theorem rowText_period (r : List Char) (i : ℕ) (h : 0 < i) : rowText (i + 4) r = rowText i r := by
  induction r generalizing i with
  | nil => rfl
  | cons c r ih =>
    unfold rowText
    rw [show i + 4 + 1 = (i + 1) + 4 from by omega, ih (i + 1) (by omega)]
    have e : (0 < i + 4 ∧ (i + 4) % 4 = 0) ↔ (0 < i ∧ i % 4 = 0) := by omega
    simp only [e]

theorem rowText_fours : (r : List Char) → Fours r (rowText 0 r)
  | [] => .last _ (by simp)
  | [a] => .last _ (by simp)
  | [a, b] => .last _ (by simp)
  | [a, b, c] => .last _ (by simp)
  | [a, b, c, d] => .last _ (by simp)
  | a :: b :: c :: d :: e :: r => by
    have h := Fours.more (a := [a, b, c, d]) rfl (List.cons_ne_nil e r) (rowText_fours (e :: r))
    have e1 : rowText 5 r = rowText 1 r := rowText_period r 1 (by omega)
    have e2 : rowText 0 (a :: b :: c :: d :: e :: r) = [a, b, c, d] ++ ' ' :: rowText 0 (e :: r) := by
      simp [rowText, e1]
    rw [e2]
    exact h

theorem rowCmds_writes (timed : Bool) (v : List Bool) (i : ℕ) :
    ∃ ts, List.Forall₂ (Writes timed) (rowCmds i (v.map Bool.toNat)) ts ∧
      ts.flatten = rowText i (v.map fun b => if b then '1' else '0') := by
  induction v generalizing i with
  | nil => exact ⟨[], .nil, rfl⟩
  | cons b v ih =>
    obtain ⟨ts, h1, h2⟩ := ih (i + 1)
    have hb : Writes timed (.raw ['%', 'd'] [.int (b.toNat : ℤ)]) [if b then '1' else '0'] := by
      have : Printf ['%', 'd'] [.int (b.toNat : ℤ)] (printInt (b.toNat : ℤ) ++ []) := .int _ .nil
      cases b <;> exact .raw this
    by_cases hc : 0 < i ∧ i % 4 = 0
    · refine ⟨[' '] :: [if b then '1' else '0'] :: ts, ?_, ?_⟩
      · simp only [List.map_cons, rowCmds, if_pos hc]
        exact .cons (.raw (.char (by decide) .nil)) (.cons hb h1)
      · simp only [List.map_cons, rowText, if_pos hc, List.flatten_cons, h2]; rfl
    · refine ⟨[if b then '1' else '0'] :: ts, ?_, ?_⟩
      · simp only [List.map_cons, rowCmds, if_neg hc]
        exact .cons hb h1
      · simp only [List.map_cons, rowText, if_neg hc, List.flatten_cons, h2]; rfl

theorem writes_append {timed : Bool} {a b : List LogCmd} {ts us : List (List Char)} (h : List.Forall₂ (Writes timed) a ts)
    (h' : List.Forall₂ (Writes timed) b us) : List.Forall₂ (Writes timed) (a ++ b) (ts ++ us) := by
  induction h with
  | nil => exact h'
  | cons h1 _ ih => exact .cons h1 ih

theorem stateVec_bits {ne ns : ℕ} (s : BState ne ns) : stateVec s = (List.ofFn s.1 ++ List.ofFn s.2).map Bool.toNat := by
  unfold stateVec vec
  rw [List.map_append, List.map_ofFn, List.map_ofFn]
  rfl

theorem stateCmds_writes {ne ns : ℕ} (x : Option (List Char)) (s : BState ne ns) :
    ∃ ts l, List.Forall₂ (Writes false) (stateCmds x (stateVec s)) ts ∧ Fours (bitChars s) l ∧ ts.flatten = l ++ ['\n'] := by
  obtain ⟨ts, h1, h2⟩ := rowCmds_writes false (List.ofFn s.1 ++ List.ofFn s.2) 0
  have h0 : Writes false (.start x) [] := by
    cases x with
    | none => exact .quiet rfl
    | some y => exact .start y
  refine ⟨_, _, .cons h0 (writes_append (stateVec_bits s ▸ h1) (.cons .stop .nil)), rowText_fours _, ?_⟩
  simp only [List.flatten_cons, List.flatten_append, h2, List.flatten_nil, bitChars]
  simp

theorem statesCmds_writes {ne ns : ℕ} (x : Option (List Char)) (ls : List (BState ne ns)) :
    ∃ ts us, List.Forall₂ (Writes false) ((ls.map stateVec).flatMap (stateCmds x)) ts ∧
      List.Forall₂ (fun s l => Fours (bitChars s) l) ls us ∧ ts.flatten = us.flatMap (· ++ ['\n']) := by
  induction ls with
  | nil => exact ⟨[], [], .nil, .nil, rfl⟩
  | cons s ls ih =>
    obtain ⟨ts, us, h1, h2, h3⟩ := ih
    obtain ⟨ts', l, k1, k2, k3⟩ := stateCmds_writes x s
    exact ⟨ts' ++ ts, l :: us, writes_append k1 h1, .cons k2 h2, by simp [k3, h3]⟩

/-- Calls with the log set to an open stream. -/
theorem logOn_writes {σ : LogSt} {k : ℕ} (hk : k ∈ σ.live) {cs : List LogCmd} {ts : List (List Char)}
    (h : List.Forall₂ (Writes false) cs ts) :
    ∃ τ, logOn (some k) cs σ = .ok τ ∧ τ.text = (σ.more k ts.flatten).text ∧ τ.live = σ.live ∧ τ.opt = σ.opt ∧
      τ.fp = some (σ.fp.getD 0) := by
  have ho : (setLogOpt 1 (setLogStream (some k) σ)).Open k := ⟨rfl, hk⟩
  unfold logOn
  simp only [log_run ho (h : List.Forall₂ (Writes (setLogOpt 1 (setLogStream (some k) σ)).timed) cs ts), LogRes.bind]
  exact ⟨_, rfl, rfl, rfl, rfl, rfl⟩

/-- **C67.** `print_support` with a stream lists the states of the set on that stream: each one once, on a line of its own, as bits in
groups of four. Nothing else is written, and the options of the log are as before. The log is the stream it was before, or `stdout`
if there was none. -/
theorem print_support_lists {ne ns : ℕ} (stamp : Option (List Char)) (A : Finset (BState ne ns)) (cs : List (CubeArr (2 * (ne + ns))))
    (hc : IsCover (bddOf A) cs) {σ : LogSt} {k : ℕ} (hk : k ∈ σ.live) :
    ∃ τ t, printSupport stamp (ne + ns) cs (some k) σ = .ok τ ∧ ListsStates t (· ∈ A) ∧ τ.text = (σ.more k t).text ∧ τ.live = σ.live ∧
      τ.opt = σ.opt ∧ τ.fp = some (σ.fp.getD 0) := by
  obtain ⟨ls, h1, h2, h3⟩ := bounds_state_visits A cs hc
  obtain ⟨ts, us, k1, k2, k3⟩ := statesCmds_writes stamp ls
  obtain ⟨τ, e1, e2, e3⟩ := logOn_writes hk k1
  refine ⟨τ, ts.flatten, ?_, ⟨ls, us, h2, h3, k2, k3⟩, e2, e3⟩
  unfold printSupport
  rw [h1]
  exact e1

/-- A state in which the environment cannot move is won by the system. -/
theorem winnable_dead {E S : Type} [Fintype E] [DecidableEq E] [Fintype S] [DecidableEq S] {G : Game E S}
    {egs sgs : List (Finset (E × S))} {s : E × S} (h : ∀ e, G.etr s e = false) : Winnable G egs sgs s := by
  have key : ∀ σ : Strategy E S, ∀ l, Consistent G σ s l → l = [s] := by
    intro σ l hl
    induction hl with
    | start => rfl
    | step _ h2 _ ih =>
      cases ih
      rw [h] at h2
      cases h2
  refine ⟨fun _ _ => none, fun t l hl e he => ?_, fun π hπ => ?_⟩
  · cases key _ _ hl
    rw [h] at he
    cases he
  · have := key _ _ (hπ 1)
    simp [pref] at this

/-- **C67, `printwin`.** On a file that can be read and says a specification with `GoodSpec`: if it is realizable, `printwin` ends with
status 0 and has listed on `stdout` bit vectors, each once. Among the encodings of states, those of the winning states are listed and no
others. Vectors whose environment part encodes no values are all listed, although they are no states (so `printwin` lists more than the
winning set when the number of values of an environment variable is no power of two). -/
theorem printwin_lists {w : World} (stamp : Option (List Char)) {f : Arg} (rest : List Arg) {text : List Char} {d : FileData}
    (hf : w.file f = some text) (hs : FileSays text d) (hg : GoodSpec d .allEnvExistSys) (hc : ∀ N b, IsCover b (w.cover N b))
    {σ : LogSt} (h0 : 0 ∈ σ.live) (hr : SpecRealizable d.evars d.svars .allEnvExistSys d.sp) :
    ∃ (τ : LogSt) (t : List Char) (A : XState d.evars d.svars → Prop), pwinMain w stamp (f :: rest) σ = .exit 0 τ ∧
      τ.text = (σ.more 0 t).text ∧ ListsStates t A ∧
      (∀ s : IState d.evars d.svars, A (encState s) ↔
        Winnable (intGame d.evars d.svars d.sp) (d.sp.egoals.map fmStates) ((sysGoals d.sp).map fmStates) s) ∧
      (∀ s', (∀ e, encVal d.evars e ≠ s'.1) → A s') := by
  obtain ⟨B, h3, h4, h5⟩ := front_exact hs.parsed.2.1 hs.parsed.2.2 hg.fresh _ _ hg.typed hg.scope hg.noNe0
  obtain ⟨r, c1, c2, c3⟩ := h5.verdict h4
  obtain ⟨W, rfl⟩ := Option.ne_none_iff_exists'.1 (c2.2 hr)
  obtain ⟨τ, t, e1, e2, e3, -⟩ := print_support_lists stamp W _ (hc _ (bddOf W)) h0
  refine ⟨τ, t, (· ∈ W), ?_, e3, e2, c3 W rfl, fun s' hs' => ?_⟩
  · have h3' : frontEnd d.toP.ev d.toP.sv .allEnvExistSys d.toP.sp = _ := h3
    unfold pwinMain
    simp only [hf, hs.parsed.1]
    unfold pwinParsed
    simp only [h3', c1, e1]
    rfl
  · refine ((check_realizable_char _ _ _ _ _ _ _ c1).2 W rfl s').2 (winnable_dead fun e => ?_)
    by_contra hne
    obtain ⟨e', he'⟩ := h5.domE s' e (by simpa using hne)
    exact hs' e' he'

/-- **C67, `printwin`, unrealizable.** Otherwise a NULL pointer is passed to `Cudd_ForeachCube`. -/
theorem printwin_unrealizable {w : World} (stamp : Option (List Char)) {f : Arg} (rest : List Arg) {text : List Char} {d : FileData}
    (hf : w.file f = some text) (hs : FileSays text d) (hg : GoodSpec d .allEnvExistSys) (σ : LogSt)
    (hr : ¬ SpecRealizable d.evars d.svars .allEnvExistSys d.sp) : pwinMain w stamp (f :: rest) σ = .nullSet := by
  obtain ⟨B, h3, h4, h5⟩ := front_exact hs.parsed.2.1 hs.parsed.2.2 hg.fresh _ _ hg.typed hg.scope hg.noNe0
  obtain ⟨r, c1, c2, -⟩ := h5.verdict h4
  have : r = none := by by_contra hn; exact hr (c2.1 hn)
  subst this
  have h3' : frontEnd d.toP.ev d.toP.sv .allEnvExistSys d.toP.sp = _ := h3
  unfold pwinMain
  simp only [hf, hs.parsed.1]
  unfold pwinParsed
  simp only [h3', c1]

/-- **C67, `printwin`, refusals.** Without an argument the usage is written and the status is 0; a file that cannot be read gives
status -1; a text that the parser rejects, or formulas in the wrong place, give status 2. Nothing is written to the log then. -/
theorem printwin_refuses (w : World) (stamp : Option (List Char)) (σ : LogSt) :
    (0 ∈ σ.live → pwinMain w stamp [] σ = .exit 0 (σ.more 0 "Usage: printwin FILE\n".toList)) ∧
    (∀ f rest, w.file f = none → pwinMain w stamp (f :: rest) σ = .exit (-1) σ) ∧
    (∀ f rest text, w.file f = some text → parseFile false text = none → pwinMain w stamp (f :: rest) σ = .exit 2 σ) ∧
    (∀ f rest text d, w.file f = some text → FileSays text d → ¬ WellScoped d.evars d.svars .allEnvExistSys d.sp →
      pwinMain w stamp (f :: rest) σ = .exit 2 σ) := by
  refine ⟨fun h => ?_, fun f rest h => ?_, fun f rest text h h' => ?_, fun f rest text d h hs hw => ?_⟩
  · unfold pwinMain
    rw [put_more h]
    rfl
  · unfold pwinMain
    simp only [h]
  · unfold pwinMain
    simp only [h, h']
  · unfold pwinMain
    simp only [h, hs.parsed.1]
    unfold pwinParsed
    have e : frontEnd d.toP.ev d.toP.sv .allEnvExistSys d.toP.sp = .formError := by
      have := (check_form_exact d.evars d.svars .allEnvExistSys d.sp).2 hw
      refine (frontEnd_formError _ _ _ _).2 ?_
      exact lt_of_eq_of_lt this (by decide)
    simp only [e]

/-- **C67, no log.** Without a stream and without a log, a state to be listed makes `print_support` use a NULL pointer. -/
theorem print_support_null {ne ns : ℕ} (stamp : Option (List Char)) (A : Finset (BState ne ns)) (cs : List (CubeArr (2 * (ne + ns))))
    (hc : IsCover (bddOf A) cs) (hA : A.Nonempty) {σ : LogSt} (hσ : σ.fp = none) (h1 : 1 ∈ σ.live) :
    printSupport stamp (ne + ns) cs none σ = .ub := by
  obtain ⟨ls, k1, -, k3⟩ := bounds_state_visits A cs hc
  obtain ⟨s, hs⟩ := hA
  have hne : ls ≠ [] := List.ne_nil_of_mem ((k3 s).2 hs)
  obtain ⟨a, l, rfl⟩ := List.exists_cons_of_ne_nil hne
  have key : ∀ (cs ds : List LogCmd) (ρ : LogSt), ρ.fp = none → 1 ∈ ρ.live → (∀ c ∈ cs, ∃ f as, c = .raw f as) →
      logRun (cs ++ .stop :: ds) ρ = .ub := by
    intro cs
    induction cs with
    | nil => intro ds ρ h h' _; simp [logRun, logStep, logEndLine, h, LogRes.bind]
    | cons c cs ih =>
      intro ds ρ h h' hall
      obtain ⟨f, as, rfl⟩ := hall c List.mem_cons_self
      rw [List.cons_append, logRun]
      simp only [logStep, logRaw, h, put_more h', LogRes.bind]
      exact ih ds _ h h' fun c hc => hall c (List.mem_cons_of_mem _ hc)
  have hraw : ∀ (v : List ℕ) (i : ℕ), ∀ c ∈ rowCmds i v, ∃ f as, c = LogCmd.raw f as := by
    intro v
    induction v with
    | nil => intro i c hc; cases hc
    | cons x v ih =>
      intro i c hc
      simp only [rowCmds, List.mem_append, List.mem_cons] at hc
      rcases hc with hc | rfl | hc
      · split at hc
        · rw [List.mem_singleton] at hc
          exact ⟨_, _, hc⟩
        · cases hc
      · exact ⟨_, _, rfl⟩
      · exact ih _ c hc
  unfold printSupport
  rw [k1]
  simp only [logOn, List.map_cons, List.flatMap_cons, stateCmds, List.cons_append, logRun, logStep, logStartLine, hσ, put_more h1,
    LogRes.bind, List.append_assoc]
  exact key _ _ (σ.more 1 noLogText) hσ h1 (hraw _ _)

/-! ## `print_GR1_spec`: specification -/

/-- Formulas under one operator, or a remark that there are none. -/
def underOp (op : String) (fs : List (List Char)) : List Char :=
  if fs = [] then "(none)".toList else op.toList ++ " ".toList ++ List.intercalate (" & ".toList ++ op.toList ++ " ".toList) fs

/-- The lines to be written for a specification with these texts of variables and formulas. -/
def specLines (ev sv : List (List Char)) (ei si : Option (List Char)) (et st eg sg : List (List Char)) : List (List Char) :=
  ["ENV:".toList ++ ev.flatMap (' ' :: ·) ++ ";".toList,
   "SYS:".toList ++ sv.flatMap (' ' :: ·) ++ ";".toList,
   "ENV INIT:  ".toList ++ ei.getD [] ++ ";".toList,
   "SYS INIT:  ".toList ++ si.getD [] ++ ";".toList,
   "ENV TRANS:  ".toList ++ underOp "[]" et ++ ";".toList,
   "SYS TRANS:  ".toList ++ underOp "[]" st ++ ";".toList,
   "ENV GOALS:  ".toList ++ underOp "[]<>" eg ++ ";".toList,
   "SYS GOALS:  ".toList ++ underOp "[]<>" sg ++ ";".toList]

/-! ## Proofs -/

theorem nameCmds_writes (ds : Decls) : ∃ ts, List.Forall₂ (Writes false) (nameCmds ds.tree) ts ∧
    ts.flatten = (ds.map Prod.fst).flatMap (' ' :: ·) := by
  induction ds with
  | nil => exact ⟨[], .nil, rfl⟩
  | cons d ds ih =>
    obtain ⟨ts, h1, h2⟩ := ih
    refine ⟨(' ' :: (d.1 ++ [])) :: ts, .cons (.raw (.char (by decide) (.str _ .nil))) h1, ?_⟩
    simp [h2]

theorem formulaCmd_writes (f : Fm) : Writes false (formulaCmd f.toTree) (printFormula false f.toTree ++ []) := .raw (.str _ .nil)

theorem raw_writes {t : List Char} (h : '%' ∉ t) : Writes false (.raw t []) t := .raw (printf_plain t h)

theorem initCmds_writes (f : Option Fm) : ∃ ts, List.Forall₂ (Writes false) (initCmds (optTree f)) ts ∧
    ts.flatten = (f.map fun g => printFormula false g.toTree).getD [] := by
  cases f with
  | none => exact ⟨[], .nil, rfl⟩
  | some g =>
    refine ⟨[printFormula false g.toTree ++ []], ?_, by simp⟩
    have hg : ∃ ty nm v l r, g.toTree = .node ty nm v l r := by cases g <;> exact ⟨_, _, _, _, _, rfl⟩
    obtain ⟨ty, nm, v, l, r, e⟩ := hg
    have := formulaCmd_writes g
    rw [e] at this
    simp only [optTree, e, initCmds]
    exact .cons this .nil

theorem listCmds_writes (op : String) (hop : '%' ∉ op.toList) (fs : List Fm) :
    ∃ ts, List.Forall₂ (Writes false) (listCmds op.toList (fs.map Fm.toTree)) ts ∧
      ts.flatten = underOp op (fs.map fun f => printFormula false f.toTree) := by
  cases fs with
  | nil => exact ⟨_, .cons (raw_writes (by decide)) .nil, by simp [underOp]⟩
  | cons f fs =>
    have key : ∃ ts, List.Forall₂ (Writes false) ((fs.map Fm.toTree).flatMap fun g =>
        [LogCmd.raw (" & ".toList ++ op.toList ++ [' ']) [], formulaCmd g]) ts ∧
        ts.flatten = fs.flatMap fun f => (" & ".toList ++ op.toList ++ [' ']) ++ printFormula false f.toTree := by
      induction fs with
      | nil => exact ⟨[], .nil, rfl⟩
      | cons g fs ih =>
        obtain ⟨ts, h1, h2⟩ := ih
        refine ⟨_, .cons (raw_writes ?_) (.cons (formulaCmd_writes g) h1), ?_⟩
        · simp [hop]
        · simp [h2]
    obtain ⟨ts, h1, h2⟩ := key
    refine ⟨_, .cons (raw_writes (by simp [hop])) (.cons (formulaCmd_writes f) h1), ?_⟩
    have h3 : ∀ (sep x : List Char) (l : List (List Char)), List.intercalate sep (x :: l) = x ++ l.flatMap (sep ++ ·) := by
      intro sep x l
      induction l generalizing x with
      | nil => simp [List.intercalate]
      | cons y l ih =>
        have := ih y
        simp only [List.intercalate] at this ⊢
        simp [List.intersperse, this]
    simp only [underOp, List.map_cons, List.cons_ne_nil, if_false, h3, List.flatten_cons, h2, List.flatMap_map]
    simp

theorem lineCmds_writes (x : Option (List Char)) (head : String) (hh : '%' ∉ head.toList) {cs : List LogCmd} {b : List Char}
    (h : ∃ ts, List.Forall₂ (Writes false) cs ts ∧ ts.flatten = b) :
    ∃ ts, List.Forall₂ (Writes false) (lineCmds x head.toList cs) ts ∧ ts.flatten = head.toList ++ b ++ ";".toList ++ ['\n'] := by
  obtain ⟨ts, h1, rfl⟩ := h
  have h0 : Writes false (.start x) [] := by
    cases x with
    | none => exact .quiet rfl
    | some y => exact .start y
  exact ⟨_, .cons h0 (.cons (raw_writes hh) (writes_append h1 (.cons (raw_writes (by decide)) (.cons .stop .nil)))), by simp⟩

theorem cmds_append {a b : List LogCmd} {t u : List Char} (h : ∃ ts, List.Forall₂ (Writes false) a ts ∧ ts.flatten = t)
    (h' : ∃ ts, List.Forall₂ (Writes false) b ts ∧ ts.flatten = u) :
    ∃ ts, List.Forall₂ (Writes false) (a ++ b) ts ∧ ts.flatten = t ++ u := by
  obtain ⟨ts, h1, rfl⟩ := h
  obtain ⟨us, h2, rfl⟩ := h'
  exact ⟨ts ++ us, writes_append h1 h2, by simp⟩

/-- **C68.** `print_GR1_spec` with a stream writes the eight lines to it and nothing else anywhere; options and stream of the log are as
before, except that `stdout` is the log afterwards if there was none. -/
theorem print_spec_lines (stamp : Option (List Char)) (ev sv : Decls) (sp : FSpec) {σ : LogSt} {k : ℕ} (hk : k ∈ σ.live) :
    ∃ τ, printGr1Spec stamp ev.tree sv.tree sp.toT (some k) σ = .ok τ ∧ τ.text = (σ.more k
        ((specLines (ev.map Prod.fst) (sv.map Prod.fst) (sp.einit.map fun f => printFormula false f.toTree)
          (sp.sinit.map fun f => printFormula false f.toTree) (sp.etrans.map fun f => printFormula false f.toTree)
          (sp.strans.map fun f => printFormula false f.toTree) (sp.egoals.map fun f => printFormula false f.toTree)
          (sp.sgoals.map fun f => printFormula false f.toTree)).flatMap (· ++ ['\n']))).text ∧
      τ.live = σ.live ∧ τ.opt = σ.opt ∧ τ.fp = some (σ.fp.getD 0) := by
  have h := cmds_append (cmds_append (cmds_append (cmds_append (cmds_append (cmds_append (cmds_append
    (lineCmds_writes stamp "ENV:" (by decide) (nameCmds_writes ev)) (lineCmds_writes stamp "SYS:" (by decide) (nameCmds_writes sv)))
    (lineCmds_writes stamp "ENV INIT:  " (by decide) (initCmds_writes sp.einit)))
    (lineCmds_writes stamp "SYS INIT:  " (by decide) (initCmds_writes sp.sinit)))
    (lineCmds_writes stamp "ENV TRANS:  " (by decide) (listCmds_writes "[]" (by decide) sp.etrans)))
    (lineCmds_writes stamp "SYS TRANS:  " (by decide) (listCmds_writes "[]" (by decide) sp.strans)))
    (lineCmds_writes stamp "ENV GOALS:  " (by decide) (listCmds_writes "[]<>" (by decide) sp.egoals)))
    (lineCmds_writes stamp "SYS GOALS:  " (by decide) (listCmds_writes "[]<>" (by decide) sp.sgoals))
  obtain ⟨ts, h1, h2⟩ := h
  obtain ⟨τ, e1, e2, e3⟩ := logOn_writes hk h1
  refine ⟨τ, e1, ?_, e3⟩
  rw [e2, h2]
  unfold specLines
  simp only [List.flatMap_cons, List.flatMap_nil, List.append_nil, List.append_assoc]

end Gr1c
