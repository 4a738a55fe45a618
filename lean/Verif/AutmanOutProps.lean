import Verif.AutmanOut
import Verif.StdoutMain
import Verif.AutmanEx

/-!
# C77: what `gr1c-autman` prints
-/

namespace Gr1c

/-! ## Specification -/

/-- The verbosity that counts: a log file makes it at least 1. -/
def AmCfg.loud (c : AmCfg) : ℕ := if c.logging then max 1 c.verbose else c.verbose

/-- The notes of a complete run, each with the verbosity that it needs: `v` is the verbosity, `len` the length of state vectors, `ver` the
version of the format, `size` the number of nodes. -/
def amNotes (c : AmCfg) (len ver : ℤ) (size : ℕ) : List (ℕ × List Char) :=
  [(1, "Running with verbosity level ".toList ++ printInt c.loud ++ ".".toList)] ++
  (match c.spc with
   | none => []
   | some f => [(2, "Using file \"".toList ++ f ++ "\" for reference specification.".toList),
       (1, "Parsing reference specification file...".toList), (1, "Done.".toList),
       (1, "Detected state vector length of ".toList ++ printInt len ++ ".".toList)]) ++
  [(2, match c.input with
     | none => "Using stdin for input.".toList
     | some f => "Using file \"".toList ++ f ++ "\" for input.".toList),
   (2, "Loading automaton...".toList), (2, "Done.".toList),
   (1, "Detected format version ".toList ++ printInt ver ++ ".".toList),
   (1, "Given automaton has size ".toList ++ printInt size ++ ".".toList)]

/-- The lines for a verbosity, each after the text `pre`. -/
def noteLines (pre : List Char) (v : ℕ) (ns : List (ℕ × List Char)) : List Char :=
  ns.flatMap fun n => if n.1 ≤ v then pre ++ n.2 ++ ['\n'] else []

/-- The streams when `main` begins: no log, standard output can be written; the log file, if there is to be one, can be opened. -/
structure AmReady (X : Screen) (c : AmCfg) (σ : LogSt) (k : ℕ) (time : List Char) : Prop where
  noLog : σ.fp = none
  timed : σ.opt = 0
  live : 0 ∈ σ.live
  stamp : X.stamp = some time
  short : ("gr1c-".toList ++ printInt X.pid ++ X.day).length < 256
  opens : c.logging = true → X.openLog ("gr1c-".toList ++ printInt X.pid ++ X.day) = some k ∧ k ≠ 0

/-- What standard output has more than before is: the notes, unless they are in a log file, and then `out`; a log file has the notes, with
the time. -/
def AmTells (c : AmCfg) (σ : LogSt) (k : ℕ) (time : List Char) (ns : List (ℕ × List Char)) (out : List Char) (r : ScrRes) : Prop :=
  ∃ τ, r = .done τ ∧ τ.text 0 = σ.text 0 ++ (if c.logging then [] else noteLines [] c.loud ns) ++ out ∧
    (c.logging = true → τ.text k = σ.text k ++ noteLines (time ++ [' ']) c.loud ns)

/-! ## Proofs -/

/-- Notes so far, while the log is the stream `L`. -/
structure AmSofar (c : AmCfg) (σ : LogSt) (k : ℕ) (time : List Char) (ns : List (ℕ × List Char)) (L : ℕ) (τ : LogSt) : Prop where
  log : L = if c.logging then k else 0
  apart : c.logging = true → k ≠ 0
  op : τ.Open L
  live : 0 ∈ τ.live
  timed : τ.timed = c.logging
  screen : τ.text 0 = σ.text 0 ++ (if c.logging then [] else noteLines [] c.loud ns)
  file : c.logging = true → τ.text k = σ.text k ++ noteLines (time ++ [' ']) c.loud ns

theorem noteLines_append (pre : List Char) (v : ℕ) (a b : List (ℕ × List Char)) :
    noteLines pre v (a ++ b) = noteLines pre v a ++ noteLines pre v b := List.flatMap_append

theorem noteLines_one (pre : List Char) (v n : ℕ) (t : List Char) :
    noteLines pre v [(n, t)] = if n ≤ v then pre ++ t ++ ['\n'] else [] := by simp [noteLines]

section
variable {X : Screen} {c : AmCfg} {σ τ : LogSt} {k L : ℕ} {time : List Char} {ns : List (ℕ × List Char)}

theorem AmSofar.say (h : AmSofar c σ k time ns L τ) (hs : X.stamp = some time) {n : ℕ} {fmt : String} {as : List LogArg} {t : List Char}
    (hp : Printf fmt.toList as t) : ∃ τ', sayAt X n c.loud fmt as τ = .ok τ' ∧ AmSofar c σ k time (ns ++ [(n + 1, t)]) L τ' := by
  obtain ⟨h1, h2, h3, h4, h5, h6, h7⟩ := h
  unfold sayAt
  by_cases hv : n < c.loud
  · have e : logStep (.print (some time) fmt.toList as) τ = _ := log_step h3 (.print time hp)
    have hn : n + 1 ≤ c.loud := hv
    rw [if_pos hv, hs]
    refine ⟨_, e, h1, h2, h3, h4, h5, ?_, fun hl => ?_⟩
    · by_cases hl : c.logging = true
      · have : ¬ (0 : ℕ) = L := by rw [h1, if_pos hl]; exact fun e => h2 hl e.symm
        simp [LogSt.more, this, h6, hl]
      · have hf : c.logging = false := by simpa using hl
        have hL : L = 0 := by rw [h1, if_neg hl]
        simp [LogSt.more, hL, h6, hf, noteLines_append, noteLines_one, hn, h5]
    · have hL : L = k := by rw [h1, if_pos hl]
      simp [LogSt.more, hL, h7 hl, h5, hl, noteLines_append, noteLines_one, hn]
  · have hn : ¬ n + 1 ≤ c.loud := hv
    rw [if_neg hv]
    refine ⟨_, rfl, h1, h2, h3, h4, h5, ?_, fun hl => ?_⟩
    · rw [h6, noteLines_append, noteLines_one, if_neg hn, List.append_nil]
    · rw [h7 hl, noteLines_append, noteLines_one, if_neg hn, List.append_nil]

theorem AmSofar.says (h : AmSofar c σ k time ns L τ) : AmTells c σ k time ns [] (.done τ) := ⟨τ, rfl, by rw [h.screen]; simp, h.file⟩

theorem AmSofar.put (h : AmSofar c σ k time ns L τ) (t : List Char) : AmTells c σ k time ns t ((τ.put 0 t).scr .done) := by
  refine ⟨_, by rw [put_more h.live t]; rfl, ?_, fun hl => ?_⟩
  · simp [LogSt.more, h.screen]
  · simp [LogSt.more, h.apart hl, h.file hl]

theorem am_start (h : AmReady X c σ k time) : ∃ τ L, amStart X c σ = .ok (τ, c.loud) ∧ AmSofar c σ k time [] L τ := by
  unfold amStart AmCfg.loud
  by_cases hl : c.logging = true
  · have hs := h.short
    rw [List.length_append] at hs
    obtain ⟨ho, h0⟩ := h.opens hl
    rw [if_pos hl, if_pos hl]
    refine ⟨{ σ with name := ("gr1c-".toList ++ printInt X.pid) ++ X.day, fp := some k, live := k :: σ.live }, k, ?_, by simp [hl], fun _ => h0,
      ⟨rfl, List.mem_cons_self⟩, List.mem_cons_of_mem _ h.live, ?_, by simp [hl], fun _ => by simp [noteLines]⟩
    · unfold openLogFile
      rw [show logPrefix X.pid none = "gr1c-".toList ++ printInt X.pid from rfl, if_neg (by omega)]
      unfold closeLogFile
      simp only [h.noLog, LogRes.bind, ho]
      have : (if c.verbose = 0 then 1 else c.verbose) = max 1 c.verbose := by split <;> omega
      rw [this]
    · simp [LogSt.timed, h.timed, hl]
  · rw [if_neg hl, if_neg hl]
    refine ⟨_, 0, rfl, by simp [hl], fun a => absurd a hl, ⟨rfl, h.live⟩, h.live, ?_, by simp [setLogOpt, setLogStream, noteLines],
      fun a => absurd a hl⟩
    simp only [LogSt.timed, setLogOpt]
    simpa using hl

/-- Formats of the notes. -/
theorem printf_mid {a b : String} {x : LogArg} {t : List Char} {m : Char} (hm : ∀ {f as t'}, Printf f as t' → Printf ('%' :: m :: f) (x :: as) (t ++ t'))
    (ha : '%' ∉ a.toList) (hb : '%' ∉ b.toList) {fmt : List Char} (e : fmt = a.toList ++ '%' :: m :: b.toList) :
    Printf fmt [x] (a.toList ++ t ++ b.toList) := by
  subst e
  rw [List.append_assoc]
  exact printf_append (as := []) (printf_plain _ ha) (hm (printf_plain _ hb))

theorem pf_running (v : ℤ) : Printf "Running with verbosity level %d.".toList [.int v] ("Running with verbosity level ".toList ++ printInt v ++ ".".toList) :=
  printf_mid (m := 'd') (Printf.int v) (by decide +kernel) (by decide +kernel) (by decide +kernel)

theorem pf_len (v : ℤ) : Printf "Detected state vector length of %d.".toList [.int v]
    ("Detected state vector length of ".toList ++ printInt v ++ ".".toList) :=
  printf_mid (m := 'd') (Printf.int v) (by decide +kernel) (by decide +kernel) (by decide +kernel)

theorem pf_ver (v : ℤ) : Printf "Detected format version %d.".toList [.int v] ("Detected format version ".toList ++ printInt v ++ ".".toList) :=
  printf_mid (m := 'd') (Printf.int v) (by decide +kernel) (by decide +kernel) (by decide +kernel)

theorem pf_size (v : ℤ) : Printf "Given automaton has size %d.".toList [.int v] ("Given automaton has size ".toList ++ printInt v ++ ".".toList) :=
  printf_mid (m := 'd') (Printf.int v) (by decide +kernel) (by decide +kernel) (by decide +kernel)

theorem pf_ref (s : List Char) : Printf "Using file \"%s\" for reference specification.".toList [.str s]
    ("Using file \"".toList ++ s ++ "\" for reference specification.".toList) :=
  printf_mid (m := 's') (Printf.str s) (by decide +kernel) (by decide +kernel) (by decide +kernel)

theorem pf_in (s : List Char) : Printf "Using file \"%s\" for input.".toList [.str s] ("Using file \"".toList ++ s ++ "\" for input.".toList) :=
  printf_mid (m := 's') (Printf.str s) (by decide +kernel) (by decide +kernel) (by decide +kernel)

theorem pf_plain {s : String} (h : '%' ∉ s.toList) : Printf s.toList [] s.toList := printf_plain _ h

/-- The notes on the input. -/
def inputNotes (c : AmCfg) : List (ℕ × List Char) :=
  [(2, match c.input with
     | none => "Using stdin for input.".toList
     | some f => "Using file \"".toList ++ f ++ "\" for input.".toList)]

theorem AmSofar.input (h : AmSofar c σ k time ns L τ) (hs : X.stamp = some time) :
    ∃ τ', amSayInput X c c.loud τ = .ok τ' ∧ AmSofar c σ k time (ns ++ inputNotes c) L τ' := by
  unfold amSayInput inputNotes
  cases c.input with
  | none => exact h.say hs (pf_plain (by decide +kernel))
  | some f => exact h.say hs (pf_in f)

/-- From the input to the end. If the result is printed, all notes were; otherwise nothing but notes. -/
theorem AmSofar.work {w : AmWorld} (h : AmSofar c σ k time ns L τ) (hs : X.stamp = some time) {len : ℤ} {p : PState} {s : ℤ}
    {out : List Char} {fl : Option (Arg × List Char)} (hr : amWork w c len p = .exit s out fl) :
    (∃ text l ver, amSource w c = some text ∧ loadVer len text = .ok l ver ∧
      AmTells c σ k time (ns ++ inputNotes c ++ [(2, "Loading automaton...".toList), (2, "Done.".toList),
        (1, "Detected format version ".toList ++ printInt ver ++ ".".toList),
        (1, "Given automaton has size ".toList ++ printInt l.length ++ ".".toList)]) out (amScrWork X w c c.loud len p τ)) ∨
    (s ≠ 0 ∧ out = [] ∧ ∃ ns', (∀ (ver : ℤ) (size : ℕ), ns' <+: ns ++ inputNotes c ++ [(2, "Loading automaton...".toList), (2, "Done.".toList),
        (1, "Detected format version ".toList ++ printInt ver ++ ".".toList),
        (1, "Given automaton has size ".toList ++ printInt size ++ ".".toList)]) ∧
      AmTells c σ k time ns' [] (amScrWork X w c c.loud len p τ)) := by
  obtain ⟨τ1, e1, h1⟩ := h.input hs
  have hr0 := hr
  unfold amScrWork
  rw [e1]
  simp only [LogRes.scr]
  unfold amWork at hr
  cases ht : amSource w c with
  | none =>
    simp only [ht, AmRes.exit.injEq] at hr
    exact .inr ⟨by rw [← hr.1]; decide, hr.2.1.symm, _, fun _ _ => ⟨_, rfl⟩, h1.says⟩
  | some text =>
    simp only [ht] at hr ⊢
    obtain ⟨τ2, e2, h2⟩ := h1.say (n := 1) hs (pf_plain (s := "Loading automaton...") (by decide +kernel))
    rw [e2]
    simp only
    cases hl : loadVer len text with
    | ub => simp only [hl] at hr; cases hr
    | null =>
      simp only [hl, AmRes.exit.injEq] at hr
      exact .inr ⟨by rw [← hr.1]; decide, hr.2.1.symm, _, fun _ _ => ⟨_, by rw [List.append_assoc _ [_]]; rfl⟩, h2.says⟩
    | ok l ver =>
      obtain ⟨τ3, e3, h3⟩ := h2.say (n := 1) hs (pf_plain (s := "Done.") (by decide +kernel))
      obtain ⟨τ4, e4, h4⟩ := h3.say (n := 0) hs (pf_ver ver)
      obtain ⟨τ5, e5, h5⟩ := h4.say (n := 0) hs (pf_size l.length)
      refine .inl ⟨text, l, ver, rfl, hl, ?_⟩
      simp only
      unfold amScrLoaded
      rw [e3]; simp only [LogRes.scr]
      rw [e4]; simp only
      rw [e5]; simp only
      unfold amScrPut
      rw [hr0]
      have := h5.put out
      simpa only [List.append_assoc, List.cons_append, List.nil_append, Nat.zero_add] using this

end

section
variable {X : Screen} {w : AmWorld} {args : List Arg} {c : AmCfg} {σ : LogSt} {k : ℕ} {time : List Char}

theorem amWork_ne_two {len : ℤ} {p : PState} {s : ℤ} {out : List Char} {fl : Option (Arg × List Char)}
    (hm : amWork w c len p = .exit s out fl) : s ≠ 2 := by
  rintro rfl
  unfold amWork at hm
  repeat' split at hm
  all_goals first
    | (cases hm; done)
    | (unfold amPut at hm; split at hm <;> cases hm)

theorem amWork_ends {len : ℤ} {p : PState} {s : ℤ} {out : List Char} {fl : Option (Arg × List Char)}
    (hm : amWork w c len p = .exit s out fl) : s ≠ 1 ∧ (s ≠ 0 → out = []) := by
  unfold amWork at hm
  repeat' split at hm
  all_goals first
    | (cases hm; done)
    | (cases hm; exact ⟨by decide, fun h => by first | rfl | exact absurd rfl h⟩)
    | (unfold amPut at hm; split at hm <;> cases hm <;> exact ⟨by decide, fun h => absurd rfl h⟩)

/-- A run up to the end, or until something is missing. -/
theorem am_told (hc : amLoop .default args = .go c) (hX : AmReady X c σ k time) {s : ℤ} {out : List Char} {fl : Option (Arg × List Char)}
    (hm : autmanMain w args = .exit s out fl) :
    (s ≠ 2 ∧ (s ≠ 1 ∧ (s ≠ 0 → out = [])) ∧ ∃ len text l ver, amSource w c = some text ∧ loadVer len text = .ok l ver ∧
      (c.spc = none → len = c.len) ∧ AmTells c σ k time (amNotes c len ver l.length) out (amScrMain X w args σ)) ∨
    (s ≠ 0 ∧ out = [] ∧ ((s = 1 ∧ amScrMain X w args σ = .done σ) ∨ ∃ ns len ver size, s ≠ 1 ∧ ns <+: amNotes c len ver size ∧
      AmTells c σ k time ns (if s = 2 then X.parseText else []) (amScrMain X w args σ))) := by
  unfold autmanMain at hm
  unfold amScrMain
  rw [hc] at hm ⊢
  simp only at hm ⊢
  obtain ⟨τ0, L, e0, h0⟩ := am_start hX
  obtain ⟨τ1, e1, h1⟩ := h0.say (n := 0) hX.stamp (pf_running c.loud)
  cases hsp : c.spc with
  | none =>
    simp only [hsp] at hm
    by_cases hb : c.run = .model ∨ (c.run = .convert ∧ c.format.needsSpec = true) ∨ c.len < 1
    · rw [if_pos hb] at hm
      rw [if_pos ⟨rfl, hb⟩]
      cases hm
      exact .inr ⟨by decide, rfl, .inl ⟨rfl, rfl⟩⟩
    · rw [if_neg hb] at hm
      rw [if_neg (fun h => hb h.2)]
      have e : amScrRun X w c σ = amScrWork X w c c.loud c.len .init τ1 := by
        unfold amScrRun
        rw [e0]; simp only [LogRes.scr]
        rw [e1]; simp only [hsp]
      rw [e]
      rcases h1.work hX.stamp hm with ⟨text, l, ver, a1, a2, a3⟩ | ⟨a1, a2, ns, a4, a3⟩
      · refine .inl ⟨amWork_ne_two hm, amWork_ends hm, c.len, text, l, ver, a1, a2, fun _ => rfl, ?_⟩
        unfold amNotes
        rw [hsp]
        simpa only [inputNotes, List.append_assoc, List.cons_append, List.nil_append, Nat.zero_add] using a3
      · have h2 : s ≠ 2 := amWork_ne_two hm
        refine .inr ⟨a1, a2, .inr ⟨ns, 0, 0, 0, (amWork_ends hm).1, ?_, by rw [if_neg h2]; exact a3⟩⟩
        have := a4 0 0
        unfold amNotes
        rw [hsp]
        simpa only [inputNotes, List.append_assoc, List.cons_append, List.nil_append, Nat.zero_add] using this
  | some f =>
    simp only [hsp] at hm
    rw [if_neg (fun h => by cases h.1)]
    obtain ⟨τ2, e2, h2⟩ := h1.say (n := 1) hX.stamp (pf_ref f)
    cases hf : w.file f with
    | none =>
      simp only [hf, AmRes.exit.injEq] at hm
      have e : amScrRun X w c σ = .done τ2 := by
        unfold amScrRun
        rw [e0]; simp only [LogRes.scr]
        rw [e1]; simp only [hsp]
        rw [e2]; simp only [hf]
      rw [e]
      refine .inr ⟨by rw [← hm.1]; decide, hm.2.1.symm, .inr ⟨_, 0, 0, 0, by rw [← hm.1]; decide, ?_, by rw [← hm.1]; exact h2.says⟩⟩
      unfold amNotes
      rw [hsp]
      simp
    | some text =>
      simp only [hf] at hm
      obtain ⟨τ3, e3, h3⟩ := h2.say (n := 0) hX.stamp (pf_plain (s := "Parsing reference specification file...") (by decide +kernel))
      have e : amScrRun X w c σ = amScrSpec X w c c.loud text τ3 := by
        unfold amScrRun
        rw [e0]; simp only [LogRes.scr]
        rw [e1]; simp only [hsp]
        rw [e2]; simp only [hf]
        rw [e3]
      rw [e]
      unfold amScrSpec
      cases hp : parseFile false text with
      | none =>
        simp only [hp, AmRes.exit.injEq] at hm
        refine .inr ⟨by rw [← hm.1]; decide, hm.2.1.symm, .inr ⟨_, 0, 0, 0, by rw [← hm.1]; decide, ?_, by rw [← hm.1]; exact h3.put _⟩⟩
        unfold amNotes
        rw [hsp]
        simp
      | some p =>
        simp only [hp] at hm ⊢
        obtain ⟨τ4, e4, h4⟩ := h3.say (n := 0) hX.stamp (pf_plain (s := "Done.") (by decide +kernel))
        obtain ⟨τ5, e5, h5⟩ := h4.say (n := 0) hX.stamp (pf_len ((varListOf p.ev).length + (varListOf p.sv).length))
        rw [e4]; simp only [LogRes.scr]
        rw [e5]; simp only
        rcases h5.work hX.stamp hm with ⟨text', l, ver, a1, a2, a3⟩ | ⟨a1, a2, ns, a4, a3⟩
        · refine .inl ⟨amWork_ne_two hm, amWork_ends hm, _, text', l, ver, a1, a2, fun h => (by cases h), ?_⟩
          unfold amNotes
          rw [hsp]
          simpa only [inputNotes, List.append_assoc, List.cons_append, List.nil_append, Nat.zero_add] using a3
        · have h2 : s ≠ 2 := amWork_ne_two hm
          refine .inr ⟨a1, a2, .inr ⟨ns, (varListOf p.ev).length + (varListOf p.sv).length, 0, 0, (amWork_ends hm).1, ?_, by rw [if_neg h2]; exact a3⟩⟩
          have := a4 0 0
          unfold amNotes
          rw [hsp]
          simpa only [inputNotes, List.append_assoc, List.cons_append, List.nil_append, Nat.zero_add] using this

/-- Every note needs some verbosity. -/
theorem amNotes_pos {c : AmCfg} {len ver : ℤ} {size : ℕ} {n : ℕ × List Char} (h : n ∈ amNotes c len ver size) : 1 ≤ n.1 := by
  have : ∀ n ∈ amNotes c len ver size, 1 ≤ n.1 := by
    unfold amNotes
    cases c.spc <;> simp only [List.forall_mem_append, List.forall_mem_cons, List.forall_mem_nil, and_true] <;> decide
  exact this n h

end

/-! ## C77 -/

section
variable {X : Screen} {w : AmWorld} {args : List Arg} {os : List AmItem} {σ : LogSt} {k : ℕ} {time : List Char}

/-- **C77.** A run that ends with status 0: standard output has the notes of the verbosity asked for (unless there is a log file, which then
has them, with the time) and after them exactly what a run without `-v` and `-l` prints. -/
theorem autman_stdout (hc : AmItems true os args) (hX : AmReady X (amMeaning os) σ k time) {out : List Char} {fl : Option (Arg × List Char)}
    (hm : autmanMain w args = .exit 0 out fl) :
    ∃ len text l ver, w.given (amMeaning os) = some text ∧ loadVer len text = .ok l ver ∧
      ((amMeaning os).spc = none → len = (amMeaning os).len) ∧ AmTells (amMeaning os) σ k time (amNotes (amMeaning os) len ver l.length) out (amScrMain X w args σ) := by
  rcases am_told (amLoop_go hc) hX hm with ⟨-, -, h⟩ | ⟨h, -⟩
  · exact h
  · exact absurd rfl h

/-- **C77.** Without `-v`, or with the notes in a log file, standard output has the result alone; with status 2, the message of the parser. -/
theorem autman_quiet (hc : AmItems true os args) (hX : AmReady X (amMeaning os) σ k time) (hq : (amMeaning os).verbose = 0 ∨ (amMeaning os).logging = true) {s : ℤ}
    {out : List Char} {fl : Option (Arg × List Char)} (hm : autmanMain w args = .exit s out fl) :
    ∃ τ, amScrMain X w args σ = .done τ ∧ τ.text 0 = σ.text 0 ++ (if s = 2 then X.parseText else out) := by
  have key : ∀ ns len ver size out', ns <+: amNotes (amMeaning os) len ver size → AmTells (amMeaning os) σ k time ns out' (amScrMain X w args σ) →
      ∃ τ, amScrMain X w args σ = .done τ ∧ τ.text 0 = σ.text 0 ++ out' := by
    rintro ns len ver size out' hp ⟨τ, e, t, -⟩
    refine ⟨τ, e, t.trans ?_⟩
    by_cases hl : (amMeaning os).logging = true
    · rw [if_pos hl, List.append_nil]
    · have hv : (amMeaning os).loud = 0 := by unfold AmCfg.loud; rw [if_neg hl]; exact hq.resolve_right hl
      have : noteLines [] (amMeaning os).loud ns = [] := by
        unfold noteLines
        rw [List.flatMap_eq_nil_iff]
        intro n hn
        have := amNotes_pos (hp.subset hn)
        rw [hv, if_neg (by omega)]
      rw [if_neg hl, this, List.append_nil]
  rcases am_told (amLoop_go hc) hX hm with ⟨h2, -, len, text, l, ver, -, -, -, h⟩ | ⟨-, rfl, ⟨rfl, h⟩ | ⟨ns, len, ver, size, -, hp, h⟩⟩
  · rw [if_neg h2]
    exact key _ _ _ _ _ (List.prefix_refl _) h
  · exact ⟨σ, h, by simp⟩
  · exact key _ _ _ _ _ hp h


/-- **C77.** A run that fails prints nothing but notes, in the order of a complete run and up to the failure, and with status 2 the message
of the parser; arguments that do not fit together (status 1) are refused without a note. -/
theorem autman_failed (hc : AmItems true os args) (hX : AmReady X (amMeaning os) σ k time) {s : ℤ}
    {out : List Char} {fl : Option (Arg × List Char)} (hm : autmanMain w args = .exit s out fl) (hs : s ≠ 0) :
    ∃ ns len ver size, ns <+: amNotes (amMeaning os) len ver size ∧ (s = 1 → amScrMain X w args σ = .done σ) ∧
      (s ≠ 1 → AmTells (amMeaning os) σ k time ns (if s = 2 then X.parseText else []) (amScrMain X w args σ)) := by
  rcases am_told (amLoop_go hc) hX hm with ⟨h2, ⟨h1, ho⟩, len, text, l, ver, -, -, -, h⟩ | ⟨-, -, ⟨h1, h⟩ | ⟨ns, len, ver, size, h1, hp, h⟩⟩
  · refine ⟨_, len, ver, l.length, List.prefix_refl _, fun e => absurd e h1, fun _ => ?_⟩
    rw [if_neg h2, ← ho hs]
    exact h
  · exact ⟨[], 0, 0, 0, List.nil_prefix, fun _ => h, fun e => absurd h1 e⟩
  · exact ⟨ns, len, ver, size, hp, fun e => absurd e h1, fun _ => h⟩

/-- Options that are not looked at do not matter. -/
theorem lastIn_filter {α : Type} (f : AmItem → Option α) (d : α) {p : AmItem → Bool} (h : ∀ o, p o = false → f o = none) (os : List AmItem) :
    lastIn f d os = lastIn f d (os.filter p) := by
  unfold lastIn
  have : os.filterMap f = (os.filter p).filterMap f := by
    rw [List.filterMap_filter]
    congr 1
    funext o
    cases hp : p o with
    | true => simp
    | false => simp [h o hp]
  rw [this]

/-- The part of the command line that is not about notes. -/
def AmItem.matters (o : AmItem) : Bool := match o with | .verbose _ | .logging => false | _ => true

theorem amMeaning_matters {os os' : List AmItem} (h : os.filter AmItem.matters = os'.filter AmItem.matters) :
    amMeaning os = { amMeaning os' with verbose := (amMeaning os).verbose, logging := (amMeaning os).logging } := by
  have key : ∀ {α : Type} (f : AmItem → Option α) (d : α), (∀ o, o.matters = false → f o = none) → lastIn f d os = lastIn f d os' := by
    intro α f d hf
    rw [lastIn_filter f d hf os, lastIn_filter f d hf os', h]
  unfold amMeaning
  rw [key AmItem.run? _ (by rintro (_ | _) <;> simp [AmItem.matters, AmItem.run?]),
    key AmItem.format? _ (by rintro (_ | _) <;> simp [AmItem.matters, AmItem.format?]),
    key AmItem.len? _ (by rintro (_ | _) <;> simp [AmItem.matters, AmItem.len?]),
    key AmItem.spc? _ (by rintro (_ | _) <;> simp [AmItem.matters, AmItem.spc?]),
    key AmItem.output? _ (by rintro (_ | _) <;> simp [AmItem.matters, AmItem.output?]),
    key AmItem.input? _ (by rintro (_ | _) <;> simp [AmItem.matters, AmItem.input?])]

/-- The results do not depend on `-v` and `-l`. -/
theorem autman_same {args' : List Arg} {os' : List AmItem} (w : AmWorld) (hc : AmItems true os args) (hc' : AmItems true os' args')
    (hsame : os.filter AmItem.matters = os'.filter AmItem.matters) : autmanMain w args = autmanMain w args' := by
  unfold autmanMain
  rw [amLoop_go hc, amLoop_go hc', amMeaning_matters hsame]
  rfl

/-- **C77, `-l`.** Two calls that differ only in `-v` and `-l`: one with `-l` prints on standard output what one without both prints. -/
theorem autman_log_leaves {args' : List Arg} {os' : List AmItem} (hc : AmItems true os args) (hc' : AmItems true os' args')
    (hsame : os.filter AmItem.matters = os'.filter AmItem.matters)
    (hl : (amMeaning os).logging = true) (hq : (amMeaning os').logging = false ∧ (amMeaning os').verbose = 0)
    (hX : AmReady X (amMeaning os) σ k time) {s : ℤ} {out : List Char} {fl : Option (Arg × List Char)}
    (hm : autmanMain w args' = .exit s out fl) :
    autmanMain w args = .exit s out fl ∧
    ∃ τ τ', amScrMain X w args σ = .done τ ∧ amScrMain X w args' σ = .done τ' ∧ τ.text 0 = τ'.text 0 := by
  have hm' := (autman_same w hc hc' hsame).trans hm
  obtain ⟨h1, h2, h3, h4, h5, -⟩ := id hX
  have hX' : AmReady X (amMeaning os') σ k time := ⟨h1, h2, h3, h4, h5, fun h => by rw [hq.1] at h; cases h⟩
  obtain ⟨τ, e, t⟩ := autman_quiet hc hX (.inr hl) hm'
  obtain ⟨τ', e', t'⟩ := autman_quiet hc' hX' (.inl hq.2) hm
  exact ⟨hm', τ, τ', e, e', t.trans t'.symm⟩

/-- **C77, departure: `-v` without `-l`.** The notes go to the same stream as the automaton: what is on standard output is then no JSON text,
though `-t json` was asked for. -/
theorem autman_verbose_not_json (hc : AmItems true os args) (hX : AmReady X (amMeaning os) σ k time) (h0 : σ.text 0 = [])
    (hv : (amMeaning os).verbose ≠ 0) (hl : (amMeaning os).logging = false) {out : List Char} {fl : Option (Arg × List Char)}
    (hm : autmanMain w args = .exit 0 out fl) : ∃ τ, amScrMain X w args σ = .done τ ∧ ∀ j, ¬ JsonText j (τ.text 0) := by
  obtain ⟨len, text, l, ver, -, -, -, τ, e, t, -⟩ := autman_stdout hc hX hm
  refine ⟨τ, e, fun j => ?_⟩
  have h1 : 1 ≤ (amMeaning os).loud := by unfold AmCfg.loud; rw [hl]; simp; omega
  obtain ⟨r, hr⟩ : ∃ r, noteLines [] (amMeaning os).loud (amNotes (amMeaning os) len ver l.length) = "Running with verbosity level ".toList ++ r := by
    unfold amNotes
    rw [List.append_assoc, noteLines_append, noteLines_one, if_pos h1, List.nil_append]
    simp only [List.append_assoc]
    exact ⟨_, rfl⟩
  rw [t, h0, hl, hr]
  exact not_json (c := 'R') (by decide) (by decide) (by decide) j

end

/-! ## Examples -/

namespace AmOutEx

/-- The screen of `StdoutEx`. -/
theorem ready (c : AmCfg) : AmReady StdoutEx.X c StdoutEx.σ 3 "noon".toList :=
  ⟨rfl, rfl, by decide, rfl, by decide +kernel, fun _ => ⟨rfl, by decide⟩⟩

theorem items : AmItems true [.len (lenArg "4".toList), .verbose true, .input "a.aut".toList] ["-L".toList, "4".toList, "-vv".toList, "a.aut".toList] :=
  .cons (w := ["-L".toList, "4".toList]) (by exact .looseLen "4".toList rfl) (.cons (w := ["-vv".toList]) (.flag (w := "-vv") (by decide +kernel))
    (.cons (w := ["a.aut".toList]) (.input _ (by decide)) .nil))

/-- `gr1c-autman -L 4 -vv a.aut`: the format version comes after the notes. -/
example : (match amScrMain StdoutEx.X (AmEx.world [] AmEx.autText []) ["-L".toList, "4".toList, "-vv".toList, "a.aut".toList] StdoutEx.σ with
    | .done τ => τ.text 0
    | _ => []) = ("Running with verbosity level 2.\nUsing file \"a.aut\" for input.\nLoading automaton...\nDone.\n" ++
      "Detected format version 1.\nGiven automaton has size 2.\n1\n").toList := by decide +kernel

/-- The same with `-l`: only the version is on standard output. -/
example : (match amScrMain StdoutEx.X (AmEx.world [] AmEx.autText []) ["-L".toList, "4".toList, "-l".toList, "a.aut".toList] StdoutEx.σ with
    | .done τ => (τ.text 0, τ.text 3)
    | _ => ([], [])) = ("1\n".toList, ("noon Running with verbosity level 1.\nnoon Detected format version 1.\n" ++
      "noon Given automaton has size 2.\n").toList) := by decide +kernel

/-- The hypotheses of the theorems. -/
theorem prints : autmanMain (AmEx.world [] AmEx.autText []) ["-L".toList, "4".toList, "-vv".toList, "a.aut".toList] =
    .exit 0 "1\n".toList none := by decide +kernel

example := autman_stdout items (ready _) prints

example : ∃ τ, amScrMain StdoutEx.X (AmEx.world [] AmEx.autText []) ["-L".toList, "4".toList, "-vv".toList, "a.aut".toList] StdoutEx.σ =
    .done τ ∧ ∀ j, ¬ JsonText j (τ.text 0) := autman_verbose_not_json items (ready _) rfl (by decide) (by decide) prints

end AmOutEx

end Gr1c
