import Verif.AutmanSpec

/-!
# Lemmas about `gr1c-autman`
-/

namespace Gr1c

/-! ## Options -/

/-- The effect of one part of the command line. -/
def AmCfg.set (c : AmCfg) : AmItem → AmCfg
  | .verbose two => { c with verbose := (c.verbose + if two then 2 else 1) % 256 }
  | .logging => { c with logging := true }
  | .synt => { c with run := .syntaxOnly }
  | .model => { c with run := .model }
  | .format f => { c with run := .convert, format := f }
  | .len n => { c with len := n }
  | .spc a => { c with spc := some a }
  | .output a => { c with output := some a }
  | .input a => { c with input := some a }

theorem lastIn_cons {α : Type} (f : AmItem → Option α) (d : α) (o : AmItem) (os : List AmItem) :
    lastIn f d (o :: os) = lastIn f ((f o).getD d) os := by
  unfold lastIn
  cases h : f o with
  | none => simp [List.filterMap_cons, h]
  | some x =>
    simp only [List.filterMap_cons, h, Option.getD_some]
    cases List.filterMap f os <;> simp [List.getLast?_cons]

theorem foldl_amMeaning (os : List AmItem) (c : AmCfg) (hv : c.verbose < 256) : os.foldl AmCfg.set c =
    ⟨lastIn AmItem.run? c.run os, lastIn AmItem.format? c.format os, lastIn AmItem.len? c.len os,
      lastIn AmItem.spc? c.spc os, lastIn AmItem.output? c.output os, lastIn AmItem.input? c.input os,
      (c.verbose + (os.map AmItem.loud).sum) % 256, c.logging || decide (AmItem.logging ∈ os)⟩ := by
  induction os generalizing c with
  | nil =>
    simp [lastIn, Nat.mod_eq_of_lt hv]
  | cons o os ih =>
    rw [List.foldl_cons, ih]
    · simp only [lastIn_cons]
      cases o <;> simp [AmCfg.set, AmItem.run?, AmItem.format?, AmItem.len?, AmItem.spc?, AmItem.output?, AmItem.input?,
        AmItem.loud] <;> omega
    · cases o <;> simp [AmCfg.set, hv] <;> omega

theorem amLoop_nil (c : AmCfg) : amLoop c [] = .go c := by rw [amLoop]

theorem amLoop_dash (c : AmCfg) (rest : List Arg) : amLoop c (['-'] :: rest) = .ub := by
  rw [amLoop]
  rfl

theorem amLoop_short (c : AmCfg) (x : Char) (more : List Char) (rest : List Arg) : amLoop c (('-' :: x :: more) :: rest) =
    if more ≠ [] ∧ ¬ (x = 'v' ∧ more.head? = some 'v') then .bad
    else if x = 'h' then .help
    else if x = 'V' then .version
    else
      match amFlag c x more with
      | some c' => amLoop c' rest
      | none =>
        match rest with
        | [] => .bad
        | a :: rest' =>
          match amArg c x a with
          | some c' => amLoop c' rest'
          | none => .bad := by
  rw [amLoop, show amKind ('-' :: x :: more) = .flag x more from rfl]
  cases rest <;> rfl

theorem amLoop_input (c : AmCfg) (a : Arg) (h : a.head? ≠ some '-') (rest : List Arg) :
    amLoop c (a :: rest) = amLoop { c with input := some a } rest := by
  have : amKind a = .other := by
    match a with
    | [] => rfl
    | [y] => exact if_neg (by simpa using h)
    | y :: x :: more => exact if_neg (by simpa using h)
  rw [amLoop, this]

theorem formatOf_iff {a : Arg} {f : OutFmt} : formatOf a = some f ↔ ∃ w x, (f, w) ∈ fmtWords ∧ a = w.toList ++ x := by
  constructor
  · intro h
    unfold formatOf at h
    split_ifs at h with h1 h2 h3 h4 h5
    all_goals
      cases h
      obtain ⟨x, rfl⟩ := hasPfx_iff.1 (by assumption)
      exact ⟨_, x, by simp [fmtWords], rfl⟩
  · rintro ⟨w, x, h, rfl⟩
    simp only [fmtWords, List.mem_cons, Prod.mk.injEq, List.not_mem_nil, or_false] at h
    rcases h with ⟨rfl, rfl⟩ | ⟨rfl, rfl⟩ | ⟨rfl, rfl⟩ | ⟨rfl, rfl⟩ | ⟨rfl, rfl⟩ <;> rfl

theorem lenArg_int {a : Arg} {n : ℤ} (h : IntText a n) (hn : IsInt n) : lenArg a = n := by
  have := strtol_int (ws := []) (s := []) (by simp [Spaces]) h (by simp)
  simp only [List.nil_append, List.append_nil] at this
  unfold lenArg
  rw [this]
  simp only
  obtain ⟨h1, h2⟩ := hn
  have hc : clampLong n = n := by unfold clampLong; omega
  rw [hc]
  unfold toInt
  exact Int.bmod_eq_of_le (by omega) (by omega)

theorem amLoop_spelled {o : AmItem} {w : List Arg} (h : AmSpelled true o w) (c : AmCfg) (rest : List Arg) :
    amLoop c (w ++ rest) = amLoop (c.set o) rest := by
  cases h with
  | flag h =>
    simp only [amFlagWords, List.mem_cons, Prod.mk.injEq, List.not_mem_nil, or_false] at h
    rcases h with ⟨rfl, rfl⟩ | ⟨rfl, rfl⟩ | ⟨rfl, rfl⟩ | ⟨rfl, rfl⟩ | ⟨rfl, rfl⟩
    all_goals
      refine (show _ = amLoop c ((_ :: _ :: _) :: rest) from rfl).trans ?_
      refine (amLoop_short c _ _ rest).trans ?_
      rfl
  | loud x =>
    refine (show _ = amLoop c (('-' :: 'v' :: 'v' :: x) :: rest) from rfl).trans ?_
    rw [amLoop_short]
    simp [AmCfg.set, amFlag, amArg]
  | format x _ h =>
    refine (show _ = amLoop c (['-', 't'] :: _ :: rest) from rfl).trans ?_
    rw [amLoop_short]
    have := formatOf_iff.2 ⟨_, x, h, rfl⟩
    simp [this, AmCfg.set, amFlag, amArg]
  | len h hn =>
    refine (show _ = amLoop c (['-', 'L'] :: _ :: rest) from rfl).trans ?_
    rw [amLoop_short]
    simp [AmCfg.set, amFlag, amArg, lenArg_int h hn]
  | looseLen a =>
    refine (show _ = amLoop c (['-', 'L'] :: _ :: rest) from rfl).trans ?_
    rw [amLoop_short]
    simp [AmCfg.set, amFlag, amArg]
  | spc a =>
    refine (show _ = amLoop c (['-', 'i'] :: _ :: rest) from rfl).trans ?_
    rw [amLoop_short]
    simp [AmCfg.set, amFlag, amArg]
  | output a =>
    refine (show _ = amLoop c (['-', 'o'] :: _ :: rest) from rfl).trans ?_
    rw [amLoop_short]
    simp [AmCfg.set, amFlag, amArg]
  | input a h => exact amLoop_input c a h rest

theorem amLoop_items {os : List AmItem} {ws : List Arg} (h : AmItems true os ws) (c : AmCfg) (rest : List Arg) :
    amLoop c (ws ++ rest) = amLoop (os.foldl AmCfg.set c) rest := by
  induction h generalizing c with
  | nil => rfl
  | cons h _ ih => rw [List.append_assoc, amLoop_spelled h, ih]; rfl

theorem amLoop_go {os : List AmItem} {args : List Arg} (h : AmItems true os args) :
    amLoop .default args = .go (amMeaning os) := by
  have := amLoop_items h .default []
  rw [List.append_nil, amLoop_nil, foldl_amMeaning _ _ (by decide)] at this
  rw [this]
  simp [amMeaning, AmCfg.default]

theorem AmSpelled.loosen {b : Bool} {o : AmItem} {w : List Arg} (h : AmSpelled b o w) : AmSpelled true o w := by
  cases h with
  | flag h => exact .flag h
  | loud x _ => exact .loud x rfl
  | format x _ h => exact .format x (Or.inl rfl) h
  | len h hn => exact .len h hn
  | looseLen a _ => exact .looseLen a rfl
  | spc a => exact .spc a
  | output a => exact .output a
  | input a h => exact .input a h

theorem AmItems.loosen {b : Bool} {os : List AmItem} {ws : List Arg} (h : AmItems b os ws) : AmItems true os ws := by
  induction h with
  | nil => exact .nil
  | cons h _ ih => exact .cons h.loosen ih

/-- Every argument vector is a command line followed by an end of one of five kinds. -/
theorem amLoop_classify : ∀ (n : ℕ) (args : List Arg), args.length ≤ n →
    ∃ os ws rest, AmItems true os ws ∧ args = ws ++ rest ∧
      (rest = [] ∨ (∃ r, rest = ['-', 'h'] :: r) ∨ (∃ r, rest = ['-', 'V'] :: r) ∨ (∃ r, rest = ['-'] :: r) ∨
        ∀ c, amLoop c rest = .bad) := by
  intro n
  induction n with
  | zero =>
    intro args h
    have : args = [] := List.length_eq_zero_iff.1 (by omega)
    exact ⟨[], [], [], .nil, this, Or.inl rfl⟩
  | succ n ih =>
    intro args hlen
    have step : ∀ o w rest, AmSpelled true o w → w ≠ [] → args = w ++ rest → ∃ os ws rest, AmItems true os ws ∧
        args = ws ++ rest ∧ (rest = [] ∨ (∃ r, rest = ['-', 'h'] :: r) ∨ (∃ r, rest = ['-', 'V'] :: r) ∨
          (∃ r, rest = ['-'] :: r) ∨ ∀ c, amLoop c rest = .bad) := by
      rintro o w rest hs hw rfl
      have : 0 < w.length := List.length_pos_iff.2 hw
      obtain ⟨os, ws, r, h1, h2, h3⟩ := ih rest (by simp at hlen; omega)
      exact ⟨o :: os, w ++ ws, r, .cons hs h1, by rw [h2, List.append_assoc], h3⟩
    have stop : (args = [] ∨ (∃ r, args = ['-', 'h'] :: r) ∨ (∃ r, args = ['-', 'V'] :: r) ∨
          (∃ r, args = ['-'] :: r) ∨ ∀ c, amLoop c args = .bad) → ∃ os ws rest, AmItems true os ws ∧
        args = ws ++ rest ∧ (rest = [] ∨ (∃ r, rest = ['-', 'h'] :: r) ∨ (∃ r, rest = ['-', 'V'] :: r) ∨
          (∃ r, rest = ['-'] :: r) ∨ ∀ c, amLoop c rest = .bad) :=
      fun h => ⟨[], [], args, .nil, rfl, h⟩
    match args, hlen, step, stop with
    | [], _, _, stop => exact stop (Or.inl rfl)
    | a :: rest, _, step, stop =>
      by_cases hd : a.head? = some '-'
      swap
      · exact step (.input a) [a] rest (.input a hd) (by simp) rfl
      match a, hd with
      | [x], hd =>
        simp only [List.head?_cons, Option.some.injEq] at hd
        subst hd
        exact stop (Or.inr (Or.inr (Or.inr (Or.inl ⟨rest, rfl⟩))))
      | y :: x :: more, hd =>
        simp only [List.head?_cons, Option.some.injEq] at hd
        subst hd
        by_cases h1 : more ≠ [] ∧ ¬ (x = 'v' ∧ more.head? = some 'v')
        · refine stop (Or.inr (Or.inr (Or.inr (Or.inr fun c => ?_))))
          rw [amLoop_short, if_pos h1]
        by_cases hv : x = 'v'
        · subst hv
          match more, h1 with
          | [], _ => exact step (.verbose false) ["-v".toList] rest (.flag (by simp [amFlagWords])) (by simp) rfl
          | z :: more, h1 =>
            have : z = 'v' := by simpa using h1
            subst this
            exact step (.verbose true) ["-vv".toList ++ more] rest (.loud more rfl) (by simp) rfl
        have hm : more = [] := by
          by_contra hm
          exact h1 ⟨hm, fun h => hv h.1⟩
        subst hm
        by_cases h : x = 'h'
        · subst h; exact stop (Or.inr (Or.inl ⟨rest, rfl⟩))
        by_cases hV : x = 'V'
        · subst hV; exact stop (Or.inr (Or.inr (Or.inl ⟨rest, rfl⟩)))
        by_cases hl : x = 'l'
        · subst hl; exact step .logging ["-l".toList] rest (.flag (by simp [amFlagWords])) (by simp) rfl
        by_cases hs : x = 's'
        · subst hs; exact step .synt ["-s".toList] rest (.flag (by simp [amFlagWords])) (by simp) rfl
        by_cases hP : x = 'P'
        · subst hP; exact step .model ["-P".toList] rest (.flag (by simp [amFlagWords])) (by simp) rfl
        have hbad : (∀ a rest', rest = a :: rest' → (x = 't' ∧ formatOf a = none) ∨ (x ≠ 't' ∧ x ≠ 'i' ∧ x ≠ 'L' ∧ x ≠ 'o')) →
            ∀ c, amLoop c (['-', x] :: rest) = .bad := by
          intro hb c
          have hn : amFlag c x [] = none := by simp [amFlag, hv, hl, hs, hP]
          rw [amLoop_short, if_neg h1, if_neg h, if_neg hV, hn]
          match rest, hb with
          | [], _ => rfl
          | a :: rest', hb =>
            rcases hb a rest' rfl with ⟨rfl, hf⟩ | ⟨g1, g2, g3, g4⟩
            · simp [hf, amArg]
            · simp [g1, g2, g3, g4, amArg]
        match rest, step, stop, hbad with
        | [], _, stop, hbad => exact stop (Or.inr (Or.inr (Or.inr (Or.inr (hbad (by simp))))))
        | a :: rest', step, stop, hbad =>
          by_cases ht : x = 't'
          · subst ht
            cases hf : formatOf a with
            | none =>
              refine stop (Or.inr (Or.inr (Or.inr (Or.inr (hbad ?_)))))
              rintro _ _ ⟨⟩
              exact Or.inl ⟨rfl, hf⟩
            | some f =>
              obtain ⟨w, y, hw, rfl⟩ := formatOf_iff.1 hf
              exact step (.format f) [['-', 't'], w.toList ++ y] rest' (.format y (Or.inl rfl) hw) (by simp) rfl
          by_cases hi : x = 'i'
          · subst hi; exact step (.spc a) [['-', 'i'], a] rest' (.spc a) (by simp) rfl
          by_cases hL : x = 'L'
          · subst hL; exact step (.len (lenArg a)) [['-', 'L'], a] rest' (.looseLen a rfl) (by simp) rfl
          by_cases ho : x = 'o'
          · subst ho; exact step (.output a) [['-', 'o'], a] rest' (.output a) (by simp) rfl
          refine stop (Or.inr (Or.inr (Or.inr (Or.inr (hbad ?_)))))
          rintro _ _ ⟨⟩
          exact Or.inr ⟨ht, hi, hL, ho⟩

end Gr1c
