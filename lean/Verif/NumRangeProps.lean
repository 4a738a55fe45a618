import Verif.NumRangeLemmas

/-!
# C74: numbers in specifications

Specification, independent of the model: a numeral stands for the number that its digits denote. It is stored faithfully exactly when it
is less than `2^31`; `Stored` says which `int` it becomes on the machine of `Verif.NumRange`.
-/

namespace Gr1c

/-- `k` is the `int` that a numeral of value `v` becomes. -/
def Stored (v : ℕ) (k : ℤ) : Prop :=
  -(2 ^ 31) ≤ k ∧ k < 2 ^ 31 ∧ if v < 2 ^ 63 then ∃ m : ℕ, (v : ℤ) = k + m * 2 ^ 32 else k = -1

/-- **C74.** Every numeral is stored as an `int` that is unique. -/
theorem number_stored (v : ℕ) (k : ℤ) : yyNum v = k ↔ Stored v k := by
  have h63 : longMax = 9223372036854775807 := by decide
  unfold Stored yyNum asInt intBits
  rw [h63]
  norm_num
  split_ifs with h1 h2 h3 <;> constructor <;> intro h
  · subst h; exact ⟨by omega, by omega, ⟨v / 4294967296, by omega⟩⟩
  · obtain ⟨h4, h5, m, h6⟩ := h; omega
  · omega
  · omega
  · subst h; exact ⟨by omega, by omega, ⟨v / 4294967296 + 1, by omega⟩⟩
  · obtain ⟨h4, h5, m, h6⟩ := h; omega
  · omega
  · omega

/-- **C74.** A numeral is stored as its value exactly if that is less than `2^31`. -/
theorem number_faithful (v : ℕ) : yyNum v = v ↔ v < 2 ^ 31 := by
  rw [number_stored]; unfold Stored
  constructor
  · rintro ⟨-, h, -⟩; omega
  · intro h
    refine ⟨by omega, by omega, ?_⟩
    rw [if_pos (by omega)]
    exact ⟨0, by omega⟩

theorem asInt_small {v : ℤ} (h : v < 2 ^ 31) : asInt v = v := if_pos h

theorem ints_small {t : PTree} (h : t.Vals (· < 2 ^ 31)) : t.ints = t := by
  induction t with
  | nil => rfl
  | node ty nm v l r ih1 ih2 => simp only [PTree.ints, ih1 h.2.1, ih2 h.2.2, asInt_small h.1]

theorem ints_list {l : List PTree} (h : ∀ t ∈ l, t.Vals (· < 2 ^ 31)) : l.map PTree.ints = l := by
  induction l with
  | nil => rfl
  | cons t l ih =>
    rw [List.map_cons, ints_small (h t (by simp)), ih fun t ht => h t (List.mem_cons_of_mem _ ht)]

theorem upperOk_small {t : PTree} (h : t.Vals (· < 2 ^ 31)) : upperOk t = true := by
  induction t with
  | nil => rfl
  | node ty nm v l r ih1 _ => rw [upperOk, ih1 h.2.1, Bool.and_true]; exact decide_eq_true h.1

theorem PState.ints_small {p : PState} (h : p.Vals (· < 2 ^ 31)) : p.ints = p := by
  obtain ⟨a1, a2, a3, a4, a5, a6, a7, a8, a9⟩ := h
  simp only [PState.ints, TSpec.ints, Gr1c.ints_small a1, Gr1c.ints_small a2, Gr1c.ints_small a3, Gr1c.ints_small a4, ints_list a5,
    ints_list a6, ints_list a7, ints_list a8, Gr1c.ints_small a9]

/-- One token of a text that is read is the same as one of another text, with the `int` of a numeral in its place. -/
def ReadAs (t t' : Tok) : Prop :=
  match t with
  | .num v => ∃ w : ℕ, t' = .num w ∧ Stored v w
  | _ => t' = t

theorem bitsTok_readAs {t t' : Tok} (h : ReadAs t t') : bitsTok t = t' ∧ ∀ w, t' = .num w → w < 2 ^ 31 := by
  cases t with
  | num v =>
    obtain ⟨w, rfl, hw⟩ := h
    have h2 := (number_stored v w).2 hw
    have h3 : intBits v = w := by
      unfold yyNum asInt at h2
      have := hw.2.1
      split at h2
      · exact_mod_cast h2
      · have : intBits v < 2 ^ 32 := Nat.mod_lt _ (by norm_num)
        omega
    refine ⟨by simp [bitsTok, h3], ?_⟩
    intro w' hw'
    cases hw'
    have := hw.2.1
    omega
  | _ => cases h; exact ⟨rfl, fun w hw => by cases hw⟩

theorem map_bitsTok {ts ts' : List Tok} (h : List.Forall₂ ReadAs ts ts') : ts.map bitsTok = ts' ∧ ∀ w, Tok.num w ∈ ts' → w < 2 ^ 31 := by
  induction h with
  | nil => simp
  | cons h1 _ ih =>
    have h3 := bitsTok_readAs h1
    refine ⟨by rw [List.map_cons, h3.1, ih.1], ?_⟩
    intro w hw
    rcases List.mem_cons.1 hw with h4 | h4
    · exact h3.2 w h4.symm
    · exact ih.2 w h4

/-- **C74.** A text whose numerals are stored as nonnegative numbers is read exactly like the text with these numbers in their place. -/
theorem text_read_as {rg : Bool} {text text' : List Char} (h : List.Forall₂ ReadAs (lexFile text) (lexFile text')) :
    parseInts rg text = parseFile rg text' := by
  obtain ⟨h1, h2⟩ := map_bitsTok h
  unfold parseInts parseFile
  rw [h1]
  cases hp : parseToks rg (lexFile text') with
  | none => rfl
  | some p =>
    have h3 : p.Vals (· < 2 ^ 31) := vals_toks (P := (· < 2 ^ 31)) (by norm_num) (by norm_num) (by norm_num)
      (fun v hv => by have := h2 v hv; show (v : ℤ) < 2 ^ 31; omega) hp
    simp only [upperOk_small h3.1, upperOk_small h3.2.1, Bool.and_self, if_true, PState.ints_small h3]

/-- **C74.** If all numerals are less than `2^31`, numbers of type `int` make no difference: the model of the parser with numbers of any
size is right. -/
theorem numbers_agree {rg : Bool} {text : List Char} (h : ∀ v, Tok.num v ∈ lexFile text → v < 2 ^ 31) :
    parseInts rg text = parseFile rg text := by
  refine text_read_as ?_
  generalize lexFile text = ts at h
  induction ts with
  | nil => exact .nil
  | cons t ts ih =>
    refine .cons ?_ (ih fun v hv => h v (List.mem_cons_of_mem _ hv))
    cases t with
    | num v =>
      have h1 := h v (by simp)
      exact ⟨v, rfl, (number_stored v v).1 ((number_faithful v).2 h1)⟩
    | _ => rfl

/-- **C74, what becomes of an upper bound.** A variable with the domain `[0, v]` gets the domain `[0, k]` where `k` is the stored number;
the file is refused exactly if that is negative. -/
theorem domain_read {rg env : Bool} {text : List Char} {n : Name} {v : ℕ}
    (h : lexFile text = [if env then .evars else .svars, .ident n, .chr '[', .num 0, .chr ',', .num v, .chr ']', .chr ';'])
    {k : ℤ} (hk : Stored v k) :
    parseInts rg text = if k < 0 then none
      else some (if env then { PState.init with ev := .node .var (some n) k .nil .nil }
        else { PState.init with sv := .node .var (some n) k .nil .nil }) := by
  have h1 := (number_stored v k).2 hk
  have hb : intBits v < 2 ^ 32 := Nat.mod_lt _ (by norm_num)
  unfold parseInts
  rw [h]
  have h2 : parseToks rg ([if env then .evars else .svars, .ident n, .chr '[', .num 0, .chr ',', .num v, .chr ']', .chr ';'].map bitsTok) =
      some (if env then { PState.init with ev := .node .var (some n) (intBits v) .nil .nil }
        else { PState.init with sv := .node .var (some n) (intBits v) .nil .nil }) := by
    cases env <;> simp [bitsTok, parseToks, isHeader, splitOn, parseSections, parseSection, parseDecls, declare, initPtree, PState.init,
      show intBits 0 = 0 from by decide]
  rw [h2]
  unfold yyNum asInt at h1
  cases env
  all_goals
    simp only [Bool.false_eq_true, if_true, if_false, PState.init, upperOk, PState.ints, PTree.ints, TSpec.ints, Bool.true_and,
      Bool.and_true, List.map_nil, asInt]
    split at h1
    · rename_i h3
      have h4 : ¬ k < 0 := by omega
      subst h1
      simp only [h3, decide_true, if_true, h4, if_false]
    · rename_i h3
      have h4 : k < 0 := by omega
      simp only [h3, decide_false, Bool.false_eq_true, if_false, h4, if_true]

/-- **C74, what becomes of a number in a formula.** -/
theorem compare_read {rg : Bool} {text : List Char} {n : Name} {v : ℕ}
    (h : lexFile text = [.sinit, .ident n, .chr '=', .num v, .chr ';']) {k : ℤ} (hk : Stored v k) :
    (parseInts rg text).map (fun p => p.sp.sinit) =
      some (.node .eq none 0 (.node .var (some n) 0 .nil .nil) (.node .const none k .nil .nil)) := by
  have h1 := (number_stored v k).2 hk
  unfold parseInts
  rw [h]
  have h2 : parseToks rg ([.sinit, .ident n, .chr '=', .num v, .chr ';'].map bitsTok) =
      some { PState.init with sp := { PState.init.sp with
        sinit := .node .eq none 0 (.node .var (some n) 0 .nil .nil) (.node .const none (intBits v) .nil .nil) } } := by
    simp [bitsTok, parseToks, isHeader, splitOn, parseSections, parseSection, parseInit, parseFormula, groupAtoms, atomAfter, cmpAfter,
      cmpTok, runFormula, reduceTo, pushAtom, pushtTerminal, pushtOperator, cutStack, stopTy, PTree.setLeft, initPtree, PState.init]
  rw [h2]
  unfold yyNum at h1
  simp [upperOk, PState.init, PState.ints, TSpec.ints, PTree.ints, h1, show asInt 0 = 0 from by decide]

/-- **C74 is false for large numerals** (a defect): without a message, the domain `[0, v]` becomes `[0, v % 2^32]`, if the bit 31 of
`v` is zero. -/
theorem domain_wrong {rg : Bool} {text : List Char} {n : Name} {v : ℕ}
    (h : lexFile text = [.svars, .ident n, .chr '[', .num 0, .chr ',', .num v, .chr ']', .chr ';']) (h1 : 2 ^ 31 ≤ v) (h2 : v < 2 ^ 63)
    (h3 : v % 2 ^ 32 < 2 ^ 31) :
    parseInts rg text = some { PState.init with sv := .node .var (some n) ((v % 2 ^ 32 : ℕ) : ℤ) .nil .nil } ∧ v % 2 ^ 32 < v := by
  have hs : Stored v ((v % 2 ^ 32 : ℕ) : ℤ) := by
    refine ⟨by omega, by omega, ?_⟩
    rw [if_pos h2]
    exact ⟨v / 2 ^ 32, by omega⟩
  refine ⟨?_, by omega⟩
  rw [domain_read (env := false) h hs, if_neg (by omega)]
  rfl

/-- The domain `[0, 4294967297]` is read as `[0, 1]`. -/
example : parseInts false "SYS: x [0,4294967297];".toList = parseFile false "SYS: x [0,1];".toList ∧
    parseFile false "SYS: x [0,4294967297];".toList ≠ parseFile false "SYS: x [0,1];".toList ∧
    (parseFile false "SYS: x [0,1];".toList).isSome = true := by decide +kernel

/-- The domain `[0, 2147483648]` is refused, as is every bound from `2^63` on. -/
example : parseInts false "SYS: x [0,2147483648];".toList = none ∧ parseInts false "SYS: x [0,9223372036854775808];".toList = none ∧
    (parseFile false "SYS: x [0,2147483648];".toList).isSome = true := by decide +kernel

/-- The bounds `[4294967296, 3]` are accepted as `[0, 3]`. -/
example : parseInts true "ENV: y [4294967296,3];".toList = parseFile true "ENV: y [0,3];".toList ∧
    parseFile true "ENV: y [4294967296,3];".toList = none ∧ (parseFile true "ENV: y [0,3];".toList).isSome = true := by decide +kernel

/-- A goal that no value meets is read as a goal that one does. -/
example : parseInts false "SYS: x [0,5];\nSYSGOAL: []<>(x = 4294967299);".toList =
    parseFile false "SYS: x [0,5];\nSYSGOAL: []<>(x = 3);".toList := by decide +kernel

/-- A number that is stored as -1. -/
example : Stored 4294967295 (-1) ∧ Stored 9223372036854775808 (-1) ∧ Stored 2147483647 2147483647 := by
  refine ⟨(number_stored _ _).1 ?_, (number_stored _ _).1 ?_, (number_stored _ _).1 ?_⟩ <;> decide +kernel

/-- A file that `numbers_agree` speaks of. -/
example : parseInts false "SYS: x [0,5] y;\nENV: u;\nSYSINIT: x = 3 & y;\nSYSTRANS: [](x' != 2147483647);".toList =
    parseFile false "SYS: x [0,5] y;\nENV: u;\nSYSINIT: x = 3 & y;\nSYSTRANS: [](x' != 2147483647);".toList := by
  refine numbers_agree ?_
  intro v hv
  have h : lexFile "SYS: x [0,5] y;\nENV: u;\nSYSINIT: x = 3 & y;\nSYSTRANS: [](x' != 2147483647);".toList =
      [.svars, .ident ['x'], .chr '[', .num 0, .chr ',', .num 5, .chr ']', .ident ['y'], .chr ';', .evars, .ident ['u'], .chr ';',
        .sinit, .ident ['x'], .chr '=', .num 3, .chr '&', .ident ['y'], .chr ';', .strans, .safe, .chr '(', .ident ['x'], .chr '\'', .ne,
        .num 2147483647, .chr ')', .chr ';'] := by decide +kernel
  rw [h] at hv
  simp at hv
  omega

end Gr1c
