import Verif.HelpText
import Verif.CliProps
import Verif.RgLemmas
import Verif.PatchCli

/-!
# C76: the help texts

Specification, independent of the programs: how a help text is read. A line `  -X  ...` describes a flag, a line `  -X ARG ...` an option
with an argument (`describes`); in the usage line `[-XYZ]` are flags and `[-XY ARG]` options with an argument (`usageOf`). The text is
right if exactly these are accepted (`Right`).
-/

namespace Gr1c

/-- The letter of a line that describes an option, and whether it takes an argument. -/
def describes : List Char → Option (Char × Bool)
  | ' ' :: ' ' :: '-' :: c :: ' ' :: d :: _ => some (c, d != ' ')
  | _ => none

/-- The options that a help text describes. -/
def described (h : List (List Char)) : List (Char × Bool) := h.filterMap describes

/-- Letters up to a blank or a closing bracket; whether there was a blank. -/
def groupLetters : List Char → List Char × Bool
  | [] => ([], false)
  | c :: cs =>
    if c = ' ' then ([], true)
    else if c = ']' then ([], false)
    else (c :: (groupLetters cs).1, (groupLetters cs).2)

/-- The options in a usage line: the groups that begin with `[-`, but not `[--]`. -/
def usageOf : List Char → List (Char × Bool)
  | [] => []
  | c :: cs =>
    (if c = '[' ∧ cs.head? = some '-' ∧ cs.tail.head? ≠ some '-' then (groupLetters cs.tail).1.map fun x => (x, (groupLetters cs.tail).2) else []) ++ usageOf cs

/-- The options `os` are exactly those that a program takes: a flag is accepted alone, an option with an argument is refused alone and
accepted with some argument. `--` is not an option. -/
def Right (os : List (Char × Bool)) (refuses : List Arg → Prop) : Prop :=
  ∀ c, c ≠ '-' → ((c, false) ∈ os ↔ ¬ refuses [['-', c]]) ∧
    ((c, true) ∈ os ↔ refuses [['-', c]] ∧ ∃ a, ¬ refuses [['-', c], a])

/-! ## What the programs take -/

/-- The letters in `fs` are flags, those in `as` take an argument, no others are accepted. -/
def Takes (fs as : List Char) (refuses : List Arg → Prop) : Prop :=
  (∀ c ∈ fs, ¬ refuses [['-', c]]) ∧ (∀ c ∈ as, refuses [['-', c]] ∧ ∃ a, ¬ refuses [['-', c], a]) ∧
    ∀ c, c ≠ '-' → c ∉ fs → refuses [['-', c]] ∧ (c ∉ as → ∀ a, refuses [['-', c], a])

theorem Takes.right {fs as : List Char} {refuses : List Arg → Prop} (h : Takes fs as refuses) {os : List (Char × Bool)}
    (hf : ∀ c, (c, false) ∈ os ↔ c ∈ fs) (ha : ∀ c, (c, true) ∈ os ↔ c ∈ as) : Right os refuses := by
  obtain ⟨h1, h2, h3⟩ := h
  intro c hc
  refine ⟨(hf c).trans ⟨h1 c, fun h => ?_⟩, (ha c).trans ⟨h2 c, ?_⟩⟩
  · by_contra hn
    exact h (h3 c hc hn).1
  · rintro ⟨h4, a, h5⟩
    by_contra hn
    exact h5 ((h3 c hc (fun h6 => h1 c h6 h4)).2 hn a)

/-- Letters of a list of options. -/
theorem mem_iff_of {os : List (Char × Bool)} {l : List Char} {b : Bool}
    (h : (os.filterMap fun p => if p.2 = b then some p.1 else none) = l) (c : Char) : (c, b) ∈ os ↔ c ∈ l := by
  rw [← h, List.mem_filterMap]
  constructor
  · intro h; exact ⟨_, h, by simp⟩
  · rintro ⟨⟨x, b'⟩, h1, h2⟩
    simp only at h2
    split at h2
    · rename_i e; subst e; cases h2; exact h1
    · cases h2

theorem gr1c_takes : Takes "hVvlspriP".toList "nto".toList (fun args => optLoop true Cfg.default args = .usage) := by
  refine ⟨by decide +kernel, ?_, ?_⟩
  · have h1 : ∀ c ∈ "nto".toList, optLoop true Cfg.default [['-', c]] = .usage := by decide +kernel
    refine fun c hc => ⟨h1 c hc, ?_⟩
    have h2 : ∀ c ∈ "nto".toList, optLoop true Cfg.default [['-', c], if c = 'n' then "all_init".toList else "aut".toList] ≠ .usage := by
      decide +kernel
    exact ⟨_, h2 c hc⟩
  · intro c hc hf
    simp only [show "hVvlspriP".toList = ['h', 'V', 'v', 'l', 's', 'p', 'r', 'i', 'P'] from by decide +kernel, List.mem_cons,
      List.not_mem_nil, or_false, not_or] at hf
    obtain ⟨a1, a2, a3, a4, a5, a6, a7, a8, a9⟩ := hf
    refine ⟨?_, fun ha a => ?_⟩
    · show optLoop true Cfg.default [['-', c]] = .usage
      rw [optLoop_short _ _ hc]
      simp [argKind, hc, a1, a2, a3, a4, a5, a6, a7, a8, a9, plainFlag]
    · simp only [show "nto".toList = ['n', 't', 'o'] from by decide +kernel, List.mem_cons, List.not_mem_nil, or_false, not_or] at ha
      show optLoop true Cfg.default [['-', c], a] = .usage
      rw [optLoop_short _ _ hc]
      simp [argKind, hc, a1, a2, a3, a4, a5, a6, a7, a8, a9, plainFlag, ha.1, ha.2.1, ha.2.2]

theorem rg_takes : Takes "hVvlsp".toList "nto".toList (fun args => rgOptLoop true Cfg.rgDefault args = .usage) := by
  refine ⟨by decide +kernel, ?_, ?_⟩
  · have h1 : ∀ c ∈ "nto".toList, rgOptLoop true Cfg.rgDefault [['-', c]] = .usage := by decide +kernel
    refine fun c hc => ⟨h1 c hc, ?_⟩
    have h2 : ∀ c ∈ "nto".toList, rgOptLoop true Cfg.rgDefault [['-', c], if c = 'n' then "all_init".toList else "aut".toList] ≠ .usage := by
      decide +kernel
    exact ⟨_, h2 c hc⟩
  · intro c hc hf
    simp only [show "hVvlsp".toList = ['h', 'V', 'v', 'l', 's', 'p'] from by decide +kernel, List.mem_cons,
      List.not_mem_nil, or_false, not_or] at hf
    obtain ⟨a1, a2, a3, a4, a5, a6⟩ := hf
    refine ⟨?_, fun ha a => ?_⟩
    · show rgOptLoop true Cfg.rgDefault [['-', c]] = .usage
      rw [rgOptLoop_short _ _ hc]
      simp [argKind, hc, a1, a2, a3, a4, a5, a6, rgPlainFlag]
    · simp only [show "nto".toList = ['n', 't', 'o'] from by decide +kernel, List.mem_cons, List.not_mem_nil, or_false, not_or] at ha
      show rgOptLoop true Cfg.rgDefault [['-', c], a] = .usage
      rw [rgOptLoop_short _ _ hc]
      simp [argKind, hc, a1, a2, a3, a4, a5, a6, rgPlainFlag, ha.1, ha.2.1, ha.2.2]

theorem patch_takes : Takes "hVvlp".toList "mtaeofr".toList (fun args => pgOptLoop true {} args = .usage) := by
  refine ⟨by decide +kernel, ?_, ?_⟩
  · have h1 : ∀ c ∈ "mtaeofr".toList, pgOptLoop true {} [['-', c]] = .usage := by decide +kernel
    refine fun c hc => ⟨h1 c hc, ?_⟩
    have h2 : ∀ c ∈ "mtaeofr".toList, pgOptLoop true {} [['-', c], if c = 'r' then "1".toList else "aut".toList] ≠ .usage := by
      decide +kernel
    exact ⟨_, h2 c hc⟩
  · intro c hc hf
    simp only [show "hVvlp".toList = ['h', 'V', 'v', 'l', 'p'] from by decide +kernel, List.mem_cons,
      List.not_mem_nil, or_false, not_or] at hf
    obtain ⟨a1, a2, a3, a4, a5⟩ := hf
    refine ⟨?_, fun ha a => ?_⟩
    · show pgOptLoop true {} [['-', c]] = .usage
      rw [pgOptLoop_short _ _ hc]
      simp [argKind, hc, a1, a2, a3, a4, a5, pgPlainFlag]
    · simp only [show "mtaeofr".toList = ['m', 't', 'a', 'e', 'o', 'f', 'r'] from by decide +kernel, List.mem_cons,
        List.not_mem_nil, or_false, not_or] at ha
      obtain ⟨b1, b2, b3, b4, b5, b6, b7⟩ := ha
      show pgOptLoop true {} [['-', c], a] = .usage
      rw [pgOptLoop_short _ _ hc]
      simp [argKind, hc, a1, a2, a3, a4, a5, pgPlainFlag, pgTakesArg, b1, b2, b3, b4, b5, b6, b7]

theorem autman_takes : Takes "hVvlsP".toList "tLio".toList (fun args => amLoop AmCfg.default args = .bad) := by
  refine ⟨by decide +kernel, ?_, ?_⟩
  · have h1 : ∀ c ∈ "tLio".toList, amLoop AmCfg.default [['-', c]] = .bad := by decide +kernel
    refine fun c hc => ⟨h1 c hc, ?_⟩
    have h2 : ∀ c ∈ "tLio".toList, amLoop AmCfg.default [['-', c], "aut".toList] ≠ .bad := by decide +kernel
    exact ⟨_, h2 c hc⟩
  · intro c hc hf
    simp only [show "hVvlsP".toList = ['h', 'V', 'v', 'l', 's', 'P'] from by decide +kernel, List.mem_cons,
      List.not_mem_nil, or_false, not_or] at hf
    obtain ⟨a1, a2, a3, a4, a5, a6⟩ := hf
    refine ⟨?_, fun ha a => ?_⟩
    · show amLoop AmCfg.default [['-', c]] = .bad
      rw [amLoop.eq_def]
      simp [amKind, a1, a2, a3, a4, a5, a6, amFlag]
    · simp only [show "tLio".toList = ['t', 'L', 'i', 'o'] from by decide +kernel, List.mem_cons,
        List.not_mem_nil, or_false, not_or] at ha
      obtain ⟨b1, b2, b3, b4⟩ := ha
      show amLoop AmCfg.default [['-', c], a] = .bad
      rw [amLoop.eq_def]
      simp [amKind, a1, a2, a3, a4, a5, a6, amFlag, amArg, b1, b2, b3, b4]

/-! ## What the texts say -/

theorem describes_text {s : List Char} {c : Char} (h : s.head? = some c) (hc : c ≠ ' ') (r : List Char) : describes (s ++ r) = none := by
  cases s with
  | nil => cases h
  | cons a s =>
    simp only [List.head?_cons, Option.some.injEq] at h
    subst h
    unfold describes
    split
    · rename_i e; simp only [List.cons_append, List.cons.injEq] at e; exact absurd e.1 hc
    · rfl

theorem usage_none (r : List Char) : describes ("Usage: ".toList ++ r) = none :=
  describes_text (c := 'U') (by decide +kernel) (by decide) r

theorem other_none (r : List Char) : describes ("For other commands, use: ".toList ++ r) = none :=
  describes_text (c := 'F') (by decide +kernel) (by decide) r

theorem described_cons_none {l : List Char} (h : describes l = none) (r : List (List Char)) : described (l :: r) = described r := by
  unfold described; rw [List.filterMap_cons, h]

/-- What the lines of a text describe that are not dependent on the name of the program. -/
theorem described_append (a b : List (List Char)) : described (a ++ b) = described a ++ described b := List.filterMap_append

theorem described_gr1c (me : List Char) : described (helpGr1c me) =
    [('h', false), ('V', false), ('v', false), ('l', false), ('t', true), ('n', true), ('s', false), ('p', false), ('r', false),
      ('i', false), ('o', true), ('P', false)] := by
  have h : helpGr1c me = (helpGr1c me).take 1 ++ (((helpGr1c []).drop 1).take 21 ++
      ((((helpGr1c me).drop 22).take 1) ++ ((helpGr1c []).drop 23))) := rfl
  rw [h, described_append, described_append, described_append]
  have h1 : described ((helpGr1c me).take 1) = [] := by
    show described ["Usage: ".toList ++ me ++ _] = []
    rw [List.append_assoc]
    exact described_cons_none (usage_none _) []
  have h2 : described (((helpGr1c me).drop 22).take 1) = [] := by
    show described ["For other commands, use: ".toList ++ me ++ _] = []
    rw [List.append_assoc]
    exact described_cons_none (other_none _) []
  rw [h1, h2]
  decide +kernel

theorem described_rg (me : List Char) : described (helpRg me) =
    [('h', false), ('V', false), ('v', false), ('l', false), ('t', true), ('n', true), ('s', false), ('o', true)] := by
  have h : helpRg me = (helpRg me).take 1 ++ (helpRg []).drop 1 := rfl
  rw [h, described_append]
  have h1 : described ((helpRg me).take 1) = [] := by
    show described ["Usage: ".toList ++ me ++ _] = []
    rw [List.append_assoc]
    exact described_cons_none (usage_none _) []
  rw [h1]
  decide +kernel

theorem described_patch (me : List Char) : described (helpPatch me) =
    [('h', false), ('V', false), ('v', false), ('l', false), ('t', true), ('p', false), ('m', true), ('a', true), ('e', true), ('o', true),
      ('f', true), ('r', true)] := by
  have h : helpPatch me = (helpPatch me).take 1 ++ (helpPatch []).drop 1 := rfl
  rw [h, described_append]
  have h1 : described ((helpPatch me).take 1) = [] := by
    show described ["Usage: ".toList ++ me ++ _] = []
    rw [List.append_assoc]
    exact described_cons_none (usage_none _) []
  rw [h1]
  decide +kernel

theorem described_autman (me : List Char) : described (helpAutman me) =
    [('h', false), ('V', false), ('v', false), ('l', false), ('s', false), ('t', true), ('P', false), ('L', true), ('i', true),
      ('o', true)] := by
  have h : helpAutman me = (helpAutman me).take 1 ++ (helpAutman []).drop 1 := rfl
  rw [h, described_append]
  have h1 : described ((helpAutman me).take 1) = [] := by
    show described ["Usage: ".toList ++ me ++ _] = []
    rw [List.append_assoc]
    exact described_cons_none (usage_none _) []
  rw [h1]
  decide +kernel

/-! ## C76 -/

/-- The options of the usage line of a help text: what follows the name of the program. -/
def UsageSays (h : List (List Char)) (me : List Char) (os : List (Char × Bool)) : Prop :=
  ∃ tail, h.head? = some ("Usage: ".toList ++ me ++ tail) ∧ os = usageOf tail

theorem eq_tail {a b x y : List Char} (h : some (a ++ b ++ x) = some (a ++ b ++ y)) : x = y :=
  List.append_cancel_left (Option.some.inj h)

/-- **C76.** The help text of `gr1c` describes exactly the options that `gr1c` takes. -/
theorem gr1c_help (me : List Char) : Right (described (helpGr1c me)) (fun args => optLoop true Cfg.default args = .usage) ∧
    ∃ os, UsageSays (helpGr1c me) me os ∧ Right os (fun args => optLoop true Cfg.default args = .usage) := by
  refine ⟨?_, _, ⟨_, rfl, rfl⟩, ?_⟩
  · rw [described_gr1c]
    refine gr1c_takes.right (fun c => ?_) (fun c => ?_)
    · simp [show "hVvlspriP".toList = ['h', 'V', 'v', 'l', 's', 'p', 'r', 'i', 'P'] from by decide +kernel]
    · simp [show "nto".toList = ['n', 't', 'o'] from by decide +kernel]; tauto
  · exact gr1c_takes.right (mem_iff_of (by decide +kernel)) (mem_iff_of (by decide +kernel))

/-- **C76.** The same for `gr1c-patch`. -/
theorem patch_help (me : List Char) : Right (described (helpPatch me)) (fun args => pgOptLoop true {} args = .usage) ∧
    ∃ os, UsageSays (helpPatch me) me os ∧ Right os (fun args => pgOptLoop true {} args = .usage) := by
  refine ⟨?_, _, ⟨_, rfl, rfl⟩, ?_⟩
  · rw [described_patch]
    refine patch_takes.right (fun c => ?_) (fun c => ?_)
    · simp [show "hVvlp".toList = ['h', 'V', 'v', 'l', 'p'] from by decide +kernel]
    · simp [show "mtaeofr".toList = ['m', 't', 'a', 'e', 'o', 'f', 'r'] from by decide +kernel]; tauto
  · exact patch_takes.right (mem_iff_of (by decide +kernel)) (mem_iff_of (by decide +kernel))

/-- **C76.** The same for `gr1c-autman`. -/
theorem autman_help (me : List Char) : Right (described (helpAutman me)) (fun args => amLoop AmCfg.default args = .bad) ∧
    ∃ os, UsageSays (helpAutman me) me os ∧ Right os (fun args => amLoop AmCfg.default args = .bad) := by
  refine ⟨?_, _, ⟨_, rfl, rfl⟩, ?_⟩
  · rw [described_autman]
    refine autman_takes.right (fun c => ?_) (fun c => ?_)
    · simp [show "hVvlsP".toList = ['h', 'V', 'v', 'l', 's', 'P'] from by decide +kernel]
    · simp [show "tLio".toList = ['t', 'L', 'i', 'o'] from by decide +kernel]
  · exact autman_takes.right (mem_iff_of (by decide +kernel)) (mem_iff_of (by decide +kernel))

/-- **C76 for `gr1c-rg`, what is true:** every option described is taken, and every option that is taken is described, except `-p`. -/
theorem rg_help_partial (me : List Char) :
    Right (('p', false) :: described (helpRg me)) (fun args => rgOptLoop true Cfg.rgDefault args = .usage) ∧
    ∃ os, UsageSays (helpRg me) me os ∧
      Right (('p', false) :: ('n', true) :: os) (fun args => rgOptLoop true Cfg.rgDefault args = .usage) := by
  refine ⟨?_, _, ⟨_, rfl, rfl⟩, ?_⟩
  · rw [described_rg]
    refine rg_takes.right (fun c => ?_) (fun c => ?_)
    · simp [show "hVvlsp".toList = ['h', 'V', 'v', 'l', 's', 'p'] from by decide +kernel]; tauto
    · simp [show "nto".toList = ['n', 't', 'o'] from by decide +kernel]; tauto
  · refine rg_takes.right (fun c => ?_) (fun c => ?_)
    · rw [mem_iff_of (l := "phVvls".toList) (by decide +kernel)]
      simp [show "hVvlsp".toList = ['h', 'V', 'v', 'l', 's', 'p'] from by decide +kernel,
        show "phVvls".toList = ['p', 'h', 'V', 'v', 'l', 's'] from by decide +kernel]; tauto
    · rw [mem_iff_of (l := "nto".toList) (by decide +kernel)]

/-- **C76 is false for `gr1c-rg`** (a defect of the text): it takes `-p`, which the help text does not describe, and the usage line does
not have `-n`, which it describes. -/
theorem rg_help_wrong (me : List Char) : ¬ Right (described (helpRg me)) (fun args => rgOptLoop true Cfg.rgDefault args = .usage) ∧
    ∀ os, UsageSays (helpRg me) me os → ('n', true) ∉ os ∧ ('n', true) ∈ described (helpRg me) := by
  constructor
  · intro h
    have h1 := (h 'p' (by decide)).1.2 (by decide +kernel)
    rw [described_rg] at h1
    revert h1
    decide
  · rintro os ⟨tail, h1, rfl⟩
    have h2 : tail = " [-hVvls] [-t TYPE] [-o FILE] [[--] FILE]".toList := (eq_tail h1).symm
    rw [h2, described_rg]
    exact ⟨by decide +kernel, by decide⟩

/-! ## Arguments and defaults -/

/-- Words separated by `, `. -/
def commaWords (w : List Char) : List Char → List (List Char)
  | [] => [w]
  | c :: cs => if c = ',' then w :: commaWords [] (cs.dropWhile (· = ' ')) else commaWords (w ++ [c]) cs
  termination_by l => l.length
  decreasing_by
    · have := (List.dropWhile_suffix (fun x => decide (x = ' ')) (l := cs)).length_le
      simp only [List.length_cons]; omega
    · simp

/-- The formats that a help text lists. -/
def listedFormats (h : List (List Char)) : List (List Char) :=
  h.flatMap fun l => (((stripPre "supported formats: ".toList (l.dropWhile (· = ' '))).orElse fun _ =>
    stripPre "  -t TYPE     convert to format: ".toList l).map (commaWords [])).getD []

/-- The interpretations of initial conditions that a help text lists: words in lines of their own, with a mark at the default. -/
def listedInits (h : List (List Char)) : List (List Char × Bool) :=
  h.filterMap fun l => (stripPre "                  ".toList l).map fun r => (r.takeWhile (· ≠ ' '), decide (r.dropWhile (· ≠ ' ') ≠ []))

/-- `a` begins with one of the words. -/
def BeginsWith (ws : List (List Char)) (a : List Char) : Prop := ∃ w ∈ ws, w <+: a

theorem format_words (a : Arg) : (formatOf a).isSome = true ↔
    BeginsWith ["txt".toList, "dot".toList, "aut".toList, "json".toList, "tulip".toList] a := by
  unfold formatOf BeginsWith hasPfx
  simp only [List.mem_cons, List.not_mem_nil, or_false, exists_eq_or_imp, exists_eq_left, ← List.isPrefixOf_iff_prefix]
  split_ifs <;> simp_all


theorem init_words (a : Arg) : (initOf a).isSome = true ↔
    BeginsWith ["all_env_exist_sys_init".toList, "all_init".toList, "one_side_init".toList] (a.map Char.toLower) := by
  unfold initOf BeginsWith hasPfx
  simp only [List.mem_cons, List.not_mem_nil, or_false, exists_eq_or_imp, exists_eq_left, ← List.isPrefixOf_iff_prefix]
  split_ifs <;> simp_all

/-- The order of the words does not matter. -/
theorem BeginsWith.congr {u v : List (List Char)} (h : ∀ w, w ∈ u ↔ w ∈ v) (a : List Char) : BeginsWith u a ↔ BeginsWith v a := by
  unfold BeginsWith; simp only [h]

/-- A text that begins with another letter does not begin with `p`. -/
theorem stripPre_head {p s : List Char} {c d : Char} (hp : p.head? = some d) (hs : s.head? = some c) (h : c ≠ d) : stripPre p s = none := by
  cases p with
  | nil => cases hp
  | cons x p =>
    cases s with
    | nil => cases hs
    | cons y s =>
      simp only [List.head?_cons, Option.some.injEq] at hp hs
      subst hp; subst hs
      rw [stripPre, if_neg (fun e => h e.symm)]

theorem head_append {s : List Char} {c : Char} (h : s.head? = some c) (r : List Char) : (s ++ r).head? = some c := by
  rw [List.head?_append, h]; rfl

/-- The marks before the formats. -/
def mark1 : List Char := "supported formats: ".toList
def mark2 : List Char := "  -t TYPE     convert to format: ".toList

theorem mark1_head : mark1.head? = some 's' := by decide +kernel
theorem mark2_head : mark2.head? = some ' ' := by decide +kernel

theorem listedFormats_eq' (h : List (List Char)) : listedFormats h = h.flatMap fun l =>
    (((stripPre mark1 (l.dropWhile (· = ' '))).orElse fun _ => stripPre mark2 l).map (commaWords [])).getD [] := rfl

theorem listedFormats_none {s : List Char} {c : Char} (h : s.head? = some c) (h1 : c ≠ ' ') (h2 : c ≠ 's') : listedFormats [s] = [] := by
  cases s with
  | nil => cases h
  | cons x s =>
    have hx : x = c := by simpa using h
    subst hx
    have e1 : stripPre mark1 (x :: s) = none := stripPre_head mark1_head rfl h2
    have e2 : stripPre mark2 (x :: s) = none := stripPre_head mark2_head rfl h1
    rw [listedFormats_eq']
    simp [h1, e1, e2]

theorem usage_formats (r : List Char) : listedFormats ["Usage: ".toList ++ r] = [] :=
  listedFormats_none (head_append (c := 'U') (by decide +kernel) r) (by decide) (by decide)

theorem other_formats (r : List Char) : listedFormats ["For other commands, use: ".toList ++ r] = [] :=
  listedFormats_none (head_append (c := 'F') (by decide +kernel) r) (by decide) (by decide)

theorem listedFormats_append (a b : List (List Char)) : listedFormats (a ++ b) = listedFormats a ++ listedFormats b := List.flatMap_append

/-- The formats that the four texts list. -/
theorem listedFormats_eq (me : List Char) :
    listedFormats (helpGr1c me) = ["txt".toList, "dot".toList, "aut".toList, "json".toList, "tulip".toList] ∧
    listedFormats (helpRg me) = ["txt".toList, "dot".toList, "aut".toList, "json".toList, "tulip".toList] ∧
    listedFormats (helpPatch me) = ["txt".toList, "dot".toList, "aut".toList, "json".toList, "tulip".toList] ∧
    listedFormats (helpAutman me) = ["txt".toList, "dot".toList, "aut".toList, "json".toList, "tulip".toList] := by
  refine ⟨?_, ?_, ?_, ?_⟩
  · have h : helpGr1c me = (helpGr1c me).take 1 ++ (((helpGr1c []).drop 1).take 21 ++
        ((((helpGr1c me).drop 22).take 1) ++ ((helpGr1c []).drop 23))) := rfl
    rw [h, listedFormats_append, listedFormats_append, listedFormats_append]
    have h1 : listedFormats ((helpGr1c me).take 1) = [] := by
      show listedFormats ["Usage: ".toList ++ me ++ _] = []
      rw [List.append_assoc]
      exact usage_formats _
    have h2 : listedFormats (((helpGr1c me).drop 22).take 1) = [] := by
      show listedFormats ["For other commands, use: ".toList ++ me ++ _] = []
      rw [List.append_assoc]
      exact other_formats _
    rw [h1, h2]
    decide +kernel
  · have h : helpRg me = (helpRg me).take 1 ++ (helpRg []).drop 1 := rfl
    rw [h, listedFormats_append]
    have h1 : listedFormats ((helpRg me).take 1) = [] := by
      show listedFormats ["Usage: ".toList ++ me ++ _] = []
      rw [List.append_assoc]
      exact usage_formats _
    rw [h1]
    decide +kernel
  · have h : helpPatch me = (helpPatch me).take 1 ++ (helpPatch []).drop 1 := rfl
    rw [h, listedFormats_append]
    have h1 : listedFormats ((helpPatch me).take 1) = [] := by
      show listedFormats ["Usage: ".toList ++ me ++ _] = []
      rw [List.append_assoc]
      exact usage_formats _
    rw [h1]
    decide +kernel
  · have h : helpAutman me = (helpAutman me).take 1 ++ (helpAutman []).drop 1 := rfl
    rw [h, listedFormats_append]
    have h1 : listedFormats ((helpAutman me).take 1) = [] := by
      show listedFormats ["Usage: ".toList ++ me ++ _] = []
      rw [List.append_assoc]
      exact usage_formats _
    rw [h1]
    decide +kernel

/-- **C76, formats.** `-t` accepts exactly the words that begin with a format listed in the help text, in each of the four programs. -/
theorem formats_listed (me a : List Char) :
    (optLoop true Cfg.default [['-', 't'], a] ≠ .usage ↔ BeginsWith (listedFormats (helpGr1c me)) a) ∧
    (rgOptLoop true Cfg.rgDefault [['-', 't'], a] ≠ .usage ↔ BeginsWith (listedFormats (helpRg me)) a) ∧
    (pgOptLoop true {} [['-', 't'], a] ≠ .usage ↔ BeginsWith (listedFormats (helpPatch me)) a) ∧
    (amLoop AmCfg.default [['-', 't'], a] ≠ .bad ↔ BeginsWith (listedFormats (helpAutman me)) a) := by
  obtain ⟨h1, h2, h3, h4⟩ := listedFormats_eq me
  rw [h1, h2, h3, h4, ← format_words]
  refine ⟨?_, ?_, ?_, ?_⟩
  · rw [optLoop_short _ _ (by decide)]
    cases h : formatOf a <;> simp [argFlag, h, optLoop.eq_def]
  · rw [rgOptLoop_short _ _ (by decide)]
    cases h : formatOf a <;> simp [rgArgFlag, h, rgOptLoop.eq_def]
  · rw [pgOptLoop_short _ _ (by decide)]
    cases h : formatOf a <;> simp [pgArgFlag, pgTakesArg, h, pgOptLoop.eq_def]
  · rw [amLoop.eq_def]
    cases h : formatOf a <;> simp [amKind, amFlag, amArg, h, amLoop.eq_def]

def markI : List Char := "                  ".toList

theorem markI_head : markI.head? = some ' ' := by decide +kernel

theorem listedInits_eq' (h : List (List Char)) : listedInits h = h.filterMap fun l =>
    (stripPre markI l).map fun r => (r.takeWhile (· ≠ ' '), decide (r.dropWhile (· ≠ ' ') ≠ [])) := rfl

theorem listedInits_none {s : List Char} {c : Char} (h : s.head? = some c) (h1 : c ≠ ' ') : listedInits [s] = [] := by
  rw [listedInits_eq', List.filterMap_cons, stripPre_head markI_head h h1]; rfl

theorem listedInits_append (a b : List (List Char)) : listedInits (a ++ b) = listedInits a ++ listedInits b := List.filterMap_append

theorem listedInits_gr1c (me : List Char) : listedInits ((helpGr1c me).drop 1) = listedInits ((helpGr1c []).drop 1) := by
  have h : ∀ me, listedInits ((helpGr1c me).drop 1) =
      listedInits (((helpGr1c []).drop 1).take 21) ++ ([] ++ listedInits ((helpGr1c []).drop 23)) := by
    intro me
    have h : (helpGr1c me).drop 1 = ((helpGr1c []).drop 1).take 21 ++
        ((((helpGr1c me).drop 22).take 1) ++ ((helpGr1c []).drop 23)) := rfl
    have h2 : listedInits (((helpGr1c me).drop 22).take 1) = [] := by
      show listedInits ["For other commands, use: ".toList ++ me ++ _] = []
      rw [List.append_assoc]
      exact listedInits_none (head_append (c := 'F') (by decide +kernel) _) (by decide)
    rw [h, listedInits_append, listedInits_append, h2]
  rw [h me, h []]

/-- **C76, initial conditions.** `-n` accepts, in any case of the letters, exactly the words that begin with an interpretation listed. -/
theorem inits_listed (me a : List Char) :
    (optLoop true Cfg.default [['-', 'n'], a] ≠ .usage ↔
      BeginsWith ((listedInits ((helpGr1c me).drop 1)).map fun p => p.1.map Char.toLower) (a.map Char.toLower)) ∧
    (rgOptLoop true Cfg.rgDefault [['-', 'n'], a] ≠ .usage ↔
      BeginsWith ((listedInits ((helpRg me).drop 1)).map fun p => p.1.map Char.toLower) (a.map Char.toLower)) := by
  have e1 : (listedInits ((helpGr1c me).drop 1)).map (fun p => p.1.map Char.toLower) =
      ["all_env_exist_sys_init".toList, "all_init".toList, "one_side_init".toList] := by
    rw [listedInits_gr1c]
    decide +kernel
  have e2 : (listedInits ((helpRg me).drop 1)).map (fun p => p.1.map Char.toLower) = ["all_init".toList] := by
    show (listedInits ((helpRg []).drop 1)).map (fun p => p.1.map Char.toLower) = _
    decide +kernel
  rw [e1, e2, ← init_words]
  constructor
  · rw [optLoop_short _ _ (by decide)]
    cases h : initOf a <;> simp [argFlag, h, optLoop.eq_def]
  · rw [rgOptLoop_short _ _ (by decide)]
    have h0 : hasPfx "all_init" (a.map Char.toLower) = true ↔ BeginsWith ["all_init".toList] (a.map Char.toLower) := by
      unfold hasPfx BeginsWith
      simp only [List.mem_singleton, exists_eq_left, List.isPrefixOf_iff_prefix]
    rw [← h0]
    cases h : hasPfx "all_init" (a.map Char.toLower) <;> simp [rgArgFlag, h, rgOptLoop.eq_def]

/-- **C76, defaults.** The interpretation marked as default is the one that `-n` with that word sets, and the format named as default is the
one that `-t` with that word sets: the option changes nothing. -/
theorem defaults_listed (me : List Char) :
    (∀ p ∈ listedInits ((helpGr1c me).drop 1), p.2 = true → optLoop true Cfg.default [['-', 'n'], p.1] = .go Cfg.default) ∧
    (∀ p ∈ listedInits ((helpRg me).drop 1), p.2 = true → rgOptLoop true Cfg.rgDefault [['-', 'n'], p.1] = .go Cfg.rgDefault) ∧
    (∀ q ∈ [helpGr1c me, helpRg me, helpPatch me], ∃ l ∈ q, ∃ u, l = u ++ "strategy output format; default is \"json\";".toList) ∧
    optLoop true Cfg.default [['-', 't'], "json".toList] = .go Cfg.default ∧
    rgOptLoop true Cfg.rgDefault [['-', 't'], "json".toList] = .go Cfg.rgDefault ∧
    pgOptLoop true {} [['-', 't'], "json".toList] = .go {} := by
  refine ⟨?_, ?_, ?_, by decide +kernel, by decide +kernel, by decide +kernel⟩
  · rw [listedInits_gr1c]
    decide +kernel
  · show ∀ p ∈ listedInits ((helpRg []).drop 1), _
    decide +kernel
  intro q hq
  simp only [List.mem_cons, List.not_mem_nil, or_false] at hq
  rcases hq with rfl | rfl | rfl
  · exact ⟨(helpGr1c []).getD 6 [], by
      rw [show helpGr1c me = (helpGr1c me).take 6 ++ ((helpGr1c []).getD 6 [] :: (helpGr1c me).drop 7) from rfl]; simp,
      "  -t TYPE     ".toList, by decide +kernel⟩
  · exact ⟨(helpRg []).getD 6 [], by
      rw [show helpRg me = (helpRg me).take 6 ++ ((helpRg []).getD 6 [] :: (helpRg me).drop 7) from rfl]; simp,
      "  -t TYPE   ".toList, by decide +kernel⟩
  · exact ⟨(helpPatch []).getD 6 [], by
      rw [show helpPatch me = (helpPatch me).take 6 ++ ((helpPatch []).getD 6 [] :: (helpPatch me).drop 7) from rfl]; simp,
      "  -t TYPE     ".toList, by decide +kernel⟩

/-! ## Examples -/

/-- The usage line of `gr1c-patch`: `-aeo FILE` are three options with an argument. -/
example : ('e', true) ∈ usageOf " [-hVvlp] [-m VARS] [-t TYPE] [-aeo FILE] [-f FORM] [-r N] [[--] FILE]".toList := by decide +kernel
example : describes "  -r N        remove system goal N (in order, according to given file);".toList = some ('r', true) := by decide +kernel
example : describes "              requires -a flag.".toList = none := by decide +kernel
example : listedInits ((helpGr1c []).drop 1) =
    [("ALL_ENV_EXIST_SYS_INIT".toList, true), ("ALL_INIT".toList, false), ("ONE_SIDE_INIT".toList, false)] := by decide +kernel
example : optLoop true Cfg.default [['-', 'n'], "One_Side_Init".toList] ≠ .usage :=
  ((inits_listed [] _).1).2 ⟨"one_side_init".toList, by decide +kernel, by decide +kernel⟩
/-- `gr1c-rg -p` is accepted. -/
example : rgOptLoop true Cfg.rgDefault ["-p".toList] ≠ .usage := by decide +kernel

end Gr1c
