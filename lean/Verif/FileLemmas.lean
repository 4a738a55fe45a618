import Verif.FileSpec
import Verif.ParseLemmas

/-! # Lemmas about parsing files -/

namespace Gr1c

open PTree

/-- Tokens that occur in formulas. -/
def isFTok : Tok → Bool
  | .ident _ | .num _ | .tt | .ff | .le | .ge | .ne | .implies | .equiv => true
  | .chr c => c != ';'
  | _ => false

theorem gram_toks {primes : Bool} {k : ℕ} {ts : List Tok} {f : Fm} (h : Gram primes k ts f) :
    ∀ t ∈ ts, isFTok t = true := by
  induction h with
  | tt => decide
  | ff => decide
  | var nx n _ => cases nx <;> simp [primeToks, isFTok]
  | cmp op nx n k _ => cases nx <;> cases op <;> simp [primeToks, isFTok, CmpOp.tok]
  | neg h ih =>
    intro t ht
    rcases List.mem_cons.1 ht with rfl | ht
    · rfl
    · exact ih t ht
  | paren h ih =>
    intro t ht
    simp only [List.mem_cons, List.mem_append, List.not_mem_nil, or_false] at ht
    rcases ht with rfl | ht | rfl
    · rfl
    · exact ih t ht
    · rfl
  | up _ _ ih => exact ih
  | and _ _ ih1 ih2 | or _ _ ih1 ih2 | imp _ _ ih1 ih2 | equiv _ _ ih1 ih2 =>
    intro t ht
    simp only [List.mem_cons, List.mem_append] at ht
    rcases ht with ht | rfl | ht
    · exact ih1 t ht
    · rfl
    · exact ih2 t ht

theorem gram_ne_nil {primes : Bool} {k : ℕ} {ts : List Tok} {f : Fm} (h : Gram primes k ts f) : ts ≠ [] := by
  induction h <;> simp_all

theorem splitOn_ne_nil (sep : Tok) (ts : List Tok) : splitOn sep ts ≠ [] := by
  cases ts with
  | nil => simp [splitOn]
  | cons t ts =>
    simp only [splitOn]
    split
    · simp
    · split <;> simp

theorem splitOn_free {sep : Tok} {ts : List Tok} (h : sep ∉ ts) : splitOn sep ts = [ts] := by
  induction ts with
  | nil => rfl
  | cons t ts ih =>
    simp only [List.mem_cons, not_or] at h
    simp only [splitOn, if_neg (Ne.symm h.1), ih h.2]

theorem splitOn_append {sep : Tok} {ts ts' : List Tok} (h : sep ∉ ts) :
    splitOn sep (ts ++ sep :: ts') = ts :: splitOn sep ts' := by
  induction ts with
  | nil => simp [splitOn]
  | cons t ts ih =>
    simp only [List.mem_cons, not_or] at h
    simp only [List.cons_append, splitOn, if_neg (Ne.symm h.1), ih h.2]

theorem pieces_more {primes : Bool} {sep : Tok} (hsep : isFTok sep = false) {fs : List Fm} {tss : List Tok}
    (hs : MoreToks primes sep fs tss) : ∀ {f : Fm} {ts : List Tok}, Gram primes 0 ts f →
    parsePieces primes .nil (splitOn sep (ts ++ tss)) = some ((f :: fs).map Fm.toTree) := by
  have hfree : ∀ {f ts}, Gram primes 0 ts f → sep ∉ ts := by
    intro f ts h hm
    rw [gram_toks h _ hm] at hsep
    cases hsep
  induction hs with
  | nil =>
    intro f ts h
    rw [List.append_nil, splitOn_free (hfree h)]
    simp [parsePieces, parse_complete h]
  | cons h' hs ih =>
    intro f ts h
    rw [splitOn_append (hfree h)]
    simp only [parsePieces, parse_complete h, ih h', List.map_cons]

/-! ## Declarations -/

theorem parseDecls_ident {env : Bool} {n : Name} {ts : List Tok} (ev sv : PTree) (h : ts.head? ≠ some (.chr '[')) :
    parseDecls env (.ident n :: ts) ev sv =
      match declare (if env then ev else sv) ev sv n (-1) with
      | none => none
      | some l => if env then parseDecls env ts l sv else parseDecls env ts ev l := by
  rw [parseDecls]
  · cases declare (if env then ev else sv) ev sv n (-1) <;> rfl
  · intro a b ts' h1
    rw [h1] at h
    simp at h

theorem declared_iff (ds : Decls) (n : Name) (v : ℤ) :
    (ds.tree ≠ .nil ∧ findListItem ds.tree .var (some n) v ≠ -1) ↔ n ∈ ds.map Prod.fst := by
  have key : ∀ i : ℤ, 0 ≤ i → (findListFrom .var (some n) v i (Decls.tree ds) ≠ -1 ↔ n ∈ ds.map Prod.fst) := by
    induction ds with
    | nil => intro i _; simp [Decls.tree, ofItems, findListFrom]
    | cons d ds ih =>
      intro i hi
      by_cases hd : d.1 = n
      · simp only [Decls.tree, List.map_cons, ofItems, findListFrom, hd]
        simp
        omega
      · have hd' : n ≠ d.1 := fun h => hd h.symm
        have := ih (i + 1) (by omega)
        simp only [Decls.tree] at this
        simp only [Decls.tree, List.map_cons, ofItems, findListFrom, hd, List.mem_cons, hd', false_or]
        simpa [hd] using this
  unfold findListItem
  constructor
  · intro h; exact (key 0 (by omega)).1 h.2
  · intro h
    refine ⟨?_, (key 0 (by omega)).2 h⟩
    cases ds with
    | nil => simp at h
    | cons d ds => simp [Decls.tree, ofItems]

theorem append_tree (ds : Decls) (n : Name) (v : ℤ) :
    (if ds.tree = .nil then initPtree .var (some n) v else appendListItem ds.tree .var (some n) v) =
      Decls.tree (ds ++ [(n, v)]) := by
  cases ds with
  | nil => simp [Decls.tree, ofItems, initPtree]
  | cons d ds =>
    rw [if_neg (by simp [Decls.tree, ofItems])]
    unfold Decls.tree
    rw [list_append]
    simp [storedItem]

theorem declare_eq (env : Bool) (es ss : Decls) (n : Name) (v : ℤ) :
    declare (if env then es.tree else ss.tree) es.tree ss.tree n v =
      if n ∈ es.map Prod.fst ++ ss.map Prod.fst then none
      else some (Decls.tree ((if env then es else ss) ++ [(n, v)])) := by
  unfold declare
  have h1 := declared_iff es n v
  have h2 := declared_iff ss n v
  by_cases h : n ∈ es.map Prod.fst ++ ss.map Prod.fst
  · rw [if_pos h, if_pos]
    rw [h1, h2]
    simpa using h
  · rw [if_neg h, if_neg]
    · cases env
      · simp only [Bool.false_eq_true, if_false]
        rw [← append_tree]; split <;> rfl
      · simp only [if_true]
        rw [← append_tree]; split <;> rfl
    · rw [h1, h2]
      simpa using h

theorem declToks_head (ds : Decls) : (ds.flatMap declToks).head? ≠ some (.chr '[') := by
  cases ds with
  | nil => simp
  | cons d ds =>
    simp only [List.flatMap_cons, declToks]
    split <;> simp

theorem parseDecls_eq (env : Bool) (ds : Decls) (hg : GoodDecls ds) : ∀ es ss : Decls,
    parseDecls env (ds.flatMap declToks) es.tree ss.tree =
      if (∀ x ∈ ds, x.1 ∉ es.map Prod.fst ++ ss.map Prod.fst) ∧ (ds.map Prod.fst).Nodup then
        some (if env then (Decls.tree (es ++ ds), ss.tree) else (es.tree, Decls.tree (ss ++ ds)))
      else none := by
  induction ds with
  | nil => intro es ss; cases env <;> simp [parseDecls]
  | cons d ds ih =>
    intro es ss
    have ih := ih fun x hx => hg x (by simp [hx])
    obtain ⟨n, v⟩ := d
    have step : parseDecls env (((n, v) :: ds).flatMap declToks) es.tree ss.tree =
        match declare (if env then es.tree else ss.tree) es.tree ss.tree n v with
        | none => none
        | some l => if env then parseDecls env (ds.flatMap declToks) l ss.tree
            else parseDecls env (ds.flatMap declToks) es.tree l := by
      rcases hg (n, v) (by simp) with hv | hv
      · simp only at hv
        subst hv
        simp only [List.flatMap_cons]
        rw [show declToks (n, -1) = [.ident n] from rfl]
        exact parseDecls_ident _ _ (declToks_head ds)
      · simp only at hv
        simp only [List.flatMap_cons]
        rw [show declToks (n, v) = [.ident n, .chr '[', .num 0, .chr ',', .num v.toNat, .chr ']'] from
          if_neg (by simp only; omega)]
        simp only [List.cons_append, List.nil_append, parseDecls]
        rw [if_neg (by simp), Int.toNat_of_nonneg hv]
        cases declare (if env then es.tree else ss.tree) es.tree ss.tree n v <;> rfl
    rw [step, declare_eq]
    by_cases hn : n ∈ es.map Prod.fst ++ ss.map Prod.fst
    · rw [if_pos hn, if_neg]
      rintro ⟨h1, -⟩
      exact h1 (n, v) (by simp) hn
    · rw [if_neg hn]
      cases env
      · simp only [Bool.false_eq_true, if_false]
        rw [ih]
        simp only [Bool.false_eq_true, if_false, List.append_assoc, List.cons_append, List.nil_append]
        congr 1
        simp only [List.map_append, List.map_cons, List.map_nil, List.mem_append, List.mem_cons,
          List.not_mem_nil, or_false, List.nodup_cons, eq_iff_iff] at hn ⊢
        constructor
        · rintro ⟨h1, h2⟩
          refine ⟨?_, ?_, h2⟩
          · rintro x (rfl | hx)
            · exact hn
            · have := h1 x hx; tauto
          · intro hm
            obtain ⟨x, hx, rfl⟩ := List.mem_map.1 hm
            have := h1 x hx; tauto
        · rintro ⟨h1, h2, h3⟩
          refine ⟨?_, h3⟩
          intro x hx
          have := h1 x (Or.inr hx)
          have h4 : x.1 ≠ n := by rintro rfl; exact h2 (List.mem_map.2 ⟨x, hx, rfl⟩)
          tauto
      · simp only [if_true]
        rw [ih]
        simp only [if_true, List.append_assoc, List.cons_append, List.nil_append]
        congr 1
        simp only [List.map_append, List.map_cons, List.map_nil, List.mem_append, List.mem_cons,
          List.not_mem_nil, or_false, List.nodup_cons, eq_iff_iff] at hn ⊢
        constructor
        · rintro ⟨h1, h2⟩
          refine ⟨?_, ?_, h2⟩
          · rintro x (rfl | hx)
            · exact hn
            · have := h1 x hx; tauto
          · intro hm
            obtain ⟨x, hx, rfl⟩ := List.mem_map.1 hm
            have := h1 x hx; tauto
        · rintro ⟨h1, h2, h3⟩
          refine ⟨?_, h3⟩
          intro x hx
          have := h1 x (Or.inr hx)
          have h4 : x.1 ≠ n := by rintro rfl; exact h2 (List.mem_map.2 ⟨x, hx, rfl⟩)
          tauto

/-! ## Sections -/

/-- What the parser stores for what a file says. -/
def FileData.toP (d : FileData) : PState := ⟨d.evars.tree, d.svars.tree, d.sp.toT, .nil⟩

theorem optTree_nil_iff (o : Option Fm) : optTree o = .nil ↔ o = none := by
  cases o <;> simp [optTree, toTree_ne_nil]

theorem const1_tree : initPtree .const none 1 = (Fm.const 1).toTree := rfl

theorem parseSection_eq {rg : Bool} {s : Sec} {ts : List Tok} (h : SecToks rg s ts) (d : FileData) :
    parseSection rg d.toP ts = (s.add d).map FileData.toP := by
  obtain ⟨es, ss, ei, si, et, st, eg, sg⟩ := d
  cases h with
  | vars env ds h =>
    cases env
    · simp only [Bool.false_eq_true, if_false, parseSection, FileData.toP, Sec.add, FileData.names]
      rw [parseDecls_eq false ds h]
      split <;> simp [FileData.toP]
    · simp only [if_true, parseSection, FileData.toP, Sec.add, FileData.names]
      rw [parseDecls_eq true ds h]
      split <;> simp [FileData.toP]
  | init0 env =>
    cases env
    · simp only [Bool.false_eq_true, if_false, parseSection, FileData.toP, Sec.add, parseInit, if_true, FSpec.toT]
      cases si <;> simp [optTree, toTree_ne_nil, FileData.toP, FSpec.toT]
    · simp only [if_true, parseSection, FileData.toP, Sec.add, parseInit, FSpec.toT]
      cases ei <;> simp [optTree, toTree_ne_nil, FileData.toP, FSpec.toT]
  | init1 env h =>
    cases env
    · simp only [Bool.false_eq_true, if_false, parseSection, FileData.toP, Sec.add, parseInit, FSpec.toT,
        if_neg (gram_ne_nil h), parse_complete h]
      cases si <;> simp [optTree, toTree_ne_nil, FileData.toP, FSpec.toT]
    · simp only [if_true, parseSection, FileData.toP, Sec.add, parseInit, FSpec.toT,
        if_neg (gram_ne_nil h), parse_complete h]
      cases ei <;> simp [optTree, toTree_ne_nil, FileData.toP, FSpec.toT]
  | trans0 env =>
    cases env
    · simp only [Bool.false_eq_true, if_false, parseSection, FileData.toP, Sec.add, parseTrans, FSpec.toT,
        const1_tree]
      cases st <;> simp [FileData.toP, FSpec.toT]
    · simp only [if_true, parseSection, FileData.toP, Sec.add, parseTrans, FSpec.toT, const1_tree]
      cases et <;> simp [FileData.toP, FSpec.toT]
  | trans1 env h hs =>
    cases env
    · simp only [Bool.false_eq_true, if_false, parseSection, FileData.toP, Sec.add, parseTrans, FSpec.toT,
        pieces_more (by rfl) hs h]
      simp [FileData.toP, FSpec.toT]
    · simp only [if_true, parseSection, FileData.toP, Sec.add, parseTrans, FSpec.toT,
        pieces_more (by rfl) hs h]
      simp [FileData.toP, FSpec.toT]
  | goal0 env =>
    cases env
    · simp only [Bool.false_eq_true, if_false, parseSection, FileData.toP, Sec.add, parseGoal, FSpec.toT,
        const1_tree]
      simp [FileData.toP, FSpec.toT]
    · simp only [if_true, parseSection, FileData.toP, Sec.add, parseGoal, FSpec.toT]
      simp [FileData.toP, FSpec.toT]
  | goal1 env hr h hs =>
    cases env
    · have hr : rg = false := by simpa using hr
      subst hr
      simp only [Bool.false_eq_true, if_false, parseSection, FileData.toP, Sec.add, parseGoal, FSpec.toT,
        pieces_more (by rfl) hs h, Bool.false_and]
      simp [FileData.toP, FSpec.toT]
    · simp only [if_true, parseSection, FileData.toP, Sec.add, parseGoal, FSpec.toT,
        pieces_more (by rfl) hs h, Bool.and_false, Bool.false_eq_true, if_false]
      simp [FileData.toP, FSpec.toT]
  | reach hr h =>
    simp only [parseSection, FileData.toP, Sec.add, parseGoal, FSpec.toT, parse_complete h, hr, Bool.and_true,
      if_true]
    simp [FileData.toP, FSpec.toT]

theorem more_semi {primes : Bool} {sep : Tok} (hsep : sep ≠ .chr ';') {fs : List Fm} {tss : List Tok}
    (hs : MoreToks primes sep fs tss) : Tok.chr ';' ∉ tss := by
  induction hs with
  | nil => simp
  | cons h hs ih =>
    have := gram_toks h (.chr ';')
    simp only [isFTok, bne_self_eq_false, Bool.false_eq_true, imp_false] at this
    simp only [List.mem_cons, List.mem_append, not_or]
    exact ⟨fun h' => hsep h'.symm, this, ih⟩

theorem secToks_semi {rg : Bool} {s : Sec} {ts : List Tok} (h : SecToks rg s ts) : Tok.chr ';' ∉ ts := by
  have hg : ∀ {primes k ts f}, Gram primes k ts f → Tok.chr ';' ∉ ts := by
    intro primes k ts f h hm
    have := gram_toks h _ hm
    simp [isFTok] at this
  cases h with
  | vars env ds h =>
    simp only [List.mem_cons, List.mem_flatMap, declToks, not_or, not_exists, not_and]
    refine ⟨by cases env <;> simp, ?_⟩
    intro d _
    split <;> simp
  | init0 env => cases env <;> simp
  | init1 env h => cases env <;> simp [hg h]
  | trans0 env => cases env <;> simp
  | trans1 env h hs => cases env <;> simp [hg h, more_semi (by decide) hs]
  | goal0 env => cases env <;> simp
  | goal1 env hr h hs => cases env <;> simp [hg h, more_semi (by decide) hs]
  | reach hr h => simp [hg h]

theorem secToks_header {rg : Bool} {s : Sec} {ts : List Tok} (h : SecToks rg s ts) :
    ∃ t ts', ts = t :: ts' ∧ isHeader t = true := by
  cases h with
  | vars env ds h => exact ⟨_, _, rfl, by cases env <;> rfl⟩
  | init0 env => exact ⟨_, _, rfl, by cases env <;> rfl⟩
  | init1 env h => exact ⟨_, _, rfl, by cases env <;> rfl⟩
  | trans0 env => exact ⟨_, _, rfl, by cases env <;> rfl⟩
  | trans1 env h hs => exact ⟨_, _, rfl, by cases env <;> rfl⟩
  | goal0 env => exact ⟨_, _, rfl, by cases env <;> rfl⟩
  | goal1 env hr h hs => exact ⟨_, _, rfl, by cases env <;> rfl⟩
  | reach hr h => exact ⟨_, _, rfl, rfl⟩

theorem parseSections_eq {rg : Bool} {ss : List Sec} {ts : List Tok} (h : FileToks rg ss ts) :
    ∀ d : FileData, parseSections rg d.toP (splitOn (.chr ';') ts) = (readSecs d ss).map FileData.toP := by
  induction h with
  | nil => intro d; simp [splitOn, parseSections, readSecs]
  | @cons s ts ss tss h hs ih =>
    intro d
    rw [splitOn_append (secToks_semi h)]
    cases hsp : splitOn (.chr ';') tss with
    | nil => exact absurd hsp (splitOn_ne_nil _ _)
    | cons p ps =>
      simp only [parseSections, readSecs, parseSection_eq h]
      cases s.add d with
      | none => rfl
      | some d' => simp only [Option.map_some]; rw [← hsp]; exact ih d'

/-! ## Only specification files are accepted -/

theorem splitOn_cons {sep : Tok} {ts p : List Tok} {ps : List (List Tok)} (h : splitOn sep ts = p :: ps) :
    (ps = [] ∧ ts = p) ∨ ∃ ts', ts = p ++ sep :: ts' ∧ splitOn sep ts' = ps := by
  induction ts generalizing p ps with
  | nil => simp only [splitOn, List.cons.injEq] at h; left; exact ⟨h.2.symm, h.1⟩
  | cons t ts ih =>
    simp only [splitOn] at h
    split at h
    · rename_i ht
      simp only [List.cons.injEq] at h
      right
      exact ⟨ts, by rw [← h.1, ht]; rfl, h.2⟩
    · cases hs : splitOn sep ts with
      | nil => exact absurd hs (splitOn_ne_nil _ _)
      | cons q qs =>
        rw [hs] at h
        simp only [List.cons.injEq] at h
        obtain ⟨rfl, rfl⟩ := h
        rcases ih hs with ⟨h1, h2⟩ | ⟨ts', h1, h2⟩
        · left; exact ⟨h1, by rw [h2]⟩
        · right; exact ⟨ts', by rw [h1]; rfl, h2⟩

theorem parsePieces_sound {primes : Bool} {sep : Tok} : ∀ (n : ℕ) (ts : List Tok) (l : List PTree), ts.length ≤ n →
    parsePieces primes .nil (splitOn sep ts) = some l →
    ∃ f ts1 fs tss, ts = ts1 ++ tss ∧ Gram primes 0 ts1 f ∧ MoreToks primes sep fs tss := by
  intro n
  induction n with
  | zero =>
    intro ts l hn h
    have : ts = [] := List.length_eq_zero_iff.1 (by omega)
    subst this
    simp only [splitOn, parsePieces] at h
    split at h
    · rename_i t ts' h1 h2
      obtain ⟨f, hf, -⟩ := parse_sound h1
      exact absurd rfl (gram_ne_nil hf)
    · cases h
  | succ n ih =>
    intro ts l hn h
    cases hs : splitOn sep ts with
    | nil => exact absurd hs (splitOn_ne_nil _ _)
    | cons p ps =>
      rw [hs] at h
      simp only [parsePieces] at h
      split at h
      · rename_i t l' h1 h2
        obtain ⟨f, hf, -⟩ := parse_sound h1
        rcases splitOn_cons hs with ⟨h3, h4⟩ | ⟨ts', h3, h4⟩
        · subst h4
          exact ⟨f, ts, [], [], by simp, hf, .nil⟩
        · subst h4
          obtain ⟨g, ts1, fs, tss, h5, h6, h7⟩ := ih ts' l' (by rw [h3] at hn; simp at hn; omega) h2
          exact ⟨f, p, g :: fs, sep :: (ts1 ++ tss), by rw [h3, h5], hf, .cons h6 h7⟩
      · cases h

theorem parseDecls_sound (env : Bool) : ∀ (n : ℕ) (ts : List Tok) (ev sv : PTree) (r : PTree × PTree),
    ts.length ≤ n → parseDecls env ts ev sv = some r → ∃ ds : Decls, GoodDecls ds ∧ ts = ds.flatMap declToks := by
  intro n
  induction n with
  | zero =>
    intro ts ev sv r hn h
    have : ts = [] := List.length_eq_zero_iff.1 (by omega)
    subst this
    exact ⟨[], fun d hd => absurd hd (by simp), rfl⟩
  | succ n ih =>
    intro ts ev sv r hn h
    unfold parseDecls at h
    split at h
    · exact ⟨[], fun d hd => absurd hd (by simp), rfl⟩
    · rename_i _ _ m a b ts
      simp only [List.length_cons] at hn
      split at h
      · cases h
      · rename_i ha
        have ha : a = 0 := by omega
        subst ha
        have key : ∃ ev' sv', parseDecls env ts ev' sv' = some r := by
          split at h
          · cases h
          · split at h
            · exact ⟨_, _, h⟩
            · exact ⟨_, _, h⟩
        obtain ⟨ev', sv', hk⟩ := key
        obtain ⟨ds, h1, h2⟩ := ih ts ev' sv' r (by omega) hk
        refine ⟨(m, (b : ℤ)) :: ds, ?_, ?_⟩
        · intro d hd
          rcases List.mem_cons.1 hd with rfl | hd
          · right; simp
          · exact h1 d hd
        · rw [List.flatMap_cons, ← h2]
          unfold declToks
          rw [if_neg (by simp only; omega)]
          simp
    · rename_i _ _ m ts _
      simp only [List.length_cons] at hn
      have key : ∃ ev' sv', parseDecls env ts ev' sv' = some r := by
        split at h
        · cases h
        · split at h
          · exact ⟨_, _, h⟩
          · exact ⟨_, _, h⟩
      obtain ⟨ev', sv', hk⟩ := key
      obtain ⟨ds, h1, h2⟩ := ih ts ev' sv' r (by omega) hk
      refine ⟨(m, -1) :: ds, ?_, ?_⟩
      · intro d hd
        rcases List.mem_cons.1 hd with rfl | hd
        · left; rfl
        · exact h1 d hd
      · rw [List.flatMap_cons, ← h2]
        simp [declToks]
    · cases h

theorem parseInit_sound {cur : PTree} {body : List Tok} {r : PTree × PTree}
    (h : parseInit cur .nil body = some r) : body = [] ∨ ∃ f, Gram false 0 body f := by
  unfold parseInit at h
  split at h
  · left; assumption
  · split at h
    · cases h
    · rename_i t ht
      obtain ⟨f, hf, -⟩ := parse_sound ht
      exact Or.inr ⟨f, hf⟩

theorem parseTrans_sound {cur : List PTree} {body : List Tok} {r : List PTree × PTree}
    (h : parseTrans cur .nil body = some r) : body = [] ∨ ∃ f ts fs tss, body = .safe :: (ts ++ tss) ∧
      Gram true 0 ts f ∧ MoreToks true .andSafe fs tss := by
  unfold parseTrans at h
  split at h
  · left; rfl
  · rename_i ts
    rw [Option.map_eq_some_iff] at h
    obtain ⟨l, h, -⟩ := h
    obtain ⟨f, ts1, fs, tss, h1, h2, h3⟩ := parsePieces_sound _ ts l (Nat.le_refl _) h
    exact Or.inr ⟨f, ts1, fs, tss, by rw [h1], h2, h3⟩
  · cases h

theorem parseGoal_sound {rg sys : Bool} {cur : List PTree} {body : List Tok} {r : List PTree × PTree}
    (h : parseGoal rg sys cur .nil body = some r) : body = [] ∨
      ((sys = false ∨ rg = false) ∧ ∃ f ts fs tss, body = .live :: (ts ++ tss) ∧
        Gram false 0 ts f ∧ MoreToks false .andLive fs tss) ∨
      (sys = true ∧ rg = true ∧ ∃ f ts, body = .ev :: ts ∧ Gram false 0 ts f) := by
  unfold parseGoal at h
  split at h
  · left; rfl
  · rename_i ts
    split at h
    · cases h
    · rename_i hrs
      rw [Option.map_eq_some_iff] at h
      obtain ⟨l, h, -⟩ := h
      obtain ⟨f, ts1, fs, tss, h1, h2, h3⟩ := parsePieces_sound _ ts l (Nat.le_refl _) h
      refine Or.inr (Or.inl ⟨?_, f, ts1, fs, tss, by rw [h1], h2, h3⟩)
      cases sys <;> cases rg <;> simp_all
  · rename_i ts
    split at h
    · rename_i hrs
      rw [Option.map_eq_some_iff] at h
      obtain ⟨l, h, -⟩ := h
      obtain ⟨f, hf, -⟩ := parse_sound h
      refine Or.inr (Or.inr ⟨?_, ?_, f, ts, rfl, hf⟩) <;> cases sys <;> cases rg <;> simp_all
    · cases h
  · cases h

theorem parseSection_sound {rg : Bool} {s s' : PState} {p : List Tok} (hg : s.gen = .nil)
    (h : parseSection rg s p = some s') : ∃ sec, SecToks rg sec p := by
  unfold parseSection at h
  rw [hg] at h
  split at h
  · obtain ⟨r, h, -⟩ := Option.map_eq_some_iff.1 h
    obtain ⟨ds, h1, h2⟩ := parseDecls_sound true _ _ _ _ r (Nat.le_refl _) h
    exact ⟨_, h2 ▸ SecToks.vars true ds h1⟩
  · obtain ⟨r, h, -⟩ := Option.map_eq_some_iff.1 h
    obtain ⟨ds, h1, h2⟩ := parseDecls_sound false _ _ _ _ r (Nat.le_refl _) h
    exact ⟨_, h2 ▸ SecToks.vars false ds h1⟩
  · obtain ⟨r, h, -⟩ := Option.map_eq_some_iff.1 h
    rcases parseInit_sound h with rfl | ⟨f, hf⟩
    · exact ⟨_, SecToks.init0 true⟩
    · exact ⟨_, SecToks.init1 true hf⟩
  · obtain ⟨r, h, -⟩ := Option.map_eq_some_iff.1 h
    rcases parseInit_sound h with rfl | ⟨f, hf⟩
    · exact ⟨_, SecToks.init0 false⟩
    · exact ⟨_, SecToks.init1 false hf⟩
  · obtain ⟨r, h, -⟩ := Option.map_eq_some_iff.1 h
    rcases parseTrans_sound h with rfl | ⟨f, ts, fs, tss, rfl, h1, h2⟩
    · exact ⟨_, SecToks.trans0 true⟩
    · exact ⟨_, SecToks.trans1 true h1 h2⟩
  · obtain ⟨r, h, -⟩ := Option.map_eq_some_iff.1 h
    rcases parseTrans_sound h with rfl | ⟨f, ts, fs, tss, rfl, h1, h2⟩
    · exact ⟨_, SecToks.trans0 false⟩
    · exact ⟨_, SecToks.trans1 false h1 h2⟩
  · obtain ⟨r, h, -⟩ := Option.map_eq_some_iff.1 h
    rcases parseGoal_sound h with rfl | ⟨-, f, ts, fs, tss, rfl, h1, h2⟩ | ⟨h0, -⟩
    · exact ⟨_, SecToks.goal0 true⟩
    · exact ⟨_, SecToks.goal1 true (Or.inl rfl) h1 h2⟩
    · cases h0
  · obtain ⟨r, h, -⟩ := Option.map_eq_some_iff.1 h
    rcases parseGoal_sound h with rfl | ⟨h0, f, ts, fs, tss, rfl, h1, h2⟩ | ⟨-, h0, f, ts, rfl, h1⟩
    · exact ⟨_, SecToks.goal0 false⟩
    · exact ⟨_, SecToks.goal1 false (Or.inr (by simpa using h0)) h1 h2⟩
    · exact ⟨_, SecToks.reach h0 h1⟩
  · cases h

theorem parseSections_sound {rg : Bool} : ∀ (n : ℕ) (ts : List Tok) (d : FileData) (s : PState), ts.length ≤ n →
    parseSections rg d.toP (splitOn (.chr ';') ts) = some s → ∃ ss, FileToks rg ss ts := by
  intro n
  induction n with
  | zero =>
    intro ts d s hn h
    have : ts = [] := List.length_eq_zero_iff.1 (by omega)
    subst this
    exact ⟨[], .nil⟩
  | succ n ih =>
    intro ts d s hn h
    cases hs : splitOn (.chr ';') ts with
    | nil => exact absurd hs (splitOn_ne_nil _ _)
    | cons p ps =>
      rw [hs] at h
      rcases splitOn_cons hs with ⟨h3, h4⟩ | ⟨ts', h3, h4⟩
      · subst h3 h4
        simp only [parseSections] at h
        split at h
        · rename_i h0; rw [h0]; exact ⟨[], .nil⟩
        · cases h
      · cases hps : ps with
        | nil => rw [hps] at h4; exact absurd h4 (splitOn_ne_nil _ _)
        | cons q qs =>
          rw [hps] at h
          simp only [parseSections] at h
          split at h
          · cases h
          · rename_i s' h1
            obtain ⟨sec, h5⟩ := parseSection_sound (by rfl) h1
            rw [parseSection_eq h5] at h1
            obtain ⟨d', h6, rfl⟩ := Option.map_eq_some_iff.1 h1
            rw [← hps, ← h4] at h
            obtain ⟨ss, h7⟩ := ih ts' d' s (by rw [h3] at hn; simp at hn; omega) h
            exact ⟨sec :: ss, h3 ▸ FileToks.cons h5 h7⟩

end Gr1c
