import Verif.NumRange

/-! # Lemmas: the values in the trees that the parser makes are numbers of the text -/

namespace Gr1c

open PTree

/-- All values in a tree satisfy `P`. -/
def PTree.Vals (P : ℤ → Prop) : PTree → Prop
  | .nil => True
  | .node _ _ v l r => P v ∧ l.Vals P ∧ r.Vals P

variable {P : ℤ → Prop}

theorem vals_init (h0 : P 0) (ty : PTy) (nm : Option Name) {v : ℤ} (h : P v) : (initPtree ty nm v).Vals P := by
  unfold initPtree; split_ifs <;> simp [PTree.Vals, h0, h]

theorem vals_setLeft {l t : PTree} (hl : l.Vals P) (ht : t.Vals P) : (PTree.setLeft l t).Vals P := by
  cases t with
  | nil => trivial
  | node => exact ⟨ht.1, hl, ht.2.2⟩

theorem vals_terminal (h0 : P 0) {g : PTree} (hg : g.Vals P) (ty : PTy) (nm : Option Name) {v : ℤ} (h : P v) :
    (pushtTerminal g ty nm v).Vals P := vals_setLeft hg (vals_init h0 ty nm h)

theorem vals_cut {g : PTree} (hg : g.Vals P) : (cutStack g).1.Vals P ∧ (cutStack g).2.Vals P := by
  induction g with
  | nil => exact ⟨trivial, trivial⟩
  | node ty nm v l r ih _ =>
    unfold cutStack
    split
    · exact ⟨hg.2.1, hg.1, trivial, hg.2.2⟩
    · exact ⟨(ih hg.2.1).1, hg.1, (ih hg.2.1).2, hg.2.2⟩

theorem vals_operator (h0 : P 0) {g : PTree} (hg : g.Vals P) (ty : PTy) : (pushtOperator g ty).Vals P := by
  have h1 := vals_init h0 ty none h0
  unfold pushtOperator
  split
  · trivial
  · split
    · trivial
    · rename_i h2
      rw [h2] at h1
      exact ⟨h1.1, (vals_cut hg).1, (vals_cut hg).2⟩

/-- The numbers of tokens satisfy `P`. -/
def NumsIn (P : ℤ → Prop) (ts : List Tok) : Prop := ∀ v : ℕ, Tok.num v ∈ ts → P v

theorem NumsIn.sub {ts ts' : List Tok} (h : NumsIn P ts) (hs : ∀ t ∈ ts', t ∈ ts) : NumsIn P ts' := fun v hv => h v (hs _ hv)

theorem NumsIn.tail {t : Tok} {ts : List Tok} (h : NumsIn P (t :: ts)) : NumsIn P ts := h.sub fun _ h => List.mem_cons_of_mem _ h

/-- The value that an atom stands for satisfies `P`. -/
def Atom.Val (P : ℤ → Prop) : Atom → Prop
  | .const v => P v
  | .var _ _ => True
  | .cmp _ _ _ k => P k

/-- The same for tokens of formulas. -/
def ETok.Val (P : ℤ → Prop) : ETok → Prop
  | .atom a => a.Val P
  | _ => True

theorem vals_pushAtom (h0 : P 0) {g : PTree} (hg : g.Vals P) {a : Atom} (ha : a.Val P) : (pushAtom g a).Vals P := by
  cases a with
  | const v => exact vals_terminal h0 hg _ _ ha
  | var nx n => exact vals_terminal h0 hg _ _ h0
  | cmp ty nx n k =>
    simp only [pushAtom]
    exact vals_operator h0 (vals_terminal h0 (vals_terminal h0 hg _ _ h0) _ _ ha) _

theorem vals_reduce (h0 : P 0) (j : ℕ) (st : List Sym) {g : PTree} (hg : g.Vals P) : (reduceTo j st g).2.Vals P := by
  induction st generalizing g with
  | nil => exact hg
  | cons s st ih =>
    cases s with
    | lp => exact hg
    | neg => exact ih (vals_operator h0 hg _)
    | bin o =>
      simp only [reduceTo]
      split
      · exact ih (vals_operator h0 hg _)
      · exact hg

theorem vals_run (h0 : P 0) (b : Bool) (st : List Sym) (g : PTree) (ts : List ETok) (hg : g.Vals P) (ht : ∀ e ∈ ts, e.Val P) :
    ∀ t, runFormula b st g ts = some t → t.Vals P := by
  induction ts generalizing b st g with
  | nil =>
    intro t h
    cases b with
    | true => simp [runFormula] at h
    | false =>
      have h1 := vals_reduce h0 0 st hg
      simp only [runFormula] at h
      split at h
      · rename_i g' h2
        rw [h2] at h1
        cases h; exact h1
      · cases h
  | cons e ts ih =>
    intro t h
    have hts : ∀ e ∈ ts, e.Val P := fun e he => ht e (List.mem_cons_of_mem _ he)
    have h1 := vals_reduce h0 0 st hg
    cases b <;> cases e <;> simp only [runFormula] at h <;> try cases h
    · split at h
      · rename_i st' g' h2
        rw [h2] at h1
        exact ih _ _ _ h1 hts t h
      · cases h
    · exact ih _ _ _ (vals_reduce h0 _ st hg) hts t h
    · exact ih _ _ _ hg hts t h
    · exact ih _ _ _ hg hts t h
    · exact ih _ _ _ (vals_pushAtom h0 hg (ht _ (List.mem_cons_self ..))) hts t h

theorem vals_cmpAfter (nx : Bool) (n : Name) {ts : List Tok} (h : NumsIn P ts) :
    (cmpAfter nx n ts).1.Val P ∧ NumsIn P (cmpAfter nx n ts).2 := by
  unfold cmpAfter
  split
  · split
    · exact ⟨h _ (by simp), h.tail.tail⟩
    · exact ⟨trivial, h⟩
  · exact ⟨trivial, h⟩

theorem vals_atomAfter (pr : Bool) (n : Name) {ts : List Tok} (h : NumsIn P ts) :
    (atomAfter pr n ts).1.Val P ∧ NumsIn P (atomAfter pr n ts).2 := by
  unfold atomAfter
  split
  · split
    · exact vals_cmpAfter _ _ h.tail
    · exact ⟨trivial, h⟩
  · exact vals_cmpAfter _ _ h

theorem vals_plain (h0 : P 0) (h1 : P 1) {t : Tok} {e : ETok} (h : plainETok t = some e) : e.Val P := by
  unfold plainETok at h
  split at h <;> cases h <;> trivial

theorem vals_group (h0 : P 0) (h1 : P 1) (pr : Bool) (ts : List Tok) (h : NumsIn P ts) :
    ∀ es, groupAtoms pr ts = some es → ∀ e ∈ es, e.Val P := by
  induction hn : ts.length using Nat.strong_induction_on generalizing ts with
  | _ n ih =>
    intro es hes e he
    rw [groupAtoms.eq_def] at hes
    split at hes
    · cases hes; cases he
    · rename_i nm ts'
      obtain ⟨es', h2, rfl⟩ := Option.map_eq_some_iff.1 hes
      have h3 := vals_atomAfter pr nm h.tail
      rcases List.mem_cons.1 he with rfl | he
      · exact h3.1
      · refine ih _ ?_ _ h3.2 rfl es' h2 e he
        have := atomAfter_le pr nm ts'
        simp only [List.length_cons] at hn; omega
    · rename_i t ts' _
      split at hes
      · rename_i e' h2
        obtain ⟨es', h4, rfl⟩ := Option.map_eq_some_iff.1 hes
        rcases List.mem_cons.1 he with rfl | he
        · exact vals_plain h0 h1 h2
        · refine ih _ ?_ _ h.tail rfl es' h4 e he
          simp only [List.length_cons] at hn; omega
      · cases hes

theorem vals_formula (h0 : P 0) (h1 : P 1) {pr : Bool} {g t : PTree} {ts : List Tok} (hg : g.Vals P) (h : NumsIn P ts)
    (hp : parseFormula pr g ts = some t) : t.Vals P := by
  unfold parseFormula at hp
  split at hp
  · cases hp
  · rename_i es h2
    exact vals_run h0 _ _ _ _ hg (vals_group h0 h1 pr ts h es h2) t hp

theorem splitOn_sub {sep : Tok} {ts p : List Tok} (hp : p ∈ splitOn sep ts) : ∀ t ∈ p, t ∈ ts := by
  induction ts generalizing p with
  | nil => simp only [splitOn, List.mem_singleton] at hp; subst hp; simp
  | cons a ts ih =>
    simp only [splitOn] at hp
    split at hp
    · rcases List.mem_cons.1 hp with rfl | hp
      · simp
      · exact fun t ht => List.mem_cons_of_mem _ (ih hp t ht)
    · split at hp
      · rw [List.mem_singleton] at hp; subst hp; simp
      · rename_i q qs h2
        rcases List.mem_cons.1 hp with rfl | hp
        · intro t ht
          rcases List.mem_cons.1 ht with rfl | ht
          · simp
          · exact List.mem_cons_of_mem _ (ih (by rw [h2]; simp) t ht)
        · exact fun t ht => List.mem_cons_of_mem _ (ih (by rw [h2]; exact List.mem_cons_of_mem _ hp) t ht)

theorem vals_pieces (h0 : P 0) (h1 : P 1) {pr : Bool} {ps : List (List Tok)} (h : ∀ p ∈ ps, NumsIn P p) :
    ∀ {g : PTree} {l : List PTree}, g.Vals P → parsePieces pr g ps = some l → ∀ t ∈ l, t.Vals P := by
  induction ps with
  | nil => intro g l _ hl t ht; cases hl; cases ht
  | cons p ps ih =>
    intro g l hg hl t ht
    simp only [parsePieces] at hl
    split at hl
    · rename_i t' ts' h2 h3
      cases hl
      rcases List.mem_cons.1 ht with rfl | ht
      · exact vals_formula h0 h1 hg (h _ (by simp)) h2
      · exact ih (fun p hp => h p (List.mem_cons_of_mem _ hp)) (g := .nil) trivial h3 t ht
    · cases hl

theorem vals_declare (h0 : P 0) {mine ev sv : PTree} {n : Name} {v : ℤ} {l : PTree} (hm : mine.Vals P) (hv : P v)
    (h : declare mine ev sv n v = some l) : l.Vals P := by
  unfold declare at h
  split_ifs at h
  · cases h; exact vals_init h0 _ _ hv
  · cases h
    clear * - h0 hm hv
    induction mine with
    | nil => exact vals_init h0 _ _ hv
    | node ty nm w l r ih _ => exact ⟨hm.1, ih hm.2.1, hm.2.2⟩

theorem vals_decls (h0 : P 0) (hb : P (-1)) (env : Bool) (ts : List Tok) (h : NumsIn P ts) :
    ∀ ev sv ev' sv', ev.Vals P → sv.Vals P → parseDecls env ts ev sv = some (ev', sv') → ev'.Vals P ∧ sv'.Vals P := by
  induction hn : ts.length using Nat.strong_induction_on generalizing ts with
  | _ n ih =>
    intro ev sv ev' sv' he hs hp
    rw [parseDecls.eq_def] at hp
    have hm : (if env then ev else sv).Vals P := by split <;> assumption
    split at hp
    · cases hp; exact ⟨he, hs⟩
    · rename_i nm a b ts'
      split at hp
      · cases hp
      · split at hp
        · cases hp
        · rename_i l h2
          have h3 := vals_declare h0 hm (h b (by simp)) h2
          have hl : ts'.length < n := by simp only [List.length_cons] at hn; omega
          have ht : NumsIn P ts' := h.tail.tail.tail.tail.tail.tail
          split at hp
          · exact ih _ hl _ ht rfl _ _ _ _ h3 hs hp
          · exact ih _ hl _ ht rfl _ _ _ _ he h3 hp
    · rename_i nm ts' _
      split at hp
      · cases hp
      · rename_i l h2
        have h3 := vals_declare h0 hm hb h2
        have hl : ts'.length < n := by simp only [List.length_cons] at hn; omega
        split at hp
        · exact ih _ hl _ h.tail rfl _ _ _ _ h3 hs hp
        · exact ih _ hl _ h.tail rfl _ _ _ _ he h3 hp
    · cases hp

/-- All values in what the parser has collected satisfy `P`. -/
def PState.Vals (P : ℤ → Prop) (s : PState) : Prop :=
  s.ev.Vals P ∧ s.sv.Vals P ∧ s.sp.einit.Vals P ∧ s.sp.sinit.Vals P ∧ (∀ t ∈ s.sp.etrans, t.Vals P) ∧ (∀ t ∈ s.sp.strans, t.Vals P) ∧
    (∀ t ∈ s.sp.egoals, t.Vals P) ∧ (∀ t ∈ s.sp.sgoals, t.Vals P) ∧ s.gen.Vals P

theorem vals_parseInit (h0 : P 0) (h1 : P 1) {cur g : PTree} {body : List Tok} {r : PTree × PTree} (hc : cur.Vals P) (hg : g.Vals P)
    (h : NumsIn P body) (hp : parseInit cur g body = some r) : r.1.Vals P ∧ r.2.Vals P := by
  unfold parseInit at hp
  split at hp
  · split at hp
    · cases hp
    · cases hp; exact ⟨hc, hg⟩
  · split at hp
    · cases hp
    · rename_i t h2
      split at hp
      · cases hp
      · cases hp; exact ⟨vals_formula h0 h1 hg h h2, trivial⟩

theorem vals_true (h0 : P 0) (h1 : P 1) : ∀ t ∈ [initPtree .const none 1], t.Vals P := by
  intro t ht
  rw [List.mem_singleton] at ht
  subst ht; exact vals_init h0 _ _ h1

theorem vals_app {a b : List PTree} (ha : ∀ t ∈ a, t.Vals P) (hb : ∀ t ∈ b, t.Vals P) : ∀ t ∈ a ++ b, t.Vals P := by
  intro t ht
  rcases List.mem_append.1 ht with h | h
  · exact ha t h
  · exact hb t h

theorem vals_parseTrans (h0 : P 0) (h1 : P 1) {cur : List PTree} {g : PTree} {body : List Tok} {r : List PTree × PTree}
    (hc : ∀ t ∈ cur, t.Vals P) (hg : g.Vals P) (h : NumsIn P body) (hp : parseTrans cur g body = some r) :
    (∀ t ∈ r.1, t.Vals P) ∧ r.2.Vals P := by
  unfold parseTrans at hp
  split at hp
  · cases hp
    refine ⟨?_, hg⟩
    dsimp only
    split
    · exact vals_true h0 h1
    · exact hc
  · obtain ⟨l, h2, rfl⟩ := Option.map_eq_some_iff.1 hp
    exact ⟨vals_app hc (vals_pieces h0 h1 (fun p hp => h.tail.sub (splitOn_sub hp)) hg h2), trivial⟩
  · cases hp

theorem vals_parseGoal (h0 : P 0) (h1 : P 1) {rg sys : Bool} {cur : List PTree} {g : PTree} {body : List Tok} {r : List PTree × PTree}
    (hc : ∀ t ∈ cur, t.Vals P) (hg : g.Vals P) (h : NumsIn P body) (hp : parseGoal rg sys cur g body = some r) :
    (∀ t ∈ r.1, t.Vals P) ∧ r.2.Vals P := by
  unfold parseGoal at hp
  split at hp
  · cases hp
    refine ⟨?_, hg⟩
    dsimp only
    split
    · exact vals_true h0 h1
    · exact hc
  · split at hp
    · cases hp
    · obtain ⟨l, h2, rfl⟩ := Option.map_eq_some_iff.1 hp
      exact ⟨vals_app hc (vals_pieces h0 h1 (fun p hp => h.tail.sub (splitOn_sub hp)) hg h2), trivial⟩
  · split at hp
    · obtain ⟨t, h2, rfl⟩ := Option.map_eq_some_iff.1 hp
      refine ⟨vals_app hc ?_, trivial⟩
      intro t' ht'
      rw [List.mem_singleton] at ht'
      subst ht'; exact vals_formula h0 h1 hg h.tail h2
    · cases hp
  · cases hp

theorem vals_section (h0 : P 0) (h1 : P 1) (hb : P (-1)) {rg : Bool} {s s' : PState} {ts : List Tok} (hs : s.Vals P) (h : NumsIn P ts)
    (hp : parseSection rg s ts = some s') : s'.Vals P := by
  obtain ⟨a1, a2, a3, a4, a5, a6, a7, a8, a9⟩ := hs
  unfold parseSection at hp
  split at hp
  · obtain ⟨r, h2, rfl⟩ := Option.map_eq_some_iff.1 hp
    have h3 := vals_decls h0 hb true _ h.tail _ _ _ _ a1 a2 h2
    exact ⟨h3.1, h3.2, a3, a4, a5, a6, a7, a8, a9⟩
  · obtain ⟨r, h2, rfl⟩ := Option.map_eq_some_iff.1 hp
    have h3 := vals_decls h0 hb false _ h.tail _ _ _ _ a1 a2 h2
    exact ⟨h3.1, h3.2, a3, a4, a5, a6, a7, a8, a9⟩
  · obtain ⟨r, h2, rfl⟩ := Option.map_eq_some_iff.1 hp
    have h3 := vals_parseInit h0 h1 a3 a9 h.tail h2
    exact ⟨a1, a2, h3.1, a4, a5, a6, a7, a8, h3.2⟩
  · obtain ⟨r, h2, rfl⟩ := Option.map_eq_some_iff.1 hp
    have h3 := vals_parseInit h0 h1 a4 a9 h.tail h2
    exact ⟨a1, a2, a3, h3.1, a5, a6, a7, a8, h3.2⟩
  · obtain ⟨r, h2, rfl⟩ := Option.map_eq_some_iff.1 hp
    have h3 := vals_parseTrans h0 h1 a5 a9 h.tail h2
    exact ⟨a1, a2, a3, a4, h3.1, a6, a7, a8, h3.2⟩
  · obtain ⟨r, h2, rfl⟩ := Option.map_eq_some_iff.1 hp
    have h3 := vals_parseTrans h0 h1 a6 a9 h.tail h2
    exact ⟨a1, a2, a3, a4, a5, h3.1, a7, a8, h3.2⟩
  · obtain ⟨r, h2, rfl⟩ := Option.map_eq_some_iff.1 hp
    have h3 := vals_parseGoal h0 h1 a7 a9 h.tail h2
    exact ⟨a1, a2, a3, a4, a5, a6, h3.1, a8, h3.2⟩
  · obtain ⟨r, h2, rfl⟩ := Option.map_eq_some_iff.1 hp
    have h3 := vals_parseGoal h0 h1 a8 a9 h.tail h2
    exact ⟨a1, a2, a3, a4, a5, a6, a7, h3.1, h3.2⟩
  · cases hp

theorem vals_sections (h0 : P 0) (h1 : P 1) (hb : P (-1)) {rg : Bool} {ps : List (List Tok)} (h : ∀ p ∈ ps, NumsIn P p) :
    ∀ {s s' : PState}, s.Vals P → parseSections rg s ps = some s' → s'.Vals P := by
  induction ps with
  | nil => intro s s' hs hp; simp only [parseSections, Option.some.injEq] at hp; exact hp ▸ hs
  | cons p ps ih =>
    intro s s' hs hp
    cases ps with
    | nil =>
      simp only [parseSections] at hp
      split at hp
      · cases hp; exact hs
      · cases hp
    | cons q ps =>
      simp only [parseSections] at hp
      split at hp
      · cases hp
      · rename_i s1 h2
        exact ih (fun p hp => h p (List.mem_cons_of_mem _ hp)) (vals_section h0 h1 hb hs (h p (by simp)) h2) hp

theorem vals_toks (h0 : P 0) (h1 : P 1) (hb : P (-1)) {rg : Bool} {ts : List Tok} {s : PState} (h : NumsIn P ts)
    (hp : parseToks rg ts = some s) : s.Vals P := by
  have hi : PState.init.Vals P := by simp [PState.Vals, PState.init, PTree.Vals]
  have hl : NumsIn P (ts.takeWhile fun t => !isHeader t) := h.sub fun t ht => (List.takeWhile_prefix _).subset ht
  have hr : NumsIn P (ts.dropWhile fun t => !isHeader t) := h.sub fun t ht => (List.dropWhile_suffix _).subset ht
  simp only [parseToks] at hp
  split at hp
  · exact vals_sections h0 h1 hb (fun p hp => hr.sub (splitOn_sub hp)) hi hp
  · split at hp
    · cases hp
    · rename_i g h2
      refine vals_sections h0 h1 hb (fun p hp => hr.sub (splitOn_sub hp)) ?_ hp
      obtain ⟨a1, a2, a3, a4, a5, a6, a7, a8, -⟩ := hi
      exact ⟨a1, a2, a3, a4, a5, a6, a7, a8, vals_formula h0 h1 (g := .nil) trivial hl h2⟩

end Gr1c
