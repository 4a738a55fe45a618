import Verif.FormLeft

/-! # Lemmas on what is left of a formula -/

namespace Gr1c

/-- Open parentheses. -/
def openSyms (k : ℕ) : List Sym := List.replicate k .lp

/-- The text does not go on with a comparison sign. -/
def NoCmp (R : List Tok) : Prop := ∀ u, R.head? = some u → cmpTok u = none

theorem reduceTo_open (j : ℕ) (st : List Sym) (g : PTree) (k : ℕ) :
    reduceTo j (st ++ openSyms k) g = ((reduceTo j st g).1 ++ openSyms k, (reduceTo j st g).2) := by
  induction st generalizing g with
  | nil => cases k <;> simp [openSyms, reduceTo, List.replicate_succ]
  | cons s st ih =>
    cases s with
    | lp => simp [reduceTo]
    | neg => simp only [List.cons_append, reduceTo, ih]
    | bin o =>
      simp only [List.cons_append, reduceTo]
      split
      · exact ih _
      · rfl

theorem genLeft_cons (s : LeftSt) (st : List Sym) (g : PTree) (t : Tok) (ts : List Tok) {s' : LeftSt} {st' : List Sym} {g' : PTree}
    (h : leftStep s st g t = .ok (s', st', g')) : genLeft s st g (t :: ts) = genLeft s' st' g' ts := by
  rw [genLeft, h]

theorem genLeft_var {R : List Tok} (h : NoCmp R) (n : Name) (st : List Sym) (g : PTree) :
    genLeft (.var n) st g R = genLeft .full st (pushAtom g (.var false n)) R := by
  cases R with
  | nil => rfl
  | cons u R => simp only [genLeft, leftStep, varLeft, h u rfl]

theorem plain_cmp {t : Tok} {e : ETok} (h : plainETok t = some e) : cmpTok t = none := by
  unfold plainETok at h
  split at h <;> first | rfl | cases h

theorem noCmp_group {ts R : List Tok} {es : List ETok} (h : groupAtoms false ts = some es) (hR : NoCmp R) : NoCmp (ts ++ R) := by
  intro u hu
  cases ts with
  | nil => exact hR u hu
  | cons t ts =>
    simp only [List.cons_append, List.head?_cons, Option.some.injEq] at hu
    subst hu
    rw [groupAtoms.eq_def] at h
    split at h
    · rename_i h0; cases h0
    · rename_i h0; cases h0; rfl
    · rename_i h0; cases h0
      split at h
      · rename_i e h1; exact plain_cmp h1
      · cases h

/-- What `genLeft` does with the tokens of a formula, and what is left to do. -/
def Leads (s : LeftSt) (st : List Sym) (g : PTree) (ts : List Tok) (t : PTree) : Prop :=
  ∃ st' g', reduceTo 0 st' g' = ([], t) ∧ ∀ k R, NoCmp R → genLeft s (st ++ openSyms k) g (ts ++ R) = genLeft .full (st' ++ openSyms k) g' R

theorem Leads.step {s s' : LeftSt} {st st' : List Sym} {g g' : PTree} {u : Tok} {ts : List Tok} {t : PTree}
    (h : ∀ k, leftStep s (st ++ openSyms k) g u = .ok (s', st' ++ openSyms k, g')) (hl : Leads s' st' g' ts t) : Leads s st g (u :: ts) t := by
  obtain ⟨st1, g1, h1, h2⟩ := hl
  refine ⟨st1, g1, h1, fun k R hR => ?_⟩
  rw [List.cons_append, genLeft_cons _ _ _ _ _ (h k), h2 k R hR]

theorem leads_full {st : List Sym} {g : PTree} {t : PTree} (h : reduceTo 0 st g = ([], t)) : Leads .full st g [] t :=
  ⟨st, g, h, fun _ _ _ => rfl⟩

theorem leads_var {ts : List Tok} {es : List ETok} (h : groupAtoms false ts = some es) {n : Name} {st : List Sym} {g t : PTree}
    (hl : Leads .full st (pushAtom g (.var false n)) ts t) : Leads (.var n) st g ts t := by
  obtain ⟨st1, g1, h1, h2⟩ := hl
  exact ⟨st1, g1, h1, fun k R hR => by rw [genLeft_var (noCmp_group h hR), h2 k R hR]⟩

theorem leads_op {u : Tok} {o : BOp} (hu : plainETok u = some (.op o)) {st : List Sym} {g t : PTree} {ts : List Tok}
    (hl : Leads .need (.bin o :: (reduceTo o.lv st g).1) (reduceTo o.lv st g).2 ts t) : Leads .full st g (u :: ts) t := by
  refine hl.step fun k => ?_
  simp only [leftStep, fullLeft, hu, reduceTo_open, List.cons_append]

theorem leads_rp {u : Tok} (hu : plainETok u = some .rp) {st st' : List Sym} {g g' t : PTree} {ts : List Tok}
    (hr : reduceTo 0 st g = (.lp :: st', g')) (hl : Leads .full st' g' ts t) : Leads .full st g (u :: ts) t := by
  refine hl.step fun k => ?_
  simp only [leftStep, fullLeft, hu, reduceTo_open, hr, List.cons_append]

theorem plain_lp {t : Tok} (h : plainETok t = some .lp) : t = .chr '(' := by
  unfold plainETok at h
  split at h <;> simp at h ⊢

theorem plain_neg {t : Tok} (h : plainETok t = some .neg) : t = .chr '!' := by
  unfold plainETok at h
  split at h <;> simp at h ⊢

theorem plain_atom {t : Tok} {a : Atom} (h : plainETok t = some (.atom a)) : t = .tt ∧ a = .const 1 ∨ t = .ff ∧ a = .const 0 := by
  unfold plainETok at h
  split at h <;> simp at h ⊢ <;> exact h.symm

/-- The parser of formulas and `genLeft` do the same as long as there is no error. -/
theorem left_run (ts : List Tok) : ∀ es, groupAtoms false ts = some es → ∀ st g t,
    (runFormula true st g es = some t → Leads .need st g ts t) ∧ (runFormula false st g es = some t → Leads .full st g ts t) := by
  induction hn : ts.length using Nat.strong_induction_on generalizing ts with
  | _ n ih =>
    intro es hes st g t
    have hes0 := hes
    rw [groupAtoms.eq_def] at hes
    split at hes
    · cases hes
      refine ⟨fun h => by simp [runFormula] at h, fun h => ?_⟩
      simp only [runFormula] at h
      split at h
      · rename_i g' h1; cases h; exact leads_full h1
      · cases h
    · rename_i nm ts'
      obtain ⟨es', h2, rfl⟩ := Option.map_eq_some_iff.1 hes
      have hlen := atomAfter_le false nm ts'
      have hlt : (atomAfter false nm ts').2.length < n := by simp only [List.length_cons] at hn; omega
      have hi := ih _ hlt _ rfl es' h2
      refine ⟨fun h => ?_, fun h => by simp [runFormula] at h⟩
      simp only [runFormula] at h
      have hl := (hi st _ t).2 h
      refine Leads.step (s' := .var nm) (st' := st) (g' := g) (fun k => rfl) ?_
      -- the tokens after the name
      have hc : atomAfter false nm ts' = cmpAfter false nm ts' ∨ atomAfter false nm ts' = (.var false nm, ts') := by
        unfold atomAfter
        split
        · right; simp
        · left; rfl
      have hc' : atomAfter false nm ts' = (.var false nm, ts') ∨ ∃ u k r ty, ts' = u :: .num k :: r ∧ cmpTok u = some ty ∧
          atomAfter false nm ts' = (.cmp ty false nm k, r) := by
        rcases hc with hc | hc
        · rw [hc]
          unfold cmpAfter
          split
          · rename_i u k r
            split
            · rename_i ty hu; exact Or.inr ⟨u, k, r, ty, rfl, hu, rfl⟩
            · exact Or.inl rfl
          · exact Or.inl rfl
        · exact Or.inl hc
      rcases hc' with hc' | ⟨u, k, r, ty, rfl, hu, hc'⟩
      · rw [hc'] at hl h2
        exact leads_var h2 hl
      · rw [hc'] at hl
        refine Leads.step (s' := .cmp ty nm) (st' := st) (g' := g) (fun k => by simp only [leftStep, varLeft, hu]) ?_
        exact Leads.step (fun k => rfl) hl
    · rename_i u ts' _
      split at hes
      · rename_i e he
        obtain ⟨es', h2, rfl⟩ := Option.map_eq_some_iff.1 hes
        have hlt : ts'.length < n := by simp only [List.length_cons] at hn; omega
        have hi := ih _ hlt _ rfl es' h2
        refine ⟨fun h => ?_, fun h => ?_⟩
        · cases e with
          | lp =>
            cases plain_lp he
            simp only [runFormula] at h
            exact Leads.step (fun k => rfl) ((hi _ _ _).1 h)
          | neg =>
            cases plain_neg he
            simp only [runFormula] at h
            exact Leads.step (fun k => rfl) ((hi _ _ _).1 h)
          | atom a =>
            simp only [runFormula] at h
            rcases plain_atom he with ⟨rfl, rfl⟩ | ⟨rfl, rfl⟩
            · exact Leads.step (fun k => rfl) ((hi _ _ _).2 h)
            · exact Leads.step (fun k => rfl) ((hi _ _ _).2 h)
          | rp => simp [runFormula] at h
          | op o => simp [runFormula] at h
        · cases e with
          | op o =>
            simp only [runFormula] at h
            exact leads_op he ((hi _ _ _).1 h)
          | rp =>
            simp only [runFormula] at h
            split at h
            · rename_i st' g' h3; exact leads_rp he h3 ((hi _ _ _).2 h)
            · cases h
          | lp => simp [runFormula] at h
          | neg => simp [runFormula] at h
          | atom a => simp [runFormula] at h
      · cases hes

/-- A formula, after any number of open parentheses, up to its end. -/
theorem left_formula {ts : List Tok} {t : PTree} (h : parseFormula false .nil ts = some t) :
    ∃ st' g', reduceTo 0 st' g' = ([], t) ∧ ∀ k R, NoCmp R → genLeft .need [] .nil (List.replicate k (.chr '(') ++ (ts ++ R)) =
      genLeft .full (st' ++ openSyms k) g' R := by
  unfold parseFormula at h
  split at h
  · cases h
  · rename_i es hes
    obtain ⟨st', g', h1, h2⟩ := (left_run ts es hes [] .nil t).1 h
    refine ⟨st', g', h1, fun k R hR => ?_⟩
    rw [← h2 k R hR]
    have : ∀ (k j : ℕ), genLeft .need (openSyms j) .nil (List.replicate k (.chr '(') ++ (ts ++ R)) =
        genLeft .need (openSyms (j + k)) .nil (ts ++ R) := by
      intro k
      induction k with
      | zero => intro j; rfl
      | succ k ih =>
        intro j
        rw [List.replicate_succ, List.cons_append, genLeft_cons (s' := .need) (st' := openSyms (j + 1)) (g' := .nil)]
        · rw [ih]; congr 2; omega
        · rfl
    have h3 := this k 0
    simpa [openSyms] using h3

end Gr1c
