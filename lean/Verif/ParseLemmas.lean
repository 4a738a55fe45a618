import Verif.Parse
import Verif.Grammar
import Verif.PTreeProps

/-! # Lemmas about the parser (for C47) -/

namespace Gr1c

/-- Formula made by a binary operator. -/
def BOp.fm : BOp → Fm → Fm → Fm
  | .and => .and | .or => .or | .imp => .imp | .equiv => .equiv

/-- Comparison of a node type. -/
def cmpOfTy : PTy → Option CmpOp
  | .eq => some .eq | .noteq => some .ne | .lt => some .lt | .gt => some .gt | .le => some .le
  | .ge => some .ge
  | _ => none

/-- Formula of an atom. -/
def Atom.fm : Atom → Fm
  | .const v => .const v
  | .var nx n => .var nx n
  | .cmp ty nx n k => .cmp ((cmpOfTy ty).getD .eq) nx n k

/-- Atoms that recognition produces. -/
def Atom.Ok : Atom → Prop
  | .cmp ty _ _ _ => (cmpOfTy ty).isSome
  | _ => True

/-- The grammar on recognized tokens. -/
inductive ELev : ℕ → List ETok → Fm → Prop
  | atom (a : Atom) (h : a.Ok) : ELev 3 [.atom a] a.fm
  | neg {ts f} (h : ELev 3 ts f) : ELev 3 (.neg :: ts) (.neg f)
  | paren {ts f} (h : ELev 0 ts f) : ELev 3 (.lp :: (ts ++ [.rp])) f
  | up {k ts f} (hk : k < 3) (h : ELev (k + 1) ts f) : ELev k ts f
  | bin (o : BOp) {ts f ts' g} (h1 : ELev o.lv ts f) (h2 : ELev (o.lv + 1) ts' g) :
      ELev o.lv (ts ++ .op o :: ts') (o.fm f g)

theorem BOp.lv_lt (o : BOp) : o.lv < 3 := by cases o <;> decide

/-! ## The machine on stacks of formulas -/

theorem push_bin (o : BOp) (f g : Fm) (fs : List Fm) :
    pushtOperator (stackTree (g :: f :: fs)) o.ty = stackTree (o.fm f g :: fs) := by
  simp only [stackTree]
  rw [pushtOperator_onto _ _ _ (by cases o <;> decide) (by cases o <;> decide)]
  cases o <;> simp [BOp.ty, BOp.fm, Fm.toTree, PTree.onto, toTree_ne_nil]

theorem push_neg (f : Fm) (fs : List Fm) :
    pushtOperator (stackTree (f :: fs)) .neg = stackTree (.neg f :: fs) := by
  simp only [stackTree]
  rw [pushtOperator_onto _ _ _ (by decide) (by decide)]
  simp [Fm.toTree, PTree.onto]

theorem pushAtom_onto (a : Atom) (h : a.Ok) (g : PTree) : pushAtom g a = g.onto a.fm.toTree := by
  cases a with
  | const v => exact actions_onto (.const v) g
  | var nx n => exact actions_onto (.var nx n) g
  | cmp ty nx n k =>
    have : ty = ((cmpOfTy ty).getD .eq).ty := by cases ty <;> simp_all [Atom.Ok, cmpOfTy, CmpOp.ty]
    conv_lhs => rw [this]
    exact actions_onto (.cmp _ nx n k) g

theorem push_atom (a : Atom) (h : a.Ok) (fs : List Fm) : pushAtom (stackTree fs) a = stackTree (a.fm :: fs) :=
  pushAtom_onto a h _

/-- No reduction is due before an operator of level `k`. -/
def Blocked (k : ℕ) : List Sym → Prop
  | [] => True
  | .lp :: _ => True
  | .neg :: _ => 3 ≤ k
  | .bin o :: _ => o.lv < k

theorem reduceTo_blocked {k : ℕ} {st : List Sym} (hk : k < 3) (h : Blocked k st) (g : PTree) :
    reduceTo k st g = (st, g) := by
  cases st with
  | nil => rfl
  | cons s st =>
    cases s with
    | lp => rfl
    | neg => simp only [Blocked] at h; omega
    | bin o =>
      simp only [Blocked] at h
      simp only [reduceTo, if_neg (show ¬ k ≤ o.lv by omega)]

theorem Blocked.mono {j k : ℕ} {st : List Sym} (h : Blocked j st) (hjk : j ≤ k) : Blocked k st := by
  cases st with
  | nil => trivial
  | cons s st =>
    cases s with
    | lp => trivial
    | neg => simp only [Blocked] at h ⊢; omega
    | bin o => simp only [Blocked] at h ⊢; omega

/-- Reductions at level `k` or below turn the pending symbols and operands into one formula. -/
def Flush (k : ℕ) (stk : List Sym) (x : Fm) (gs : List Fm) (f : Fm) : Prop :=
  ∀ j ≤ k, ∀ st fs, reduceTo j (stk ++ st) (stackTree (x :: (gs ++ fs))) = reduceTo j st (stackTree (f :: fs))

/-- The machine reads the tokens of a formula and ends with it pending on the stack. -/
theorem run_complete {k : ℕ} {ts : List ETok} {f : Fm} (h : ELev k ts f) :
    ∀ st fs rest, Blocked k st → ∃ stk x gs,
      runFormula true st (stackTree fs) (ts ++ rest) =
        runFormula false (stk ++ st) (stackTree (x :: (gs ++ fs))) rest ∧ Flush k stk x gs f := by
  induction h with
  | atom a h =>
    intro st fs rest _
    refine ⟨[], a.fm, [], ?_, ?_⟩
    · simp only [List.cons_append, List.nil_append, runFormula, push_atom a h]
    · intro j _ st fs; rfl
  | neg h ih =>
    intro st fs rest _
    obtain ⟨stk, x, gs, h1, h2⟩ := ih (.neg :: st) fs rest (by simp [Blocked])
    refine ⟨stk ++ [.neg], x, gs, ?_, ?_⟩
    · simp only [List.cons_append, runFormula]
      rw [h1]; simp
    · intro j hj st fs
      have := h2 j hj (.neg :: st) fs
      simp only [List.append_assoc, List.cons_append, List.nil_append]
      rw [this, reduceTo, push_neg]
  | @paren ts f h ih =>
    intro st fs rest _
    obtain ⟨stk, x, gs, h1, h2⟩ := ih (.lp :: st) fs (.rp :: rest) (by simp [Blocked])
    refine ⟨[], f, [], ?_, ?_⟩
    · simp only [List.cons_append, List.append_assoc, List.nil_append, runFormula]
      rw [h1]
      have := h2 0 (Nat.le_refl _) (.lp :: st) fs
      simp only [runFormula]
      rw [this]
      simp only [reduceTo]
    · intro j _ st fs; rfl
  | up hk h ih =>
    intro st fs rest hb
    obtain ⟨stk, x, gs, h1, h2⟩ := ih st fs rest (hb.mono (by omega))
    exact ⟨stk, x, gs, h1, fun j hj => h2 j (by omega)⟩
  | bin o h1 h2 ih1 ih2 =>
    intro st fs rest hb
    rename_i ts f ts' g
    obtain ⟨stk1, x1, gs1, e1, fl1⟩ := ih1 st fs (.op o :: (ts' ++ rest)) hb
    obtain ⟨stk2, x2, gs2, e2, fl2⟩ := ih2 (.bin o :: st) (f :: fs) rest (by simp [Blocked])
    refine ⟨stk2 ++ [.bin o], x2, gs2 ++ [f], ?_, ?_⟩
    · have := fl1 o.lv (Nat.le_refl _) st fs
      rw [reduceTo_blocked o.lv_lt hb] at this
      simp only [List.append_assoc, List.cons_append]
      rw [e1]
      simp only [runFormula]
      rw [this, e2]
      simp
    · intro j hj st fs
      have := fl2 j (by omega) (.bin o :: st) (f :: fs)
      simp only [List.append_assoc, List.cons_append, List.nil_append]
      rw [this, reduceTo, if_pos hj, push_bin]

/-- The symbols waiting, the formulas pending, and the tokens read for them. -/
inductive Stk : List Sym → List Fm → List ETok → Prop
  | nil : Stk [] [] []
  | lp {st fs p} (h : Stk st fs p) : Stk (.lp :: st) fs (p ++ [.lp])
  | neg {st fs p} (h : Stk st fs p) : Stk (.neg :: st) fs (p ++ [.neg])
  | bin (o : BOp) {st fs p t f} (h : Stk st fs p) (hf : ELev o.lv t f) (hb : Blocked o.lv st) :
      Stk (.bin o :: st) (f :: fs) (p ++ t ++ [.op o])

theorem ELev.down {k j : ℕ} {t : List ETok} {f : Fm} (h : ELev k t f) (hj : j ≤ k) (hk : k ≤ 3) : ELev j t f := by
  induction hd : k - j generalizing j with
  | zero => have : j = k := by omega
            subst this; exact h
  | succ n ih => exact .up (by omega) (ih (by omega) (by omega))

theorem reduce_sound (j : ℕ) (hj : j ≤ 2) {st : List Sym} {fs : List Fm} {p : List ETok} (h : Stk st fs p) :
    ∀ (k : ℕ) (t : List ETok) (f : Fm), j ≤ k → k ≤ 3 → ELev k t f → Blocked k st →
      ∃ st' fs' p' t' f', reduceTo j st (stackTree (f :: fs)) = (st', stackTree (f' :: fs')) ∧
        Stk st' fs' p' ∧ ELev j t' f' ∧ Blocked j st' ∧ p' ++ t' = p ++ t := by
  induction h with
  | nil =>
    intro k t f hjk hk hf hb
    exact ⟨[], [], [], t, f, rfl, .nil, hf.down hjk hk, trivial, rfl⟩
  | lp h ih =>
    intro k t f hjk hk hf hb
    exact ⟨_, _, _, t, f, rfl, .lp h, hf.down hjk hk, trivial, rfl⟩
  | @neg st fs p h ih =>
    intro k t f hjk hk hf hb
    simp only [Blocked] at hb
    have hk3 : k = 3 := by omega
    subst hk3
    rw [reduceTo, push_neg]
    have hb' : Blocked 3 st := by
      cases st with
      | nil => trivial
      | cons s st =>
        cases s with
        | lp => trivial
        | neg => simp [Blocked]
        | bin o => simp only [Blocked]; exact o.lv_lt
    obtain ⟨st', fs', p', t', f', h1, h2, h3, h4, h5⟩ := ih 3 (.neg :: t) (.neg f) hjk (by omega) (.neg hf) hb'
    exact ⟨st', fs', p', t', f', h1, h2, h3, h4, by rw [h5]; simp⟩
  | @bin o st fs p t0 f0 h hf0 hb0 ih =>
    intro k t f hjk hk hf hb
    simp only [Blocked] at hb
    simp only [reduceTo]
    split
    · rename_i hjo
      rw [push_bin]
      obtain ⟨st', fs', p', t', f', h1, h2, h3, h4, h5⟩ :=
        ih o.lv (t0 ++ .op o :: t) (o.fm f0 f) hjo (by have := o.lv_lt; omega)
          (.bin o hf0 (hf.down (by omega) hk)) hb0
      exact ⟨st', fs', p', t', f', h1, h2, h3, h4, by rw [h5]; simp⟩
    · rename_i hjo
      exact ⟨_, _, _, t, f, rfl, .bin o h hf0 hb0, hf.down hjk hk, by simp only [Blocked]; omega, rfl⟩

theorem stackTree_single (f : Fm) : stackTree [f] = f.toTree := by
  rw [← postfix_push, ← postfix_parse]; rfl

/-- Recognized tokens whose atoms are well-formed. -/
def ETokOk : ETok → Prop
  | .atom a => a.Ok
  | _ => True

theorem blocked3 (st : List Sym) : Blocked 3 st := by
  cases st with
  | nil => trivial
  | cons s st =>
    cases s with
    | lp => trivial
    | neg => simp [Blocked]
    | bin o => simp only [Blocked]; exact o.lv_lt

/-- Whatever the machine accepts is in the grammar. -/
theorem run_sound (ts : List ETok) (hok : ∀ e ∈ ts, ETokOk e) :
    (∀ st fs p g, Stk st fs p → runFormula true st (stackTree fs) ts = some g →
      ∃ f, ELev 0 (p ++ ts) f ∧ g = f.toTree) ∧
    (∀ st fs p t f g, Stk st fs p → ELev 3 t f →
      runFormula false st (stackTree (f :: fs)) ts = some g → ∃ f', ELev 0 (p ++ t ++ ts) f' ∧ g = f'.toTree) := by
  induction ts with
  | nil =>
    refine ⟨fun st fs p g _ h => by simp [runFormula] at h, ?_⟩
    intro st fs p t f g hs hf h
    obtain ⟨st', fs', p', t', f', h1, h2, h3, -, h5⟩ := reduce_sound 0 (by omega) hs 3 t f (by omega) (by omega) hf (blocked3 _)
    simp only [runFormula] at h
    rw [h1] at h
    cases h2 with
    | nil =>
      simp only [Option.some.injEq] at h
      refine ⟨f', ?_, ?_⟩
      · rw [List.append_nil, ← h5]; exact h3
      · rw [← h]; exact stackTree_single f'
    | lp _ => simp at h
    | neg _ => simp at h
    | bin o _ _ _ => simp at h
  | cons e ts ih =>
    have ih := ih fun e he => hok e (by simp [he])
    refine ⟨?_, ?_⟩
    · intro st fs p g hs h
      cases e with
      | lp =>
        obtain ⟨f, h1, h2⟩ := ih.1 _ _ _ g (.lp hs) (by simpa [runFormula] using h)
        exact ⟨f, by simpa using h1, h2⟩
      | rp => simp [runFormula] at h
      | neg =>
        obtain ⟨f, h1, h2⟩ := ih.1 _ _ _ g (.neg hs) (by simpa [runFormula] using h)
        exact ⟨f, by simpa using h1, h2⟩
      | op o => simp [runFormula] at h
      | atom a =>
        have ha : a.Ok := hok (.atom a) (by simp)
        simp only [runFormula, push_atom a ha] at h
        obtain ⟨f, h1, h2⟩ := ih.2 _ _ _ _ _ g hs (.atom a ha) h
        exact ⟨f, by simpa using h1, h2⟩
    · intro st fs p t f g hs hf h
      cases e with
      | lp => simp [runFormula] at h
      | rp =>
        obtain ⟨st', fs', p', t', f', h1, h2, h3, -, h5⟩ :=
          reduce_sound 0 (by omega) hs 3 t f (by omega) (by omega) hf (blocked3 _)
        simp only [runFormula] at h
        rw [h1] at h
        cases h2 with
        | nil => simp at h
        | @lp st'' fs'' p'' h2' =>
          simp only at h
          obtain ⟨f2, h6, h7⟩ := ih.2 _ _ _ _ _ g h2' (.paren h3) h
          refine ⟨f2, ?_, h7⟩
          rw [← h5]
          simpa using h6
        | neg _ => simp at h
        | bin o _ _ _ => simp at h
      | neg => simp [runFormula] at h
      | op o =>
        simp only [runFormula] at h
        obtain ⟨st', fs', p', t', f', h1, h2, h3, h4, h5⟩ :=
          reduce_sound o.lv (by have := o.lv_lt; omega) hs 3 t f (by have := o.lv_lt; omega) (by omega) hf
            (blocked3 _)
        rw [h1] at h
        obtain ⟨f2, h6, h7⟩ := ih.1 _ _ _ g (.bin o h2 h3 h4) h
        refine ⟨f2, ?_, h7⟩
        rw [← h5]
        simpa using h6
      | atom a => simp [runFormula] at h

/-! ## Recognition of atoms -/

/-- Token of a binary operator. -/
def BOp.tok : BOp → Tok
  | .and => .chr '&' | .or => .chr '|' | .imp => .implies | .equiv => .equiv

/-- The tokens that make up one recognized token. -/
def SpellE (primes : Bool) : ETok → List Tok → Prop
  | .lp, s => s = [.chr '(']
  | .rp, s => s = [.chr ')']
  | .neg, s => s = [.chr '!']
  | .op o, s => s = [o.tok]
  | .atom a, s => Gram primes 3 s a.fm

/-- `es` is recognized in `ts`. -/
inductive SpellAll (primes : Bool) : List ETok → List Tok → Prop
  | nil : SpellAll primes [] []
  | cons {e es s ts} (h : SpellE primes e s) (hs : SpellAll primes es ts) : SpellAll primes (e :: es) (s ++ ts)

theorem SpellAll.split {primes : Bool} {es1 es2 : List ETok} {ts : List Tok} (h : SpellAll primes (es1 ++ es2) ts) :
    ∃ t1 t2, ts = t1 ++ t2 ∧ SpellAll primes es1 t1 ∧ SpellAll primes es2 t2 := by
  induction es1 generalizing ts with
  | nil => exact ⟨[], ts, rfl, .nil, h⟩
  | cons e es1 ih =>
    cases h with
    | cons h hs =>
      rename_i s ts
      obtain ⟨t1, t2, rfl, h1, h2⟩ := ih hs
      exact ⟨s ++ t1, t2, by simp, .cons h h1, h2⟩

theorem gram_bin {primes : Bool} (o : BOp) {ts ts' : List Tok} {f g : Fm} (h1 : Gram primes o.lv ts f)
    (h2 : Gram primes (o.lv + 1) ts' g) : Gram primes o.lv (ts ++ o.tok :: ts') (o.fm f g) := by
  cases o
  · exact .and h1 h2
  · exact .or h1 h2
  · exact .imp h1 h2
  · exact .equiv h1 h2

theorem gram_of_elev {primes : Bool} {k : ℕ} {es : List ETok} {f : Fm} (h : ELev k es f) :
    ∀ ts, SpellAll primes es ts → Gram primes k ts f := by
  induction h with
  | atom a h =>
    intro ts hs
    cases hs with
    | cons h1 h2 => cases h2; rw [List.append_nil]; exact h1
  | neg h ih =>
    intro ts hs
    cases hs with
    | cons h1 h2 => simp only [SpellE] at h1; subst h1; exact .neg (ih _ h2)
  | paren h ih =>
    intro ts hs
    cases hs with
    | cons h1 h2 =>
      simp only [SpellE] at h1
      subst h1
      obtain ⟨t1, t2, rfl, h3, h4⟩ := h2.split
      cases h4 with
      | cons h5 h6 =>
        simp only [SpellE] at h5
        subst h5
        cases h6
        exact .paren (ih _ h3)
  | up hk h ih => intro ts hs; exact .up hk (ih ts hs)
  | bin o h1 h2 ih1 ih2 =>
    intro ts hs
    obtain ⟨t1, t2, rfl, h3, h4⟩ := hs.split
    cases h4 with
    | cons h5 h6 =>
      simp only [SpellE] at h5
      subst h5
      exact gram_bin o (ih1 _ h3) (ih2 _ h6)

theorem cmpTok_some {t : Tok} {ty : PTy} (h : cmpTok t = some ty) :
    ∃ op : CmpOp, t = op.tok ∧ ty = op.ty ∧ cmpOfTy ty = some op := by
  unfold cmpTok at h
  split at h <;> simp only [Option.some.injEq, reduceCtorEq] at h <;> subst h
  · exact ⟨.eq, rfl, rfl, rfl⟩
  · exact ⟨.lt, rfl, rfl, rfl⟩
  · exact ⟨.gt, rfl, rfl, rfl⟩
  · exact ⟨.le, rfl, rfl, rfl⟩
  · exact ⟨.ge, rfl, rfl, rfl⟩
  · exact ⟨.ne, rfl, rfl, rfl⟩

theorem cmpTok_tok (op : CmpOp) : cmpTok op.tok = some op.ty := by cases op <;> rfl

theorem cmpOfTy_ty (op : CmpOp) : cmpOfTy op.ty = some op := by cases op <;> rfl

theorem cmpAfter_spec {primes : Bool} (nx : Bool) (n : Name) (h : nx = true → primes = true) (ts : List Tok) :
    (cmpAfter nx n ts).1.Ok ∧ ∃ s, primeToks nx ++ ts = primeToks nx ++ (s ++ (cmpAfter nx n ts).2) ∧
      Gram primes 3 (.ident n :: (primeToks nx ++ s)) (cmpAfter nx n ts).1.fm := by
  have hvar : ∀ ts : List Tok, (Atom.var nx n).Ok ∧ ∃ s, primeToks nx ++ ts = primeToks nx ++ (s ++ ts) ∧
      Gram primes 3 (.ident n :: (primeToks nx ++ s)) (Atom.var nx n).fm := by
    intro ts
    exact ⟨trivial, [], rfl, by rw [List.append_nil]; exact .var nx n h⟩
  unfold cmpAfter
  split
  · rename_i t k ts
    split
    · rename_i ty hty
      obtain ⟨op, rfl, rfl, ho⟩ := cmpTok_some hty
      refine ⟨by simp [Atom.Ok, ho], [op.tok, .num k], by simp, ?_⟩
      simp only [Atom.fm, ho, Option.getD_some]
      exact .cmp op nx n k h
    · exact hvar _
  · exact hvar _

theorem atomAfter_spec (primes : Bool) (n : Name) (ts : List Tok) :
    (atomAfter primes n ts).1.Ok ∧ ∃ s, ts = s ++ (atomAfter primes n ts).2 ∧
      Gram primes 3 (.ident n :: s) (atomAfter primes n ts).1.fm := by
  unfold atomAfter
  split
  · rename_i ts
    split
    · rename_i hp
      obtain ⟨h1, s, h2, h3⟩ := cmpAfter_spec (primes := primes) true n (fun _ => hp) ts
      exact ⟨h1, primeToks true ++ s, by simpa [primeToks] using h2, h3⟩
    · exact ⟨trivial, [], rfl, .var false n (by simp)⟩
  · obtain ⟨h1, s, h2, h3⟩ := cmpAfter_spec (primes := primes) false n (by simp) ts
    exact ⟨h1, s, by simpa [primeToks] using h2, h3⟩

theorem plainETok_spec {primes : Bool} {t : Tok} {e : ETok} (h : plainETok t = some e) :
    SpellE primes e [t] ∧ ETokOk e := by
  unfold plainETok at h
  split at h <;> simp only [Option.some.injEq, reduceCtorEq] at h <;> subst h
  · exact ⟨.tt, trivial⟩
  · exact ⟨.ff, trivial⟩
  all_goals exact ⟨rfl, trivial⟩

theorem group_sound (primes : Bool) : ∀ n (ts : List Tok) (es : List ETok), ts.length ≤ n →
    groupAtoms primes ts = some es → SpellAll primes es ts ∧ ∀ e ∈ es, ETokOk e := by
  intro n
  induction n with
  | zero =>
    intro ts es hn h
    have : ts = [] := List.length_eq_zero_iff.1 (by omega)
    subst this
    rw [groupAtoms] at h
    simp only [Option.some.injEq] at h
    subst h
    exact ⟨.nil, by simp⟩
  | succ n ih =>
    intro ts es hn h
    cases ts with
    | nil => exact ih [] es (by simp) h
    | cons t ts =>
      simp only [List.length_cons] at hn
      by_cases ht : ∃ m, t = .ident m
      · obtain ⟨m, rfl⟩ := ht
        rw [groupAtoms, Option.map_eq_some_iff] at h
        obtain ⟨es', h1, rfl⟩ := h
        obtain ⟨h2, s, h3, h4⟩ := atomAfter_spec primes m ts
        obtain ⟨h5, h6⟩ := ih _ es' (by have := atomAfter_le primes m ts; omega) h1
        refine ⟨?_, ?_⟩
        · have := SpellAll.cons (e := .atom (atomAfter primes m ts).1) h4 h5
          rw [List.cons_append, ← h3] at this
          exact this
        · intro e he
          rcases List.mem_cons.1 he with rfl | he
          · exact h2
          · exact h6 e he
      · rw [groupAtoms] at h
        · split at h
          · rename_i e he
            rw [Option.map_eq_some_iff] at h
            obtain ⟨es', h1, rfl⟩ := h
            obtain ⟨h5, h6⟩ := ih ts es' (by omega) h1
            obtain ⟨h7, h8⟩ := plainETok_spec (primes := primes) he
            refine ⟨SpellAll.cons h7 h5, ?_⟩
            intro e' he'
            rcases List.mem_cons.1 he' with rfl | he'
            · exact h8
            · exact h6 e' he'
          · cases h
        · intro m hm; exact ht ⟨m, hm⟩

/-- What may follow an operand. -/
def Follow (rest : List Tok) : Prop := ∀ t, rest.head? = some t → cmpTok t = none ∧ t ≠ .chr '\''

theorem group_plain {primes : Bool} {t : Tok} {e : ETok} (h : plainETok t = some e) (ts : List Tok) :
    groupAtoms primes (t :: ts) = (groupAtoms primes ts).map (e :: ·) := by
  rw [groupAtoms]
  · rw [h]
  · rintro m rfl; simp [plainETok] at h

theorem cmpAfter_follow {nx : Bool} {n : Name} {rest : List Tok} (h : Follow rest) :
    cmpAfter nx n rest = (.var nx n, rest) := by
  unfold cmpAfter
  split
  · rename_i t k ts
    rw [(h t rfl).1]
  · rfl

theorem atomAfter_follow {primes : Bool} {n : Name} {rest : List Tok} (h : Follow rest) :
    atomAfter primes n rest = (.var false n, rest) := by
  unfold atomAfter
  split
  · exact absurd rfl (h _ rfl).2
  · exact cmpAfter_follow h

theorem atomAfter_var {primes nx : Bool} {n : Name} {rest : List Tok} (hp : nx = true → primes = true)
    (h : Follow rest) : atomAfter primes n (primeToks nx ++ rest) = (.var nx n, rest) := by
  cases nx
  · exact atomAfter_follow h
  · simp only [primeToks, if_true, List.cons_append, List.nil_append, atomAfter, hp rfl]
    exact cmpAfter_follow h

theorem atomAfter_cmp {primes nx : Bool} {n : Name} {rest : List Tok} (hp : nx = true → primes = true)
    (op : CmpOp) (k : ℕ) :
    atomAfter primes n (primeToks nx ++ (op.tok :: .num k :: rest)) = (.cmp op.ty nx n k, rest) := by
  cases nx
  · have h1 : atomAfter primes n (op.tok :: .num k :: rest) = cmpAfter false n (op.tok :: .num k :: rest) := by
      cases op <;> rfl
    simp only [primeToks]
    simp only [Bool.false_eq_true, if_false, List.nil_append, h1, cmpAfter, cmpTok_tok]
  · simp only [primeToks, if_true, List.cons_append, List.nil_append, atomAfter, hp rfl, cmpAfter, cmpTok_tok]

theorem Follow.op (o : BOp) (ts : List Tok) : Follow (o.tok :: ts) := by
  intro t ht
  simp only [List.head?_cons, Option.some.injEq] at ht
  subst ht
  cases o <;> exact ⟨rfl, by decide⟩

theorem Follow.rp (ts : List Tok) : Follow (.chr ')' :: ts) := by
  intro t ht
  simp only [List.head?_cons, Option.some.injEq] at ht
  subst ht
  exact ⟨rfl, by decide⟩

theorem plain_op (o : BOp) : plainETok o.tok = some (.op o) := by cases o <;> rfl

theorem group_complete {primes : Bool} {k : ℕ} {ts : List Tok} {f : Fm} (h : Gram primes k ts f) :
    ∃ es, ELev k es f ∧ ∀ rest, Follow rest →
      groupAtoms primes (ts ++ rest) = (groupAtoms primes rest).map (es ++ ·) := by
  have hbin : ∀ (o : BOp) (ts ts' : List Tok) (f g : Fm) (es es' : List ETok),
      ELev o.lv es f → ELev (o.lv + 1) es' g →
      (∀ rest, Follow rest → groupAtoms primes (ts ++ rest) = (groupAtoms primes rest).map (es ++ ·)) →
      (∀ rest, Follow rest → groupAtoms primes (ts' ++ rest) = (groupAtoms primes rest).map (es' ++ ·)) →
      ∃ es, ELev o.lv es (o.fm f g) ∧ ∀ rest, Follow rest →
        groupAtoms primes ((ts ++ o.tok :: ts') ++ rest) = (groupAtoms primes rest).map (es ++ ·) := by
    intro o ts ts' f g es es' h1 h2 g1 g2
    refine ⟨es ++ .op o :: es', .bin o h1 h2, ?_⟩
    intro rest hr
    rw [List.append_assoc, List.cons_append, g1 _ (Follow.op o _), group_plain (plain_op o), g2 _ hr]
    simp [Function.comp_def]
  induction h with
  | tt => exact ⟨_, .atom (.const 1) trivial, fun rest _ => group_plain rfl rest⟩
  | ff => exact ⟨_, .atom (.const 0) trivial, fun rest _ => group_plain rfl rest⟩
  | var nx n hp =>
    refine ⟨_, .atom (.var nx n) trivial, ?_⟩
    intro rest hr
    rw [List.cons_append, groupAtoms, atomAfter_var hp hr]; rfl
  | cmp op nx n k hp =>
    refine ⟨[.atom (.cmp op.ty nx n k)], ?_, ?_⟩
    · have := ELev.atom (.cmp op.ty nx n k) (by simp [Atom.Ok, cmpOfTy_ty])
      simpa [Atom.fm, cmpOfTy_ty] using this
    · intro rest _
      rw [List.cons_append, groupAtoms]
      simp only [List.append_assoc, List.cons_append, List.nil_append]
      rw [atomAfter_cmp hp]
  | neg h ih =>
    obtain ⟨es, h1, h2⟩ := ih
    refine ⟨_, .neg h1, ?_⟩
    intro rest hr
    rw [List.cons_append, group_plain (e := .neg) rfl, h2 rest hr]
    simp [Function.comp_def]
  | paren h ih =>
    obtain ⟨es, h1, h2⟩ := ih
    refine ⟨_, .paren h1, ?_⟩
    intro rest hr
    simp only [List.cons_append, List.append_assoc, List.nil_append]
    rw [group_plain (e := .lp) rfl, h2 _ (Follow.rp _), group_plain (e := .rp) rfl]
    simp [Function.comp_def]
  | up hk h ih =>
    obtain ⟨es, h1, h2⟩ := ih
    exact ⟨es, .up hk h1, h2⟩
  | and h1 h2 ih1 ih2 =>
    obtain ⟨es, e1, e2⟩ := ih1
    obtain ⟨es', e3, e4⟩ := ih2
    exact hbin .and _ _ _ _ _ _ e1 e3 e2 e4
  | or h1 h2 ih1 ih2 =>
    obtain ⟨es, e1, e2⟩ := ih1
    obtain ⟨es', e3, e4⟩ := ih2
    exact hbin .or _ _ _ _ _ _ e1 e3 e2 e4
  | imp h1 h2 ih1 ih2 =>
    obtain ⟨es, e1, e2⟩ := ih1
    obtain ⟨es', e3, e4⟩ := ih2
    exact hbin .imp _ _ _ _ _ _ e1 e3 e2 e4
  | equiv h1 h2 ih1 ih2 =>
    obtain ⟨es, e1, e2⟩ := ih1
    obtain ⟨es', e3, e4⟩ := ih2
    exact hbin .equiv _ _ _ _ _ _ e1 e3 e2 e4

/-- The parser accepts what the grammar says, with the tree that the grammar says. -/
theorem parse_complete {primes : Bool} {ts : List Tok} {f : Fm} (h : Gram primes 0 ts f) :
    parseFormula primes .nil ts = some f.toTree := by
  obtain ⟨es, h1, h2⟩ := group_complete h
  have h3 := h2 [] (by intro t ht; simp at ht)
  rw [List.append_nil] at h3
  unfold parseFormula
  have h4 : groupAtoms primes [] = some [] := by rw [groupAtoms]
  rw [h3, h4]
  simp only [Option.map_some, List.append_nil]
  obtain ⟨stk, x, gs, h5, h6⟩ := run_complete h1 [] [] [] trivial
  simp only [List.append_nil, stackTree] at h5
  rw [h5]
  have h7 := h6 0 (Nat.le_refl _) [] []
  simp only [List.append_nil] at h7
  simp only [runFormula]
  rw [show (stackTree gs).onto x.toTree = stackTree (x :: gs) from rfl, h7]
  simp only [reduceTo, stackTree_single]

/-- ... and nothing else. -/
theorem parse_sound {primes : Bool} {ts : List Tok} {t : PTree} (h : parseFormula primes .nil ts = some t) :
    ∃ f, Gram primes 0 ts f ∧ t = f.toTree := by
  unfold parseFormula at h
  cases hg : groupAtoms primes ts with
  | none => rw [hg] at h; cases h
  | some es =>
    rw [hg] at h
    simp only at h
    obtain ⟨h1, h2⟩ := group_sound primes _ ts es (Nat.le_refl _) hg
    obtain ⟨f, h3, h4⟩ := (run_sound es h2).1 [] [] [] t .nil h
    exact ⟨f, gram_of_elev h3 ts h1, h4⟩

end Gr1c
