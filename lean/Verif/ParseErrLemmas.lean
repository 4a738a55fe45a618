import Verif.ParseErrForm

/-!
# Files token by token (C73)

Auxiliary: what has been read in each state of the parser, and the states after complete sections.
-/

namespace Gr1c

/-- Tokens without lines. -/
def toksOf (p : List (Tok × ℕ)) : List Tok := p.map Prod.fst

/-- Line of the last token, if there is one. -/
def lastLn (l : ℕ) (u : List (Tok × ℕ)) : ℕ := (u.getLast?.map Prod.snd).getD l

theorem toksOf_append (a b : List (Tok × ℕ)) : toksOf (a ++ b) = toksOf a ++ toksOf b := List.map_append
theorem toksOf_cons (x : Tok × ℕ) (b : List (Tok × ℕ)) : toksOf (x :: b) = x.1 :: toksOf b := rfl
theorem toksOf_nil : toksOf [] = [] := rfl

theorem lastLn_nil (l : ℕ) : lastLn l [] = l := rfl
theorem lastLn_snoc (l : ℕ) (u : List (Tok × ℕ)) (x : Tok × ℕ) : lastLn l (u ++ [x]) = x.2 := by simp [lastLn]
theorem lastLn_append (l : ℕ) (u v : List (Tok × ℕ)) : lastLn l (u ++ v) = lastLn (lastLn l u) v := by
  cases v using List.reverseRecOn with
  | nil => simp [lastLn]
  | append_singleton v x => rw [← List.append_assoc, lastLn_snoc, lastLn_snoc]

/-! ## Sections -/

theorem declaredIn_append (a b : List RawSec) : declaredIn (a ++ b) = declaredIn a ++ declaredIn b := by simp [declaredIn]

theorem secsFit_nil : SecsFit [] := by
  intro old s new h
  cases old <;> cases h

theorem secsFit_snoc (ss : List RawSec) (s : RawSec) : SecsFit (ss ++ [s]) ↔ SecsFit ss ∧ s.Fits ss := by
  constructor
  · intro h
    refine ⟨fun old s' new e => h old s' (new ++ [s]) (by rw [e]; simp), h ss s [] rfl⟩
  · rintro ⟨h1, h2⟩ old s' new e
    cases new using List.reverseRecOn with
    | nil =>
      obtain ⟨e1, e2⟩ := List.append_inj' e rfl
      obtain ⟨rfl⟩ := List.cons.inj e2
      subst e1
      exact h2
    | append_singleton new x =>
      have e' : ss ++ [s] = (old ++ s' :: new) ++ [x] := by rw [e]; simp
      exact h1 old s' new (List.append_inj' e' rfl).1

theorem secsFit_nodup (ss : List RawSec) (h : SecsFit ss) : (declaredIn ss).Nodup := by
  induction ss using List.reverseRecOn with
  | nil => exact List.nodup_nil
  | append_singleton ss s ih =>
    obtain ⟨h1, h2⟩ := (secsFit_snoc ss s).1 h
    rw [declaredIn_append]
    cases s with
    | vars env ds => simpa [declaredIn] using h2.2
    | init env f => simpa [declaredIn] using ih h1
    | other => simpa [declaredIn] using ih h1

/-- What the parser remembers of sections. -/
def MemOf (m : PMem) (ss : List RawSec) : Prop :=
  m.names = declaredIn ss ∧ ∀ env, m.isSet env = true ↔ RawSec.init env true ∈ ss

theorem memOf_nil : MemOf .init [] := ⟨rfl, fun env => by cases env <;> simp [PMem.isSet, PMem.init]⟩

theorem memOf_other {m : PMem} {ss : List RawSec} {s : RawSec} (h : MemOf m ss) (hs : s = .other ∨ ∃ env, s = .init env false) :
    MemOf m (ss ++ [s]) := by
  refine ⟨?_, fun env => ?_⟩
  · rw [declaredIn_append, h.1]
    rcases hs with rfl | ⟨e, rfl⟩ <;> simp [declaredIn]
  · rw [h.2 env]
    rcases hs with rfl | ⟨e, rfl⟩ <;> simp

theorem memOf_set {m : PMem} {ss : List RawSec} {env : Bool} (h : MemOf m ss) : MemOf (m.set env) (ss ++ [.init env true]) := by
  refine ⟨?_, fun e => ?_⟩
  · rw [declaredIn_append, ← h.1]
    cases env <;> simp [declaredIn, PMem.set]
  · have := h.2 e
    cases env <;> cases e <;> simp_all [PMem.isSet, PMem.set]

/-- Header of declarations. -/
def varHdr (env : Bool) : Tok := if env then .evars else .svars
/-- Header of an initial condition. -/
def initHdr (env : Bool) : Tok := if env then .einit else .sinit
/-- Header of transition formulas. -/
def transHdr (env : Bool) : Tok := if env then .etrans else .strans
/-- Header of goals. -/
def goalHdr (env : Bool) : Tok := if env then .egoal else .sgoal

theorem other_header {t : Tok} (h : isHeader t = true) (h1 : ¬(t = .evars ∨ t = .svars)) :
    ∃ env, t = initHdr env ∨ t = transHdr env ∨ t = goalHdr env := by
  cases t <;> first | exact absurd h Bool.false_ne_true | skip
  · exact absurd (.inl rfl) h1
  · exact absurd (.inr rfl) h1
  · exact ⟨true, .inl rfl⟩
  · exact ⟨true, .inr (.inl rfl)⟩
  · exact ⟨true, .inr (.inr rfl)⟩
  · exact ⟨false, .inl rfl⟩
  · exact ⟨false, .inr (.inl rfl)⟩
  · exact ⟨false, .inr (.inr rfl)⟩

/-! ## What has been read -/

/-- Complete sections have been read. -/
def Base (rg : Bool) (m : PMem) (ss : List RawSec) (q : List (Tok × ℕ)) : Prop :=
  FileG rg ss (toksOf q) ∧ MemOf m ss ∧ SecsFit ss

/-- Formulas before the one being read. -/
def Before (primes : Bool) (sep : Tok) (w : List Tok) : Prop := w = [] ∨ ∃ w', w = w' ++ [sep] ∧ FormsG primes sep w'

/-- The declaration being read. -/
def DPart (L : ℕ) (r : List (Tok × ℕ)) : DS → Prop
  | .names l => l = L ∧ r = []
  | .id n l l' => l = L ∧ r = [(.ident n, l')]
  | .lb n l => l = L ∧ toksOf r = [.ident n, .chr '[']
  | .low n l a => l = L ∧ toksOf r = [.ident n, .chr '[', .num a]
  | .comma n l a => l = L ∧ toksOf r = [.ident n, .chr '[', .num a, .chr ',']
  | .high n l a => l = L ∧ ∃ b, toksOf r = [.ident n, .chr '[', .num a, .chr ',', .num b]

/-- Declarations have been read. -/
def DInv (rg : Bool) (m : PMem) (p : List (Tok × ℕ)) (s : DS) : Prop :=
  ∃ ss q env lh u ds r, p = q ++ (varHdr env, lh) :: (u ++ r) ∧ FileG rg ss (toksOf q) ∧ SecsFit ss ∧
    toksOf u = ds.flatMap RawDecl.toks ∧ DeclsFit (declaredIn ss) ds ∧ m.names = declaredIn ss ++ ds.map RawDecl.name ∧
    (∀ env, m.isSet env = true ↔ RawSec.init env true ∈ ss) ∧ DPart (lastLn lh u) r s

/-- What has been read in a state. -/
def PInv (rg : Bool) (m : PMem) (p : List (Tok × ℕ)) : PS → Prop
  | .start => p = [] ∧ m = .init
  | .top => ∃ ss, Base rg m ss p
  | .head t l => ∃ ss q, p = q ++ [(t, l)] ∧ Base rg m ss q ∧ isHeader t = true ∧ ¬(t = .evars ∨ t = .svars)
  | .form .lead f d => m = .init ∧ FInv false d (toksOf p) f
  | .form (.init env lh) f d => ∃ ss q u, p = q ++ (initHdr env, lh) :: u ∧ Base rg m ss q ∧ FInv false d (toksOf u) f
  | .form .trans f d => ∃ ss q env w v, toksOf p = toksOf q ++ (transHdr env :: .safe :: (w ++ v)) ∧ Base rg m ss q ∧
      Before true .andSafe w ∧ FInv true d v f
  | .form (.goal true) f d => ∃ ss q env w v, toksOf p = toksOf q ++ (goalHdr env :: .live :: (w ++ v)) ∧ Base rg m ss q ∧
      (env = true ∨ rg = false) ∧ Before false .andLive w ∧ FInv false d v f
  | .form (.goal false) f d => ∃ ss q v, toksOf p = toksOf q ++ (.sgoal :: .ev :: v) ∧ Base rg m ss q ∧ rg = true ∧ FInv false d v f
  | .decl s => DInv rg m p s

theorem Base.section {rg : Bool} {m m' : PMem} {ss : List RawSec} {q p : List (Tok × ℕ)} {s : RawSec} {ts : List Tok}
    (h : Base rg m ss q) (hs : SecG rg s ts) (hp : toksOf p = toksOf q ++ (ts ++ [.chr ';'])) (hf : s.Fits ss)
    (hm : MemOf m' (ss ++ [s])) : Base rg m' (ss ++ [s]) p :=
  ⟨hp ▸ .snoc h.1 hs, hm, (secsFit_snoc ss s).2 ⟨h.2.2, hf⟩⟩

theorem Before.forms {primes : Bool} {sep : Tok} {w v : List Tok} (h : Before primes sep w) (hv : FormG primes v) :
    FormsG primes sep (w ++ v) := by
  rcases h with rfl | ⟨w', rfl, h⟩
  · exact .one hv
  · simpa using FormsG.more h hv

theorem topStep_inv {rg : Bool} {m : PMem} {ss : List RawSec} {p : List (Tok × ℕ)} {t : Tok} {l : ℕ} {r : PMem × PS}
    (h : Base rg m ss p) (e : topStep m t l = .ok r) : PInv rg r.1 (p ++ [(t, l)]) r.2 := by
  unfold topStep at e
  split at e
  · rename_i ht
    cases e
    have : ∃ env, t = varHdr env := by
      rcases ht with rfl | rfl
      · exact ⟨true, rfl⟩
      · exact ⟨false, rfl⟩
    obtain ⟨env, rfl⟩ := this
    refine ⟨ss, p, env, l, [], [], [], by simp, h.1, h.2.2, rfl, ⟨by simp, by simpa using secsFit_nodup ss h.2.2⟩, ?_, h.2.1.2, rfl, rfl⟩
    simp [h.2.1.1]
  · rename_i ht
    split at e
    · rename_i hh
      cases e
      exact ⟨ss, p, rfl, h, hh, ht⟩
    · cases e

theorem initHdr_cases (env : Bool) : (initHdr env = .einit ∨ initHdr env = .sinit) ∧ decide (initHdr env = .einit) = env := by
  cases env <;> exact ⟨by decide, by decide⟩

theorem headStep_inv {rg : Bool} {m : PMem} {ss : List RawSec} {q : List (Tok × ℕ)} {h t : Tok} {lh l : ℕ} {r : PMem × PS}
    (hb : Base rg m ss q) (hh : isHeader h = true) (hv : ¬(h = .evars ∨ h = .svars)) (e : headStep rg m h lh t l = .ok r) :
    PInv rg r.1 (q ++ [(h, lh)] ++ [(t, l)]) r.2 := by
  obtain ⟨env, rfl | rfl | rfl⟩ := other_header hh hv
  · obtain ⟨h1, h2⟩ := initHdr_cases env
    unfold headStep at e
    rw [if_pos h1] at e
    simp only [h2] at e
    split at e
    · rename_i ht
      split at e
      · cases e
      · rename_i hs
        cases e
        refine ⟨_, hb.section (.init0 env) (by simp [toksOf, ht, initHdr]) ?_ (memOf_other hb.2.1 (.inr ⟨env, rfl⟩))⟩
        intro h; exact hs ((hb.2.1.2 env).2 h)
    · split at e
      · rename_i f d hn
        cases e
        exact ⟨ss, q, [(t, l)], by simp, hb, FInv.start hn⟩
      · cases e
  · have h1 : ¬(transHdr env = .einit ∨ transHdr env = .sinit) := by cases env <;> decide
    have h2 : transHdr env = .etrans ∨ transHdr env = .strans := by cases env <;> decide
    unfold headStep at e
    rw [if_neg h1] at e
    split at e
    · rename_i ht
      cases e
      exact ⟨_, hb.section (.trans0 env) (by simp [toksOf, ht, transHdr]) trivial (memOf_other hb.2.1 (.inl rfl))⟩
    · split at e
      · rename_i ht
        cases e
        exact ⟨ss, q, env, [], [], by simp [toksOf, ht], hb, .inl rfl, show Ctx true 0 [] from .nil⟩
      · cases e
  · have h1 : ¬(goalHdr env = .einit ∨ goalHdr env = .sinit) := by cases env <;> decide
    have h2 : ¬(goalHdr env = .etrans ∨ goalHdr env = .strans) := by cases env <;> decide
    unfold headStep at e
    rw [if_neg h1] at e
    split at e
    · rename_i ht
      cases e
      exact ⟨_, hb.section (.goal0 env) (by simp [toksOf, ht, goalHdr]) trivial (memOf_other hb.2.1 (.inl rfl))⟩
    · split at e
      · rename_i hr
        split at e
        · rename_i ht
          cases e
          exact ⟨ss, q, [], by simp [toksOf, ht, hr.2], hb, hr.1, show Ctx false 0 [] from .nil⟩
        · cases e
      · rename_i hr
        split at e
        · rename_i ht
          cases e
          refine ⟨ss, q, env, [], [], by simp [toksOf, ht], hb, ?_, .inl rfl, show Ctx false 0 [] from .nil⟩
          cases env with
          | true => exact .inl rfl
          | false =>
            right
            cases rg with
            | false => rfl
            | true => exact absurd ⟨rfl, rfl⟩ hr
        · cases e

theorem endStep_inv {rg : Bool} {m : PMem} {p : List (Tok × ℕ)} {c : FCtx} {f : FS} {t : Tok} {l : ℕ} {r : PMem × PS}
    (h : PInv rg m p (.form c f 0)) (hf : f.ends = true) (e : endStep m c t l = .ok r) : PInv rg r.1 (p ++ [(t, l)]) r.2 := by
  cases c with
  | lead =>
    obtain ⟨rfl, h⟩ := h
    exact topStep_inv (ss := []) ⟨.lead (h.formG hf), memOf_nil, secsFit_nil⟩ e
  | init env lh =>
    obtain ⟨ss, q, u, rfl, hb, hu⟩ := h
    simp only [endStep] at e
    split at e
    · rename_i ht
      split at e
      · cases e
      · rename_i hs
        cases e
        refine ⟨_, hb.section (.init1 env (hu.formG hf)) (by simp [toksOf, ht, initHdr]) ?_ (memOf_set hb.2.1)⟩
        intro h; exact hs ((hb.2.1.2 env).2 h)
    · cases e
  | trans =>
    obtain ⟨ss, q, env, w, v, hp, hb, hw, hv⟩ := h
    simp only [endStep] at e
    split at e
    · rename_i ht
      cases e
      exact ⟨_, hb.section (.trans1 env (hw.forms (hv.formG hf))) (by rw [toksOf_append, hp]; simp [toksOf, ht, transHdr]) trivial
        (memOf_other hb.2.1 (.inl rfl))⟩
    · split at e
      · rename_i ht
        cases e
        exact ⟨ss, q, env, w ++ (v ++ [.andSafe]), [], by rw [toksOf_append, hp]; simp [toksOf, ht], hb,
          .inr ⟨w ++ v, by simp, hw.forms (hv.formG hf)⟩, show Ctx true 0 [] from .nil⟩
      · cases e
  | goal more =>
    cases more with
    | true =>
      obtain ⟨ss, q, env, w, v, hp, hb, hr, hw, hv⟩ := h
      simp only [endStep] at e
      split at e
      · rename_i ht
        cases e
        exact ⟨_, hb.section (.goal1 env hr (hw.forms (hv.formG hf))) (by rw [toksOf_append, hp]; simp [toksOf, ht, goalHdr]) trivial
          (memOf_other hb.2.1 (.inl rfl))⟩
      · split at e
        · rename_i ht
          cases e
          exact ⟨ss, q, env, w ++ (v ++ [.andLive]), [], by rw [toksOf_append, hp]; simp [toksOf, ht], hb, hr,
            .inr ⟨w ++ v, by simp, hw.forms (hv.formG hf)⟩, show Ctx false 0 [] from .nil⟩
        · cases e
    | false =>
      obtain ⟨ss, q, v, hp, hb, hr, hv⟩ := h
      simp only [endStep] at e
      split at e
      · rename_i ht
        cases e
        exact ⟨_, hb.section (.reach hr (hv.formG hf)) (by rw [toksOf_append, hp]; simp [toksOf, ht]) trivial
          (memOf_other hb.2.1 (.inl rfl))⟩
      · split at e
        · rename_i ht; exact absurd ht.1 (by decide)
        · cases e

theorem formStep_inv {rg : Bool} {m : PMem} {p : List (Tok × ℕ)} {c : FCtx} {f : FS} {d : ℕ} {t : Tok} {l : ℕ} {r : PMem × PS}
    (h : PInv rg m p (.form c f d)) (e : formStep m c f d t l = .ok r) : PInv rg r.1 (p ++ [(t, l)]) r.2 := by
  unfold formStep at e
  split at e
  · rename_i f' d' hs
    cases e
    cases c with
    | lead =>
      obtain ⟨rfl, h⟩ := h
      exact ⟨rfl, by rw [toksOf_append]; exact h.step hs⟩
    | init env lh =>
      obtain ⟨ss, q, u, rfl, hb, hu⟩ := h
      exact ⟨ss, q, u ++ [(t, l)], by simp, hb, by rw [toksOf_append]; exact hu.step hs⟩
    | trans =>
      obtain ⟨ss, q, env, w, v, hp, hb, hw, hv⟩ := h
      exact ⟨ss, q, env, w, v ++ [t], by rw [toksOf_append, hp]; simp [toksOf], hb, hw, hv.step hs⟩
    | goal more =>
      cases more with
      | true =>
        obtain ⟨ss, q, env, w, v, hp, hb, hr, hw, hv⟩ := h
        exact ⟨ss, q, env, w, v ++ [t], by rw [toksOf_append, hp]; simp [toksOf], hb, hr, hw, hv.step hs⟩
      | false =>
        obtain ⟨ss, q, v, hp, hb, hr, hv⟩ := h
        exact ⟨ss, q, v ++ [t], by rw [toksOf_append, hp]; simp [toksOf], hb, hr, hv.step hs⟩
  · split at e
    · rename_i hd
      obtain ⟨hf, rfl⟩ := hd
      exact endStep_inv h hf e
    · cases e

theorem declsFit_snoc {old : List Name} {ds : List RawDecl} {d : RawDecl} (h : DeclsFit old ds)
    (h1 : ∀ x, d.dom = some x → x.1 = 0) (h2 : d.name ∉ old ++ ds.map RawDecl.name) : DeclsFit old (ds ++ [d]) := by
  refine ⟨?_, ?_⟩
  · intro d' hd' x hx
    rcases List.mem_append.1 hd' with h' | h'
    · exact h.1 d' h' x hx
    · obtain rfl := List.mem_singleton.1 h'
      exact h1 x hx
  · rw [List.map_append, ← List.append_assoc, List.map_singleton]
    refine List.nodup_append.2 ⟨h.2, List.nodup_singleton _, ?_⟩
    rintro a ha b hb rfl
    exact h2 (List.mem_singleton.1 hb ▸ ha)

theorem names_inv {rg : Bool} {m : PMem} {p : List (Tok × ℕ)} {l0 : ℕ} {t : Tok} {l : ℕ} {r : PMem × PS}
    (h : DInv rg m p (.names l0)) (e : namesStep m l0 t l = .ok r) : PInv rg r.1 (p ++ [(t, l)]) r.2 := by
  obtain ⟨ss, q, env, lh, u, ds, r', rfl, hq, hs, hu, hd, hm, hi, rfl, rfl⟩ := h
  unfold namesStep at e
  split at e
  · cases e
    exact ⟨ss, q, env, lh, u, ds, _, by simp, hq, hs, hu, hd, hm, hi, rfl, rfl⟩
  · cases e
    refine ⟨ss ++ [.vars env ds], ?_, ⟨?_, fun e => ?_⟩, (secsFit_snoc _ _).2 ⟨hs, show RawSec.Fits ss (.vars env ds) from hd⟩⟩
    · have : toksOf (q ++ (varHdr env, lh) :: (u ++ []) ++ [(Tok.chr ';', l)]) =
          toksOf q ++ (((if env then .evars else .svars) :: ds.flatMap RawDecl.toks) ++ [.chr ';']) := by
        rw [← hu]; simp [toksOf, varHdr]
      rw [this]
      exact .snoc hq (.vars env ds)
    · rw [hm, declaredIn_append]; simp [declaredIn]
    · rw [hi e]; simp
  · cases e

theorem declare_isSet (m : PMem) (n : Name) (env : Bool) : (m.declare n).isSet env = m.isSet env := by cases env <;> rfl

theorem declStep_inv {rg : Bool} {m : PMem} {p : List (Tok × ℕ)} {s : DS} {t : Tok} {l : ℕ} {r : PMem × PS}
    (h : DInv rg m p s) (e : declStep m s t l = .ok r) : PInv rg r.1 (p ++ [(t, l)]) r.2 := by
  cases s with
  | names l0 => exact names_inv h e
  | id n l0 l1 =>
    obtain ⟨ss, q, env, lh, u, ds, r', rfl, hq, hs, hu, hd, hm, hi, rfl, rfl⟩ := h
    simp only [declStep] at e
    split at e
    · rename_i ht
      cases e
      exact ⟨ss, q, env, lh, u, ds, [(.ident n, l1), (t, l)], by simp, hq, hs, hu, hd, hm, hi, rfl, by simp [toksOf, ht]⟩
    · split at e
      · cases e
      · rename_i hn
        refine names_inv ?_ e
        refine ⟨ss, q, env, lh, u ++ [(.ident n, l1)], ds ++ [⟨n, none⟩], [], by simp, hq, hs, ?_, declsFit_snoc hd (by simp) (hm ▸ hn),
          ?_, fun e => by rw [declare_isSet]; exact hi e, by rw [lastLn_snoc], rfl⟩
        · rw [toksOf_append, hu]; simp [toksOf, RawDecl.toks]
        · simp [PMem.declare, hm]
  | lb n l0 =>
    obtain ⟨ss, q, env, lh, u, ds, r', rfl, hq, hs, hu, hd, hm, hi, rfl, hr⟩ := h
    simp only [declStep] at e
    split at e
    · rename_i b
      cases e
      exact ⟨ss, q, env, lh, u, ds, r' ++ [(.num b, l)], by simp, hq, hs, hu, hd, hm, hi, rfl, by rw [toksOf_append, hr]; rfl⟩
    · cases e
  | low n l0 a =>
    obtain ⟨ss, q, env, lh, u, ds, r', rfl, hq, hs, hu, hd, hm, hi, rfl, hr⟩ := h
    simp only [declStep] at e
    split at e
    · rename_i ht
      cases e
      exact ⟨ss, q, env, lh, u, ds, r' ++ [(t, l)], by simp, hq, hs, hu, hd, hm, hi, rfl, by rw [toksOf_append, hr, ht]; rfl⟩
    · cases e
  | comma n l0 a =>
    obtain ⟨ss, q, env, lh, u, ds, r', rfl, hq, hs, hu, hd, hm, hi, rfl, hr⟩ := h
    simp only [declStep] at e
    split at e
    · rename_i b
      cases e
      exact ⟨ss, q, env, lh, u, ds, r' ++ [(.num b, l)], by simp, hq, hs, hu, hd, hm, hi, rfl, b, by rw [toksOf_append, hr]; rfl⟩
    · cases e
  | high n l0 a =>
    obtain ⟨ss, q, env, lh, u, ds, r', rfl, hq, hs, hu, hd, hm, hi, rfl, b, hr⟩ := h
    simp only [declStep] at e
    split at e
    · rename_i ht
      split at e
      · cases e
      · rename_i ha
        split at e
        · cases e
        · rename_i hn
          cases e
          obtain rfl : a = 0 := by simpa using ha
          refine ⟨ss, q, env, lh, u ++ (r' ++ [(t, l)]), ds ++ [⟨n, some (0, b)⟩], [], by simp, hq, hs, ?_,
            declsFit_snoc hd (by rintro x ⟨⟩; rfl) (hm ▸ hn), ?_, fun e => by rw [declare_isSet]; exact hi e, ?_, rfl⟩
          · rw [toksOf_append, hu, toksOf_append, hr, ht]; simp [toksOf, RawDecl.toks]
          · simp [PMem.declare, hm]
          · rw [← List.append_assoc, lastLn_snoc]
    · cases e

theorem yyStep_inv {rg : Bool} {m : PMem} {p : List (Tok × ℕ)} {st : PS} {t : Tok} {l : ℕ} {r : PMem × PS}
    (h : PInv rg m p st) (e : yyStep rg m st t l = .ok r) : PInv rg r.1 (p ++ [(t, l)]) r.2 := by
  cases st with
  | start =>
    obtain ⟨rfl, rfl⟩ := h
    simp only [yyStep] at e
    split at e
    · rename_i f d hn
      cases e
      exact ⟨rfl, FInv.start hn⟩
    · exact topStep_inv (ss := []) ⟨.nil, memOf_nil, secsFit_nil⟩ e
  | top =>
    obtain ⟨ss, h⟩ := h
    exact topStep_inv h e
  | head t l =>
    obtain ⟨ss, q, rfl, hb, hh, hv⟩ := h
    exact headStep_inv hb hh hv e
  | form c f d => exact formStep_inv h e
  | decl s => exact declStep_inv h e

theorem yySteps_inv {rg : Bool} (u : List (Tok × ℕ)) : ∀ {m : PMem} {p : List (Tok × ℕ)} {st : PS} {r : PMem × PS},
    PInv rg m p st → yySteps rg m st u = .ok r → PInv rg r.1 (p ++ u) r.2 := by
  induction u with
  | nil =>
    intro m p st r h e
    cases e
    simpa using h
  | cons x u ih =>
    intro m p st r h e
    simp only [yySteps] at e
    split at e
    · cases e
    · rename_i r' hr
      have := ih (yyStep_inv h hr) e
      simpa using this

theorem yySteps_start {rg : Bool} {u : List (Tok × ℕ)} {r : PMem × PS} (e : yySteps rg .init .start u = .ok r) :
    PInv rg r.1 u r.2 := yySteps_inv u (p := []) (st := .start) ⟨rfl, rfl⟩ e

theorem yySteps_append (rg : Bool) (a b : List (Tok × ℕ)) : ∀ m st, yySteps rg m st (a ++ b) =
    match yySteps rg m st a with
    | .error e => .error e
    | .ok r => yySteps rg r.1 r.2 b := by
  induction a with
  | nil => intro m st; rfl
  | cons x a ih =>
    intro m st
    simp only [List.cons_append, yySteps]
    cases yyStep rg m st x.1 x.2 with
    | error e => rfl
    | ok r => exact ih r.1 r.2

end Gr1c
