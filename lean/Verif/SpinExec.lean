import Verif.SpinRun
import Verif.CompactProps

/-!
# Executions of the Promela model are the plays of the strategy (C58)
-/

namespace Gr1c

/-! ## The program -/

section program

variable {M : Type}

/-- An option with guard `(1)` for a nonempty list of assignments. -/
def oneAlt : List PAssign → PAlt
  | p :: l => ⟨.one, p, l⟩
  | [] => ⟨.one, (nmCe, .bool true), []⟩

def initAltsP (vs : List (Name × ℤ)) : ℕ → Aut M (List ℤ) → List PAlt
  | _, [] => []
  | k, n :: a => (if n.initial then [⟨.one, (nmCur, .num k), assignsOf [] vs n.state⟩] else []) ++ initAltsP vs (k + 1) a

def envAltsP (ev : List (Name × ℤ)) : List PAlt := (allMoves ev).map fun cs => oneAlt (assignsOf sfxNext ev cs)

def envLits : List (Name × ℤ) → List ℤ → List PLit
  | x :: vs, c :: cs =>
    (if x.2 = -1 then (if c = 0 then .neg (x.1 ++ sfxNext) else .pos (x.1 ++ sfxNext)) else .eq (x.1 ++ sfxNext) c.toNat) ::
      envLits vs cs
  | _, _ => []

def edgeAltP (ev sv : List (Name × ℤ)) (a : Aut M (List ℤ)) (k : ℕ) (j : ℕ) : Option PAlt :=
  (a.find? fun x => x.id = j).map fun y => ⟨.lits (.eq nmCur k) (envLits ev y.state),
    (nmCur, .num (a.findIdx fun x => x.id = j)), assignsOf sfxNext sv (y.state.drop ev.length)⟩

def edgeAltsP (ev sv : List (Name × ℤ)) (a : Aut M (List ℤ)) : ℕ → Aut M (List ℤ) → List PAlt
  | _, [] => []
  | k, n :: r => n.trans.filterMap (edgeAltP ev sv a k) ++ edgeAltsP ev sv a (k + 1) r

def faultAlt : PAlt := ⟨.els, (nmFault, .bool true), []⟩

def sysAltsP (ev sv : List (Name × ℤ)) (a : Aut M (List ℤ)) : List PAlt := edgeAltsP ev sv a 0 a ++ [faultAlt]

/-- The statements after the initial choice. -/
def loopBody (ev sv : List (Name × ℤ)) (a : Aut M (List ℤ)) : List (Option Name × PCmd) :=
  (if ev = [] then [] else [(some lblEnv, .sel (envAltsP ev)), (none, .assign (nmCe, .bool true)),
    (none, .assign (nmCe, .bool false))]) ++
  [(some lblSys, .sel (sysAltsP ev sv a)), (none, .assign (nmCs, .bool true)), (none, .assign (nmCs, .bool false)),
    (none, .atomic (applyAssigns (ev ++ sv))), (none, .goto (if ev = [] then lblSys else lblEnv))]

/-- Declarations of a variable. -/
def declP (x : Name × ℤ) : List PDecl := [⟨decide (x.2 ≠ -1), x.1, false⟩, ⟨decide (x.2 ≠ -1), x.1 ++ sfxNext, false⟩]

/-- The program that is written. -/
def spinProgram (ev sv : List (Name × ℤ)) (a : Aut M (List ℤ)) : PProgram where
  globals := (ev ++ sv).flatMap declP ++ ((if ev = [] then [] else [⟨false, nmCe, true⟩]) ++
    [⟨false, nmCs, true⟩, ⟨false, nmFault, true⟩])
  locals := [⟨true, nmCur, false⟩]
  body := (none, .dstep (initAltsP (ev ++ sv) 0 a)) :: loopBody ev sv a

theorem atLabel_loop (ev sv : List (Name × ℤ)) (a : Aut M (List ℤ)) :
    (spinProgram ev sv a).atLabel (if ev = [] then lblSys else lblEnv) = (loopBody ev sv a).map Prod.snd := by
  by_cases h : ev = []
  · simp only [PProgram.atLabel, spinProgram, loopBody, if_pos h, List.nil_append]
    rfl
  · simp only [PProgram.atLabel, spinProgram, loopBody, if_neg h]
    rfl

end program

/-! ## Plays -/

section plays

variable {M : Type} {evars svars : Decls}

theorem dcard_pos' (x : Name × ℤ) : 0 < dcard x := by unfold dcard; split <;> omega

/-- All 0. -/
def zeroVal (ds : Decls) : DVal ds := fun i => ⟨0, dcard_pos' _⟩

/-- The state of a play: the state, the system's `_next` values, the number of the current node, and whether there
was a fault. -/
structure PlayState (evars svars : Decls) where
  s : IState evars svars
  q : DVal svars
  k : ℕ
  bad : Bool

def PlayState.next (d : PlayState evars svars) (m : DVal evars × SysMove svars) : PlayState evars svars :=
  ⟨(m.1, m.2.next d.q), m.2.next d.q, m.2.node d.k, m.2.bad d.bad⟩

/-- The answer of the model to a move of the environment at node number `k`. -/
def LegalMove (st : Aut M (IState evars svars)) (k : ℕ) : DVal evars × SysMove svars → Prop
  | (e, .edge k' v) => ∃ x y, st[k]? = some x ∧ st[k']? = some y ∧ y.id ∈ x.trans ∧ y.state = (e, v)
  | (e, .fault) => ∃ x, st[k]? = some x ∧ ∀ y ∈ st, y.id ∈ x.trans → y.state.1 ≠ e

/-- The start at the first initial node. -/
def StartState (st : Aut M (IState evars svars)) (d : PlayState evars svars) : Prop :=
  ∃ x, st[d.k]? = some x ∧ st.find? (·.initial) = some x ∧ d.s = x.state ∧ d.q = zeroVal svars ∧ d.bad = false

/-- A play of the model. -/
structure IsPlay (st : Aut M (IState evars svars)) (d : ℕ → PlayState evars svars)
    (m : ℕ → DVal evars × SysMove svars) : Prop where
  start : StartState st (d 0)
  move : ∀ r, LegalMove st (d r).k (m r)
  next : ∀ r, d (r + 1) = (d r).next (m r)

/-- The values along a play. -/
structure PlayTrace (fine : Bool) (w : ℕ → PVal) (d : ℕ → PlayState evars svars) (m : ℕ → DVal evars × SysMove svars)
    (B : ℕ → PVal) : Prop where
  rounds : RoundsOf w B fun r => roundM fine (m r).1 (m r).2
  bnd : ∀ r, Bnd (B r) (d r).s (d r).q (d r).k (d r).bad

/-! ### Lemmas on lists of options -/

theorem mem_edgeAltsP {ev sv : List (Name × ℤ)} {a : Aut M (List ℤ)} {r : Aut M (List ℤ)} {k : ℕ} {x : PAlt} :
    x ∈ edgeAltsP ev sv a k r ↔ ∃ i n, r[i]? = some n ∧ ∃ j ∈ n.trans, edgeAltP ev sv a (k + i) j = some x := by
  induction r generalizing k with
  | nil => simp [edgeAltsP]
  | cons n r ih =>
    rw [edgeAltsP, List.mem_append, List.mem_filterMap, ih]
    constructor
    · rintro (⟨j, h1, h2⟩ | ⟨i, y, h1, h2⟩)
      · exact ⟨0, n, rfl, j, h1, h2⟩
      · refine ⟨i + 1, y, h1, ?_⟩
        rw [show k + (i + 1) = k + 1 + i by omega]; exact h2
    · rintro ⟨i, y, h1, h2⟩
      cases i with
      | zero =>
        rw [List.getElem?_cons_zero, Option.some.injEq] at h1
        subst h1
        left; exact h2
      | succ i =>
        right
        refine ⟨i, y, h1, ?_⟩
        rw [show k + 1 + i = k + (i + 1) by omega]; exact h2

theorem initAltsP_head {vs : List (Name × ℤ)} {a : Aut M (List ℤ)} {n : ANode M (List ℤ)} (k : ℕ)
    (h : a.find? (·.initial) = some n) : ∃ i r, a[i]? = some n ∧ initAltsP vs k a =
      ⟨.one, (nmCur, .num ((k + i : ℕ))), assignsOf [] vs n.state⟩ :: r := by
  induction a generalizing k with
  | nil => simp at h
  | cons y a ih =>
    rw [List.find?_cons] at h
    rw [initAltsP]
    cases hy : y.initial with
    | true =>
      rw [hy] at h
      simp only [Option.some.injEq] at h
      subst h
      exact ⟨0, _, rfl, rfl⟩
    | false =>
      rw [hy] at h
      obtain ⟨i, r, h1, h2⟩ := ih (k + 1) h
      refine ⟨i + 1, r, h1, ?_⟩
      simp only [Bool.false_eq_true, if_false, List.nil_append]
      rw [h2, show k + 1 + i = k + (i + 1) by omega]

theorem initAltsP_empty {vs : List (Name × ℤ)} {a : Aut M (List ℤ)} (k : ℕ) (h : a.find? (·.initial) = none) :
    initAltsP vs k a = [] := by
  induction a generalizing k with
  | nil => rfl
  | cons y a ih =>
    rw [List.find?_cons] at h
    rw [initAltsP]
    cases hy : y.initial with
    | true => rw [hy] at h; simp at h
    | false => rw [hy] at h; simp [ih (k + 1) h]

theorem envLits_holds {vs : List (Name × ℤ)} (hn : (vs.map Prod.fst).Nodup) {cs ds : List ℤ} (hc : IsMove vs cs)
    (hd : IsMove vs ds) {σ : PVal} (h : ∀ x ∈ vs, σ (x.1 ++ sfxNext) = lookVal vs ds x.1) :
    (∀ l ∈ envLits vs cs, l.Holds σ) ↔ cs = ds := by
  unfold IsMove at hc hd
  induction hc generalizing ds with
  | nil => cases hd; simp [envLits]
  | @cons x c vs cs h1 h2 ih =>
    cases hd with
    | @cons _ d _ ds k1 k2 =>
      rw [List.map_cons, List.nodup_cons] at hn
      have e0 : σ (x.1 ++ sfxNext) = d := by
        rw [h x List.mem_cons_self, lookVal, if_pos rfl]
      have ih' := @ih hn.2 ds k2 (by
        intro y hy
        rw [h y (List.mem_cons_of_mem _ hy), lookVal, if_neg]
        intro he
        exact hn.1 (he ▸ List.mem_map_of_mem hy))
      rw [envLits, List.forall_mem_cons, ih', List.cons.injEq]
      refine and_congr_left fun _ => ?_
      obtain ⟨a1, a2⟩ := h1
      obtain ⟨b1, b2⟩ := k1
      split_ifs at a2 b2 ⊢ with hx hz
      · simp only [PLit.Holds, e0]; omega
      · simp only [PLit.Holds, e0]; omega
      · simp only [PLit.Holds, e0]; omega

theorem envLits_append {vs : List (Name × ℤ)} {cs : List ℤ} (h : vs.length = cs.length) (t : List ℤ) :
    envLits vs (cs ++ t) = envLits vs cs := by
  induction vs generalizing cs with
  | nil => cases cs <;> simp_all [envLits]
  | cons x vs ih =>
    cases cs with
    | nil => simp at h
    | cons c cs =>
      simp only [List.cons_append, envLits]
      rw [ih (by simpa using h)]

theorem declValues_length (ds : Decls) (v : DVal ds) : (declValues ds v).length = ds.length := by
  unfold declValues; rw [List.length_ofFn]

theorem lookVal_append {vs vs' : List (Name × ℤ)} {cs cs' : List ℤ} (h : vs.length = cs.length) (n : Name) :
    lookVal (vs ++ vs') (cs ++ cs') n = if n ∈ vs.map Prod.fst then lookVal vs cs n else lookVal vs' cs' n := by
  induction vs generalizing cs with
  | nil => cases cs <;> simp_all
  | cons x vs ih =>
    cases cs with
    | nil => simp at h
    | cons c cs =>
      simp only [List.cons_append, lookVal, List.map_cons, List.mem_cons]
      rw [ih (by simpa using h)]
      by_cases hx : x.1 = n
      · rw [if_pos hx, if_pos (Or.inl hx.symm), if_pos hx]
      · rw [if_neg hx]
        by_cases hm : n ∈ vs.map Prod.fst
        · rw [if_pos hm, if_pos (Or.inr hm), if_neg hx]
        · rw [if_neg hm, if_neg (by rintro (h | h); exacts [hx h.symm, hm h])]

theorem lookVal_state (s : IState evars svars) (n : Name) : lookVal (evars ++ svars) (stateValues s) n = stVal s n := by
  unfold stateValues stVal
  rw [lookVal_append (declValues_length _ _).symm, lookVal_declValues, lookVal_declValues]

theorem stateValues_move (hv : SpinVars evars svars) (s : IState evars svars) : IsMove (evars ++ svars) (stateValues s) := by
  unfold stateValues IsMove
  exact List.rel_append (declValues_move (fun x hx => hv.range x (List.mem_append_left _ hx)) _)
    (declValues_move (fun x hx => hv.range x (List.mem_append_right _ hx)) _)

theorem valOfName_zero (ds : Decls) (n : Name) : valOfName ds (zeroVal ds) n = 0 := by
  unfold valOfName zeroVal; split <;> simp

/-- After the initial choice. -/
theorem bnd_start (hv : SpinVars evars svars) (s : IState evars svars) (k : ℕ) :
    Bnd (PVal.run (fun _ => 0) ((nmCur, .num k) :: assignsOf [] (evars ++ svars) (stateValues s))) s (zeroVal svars) k false := by
  have ne : ∀ n, (∀ x ∈ evars ++ svars, x.1 ≠ n) → ∀ a ∈ assignsOf [] (evars ++ svars) (stateValues s), a.1 ≠ n := by
    intro n hn a ha
    obtain ⟨x, hx, h⟩ := mem_assignsOf ha
    rw [h, List.append_nil]; exact hn x hx
  have kk : ∀ n, n ≠ nmCur → (PVal.set (fun _ => 0) (nmCur, .num k)) n = 0 := by
    intro n hn
    unfold PVal.set
    rw [Function.update_of_ne hn]
  refine ⟨?_, ?_, ?_, ?_, ?_, ?_⟩
  · intro x hx
    rw [run_cons]
    have := run_assignsOf (sfx := []) hv.nodup (stateValues_move hv s) (PVal.set (fun _ => 0) (nmCur, .num k))
      (List.mem_map_of_mem hx)
    rw [List.append_nil] at this
    rw [this, lookVal_state]
  · intro x hx
    rw [run_cons, run_other (ne (x.1 ++ sfxNext) fun y hy => hv.next y hy x (List.mem_append_right _ hx)), kk _ (next_ne (by decide)),
      valOfName_zero]
  · rw [run_cons, run_other (ne _ fun y hy => own_ne hv hy (by decide))]
    unfold PVal.set
    rw [Function.update_self]; rfl
  · rw [run_cons, run_other (ne _ fun y hy => own_ne hv hy (by decide)), kk _ (by decide)]; rfl
  · rw [run_cons, run_other (ne _ fun y hy => own_ne hv hy (by decide)), kk _ (by decide)]
  · rw [run_cons, run_other (ne _ fun y hy => own_ne hv hy (by decide)), kk _ (by decide)]

theorem find_index {α : Type} {p : α → Bool} {l : List α} {y : α} (h : l.find? p = some y) : l[l.findIdx p]? = some y := by
  induction l with
  | nil => simp at h
  | cons x l ih =>
    rw [List.find?_cons] at h
    rw [List.findIdx_cons]
    cases hp : p x with
    | true => rw [hp] at h; simpa using h
    | false => rw [hp] at h; simpa using ih h

theorem findIdx_withStates {V W : Type} (f : V → W) (st : Aut M V) (j : ℕ) :
    (withStates f st).findIdx (fun x => x.id = j) = st.findIdx fun x => x.id = j := by
  induction st with
  | nil => rfl
  | cons x st ih =>
    have : withStates f (x :: st) = ⟨x.id, f x.state, x.mode, x.rgrad, x.initial, x.trans⟩ :: withStates f st := rfl
    rw [this, List.findIdx_cons, List.findIdx_cons, ih]

theorem find_withStates {V W : Type} (f : V → W) (st : Aut M V) (j : ℕ) :
    (withStates f st).find? (fun x => x.id = j) =
      (st.find? fun x => x.id = j).map fun x => ⟨x.id, f x.state, x.mode, x.rgrad, x.initial, x.trans⟩ := by
  unfold withStates
  rw [List.find?_map]; rfl

theorem find_id {V : Type} {st : Aut M V} (hn : (st.map (·.id)).Nodup) {y : ANode M V} (hy : y ∈ st) :
    (st.find? fun x => x.id = y.id) = some y := by
  cases h : st.find? fun x => x.id = y.id with
  | none =>
    rw [List.find?_eq_none] at h
    exact absurd (h y hy) (by simp)
  | some z =>
    have h1 := List.find?_some h
    have h2 := List.mem_of_find?_eq_some h
    simp only [decide_eq_true_eq] at h1
    rw [List.inj_on_of_nodup_map hn h2 hy h1]

/-- The options of the system at node number `k` after the move `e`. -/
theorem sys_enabled (hv : SpinVars evars svars) {st : Aut M (IState evars svars)} (hn : (st.map (·.id)).Nodup)
    (he : ∀ x ∈ st, ∀ j ∈ x.trans, ∃ y ∈ st, y.id = j) {σ : PVal} {k : ℕ} {x : ANode M (IState evars svars)}
    (hk : st[k]? = some x) (hc : σ nmCur = k) {e : DVal evars}
    (hs : ∀ z ∈ evars, σ (z.1 ++ sfxNext) = valOfName evars e z.1) :
    (∀ alt ∈ sysAltsP evars svars (withStates stateValues st), alt.Enabled σ (sysAltsP evars svars (withStates stateValues st)) →
      ∃ b, alt.body = SysMove.body b ∧ LegalMove st k (e, b)) ∧
    ∀ b, LegalMove st k (e, b) → ∃ alt ∈ sysAltsP evars svars (withStates stateValues st),
      alt.Enabled σ (sysAltsP evars svars (withStates stateValues st)) ∧ alt.body = SysMove.body b := by
  have hnd := hv.nodup
  rw [List.map_append, List.nodup_append] at hnd
  have hre : ∀ z ∈ evars, -1 ≤ z.2 := fun z hz => hv.range z (List.mem_append_left _ hz)
  -- an option for an edge
  have lits : ∀ y : ANode M (IState evars svars), (∀ l ∈ envLits evars (stateValues y.state), l.Holds σ) ↔ y.state.1 = e := by
    intro y
    unfold stateValues
    rw [envLits_append (declValues_length _ _).symm, envLits_holds hnd.1 (declValues_move hre _) (declValues_move hre e)]
    · exact ⟨declValues_inj, fun h => by rw [h]⟩
    · intro z hz; rw [hs z hz, lookVal_declValues]
  have alts : ∀ alt, alt ∈ edgeAltsP evars svars (withStates stateValues st) 0 (withStates stateValues st) ↔
      ∃ i n y k', st[i]? = some n ∧ st[k']? = some y ∧ y.id ∈ n.trans ∧
        alt = ⟨.lits (.eq nmCur i) (envLits evars (stateValues y.state)), (nmCur, .num k'), nextAssigns svars y.state.2⟩ := by
    intro alt
    rw [mem_edgeAltsP]
    constructor
    · rintro ⟨i, n, h1, j, h2, h3⟩
      simp only [withStates, List.getElem?_map, Option.map_eq_some_iff] at h1
      obtain ⟨n', h1, rfl⟩ := h1
      simp only at h2
      unfold edgeAltP at h3
      rw [find_withStates, findIdx_withStates] at h3
      simp only [Option.map_eq_some_iff, Nat.zero_add] at h3
      obtain ⟨y', ⟨y, h4, rfl⟩, h5⟩ := h3
      have hy := List.find?_some h4
      simp only [decide_eq_true_eq] at hy
      refine ⟨i, n', y, _, h1, find_index h4, by rw [hy]; exact h2, ?_⟩
      rw [← h5]
      simp only
      unfold stateValues nextAssigns
      rw [← declValues_length evars y.state.1, List.drop_left]
    · rintro ⟨i, n, y, k', h1, h2, h3, rfl⟩
      refine ⟨i, ⟨n.id, stateValues n.state, n.mode, n.rgrad, n.initial, n.trans⟩, ?_, y.id, h3, ?_⟩
      · simp [withStates, h1]
      · have hf := find_id hn (List.mem_of_getElem? h2)
        unfold edgeAltP
        rw [find_withStates, findIdx_withStates, hf]
        have : st.findIdx (fun x => x.id = y.id) = k' := by
          have h4 := find_index hf
          have hlt := (List.getElem?_eq_some_iff.1 h2).1
          have hinj := (List.nodup_iff_injective_get (l := st)).1 (List.Nodup.of_map _ hn)
          have h5 : st[st.findIdx fun x => x.id = y.id]? = st[k']? := by rw [h4, h2]
          obtain ⟨l1, g1⟩ := List.getElem?_eq_some_iff.1 h4
          obtain ⟨l2, g2⟩ := List.getElem?_eq_some_iff.1 h2
          have := @hinj ⟨_, l1⟩ ⟨_, l2⟩ (by simp only [List.get_eq_getElem]; rw [g1, g2])
          exact congrArg Fin.val this
        simp only [Option.map_some, this, Nat.zero_add, Option.some.injEq]
        unfold stateValues nextAssigns
        rw [← declValues_length evars y.state.1, List.drop_left]
  have holds : ∀ (i : ℕ) (y : ANode M (IState evars svars)) (p : PAssign) l,
      (PAlt.mk (.lits (.eq nmCur i) (envLits evars (stateValues y.state))) p l).guard.Holds σ ↔ i = k ∧ y.state.1 = e := by
    intro i y p l
    simp only [PGuard.Holds, List.forall_mem_cons]
    rw [lits y]
    refine and_congr_left fun _ => ?_
    simp only [PLit.Holds, hc]
    omega
  constructor
  · intro alt ha hen
    rw [sysAltsP, List.mem_append, List.mem_singleton] at ha
    rcases ha with ha | rfl
    · obtain ⟨i, n, y, k', h1, h2, h3, rfl⟩ := (alts alt).1 ha
      rcases hen with hg | ⟨hg, -⟩
      · obtain ⟨rfl, h4⟩ := (holds i y _ _).1 hg
        refine ⟨.edge k' y.state.2, rfl, n, y, h1, h2, h3, ?_⟩
        rw [← h4]
      · cases hg
    · rcases hen with hg | ⟨-, hg⟩
      · exact absurd hg (by simp [faultAlt, PGuard.Holds])
      · refine ⟨.fault, rfl, x, hk, ?_⟩
        intro y hy h3 h4
        obtain ⟨k', h2⟩ := List.mem_iff_getElem?.1 hy
        have := (alts _).2 ⟨k, x, y, k', hk, h2, h3, rfl⟩
        exact hg _ (List.mem_append_left _ this) ((holds k y _ _).2 ⟨rfl, h4⟩)
  · intro b hb
    cases b with
    | edge k' v =>
      obtain ⟨n, y, h1, h2, h3, h4⟩ := hb
      refine ⟨_, List.mem_append_left _ ((alts _).2 ⟨k, n, y, k', h1, h2, h3, rfl⟩), Or.inl ?_, ?_⟩
      · exact (holds k y _ _).2 ⟨rfl, by rw [h4]⟩
      · show _ :: _ = _ :: _
        rw [h4]
    | fault =>
      obtain ⟨n, h1, h2⟩ := hb
      refine ⟨faultAlt, List.mem_append_right _ (by simp), Or.inr ⟨rfl, ?_⟩, rfl⟩
      intro alt ha hg
      rw [sysAltsP, List.mem_append, List.mem_singleton] at ha
      rcases ha with ha | rfl
      · obtain ⟨i, n', y, k', g1, g2, g3, rfl⟩ := (alts alt).1 ha
        obtain ⟨rfl, h4⟩ := (holds i y _ _).1 hg
        rw [h1] at g1
        cases g1
        exact h2 y (List.mem_of_getElem? g2) g3 h4
      · exact absurd hg (by simp [faultAlt, PGuard.Holds])

theorem nextAssigns_ne {ds : Decls} (hne : ds ≠ []) (e : DVal ds) : ∃ p l, nextAssigns ds e = p :: l := by
  cases ds with
  | nil => exact absurd rfl hne
  | cons x ds =>
    unfold nextAssigns
    rw [declValues_cons]
    exact ⟨_, _, rfl⟩

/-- The options of the environment. -/
theorem env_alts (hv : SpinVars evars svars) (hne : evars ≠ []) (alt : PAlt) :
    alt ∈ envAltsP evars ↔ ∃ e, alt.guard = .one ∧ alt.body = nextAssigns evars e := by
  have hre : ∀ z ∈ evars, -1 ≤ z.2 := fun z hz => hv.range z (List.mem_append_left _ hz)
  have key : ∀ e : DVal evars, ∃ p l, nextAssigns evars e = p :: l := fun e => nextAssigns_ne hne e
  unfold envAltsP
  rw [List.mem_map]
  constructor
  · rintro ⟨cs, h1, rfl⟩
    obtain ⟨e, rfl⟩ := move_declValues hre ((mem_allMoves evars hre cs).1 h1)
    obtain ⟨p, l, h⟩ := key e
    refine ⟨e, ?_, ?_⟩
    · unfold nextAssigns at h; rw [h]; rfl
    · unfold nextAssigns at h ⊢; rw [h]; rfl
  · rintro ⟨e, h1, h2⟩
    refine ⟨declValues evars e, (mem_allMoves evars hre _).2 (declValues_move hre e), ?_⟩
    obtain ⟨p, l, h⟩ := key e
    have h' := h
    unfold nextAssigns at h'
    rw [h']
    cases alt
    rw [h] at h2
    simp only [PAlt.body, List.cons.injEq] at h2
    simp only at h1
    rw [h1, h2.1, h2.2]
    rfl

/-! ### Executions and plays -/

theorem dep_seq {D A : Type} {Inv : D → Prop} {OK : D → A → Prop} {nx : D → A → D}
    (h : ∀ d, Inv d → ∃ a, OK d a ∧ Inv (nx d a)) {d0 : D} (h0 : Inv d0) :
    ∃ (f : ℕ → D) (g : ℕ → A), f 0 = d0 ∧ ∀ r, Inv (f r) ∧ OK (f r) (g r) ∧ f (r + 1) = nx (f r) (g r) := by
  classical
  let F : ℕ → {d // Inv d} := fun r => Nat.rec ⟨d0, h0⟩ (fun _ d => ⟨nx d.1 (h d.1 d.2).choose, (h d.1 d.2).choose_spec.2⟩) r
  refine ⟨fun r => (F r).1, fun r => (h (F r).1 (F r).2).choose, rfl, fun r => ⟨(F r).2, (h (F r).1 (F r).2).choose_spec.1, rfl⟩⟩

theorem roundM_pos (fine : Bool) (e : DVal evars) (b : SysMove svars) : 0 < (roundM fine e b).length := by
  unfold roundM; simp

/-- A legal move stays at a node of the strategy. -/
theorem legal_node {st : Aut M (IState evars svars)} {d : PlayState evars svars} {m : DVal evars × SysMove svars}
    (h : LegalMove st d.k m) : ∃ y, st[(d.next m).k]? = some y := by
  obtain ⟨e, b⟩ := m
  cases b with
  | edge k v => obtain ⟨x, y, -, h2, -⟩ := h; exact ⟨y, h2⟩
  | fault => obtain ⟨x, h1, -⟩ := h; exact ⟨x, h1⟩

section exec

variable (hv : SpinVars evars svars) {st : Aut M (IState evars svars)} (hn : (st.map (·.id)).Nodup)
  (he : ∀ x ∈ st, ∀ j ∈ x.trans, ∃ y ∈ st, y.id = j) {fine : Bool}

include hv

theorem env_next_vals {σ : PVal} {s : IState evars svars} {q : DVal svars} {k : ℕ} {bad : Bool} (h : Bnd σ s q k bad)
    (e : DVal evars) : (∀ z ∈ evars, σ.run (envPart evars e).flatten (z.1 ++ sfxNext) = valOfName evars e z.1) ∧
      σ.run (envPart evars e).flatten nmCur = k := by
  have hnd := hv.nodup
  rw [List.map_append, List.nodup_append] at hnd
  constructor
  · intro x hx
    have hne : evars ≠ [] := by rintro rfl; simp at hx
    rw [envPart_flatten hne, run_append, run_other]
    · exact run_next hnd.1 (fun y hy => hv.range y (List.mem_append_left _ hy)) e σ hx
    · intro a ha he
      simp only [List.mem_cons, List.not_mem_nil, or_false] at ha
      rcases ha with rfl | rfl <;> exact next_ne (by decide) he.symm
  · rw [run_other, h.cur]
    intro a ha
    rcases mem_envPart ha with h1 | ⟨y, hy, h1⟩
    · rw [h1]; decide
    · rw [h1]; exact next_ne (by decide)

include hn he

/-- One round of an execution. -/
theorem exec_round {c : ℕ → PVal × List PCmd} (hc : ∀ i, PStep (spinProgram evars svars (withStates stateValues st)) fine (c i) (c (i + 1)))
    {i : ℕ} (hl : (c i).2 = (loopBody evars svars (withStates stateValues st)).map Prod.snd) {d : PlayState evars svars}
    (hb : Bnd (c i).1 d.s d.q d.k d.bad) (hk : ∃ x, st[d.k]? = some x) :
    ∃ m, LegalMove st d.k m ∧ Follows c i (roundM fine m.1 m.2) ((loopBody evars svars (withStates stateValues st)).map Prod.snd) := by
  obtain ⟨x, hk⟩ := hk
  set rest : List PCmd := [.sel (sysAltsP evars svars (withStates stateValues st)), .assign (nmCs, .bool true),
    .assign (nmCs, .bool false), .atomic (applyAssigns (evars ++ svars)), .goto (if evars = [] then lblSys else lblEnv)] with hrest
  -- the environment
  have env : ∃ e, Follows c i (envPart evars e) rest := by
    by_cases hne : evars = []
    · refine ⟨zeroVal evars, ?_⟩
      unfold envPart
      rw [if_pos hne]
      have := follows_nil c i
      rw [hl, loopBody, if_pos hne] at this
      exact this
    · rw [loopBody, if_neg hne] at hl
      obtain ⟨alt, ha, hen, f1⟩ := follows_sel hc (k := .assign (nmCe, .bool true) :: .assign (nmCe, .bool false) :: rest) hl
      obtain ⟨e, -, he⟩ := (env_alts hv hne alt).1 ha
      rw [he] at f1
      refine ⟨e, ?_⟩
      have f2 := follows_assign hc _ _ _ f1.code
      have f12 := f1.append f2
      have f3 := follows_assign hc _ _ _ f12.code
      unfold envPart
      rw [if_neg hne]
      exact f12.append f3
  obtain ⟨e, f1⟩ := env
  obtain ⟨alt, ha, hen, f2⟩ := follows_sel hc f1.code
  have hval := f1.vals _ (List.prefix_refl _)
  have ev := env_next_vals hv hb e
  rw [hval] at hen
  obtain ⟨b, hbb, hleg⟩ := (sys_enabled hv hn he hk ev.2 ev.1).1 alt ha hen
  rw [hbb] at f2
  refine ⟨(e, b), hleg, ?_⟩
  have f12 := f1.append f2
  have f3 := f12.append (follows_assign hc _ _ _ f12.code)
  have f4 := f3.append (follows_assign hc _ _ _ f3.code)
  have f5 := f4.append (follows_atomic hc _ _ _ f4.code)
  have f6 := f5.append (follows_goto hc f5.code)
  rw [atLabel_loop] at f6
  unfold roundM
  rw [← List.append_assoc]
  exact f6

/-- Every execution is a play. -/
theorem exec_play {c : ℕ → PVal × List PCmd} (hc : PExec (spinProgram evars svars (withStates stateValues st)) fine c) :
    ∃ d m B, IsPlay st d m ∧ PlayTrace fine (fun i => (c i).1) d m B := by
  obtain ⟨c0, hs⟩ := hc
  have h0 : (c 0).2 = .dstep (initAltsP (evars ++ svars) 0 (withStates stateValues st)) ::
      (loopBody evars svars (withStates stateValues st)).map Prod.snd := by rw [c0]; rfl
  obtain ⟨l, alt, r, e1, e2, e3, e4⟩ := follows_dstep hs h0
  -- the first initial node
  cases hf : (withStates stateValues st).find? (·.initial) with
  | none =>
    rw [initAltsP_empty 0 hf] at e1
    exact absurd e1 (by simp)
  | some n =>
    obtain ⟨i, r', k1, k2⟩ := initAltsP_head (vs := evars ++ svars) 0 hf
    rw [k2] at e1
    have hl : l = [] := by
      cases l with
      | nil => rfl
      | cons a l =>
        exfalso
        simp only [List.cons_append, List.cons.injEq] at e1
        refine e2 a (by simp) (Or.inl ?_)
        rw [← e1.1]; trivial
    subst hl
    simp only [List.nil_append, List.cons.injEq] at e1
    have hx : ∃ x, st[i]? = some x ∧ st.find? (·.initial) = some x ∧ n.state = stateValues x.state := by
      unfold withStates at hf k1
      rw [List.find?_map] at hf
      obtain ⟨x, hx1, hx2⟩ := Option.map_eq_some_iff.1 hf
      rw [List.getElem?_map] at k1
      obtain ⟨x', hx3, hx4⟩ := Option.map_eq_some_iff.1 k1
      refine ⟨x, ?_, hx1, by rw [← hx2]⟩
      have h1 : x.id = x'.id := by
        have := congrArg ANode.id (hx2.trans hx4.symm); exact this
      rw [hx3, List.inj_on_of_nodup_map hn (List.mem_of_find?_eq_some hx1) (List.mem_of_getElem? hx3) h1]
    obtain ⟨x, x1, x2, x3⟩ := hx
    have hb0 : Bnd (c 1).1 x.state (zeroVal svars) i false := by
      rw [e4, ← e1.1]
      simp only [PAlt.body, c0, Nat.zero_add]
      rw [x3]
      exact bnd_start hv x.state i
    let D := ℕ × PlayState evars svars
    obtain ⟨f, m, g0, g⟩ := dep_seq (D := ℕ × PlayState evars svars) (A := DVal evars × SysMove svars)
      (Inv := fun d => (c (1 + d.1)).2 = (loopBody evars svars (withStates stateValues st)).map Prod.snd ∧
        Bnd (c (1 + d.1)).1 d.2.s d.2.q d.2.k d.2.bad ∧ ∃ x, st[d.2.k]? = some x)
      (OK := fun d m => LegalMove st d.2.k m ∧ Follows c (1 + d.1) (roundM fine m.1 m.2)
        ((loopBody evars svars (withStates stateValues st)).map Prod.snd))
      (nx := fun d m => (d.1 + (roundM fine m.1 m.2).length, d.2.next m))
      (by
        rintro ⟨i, d⟩ ⟨h1, h2, h3⟩
        obtain ⟨m, m1, m2⟩ := exec_round hv hn he hs h1 h2 h3
        refine ⟨m, ⟨m1, m2⟩, ?_, ?_, legal_node m1⟩
        · have := m2.code
          rw [Nat.add_assoc] at this
          exact this
        · have := m2.vals _ (List.prefix_refl _)
          simp only
          rw [← Nat.add_assoc, this]
          exact (round_facts hv fine h2 m.1 m.2).2)
      (d0 := (0, ⟨x.state, zeroVal svars, i, false⟩))
      ⟨by rw [Nat.add_zero, e4], hb0, x, x1⟩
    have hst : ∀ r, (f r).1 = blockStart (fun r => (roundM fine (m r).1 (m r).2).length) r := by
      intro r
      induction r with
      | zero => rw [g0]; rfl
      | succ r ih => rw [(g r).2.2, blockStart, ← ih]
    refine ⟨fun r => (f r).2, m, fun r => (c (1 + (f r).1)).1, ⟨?_, fun r => (g r).2.1.1, fun r => by rw [(g r).2.2]⟩,
      ⟨?_, fun r => (g r).1.2.1⟩⟩
    · rw [g0]
      exact ⟨x, x1, x2, rfl, rfl, rfl⟩
    · refine ⟨by rw [c0], fun r => roundM_pos _ _ _, ?_, ?_⟩
      · intro r
        rw [(g r).2.2]
        have := (g r).2.1.2.vals _ (List.prefix_refl _)
        rw [← this, Nat.add_assoc]
      · intro r p hp
        have := (g r).2.1.2.vals p hp
        rw [← hst, this]

omit he in
/-- One round of a play as steps of the program. -/
theorem play_round (he : ∀ x ∈ st, ∀ j ∈ x.trans, ∃ y ∈ st, y.id = j) {σ : PVal} {d : PlayState evars svars}
    (hb : Bnd σ d.s d.q d.k d.bad) {m : DVal evars × SysMove svars} (hm : LegalMove st d.k m) :
    MPath (spinProgram evars svars (withStates stateValues st)) fine
      (σ, (loopBody evars svars (withStates stateValues st)).map Prod.snd) (roundM fine m.1 m.2)
      (σ.run (roundM fine m.1 m.2).flatten, (loopBody evars svars (withStates stateValues st)).map Prod.snd) := by
  obtain ⟨e, b⟩ := m
  have hk : ∃ x, st[d.k]? = some x := by
    cases b with
    | edge k v => obtain ⟨x, y, h1, -⟩ := hm; exact ⟨x, h1⟩
    | fault => obtain ⟨x, h1, -⟩ := hm; exact ⟨x, h1⟩
  obtain ⟨x, hk⟩ := hk
  set rest : List PCmd := [.sel (sysAltsP evars svars (withStates stateValues st)), .assign (nmCs, .bool true),
    .assign (nmCs, .bool false), .atomic (applyAssigns (evars ++ svars)), .goto (if evars = [] then lblSys else lblEnv)] with hrest
  have env : MPath (spinProgram evars svars (withStates stateValues st)) fine
      (σ, (loopBody evars svars (withStates stateValues st)).map Prod.snd) (envPart evars e)
      (σ.run (envPart evars e).flatten, rest) := by
    by_cases hne : evars = []
    · have e1 : envPart evars e = [] := by unfold envPart; rw [if_pos hne]
      have e2 : (loopBody evars svars (withStates stateValues st)).map Prod.snd = rest := by
        unfold loopBody
        simp only [if_pos hne, hrest]
        rfl
      rw [e1, e2]
      exact .nil _
    · have e1 : envPart evars e = ([] :: singles (nextAssigns evars e)) ++ singles [(nmCe, .bool true), (nmCe, .bool false)] := by
        unfold envPart
        rw [if_neg hne, List.append_assoc]; rfl
      have e2 : (loopBody evars svars (withStates stateValues st)).map Prod.snd =
          .sel (envAltsP evars) :: .assign (nmCe, .bool true) :: .assign (nmCe, .bool false) :: rest := by
        unfold loopBody
        simp only [if_neg hne, hrest]
        rfl
      rw [envPart_flatten hne, e1, e2]
      obtain ⟨p, l, hpl⟩ := nextAssigns_ne hne e
      have ha : (⟨.one, p, l⟩ : PAlt) ∈ envAltsP evars := (env_alts hv hne _).2 ⟨e, rfl, hpl.symm⟩
      have f1 := mpath_sel (P := spinProgram evars svars (withStates stateValues st)) (fine := fine) ha
        (σ := σ) (Or.inl trivial) (.assign (nmCe, .bool true) :: .assign (nmCe, .bool false) :: rest)
      have hb' : PAlt.body ⟨.one, p, l⟩ = nextAssigns evars e := hpl.symm
      rw [hb'] at f1
      have f2 := mpath_assigns (P := spinProgram evars svars (withStates stateValues st)) (fine := fine)
        [(nmCe, .bool true), (nmCe, .bool false)] (σ.run (nextAssigns evars e)) rest
      rw [run_append]
      exact f1.append f2
  have ev := env_next_vals hv hb e
  obtain ⟨alt, ha, hen, hbb⟩ := (sys_enabled hv hn he hk ev.2 ev.1).2 b hm
  have f1 := mpath_sel (P := spinProgram evars svars (withStates stateValues st)) (fine := fine) ha hen
    [.assign (nmCs, .bool true), .assign (nmCs, .bool false), .atomic (applyAssigns (evars ++ svars)),
      .goto (if evars = [] then lblSys else lblEnv)]
  rw [hbb] at f1
  have f2 := env.append f1
  have f3 := f2.append (mpath_assigns (P := spinProgram evars svars (withStates stateValues st)) (fine := fine)
    [(nmCs, .bool true), (nmCs, .bool false)] _ [.atomic (applyAssigns (evars ++ svars)),
      .goto (if evars = [] then lblSys else lblEnv)])
  have f4 := f3.append (mpath_atomic (applyAssigns (evars ++ svars)) _ _)
  have f5 := f4.append (.cons (.goto _ _ _) (m := []) rfl (.nil _))
  rw [atLabel_loop] at f5
  have e1 : roundM fine e b = envPart evars e ++ [] :: singles b.body ++ singles [(nmCs, .bool true), (nmCs, .bool false)] ++
      atomicSteps fine (applyAssigns (evars ++ svars)) ++ [[]] := by
    unfold roundM; simp [singles]
  have e2 : σ.run (roundM fine e b).flatten = ((((σ.run (envPart evars e).flatten).run b.body).run
      [(nmCs, .bool true), (nmCs, .bool false)]).run (applyAssigns (evars ++ svars))) := by
    rw [e1]
    simp only [List.flatten_append, flat_cons_singles, singles_flatten, atomicSteps_flatten, run_append]
    rfl
  simp only
  rw [e2, e1]
  exact f5

/-- Every play is an execution. -/
theorem play_exec {d : ℕ → PlayState evars svars} {m : ℕ → DVal evars × SysMove svars} (h : IsPlay st d m) :
    ∃ c B, PExec (spinProgram evars svars (withStates stateValues st)) fine c ∧ PlayTrace fine (fun i => (c i).1) d m B := by
  obtain ⟨x, x1, x2, x3, x4, x5⟩ := h.start
  set P := spinProgram evars svars (withStates stateValues st) with hP
  set loop := (loopBody evars svars (withStates stateValues st)).map Prod.snd with hloop
  -- the first step
  have hf : (withStates stateValues st).find? (·.initial) =
      some ⟨x.id, stateValues x.state, x.mode, x.rgrad, x.initial, x.trans⟩ := by
    unfold withStates
    rw [List.find?_map]
    have : st.find? ((fun x => x.initial) ∘ fun x : ANode M (IState evars svars) =>
        ({ id := x.id, state := stateValues x.state, mode := x.mode, rgrad := x.rgrad, initial := x.initial,
           trans := x.trans } : ANode M (List ℤ))) = some x := x2
    rw [this]; rfl
  obtain ⟨i, r', k1, k2⟩ := initAltsP_head (vs := evars ++ svars) 0 hf
  have hi : i = (d 0).k := by
    unfold withStates at k1
    rw [List.getElem?_map] at k1
    obtain ⟨x', hx3, hx4⟩ := Option.map_eq_some_iff.1 k1
    have h1 : x'.id = x.id := by have := congrArg ANode.id hx4; exact this
    have h2 := List.inj_on_of_nodup_map hn (List.mem_of_getElem? hx3) (List.mem_of_getElem? x1) h1
    subst h2
    have hinj := (List.nodup_iff_injective_get (l := st)).1 (List.Nodup.of_map _ hn)
    obtain ⟨l1, g1⟩ := List.getElem?_eq_some_iff.1 hx3
    obtain ⟨l2, g2⟩ := List.getElem?_eq_some_iff.1 x1
    have := @hinj ⟨_, l1⟩ ⟨_, l2⟩ (by simp only [List.get_eq_getElem]; rw [g1, g2])
    exact congrArg Fin.val this
  rw [hi, Nat.zero_add] at k2
  -- the values at the beginnings of the rounds
  let B : ℕ → PVal := fun r => Nat.rec
    (PVal.run (fun _ => 0) ((nmCur, .num (d 0).k) :: assignsOf [] (evars ++ svars) (stateValues x.state)))
    (fun r σ => σ.run (roundM fine (m r).1 (m r).2).flatten) r
  have hB : ∀ r, Bnd (B r) (d r).s (d r).q (d r).k (d r).bad := by
    intro r
    induction r with
    | zero =>
      rw [x3, x4, x5]
      exact bnd_start hv x.state _
    | succ r ih =>
      rw [h.next r]
      exact (round_facts hv fine ih _ _).2
  have hp : ∀ r, MPath P fine (B r, loop) (roundM fine (m r).1 (m r).2) (B (r + 1), loop) :=
    fun r => play_round hv hn he (hB r) (h.move r)
  choose f f1 f2 f3 f4 using fun r => (hp r).steps
  obtain ⟨c, c1, c2⟩ := glue (R := PStep P fine) (f := f) (len := fun r => (roundM fine (m r).1 (m r).2).length)
    (fun r => roundM_pos _ _ _) f3 (fun r => by rw [f2, f1])
  have c00 : c 0 = (B 0, loop) := by
    have := c2 0 0 (Nat.zero_le _)
    rw [f1] at this
    exact this
  refine ⟨fun i => match i with | 0 => (fun _ => 0, P.body.map Prod.snd) | i + 1 => c i, B, ⟨rfl, ?_⟩, ⟨⟨rfl, fun r => roundM_pos _ _ _, fun r => rfl, ?_⟩, hB⟩⟩
  · intro i
    cases i with
    | zero =>
      simp only
      rw [c00]
      have e1 : P.body.map Prod.snd = .dstep ([] ++ (⟨.one, (nmCur, .num (d 0).k), assignsOf [] (evars ++ svars) (stateValues x.state)⟩ : PAlt) :: r') :: loop := by
        rw [hP, List.nil_append, ← k2]; rfl
      rw [e1]
      exact .dstep (fun _ => 0) [] r' loop _ (Or.inl trivial) (fun b hb => absurd hb (by simp))
    | succ i => exact c1 i
  · intro r p hpp
    have := c2 r p.length hpp.length_le
    have e : 1 + blockStart (fun r => (roundM fine (m r).1 (m r).2).length) r + p.length =
      (blockStart (fun r => (roundM fine (m r).1 (m r).2).length) r + p.length) + 1 := by omega
    rw [e]
    simp only
    rw [this, f4 r p hpp]

end exec

end plays

end Gr1c
