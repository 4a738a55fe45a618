import Verif.SpinExec
import Verif.SpinProps
import Verif.PipelineProps

/-!
# The formula on the executions of the Promela model (C58)
-/

namespace Gr1c

/-! ## Specification -/

section meets

variable {evars svars : Decls}

/-- A sequence of states satisfies the assumptions on the environment: initial condition, transitions, goals. -/
structure EnvMeets (sp : FSpec) (s : ℕ → IState evars svars) : Prop where
  init : ∀ f ∈ sp.einit, f.eval (intEnv (s 0) (s 0)) = true
  steps : ∀ r, (intGame evars svars sp).etr (s r) (s (r + 1)).1 = true
  goals : ∀ f ∈ sp.egoals, InfOften s (fmStates f)

/-- A sequence of states satisfies the guarantees of the system. -/
structure SysMeets (sp : FSpec) (s : ℕ → IState evars svars) : Prop where
  init : ∀ f ∈ sp.sinit, f.eval (intEnv (s 0) (s 0)) = true
  steps : ∀ r, (intGame evars svars sp).str (s r) (s (r + 1)) = true
  goals : ∀ f ∈ sp.sgoals, InfOften s (fmStates f)

/-- A goal is seen infinitely often by Spin: in the states, and with `fine` also while the variables get their next
values one after the other. -/
def Sees (fine : Bool) (s : ℕ → IState evars svars) (f : Fm) : Prop :=
  ∀ N, ∃ r, N ≤ r ∧ if fine then ∃ j, mixS j (s r) (s (r + 1)) ∈ fmStates f else s r ∈ fmStates f

/-- The assumptions on the environment as Spin sees them. -/
structure EnvSeen (fine : Bool) (sp : FSpec) (s : ℕ → IState evars svars) : Prop where
  init : ∀ f ∈ sp.einit, f.eval (intEnv (s 0) (s 0)) = true
  steps : ∀ r, (intGame evars svars sp).etr (s r) (s (r + 1)).1 = true
  goals : ∀ f ∈ sp.egoals, Sees fine s f

/-- The guarantees of the system as Spin sees them. -/
structure SysSeen (fine : Bool) (sp : FSpec) (s : ℕ → IState evars svars) : Prop where
  init : ∀ f ∈ sp.sinit, f.eval (intEnv (s 0) (s 0)) = true
  steps : ∀ r, (intGame evars svars sp).str (s r) (s (r + 1)) = true
  goals : ∀ f ∈ sp.sgoals, Sees fine s f

/-- A formula with at most one variable. -/
def OneVar (f : Fm) : Prop := ∃ n, ∀ x ∈ f.bvars ++ f.zvars, x.2 = n

end meets

/-! ## Macros and formula -/

def nmEnvinit : Name := "envinit".toList
def nmEnvtrans : Name := "envtrans".toList
def nmSysinit : Name := "sysinit".toList
def nmSystrans : Name := "systrans".toList

def initMacro (n : Name) : Option SExp → List PMacro
  | none => []
  | some e => [(n, [e])]

def goalMacros (n : Name) : ℕ → List SExp → List PMacro
  | _, [] => []
  | i, e :: es => (n ++ pad4 i, [e]) :: goalMacros n (i + 1) es

/-- The expressions of the macros. -/
structure SpinExps where
  einit : Option SExp
  sinit : Option SExp
  etrans : List SExp
  strans : List SExp
  egoals : List SExp
  sgoals : List SExp

def transMacro (n : Name) (es : List SExp) : PMacro := (n, if es = [] then [.num 1] else es)

def spinMacros (ne : ℕ) (x : SpinExps) : List PMacro :=
  (if 0 < ne then initMacro nmEnvinit x.einit ++ (transMacro nmEnvtrans x.etrans :: goalMacros "envgoal".toList 0 x.egoals) else []) ++
  (initMacro nmSysinit x.sinit ++ (transMacro nmSystrans x.strans :: goalMacros "sysgoal".toList 0 x.sgoals))

/-- The macros mean the formulas. -/
structure ExpsMean (x : SpinExps) (sp : FSpec) : Prop where
  einit : Option.Rel Means x.einit sp.einit
  sinit : Option.Rel Means x.sinit sp.sinit
  etrans : List.Forall₂ Means x.etrans sp.etrans
  strans : List.Forall₂ Means x.strans sp.strans
  egoals : List.Forall₂ Means x.egoals sp.egoals
  sgoals : List.Forall₂ Means x.sgoals sp.sgoals

def ltlInit (b : Bool) (n : Name) (f : Ltl) : Ltl := if b then .and (.next (.prop n)) f else f

def ltlCheck (c t : Name) : Ltl := .alw (.or (.not (.prop c)) (.prop t))

def ltlConj (f : Ltl) (n : Name) (k : ℕ) : Ltl := (List.range k).foldl (fun f i => .and f (.alw (.ev (.prop (n ++ pad4 i))))) f

def ltlSys (sinit : Bool) (nsg : ℕ) : Ltl :=
  .and (ltlConj (ltlInit sinit nmSysinit (ltlCheck nmCs nmSystrans)) "sysgoal".toList nsg) (.alw (.not (.prop nmFault)))

/-- The formula that is written. -/
def spinFormula (ne : ℕ) (einit sinit : Bool) (neg nsg : ℕ) : Ltl :=
  if 0 < ne then .imp (ltlConj (ltlInit einit nmEnvinit (ltlCheck nmCe nmEnvtrans)) "envgoal".toList neg) (ltlSys sinit nsg)
  else ltlSys sinit nsg

/-! ## Names of macros -/

theorem pad4_inj {i j : ℕ} (h : pad4 i = pad4 j) : i = j := by
  have val : ∀ i, Nat.ofDigits 10 ((pad4 i).reverse.map digitVal) = i := by
    intro i
    unfold pad4
    rw [List.reverse_append, List.map_append, Nat.ofDigits_append, List.reverse_replicate, List.map_replicate]
    have h0 : ∀ k, Nat.ofDigits 10 (List.replicate k (digitVal '0')) = 0 := by
      intro k
      induction k with
      | zero => rfl
      | succ k ih => rw [List.replicate_succ, Nat.ofDigits_cons, ih]; rfl
    rw [h0, Nat.mul_zero, Nat.add_zero, decimal_value]
  rw [← val i, ← val j, h]

theorem mem_goalMacros {n : Name} {i : ℕ} {es : List SExp} {m : PMacro} :
    m ∈ goalMacros n i es ↔ ∃ j e, es[j]? = some e ∧ m = (n ++ pad4 (i + j), [e]) := by
  induction es generalizing i with
  | nil => simp [goalMacros]
  | cons e es ih =>
    rw [goalMacros, List.mem_cons, ih]
    constructor
    · rintro (rfl | ⟨j, e', h1, h2⟩)
      · exact ⟨0, e, rfl, rfl⟩
      · exact ⟨j + 1, e', h1, by rw [h2, show i + 1 + j = i + (j + 1) by omega]⟩
    · rintro ⟨j, e', h1, h2⟩
      cases j with
      | zero =>
        rw [List.getElem?_cons_zero, Option.some.injEq] at h1
        subst h1
        exact Or.inl h2
      | succ j => exact Or.inr ⟨j, e', h1, by rw [h2, show i + 1 + j = i + (j + 1) by omega]⟩

theorem goalMacros_nodup (n : Name) (i : ℕ) (es : List SExp) : ((goalMacros n i es).map Prod.fst).Nodup := by
  induction es generalizing i with
  | nil => simp [goalMacros]
  | cons e es ih =>
    rw [goalMacros, List.map_cons, List.nodup_cons]
    refine ⟨?_, ih (i + 1)⟩
    intro h
    obtain ⟨m, hm, he⟩ := List.mem_map.1 h
    obtain ⟨j, e', -, rfl⟩ := mem_goalMacros.1 hm
    have := pad4_inj (List.append_cancel_left he)
    omega

theorem prefix_ne {p n t : List Char} (h : ¬ p <+: n) : p ++ t ≠ n := by
  rintro rfl; exact h (List.prefix_append _ _)

/-- Where the names of macros come from. -/
theorem macro_names {ne : ℕ} {x : SpinExps} {m : PMacro} (h : m ∈ spinMacros ne x) :
    m.1 ∈ ["envinit", "envtrans", "sysinit", "systrans"].map String.toList ∨ (∃ i, m.1 = "envgoal".toList ++ pad4 i) ∨
      ∃ i, m.1 = "sysgoal".toList ++ pad4 i := by
  unfold spinMacros at h
  rw [List.mem_append] at h
  have im : ∀ n o, m ∈ initMacro n o → m.1 = n := by
    intro n o hm
    cases o with
    | none => simp [initMacro] at hm
    | some e => rw [initMacro, List.mem_singleton] at hm; rw [hm]
  rcases h with h | h
  · split_ifs at h
    · rw [List.mem_append, List.mem_cons] at h
      rcases h with h | rfl | h
      · left; rw [im _ _ h]; decide
      · left; show nmEnvtrans ∈ _; decide
      · obtain ⟨j, e, -, rfl⟩ := mem_goalMacros.1 h
        exact Or.inr (Or.inl ⟨_, rfl⟩)
    · simp at h
  · rw [List.mem_append, List.mem_cons] at h
    rcases h with h | rfl | h
    · left; rw [im _ _ h]; decide
    · left; show nmSystrans ∈ _; decide
    · obtain ⟨j, e, -, rfl⟩ := mem_goalMacros.1 h
      exact Or.inr (Or.inr ⟨_, rfl⟩)

theorem spinMacros_nodup (ne : ℕ) (x : SpinExps) : ((spinMacros ne x).map Prod.fst).Nodup := by
  have goal_ne : ∀ {p : List Char} {es : List SExp} {n : Name}, ¬ p <+: n → n ∉ (goalMacros p 0 es).map Prod.fst := by
    intro p es n hp h
    obtain ⟨m, hm, he⟩ := List.mem_map.1 h
    obtain ⟨j, e', -, rfl⟩ := mem_goalMacros.1 hm
    exact prefix_ne hp he
  have im : ∀ n o, ∀ k ∈ (initMacro n o).map Prod.fst, k = n := by
    intro n o k hk
    cases o with
    | none => simp [initMacro] at hk
    | some e => simpa [initMacro] using hk
  have part : ∀ (n1 n2 : Name) (p : List Char) o es gs, n1 ≠ n2 → ¬ p <+: n1 → ¬ p <+: n2 →
      ((initMacro n1 o ++ (transMacro n2 es :: goalMacros p 0 gs)).map Prod.fst).Nodup := by
    intro n1 n2 p o es gs h1 h2 h3
    rw [List.map_append, List.nodup_append]
    refine ⟨by cases o <;> simp [initMacro], ?_, ?_⟩
    · rw [List.map_cons, List.nodup_cons]
      exact ⟨goal_ne h3, goalMacros_nodup _ _ _⟩
    · intro a ha b hb hab
      rw [im _ _ a ha] at hab
      subst hab
      rw [List.map_cons, List.mem_cons] at hb
      rcases hb with hb | hb
      · exact h1 hb
      · exact goal_ne h2 hb
  unfold spinMacros
  split_ifs with hne
  · rw [List.map_append, List.nodup_append]
    refine ⟨part _ _ _ _ _ _ (by decide) (by decide) (by decide), part _ _ _ _ _ _ (by decide) (by decide) (by decide), ?_⟩
    intro a ha b hb hab
    subst hab
    -- names of the environment's macros begin with `env`
    have h1 : "env".toList <+: a := by
      rw [List.map_append, List.map_cons, List.mem_append, List.mem_cons] at ha
      rcases ha with ha | rfl | ha
      · rw [im _ _ a ha]; decide
      · show "env".toList <+: nmEnvtrans; decide
      · obtain ⟨m, hm, rfl⟩ := List.mem_map.1 ha
        obtain ⟨j, e', -, rfl⟩ := mem_goalMacros.1 hm
        exact List.IsPrefix.trans (by decide : "env".toList <+: "envgoal".toList) (List.prefix_append _ _)
    have h2 : "sys".toList <+: a := by
      rw [List.map_append, List.map_cons, List.mem_append, List.mem_cons] at hb
      rcases hb with ha | rfl | ha
      · rw [im _ _ a ha]; decide
      · show "sys".toList <+: nmSystrans; decide
      · obtain ⟨m, hm, rfl⟩ := List.mem_map.1 ha
        obtain ⟨j, e', -, rfl⟩ := mem_goalMacros.1 hm
        exact List.IsPrefix.trans (by decide : "sys".toList <+: "sysgoal".toList) (List.prefix_append _ _)
    have := List.prefix_of_prefix_length_le h1 h2 (by decide)
    exact absurd this (by decide)
  · rw [List.nil_append]
    exact part _ _ _ _ _ _ (by decide) (by decide) (by decide)

theorem propHolds_mem {ms : List PMacro} (hn : (ms.map Prod.fst).Nodup) {n : Name} {es : List SExp} (h : (n, es) ∈ ms)
    (σ : PVal) : propHolds ms σ n ↔ ∀ e ∈ es, e.val σ ≠ 0 := by
  have : ms.find? (fun m => m.1 = n) = some (n, es) := by
    cases hf : ms.find? fun m => m.1 = n with
    | none =>
      rw [List.find?_eq_none] at hf
      exact absurd (hf _ h) (by simp)
    | some z =>
      have h1 := List.find?_some hf
      have h2 := List.mem_of_find?_eq_some hf
      simp only [decide_eq_true_eq] at h1
      rw [List.inj_on_of_nodup_map hn h2 h h1]
  unfold propHolds
  rw [this]

theorem propHolds_own {ne : ℕ} {x : SpinExps} {n : Name} (hn : n ∈ [nmCe, nmCs, nmFault]) (σ : PVal) :
    propHolds (spinMacros ne x) σ n ↔ σ n ≠ 0 := by
  have : (spinMacros ne x).find? (fun m => m.1 = n) = none := by
    rw [List.find?_eq_none]
    intro m hm
    simp only [decide_eq_true_eq]
    intro h
    rcases macro_names hm with h1 | ⟨i, h1⟩ | ⟨i, h1⟩
    · rw [h] at h1
      revert h1
      clear hm h
      simp only [List.mem_cons, List.not_mem_nil, or_false] at hn
      rcases hn with rfl | rfl | rfl <;> decide
    · rw [h] at h1
      clear hm h
      simp only [List.mem_cons, List.not_mem_nil, or_false] at hn
      rcases hn with rfl | rfl | rfl <;> exact prefix_ne (by decide) h1.symm
    · rw [h] at h1
      clear hm h
      simp only [List.mem_cons, List.not_mem_nil, or_false] at hn
      rcases hn with rfl | rfl | rfl <;> exact prefix_ne (by decide) h1.symm
  unfold propHolds
  rw [this]

/-! ## Truth of the formula -/

section truth

variable {evars svars : Decls}

theorem lookVal_range {vs : List (Name × ℤ)} (hn : (vs.map Prod.fst).Nodup) {cs : List ℤ} (h : IsMove vs cs) {x : Name × ℤ}
    (hx : x ∈ vs) : InVarRange x (lookVal vs cs x.1) := by
  unfold IsMove at h
  induction h with
  | nil => simp at hx
  | @cons y c vs cs h1 h2 ih =>
    rw [List.map_cons, List.nodup_cons] at hn
    rw [lookVal]
    rcases List.mem_cons.1 hx with rfl | hx
    · rw [if_pos rfl]; exact h1
    · rw [if_neg]
      · exact ih hn.2 hx
      · intro he; exact hn.1 (he ▸ List.mem_map_of_mem hx)

theorem bool_val (hv : SpinVars evars svars) (s : IState evars svars) {x : Name × ℤ} (hx : x ∈ evars ++ svars) (hb : x.2 < 0) :
    stVal s x.1 = if stVal s x.1 != 0 then 1 else 0 := by
  have h := lookVal_range hv.nodup (stateValues_move hv s) hx
  rw [lookVal_state] at h
  obtain ⟨h1, h2⟩ := h
  rw [if_pos (by have := hv.range x hx; omega)] at h2
  split_ifs with h3
  · have : stVal s x.1 ≠ 0 := by simpa using h3
    omega
  · simpa using h3

theorem agrees (hv : SpinVars evars svars) {ps : Decls} (hps : ps ⊆ evars ++ svars) {f : Fm} (ht : Typed (evars ++ svars) ps f)
    {σ : PVal} {s t : IState evars svars} (h1 : ∀ x ∈ evars ++ svars, σ x.1 = stVal s x.1)
    (h2 : ∀ x ∈ ps, σ (x.1 ++ sfxNext) = stVal t x.1) : SpinAgrees (intEnv s t) σ f := by
  constructor
  · rintro ⟨nx, n⟩ hx
    obtain ⟨d, hd, rfl, hb⟩ := ht.1 _ hx
    cases nx with
    | false =>
      simp only [Bool.false_eq_true, if_false] at hd
      simp only [spinName, Bool.false_eq_true, if_false, List.append_nil, intEnv]
      rw [h1 d hd]
      exact bool_val hv s hd hb
    | true =>
      simp only [if_true] at hd
      simp only [spinName, if_true, intEnv]
      rw [show d.1 ++ "_next".toList = d.1 ++ sfxNext from rfl, h2 d hd]
      exact bool_val hv t (hps hd) hb
  · rintro ⟨nx, n⟩ hx
    obtain ⟨d, hd, rfl, hb⟩ := ht.2 _ hx
    cases nx with
    | false =>
      simp only [Bool.false_eq_true, if_false] at hd
      simp only [spinName, Bool.false_eq_true, if_false, List.append_nil, intEnv]
      exact h1 d hd
    | true =>
      simp only [if_true] at hd
      simp only [spinName, if_true, intEnv]
      exact h2 d hd

theorem all_mean {es : List SExp} {fs : List Fm} (h : List.Forall₂ Means es fs) {σ : PVal} {ρ : Env}
    (ha : ∀ f ∈ fs, SpinAgrees ρ σ f) : (∀ e ∈ (if es = [] then [SExp.num 1] else es), e.val σ ≠ 0) ↔ ∀ f ∈ fs, f.eval ρ = true := by
  have main : ∀ {es : List SExp} {fs : List Fm}, List.Forall₂ Means es fs → (∀ f ∈ fs, SpinAgrees ρ σ f) →
      ((∀ e ∈ es, e.val σ ≠ 0) ↔ ∀ f ∈ fs, f.eval ρ = true) := by
    intro es fs h ha
    induction h with
    | nil => simp
    | @cons e f es fs h1 h2 ih =>
      rw [List.forall_mem_cons, List.forall_mem_cons, ih fun g hg => ha g (List.mem_cons_of_mem _ hg),
        h1 ρ σ (ha f List.mem_cons_self)]
  split_ifs with he
  · subst he
    cases h
    simp [SExp.val]
  · exact main h ha

theorem ltlConj_holds (ms : List PMacro) (w : ℕ → PVal) (f : Ltl) (n : Name) (k : ℕ) :
    (ltlConj f n k).Holds ms w 0 ↔ f.Holds ms w 0 ∧ ∀ i, i < k → ∀ j, ∃ l, j ≤ l ∧ propHolds ms (w l) (n ++ pad4 i) := by
  induction k with
  | zero => simp [ltlConj]
  | succ k ih =>
    have : ltlConj f n (k + 1) = .and (ltlConj f n k) (.alw (.ev (.prop (n ++ pad4 k)))) := by
      unfold ltlConj; rw [List.range_succ, List.foldl_append]; rfl
    rw [this, Ltl.Holds, ih, and_assoc]
    refine and_congr_right fun _ => ?_
    simp only [Ltl.Holds, Nat.zero_le, true_implies]
    constructor
    · rintro ⟨h1, h2⟩ i hi
      rcases Nat.lt_succ_iff_lt_or_eq.1 hi with h | rfl
      · exact h1 i h
      · exact h2
    · intro h
      exact ⟨fun i hi => h i (by omega), h k (by omega)⟩

theorem ltlCheck_holds {ms : List PMacro} {w B : ℕ → PVal} {M : ℕ → List (List PAssign)} (hr : RoundsOf w B M) {c t : Name}
    (hc : ∀ σ, propHolds ms σ c ↔ σ c ≠ 0) {T : ℕ → Prop} (hs : ∀ r, ∃ p, p <+: M r ∧ (B r).run p.flatten c ≠ 0)
    (ht : ∀ r p, p <+: M r → (B r).run p.flatten c ≠ 0 → (propHolds ms ((B r).run p.flatten) t ↔ T r)) :
    (ltlCheck c t).Holds ms w 0 ↔ ∀ r, T r := by
  simp only [ltlCheck, Ltl.Holds, Nat.zero_le, true_implies]
  rw [hr.always fun σ => ¬ propHolds ms σ c ∨ propHolds ms σ t]
  simp only [hc, not_not]
  constructor
  · rintro ⟨-, h⟩ r
    obtain ⟨p, h1, h2⟩ := hs r
    exact (ht r p h1 h2).1 ((h r p h1).resolve_left h2)
  · intro h
    refine ⟨Or.inl trivial, fun r p hp => ?_⟩
    by_cases h0 : (B r).run p.flatten c = 0
    · exact Or.inl h0
    · exact Or.inr ((ht r p hp h0).2 (h r))

variable {M : Type} {st : Aut M (IState evars svars)} {fine : Bool} {w : ℕ → PVal} {d : ℕ → PlayState evars svars}
  {m : ℕ → DVal evars × SysMove svars} {B : ℕ → PVal}

/-- The facts on each round of a play. -/
theorem trace_facts (hv : SpinVars evars svars) (hp : IsPlay st d m) (ht : PlayTrace fine w d m B) (r : ℕ) :
    RoundFacts fine (B r) (d r).s (d (r + 1)).s (d r).bad (d (r + 1)).bad (roundM fine (m r).1 (m r).2) := by
  have := (round_facts hv fine (ht.bnd r) (m r).1 (m r).2).1
  rw [hp.next r]
  exact this

theorem init_holds (hv : SpinVars evars svars) (ht : PlayTrace fine w d m B) {ms : List PMacro}
    (hn : (ms.map Prod.fst).Nodup) {n : Name} {o : Option SExp} {fo : Option Fm} (hr : Option.Rel Means o fo)
    (hm : initMacro n o ⊆ ms) (hty : ∀ f ∈ fo, Typed (evars ++ svars) [] f) (f : Ltl) :
    (ltlInit fo.isSome n f).Holds ms w 0 ↔ (∀ g ∈ fo, g.eval (intEnv (d 0).s (d 0).s) = true) ∧ f.Holds ms w 0 := by
  cases hr with
  | none => simp [ltlInit]
  | @some e g h =>
    simp only [ltlInit, Option.isSome_some, if_true, Ltl.Holds, Option.mem_def, Option.some.injEq, forall_eq', Nat.zero_add]
    refine and_congr_left fun _ => ?_
    rw [propHolds_mem hn (es := [e]) (hm (by simp [initMacro])), ht.rounds.first]
    simp only [List.mem_singleton, forall_eq]
    refine h _ _ (agrees hv (List.nil_subset _) (hty g rfl) (ht.bnd 0).vals ?_)
    intro x hx; simp at hx

theorem goal_holds (hv : SpinVars evars svars) (hp : IsPlay st d m) (ht : PlayTrace fine w d m B) {e : SExp} {f : Fm}
    (hm : Means e f) (hty : Typed (evars ++ svars) [] f) :
    (∀ j, ∃ l, j ≤ l ∧ e.val (w l) ≠ 0) ↔ Sees fine (fun r => (d r).s) f := by
  rw [ht.rounds.infinitely fun σ => e.val σ ≠ 0]
  have ag : ∀ {σ : PVal} {s : IState evars svars}, (∀ x ∈ evars ++ svars, σ x.1 = stVal s x.1) →
      (e.val σ ≠ 0 ↔ s ∈ fmStates f) := by
    intro σ s h
    rw [hm _ _ (agrees hv (List.nil_subset _) hty h (t := s) (fun x hx => by simp at hx))]
    simp [fmStates]
  cases fine with
  | true =>
    constructor
    · intro h N
      obtain ⟨r, h1, p, h2, h3⟩ := h N
      obtain ⟨j, hj⟩ := (trace_facts hv hp ht r).mixed rfl p h2
      exact ⟨r, h1, j, (ag hj).1 h3⟩
    · intro h N
      obtain ⟨r, h1, j, h2⟩ := h N
      obtain ⟨p, hp1, hp2⟩ := (trace_facts hv hp ht r).mixes rfl j
      exact ⟨r, h1, p, hp1, (ag hp2).2 h2⟩
  | false =>
    constructor
    · intro h N
      obtain ⟨r, h1, p, h2, h3⟩ := h N
      rcases (trace_facts hv hp ht r).coarse rfl p h2 with ha | ha
      · exact ⟨r, h1, (ag ha).1 h3⟩
      · exact ⟨r + 1, by omega, (ag ha).1 h3⟩
    · intro h N
      obtain ⟨r, h1, h2⟩ := h N
      exact ⟨r, h1, [], List.nil_prefix, (ag (ht.bnd r).vals).2 h2⟩

theorem goals_hold (hv : SpinVars evars svars) (hp : IsPlay st d m) (ht : PlayTrace fine w d m B) {ms : List PMacro}
    (hn : (ms.map Prod.fst).Nodup) {n : Name} {es : List SExp} {fs : List Fm} (hr : List.Forall₂ Means es fs)
    (hm : goalMacros n 0 es ⊆ ms) (hty : ∀ f ∈ fs, Typed (evars ++ svars) [] f) :
    (∀ i, i < fs.length → ∀ j, ∃ l, j ≤ l ∧ propHolds ms (w l) (n ++ pad4 i)) ↔
      ∀ f ∈ fs, Sees fine (fun r => (d r).s) f := by
  have one : ∀ i f, fs[i]? = some f → ((∀ j, ∃ l, j ≤ l ∧ propHolds ms (w l) (n ++ pad4 i)) ↔
      Sees fine (fun r => (d r).s) f) := by
    intro i f hf
    obtain ⟨hl, hf'⟩ := List.getElem?_eq_some_iff.1 hf
    have hl' : i < es.length := by rw [hr.length_eq]; exact hl
    have he : Means es[i] f := by
      have := (List.forall₂_iff_get.1 hr).2 i hl' hl
      rw [List.get_eq_getElem, List.get_eq_getElem, hf'] at this
      exact this
    have hmem : (n ++ pad4 i, [es[i]]) ∈ ms :=
      hm (mem_goalMacros.2 ⟨i, es[i], List.getElem?_eq_getElem hl', by rw [Nat.zero_add]⟩)
    have hfm := List.mem_of_getElem? hf
    rw [← goal_holds hv hp ht he (hty f hfm)]
    simp only [propHolds_mem hn hmem, List.mem_singleton, forall_eq]
  constructor
  · intro h f hf
    obtain ⟨i, hi⟩ := List.mem_iff_getElem?.1 hf
    exact (one i f hi).1 (h i (List.getElem?_eq_some_iff.1 hi).1)
  · intro h i hi
    exact (one i fs[i] (List.getElem?_eq_getElem hi)).2 (h _ (List.getElem_mem hi))

/-- Truth of the formula on a play. -/
theorem formula_holds (hv : SpinVars evars svars) {sp : FSpec} (hty : TypedSpec evars svars sp) {x : SpinExps}
    (hx : ExpsMean x sp) (hp : IsPlay st d m) (ht : PlayTrace fine w d m B) :
    (spinFormula evars.length sp.einit.isSome sp.sinit.isSome sp.egoals.length sp.sgoals.length).Holds
        (spinMacros evars.length x) w 0 ↔
      ((evars ≠ [] → EnvSeen fine sp fun r => (d r).s) → (SysSeen fine sp fun r => (d r).s) ∧ ∀ r, (d r).bad = false) := by
  have hn := spinMacros_nodup evars.length x
  have rf := trace_facts hv hp ht
  -- the system's part
  have sys : (ltlSys sp.sinit.isSome sp.sgoals.length).Holds (spinMacros evars.length x) w 0 ↔
      (SysSeen fine sp fun r => (d r).s) ∧ ∀ r, (d r).bad = false := by
    have sub : ∀ a, a ∈ initMacro nmSysinit x.sinit ++ (transMacro nmSystrans x.strans :: goalMacros "sysgoal".toList 0 x.sgoals) →
        a ∈ spinMacros evars.length x := fun a ha => List.mem_append_right _ ha
    rw [ltlSys, Ltl.Holds, ltlConj_holds, init_holds hv ht hn hx.sinit (fun a ha => sub a (List.mem_append_left _ ha)) hty.sinit,
      goals_hold hv hp ht hn hx.sgoals (fun a ha => sub a (List.mem_append_right _ (List.mem_cons_of_mem _ ha))) hty.sgoals,
      ltlCheck_holds ht.rounds (fun σ => propHolds_own (by simp) σ) (T := fun r => (intGame evars svars sp).str (d r).s (d (r + 1)).s = true)
        (fun r => (rf r).ssees)]
    · refine and_congr ⟨fun ⟨⟨a, b⟩, c⟩ => ⟨a, b, c⟩, fun ⟨a, b, c⟩ => ⟨⟨a, b⟩, c⟩⟩ ?_
      simp only [Ltl.Holds, Nat.zero_le, true_implies]
      rw [ht.rounds.always fun σ => ¬ propHolds (spinMacros evars.length x) σ nmFault]
      simp only [propHolds_own (ne := evars.length) (x := x) (n := nmFault) (by simp), not_not]
      constructor
      · rintro ⟨-, h⟩ r
        have h1 := h r [] List.nil_prefix
        have h2 := (ht.bnd r).fault
        cases hb : (d r).bad with
        | false => rfl
        | true =>
          rw [hb] at h2
          have h3 : (B r) nmFault = 0 := h1
          rw [h3] at h2
          exact absurd h2 (by decide)
      · intro h
        exact ⟨trivial, fun r p hpp => (rf r).nofault (h (r + 1)) p hpp⟩
    · intro r p hpp hc
      have h1 := (rf r).strans p hpp hc
      rw [propHolds_mem hn (sub _ (List.mem_append_right _ List.mem_cons_self))]
      rw [all_mean hx.strans (ρ := intEnv (d r).s (d (r + 1)).s) fun f hf => agrees hv (List.Subset.refl _) (hty.strans f hf) h1.1 h1.2]
      simp [intGame]
  -- the environment's part
  have env : evars ≠ [] → ((ltlConj (ltlInit sp.einit.isSome nmEnvinit (ltlCheck nmCe nmEnvtrans)) "envgoal".toList sp.egoals.length).Holds
      (spinMacros evars.length x) w 0 ↔ EnvSeen fine sp fun r => (d r).s) := by
    intro hne
    have hlen : 0 < evars.length := List.length_pos_iff.2 hne
    have sub : ∀ a, a ∈ initMacro nmEnvinit x.einit ++ (transMacro nmEnvtrans x.etrans :: goalMacros "envgoal".toList 0 x.egoals) →
        a ∈ spinMacros evars.length x := fun a ha => List.mem_append_left _ (by rw [if_pos hlen]; exact ha)
    rw [ltlConj_holds, init_holds hv ht hn hx.einit (fun a ha => sub a (List.mem_append_left _ ha)) hty.einit,
      goals_hold hv hp ht hn hx.egoals (fun a ha => sub a (List.mem_append_right _ (List.mem_cons_of_mem _ ha))) hty.egoals,
      ltlCheck_holds ht.rounds (fun σ => propHolds_own (by simp) σ) (T := fun r => (intGame evars svars sp).etr (d r).s (d (r + 1)).s.1 = true)
        (fun r => (rf r).esees hne)]
    · exact ⟨fun ⟨⟨a, b⟩, c⟩ => ⟨a, b, c⟩, fun ⟨a, b, c⟩ => ⟨⟨a, b⟩, c⟩⟩
    · intro r p hpp hc
      have h1 := (rf r).etrans p hpp hc
      rw [propHolds_mem hn (sub _ (List.mem_append_right _ List.mem_cons_self))]
      rw [all_mean hx.etrans (ρ := intEnv (d r).s ((d (r + 1)).s.1, (d r).s.2)) fun f hf =>
        agrees hv (List.subset_append_left _ _) (hty.etrans f hf) h1.1 fun y hy => by
          rw [h1.2 y hy, stVal_env hy, stVal_env hy]]
      simp [intGame]
  unfold spinFormula
  by_cases hne : evars = []
  · rw [if_neg (by rw [hne]; simp), sys]
    exact ⟨fun h _ => h, fun h => h fun h' => absurd hne h'⟩
  · rw [if_pos (List.length_pos_iff.2 hne), Ltl.Holds, env hne, sys]
    exact ⟨fun h h1 => h (h1 hne), fun h h1 => h fun _ => h1⟩

/-- Spin's verdict in terms of plays. -/
theorem verifies_plays (hv : SpinVars evars svars) {sp : FSpec} (hty : TypedSpec evars svars sp) {x : SpinExps}
    (hx : ExpsMean x sp) (hn : (st.map (·.id)).Nodup) (he : ∀ x ∈ st, ∀ j ∈ x.trans, ∃ y ∈ st, y.id = j) :
    PVerifies (spinProgram evars svars (withStates stateValues st)) fine (spinMacros evars.length x)
        (spinFormula evars.length sp.einit.isSome sp.sinit.isSome sp.egoals.length sp.sgoals.length) ↔
      ∀ d m, IsPlay st d m → (evars ≠ [] → EnvSeen fine sp fun r => (d r).s) →
        (SysSeen fine sp fun r => (d r).s) ∧ ∀ r, (d r).bad = false := by
  constructor
  · intro h d m hp
    obtain ⟨c, B, hc, ht⟩ := play_exec (fine := fine) hv hn he hp
    exact (formula_holds hv hty hx hp ht).1 (h c hc)
  · intro h c hc
    obtain ⟨d, m, B, hp, ht⟩ := exec_play hv hn he hc
    exact (formula_holds hv hty hx hp ht).2 (h d m hp)

/-! ## Goals with one variable -/

theorem fm_one {f : Fm} (hty : Typed (evars ++ svars) [] f) (ho : OneVar f) (j : ℕ) (s t : IState evars svars) :
    (mixS j s t ∈ fmStates f ↔ s ∈ fmStates f) ∨ (mixS j s t ∈ fmStates f ↔ t ∈ fmStates f) := by
  obtain ⟨n, hn⟩ := ho
  have key : ∀ u : IState evars svars, stVal (mixS j s t) n = stVal u n → (mixS j s t ∈ fmStates f ↔ u ∈ fmStates f) := by
    intro u hu
    simp only [fmStates, Finset.mem_filter, Finset.mem_univ, true_and]
    rw [eval_congr (ρ := intEnv (mixS j s t) (mixS j s t)) (ρ' := intEnv u u)]
    · intro x hx
      have := hn x (List.mem_append_left _ hx)
      simp only [intEnv, this, ite_self, hu]
    · intro x hx
      have := hn x (List.mem_append_right _ hx)
      simp only [intEnv, this, ite_self, hu]
  have := stVal_mix j s t n
  split_ifs at this with h
  · exact Or.inr (key t this)
  · exact Or.inl (key s this)

theorem sees_iff {fine : Bool} {s : ℕ → IState evars svars} {f : Fm} (hty : Typed (evars ++ svars) [] f) (ho : fine = false ∨ OneVar f) :
    Sees fine s f ↔ InfOften s (fmStates f) := by
  cases fine with
  | false => exact Iff.rfl
  | true =>
    have ho := ho.resolve_left (by simp)
    constructor
    · intro h N
      obtain ⟨r, h1, j, h2⟩ := h N
      rcases fm_one hty ho j (s r) (s (r + 1)) with h3 | h3
      · exact ⟨r, h1, h3.1 h2⟩
      · exact ⟨r + 1, by omega, h3.1 h2⟩
    · intro h N
      obtain ⟨r, h1, h2⟩ := h N
      refine ⟨r, h1, 0, ?_⟩
      have : mixS 0 (s r) (s (r + 1)) = s r := by
        unfold mixS; simp
      rw [this]; exact h2

theorem envSeen_iff {fine : Bool} {sp : FSpec} {s : ℕ → IState evars svars} (hty : TypedSpec evars svars sp)
    (ho : fine = false ∨ ∀ f ∈ sp.egoals ++ sp.sgoals, OneVar f) : EnvSeen fine sp s ↔ EnvMeets sp s := by
  have : ∀ f ∈ sp.egoals, (Sees fine s f ↔ InfOften s (fmStates f)) := fun f hf =>
    sees_iff (hty.egoals f hf) (ho.imp id fun h => h f (List.mem_append_left _ hf))
  exact ⟨fun ⟨a, b, c⟩ => ⟨a, b, fun f hf => (this f hf).1 (c f hf)⟩, fun ⟨a, b, c⟩ => ⟨a, b, fun f hf => (this f hf).2 (c f hf)⟩⟩

theorem sysSeen_iff {fine : Bool} {sp : FSpec} {s : ℕ → IState evars svars} (hty : TypedSpec evars svars sp)
    (ho : fine = false ∨ ∀ f ∈ sp.egoals ++ sp.sgoals, OneVar f) : SysSeen fine sp s ↔ SysMeets sp s := by
  have : ∀ f ∈ sp.sgoals, (Sees fine s f ↔ InfOften s (fmStates f)) := fun f hf =>
    sees_iff (hty.sgoals f hf) (ho.imp id fun h => h f (List.mem_append_right _ hf))
  exact ⟨fun ⟨a, b, c⟩ => ⟨a, b, fun f hf => (this f hf).1 (c f hf)⟩, fun ⟨a, b, c⟩ => ⟨a, b, fun f hf => (this f hf).2 (c f hf)⟩⟩

end truth

end Gr1c
