import Verif.PromelaLemmas
import Verif.SpinModel
import Verif.SpinDumpProps
import Verif.MainSpec

/-!
# Executions of the Promela model of a strategy (C58)

The program that `spin_aut_dump` writes, and its rounds.
-/

namespace Gr1c

/-! ## Names -/

def nmCur : Name := "current_node".toList
def nmCe : Name := "checketrans".toList
def nmCs : Name := "checkstrans".toList
def nmFault : Name := "pmlfault".toList
def sfxNext : List Char := "_next".toList
def lblEnv : Name := "ENV_MOVE".toList
def lblSys : Name := "SYS_MOVE".toList

/-- Names that the Promela model uses for itself, and keywords of its fragment. -/
def spinOwn : List Name :=
  ["current_node", "checketrans", "checkstrans", "pmlfault", "ENV_MOVE", "SYS_MOVE", "envinit", "envtrans", "sysinit",
    "systrans"].map String.toList ++ promelaWords

/-- Declared variables that can be used in a Promela model: words, different from each other, from each other's
`_next` names, and from the names used by the model. -/
structure SpinVars (evars svars : Decls) : Prop where
  nodup : ((evars ++ svars).map Prod.fst).Nodup
  word : ∀ x ∈ evars ++ svars, IsSpinName x.1
  next : ∀ x ∈ evars ++ svars, ∀ y ∈ evars ++ svars, x.1 ≠ y.1 ++ "_next".toList
  own : ∀ x ∈ evars ++ svars, x.1 ∉ spinOwn ∧ ¬ "envgoal".toList <+: x.1 ∧ ¬ "sysgoal".toList <+: x.1
  range : ∀ x ∈ evars ++ svars, -1 ≤ x.2

theorem next_ne {n w : List Char} (h : ¬ sfxNext <:+ w) : n ++ sfxNext ≠ w := by
  rintro rfl
  exact h (List.suffix_append _ _)

theorem next_inj {n m : List Char} (h : n ++ sfxNext = m ++ sfxNext) : n = m := List.append_cancel_right h

/-! ## Assignments of values -/

/-- The right hand side for a value. -/
def rhsOf (x : Name × ℤ) (c : ℤ) : PRhs := if x.2 = -1 then .bool (decide (c ≠ 0)) else .num c.toNat

/-- Assignments to variables with the given ending of the name. -/
def assignsOf (sfx : List Char) : List (Name × ℤ) → List ℤ → List PAssign
  | x :: vs, c :: cs => (x.1 ++ sfx, rhsOf x c) :: assignsOf sfx vs cs
  | _, _ => []

theorem rhsOf_val {x : Name × ℤ} {c : ℤ} (h : InVarRange x c) (σ : PVal) : (rhsOf x c).val σ = c := by
  unfold rhsOf
  obtain ⟨h1, h2⟩ := h
  split
  · rename_i hx
    rw [if_pos hx] at h2
    have : c = 0 ∨ c = 1 := by omega
    rcases this with rfl | rfl <;> rfl
  · simp only [PRhs.val]; omega

theorem mem_assignsOf {sfx : List Char} {vs : List (Name × ℤ)} {cs : List ℤ} {p : PAssign} (h : p ∈ assignsOf sfx vs cs) :
    ∃ x ∈ vs, p.1 = x.1 ++ sfx := by
  induction vs generalizing cs with
  | nil => simp [assignsOf] at h
  | cons x vs ih =>
    cases cs with
    | nil => simp [assignsOf] at h
    | cons c cs =>
      rw [assignsOf, List.mem_cons] at h
      rcases h with rfl | h
      · exact ⟨x, List.mem_cons_self, rfl⟩
      · obtain ⟨y, h1, h2⟩ := ih h
        exact ⟨y, List.mem_cons_of_mem _ h1, h2⟩

/-- The value listed for a name. -/
def lookVal : List (Name × ℤ) → List ℤ → Name → ℤ
  | x :: vs, c :: cs, n => if x.1 = n then c else lookVal vs cs n
  | _, _, _ => 0

theorem run_assignsOf {sfx : List Char} {vs : List (Name × ℤ)} (hn : (vs.map Prod.fst).Nodup) {cs : List ℤ}
    (h : IsMove vs cs) (σ : PVal) {n : Name} (hm : n ∈ vs.map Prod.fst) :
    σ.run (assignsOf sfx vs cs) (n ++ sfx) = lookVal vs cs n := by
  unfold IsMove at h
  induction h generalizing σ with
  | nil => simp at hm
  | @cons x c vs cs h1 h2 ih =>
    rw [List.map_cons, List.nodup_cons] at hn
    rw [assignsOf, run_cons, lookVal]
    split
    · rename_i hx
      rw [run_other]
      · unfold PVal.set; simp only; rw [hx, Function.update_self, rhsOf_val h1]
      · intro p hp e
        obtain ⟨y, hy, he⟩ := mem_assignsOf hp
        rw [he] at e
        have := List.append_cancel_right e
        exact hn.1 (by rw [hx, ← this]; exact List.mem_map_of_mem hy)
    · rename_i hx
      rw [List.map_cons, List.mem_cons] at hm
      exact ih hn.2 _ (hm.resolve_left fun h => hx h.symm)

/-! ## Values of declared variables -/

theorem dcard_range {x : Name × ℤ} (hx : -1 ≤ x.2) (c : ℤ) : InVarRange x c ↔ 0 ≤ c ∧ c.toNat < dcard x := by
  unfold InVarRange dcard
  split_ifs <;> omega

theorem declValues_cons (x : Name × ℤ) (ds : Decls) (v : DVal (x :: ds)) :
    declValues (x :: ds) v = ((v ⟨0, by simp⟩).val : ℤ) :: declValues ds (fun i => v i.succ) := by
  unfold declValues
  rw [List.ofFn_succ]
  rfl

theorem declValues_move {ds : Decls} (h : ∀ x ∈ ds, -1 ≤ x.2) (v : DVal ds) : IsMove ds (declValues ds v) := by
  unfold IsMove
  induction ds with
  | nil => exact .nil
  | cons x ds ih =>
    rw [declValues_cons]
    refine .cons ?_ (ih (fun y hy => h y (List.mem_cons_of_mem _ hy)) _)
    rw [dcard_range (h x List.mem_cons_self)]
    exact ⟨by omega, by rw [Int.toNat_natCast]; exact (v ⟨0, by simp⟩).isLt⟩

theorem move_declValues {ds : Decls} (h : ∀ x ∈ ds, -1 ≤ x.2) {cs : List ℤ} (hm : IsMove ds cs) :
    ∃ v, cs = declValues ds v := by
  unfold IsMove at hm
  induction hm with
  | nil => exact ⟨fun i => i.elim0, rfl⟩
  | @cons x c ds cs h1 h2 ih =>
    obtain ⟨v, rfl⟩ := ih fun y hy => h y (List.mem_cons_of_mem _ hy)
    obtain ⟨k1, k2⟩ := (dcard_range (h x List.mem_cons_self) c).1 h1
    refine ⟨fun i => Fin.cases (motive := fun i => Fin (dcard (x :: ds)[i])) ⟨c.toNat, k2⟩ (fun i => v i) i, ?_⟩
    rw [declValues_cons]
    congr 1
    show c = ((c.toNat : ℕ) : ℤ)
    omega

theorem declValues_inj {ds : Decls} {v w : DVal ds} (h : declValues ds v = declValues ds w) : v = w := by
  unfold declValues at h
  have := List.ofFn_injective h
  funext i
  have h2 : ((v i).val : ℤ) = ((w i).val : ℤ) := congrFun this i
  exact Fin.ext (by exact_mod_cast h2)

theorem dval_congr {ds : Decls} (v : DVal ds) {i j : Fin ds.length} (h : i.val = j.val) : (v i).val = (v j).val := by
  have := Fin.ext h
  subst this; rfl

theorem lookVal_declValues (ds : Decls) (v : DVal ds) (n : Name) : lookVal ds (declValues ds v) n = valOfName ds v n := by
  induction ds with
  | nil => simp [lookVal, valOfName]
  | cons x ds ih =>
    rw [declValues_cons, lookVal, ih]
    unfold valOfName
    by_cases hx : x.1 = n
    · rw [if_pos hx, dif_pos (by simp [hx])]
      congr 1
      exact dval_congr v (by simp [hx])
    · have e : (List.map Prod.fst (x :: ds)).idxOf n = (ds.map Prod.fst).idxOf n + 1 := by
        rw [List.map_cons, List.idxOf_cons_ne _ hx]
      rw [if_neg hx]
      by_cases hl : (ds.map Prod.fst).idxOf n < ds.length
      · rw [dif_pos hl, dif_pos (by rw [e]; simpa using hl)]
        congr 1
        exact dval_congr v (by simp only [Fin.val_succ]; exact e.symm)
      · rw [dif_neg hl, dif_neg (by rw [e]; simpa using hl)]

/-! ## Rounds -/

section rounds

variable {evars svars : Decls}

/-- Assignments to the `_next` names. -/
def nextAssigns (ds : Decls) (v : DVal ds) : List PAssign := assignsOf sfxNext ds (declValues ds v)

/-- `x = x_next` for all variables. -/
def applyAssigns (ds : Decls) : List PAssign := ds.map fun x => (x.1, .name (x.1 ++ sfxNext))

/-- Moves of the system: an edge to the node number `k` with values `v`, or a fault. -/
inductive SysMove (svars : Decls)
  | edge (k : ℕ) (v : DVal svars)
  | fault

def SysMove.body : SysMove svars → List PAssign
  | .edge k v => (nmCur, .num k) :: nextAssigns svars v
  | .fault => [(nmFault, .bool true)]

def envPart (evars : Decls) (e : DVal evars) : List (List PAssign) :=
  if evars = [] then [] else
    (([] : List PAssign) :: singles (nextAssigns evars e)) ++ [[(nmCe, .bool true)]] ++ [[(nmCe, .bool false)]]

/-- The groups of assignments of a round. -/
def roundM (fine : Bool) (e : DVal evars) (b : SysMove svars) : List (List PAssign) :=
  (envPart evars e ++ (([] : List PAssign) :: singles b.body)) ++ [[(nmCs, .bool true)]] ++ [[(nmCs, .bool false)]] ++
    (atomicSteps fine (applyAssigns (evars ++ svars)) ++ [[]])

/-- The values at the beginning of a round: the state `s`, the system's `_next` values `q`, the current node, and
whether there was a fault. -/
structure Bnd (σ : PVal) (s : IState evars svars) (q : DVal svars) (k : ℕ) (bad : Bool) : Prop where
  vals : ∀ x ∈ evars ++ svars, σ x.1 = stVal s x.1
  nexts : ∀ x ∈ svars, σ (x.1 ++ sfxNext) = valOfName svars q x.1
  cur : σ nmCur = k
  fault : σ nmFault = if bad then 1 else 0
  ce : σ nmCe = 0
  cs : σ nmCs = 0

/-- The system values after a move. -/
def SysMove.next (q : DVal svars) : SysMove svars → DVal svars
  | .edge _ v => v
  | .fault => q

def SysMove.node (k : ℕ) : SysMove svars → ℕ
  | .edge k _ => k
  | .fault => k

def SysMove.bad (d : Bool) : SysMove svars → Bool
  | .edge _ _ => d
  | .fault => true

theorem mem_flatten_prefix {p M : List (List PAssign)} (h : p <+: M) {x : PAssign} (hx : x ∈ p.flatten) :
    x ∈ M.flatten := by
  obtain ⟨r, rfl⟩ := h
  rw [List.flatten_append]
  exact List.mem_append_left _ hx

theorem run_prefix_other {p M : List (List PAssign)} (h : p <+: M) {x : Name} (hx : ∀ a ∈ M.flatten, a.1 ≠ x) (σ : PVal) :
    σ.run p.flatten x = σ x :=
  run_other (fun a ha => hx a (mem_flatten_prefix h ha)) σ

/-- A flag that is set and reset once. -/
theorem run_flag {X Y : List (List PAssign)} {f : Name} (hX : ∀ a ∈ X.flatten, a.1 ≠ f) (hY : ∀ a ∈ Y.flatten, a.1 ≠ f)
    {σ : PVal} (h0 : σ f = 0) :
    (∀ p, p <+: X ++ [[(f, PRhs.bool true)]] ++ [[(f, PRhs.bool false)]] ++ Y → σ.run p.flatten f = 0 ∨ p = X ++ [[(f, PRhs.bool true)]]) ∧
    σ.run (X ++ [[(f, PRhs.bool true)]]).flatten f = 1 ∧
    σ.run (X ++ [[(f, PRhs.bool true)]] ++ [[(f, PRhs.bool false)]] ++ Y).flatten f = 0 := by
  have e0 : ∀ τ : PVal, τ.run [(f, .bool false)] f = 0 := fun τ => by
    show Function.update τ f 0 f = 0
    rw [Function.update_self]
  have e1 : ∀ τ : PVal, τ.run [(f, .bool true)] f = 1 := fun τ => by
    show Function.update τ f 1 f = 1
    rw [Function.update_self]
  refine ⟨?_, ?_, ?_⟩
  · intro p hp
    rcases prefix_append_iff.1 hp with hp | ⟨q, hq, rfl⟩
    · rcases prefix_append_iff.1 hp with hp | ⟨q, hq, rfl⟩
      · rcases prefix_append_iff.1 hp with hp | ⟨q, hq, rfl⟩
        · left; rw [run_prefix_other hp hX, h0]
        · rcases prefix_single.1 hq with rfl | rfl
          · left; rw [List.append_nil, run_prefix_other (List.prefix_refl X) hX, h0]
          · right; rfl
      · rcases prefix_single.1 hq with rfl | rfl
        · right; rw [List.append_nil]
        · left; rw [List.flatten_append, run_append]; exact e0 _
    · left
      rw [List.flatten_append, run_append, run_prefix_other hq hY, List.flatten_append, run_append]
      exact e0 _
  · rw [List.flatten_append, run_append]; exact e1 _
  · rw [List.flatten_append, run_append, run_prefix_other (List.prefix_refl Y) hY, List.flatten_append, run_append]
    exact e0 _

theorem mem_next {ds : Decls} {v : DVal ds} {a : PAssign} (h : a ∈ nextAssigns ds v) : ∃ x ∈ ds, a.1 = x.1 ++ sfxNext :=
  mem_assignsOf h

theorem mem_body {b : SysMove svars} {a : PAssign} (h : a ∈ b.body) :
    a.1 = nmCur ∨ a.1 = nmFault ∨ ∃ x ∈ svars, a.1 = x.1 ++ sfxNext := by
  cases b with
  | edge k v =>
    rw [SysMove.body, List.mem_cons] at h
    rcases h with rfl | h
    · exact Or.inl rfl
    · exact Or.inr (Or.inr (mem_next h))
  | fault =>
    rw [SysMove.body, List.mem_singleton] at h
    subst h; exact Or.inr (Or.inl rfl)

theorem envPart_flatten {e : DVal evars} (h : evars ≠ []) :
    (envPart evars e).flatten = nextAssigns evars e ++ [(nmCe, .bool true), (nmCe, .bool false)] := by
  unfold envPart
  rw [if_neg h]
  simp only [List.flatten_append, List.flatten_cons, singles_flatten]
  simp

theorem mem_envPart {e : DVal evars} {a : PAssign} (h : a ∈ (envPart evars e).flatten) :
    a.1 = nmCe ∨ ∃ x ∈ evars, a.1 = x.1 ++ sfxNext := by
  by_cases he : evars = []
  · unfold envPart at h; rw [if_pos he] at h; simp at h
  · rw [envPart_flatten he, List.mem_append] at h
    rcases h with h | h
    · exact Or.inr (mem_next h)
    · left
      simp only [List.mem_cons, List.not_mem_nil, or_false] at h
      rcases h with rfl | rfl <;> rfl

/-- The part of a round before the variables change. -/
def preM (e : DVal evars) (b : SysMove svars) : List (List PAssign) :=
  (envPart evars e ++ (([] : List PAssign) :: singles b.body)) ++ [[(nmCs, .bool true)]] ++ [[(nmCs, .bool false)]]

theorem roundM_eq (fine : Bool) (e : DVal evars) (b : SysMove svars) :
    roundM fine e b = preM e b ++ (atomicSteps fine (applyAssigns (evars ++ svars)) ++ [[]]) := rfl

theorem preM_flatten (e : DVal evars) (b : SysMove svars) :
    (preM e b).flatten = (envPart evars e).flatten ++ b.body ++ [(nmCs, .bool true)] ++ [(nmCs, .bool false)] := by
  unfold preM
  simp only [List.flatten_append, List.flatten_cons, singles_flatten]
  simp

theorem mem_preM {e : DVal evars} {b : SysMove svars} {a : PAssign} (h : a ∈ (preM e b).flatten) :
    a.1 = nmCe ∨ a.1 = nmCs ∨ a.1 = nmCur ∨ a.1 = nmFault ∨ ∃ x ∈ evars ++ svars, a.1 = x.1 ++ sfxNext := by
  rw [preM_flatten] at h
  simp only [List.mem_append, List.mem_singleton] at h
  rcases h with ((h | h) | rfl) | rfl
  · rcases mem_envPart h with h | ⟨x, hx, h⟩
    · exact Or.inl h
    · exact Or.inr (Or.inr (Or.inr (Or.inr ⟨x, List.mem_append_left _ hx, h⟩)))
  · rcases mem_body h with h | h | ⟨x, hx, h⟩
    · exact Or.inr (Or.inr (Or.inl h))
    · exact Or.inr (Or.inr (Or.inr (Or.inl h)))
    · exact Or.inr (Or.inr (Or.inr (Or.inr ⟨x, List.mem_append_right _ hx, h⟩)))
  · exact Or.inr (Or.inl rfl)
  · exact Or.inr (Or.inl rfl)

theorem own_ne (hv : SpinVars evars svars) {x : Name × ℤ} (hx : x ∈ evars ++ svars) {n : Name} (hn : n ∈ spinOwn) :
    x.1 ≠ n := fun h => (hv.own x hx).1 (h ▸ hn)

theorem preM_unprimed (hv : SpinVars evars svars) {e : DVal evars} {b : SysMove svars} {x : Name × ℤ}
    (hx : x ∈ evars ++ svars) : ∀ a ∈ (preM e b).flatten, a.1 ≠ x.1 := by
  intro a ha h
  rcases mem_preM ha with h1 | h1 | h1 | h1 | ⟨y, hy, h1⟩
  · exact own_ne hv hx (n := nmCe) (by decide) (by rw [← h, h1])
  · exact own_ne hv hx (n := nmCs) (by decide) (by rw [← h, h1])
  · exact own_ne hv hx (n := nmCur) (by decide) (by rw [← h, h1])
  · exact own_ne hv hx (n := nmFault) (by decide) (by rw [← h, h1])
  · exact hv.next x hx y hy (by rw [← h, h1]; rfl)

theorem mem_apply {ds : Decls} {a : PAssign} (h : a ∈ applyAssigns ds) : ∃ x ∈ ds, a = (x.1, .name (x.1 ++ sfxNext)) := by
  unfold applyAssigns at h
  obtain ⟨x, hx, rfl⟩ := List.mem_map.1 h
  exact ⟨x, hx, rfl⟩

theorem mem_applyPart {fine : Bool} {ds : Decls} {a : PAssign} (h : a ∈ (atomicSteps fine (applyAssigns ds) ++ [[]]).flatten) :
    ∃ x ∈ ds, a = (x.1, .name (x.1 ++ sfxNext)) := by
  rw [List.flatten_append, atomicSteps_flatten] at h
  exact mem_apply (by simpa using h)

/-- Part of the assignments `x = x_next` change some of the variables. -/
theorem run_apply_part (σ : PVal) {l : List PAssign} {ds : Decls} (hl : ∀ a ∈ l, ∃ x ∈ ds, a = (x.1, .name (x.1 ++ sfxNext)))
    (hn : ∀ x ∈ ds, ∀ y ∈ ds, x.1 ≠ y.1 ++ sfxNext) {x : Name × ℤ} :
    (σ.run l x.1 = σ x.1 ∨ σ.run l x.1 = σ (x.1 ++ sfxNext)) ∧
      (((x.1, PRhs.name (x.1 ++ sfxNext)) : PAssign) ∈ l → σ.run l x.1 = σ (x.1 ++ sfxNext)) := by
  induction l using List.reverseRecOn with
  | nil => exact ⟨Or.inl rfl, fun h => absurd h (by simp)⟩
  | append_singleton l a ih =>
    have hl' : ∀ a ∈ l, ∃ x ∈ ds, a = (x.1, .name (x.1 ++ sfxNext)) := fun b hb => hl b (List.mem_append_left _ hb)
    obtain ⟨y, hy, rfl⟩ := hl a (by simp)
    have keep : σ.run l (y.1 ++ sfxNext) = σ (y.1 ++ sfxNext) := by
      refine run_other ?_ σ
      intro b hb he
      obtain ⟨z, hz, rfl⟩ := hl' b hb
      exact hn z hz y hy he
    rw [run_append]
    have e : (σ.run l).run [(y.1, .name (y.1 ++ sfxNext))] x.1 = if x.1 = y.1 then σ (x.1 ++ sfxNext) else σ.run l x.1 := by
      show Function.update (σ.run l) y.1 (σ.run l (y.1 ++ sfxNext)) x.1 = _
      rw [Function.update_apply, keep]
      split_ifs with h
      · rw [h]
      · rfl
    rw [e]
    split_ifs with h
    · exact ⟨Or.inr rfl, fun _ => rfl⟩
    · refine ⟨(ih hl').1, fun hm => (ih hl').2 ?_⟩
      rw [List.mem_append, List.mem_singleton] at hm
      refine hm.resolve_right fun he => h ?_
      exact (Prod.mk.injEq _ _ _ _ ▸ he).1

theorem stVal_env {s : IState evars svars} {x : Name × ℤ} (hx : x ∈ evars) : stVal s x.1 = valOfName evars s.1 x.1 := by
  unfold stVal; rw [if_pos (List.mem_map_of_mem hx)]

theorem stVal_sys (hv : SpinVars evars svars) {s : IState evars svars} {x : Name × ℤ} (hx : x ∈ svars) :
    stVal s x.1 = valOfName svars s.2 x.1 := by
  unfold stVal
  rw [if_neg]
  have := hv.nodup
  rw [List.map_append, List.nodup_append] at this
  intro h
  exact this.2.2 _ h _ (List.mem_map_of_mem hx) rfl

theorem run_next {ds : Decls} (hn : (ds.map Prod.fst).Nodup) (hr : ∀ x ∈ ds, -1 ≤ x.2) (v : DVal ds) (σ : PVal)
    {x : Name × ℤ} (hx : x ∈ ds) : σ.run (nextAssigns ds v) (x.1 ++ sfxNext) = valOfName ds v x.1 := by
  unfold nextAssigns
  rw [run_assignsOf hn (declValues_move hr v) σ (List.mem_map_of_mem hx), lookVal_declValues]

/-- The first `j` variables have the values of `t`, the others those of `s`. -/
def mixS (j : ℕ) (s t : IState evars svars) : IState evars svars :=
  (fun i => if i.val < j then t.1 i else s.1 i, fun i => if evars.length + i.val < j then t.2 i else s.2 i)

theorem stVal_mix (j : ℕ) (s t : IState evars svars) (n : Name) :
    stVal (mixS j s t) n = if ((evars ++ svars).map Prod.fst).idxOf n < j then stVal t n else stVal s n := by
  unfold stVal
  rw [List.map_append, List.idxOf_append]
  by_cases hn : n ∈ evars.map Prod.fst
  · rw [if_pos hn, if_pos hn, if_pos hn, if_pos hn]
    unfold valOfName mixS
    split_ifs with h1 h2
    · simp only [if_pos h2]
    · simp only [if_neg h2]
    · rfl
    · rfl
  · rw [if_neg hn, if_neg hn, if_neg hn, if_neg hn, List.length_map]
    unfold valOfName mixS
    rw [Nat.add_comm]
    split_ifs with h1 h2
    · simp only [if_pos h2]
    · simp only [if_neg h2]
    · rfl
    · rfl

theorem take_flatten (l : List PAssign) (n : ℕ) (k : ℕ) : ((singles l ++ List.replicate k []).take n).flatten = l.take n := by
  induction l generalizing n with
  | nil =>
    rw [singles, List.map_nil, List.nil_append, List.take_replicate, List.take_nil, List.flatten_replicate_nil]
  | cons p l ih =>
    cases n with
    | zero => rfl
    | succ n =>
      have := ih n
      simp only [singles, List.map_cons, List.cons_append, List.take_succ_cons, List.flatten_cons] at this ⊢
      rw [this]; rfl

theorem mem_take_iff {ds : Decls} (hn : (ds.map Prod.fst).Nodup) {x : Name × ℤ} (hx : x ∈ ds) (n : ℕ) :
    x ∈ ds.take n ↔ (ds.map Prod.fst).idxOf x.1 < n := by
  induction ds generalizing n with
  | nil => simp at hx
  | cons y ds ih =>
    rw [List.map_cons, List.nodup_cons] at hn
    rw [List.map_cons, List.idxOf_cons]
    cases n with
    | zero => simp
    | succ n =>
      rw [List.take_succ_cons, List.mem_cons]
      rcases List.mem_cons.1 hx with rfl | hx
      · simp
      · have hne : y.1 ≠ x.1 := fun h => hn.1 (h ▸ List.mem_map_of_mem hx)
        rw [show (y.1 == x.1) = false from by simpa using hne, ih hn.2 hx]
        constructor
        · rintro (rfl | h)
          · exact absurd rfl hne
          · simpa using h
        · intro h; right; simpa using h

/-- What happens in a round. -/
structure RoundFacts (fine : Bool) (σ : PVal) (s t : IState evars svars) (bad bad' : Bool) (M : List (List PAssign)) :
    Prop where
  etrans : ∀ p, p <+: M → σ.run p.flatten nmCe ≠ 0 → (∀ x ∈ evars ++ svars, σ.run p.flatten x.1 = stVal s x.1) ∧
    ∀ x ∈ evars, σ.run p.flatten (x.1 ++ sfxNext) = stVal t x.1
  esees : evars ≠ [] → ∃ p, p <+: M ∧ σ.run p.flatten nmCe ≠ 0
  strans : ∀ p, p <+: M → σ.run p.flatten nmCs ≠ 0 → (∀ x ∈ evars ++ svars, σ.run p.flatten x.1 = stVal s x.1) ∧
    ∀ x ∈ evars ++ svars, σ.run p.flatten (x.1 ++ sfxNext) = stVal t x.1
  ssees : ∃ p, p <+: M ∧ σ.run p.flatten nmCs ≠ 0
  nofault : bad' = false → ∀ p, p <+: M → σ.run p.flatten nmFault = 0
  mixed : fine = true → ∀ p, p <+: M → ∃ j, ∀ x ∈ evars ++ svars, σ.run p.flatten x.1 = stVal (mixS j s t) x.1
  mixes : fine = true → ∀ j, ∃ p, p <+: M ∧ ∀ x ∈ evars ++ svars, σ.run p.flatten x.1 = stVal (mixS j s t) x.1
  coarse : fine = false → ∀ p, p <+: M → (∀ x ∈ evars ++ svars, σ.run p.flatten x.1 = stVal s x.1) ∨
    ∀ x ∈ evars ++ svars, σ.run p.flatten x.1 = stVal t x.1

theorem ne_next_env (hv : SpinVars evars svars) {x y : Name × ℤ} (hx : x ∈ evars) (hy : y ∈ svars) :
    x.1 ++ sfxNext ≠ y.1 ++ sfxNext := by
  intro h
  have := hv.nodup
  rw [List.map_append, List.nodup_append] at this
  exact this.2.2 _ (List.mem_map_of_mem hx) _ (List.mem_map_of_mem hy) (next_inj h)

theorem nexts_after (hv : SpinVars evars svars) {σ : PVal} {s : IState evars svars} {q : DVal svars} {k : ℕ}
    {bad : Bool} (h : Bnd σ s q k bad) (e : DVal evars) (b : SysMove svars) {x : Name × ℤ} (hx : x ∈ evars ++ svars) :
    σ.run ((envPart evars e).flatten ++ b.body) (x.1 ++ sfxNext) = stVal (e, b.next q) x.1 := by
  have hn := hv.nodup
  rw [List.map_append, List.nodup_append] at hn
  rw [run_append]
  rcases List.mem_append.1 hx with hx | hx
  · rw [stVal_env hx, run_other]
    · have hne : evars ≠ [] := by rintro rfl; simp at hx
      rw [envPart_flatten hne, run_append, run_other]
      · exact run_next hn.1 (fun y hy => hv.range y (List.mem_append_left _ hy)) e σ hx
      · intro a ha he
        simp only [List.mem_cons, List.not_mem_nil, or_false] at ha
        rcases ha with rfl | rfl <;> exact next_ne (by decide) he.symm
    · intro a ha he
      rcases mem_body ha with h1 | h1 | ⟨y, hy, h1⟩
      · exact next_ne (by decide) (he.symm.trans h1)
      · exact next_ne (by decide) (he.symm.trans h1)
      · exact ne_next_env hv hx hy (he.symm.trans h1)
  · rw [stVal_sys hv hx]
    cases b with
    | edge k v =>
      rw [SysMove.body, run_cons]
      exact run_next hn.2.1 (fun y hy => hv.range y (List.mem_append_right _ hy)) v _ hx
    | fault =>
      rw [run_other, run_other]
      · exact h.nexts x hx
      · intro a ha he
        rcases mem_envPart ha with h1 | ⟨y, hy, h1⟩
        · exact next_ne (by decide) (he.symm.trans h1)
        · exact ne_next_env hv hy hx (h1.symm.trans he)
      · intro a ha he
        rcases mem_body ha with h1 | h1 | ⟨y, hy, h1⟩
        · exact next_ne (by decide) (he.symm.trans h1)
        · exact next_ne (by decide) (he.symm.trans h1)
        · rw [SysMove.body, List.mem_singleton] at ha
          subst ha
          exact next_ne (by decide) h1.symm

/-- The flag of the environment's rule. -/
theorem flagE_split (fine : Bool) (e : DVal evars) (b : SysMove svars) (he : evars ≠ []) :
    roundM fine e b = (([] : List PAssign) :: singles (nextAssigns evars e)) ++ [[(nmCe, PRhs.bool true)]] ++
      [[(nmCe, PRhs.bool false)]] ++ ((([] : List PAssign) :: singles b.body) ++ [[(nmCs, PRhs.bool true)]] ++
      [[(nmCs, PRhs.bool false)]] ++ (atomicSteps fine (applyAssigns (evars ++ svars)) ++ [[]])) := by
  unfold roundM envPart
  rw [if_neg he]
  simp only [List.append_assoc]

theorem flat_cons_singles (l : List PAssign) : (([] : List PAssign) :: singles l).flatten = l := by
  rw [List.flatten_cons, singles_flatten]; rfl

theorem round_facts (hv : SpinVars evars svars) (fine : Bool) {σ : PVal} {s : IState evars svars} {q : DVal svars} {k : ℕ}
    {bad : Bool} (h : Bnd σ s q k bad) (e : DVal evars) (b : SysMove svars) :
    RoundFacts fine σ s (e, b.next q) bad (b.bad bad) (roundM fine e b) ∧
    Bnd (σ.run (roundM fine e b).flatten) (e, b.next q) (b.next q) (b.node k) (b.bad bad) := by
  have V1 : ∀ p, p <+: preM e b → ∀ x ∈ evars ++ svars, σ.run p.flatten x.1 = stVal s x.1 := fun p hp x hx => by
    rw [run_prefix_other hp (preM_unprimed hv hx), h.vals x hx]
  have hpm : preM e b <+: roundM fine e b := List.prefix_append _ _
  -- names assigned in the last part
  have hap : ∀ n, (∀ x ∈ evars ++ svars, x.1 ≠ n) →
      ∀ a ∈ (atomicSteps fine (applyAssigns (evars ++ svars)) ++ [[]]).flatten, a.1 ≠ n := by
    intro n hn a ha
    obtain ⟨x, hx, rfl⟩ := mem_applyPart ha
    exact hn x hx
  -- the flags
  have FE : evars ≠ [] → _ := fun he => run_flag (X := ([] : List PAssign) :: singles (nextAssigns evars e))
    (Y := (([] : List PAssign) :: singles b.body) ++ [[(nmCs, PRhs.bool true)]] ++
      [[(nmCs, PRhs.bool false)]] ++ (atomicSteps fine (applyAssigns (evars ++ svars)) ++ [[]])) (f := nmCe)
    (by
      intro a ha
      rw [flat_cons_singles] at ha
      obtain ⟨x, -, hx⟩ := mem_next ha
      rw [hx]; exact next_ne (by decide))
    (by
      intro a ha
      simp only [List.flatten_append, flat_cons_singles, List.mem_append] at ha
      rcases ha with ((ha | ha) | ha) | ha
      · rcases mem_body ha with h1 | h1 | ⟨y, hy, h1⟩
        · rw [h1]; decide
        · rw [h1]; decide
        · rw [h1]; exact next_ne (by decide)
      · simp only [List.flatten_cons, List.flatten_nil, List.append_nil, List.mem_singleton] at ha; subst ha; decide
      · simp only [List.flatten_cons, List.flatten_nil, List.append_nil, List.mem_singleton] at ha; subst ha; decide
      · exact hap nmCe (fun x hx => own_ne hv hx (by decide)) a (by simpa only [List.flatten_append, List.mem_append] using ha))
    h.ce
  have FS := run_flag (X := envPart evars e ++ (([] : List PAssign) :: singles b.body))
    (Y := atomicSteps fine (applyAssigns (evars ++ svars)) ++ [[]]) (f := nmCs)
    (by
      intro a ha
      rw [List.flatten_append, flat_cons_singles, List.mem_append] at ha
      rcases ha with ha | ha
      · rcases mem_envPart ha with h1 | ⟨y, hy, h1⟩
        · rw [h1]; decide
        · rw [h1]; exact next_ne (by decide)
      · rcases mem_body ha with h1 | h1 | ⟨y, hy, h1⟩
        · rw [h1]; decide
        · rw [h1]; decide
        · rw [h1]; exact next_ne (by decide))
    (hap nmCs fun x hx => own_ne hv hx (by decide))
    h.cs
  have noE : evars = [] → ∀ p, p <+: roundM fine e b → σ.run p.flatten nmCe = 0 := by
    intro he p hp
    rw [run_prefix_other hp, h.ce]
    intro a ha
    rw [roundM_eq, List.flatten_append, List.mem_append] at ha
    rcases ha with ha | ha
    · rw [preM_flatten] at ha
      simp only [List.mem_append, List.mem_singleton] at ha
      rcases ha with ((ha | ha) | rfl) | rfl
      · unfold envPart at ha; rw [if_pos he] at ha; simp at ha
      · rcases mem_body ha with h1 | h1 | ⟨y, hy, h1⟩
        · rw [h1]; decide
        · rw [h1]; decide
        · rw [h1]; exact next_ne (by decide)
      · decide
      · decide
    · exact hap nmCe (fun x hx => own_ne hv hx (by decide)) a ha
  -- the next values at the end of the first part
  have NX : ∀ l, (∀ a ∈ l, a.1 = nmCs) → ∀ x ∈ evars ++ svars,
      σ.run ((envPart evars e).flatten ++ b.body ++ l) (x.1 ++ sfxNext) = stVal (e, b.next q) x.1 := by
    intro l hl x hx
    rw [run_append, run_other]
    · exact nexts_after hv h e b hx
    · intro a ha
      rw [hl a ha]
      exact (next_ne (by decide)).symm
  have NXpre : ∀ x ∈ evars ++ svars, σ.run (preM e b).flatten (x.1 ++ sfxNext) = stVal (e, b.next q) x.1 := by
    intro x hx
    rw [preM_flatten, List.append_assoc _ [_] [_]]
    exact NX _ (by simp) x hx
  -- the last part
  have LP : ∀ r, r <+: atomicSteps fine (applyAssigns (evars ++ svars)) ++ [[]] → ∀ x ∈ evars ++ svars,
      (σ.run (preM e b ++ r).flatten x.1 = stVal s x.1 ∨ σ.run (preM e b ++ r).flatten x.1 = stVal (e, b.next q) x.1) ∧
      (((x.1, PRhs.name (x.1 ++ sfxNext)) : PAssign) ∈ r.flatten →
        σ.run (preM e b ++ r).flatten x.1 = stVal (e, b.next q) x.1) := by
    intro r hr x hx
    have := run_apply_part (σ.run (preM e b).flatten) (l := r.flatten) (ds := evars ++ svars) (x := x)
      (fun a ha => mem_applyPart (mem_flatten_prefix hr ha)) (fun y hy z hz => hv.next y hy z hz)
    rw [← run_append, ← List.flatten_append, NXpre x hx, V1 _ (List.prefix_refl _) x hx] at this
    exact this
  have MX : ∀ r, r <+: atomicSteps true (applyAssigns (evars ++ svars)) ++ [[]] → ∀ x ∈ evars ++ svars,
      σ.run (preM e b ++ r).flatten x.1 = stVal (mixS r.length s (e, b.next q)) x.1 := by
    intro r hr x hx
    have hfl : r.flatten = (applyAssigns (evars ++ svars)).take r.length := by
      have h1 := List.prefix_iff_eq_take.1 hr
      rw [show atomicSteps true (applyAssigns (evars ++ svars)) ++ [[]] =
        singles (applyAssigns (evars ++ svars)) ++ List.replicate 2 [] by simp [atomicSteps]] at h1
      calc r.flatten = ((singles (applyAssigns (evars ++ svars)) ++ List.replicate 2 []).take r.length).flatten := by rw [← h1]
        _ = _ := take_flatten _ _ _
    have hap2 : (applyAssigns (evars ++ svars)).take r.length = applyAssigns ((evars ++ svars).take r.length) := by
      unfold applyAssigns; rw [List.map_take]
    rw [stVal_mix, List.flatten_append, run_append]
    by_cases hlt : ((evars ++ svars).map Prod.fst).idxOf x.1 < r.length
    · rw [if_pos hlt]
      have hm : x ∈ (evars ++ svars).take r.length := (mem_take_iff hv.nodup hx _).2 hlt
      rw [← NXpre x hx, hfl, hap2]
      refine (run_apply_part (σ.run (preM e b).flatten) (ds := evars ++ svars) (x := x) ?_ (fun y hy z hz => hv.next y hy z hz)).2
        (List.mem_map.2 ⟨x, hm, rfl⟩)
      intro a ha
      obtain ⟨y, hy, rfl⟩ := List.mem_map.1 ha
      exact ⟨y, List.mem_of_mem_take hy, rfl⟩
    · rw [if_neg hlt, hfl, hap2, run_other]
      · exact V1 _ (List.prefix_refl _) x hx
      · intro a ha he
        obtain ⟨y, hy, rfl⟩ := List.mem_map.1 ha
        have : y = x := List.inj_on_of_nodup_map hv.nodup (List.mem_of_mem_take hy) hx he
        subst this
        exact hlt ((mem_take_iff hv.nodup hx _).1 hy)
  have full : ∀ x ∈ evars ++ svars, ((x.1, PRhs.name (x.1 ++ sfxNext)) : PAssign) ∈ applyAssigns (evars ++ svars) :=
    fun x hx => List.mem_map.2 ⟨x, hx, rfl⟩
  have endv : ∀ x ∈ evars ++ svars, σ.run (roundM fine e b).flatten x.1 = stVal (e, b.next q) x.1 := by
    intro x hx
    rw [roundM_eq]
    refine (LP _ (List.prefix_refl _) x hx).2 ?_
    rw [List.flatten_append, atomicSteps_flatten]
    exact List.mem_append_left _ (full x hx)
  -- values that the last part keeps
  have keep : ∀ n, (∀ x ∈ evars ++ svars, x.1 ≠ n) → σ.run (roundM fine e b).flatten n = σ.run (preM e b).flatten n := by
    intro n hn
    rw [roundM_eq, List.flatten_append, run_append, run_other (hap n hn)]
  have nofaultE : ∀ a ∈ (envPart evars e).flatten, a.1 ≠ nmFault ∧ a.1 ≠ nmCur := by
    intro a ha
    rcases mem_envPart ha with h1 | ⟨y, hy, h1⟩
    · rw [h1]; decide
    · rw [h1]; exact ⟨next_ne (by decide), next_ne (by decide)⟩
  refine ⟨⟨?_, ?_, ?_, ?_, ?_, ?_, ?_, ?_⟩, ⟨endv, ?_, ?_, ?_, ?_, ?_⟩⟩
  · intro p hp hc
    by_cases he : evars = []
    · exact absurd (noE he p hp) hc
    · have hp' := hp
      rw [flagE_split fine e b he] at hp'
      have hpe := ((FE he).1 p hp').resolve_left hc
      have hpre : p <+: preM e b := by
        rw [hpe]
        unfold preM envPart
        rw [if_neg he]
        simp only [List.append_assoc]
        exact (List.prefix_append_right_inj _).2 (List.prefix_append _ _)
      refine ⟨V1 p hpre, fun x hx => ?_⟩
      rw [hpe, List.flatten_append, flat_cons_singles, run_append, run_other, stVal_env hx]
      · have hn := hv.nodup
        rw [List.map_append, List.nodup_append] at hn
        exact run_next hn.1 (fun y hy => hv.range y (List.mem_append_left _ hy)) e σ hx
      · intro a ha
        simp only [List.flatten_cons, List.flatten_nil, List.append_nil, List.mem_singleton] at ha
        subst ha
        exact (next_ne (by decide)).symm
  · intro he
    refine ⟨_, ?_, by rw [(FE he).2.1]; decide⟩
    rw [flagE_split fine e b he, List.append_assoc _ _ (_ ++ _ ++ _ ++ _)]
    exact List.prefix_append _ _
  · intro p hp hc
    have hpe := (FS.1 p hp).resolve_left hc
    have hpre : p <+: preM e b := by
      rw [hpe]; exact List.prefix_append _ _
    refine ⟨V1 p hpre, fun x hx => ?_⟩
    rw [hpe, List.flatten_append, List.flatten_append, flat_cons_singles]
    exact NX _ (by simp) x hx
  · refine ⟨_, ?_, by rw [FS.2.1]; decide⟩
    exact List.IsPrefix.trans (List.prefix_append _ _) hpm
  · intro hb p hp
    cases b with
    | fault => exact absurd hb (by simp [SysMove.bad])
    | edge k v =>
      have hbad : bad = false := hb
      rw [run_prefix_other hp, h.fault, hbad]
      · rfl
      · intro a ha
        rw [roundM_eq, List.flatten_append, List.mem_append] at ha
        rcases ha with ha | ha
        · rw [preM_flatten] at ha
          simp only [List.mem_append, List.mem_singleton] at ha
          rcases ha with ((ha | ha) | rfl) | rfl
          · exact (nofaultE a ha).1
          · rw [SysMove.body, List.mem_cons] at ha
            rcases ha with rfl | ha
            · exact (by decide : nmCur ≠ nmFault)
            · obtain ⟨y, -, h1⟩ := mem_next ha
              rw [h1]; exact next_ne (by decide)
          · decide
          · decide
        · exact hap nmFault (fun x hx => own_ne hv hx (by decide)) a ha
  · rintro rfl p hp
    rw [roundM_eq] at hp
    rcases prefix_append_iff.1 hp with hp | ⟨r, hr, rfl⟩
    · exact ⟨0, fun x hx => by rw [V1 p hp x hx, stVal_mix, if_neg (by omega)]⟩
    · exact ⟨r.length, fun x hx => MX r hr x hx⟩
  · rintro rfl j
    refine ⟨preM e b ++ (atomicSteps true (applyAssigns (evars ++ svars)) ++ [[]]).take j, ?_, ?_⟩
    · rw [roundM_eq]
      exact (List.prefix_append_right_inj _).2 (List.take_prefix _ _)
    · intro x hx
      have hl := List.length_take (i := j) (l := (atomicSteps true (applyAssigns (evars ++ svars)) ++ [[]]))
      rw [MX _ (List.take_prefix _ _) x hx, stVal_mix, stVal_mix, hl]
      have h1 : ((evars ++ svars).map Prod.fst).idxOf x.1 < (evars ++ svars).length := by
        have := List.idxOf_lt_length_iff.2 (List.mem_map_of_mem (f := Prod.fst) hx)
        rwa [List.length_map] at this
      have h2 : (evars ++ svars).length ≤ (atomicSteps true (applyAssigns (evars ++ svars)) ++ [[]]).length := by
        simp [atomicSteps, singles, applyAssigns]
      have : ((evars ++ svars).map Prod.fst).idxOf x.1 < min j (atomicSteps true (applyAssigns (evars ++ svars)) ++ [[]]).length ↔
          ((evars ++ svars).map Prod.fst).idxOf x.1 < j := by omega
      simp only [this]
  · rintro rfl p hp
    rw [roundM_eq] at hp
    rcases prefix_append_iff.1 hp with hp | ⟨r, hr, rfl⟩
    · exact Or.inl (V1 p hp)
    · cases r with
      | nil => rw [List.append_nil]; exact Or.inl (V1 _ (List.prefix_refl _))
      | cons g r =>
        right
        intro x hx
        refine (LP _ hr x hx).2 ?_
        have : g = applyAssigns (evars ++ svars) := by
          simp only [atomicSteps, Bool.false_eq_true, if_false, List.singleton_append, List.cons_prefix_cons] at hr
          exact hr.1
        rw [this, List.flatten_cons]
        exact List.mem_append_left _ (full x hx)
  · intro x hx
    have hx' : x ∈ evars ++ svars := List.mem_append_right _ hx
    rw [keep (x.1 ++ sfxNext) (fun y hy => hv.next y hy x hx'), NXpre x hx', stVal_sys hv hx]
  · rw [keep _ fun x hx => own_ne hv hx (by decide), preM_flatten, List.append_assoc _ [_] [_], run_append, run_other, run_append]
    · cases b with
      | edge k' v =>
        rw [SysMove.body, run_cons, run_other]
        · unfold PVal.set
          rw [Function.update_self]; rfl
        · intro a ha
          obtain ⟨y, -, h1⟩ := mem_next ha
          rw [h1]; exact next_ne (by decide)
      | fault =>
        rw [run_other, run_other, h.cur]
        · rfl
        · exact fun a ha => (nofaultE a ha).2
        · intro a ha
          rw [SysMove.body, List.mem_singleton] at ha
          subst ha; decide
    · intro a ha
      simp only [List.singleton_append, List.mem_cons, List.not_mem_nil, or_false] at ha
      rcases ha with rfl | rfl <;> decide
  · rw [keep _ fun x hx => own_ne hv hx (by decide), preM_flatten, List.append_assoc _ [_] [_], run_append, run_other, run_append]
    · cases b with
      | edge k' v =>
        rw [SysMove.body, run_cons, run_other]
        · unfold PVal.set
          rw [Function.update_of_ne (show nmFault ≠ nmCur by decide), run_other, h.fault]
          · rfl
          · exact fun a ha => (nofaultE a ha).1
        · intro a ha
          obtain ⟨y, -, h1⟩ := mem_next ha
          rw [h1]; exact next_ne (by decide)
      | fault =>
        rw [SysMove.body, run_cons, run_nil]
        unfold PVal.set
        rw [Function.update_self]; rfl
    · intro a ha
      simp only [List.singleton_append, List.mem_cons, List.not_mem_nil, or_false] at ha
      rcases ha with rfl | rfl <;> decide
  · by_cases he : evars = []
    · exact noE he _ (List.prefix_refl _)
    · rw [flagE_split fine e b he]; exact (FE he).2.2
  · exact FS.2.2

end rounds

end Gr1c
