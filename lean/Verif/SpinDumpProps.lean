import Verif.SpinDump
import Verif.PrintLemmas
import Mathlib.Data.List.Nodup
import Mathlib.Data.List.Range
import Mathlib.Data.List.Forall2
import Mathlib.Data.List.Flatten

/-!
# C42: the Promela model offers every environment move
-/

namespace Gr1c

/-! ## Specification -/

/-- The declared values of a variable: 0 and 1 for a Boolean variable, `0, …, m` for an integer. -/
def InVarRange (x : Name × ℤ) (c : ℤ) : Prop := 0 ≤ c ∧ c ≤ if x.2 = -1 then 1 else x.2

/-- A move assigns a declared value to every variable. -/
def IsMove (vs : List (Name × ℤ)) (cs : List ℤ) : Prop := List.Forall₂ InVarRange vs cs

/-! ## Proof -/

/-- The sequence of counters from a given one on. -/
inductive Runs (vs : List (Name × ℤ)) : List ℤ → List (List ℤ) → Prop
  | last {cs} (h : incrCounter vs cs = none) : Runs vs cs [cs]
  | step {cs cs' l} (h : incrCounter vs cs = some cs') (hr : Runs vs cs' l) : Runs vs cs (cs :: l)

/-- Number of values. -/
def domSize (x : Name × ℤ) : ℕ := (if x.2 = -1 then 1 else x.2).toNat + 1

/-- All moves, the first variable varying fastest. -/
def allMoves : List (Name × ℤ) → List (List ℤ)
  | [] => [[]]
  | x :: vs => (allMoves vs).flatMap fun cs => (List.range (domSize x)).map fun (j : ℕ) => (j : ℤ) :: cs

theorem full_iff {x : Name × ℤ} (hx : -1 ≤ x.2) (j : ℕ) (hj : j < domSize x) :
    (((j : ℤ) > 0 ∧ x.2 = -1) ∨ ((j : ℤ) ≥ x.2 ∧ x.2 ≥ 0)) ↔ j + 1 = domSize x := by
  unfold domSize at *
  split_ifs at * with h <;> omega

theorem incr_inner {x : Name × ℤ} (hx : -1 ≤ x.2) {vs : List (Name × ℤ)} {cs : List ℤ} {l : List (List ℤ)}
    (hlast : ∀ c : ℤ, c = ((domSize x - 1 : ℕ) : ℤ) → Runs (x :: vs) (c :: cs) ((c :: cs) :: l)) :
    ∀ m j, j + m + 1 = domSize x → Runs (x :: vs) ((j : ℤ) :: cs)
      (((List.range' j (m + 1)).map fun (i : ℕ) => (i : ℤ) :: cs) ++ l) := by
  intro m
  induction m with
  | zero =>
    intro j hj
    have := hlast (j : ℤ) (by congr 1; omega)
    simpa using this
  | succ m ih =>
    intro j hj
    rw [List.range'_succ, List.map_cons, List.cons_append]
    refine .step (cs' := ((j : ℤ) + 1) :: cs) ?_ ?_
    · rw [incrCounter, if_neg]
      rw [full_iff hx j (by omega)]; omega
    · have := ih (j + 1) (by omega)
      push_cast at this
      exact this

theorem runs_cons {x : Name × ℤ} (hx : -1 ≤ x.2) {vs : List (Name × ℤ)} {cs : List ℤ} {l : List (List ℤ)}
    (h : Runs vs cs l) :
    Runs (x :: vs) (0 :: cs) (l.flatMap fun cs => (List.range (domSize x)).map fun (j : ℕ) => (j : ℤ) :: cs) := by
  have hfull : ∀ c : ℤ, c = ((domSize x - 1 : ℕ) : ℤ) → ((c > 0 ∧ x.2 = -1) ∨ (c ≥ x.2 ∧ x.2 ≥ 0)) := by
    rintro c rfl
    exact (full_iff hx _ (by unfold domSize; omega)).2 (by unfold domSize; omega)
  have hd : 0 < domSize x := by unfold domSize; omega
  induction h with
  | @last cs h =>
    have := incr_inner hx (vs := vs) (cs := cs) (l := [])
      (fun c hc => .last (by rw [incrCounter, if_pos (hfull c hc), h]; rfl)) (domSize x - 1) 0 (by omega)
    rw [List.range_eq_range', List.flatMap_singleton]
    have e : domSize x - 1 + 1 = domSize x := by omega
    rw [e, List.append_nil] at this
    exact this
  | @step cs cs' l h hr ih =>
    have := incr_inner hx (vs := vs) (cs := cs)
      (l := l.flatMap fun cs => (List.range (domSize x)).map fun (j : ℕ) => (j : ℤ) :: cs)
      (fun c hc => .step (cs' := 0 :: cs') (by rw [incrCounter, if_pos (hfull c hc), h]; rfl) ih)
      (domSize x - 1) 0 (by omega)
    rw [List.flatMap_cons]
    have e : domSize x - 1 + 1 = domSize x := by omega
    rw [e, ← List.range_eq_range'] at this
    exact this

theorem runs_all (vs : List (Name × ℤ)) (h : ∀ x ∈ vs, -1 ≤ x.2) : Runs vs (vs.map fun _ => 0) (allMoves vs) := by
  induction vs with
  | nil => exact .last rfl
  | cons x vs ih =>
    exact runs_cons (h x (by simp)) (ih fun y hy => h y (by simp [hy]))

theorem mem_allMoves (vs : List (Name × ℤ)) (h : ∀ x ∈ vs, -1 ≤ x.2) (cs : List ℤ) :
    cs ∈ allMoves vs ↔ IsMove vs cs := by
  induction vs generalizing cs with
  | nil => simp [allMoves, IsMove]
  | cons x vs ih =>
    have hx := h x (by simp)
    have ih := ih fun y hy => h y (by simp [hy])
    simp only [allMoves, List.mem_flatMap, List.mem_map, List.mem_range]
    constructor
    · rintro ⟨ds, hds, j, hj, rfl⟩
      refine .cons ?_ ((ih ds).1 hds)
      unfold domSize at hj
      unfold InVarRange
      split_ifs at hj ⊢ <;> omega
    · rintro (_ | ⟨hc, hcs⟩)
      rename_i c ds
      refine ⟨ds, (ih ds).2 hcs, c.toNat, ?_, ?_⟩
      · unfold InVarRange at hc
        unfold domSize
        split_ifs at hc ⊢ <;> omega
      · rw [Int.toNat_of_nonneg hc.1]

theorem nodup_allMoves (vs : List (Name × ℤ)) : (allMoves vs).Nodup := by
  induction vs with
  | nil => simp [allMoves]
  | cons x vs ih =>
    rw [allMoves, List.nodup_flatMap]
    constructor
    · intro cs _
      refine List.Nodup.map ?_ List.nodup_range
      intro i j h
      simpa using h
    · refine ih.imp ?_
      intro a b hab c hc hc'
      simp only [List.mem_map, List.mem_range] at hc hc'
      obtain ⟨i, -, rfl⟩ := hc
      obtain ⟨j, -, hj⟩ := hc'
      simp only [List.cons.injEq] at hj
      exact hab hj.2.symm

theorem runs_loop {vs : List (Name × ℤ)} {cs : List ℤ} {l : List (List ℤ)} (h : Runs vs cs l) :
    ∀ n, l.length ≤ n → envLoop n vs cs = some (l.flatMap (altText vs)) := by
  induction h with
  | last h =>
    intro n hn
    cases n with
    | zero => simp at hn
    | succ n => simp [envLoop, h]
  | step h hr ih =>
    intro n hn
    cases n with
    | zero => simp at hn
    | succ n =>
      rw [envLoop, h]
      simp only
      rw [ih n (by simpa using hn)]
      simp

/-- **C42.** The loop ends, and the environment process it writes has one alternative for every move, each
exactly once: the text is the concatenation of the alternatives of a list that contains every assignment of
declared values and no assignment twice. -/
theorem env_moves_complete (vs : List (Name × ℤ)) (h : ∀ x ∈ vs, -1 ≤ x.2) :
    ∃ l : List (List ℤ), l.Nodup ∧ (∀ cs, cs ∈ l ↔ IsMove vs cs) ∧
      ∀ n, l.length ≤ n → envMoveText n vs =
        some ("ENV_MOVE:\nif".toList ++ l.flatMap (altText vs) ++
          "\nfi;\nchecketrans = true; checketrans = false;\n\n".toList) := by
  refine ⟨allMoves vs, nodup_allMoves vs, mem_allMoves vs h, ?_⟩
  intro n hn
  unfold envMoveText
  rw [runs_loop (runs_all vs h) n hn]
  rfl

theorem decimal_inj {v w : ℕ} (h : decimal v = decimal w) : v = w := by
  rw [← decimal_value v, h, decimal_value]

/-- Texts of values tell the values apart. -/
theorem valueText_inj {x : Name × ℤ} {c d : ℤ} (hc : InVarRange x c) (hd : InVarRange x d)
    (h : valueText x c = valueText x d) : c = d := by
  unfold InVarRange at hc hd
  by_cases hb : x.2 = -1
  · simp only [valueText, hb, if_true] at h hc hd
    have h1 : c = 0 ∨ c = 1 := by omega
    have h2 : d = 0 ∨ d = 1 := by omega
    rcases h1 with rfl | rfl <;> rcases h2 with rfl | rfl <;> simp at h ⊢
  · simp only [valueText, if_neg hb, printInt_nonneg hc.1, printInt_nonneg hd.1] at h
    have := decimal_inj h
    omega

theorem valueText_semicolon {x : Name × ℤ} {c : ℤ} (hc : InVarRange x c) : ';' ∉ valueText x c := by
  unfold valueText
  split
  · split <;> decide
  · rw [printInt_nonneg hc.1]
    intro h
    have := decimal_digits _ _ h
    revert this; decide

theorem split_unique {a b s t : List Char} (ha : ';' ∉ a) (hb : ';' ∉ b) (h : a ++ ';' :: s = b ++ ';' :: t) :
    a = b ∧ s = t := by
  induction a generalizing b with
  | nil =>
    cases b with
    | nil => simpa using h
    | cons c b => simp only [List.nil_append, List.cons_append, List.cons.injEq] at h; simp [← h.1] at hb
  | cons c a ih =>
    cases b with
    | nil => simp only [List.nil_append, List.cons_append, List.cons.injEq] at h; simp [h.1] at ha
    | cons d b =>
      simp only [List.cons_append, List.cons.injEq] at h
      simp only [List.mem_cons, not_or] at ha hb
      have := ih ha.2 hb.2 h.2
      exact ⟨by rw [h.1, this.1], this.2⟩

/-- **C42.** The texts of different alternatives differ. -/
theorem altText_inj {vs : List (Name × ℤ)} {cs ds : List ℤ} (hc : IsMove vs cs) (hd : IsMove vs ds)
    (h : altText vs cs = altText vs ds) : cs = ds := by
  unfold altText at h
  have h := List.append_cancel_left h
  unfold IsMove at hc hd
  induction hc generalizing ds with
  | nil => cases hd; rfl
  | @cons x c vs cs h1 h2 ih =>
    cases hd with
    | @cons _ d _ ds k1 k2 =>
      cases vs with
      | nil =>
        cases h2; cases k2
        simp only [assignText] at h
        have h := List.append_cancel_left h
        rw [valueText_inj h1 k1 h]
      | cons y vs =>
        simp only [assignText, List.append_assoc, List.cons_append, List.cons.injEq, true_and] at h
        have h := List.append_cancel_left (List.append_cancel_left h)
        obtain ⟨e1, e2⟩ := split_unique (valueText_semicolon h1) (valueText_semicolon k1) h
        rw [valueText_inj h1 k1 e1, ih k2 (congrArg _ e2) e2]

/-- A Boolean variable and one with three values: six alternatives. -/
example : envMoveText 6 [("a".toList, -1), ("x".toList, 2)] = some
    ("ENV_MOVE:\nif\n:: (1) -> a_next=false; x_next=0\n:: (1) -> a_next=true; x_next=0\n:: (1) -> a_next=false; x_next=1" ++
      "\n:: (1) -> a_next=true; x_next=1\n:: (1) -> a_next=false; x_next=2\n:: (1) -> a_next=true; x_next=2" ++
      "\nfi;\nchecketrans = true; checketrans = false;\n\n").toList := by
  decide +kernel

example : ∀ x ∈ [("a".toList, (-1 : ℤ)), ("x".toList, 2)], -1 ≤ x.2 := by decide

end Gr1c
