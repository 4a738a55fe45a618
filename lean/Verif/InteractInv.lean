import Verif.InteractSpec
import Verif.SublevelLemmas

/-!
# Helper lemmas: what the variables of the interactive mode hold
-/

namespace Gr1c

variable {ne ns m n : ℕ}

/-! ## Levels -/

section Levels
variable {E S : Type} [Fintype E] [DecidableEq E] [Fintype S] [DecidableEq S]

theorem Steers.mono {G : Game E S} {s : E × S} {A B : Set (E × S)} (h : Steers G s A) (hAB : A ⊆ B) :
    Steers G s B := by
  intro e he
  obtain ⟨x, h1, h2⟩ := h e he
  exact ⟨x, h1, hAB h2⟩

theorem withinLevel_succ (G : Game E S) (eg : Fin m → Finset (E × S)) (goal : Set (E × S)) (k : ℕ) :
    WithinLevel G eg goal k ⊆ WithinLevel G eg goal (k + 1) := by
  induction k with
  | zero => intro s hs; exact absurd hs (Set.notMem_empty s)
  | succ k ih =>
    rintro s ⟨r, X, hs, hX⟩
    refine ⟨r, X, hs, fun t ht => ?_⟩
    rcases hX t ht with h | h | h
    · exact Or.inl h
    · exact Or.inr (Or.inl (h.mono ih))
    · exact Or.inr (Or.inr h)

theorem withinLevel_mono (G : Game E S) (eg : Fin m → Finset (E × S)) (goal : Set (E × S)) {j k : ℕ}
    (h : j ≤ k) : WithinLevel G eg goal j ⊆ WithinLevel G eg goal k := by
  induction k with
  | zero => obtain rfl : j = 0 := by omega
            exact subset_rfl
  | succ k ih =>
    rcases Nat.lt_or_ge j (k + 1) with h1 | h1
    · exact (ih (by omega)).trans (withinLevel_succ _ _ _ _)
    · obtain rfl : j = k + 1 := by omega
      exact subset_rfl

/-- The computed levels are the specified ones. -/
theorem withinLevel_iff (G : Game E S) (eg : Fin m → Finset (E × S)) (goal : Finset (E × S)) (A : Set (E × S))
    (hA : ∀ s, s ∈ A ↔ s ∈ goal) (k : ℕ) (s : E × S) :
    s ∈ WithinLevel G eg A k ↔ s ∈ ylev G eg goal k := by
  induction k generalizing s with
  | zero => exact ⟨fun h => absurd h (Set.notMem_empty s), fun h => absurd h (Finset.notMem_empty s)⟩
  | succ k ih =>
    rw [mem_ylev_succ]
    constructor
    · rintro ⟨r, X, hs, hX⟩
      left
      refine ⟨r, ?_⟩
      classical
      have hsub : Finset.univ.filter (· ∈ X) ⊆ xlev G eg goal k r := by
        apply nuX_greatest
        intro t ht
        rcases hX t (Finset.mem_filter.1 ht).2 with h | h | ⟨h1, h2⟩
        · exact Finset.mem_union_left _ (Finset.mem_union_left _ ((hA t).1 h))
        · refine Finset.mem_union_left _ (Finset.mem_union_right _ (mem_pre.2 fun e he => ?_))
          obtain ⟨x, a, b⟩ := h e he
          exact ⟨x, a, (ih _).1 b⟩
        · refine Finset.mem_union_right _ (Finset.mem_inter.2 ⟨mem_pre.2 fun e he => ?_, Finset.mem_compl.2 h1⟩)
          obtain ⟨x, a, b⟩ := h2 e he
          exact ⟨x, a, Finset.mem_filter.2 ⟨Finset.mem_univ _, b⟩⟩
      exact hsub (Finset.mem_filter.2 ⟨Finset.mem_univ _, hs⟩)
    · rintro (⟨r, h⟩ | h)
      · refine ⟨r, {t | t ∈ xlev G eg goal k r}, h, fun t ht => ?_⟩
        have := nuX_post G _ _ (show t ∈ nuX G _ _ from ht)
        rcases Finset.mem_union.1 this with h1 | h1
        · rcases Finset.mem_union.1 h1 with h2 | h2
          · exact Or.inl ((hA t).2 h2)
          · refine Or.inr (Or.inl fun e he => ?_)
            obtain ⟨x, a, b⟩ := mem_pre.1 h2 e he
            exact ⟨x, a, (ih _).2 b⟩
        · obtain ⟨h2, h3⟩ := Finset.mem_inter.1 h1
          exact Or.inr (Or.inr ⟨Finset.mem_compl.1 h3, fun e he => mem_pre.1 h2 e he⟩)
      · exact withinLevel_succ _ _ _ _ ((ih s).2 h)

end Levels

/-! ## One command -/

/-- What the session variables hold. -/
structure SessOk (sp : ISpec ne ns m n) (σ : ISess ne ns m n) (g : Games ne ns) : Prop where
  noP : NoPrimedSys σ.et
  cur : bitGame σ.et σ.st = g.cur
  win : winningSet g.win sp.eg sp.sg = some σ.W
  lev : ∃ Wl, winningSet g.lev sp.eg sp.sg = some Wl ∧ ∀ i, σ.Y i = sublevels g.lev sp.eg (sp.sg i ∩ Wl)

theorem SessOk.mem_win {sp : ISpec ne ns m n} {σ : ISess ne ns m n} {g : Games ne ns} (h : SessOk sp σ g)
    (hm : 0 < m) (hn : 0 < n) (s : BState ne ns) : s ∈ σ.W ↔ CanWin g.win sp.eg sp.sg s :=
  ⟨fun hs => wins_of_mem hm hn h.win hs, fun ⟨_, hs⟩ => mem_of_wins hm h.win hs⟩

/-- With up to date levels, the stored levels are the specified ones, up to the winning set. -/
theorem SessOk.levels {sp : ISpec ne ns m n} {σ : ISess ne ns m n} {g : Games ne ns} (h : SessOk sp σ g)
    (hm : 0 < m) (hn : 0 < n) (hl : g.win = g.lev) (i : Fin n) :
    0 < (σ.Y i).length ∧
    (∀ (j : ℕ) lv, (σ.Y i)[j]? = some lv → ∀ s, s ∈ lv.Y ↔ s ∈ WithinLevel g.win sp.eg (goodGoal g.win sp i) j) ∧
    (∀ lv, (σ.Y i)[(σ.Y i).length - 1]? = some lv → lv.Y = σ.W) := by
  obtain ⟨Wl, h1, h2⟩ := h.lev
  have hw := h.win
  rw [hl, h1] at hw
  obtain rfl : Wl = σ.W := by simpa using hw
  have hgoal : ∀ s, s ∈ goodGoal g.win sp i ↔ s ∈ sp.sg i ∩ σ.W := by
    intro s
    rw [Finset.mem_inter, h.mem_win hm hn]; rfl
  rw [h2 i]
  refine ⟨sublevels_length_pos _ _ _, ?_, ?_⟩
  · intro j lv hj s
    obtain ⟨hlt, rfl⟩ := List.getElem?_eq_some_iff.1 hj
    rw [sublevels_Y, withinLevel_iff g.win sp.eg _ _ hgoal, hl]
  · intro lv hj
    obtain ⟨hlt, rfl⟩ := List.getElem?_eq_some_iff.1 hj
    rw [sublevels_Y, sublevels_last]
    exact muY_goal_W hm hn h1 i

/-- What the scan finds. -/
theorem SessOk.scan {sp : ISpec ne ns m n} {σ : ISess ne ns m n} {g : Games ne ns} (h : SessOk sp σ g)
    (hm : 0 < m) (hn : 0 < n) (hl : g.win = g.lev) (i : Fin n) (s : BState ne ns)
    (hs : CanWin g.win sp.eg sp.sg s) :
    1 ≤ scanLevel (σ.Y i) s (σ.Y i).length ∧ scanLevel (σ.Y i) s (σ.Y i).length < (σ.Y i).length ∧
      IsIndex g.win sp i s (scanLevel (σ.Y i) s (σ.Y i).length) := by
  obtain ⟨hpos, hY, hlast⟩ := h.levels hm hn hl i
  have h0 : ∀ lv, (σ.Y i)[0]? = some lv → s ∉ lv.Y := by
    intro lv h0 hin
    exact absurd ((hY 0 lv h0 s).1 hin) (Set.notMem_empty s)
  obtain ⟨a1, a2, a3, a4⟩ := scanLevel_spec (σ.Y i) s h0
    (fun a b la lb hab ha hb hin => (hY b lb hb s).2 (withinLevel_mono _ _ _ hab ((hY a la ha s).1 hin)))
    (σ.Y i).length hpos le_rfl
    (fun k lv hk hlv => by
      obtain ⟨hlt, _⟩ := List.getElem?_eq_some_iff.1 hlv
      omega)
  have hlt : scanLevel (σ.Y i) s (σ.Y i).length < (σ.Y i).length := by
    by_contra hge
    have hlv : (σ.Y i)[(σ.Y i).length - 1]? = some ((σ.Y i)[(σ.Y i).length - 1]) :=
      List.getElem?_eq_getElem (by omega)
    refine a3 _ _ (by omega) hlv ?_
    rw [hlast _ hlv]
    exact (h.mem_win hm hn s).2 hs
  refine ⟨a1, hlt, ?_, ?_⟩
  · have hlv := List.getElem?_eq_getElem hlt
    exact (hY _ _ hlv s).1 (a4 _ _ le_rfl hlv)
  · intro k hk hin
    have hlv := List.getElem?_eq_getElem (show k < (σ.Y i).length by omega)
    exact a3 _ _ hk hlv ((hY _ _ hlv s).2 hin)

theorem IsIndex.unique {G : Game (Val ne) (Val ns)} {sp : ISpec ne ns m n} {i : Fin n} {s : BState ne ns}
    {j k : ℕ} (hj : IsIndex G sp i s j) (hk : IsIndex G sp i s k) : j = k := by
  by_contra hne
  rcases Nat.lt_or_gt_of_ne hne with h | h
  · exact hk.2 j h hj.1
  · exact hj.2 k h hk.1

/-- A state with an index is winning. -/
theorem IsIndex.canWin {sp : ISpec ne ns m n} {σ : ISess ne ns m n} {g : Games ne ns} (h : SessOk sp σ g)
    (hm : 0 < m) (hn : 0 < n) {i : Fin n} {s : BState ne ns} {j : ℕ} 
    (hj : s ∈ WithinLevel g.win sp.eg (goodGoal g.win sp i) j) : CanWin g.win sp.eg sp.sg s := by
  have hgoal : ∀ s, s ∈ goodGoal g.win sp i ↔ s ∈ sp.sg i ∩ σ.W := by
    intro s
    rw [Finset.mem_inter, h.mem_win hm hn]; rfl
  rw [withinLevel_iff g.win sp.eg _ _ hgoal] at hj
  rw [← h.mem_win hm hn, ← muY_goal_W hm hn h.win i]
  exact ylev_subset_muY _ _ _ _ hj

/-- The rows of one stage of `sysnext`. -/
theorem stage_lists (cover : Bdd (2 * (ne + ns)) → List (CubeArr (2 * (ne + ns))))
    (hcov : ∀ f, IsCover f (cover f)) (σ : ISess ne ns m n) (s : BState ne ns) (e : Val ne)
    (f : Bdd (2 * (ne + ns))) (T : BState ne ns → Prop) (hf : ∀ t, f (joinAsg s t) = true ↔ T t) :
    ∃ l : List (Val ns), listMoves cover (cuddAnd (cuddAnd σ.st (cuddVarMap (bddOf σ.W))) f)
        (stateVec s ++ vec e) = some (l.map vec) ∧ l.Nodup ∧
      ∀ x, x ∈ l ↔ σ.st (joinAsg s (e, x)) = true ∧ (e, x) ∈ σ.W ∧ T (e, x) := by
  obtain ⟨l, h1, h2, h3⟩ := listMoves_exact cover hcov
    (cuddAnd (cuddAnd σ.st (cuddVarMap (bddOf σ.W))) f) s e
  refine ⟨l, h1, h2, fun x => ?_⟩
  rw [h3]
  simp only [cuddAnd, Bool.and_eq_true, varMap_bddOf, decide_eq_true_eq, hf, and_assoc]

theorem stage_none (s : BState ne ns) (A : Finset (BState ne ns)) (t : BState ne ns) :
    cuddVarMap (bddOf A) (joinAsg s t) = true ↔ t ∈ A := by
  rw [varMap_bddOf, decide_eq_true_iff]

/-- Whatever the session holds, the rows of `sysnext` are legal moves into the stored winning set. -/
theorem doSysnext_sound (cover : Bdd (2 * (ne + ns)) → List (CubeArr (2 * (ne + ns))))
    (hcov : ∀ f, IsCover f (cover f)) (σ : ISess ne ns m n) (s : BState ne ns) (e : Val ne) (i : Fin n) :
    doSysnext cover σ (stateVec s ++ vec e) i.val ≠ .null ∧
    ∀ o, doSysnext cover σ (stateVec s ++ vec e) i.val = .ok o →
      ∃ l : List (Val ns), o = .rows (l.map vec) ∧ l.Nodup ∧
        ∀ x ∈ l, σ.st (joinAsg s (e, x)) = true ∧ (e, x) ∈ σ.W := by
  unfold doSysnext
  rw [dif_pos i.isLt]
  simp only [take_stateVec, stateOf_stateVec]
  cases h1 : (σ.Y i)[scanLevel (σ.Y i) s (σ.Y i).length - 1]? with
  | none => exact ⟨by simp, by simp⟩
  | some lv =>
    obtain ⟨l, e1, e2, e3⟩ := stage_lists cover hcov σ s e (cuddVarMap (bddOf lv.Y)) (· ∈ lv.Y)
      (stage_none s lv.Y)
    simp only [e1]
    by_cases hl : l.map vec = []
    · rw [if_neg (by simpa using hl)]
      split
      · cases h2 : (σ.Y i)[scanLevel (σ.Y i) s (σ.Y i).length]? with
        | none => exact ⟨by simp, by simp⟩
        | some lv' =>
          obtain ⟨l', f1, f2, f3⟩ := stage_lists cover hcov σ s e (cuddVarMap (bddOf lv'.Y)) (· ∈ lv'.Y)
            (stage_none s lv'.Y)
          simp only [f1]
          refine ⟨by simp, fun o ho => ⟨l', by cases ho; rfl, f2, fun x hx => ?_⟩⟩
          exact ⟨((f3 x).1 hx).1, ((f3 x).1 hx).2.1⟩
      · obtain ⟨l', f1, f2, f3⟩ := stage_lists cover hcov σ s e (fun _ => true) (fun _ => True)
          (fun _ => by simp)
        simp only [f1]
        refine ⟨by simp, fun o ho => ⟨l', by cases ho; rfl, f2, fun x hx => ?_⟩⟩
        exact ⟨((f3 x).1 hx).1, ((f3 x).1 hx).2.1⟩
    · rw [if_pos hl]
      refine ⟨by simp, fun o ho => ⟨l, by cases ho; rfl, e2, fun x hx => ?_⟩⟩
      exact ⟨((e3 x).1 hx).1, ((e3 x).1 hx).2.1⟩

/-- With up to date levels and a winning state, `sysnext` lists the moves to the previous level, or if there
are none those to the same level. -/
theorem doSysnext_exact (cover : Bdd (2 * (ne + ns)) → List (CubeArr (2 * (ne + ns))))
    (hcov : ∀ f, IsCover f (cover f)) {sp : ISpec ne ns m n} {σ : ISess ne ns m n} {g : Games ne ns}
    (h : SessOk sp σ g) (hm : 0 < m) (hn : 0 < n) (hl : g.win = g.lev) (s : BState ne ns) (e : Val ne) (i : Fin n)
    {j : ℕ} (hj : IsIndex g.win sp i s j) :
    ∃ l : List (Val ns), doSysnext cover σ (stateVec s ++ vec e) i.val = .ok (.rows (l.map vec)) ∧ l.Nodup ∧
      ((∃ x, g.cur.str s (e, x) = true ∧ (e, x) ∈ WithinLevel g.win sp.eg (goodGoal g.win sp i) (j - 1)) →
        ∀ x, x ∈ l ↔ g.cur.str s (e, x) = true ∧
          (e, x) ∈ WithinLevel g.win sp.eg (goodGoal g.win sp i) (j - 1)) ∧
      ((¬ ∃ x, g.cur.str s (e, x) = true ∧ (e, x) ∈ WithinLevel g.win sp.eg (goodGoal g.win sp i) (j - 1)) →
        ∀ x, x ∈ l ↔ g.cur.str s (e, x) = true ∧
          (e, x) ∈ WithinLevel g.win sp.eg (goodGoal g.win sp i) j) := by
  have hs := IsIndex.canWin h hm hn hj.1
  obtain ⟨a1, a2, a3⟩ := h.scan hm hn hl i s hs
  have hjj := hj.unique a3
  obtain ⟨hpos, hY, hlast⟩ := h.levels hm hn hl i
  have hstr : ∀ x, σ.st (joinAsg s (e, x)) = g.cur.str s (e, x) := fun x => by rw [← h.cur]; rfl
  have hmem : ∀ (k : ℕ) x, (e, x) ∈ WithinLevel g.win sp.eg (goodGoal g.win sp i) k → (e, x) ∈ σ.W :=
    fun k x hx => (h.mem_win hm hn _).2 (IsIndex.canWin h hm hn hx)
  unfold doSysnext
  rw [dif_pos i.isLt]
  simp only [take_stateVec, stateOf_stateVec, ← hjj]
  rw [← hjj] at a1 a2
  have g1 : (σ.Y i)[j - 1]? = some ((σ.Y i)[j - 1]) := List.getElem?_eq_getElem (by omega)
  have g2 : (σ.Y i)[j]? = some ((σ.Y i)[j]) := List.getElem?_eq_getElem a2
  obtain ⟨l, e1, e2, e3⟩ := stage_lists cover hcov σ s e (cuddVarMap (bddOf ((σ.Y i)[j - 1]).Y)) _
      (stage_none s _)
  obtain ⟨l', f1, f2, f3⟩ := stage_lists cover hcov σ s e (cuddVarMap (bddOf ((σ.Y i)[j]).Y)) _
      (stage_none s _)
  have e3' : ∀ x, x ∈ l ↔ g.cur.str s (e, x) = true ∧
      (e, x) ∈ WithinLevel g.win sp.eg (goodGoal g.win sp i) (j - 1) := by
    intro x
    rw [e3, hstr, hY _ _ g1]
    exact ⟨fun ⟨a, _, c⟩ => ⟨a, c⟩, fun ⟨a, c⟩ => ⟨a, hmem _ _ c, c⟩⟩
  have f3' : ∀ x, x ∈ l' ↔ g.cur.str s (e, x) = true ∧
      (e, x) ∈ WithinLevel g.win sp.eg (goodGoal g.win sp i) j := by
    intro x
    rw [f3, hstr, hY _ _ g2]
    exact ⟨fun ⟨a, _, c⟩ => ⟨a, c⟩, fun ⟨a, c⟩ => ⟨a, hmem _ _ c, c⟩⟩
  simp only [g1, g2, e1, f1]
  by_cases hnil : l.map vec = []
  · rw [if_neg (by simpa using hnil), if_pos (by omega)]
    have hno : ¬ ∃ x, g.cur.str s (e, x) = true ∧
        (e, x) ∈ WithinLevel g.win sp.eg (goodGoal g.win sp i) (j - 1) := by
      rintro ⟨x, hx⟩
      have := (e3' x).2 hx
      rw [List.map_eq_nil_iff] at hnil
      rw [hnil] at this
      exact absurd this List.not_mem_nil
    exact ⟨l', rfl, f2, fun hy => absurd hy hno, fun _ => f3'⟩
  · rw [if_pos hnil]
    have hyes : ∃ x, g.cur.str s (e, x) = true ∧
        (e, x) ∈ WithinLevel g.win sp.eg (goodGoal g.win sp i) (j - 1) := by
      cases l with
      | nil => exact absurd rfl hnil
      | cons x l => exact ⟨x, (e3' x).1 List.mem_cons_self⟩
    exact ⟨l, rfl, e2, fun _ => e3', fun hno => absurd hyes hno⟩

/-! ## Edits -/

theorem doEdge_env (add : Bool) (σ : ISess ne ns m n) (s : BState ne ns) (e : Val ne) (u t : BState ne ns) :
    (doEdge add σ (stateVec s ++ vec e)).et (joinAsg u t) =
      (if add then σ.et (joinAsg u t) || decide (u = s ∧ t.1 = e)
        else σ.et (joinAsg u t) && !decide (u = s ∧ t.1 = e)) ∧
    (doEdge add σ (stateVec s ++ vec e)).st = σ.st ∧ (doEdge add σ (stateVec s ++ vec e)).W = σ.W ∧
    (doEdge add σ (stateVec s ++ vec e)).Y = σ.Y := by
  have hlen : (stateVec s ++ vec e).length = 2 * ne + ns := by
    rw [List.length_append, stateVec_length, vec_length]; omega
  unfold doEdge
  rw [if_pos hlen]
  refine ⟨?_, rfl, rfl, rfl⟩
  rw [take_stateVec, drop_stateVec]
  cases add
  · simp only [Bool.false_eq_true, if_false, cuddAnd, cuddOr, cuddNot, stateToBdd_state, stateToBdd_env]
    by_cases h1 : u = s <;> by_cases h2 : t.1 = e <;> simp [h1, h2]
  · simp only [if_true, cuddAnd, cuddOr, stateToBdd_state, stateToBdd_env]
    by_cases h1 : u = s <;> by_cases h2 : t.1 = e <;> simp [h1, h2]

theorem doEdge_sys (hns : 0 < ns) (add : Bool) (σ : ISess ne ns m n) (s v u t : BState ne ns) :
    (doEdge add σ (stateVec s ++ stateVec v)).st (joinAsg u t) =
      (if add then σ.st (joinAsg u t) || decide (u = s ∧ t = v)
        else σ.st (joinAsg u t) && !decide (u = s ∧ t = v)) ∧
    (doEdge add σ (stateVec s ++ stateVec v)).et = σ.et ∧ (doEdge add σ (stateVec s ++ stateVec v)).W = σ.W ∧
    (doEdge add σ (stateVec s ++ stateVec v)).Y = σ.Y := by
  have hlen : (stateVec s ++ stateVec v).length ≠ 2 * ne + ns := by
    rw [List.length_append, stateVec_length, stateVec_length]; omega
  unfold doEdge
  rw [if_neg hlen]
  refine ⟨?_, rfl, rfl, rfl⟩
  rw [take_stateVec, drop_stateVec]
  cases add
  · simp only [Bool.false_eq_true, if_false, cuddAnd, cuddOr, cuddNot, stateToBdd_state, stateToBdd_state']
    by_cases h1 : u = s <;> by_cases h2 : t = v <;> simp [h1, h2]
  · simp only [if_true, cuddAnd, cuddOr, stateToBdd_state, stateToBdd_state']
    by_cases h1 : u = s <;> by_cases h2 : t = v <;> simp [h1, h2]

theorem SessOk.edit {sp : ISpec ne ns m n} {σ σ' : ISess ne ns m n} {g : Games ne ns} (h : SessOk sp σ g)
    (G' : Game (Val ne) (Val ns)) (hW : σ'.W = σ.W) (hY : σ'.Y = σ.Y) (hE : NoPrimedSys σ'.et)
    (he : ∀ s e, σ'.et (joinAsg s (e, fun _ => false)) = G'.etr s e)
    (hs : ∀ s t, σ'.st (joinAsg s t) = G'.str s t) : SessOk sp σ' { g with cur := G' } := by
  refine ⟨hE, ?_, by rw [hW]; exact h.win, by rw [hY]; exact h.lev⟩
  show bitGame σ'.et σ'.st = G'
  obtain ⟨etr, str⟩ := G'
  unfold bitGame
  congr 1
  · funext s e; exact he s e
  · funext s t; exact hs s t

/-- The three games the session starts with. -/
theorem SessOk.of_relevels {sp : ISpec ne ns m n} {σ σ' : ISess ne ns m n} {G : Game (Val ne) (Val ns)} {o : IOut}
    (cover : Bdd (2 * (ne + ns)) → List (CubeArr (2 * (ne + ns))))
    (hE : NoPrimedSys σ.et) (hG : bitGame σ.et σ.st = G) (h : iStep cover sp σ .relevels = .ok (σ', o)) :
    o = .nothing ∧ SessOk sp σ' ⟨G, G, G⟩ := by
  simp only [iStep, hG] at h
  cases hW : winningSet G sp.eg sp.sg with
  | none => rw [hW] at h; simp at h
  | some W =>
    rw [hW] at h
    simp only [computeSublevels] at h
    by_cases hn : 0 < n
    · rw [if_pos hn] at h
      simp only [CRes.ok.injEq, Prod.mk.injEq] at h
      obtain ⟨rfl, rfl⟩ := h
      exact ⟨rfl, hE, hG, hW, W, hW, fun i => rfl⟩
    · rw [if_neg hn] at h
      simp at h

end Gr1c
