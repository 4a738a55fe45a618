import Verif.Promela
import Mathlib.Order.Monotone.Basic
import Mathlib.Data.List.Infix

/-!
# Lemmas on executions of Promela programs
-/

namespace Gr1c

theorem run_nil (σ : PVal) : σ.run [] = σ := rfl

theorem run_append (σ : PVal) (l l' : List PAssign) : σ.run (l ++ l') = (σ.run l).run l' := by
  unfold PVal.run; rw [List.foldl_append]

theorem run_cons (σ : PVal) (p : PAssign) (l : List PAssign) : σ.run (p :: l) = (σ.set p).run l := rfl

theorem run_other {l : List PAssign} {x : Name} (h : ∀ p ∈ l, p.1 ≠ x) (σ : PVal) : σ.run l x = σ x := by
  induction l generalizing σ with
  | nil => rfl
  | cons p l ih =>
    rw [run_cons, ih fun q hq => h q (List.mem_cons_of_mem _ hq)]
    unfold PVal.set
    rw [Function.update_of_ne (h p List.mem_cons_self).symm]

/-- Prefixes of an append. -/
theorem prefix_append_iff {α : Type} {p X Y : List α} : p <+: X ++ Y ↔ p <+: X ∨ ∃ q, q <+: Y ∧ p = X ++ q := by
  constructor
  · intro h
    rcases le_total p.length X.length with hl | hl
    · exact Or.inl (List.prefix_of_prefix_length_le h (List.prefix_append X Y) hl)
    · obtain ⟨q, rfl⟩ := List.prefix_of_prefix_length_le (List.prefix_append X Y) h hl
      exact Or.inr ⟨q, (List.prefix_append_right_inj X).1 h, rfl⟩
  · rintro (h | ⟨q, h, rfl⟩)
    · exact h.trans (List.prefix_append X Y)
    · exact (List.prefix_append_right_inj X).2 h

theorem prefix_single {α : Type} {p : List α} {x : α} : p <+: [x] ↔ p = [] ∨ p = [x] := by
  constructor
  · intro h
    cases p with
    | nil => exact Or.inl rfl
    | cons y l =>
      rw [List.cons_prefix_cons] at h
      have := List.prefix_nil.1 h.2
      exact Or.inr (by rw [h.1, this])
  · rintro (rfl | rfl)
    · exact List.nil_prefix
    · exact List.prefix_refl _

section exec

variable {P : PProgram} {fine : Bool}

/-- From step `i` on, the execution performs the given groups of assignments, one group in each step, and then has
the statements `k` left. -/
structure Follows (c : ℕ → PVal × List PCmd) (i : ℕ) (ms : List (List PAssign)) (k : List PCmd) : Prop where
  vals : ∀ p, p <+: ms → (c (i + p.length)).1 = (c i).1.run p.flatten
  code : (c (i + ms.length)).2 = k

theorem Follows.append {c : ℕ → PVal × List PCmd} {i : ℕ} {ms ms' : List (List PAssign)} {k k' : List PCmd}
    (h : Follows c i ms k) (h' : Follows c (i + ms.length) ms' k') : Follows c i (ms ++ ms') k' := by
  constructor
  · intro p hp
    rcases prefix_append_iff.1 hp with hp | ⟨q, hq, rfl⟩
    · exact h.vals p hp
    · rw [List.length_append, ← Nat.add_assoc, h'.vals q hq, h.vals ms (List.prefix_refl _), List.flatten_append,
        run_append]
  · rw [List.length_append, ← Nat.add_assoc, h'.code]

theorem Follows.one {c : ℕ → PVal × List PCmd} {i : ℕ} {m : List PAssign} {k : List PCmd}
    (h : c (i + 1) = ((c i).1.run m, k)) : Follows c i [m] k := by
  constructor
  · intro p hp
    rcases prefix_single.1 hp with rfl | rfl
    · rfl
    · simp [h]
  · simp [h]

theorem follows_nil (c : ℕ → PVal × List PCmd) (i : ℕ) : Follows c i [] (c i).2 := by
  constructor
  · intro p hp
    have := List.prefix_nil.1 hp
    subst this; rfl
  · rfl

/-- Groups of one assignment. -/
def singles (l : List PAssign) : List (List PAssign) := l.map fun p => [p]

theorem singles_flatten (l : List PAssign) : (singles l).flatten = l := by
  induction l with
  | nil => rfl
  | cons p l ih => simp only [singles, List.map_cons, List.flatten_cons] at ih ⊢; rw [ih]; rfl

theorem pair_eta {α β : Type} (x : α × β) {b : β} (h : x.2 = b) : x = (x.1, b) := by
  cases x; cases h; rfl

/-- Assignments are executed one by one. -/
theorem follows_assigns {c : ℕ → PVal × List PCmd} (hc : ∀ i, PStep P fine (c i) (c (i + 1))) (l : List PAssign)
    (k : List PCmd) : ∀ i, (c i).2 = l.map .assign ++ k → Follows c i (singles l) k := by
  induction l with
  | nil => intro i h; have := follows_nil c i; rw [h] at this; exact this
  | cons p l ih =>
    intro i h
    have h1 := hc i
    rw [pair_eta _ h] at h1
    generalize hs : (c i).1 = σ at h1
    generalize hd : c (i + 1) = d at h1
    cases h1
    have h2 : c (i + 1) = ((c i).1.run [p], l.map .assign ++ k) := by rw [hd, hs]; rfl
    exact (Follows.one h2).append (ih (i + 1) (by rw [h2]))

theorem follows_assign {c : ℕ → PVal × List PCmd} (hc : ∀ i, PStep P fine (c i) (c (i + 1))) (p : PAssign)
    (k : List PCmd) (i : ℕ) (h : (c i).2 = .assign p :: k) : Follows c i [[p]] k :=
  follows_assigns hc [p] k i h

/-- A selection: one of the options that can be chosen is executed. -/
theorem follows_sel {c : ℕ → PVal × List PCmd} (hc : ∀ i, PStep P fine (c i) (c (i + 1))) {alts : List PAlt}
    {k : List PCmd} {i : ℕ} (h : (c i).2 = .sel alts :: k) :
    ∃ a ∈ alts, a.Enabled (c i).1 alts ∧ Follows c i ([] :: singles a.body) k := by
  have h1 := hc i
  rw [pair_eta _ h] at h1
  generalize hs : (c i).1 = σ at h1
  generalize hd : c (i + 1) = d at h1
  cases h1 with
  | sel _ _ _ a ha h =>
    refine ⟨a, ha, h, ?_⟩
    have h2 : c (i + 1) = ((c i).1.run [], a.body.map .assign ++ k) := by rw [hd, hs]; rfl
    exact (Follows.one h2).append (follows_assigns hc _ _ (i + 1) (by rw [h2]))

theorem follows_dstep {c : ℕ → PVal × List PCmd} (hc : ∀ i, PStep P fine (c i) (c (i + 1))) {alts : List PAlt}
    {k : List PCmd} {i : ℕ} (h : (c i).2 = .dstep alts :: k) :
    ∃ l a r, alts = l ++ a :: r ∧ (∀ b ∈ l, ¬ b.Enabled (c i).1 alts) ∧ a.Enabled (c i).1 alts ∧
      c (i + 1) = ((c i).1.run a.body, k) := by
  have h1 := hc i
  rw [pair_eta _ h] at h1
  generalize hs : (c i).1 = σ at h1
  generalize hd : c (i + 1) = d at h1
  cases h1 with
  | dstep _ l r _ a he hl => exact ⟨l, a, r, rfl, hl, he, rfl⟩

/-- The steps of a sequence `atomic`. -/
def atomicSteps (fine : Bool) (l : List PAssign) : List (List PAssign) := if fine then singles l ++ [[]] else [l]

theorem atomicSteps_flatten (fine : Bool) (l : List PAssign) : (atomicSteps fine l).flatten = l := by
  unfold atomicSteps
  split
  · rw [List.flatten_append, singles_flatten]; simp
  · simp

theorem follows_atomic {c : ℕ → PVal × List PCmd} (hc : ∀ i, PStep P fine (c i) (c (i + 1))) (l : List PAssign)
    (k : List PCmd) : ∀ i, (c i).2 = .atomic l :: k → Follows c i (atomicSteps fine l) k := by
  cases fine with
  | false =>
    intro i h
    have h1 := hc i
    rw [pair_eta _ h] at h1
    clear h
    generalize hs : (c i).1 = σ at h1
    generalize hd : c (i + 1) = d at h1
    cases h1 with
    | atomic _ _ _ _ => exact Follows.one (by rw [hd, hs])
    | atomicStep _ _ _ _ h => exact absurd h (by decide)
    | atomicEnd _ _ h => exact absurd h (by decide)
  | true =>
    induction l with
    | nil =>
      intro i h
      have h1 := hc i
      rw [pair_eta _ h] at h1
      generalize hs : (c i).1 = σ at h1
      generalize hd : c (i + 1) = d at h1
      cases h1 with
      | atomic _ _ _ h => cases h
      | atomicEnd _ _ _ => exact Follows.one (by rw [hd, hs]; rfl)
    | cons p l ih =>
      intro i h
      have h1 := hc i
      rw [pair_eta _ h] at h1
      generalize hs : (c i).1 = σ at h1
      generalize hd : c (i + 1) = d at h1
      cases h1 with
      | atomic _ _ _ h => cases h
      | atomicStep _ _ _ _ _ =>
        have h2 : c (i + 1) = ((c i).1.run [p], .atomic l :: k) := by rw [hd, hs]; rfl
        exact (Follows.one h2).append (ih (i + 1) (by rw [h2]))

theorem follows_goto {c : ℕ → PVal × List PCmd} (hc : ∀ i, PStep P fine (c i) (c (i + 1))) {l : Name}
    {k : List PCmd} {i : ℕ} (h : (c i).2 = .goto l :: k) : Follows c i [[]] (P.atLabel l) := by
  have h1 := hc i
  rw [pair_eta _ h] at h1
  generalize hs : (c i).1 = σ at h1
  generalize hd : c (i + 1) = d at h1
  cases h1
  exact Follows.one (by rw [hd, hs]; rfl)

/-! ## Building executions -/

/-- A finite sequence of steps that performs the given groups of assignments. -/
inductive MPath (P : PProgram) (fine : Bool) : PVal × List PCmd → List (List PAssign) → PVal × List PCmd → Prop
  | nil (x) : MPath P fine x [] x
  | cons {x y z m ms} (h : PStep P fine x y) (hm : y.1 = x.1.run m) (hs : MPath P fine y ms z) : MPath P fine x (m :: ms) z

theorem MPath.append {x y z : PVal × List PCmd} {ms ms' : List (List PAssign)} (h : MPath P fine x ms y)
    (h' : MPath P fine y ms' z) : MPath P fine x (ms ++ ms') z := by
  induction h with
  | nil => exact h'
  | cons h1 h2 _ ih => exact .cons h1 h2 (ih h')

theorem mpath_assigns (l : List PAssign) (σ : PVal) (k : List PCmd) :
    MPath P fine (σ, l.map .assign ++ k) (singles l) (σ.run l, k) := by
  induction l generalizing σ with
  | nil => exact .nil _
  | cons p l ih => exact .cons (.assign σ p _) rfl (ih _)

theorem mpath_sel {alts : List PAlt} {a : PAlt} (ha : a ∈ alts) {σ : PVal} (h : a.Enabled σ alts) (k : List PCmd) :
    MPath P fine (σ, .sel alts :: k) ([] :: singles a.body) (σ.run a.body, k) :=
  .cons (.sel σ alts k a ha h) rfl (mpath_assigns _ _ _)

theorem mpath_atomic (l : List PAssign) (σ : PVal) (k : List PCmd) :
    MPath P fine (σ, .atomic l :: k) (atomicSteps fine l) (σ.run l, k) := by
  cases fine with
  | false => exact .cons (.atomic σ l k rfl) rfl (.nil _)
  | true =>
    induction l generalizing σ with
    | nil => exact .cons (.atomicEnd σ k rfl) rfl (.nil _)
    | cons p l ih => exact .cons (.atomicStep σ p l k rfl) rfl (ih _)

/-- The configurations of a path. -/
theorem MPath.steps {x y : PVal × List PCmd} {ms : List (List PAssign)} (h : MPath P fine x ms y) :
    ∃ f : ℕ → PVal × List PCmd, f 0 = x ∧ f ms.length = y ∧ (∀ m, m < ms.length → PStep P fine (f m) (f (m + 1))) ∧
      ∀ p, p <+: ms → (f p.length).1 = x.1.run p.flatten := by
  induction h with
  | nil x =>
    refine ⟨fun _ => x, rfl, rfl, fun m hm => absurd hm (by simp), fun p hp => ?_⟩
    have := List.prefix_nil.1 hp
    subst this; rfl
  | @cons x y z m ms h1 h2 _ ih =>
    obtain ⟨f, f1, f2, f3, f4⟩ := ih
    refine ⟨fun i => match i with | 0 => x | i + 1 => f i, rfl, f2, ?_, ?_⟩
    · intro i hi
      cases i with
      | zero => simp only; rw [f1]; exact h1
      | succ i => exact f3 i (by simpa using hi)
    · intro p hp
      cases p with
      | nil => rfl
      | cons q p =>
        rw [List.cons_prefix_cons] at hp
        obtain ⟨rfl, hp⟩ := hp
        simp only [List.length_cons, List.flatten_cons, run_append]
        rw [f4 p hp, h2]

/-- Positions in a sequence of blocks. -/
def blockPos (len : ℕ → ℕ) : ℕ → ℕ × ℕ
  | 0 => (0, 0)
  | i + 1 => let p := blockPos len i
    if p.2 + 1 < len p.1 then (p.1, p.2 + 1) else (p.1 + 1, 0)

/-- Beginnings of the blocks. -/
def blockStart (len : ℕ → ℕ) : ℕ → ℕ
  | 0 => 0
  | r + 1 => blockStart len r + len r

theorem blockPos_start {len : ℕ → ℕ} (hl : ∀ r, 0 < len r) (r : ℕ) :
    ∀ m, m < len r → blockPos len (blockStart len r + m) = (r, m) := by
  induction r with
  | zero =>
    intro m
    induction m with
    | zero => intro _; rfl
    | succ m ih =>
      intro hm
      have := ih (by omega)
      simp only [blockStart, Nat.zero_add] at this ⊢
      rw [blockPos, this]
      simp only
      rw [if_pos hm]
  | succ r ihr =>
    intro m
    induction m with
    | zero =>
      intro _
      have h := ihr (len r - 1) (by have := hl r; omega)
      have e : blockStart len (r + 1) + 0 = (blockStart len r + (len r - 1)) + 1 := by
        simp only [blockStart]; have := hl r; omega
      rw [e, blockPos, h]
      simp only
      rw [if_neg (by have := hl r; omega)]
    | succ m ih =>
      intro hm
      have := ih (by omega)
      rw [← Nat.add_assoc, blockPos, this]
      simp only
      rw [if_pos hm]

theorem blockPos_lt {len : ℕ → ℕ} (hl : ∀ r, 0 < len r) (i : ℕ) : (blockPos len i).2 < len (blockPos len i).1 := by
  induction i with
  | zero => exact hl 0
  | succ i ih =>
    have e : blockPos len (i + 1) = if (blockPos len i).2 + 1 < len (blockPos len i).1 then
        ((blockPos len i).1, (blockPos len i).2 + 1) else ((blockPos len i).1 + 1, 0) := rfl
    rw [e]
    split_ifs with h
    · exact h
    · exact hl _

/-- Blocks of steps are put together to an infinite sequence. -/
theorem glue {C : Type} {R : C → C → Prop} {f : ℕ → ℕ → C} {len : ℕ → ℕ} (hl : ∀ r, 0 < len r)
    (hs : ∀ r m, m < len r → R (f r m) (f r (m + 1))) (he : ∀ r, f r (len r) = f (r + 1) 0) :
    ∃ c : ℕ → C, (∀ i, R (c i) (c (i + 1))) ∧ ∀ r m, m ≤ len r → c (blockStart len r + m) = f r m := by
  refine ⟨fun i => f (blockPos len i).1 (blockPos len i).2, ?_, ?_⟩
  · intro i
    have h1 := blockPos_lt hl i
    have h2 := hs _ _ h1
    have e : blockPos len (i + 1) = if (blockPos len i).2 + 1 < len (blockPos len i).1 then
        ((blockPos len i).1, (blockPos len i).2 + 1) else ((blockPos len i).1 + 1, 0) := rfl
    simp only [e]
    split_ifs with h
    · exact h2
    · have h3 : (blockPos len i).2 + 1 = len (blockPos len i).1 := by omega
      rw [h3, he] at h2
      exact h2
  · intro r m hm
    rcases Nat.lt_or_ge m (len r) with h | h
    · simp only [blockPos_start hl r m h]
    · have : m = len r := by omega
      subst this
      have := blockPos_start hl (r + 1) 0 (hl _)
      rw [Nat.add_zero, blockStart] at this
      simp only [this, he]

theorem blockStart_cover {len : ℕ → ℕ} (hl : ∀ r, 0 < len r) (i : ℕ) :
    ∃ r m, i = blockStart len r + m ∧ m < len r := by
  induction i with
  | zero => exact ⟨0, 0, rfl, hl 0⟩
  | succ i ih =>
    obtain ⟨r, m, h1, h2⟩ := ih
    rcases Nat.lt_or_ge (m + 1) (len r) with h | h
    · exact ⟨r, m + 1, by omega, h⟩
    · exact ⟨r + 1, 0, by simp only [blockStart]; omega, hl _⟩

theorem le_blockStart {len : ℕ → ℕ} (hl : ∀ r, 0 < len r) (r : ℕ) : r ≤ blockStart len r := by
  induction r with
  | zero => omega
  | succ r ih => have := hl r; simp only [blockStart]; omega

theorem blockStart_mono {len : ℕ → ℕ} : Monotone (blockStart len) := by
  refine monotone_nat_of_le_succ fun r => ?_
  simp only [blockStart]; omega

end exec

/-! ## Truth of formulas on sequences of rounds -/

/-- The values along an execution: all 0, then rounds, the `r`-th of which starts with values `B r` and performs the
groups of assignments `M r`. -/
structure RoundsOf (w : ℕ → PVal) (B : ℕ → PVal) (M : ℕ → List (List PAssign)) : Prop where
  zero : w 0 = fun _ => 0
  nonempty : ∀ r, 0 < (M r).length
  next : ∀ r, B (r + 1) = (B r).run (M r).flatten
  vals : ∀ r p, p <+: M r → w (1 + blockStart (fun r => (M r).length) r + p.length) = (B r).run p.flatten

namespace RoundsOf

variable {w B : ℕ → PVal} {M : ℕ → List (List PAssign)} (h : RoundsOf w B M)

include h

theorem first : w 1 = B 0 := by
  exact h.vals 0 [] List.nil_prefix

/-- Every later position is within a round. -/
theorem cover (i : ℕ) (hi : 1 ≤ i) : ∃ r p, p <+: M r ∧ w i = (B r).run p.flatten ∧
    i = 1 + blockStart (fun r => (M r).length) r + p.length := by
  obtain ⟨r, m, h1, h2⟩ := blockStart_cover (len := fun r => (M r).length) h.nonempty (i - 1)
  have hl : ((M r).take m).length = m := by rw [List.length_take]; exact min_eq_left (le_of_lt h2)
  have hi' : i = 1 + blockStart (fun r => (M r).length) r + ((M r).take m).length := by rw [hl]; omega
  refine ⟨r, (M r).take m, List.take_prefix _ _, ?_, hi'⟩
  rw [hi']
  exact h.vals r _ (List.take_prefix _ _)

/-- "Always". -/
theorem always (Q : PVal → Prop) : (∀ i, Q (w i)) ↔ Q (fun _ => 0) ∧ ∀ r p, p <+: M r → Q ((B r).run p.flatten) := by
  constructor
  · intro hq
    exact ⟨h.zero ▸ hq 0, fun r p hp => h.vals r p hp ▸ hq _⟩
  · rintro ⟨h0, hq⟩ i
    rcases Nat.eq_zero_or_pos i with rfl | hi
    · rw [h.zero]; exact h0
    · obtain ⟨r, p, h1, h2, -⟩ := h.cover i hi
      rw [h2]; exact hq r p h1

/-- "Again and again". -/
theorem infinitely (Q : PVal → Prop) :
    (∀ i, ∃ j, i ≤ j ∧ Q (w j)) ↔ ∀ R, ∃ r, R ≤ r ∧ ∃ p, p <+: M r ∧ Q ((B r).run p.flatten) := by
  constructor
  · intro hq R
    obtain ⟨j, h1, h2⟩ := hq (1 + blockStart (fun r => (M r).length) R)
    obtain ⟨r, p, k1, k2, k3⟩ := h.cover j (by omega)
    rcases Nat.lt_or_ge r R with hr | hr
    · have m := blockStart_mono (len := fun r => (M r).length) (show r + 1 ≤ R from hr)
      have e : blockStart (fun r => (M r).length) (r + 1) = blockStart (fun r => (M r).length) r + (M r).length := rfl
      have hp := k1.length_le
      have : p.length = (M r).length := by omega
      have hpe : p = M r := k1.eq_of_length this
      have hR : r + 1 = R ∨ r + 1 < R := by omega
      -- the last position of a round is the first of the next
      rcases hR with rfl | hR
      · exact ⟨r + 1, le_rfl, [], List.nil_prefix, by
          rw [k2, hpe, ← h.next] at h2
          exact h2⟩
      · exfalso
        have m2 := blockStart_mono (len := fun r => (M r).length) (show r + 1 + 1 ≤ R from hR)
        have e2 : blockStart (fun r => (M r).length) (r + 1 + 1) =
          blockStart (fun r => (M r).length) (r + 1) + (M (r + 1)).length := rfl
        have := h.nonempty (r + 1)
        omega
    · exact ⟨r, hr, p, k1, k2 ▸ h2⟩
  · intro hq i
    obtain ⟨r, h1, p, h2, h3⟩ := hq i
    refine ⟨_, ?_, (h.vals r p h2).symm ▸ h3⟩
    have := le_blockStart (len := fun r => (M r).length) h.nonempty r
    omega

end RoundsOf

end Gr1c
