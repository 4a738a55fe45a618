import Verif.MainLemmas
import Mathlib.Data.Fin.Tuple.Basic

/-!
# The cubes CUDD delivers for the initial variable order

The theorems of this project hold for every division of a set into cubes (`IsCover`) and every valid
oracle. To compare the model with the outputs that are stored in `/repo/tests/expected_outputs`, one
particular choice is needed: `Cudd_ForeachCube` walks over the paths of the BDD that lead to 1, the
else branch of a node before its then branch, and the variable order is the initial one as long as
the BDDs are small. The functions below do the same. It is proved that this choice is a cover and
gives a valid oracle; that CUDD makes this choice is only assumed in the comparisons of
`Verif.RepoTests`, never in a theorem about gr1c.
-/

namespace Gr1c

/-- The paths to 1 in the reduced ordered BDD of `f`; a variable that does not occur on the path has the entry 2. -/
def pathCover : (n : ℕ) → Bdd n → List (CubeArr n)
  | 0, f => if f Fin.elim0 then [Fin.elim0] else []
  | n + 1, f =>
    if ∀ a : Asg n, f (Fin.cons false a : Asg (n + 1)) = f (Fin.cons true a : Asg (n + 1)) then
      (pathCover n fun a => f (Fin.cons false a : Asg (n + 1))).map fun c => (Fin.cons 2 c : CubeArr (n + 1))
    else
      (pathCover n fun a => f (Fin.cons false a : Asg (n + 1))).map (fun c => (Fin.cons 0 c : CubeArr (n + 1))) ++
        (pathCover n fun a => f (Fin.cons true a : Asg (n + 1))).map fun c => (Fin.cons 1 c : CubeArr (n + 1))

theorem matches_cons {n : ℕ} (k : ℕ) (c : CubeArr n) (a : Asg (n + 1)) :
    CubeMatches (Fin.cons k c : CubeArr (n + 1)) a ↔ (k = 2 ∨ k = (a 0).toNat) ∧ CubeMatches c (Fin.tail a) := by
  unfold CubeMatches
  rw [Fin.forall_fin_succ]
  simp [Fin.tail]

theorem indep_tail {n : ℕ} {f : Bdd (n + 1)} {i : Fin n} (h : Indep f i.succ) (b : Bool) :
    Indep (fun a : Asg n => f (Fin.cons b a : Asg (n + 1))) i := by
  intro x y hxy
  apply h
  intro j hj
  revert hj
  refine Fin.cases (fun _ => by simp) (fun k hk => ?_) j
  simpa using hxy k fun e => hk (by rw [e])

/-- The paths are a cover. -/
theorem pathCover_isCover : ∀ (n : ℕ) (f : Bdd n), IsCover f (pathCover n f) := by
  intro n
  induction n with
  | zero =>
    intro f
    have ha : ∀ a : Asg 0, a = Fin.elim0 := fun a => funext fun i => i.elim0
    unfold pathCover
    split
    · rename_i h
      refine ⟨fun c _ i => i.elim0, fun a => ?_, by simp, fun i => i.elim0⟩
      rw [ha a]
      simp only [h, List.mem_singleton, exists_eq_left, true_iff]
      exact fun i => i.elim0
    · rename_i h
      refine ⟨fun c _ i => i.elim0, fun a => ?_, by simp, fun i => i.elim0⟩
      rw [ha a]
      simp [h]
  | succ n ih =>
    intro f
    have i0 := ih fun a => f (Fin.cons false a : Asg (n + 1))
    have i1 := ih fun a => f (Fin.cons true a : Asg (n + 1))
    unfold pathCover
    split
    · rename_i h
      refine ⟨?_, ?_, ?_, ?_⟩
      · intro c hc i
        obtain ⟨d, hd, rfl⟩ := List.mem_map.1 hc
        refine Fin.cases (by simp) (fun j => ?_) i
        simpa using i0.le2 d hd j
      · intro a
        have : f a = f (Fin.cons false (Fin.tail a) : Asg (n + 1)) := by
          conv_lhs => rw [← Fin.cons_self_tail a]
          cases a 0
          · rfl
          · exact (h _).symm
        rw [this, i0.cover (Fin.tail a)]
        constructor
        · rintro ⟨c, hc, hm⟩
          exact ⟨_, List.mem_map.2 ⟨c, hc, rfl⟩, (matches_cons _ _ _).2 ⟨.inl rfl, hm⟩⟩
        · rintro ⟨c, hc, hm⟩
          obtain ⟨d, hd, rfl⟩ := List.mem_map.1 hc
          exact ⟨d, hd, ((matches_cons _ _ _).1 hm).2⟩
      · rw [List.pairwise_map]
        refine i0.disjoint.imp fun hcd a hm => hcd (Fin.tail a) ⟨((matches_cons _ _ _).1 hm.1).2, ((matches_cons _ _ _).1 hm.2).2⟩
      · intro i hi c hc
        obtain ⟨d, hd, rfl⟩ := List.mem_map.1 hc
        revert hi
        refine Fin.cases (fun _ => by simp) (fun j hi => ?_) i
        simpa using i0.support j (indep_tail hi false) d hd
    · rename_i h
      refine ⟨?_, ?_, ?_, ?_⟩
      · intro c hc i
        rcases List.mem_append.1 hc with hc | hc
        · obtain ⟨d, hd, rfl⟩ := List.mem_map.1 hc
          refine Fin.cases (by simp) (fun j => ?_) i
          simpa using i0.le2 d hd j
        · obtain ⟨d, hd, rfl⟩ := List.mem_map.1 hc
          refine Fin.cases (by simp) (fun j => ?_) i
          simpa using i1.le2 d hd j
      · intro a
        have ha : f a = f (Fin.cons (a 0) (Fin.tail a) : Asg (n + 1)) := by rw [Fin.cons_self_tail]
        rw [ha]
        constructor
        · intro hf
          cases hb : a 0 with
          | false =>
            rw [hb] at hf
            obtain ⟨c, hc, hm⟩ := (i0.cover (Fin.tail a)).1 hf
            exact ⟨_, List.mem_append_left _ (List.mem_map.2 ⟨c, hc, rfl⟩), (matches_cons _ _ _).2 ⟨.inr (by rw [hb]; rfl), hm⟩⟩
          | true =>
            rw [hb] at hf
            obtain ⟨c, hc, hm⟩ := (i1.cover (Fin.tail a)).1 hf
            exact ⟨_, List.mem_append_right _ (List.mem_map.2 ⟨c, hc, rfl⟩), (matches_cons _ _ _).2 ⟨.inr (by rw [hb]; rfl), hm⟩⟩
        · rintro ⟨c, hc, hm⟩
          rcases List.mem_append.1 hc with hc | hc
          · obtain ⟨d, hd, rfl⟩ := List.mem_map.1 hc
            obtain ⟨h1, h2⟩ := (matches_cons _ _ _).1 hm
            have hb : a 0 = false := by revert h1; cases a 0 <;> simp
            rw [hb]
            exact (i0.cover (Fin.tail a)).2 ⟨d, hd, h2⟩
          · obtain ⟨d, hd, rfl⟩ := List.mem_map.1 hc
            obtain ⟨h1, h2⟩ := (matches_cons _ _ _).1 hm
            have hb : a 0 = true := by revert h1; cases a 0 <;> simp
            rw [hb]
            exact (i1.cover (Fin.tail a)).2 ⟨d, hd, h2⟩
      · rw [List.pairwise_append]
        refine ⟨?_, ?_, ?_⟩
        · rw [List.pairwise_map]
          exact i0.disjoint.imp fun hcd a hm => hcd (Fin.tail a) ⟨((matches_cons _ _ _).1 hm.1).2, ((matches_cons _ _ _).1 hm.2).2⟩
        · rw [List.pairwise_map]
          exact i1.disjoint.imp fun hcd a hm => hcd (Fin.tail a) ⟨((matches_cons _ _ _).1 hm.1).2, ((matches_cons _ _ _).1 hm.2).2⟩
        · intro c hc d hd a hm
          obtain ⟨c', -, rfl⟩ := List.mem_map.1 hc
          obtain ⟨d', -, rfl⟩ := List.mem_map.1 hd
          have h1 := ((matches_cons _ _ _).1 hm.1).1
          have h2 := ((matches_cons _ _ _).1 hm.2).1
          revert h1 h2
          cases a 0 <;> simp
      · intro i hi c hc
        revert hi
        refine Fin.cases (fun hi => ?_) (fun j hi => ?_) i
        · exfalso
          apply h
          intro a
          apply hi
          intro k hk
          revert hk
          refine Fin.cases (fun hk => absurd rfl hk) (fun k _ => by simp) k
        · rcases List.mem_append.1 hc with hc | hc
          · obtain ⟨d, hd, rfl⟩ := List.mem_map.1 hc
            simpa using i0.support j (indep_tail hi false) d hd
          · obtain ⟨d, hd, rfl⟩ := List.mem_map.1 hc
            simpa using i1.support j (indep_tail hi true) d hd

/-- The assignments visited by `Cudd_ForeachCube` with the enumeration loop in its body. -/
def pathPoints (n : ℕ) (f : Bdd n) : List (Asg n) := ((enumCover 0 n (pathCover n f)).getD []).map (valOf n)

theorem valOf_bits {n : ℕ} (a : Asg n) : valOf n (bitsAt a 0 n) = a := by
  have : bitsAt a 0 n = vec a := by
    unfold bitsAt sliceArr vec
    congr 1
    funext i
    simp
  rw [this, valOf_vec]

/-- They are the satisfying assignments, each once. -/
theorem pathPoints_exact (n : ℕ) (f : Bdd n) : (pathPoints n f).Nodup ∧ ∀ a, a ∈ pathPoints n f ↔ f a = true := by
  obtain ⟨l, h1, h2, h3⟩ := enumCover_exact (pathCover_isCover n f) (off := 0) (len := n) (by omega)
    (fun i hi => absurd ⟨Nat.zero_le _, by simp⟩ hi)
  unfold pathPoints
  rw [h1]
  constructor
  · apply List.Nodup.map_on _ h2
    intro x hx y hy hxy
    obtain ⟨a, -, rfl⟩ := (h3 x).1 hx
    obtain ⟨b, -, rfl⟩ := (h3 y).1 hy
    rw [valOf_bits, valOf_bits] at hxy
    rw [hxy]
  · intro a
    simp only [Option.getD_some, List.mem_map, h3]
    constructor
    · rintro ⟨v, ⟨b, hb, rfl⟩, rfl⟩
      rw [valOf_bits]
      exact hb
    · intro h
      exact ⟨_, ⟨a, h, rfl⟩, valOf_bits a⟩

/-- A set of states as a function of the unprimed variables. -/
def pathSet {ne ns : ℕ} (A : Finset (BState ne ns)) : Bdd (ne + ns) := fun a =>
  decide (((fun i => a (Fin.castAdd ns i), fun i => a (Fin.natAdd ne i)) : BState ne ns) ∈ A)

/-- An assignment as a state. -/
def pathState {ne ns : ℕ} (a : Asg (ne + ns)) : BState ne ns := (fun i => a (Fin.castAdd ns i), fun i => a (Fin.natAdd ne i))

/-- The choices of `synthesize` with these cubes; `malloc` delivers increasing numbers. -/
def pathOracle (ne ns : ℕ) (G : Game (Val ne) (Val ns)) : Oracle (Val ne) (Val ns) where
  alloc := fun _ ids => ids.foldr max 0 + 1
  pick := fun _ A => ((pathPoints (ne + ns) (pathSet A)).map pathState).headD (fun _ => false, fun _ => false)
  moves := fun _ s => if ne = 0 then [fun _ => false] else pathPoints ne (G.etr s)
  enum := fun A => (pathPoints (ne + ns) (pathSet A)).map pathState
  enumEnv := fun A => pathPoints ne fun e => decide (∃ x, (e, x) ∈ A)

theorem pathState_inj {ne ns : ℕ} {a b : Asg (ne + ns)} (h : (pathState a : BState ne ns) = pathState b) : a = b := by
  funext i
  refine Fin.addCases (fun j => ?_) (fun j => ?_) i
  · exact congrFun (congrArg Prod.fst h) j
  · exact congrFun (congrArg Prod.snd h) j

theorem pathState_surj {ne ns : ℕ} (s : BState ne ns) : ∃ a : Asg (ne + ns), pathState a = s := by
  refine ⟨Fin.append s.1 s.2, ?_⟩
  unfold pathState
  simp

theorem path_enum {ne ns : ℕ} (A : Finset (BState ne ns)) : ((pathPoints (ne + ns) (pathSet A)).map pathState).Nodup ∧
    ∀ s, s ∈ (pathPoints (ne + ns) (pathSet A)).map pathState ↔ s ∈ A := by
  obtain ⟨h1, h2⟩ := pathPoints_exact (ne + ns) (pathSet A)
  constructor
  · exact List.Nodup.map_on (fun x _ y _ h => pathState_inj h) h1
  · intro s
    obtain ⟨a, rfl⟩ := pathState_surj s
    rw [List.mem_map]
    constructor
    · rintro ⟨b, hb, e⟩
      rw [pathState_inj e, h2] at hb
      simpa [pathSet, pathState] using hb
    · intro h
      exact ⟨a, (h2 a).2 (by simpa [pathSet, pathState] using h), rfl⟩

/-- The choices are valid. Without environment variables the environment formula must hold everywhere, since gr1c then
ignores it. -/
theorem pathOracle_valid (ne ns : ℕ) (G : Game (Val ne) (Val ns)) (h0 : 0 < ne ∨ ∀ s e, G.etr s e = true) :
    (pathOracle ne ns G).Valid G where
  alloc := by
    intro c ids h
    have : ∀ l : List ℕ, ∀ i ∈ l, i ≤ l.foldr max 0 := by
      intro l
      induction l with
      | nil => simp
      | cons a l ih =>
        intro i hi
        rcases List.mem_cons.1 hi with rfl | hi
        · simp
        · have := ih i hi
          simp only [List.foldr_cons]
          omega
    have := this ids _ h
    simp only [pathOracle] at this
    omega
  pick := by
    rintro c A ⟨s, hs⟩
    obtain ⟨-, h2⟩ := path_enum A
    have hm := (h2 s).2 hs
    show ((pathPoints (ne + ns) (pathSet A)).map pathState).headD _ ∈ A
    cases hl : (pathPoints (ne + ns) (pathSet A)).map pathState with
    | nil => rw [hl] at hm; simp at hm
    | cons t r => exact (h2 t).1 (by rw [hl]; exact List.mem_cons_self)
  moves_nodup := by
    intro c s
    simp only [pathOracle]
    split
    · exact List.nodup_singleton _
    · exact (pathPoints_exact ne (G.etr s)).1
  moves_mem := by
    intro c s e
    simp only [pathOracle]
    split
    · rename_i hn
      rw [List.mem_singleton]
      constructor
      · intro _
        rcases h0 with h | h
        · omega
        · exact h s e
      · intro _
        subst hn
        funext i
        exact i.elim0
    · exact (pathPoints_exact ne (G.etr s)).2 e
  enum_nodup := fun A => (path_enum A).1
  enum_mem := fun A s => (path_enum A).2 s
  enumEnv_nodup := fun A => (pathPoints_exact ne _).1
  enumEnv_mem := by
    intro A e
    exact ((pathPoints_exact ne fun e => decide (∃ x, (e, x) ∈ A)).2 e).trans (by simp)

end Gr1c
