import Verif.Bits

/-!
# C14: integer / bit-vector conversion
-/

namespace Gr1c

/-- Specification: the value of a 0-1 vector, least significant bit first. -/
def bitsVal : List ℤ → ℤ
  | [] => 0
  | b :: bs => b + 2 * bitsVal bs

/-- Entries are 0 or 1. -/
def Is01 (v : List ℤ) : Prop := ∀ b ∈ v, b = 0 ∨ b = 1

theorem bitvecLoop_eq (v : List ℤ) : ∀ (i : ℕ) (r : ℤ), Is01 v → i + v.length ≤ 31 →
    bitvecLoop i v r = .ok (r + 2 ^ i * bitsVal v) := by
  induction v with
  | nil => intro i r _ _; simp [bitvecLoop, bitsVal]
  | cons b bs ih =>
    intro i r h01 hl
    simp only [List.length_cons] at hl
    have hbs : Is01 bs := fun x hx => h01 x (List.mem_cons_of_mem _ hx)
    unfold bitvecLoop
    rcases h01 b List.mem_cons_self with rfl | rfl
    · rw [if_neg (by simp), ih _ _ hbs (by omega)]
      congr 1; simp only [bitsVal]; ring
    · rw [if_pos (by simp), if_neg (by omega), ih _ _ hbs (by omega)]
      congr 1; simp only [bitsVal]; ring

/-- `bitvec_to_int` computes the value of a 0-1 vector of up to 31 bits. -/
theorem bitvec_value (v : List ℤ) (h : Is01 v) (hl : v.length ≤ 31) :
    bitvecToInt v = .ok (bitsVal v) := by
  unfold bitvecToInt
  rw [bitvecLoop_eq v 0 0 h (by omega)]; simp

theorem bitsVal_range (v : List ℤ) (h : Is01 v) : 0 ≤ bitsVal v ∧ bitsVal v < 2 ^ v.length := by
  induction v with
  | nil => simp [bitsVal]
  | cons b bs ih =>
    have hbs := ih fun x hx => h x (List.mem_cons_of_mem _ hx)
    simp only [bitsVal, List.length_cons, pow_succ]
    rcases h b List.mem_cons_self with rfl | rfl <;> omega

theorem bitsVal_bits (n : ℕ) : ∀ (x : ℤ),
    bitsVal ((List.range n).map fun i => if intBit x i then (1 : ℤ) else 0) = x % 2 ^ n := by
  induction n with
  | zero => intro x; simp [bitsVal]
  | succ n ih =>
    intro x
    rw [List.range_succ_eq_map]
    simp only [List.map_cons, List.map_map, bitsVal]
    have h1 : (fun i => if intBit x i then (1 : ℤ) else 0) ∘ Nat.succ
        = fun i => if intBit (x / 2) i then (1 : ℤ) else 0 := by
      funext i
      have : intBit x (i + 1) = intBit (x / 2) i := by
        unfold intBit
        rw [show (2 : ℤ) ^ (i + 1) = 2 * 2 ^ i from by ring, ← Int.ediv_ediv_of_nonneg (by omega)]
      simp only [Function.comp, Nat.succ_eq_add_one, this]
    rw [h1, ih (x / 2)]
    have h2 : (if intBit x 0 then (1 : ℤ) else 0) = x % 2 := by
      simp only [intBit, pow_zero, Int.ediv_one]
      rcases Int.emod_two_eq_zero_or_one x with h | h <;> simp [h]
    rw [h2]
    have h3 : (0 : ℤ) < 2 ^ n := by positivity
    have h4 : x = 2 * (x / 2) + x % 2 := by omega
    have h5 : x / 2 = 2 ^ n * (x / 2 / 2 ^ n) + x / 2 % 2 ^ n := (Int.mul_ediv_add_emod _ _).symm
    have h6 : 0 ≤ x / 2 % 2 ^ n ∧ x / 2 % 2 ^ n < 2 ^ n :=
      ⟨Int.emod_nonneg _ (by omega), Int.emod_lt_of_pos _ h3⟩
    have h7 : x = (x % 2 + 2 * (x / 2 % 2 ^ n)) + 2 ^ (n + 1) * (x / 2 / 2 ^ n) := by
      rw [pow_succ]; linarith
    conv_rhs => rw [h7]
    rw [Int.add_mul_emod_self_left]
    symm
    apply Int.emod_eq_of_lt
    · omega
    · rw [pow_succ]; omega

theorem bits_is01 (x : ℤ) (n : ℕ) :
    Is01 ((List.range n).map fun i => if intBit x i then (1 : ℤ) else 0) := by
  intro b hb
  rw [List.mem_map] at hb
  obtain ⟨i, _, rfl⟩ := hb
  by_cases h : intBit x i <;> simp [h]

/-- C14. Reading back the `n` bits of any `int` (negative ones included) gives it modulo `2^n`. -/
theorem int_bitvec_mod (x : ℤ) (n : ℕ) (hn : 1 ≤ n) (hn' : n ≤ 31) :
    ∃ v, intToBitvec x n = .ok v ∧ v.length = n ∧ Is01 v ∧ bitvecToInt v = .ok (x % 2 ^ n) := by
  refine ⟨_, ?_, ?_, bits_is01 x n, ?_⟩
  · unfold intToBitvec
    rw [if_neg (by omega), if_neg (by omega)]
    rfl
  · simp
  · rw [bitvec_value _ (bits_is01 x n) (by simpa using hn'), bitsVal_bits]

/-- C14. Values below `2^n` survive. -/
theorem int_bitvec_roundtrip (x : ℤ) (n : ℕ) (hn : 1 ≤ n) (hn' : n ≤ 31) (h0 : 0 ≤ x)
    (h1 : x < 2 ^ n) :
    ∃ v, intToBitvec x n = .ok v ∧ v.length = n ∧ Is01 v ∧ bitvecToInt v = .ok x := by
  obtain ⟨v, h2, h3, h4, h5⟩ := int_bitvec_mod x n hn hn'
  exact ⟨v, h2, h3, h4, by rw [h5, Int.emod_eq_of_lt h0 h1]⟩

theorem bitsVal_inj : ∀ (v w : List ℤ), v.length = w.length → Is01 v → Is01 w →
    bitsVal v = bitsVal w → v = w := by
  intro v
  induction v with
  | nil => intro w hl _ _ _; exact (List.length_eq_zero_iff.1 hl.symm).symm
  | cons a v ih =>
    intro w hl hv hw he
    cases w with
    | nil => simp at hl
    | cons b w =>
      simp only [bitsVal] at he
      have ha := hv a List.mem_cons_self
      have hb := hw b List.mem_cons_self
      have : a = b ∧ bitsVal v = bitsVal w := by omega
      rw [this.1, ih w (by simpa using hl) (fun x hx => hv x (List.mem_cons_of_mem _ hx))
        (fun x hx => hw x (List.mem_cons_of_mem _ hx)) this.2]

/-- C14. 0-1 vectors survive, and their value fits the width. -/
theorem bitvec_int_roundtrip (v : List ℤ) (h : Is01 v) (h1 : v ≠ []) (hl : v.length ≤ 31) :
    ∃ x, bitvecToInt v = .ok x ∧ 0 ≤ x ∧ x < 2 ^ v.length ∧ intToBitvec x v.length = .ok v := by
  have hr := bitsVal_range v h
  refine ⟨bitsVal v, bitvec_value v h hl, hr.1, hr.2, ?_⟩
  have hpos : 1 ≤ v.length := Nat.one_le_iff_ne_zero.2 fun h0 => h1 (List.length_eq_zero_iff.1 h0)
  obtain ⟨w, hw1, hw2, hw3, hw4⟩ := int_bitvec_mod (bitsVal v) v.length hpos hl
  rw [hw1]
  congr 1
  apply bitsVal_inj _ _ hw2 hw3 h
  rw [bitvec_value w hw3 (by omega)] at hw4
  rw [Int.emod_eq_of_lt hr.1 hr.2] at hw4
  simpa using hw4

/-- C14. Every value of the domain `[0, maxval]` fits the bits allocated for it, and (for a nonzero
maximum) one bit less would not be enough. -/
theorem domain_fits (maxval : ℕ) :
    (∀ x, x ≤ maxval → x < 2 ^ numBits maxval) ∧
    (0 < maxval → 2 ^ (numBits maxval - 1) ≤ maxval) ∧ 1 ≤ numBits maxval := by
  unfold numBits
  by_cases h : 0 < maxval
  · rw [if_pos h]
    refine ⟨fun x hx => ?_, fun _ => ?_, ?_⟩
    · have := Nat.le_pow_clog (b := 2) (by omega) (maxval + 1)
      omega
    · have := Nat.pow_pred_clog_lt_self (b := 2) (by omega) (x := maxval + 1) (by omega)
      simp only [Nat.pred_eq_sub_one] at this
      omega
    · exact Nat.clog_pos (by omega) (by omega)
  · rw [if_neg h]
    exact ⟨fun x hx => by omega, fun h' => absurd h' h, le_rfl⟩

example : intToBitvec 11 5 = .ok [1, 1, 0, 1, 0] := by decide +kernel
example : bitvecToInt [1, 1, 0, 1, 0] = .ok 11 := by decide +kernel
example : intToBitvec 37 5 = .ok [1, 0, 1, 0, 0] := by decide +kernel
example : intToBitvec (-1) 3 = .ok [1, 1, 1] := by decide +kernel
example : intToBitvec 3 0 = .null := by decide +kernel
example : numBits 0 = 1 ∧ numBits 1 = 1 ∧ numBits 7 = 3 ∧ numBits 8 = 4 := by decide +kernel

end Gr1c
