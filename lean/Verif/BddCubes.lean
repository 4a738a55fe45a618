import Verif.BddProps
import Verif.AutIOProps

/-!
# C50 and C25: the remaining cubes, and versions that `aut_aut_dumpver` does not know
-/

namespace Gr1c

variable {ne ns : ℕ}

theorem cubeEnv_free (cube : CubeArr (2 * (ne + ns))) (i : Fin (2 * (ne + ns))) : cubeEnv ne ns cube i ≠ 1 ↔ ne ≤ i.val := by
  have := i.isLt
  unfold cubeEnv fillRange
  by_cases h : i.val < ne
  · rw [if_pos (by omega)]; simp; omega
  · rw [if_neg (by omega), if_pos (by omega)]; simp; omega

theorem cubeSys_free (cube : CubeArr (2 * (ne + ns))) (i : Fin (2 * (ne + ns))) :
    cubeSys ne ns cube i ≠ 1 ↔ i.val < ne ∨ ne + ns ≤ i.val := by
  have := i.isLt
  unfold cubeSys fillRange
  by_cases h : ne ≤ i.val ∧ i.val < ne + ns
  · rw [if_pos h]; simp; omega
  · rw [if_neg h, if_pos (by omega)]; simp; omega

/-- **C50, `cube_env`.** Quantification with this cube is quantification over the values of the environment variables, whatever the array
held before. -/
theorem cube_env_quantifies (cube : CubeArr (2 * (ne + ns))) (f : Bdd (2 * (ne + ns))) (e : Val ne) (x : Val ns) (t : BState ne ns) :
    (cuddExist (cubeEnv ne ns cube) f (joinAsg (e, x) t) = true ↔ ∃ e', f (joinAsg (e', x) t) = true) ∧
    (cuddUniv (cubeEnv ne ns cube) f (joinAsg (e, x) t) = true ↔ ∀ e', f (joinAsg (e', x) t) = true) := by
  have key : ∀ b : Asg (2 * (ne + ns)), (∀ i, cubeEnv ne ns cube i ≠ 1 → b i = joinAsg (e, x) t i) ↔ ∃ e', b = joinAsg (e', x) t := by
    intro b
    constructor
    · intro h
      have h' : ∀ i : Fin (2 * (ne + ns)), ne ≤ i.val → b i = joinAsg (e, x) t i := fun i hi => h i ((cubeEnv_free cube i).2 hi)
      refine ⟨fun i => b ⟨i.val, by omega⟩, ?_⟩
      funext i
      by_cases hi : i.val < ne
      · unfold joinAsg; rw [dif_pos hi]
      · rw [h' i (by omega)]
        unfold joinAsg
        rw [dif_neg hi, dif_neg hi]
    · rintro ⟨e', rfl⟩ i hi
      rw [cubeEnv_free] at hi
      have hi' : ¬ i.val < ne := by omega
      unfold joinAsg
      rw [dif_neg hi', dif_neg hi']
  simp only [cuddExist, cuddUniv, decide_eq_true_eq]
  constructor
  · constructor
    · rintro ⟨b, h1, h2⟩
      obtain ⟨e', rfl⟩ := (key b).1 h1
      exact ⟨e', h2⟩
    · rintro ⟨e', h⟩
      exact ⟨_, (key _).2 ⟨e', rfl⟩, h⟩
  · constructor
    · intro h e'
      exact h _ ((key _).2 ⟨e', rfl⟩)
    · intro h b hb
      obtain ⟨e', rfl⟩ := (key b).1 hb
      exact h e'

/-- **C50, `cube_sys`.** The same for the system variables. -/
theorem cube_sys_quantifies (cube : CubeArr (2 * (ne + ns))) (f : Bdd (2 * (ne + ns))) (e : Val ne) (x : Val ns) (t : BState ne ns) :
    (cuddExist (cubeSys ne ns cube) f (joinAsg (e, x) t) = true ↔ ∃ y, f (joinAsg (e, y) t) = true) ∧
    (cuddUniv (cubeSys ne ns cube) f (joinAsg (e, x) t) = true ↔ ∀ y, f (joinAsg (e, y) t) = true) := by
  have key : ∀ b : Asg (2 * (ne + ns)), (∀ i, cubeSys ne ns cube i ≠ 1 → b i = joinAsg (e, x) t i) ↔ ∃ y, b = joinAsg (e, y) t := by
    intro b
    constructor
    · intro h
      have h' : ∀ i : Fin (2 * (ne + ns)), i.val < ne ∨ ne + ns ≤ i.val → b i = joinAsg (e, x) t i :=
        fun i hi => h i ((cubeSys_free cube i).2 hi)
      refine ⟨fun i => b ⟨ne + i.val, by omega⟩, ?_⟩
      funext i
      by_cases hi : i.val < ne
      · rw [h' i (.inl hi)]; unfold joinAsg; rw [dif_pos hi, dif_pos hi]
      · by_cases hj : i.val < ne + ns
        · unfold joinAsg
          rw [dif_neg hi, dif_pos hj]
          congr 1
          exact Fin.ext (by dsimp only; omega)
        · rw [h' i (.inr (by omega))]
          unfold joinAsg
          rw [dif_neg hi, dif_neg hi, dif_neg hj, dif_neg hj]
    · rintro ⟨e', rfl⟩ i hi
      rw [cubeSys_free] at hi
      unfold joinAsg
      rcases hi with hi | hi
      · rw [dif_pos hi, dif_pos hi]
      · have h1 : ¬ i.val < ne := by omega
        have h2 : ¬ i.val < ne + ns := by omega
        rw [dif_neg h1, dif_neg h1, dif_neg h2, dif_neg h2]
  simp only [cuddExist, cuddUniv, decide_eq_true_eq]
  constructor
  · constructor
    · rintro ⟨b, h1, h2⟩
      obtain ⟨e', rfl⟩ := (key b).1 h1
      exact ⟨e', h2⟩
    · rintro ⟨e', h⟩
      exact ⟨_, (key _).2 ⟨e', rfl⟩, h⟩
  · constructor
    · intro h e'
      exact h _ ((key _).2 ⟨e', rfl⟩)
    · intro h b hb
      obtain ⟨e', rfl⟩ := (key b).1 hb
      exact h e'

/-- One environment and one system variable, equal: some value of the system variable fits, not every one. -/
example : let f : Bdd (2 * (1 + 1)) := fun a => a 0 == a 1
    let s : BState 1 1 := (fun _ => true, fun _ => false)
    cuddExist (cubeSys 1 1 fun _ => 7) f (joinAsg s s) = true ∧ cuddUniv (cubeSys 1 1 fun _ => 7) f (joinAsg s s) = false := by
  decide +kernel

/-- **C25, other versions.** A version other than 0 and 1 is refused by `aut_aut_dumpver`, and what is written before that cannot be
loaded. -/
theorem dump_unknown {len ver : ℕ} (hv : ver ≠ 0 ∧ ver ≠ 1) (hi : ver ≤ 2147483647) (l : Aut ℤ (List ℤ)) :
    (dumpVer l ver).1 = -1 ∧ loadVer len (dumpVer l ver).2 = .null := by
  have e : dumpVer l ver = (-1, printInt ver ++ ['\n']) := if_neg (by omega)
  rw [e]
  refine ⟨rfl, ?_⟩
  unfold loadVer
  split
  · rfl
  have h1 := intText_printInt (ver : ℤ)
  have hrow : Row [(ver : ℤ)] ([] ++ (printInt ver ++ [])) := .cons [] _ ver [] [] (by simp) h1 (by simp) (.nil [] (by simp))
  rw [List.nil_append, List.append_nil] at hrow
  have hlen : (printInt (ver : ℤ) ++ ['\n']).length < 4096 := by
    have h : (Nat.toDigits 10 ver).length ≤ 10 := Nat.toDigits_length 10 ver 10 (by decide) (by omega)
    have hp : printInt (ver : ℤ) = Nat.toDigits 10 ver := by
      unfold printInt
      rw [if_neg (by omega)]
      rfl
    rw [hp, List.length_append, List.length_singleton]
    omega
  have he : (['\n'] : List Char) = ['\n'] ∨ ['\n'] = ['\r', '\n'] := Or.inl rfl
  obtain ⟨k1, k2, k3⟩ := isLine_read (isLine_row (row_chars hrow) he hlen) []
  obtain ⟨c, cs, hc, hrc⟩ := row_start hrow
  have hne := rowChar_ne hrc
  have e1 : strtol (printInt (ver : ℤ) ++ ['\n']) = some (clampLong ver, ['\n']) := strtol_int (ws := []) (by simp [Spaces]) h1 (endLine_head he)
  have hid : toInt (clampLong (ver : ℤ)) = ver := stored_int (by omega) (by omega)
  have : readLoop (len : ℤ).toNat none [] (printInt (ver : ℤ) ++ ['\n']) = .ok ver [] := by
    rw [← List.append_nil (printInt (ver : ℤ) ++ ['\n']), readLoop, dif_neg k3]
    simp only [k1, k2]
    rw [if_neg (by rw [hc]; simp [hne]), e1]
    simp only
    rw [if_pos ⟨trivial, by simp⟩, hid, if_neg (by omega), readLoop, dif_pos rfl]
    rfl
  rw [this]
  rfl

example : dumpVer ioEx 2 = (-1, "2\n".toList) := by decide +kernel

end Gr1c
