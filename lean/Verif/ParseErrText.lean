import Verif.ParseErr
import Verif.DotProps

/-! # C73: the messages of the parser tell its errors apart -/

namespace Gr1c

theorem line_split {x y : ℕ} {p r r' : List Char} (h : p ++ (printInt (x : ℤ) ++ '.' :: r) = p ++ (printInt (y : ℤ) ++ '.' :: r')) :
    x = y ∧ r = r' := by
  have h1 := List.append_cancel_left h
  have hd : ∀ (l : List Char) c, ('.' :: l).head? = some c → isDig c = false ∧ c ≠ '-' := by
    intro l c hc
    cases hc; decide
  obtain ⟨h2, h3⟩ := printInt_split (hd r) (hd r') h1
  exact ⟨by omega, by simpa using h3⟩

theorem out_syntax' (l : ℕ) : (PErr.syntax l).out = "Error detected on line ".toList ++ (printInt (l : ℤ) ++ ".\n".toList) := rfl

theorem out_env' (l : ℕ) :
    (PErr.dupInit true l).out = "Error detected on line ".toList ++ (printInt (l : ℤ) ++ ".  Duplicate ENVINIT\n".toList) := rfl

theorem out_sys' (l : ℕ) :
    (PErr.dupInit false l).out = "Error detected on line ".toList ++ (printInt (l : ℤ) ++ ".  Duplicate SYSINIT.\n".toList) := rfl

theorem err_syntax' (l : ℕ) : (PErr.syntax l).err = "syntax error\n".toList := rfl

theorem err_silent' : PErr.silent.err = "syntax error\n".toList := rfl

theorem err_var' (l : ℕ) :
    (PErr.dupVar l).err = "Duplicate variable detected on line ".toList ++ (printInt (l : ℤ) ++ ".\n".toList) := rfl

theorem err_lower' (l : ℕ) :
    (PErr.lower l).err = "Error detected on line ".toList ++ (printInt (l : ℤ) ++ ".  Lower bound must be zero.\n".toList) := rfl

theorem head_app {s : List Char} {c : Char} (h : s.head? = some c) (x : List Char) : (s ++ x).head? = some c := by
  cases s with
  | nil => cases h
  | cons a s => exact h

/-- First characters of what is written to the two streams, and the kind of a message. -/
def PErr.kind : PErr → Option Char × Option Char
  | .syntax _ => (some 'E', some 's')
  | .silent => (none, some 's')
  | .dupVar _ => (none, some 'D')
  | .lower _ => (none, some 'E')
  | .dupInit _ _ => (some 'E', none)

theorem kind_eq (e : PErr) : (e.out.head?, e.err.head?) = e.kind := by
  have hE : ("Error detected on line ".toList).head? = some 'E' := by decide +kernel
  have hs : ("syntax error\n".toList).head? = some 's' := by decide +kernel
  have hD : ("Duplicate variable detected on line ".toList).head? = some 'D' := by decide +kernel
  cases e with
  | «syntax» l => rw [out_syntax', err_syntax', head_app hE, hs]; rfl
  | silent => rw [err_silent', hs]; rfl
  | dupVar l => rw [err_var', head_app hD]; rfl
  | lower l => rw [err_lower', head_app hE]; rfl
  | dupInit b l => cases b <;> [rw [out_sys', head_app hE]; rw [out_env', head_app hE]] <;> rfl

theorem out_syntax (l : ℕ) : (PErr.syntax l).out = "Error detected on line ".toList ++ (printInt (l : ℤ) ++ '.' :: "\n".toList) := by
  have h : ".\n".toList = '.' :: "\n".toList := by decide +kernel
  rw [out_syntax', h]

theorem out_env (l : ℕ) :
    (PErr.dupInit true l).out = "Error detected on line ".toList ++ (printInt (l : ℤ) ++ '.' :: "  Duplicate ENVINIT\n".toList) := by
  have h : ".  Duplicate ENVINIT\n".toList = '.' :: "  Duplicate ENVINIT\n".toList := by decide +kernel
  rw [out_env', h]

theorem out_sys (l : ℕ) :
    (PErr.dupInit false l).out = "Error detected on line ".toList ++ (printInt (l : ℤ) ++ '.' :: "  Duplicate SYSINIT.\n".toList) := by
  have h : ".  Duplicate SYSINIT.\n".toList = '.' :: "  Duplicate SYSINIT.\n".toList := by decide +kernel
  rw [out_sys', h]

theorem err_var (l : ℕ) :
    (PErr.dupVar l).err = "Duplicate variable detected on line ".toList ++ (printInt (l : ℤ) ++ '.' :: "\n".toList) := by
  have h : ".\n".toList = '.' :: "\n".toList := by decide +kernel
  rw [err_var', h]

theorem err_lower (l : ℕ) :
    (PErr.lower l).err = "Error detected on line ".toList ++ (printInt (l : ℤ) ++ '.' :: "  Lower bound must be zero.\n".toList) := by
  have h : ".  Lower bound must be zero.\n".toList = '.' :: "  Lower bound must be zero.\n".toList := by decide +kernel
  rw [err_lower', h]

/-- **C73.** What the parser writes to standard output and to standard error determines the error and the line that it names. -/
theorem message_tells {e e' : PErr} (ho : e.out = e'.out) (he : e.err = e'.err) : e = e' := by
  have hk : e.kind = e'.kind := by rw [← kind_eq, ← kind_eq, ho, he]
  have d1 : "  Duplicate ENVINIT\n".toList ≠ "  Duplicate SYSINIT.\n".toList := by decide +kernel
  cases e <;> cases e' <;> first | rfl | (simp [PErr.kind] at hk; done) | skip
  · rw [out_syntax, out_syntax] at ho; exact congrArg _ (line_split ho).1
  · rw [err_var, err_var] at he; exact congrArg _ (line_split he).1
  · rw [err_lower, err_lower] at he; exact congrArg _ (line_split he).1
  · rename_i b l b' l'
    cases b <;> cases b'
    · rw [out_sys, out_sys] at ho; exact congrArg _ (line_split ho).1
    · rw [out_sys, out_env] at ho; exact absurd (line_split ho).2.symm d1
    · rw [out_sys, out_env] at ho; exact absurd (line_split ho).2 d1
    · rw [out_env, out_env] at ho; exact congrArg _ (line_split ho).1

/-- **C73.** The messages, literally: where they go, and that they name the line. -/
theorem message_texts (l : ℕ) :
    ((PErr.syntax l).out = "Error detected on line ".toList ++ printInt l ++ ".\n".toList ∧ (PErr.syntax l).err = "syntax error\n".toList) ∧
    (PErr.silent.out = [] ∧ PErr.silent.err = "syntax error\n".toList) ∧
    ((PErr.dupVar l).out = [] ∧ (PErr.dupVar l).err = "Duplicate variable detected on line ".toList ++ printInt l ++ ".\n".toList) ∧
    ((PErr.lower l).out = [] ∧
      (PErr.lower l).err = "Error detected on line ".toList ++ printInt l ++ ".  Lower bound must be zero.\n".toList) ∧
    ((PErr.dupInit true l).out = "Error detected on line ".toList ++ printInt l ++ ".  Duplicate ENVINIT\n".toList ∧
      (PErr.dupInit true l).err = []) ∧
    ((PErr.dupInit false l).out = "Error detected on line ".toList ++ printInt l ++ ".  Duplicate SYSINIT.\n".toList ∧
      (PErr.dupInit false l).err = []) := by
  simp only [List.append_assoc]
  exact ⟨⟨rfl, rfl⟩, ⟨rfl, rfl⟩, ⟨rfl, rfl⟩, ⟨rfl, rfl⟩, ⟨rfl, rfl⟩, ⟨rfl, rfl⟩⟩

example : (PErr.dupVar 12).err = "Duplicate variable detected on line 12.\n".toList ∧
    (PErr.dupInit true 3).out = "Error detected on line 3.  Duplicate ENVINIT\n".toList ∧
    (PErr.lower 7).err = "Error detected on line 7.  Lower bound must be zero.\n".toList := by decide +kernel

end Gr1c
