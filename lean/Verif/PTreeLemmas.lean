import Verif.Formula
import Mathlib.Tactic.IntervalCases

/-! # Lemmas about parse trees -/

namespace Gr1c

open PTree

/-- Merging from the array's end, as a formula. -/
def mergeFm (op : Fm → Fm → Fm) : List Fm → Fm
  | [] => .const 0
  | [a] => a
  | b :: rest => op (mergeFm op rest) b

theorem mergeLoop_toTree_and (fs : List Fm) (h : fs ≠ []) :
    mergeLoop .and (fs.map Fm.toTree) = (mergeFm .and fs).toTree := by
  induction fs with
  | nil => exact absurd rfl h
  | cons a fs ih =>
    cases fs with
    | nil => rfl
    | cons b fs =>
      have := ih (by simp)
      simp only [List.map_cons] at this ⊢
      simp only [mergeLoop, mergeFm, Fm.toTree, this]

theorem mergeLoop_toTree_or (fs : List Fm) (h : fs ≠ []) :
    mergeLoop .or (fs.map Fm.toTree) = (mergeFm .or fs).toTree := by
  induction fs with
  | nil => exact absurd rfl h
  | cons a fs ih =>
    cases fs with
    | nil => rfl
    | cons b fs =>
      have := ih (by simp)
      simp only [List.map_cons] at this ⊢
      simp only [mergeLoop, mergeFm, Fm.toTree, this]

theorem mergeFm_and_eval (ρ : Env) (fs : List Fm) (h : fs ≠ []) :
    (mergeFm .and fs).eval ρ = fs.all (Fm.eval ρ) := by
  induction fs with
  | nil => exact absurd rfl h
  | cons a fs ih =>
    cases fs with
    | nil => simp [mergeFm]
    | cons b fs =>
      have := ih (by simp)
      simp only [mergeFm, Fm.eval, this]
      rw [Bool.and_comm]; simp only [List.all_cons]

theorem mergeFm_or_eval (ρ : Env) (fs : List Fm) (h : fs ≠ []) :
    (mergeFm .or fs).eval ρ = fs.any (Fm.eval ρ) := by
  induction fs with
  | nil => exact absurd rfl h
  | cons a fs ih =>
    cases fs with
    | nil => simp [mergeFm]
    | cons b fs =>
      have := ih (by simp)
      simp only [mergeFm, Fm.eval, this]
      rw [Bool.or_comm]; simp only [List.any_cons]

theorem mergePtrees_toTree_and (fs : List Fm) (h : fs ≠ []) :
    mergePtrees (fs.map Fm.toTree) .and = (mergeFm .and fs.reverse).toTree := by
  match fs, h with
  | [a], _ => rfl
  | a :: b :: fs, _ =>
    rw [← mergeLoop_toTree_and _ (by simp)]
    simp [mergePtrees]

theorem mergePtrees_toTree_or (fs : List Fm) (h : fs ≠ []) :
    mergePtrees (fs.map Fm.toTree) .or = (mergeFm .or fs.reverse).toTree := by
  match fs, h with
  | [a], _ => rfl
  | a :: b :: fs, _ =>
    rw [← mergeLoop_toTree_or _ (by simp)]
    simp [mergePtrees]

end Gr1c
