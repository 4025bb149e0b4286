import Verif.Num.Arr
import Verif.Lemmas.Trapz

/-!
# Finite results come from finite operands
-/

noncomputable section

open Classical

namespace GW

namespace Fl

theorem isFinite_add {a b : Fl} : isFinite (a + b) ↔ isFinite a ∧ isFinite b := by
  cases a <;> cases b <;> simp

theorem isFinite_sub {a b : Fl} : isFinite (a - b) ↔ isFinite a ∧ isFinite b := by
  cases a <;> cases b <;> simp

theorem isFinite_neg {a : Fl} : isFinite (-a) ↔ isFinite a := by
  cases a <;> simp

theorem not_isFinite_signInf (a : ℝ) : ¬ isFinite (signInf a) := by
  rcases signInf_cases a with ⟨-, h⟩ | ⟨-, h⟩ | ⟨-, h⟩ <;> simp [h]

theorem isFinite_mul {a b : Fl} : isFinite (a * b) ↔ isFinite a ∧ isFinite b := by
  cases a <;> cases b <;> simp [not_isFinite_signInf]

/-- A finite quotient has a finite numerator. -/
theorem isFinite_of_div {a b : Fl} (h : isFinite (a / b)) : isFinite a := by
  cases a <;> cases b
  case fin.fin => simp
  all_goals first
    | simp; done
    | (simp at h; done)
    | (simp only [pinf_div_fin, ninf_div_fin] at h; split_ifs at h <;> simp at h)

end Fl

open Fl

theorem exists_map_fin {l : List Fl} (h : ∀ y ∈ l, isFinite y) : ∃ r : List ℝ, l = r.map fin := by
  induction l with
  | nil => exact ⟨[], rfl⟩
  | cons a l ih =>
    obtain ⟨r, hr⟩ := ih fun y hy => h y (by simp [hy])
    obtain ⟨x, hx⟩ := isFinite_iff.1 (h a (by simp))
    exact ⟨x :: r, by rw [hr, hx]; rfl⟩

theorem sum_isFinite {l : List Fl} (h : isFinite l.sum) : ∀ y ∈ l, isFinite y := by
  induction l with
  | nil => simp
  | cons a l ih =>
    rw [List.sum_cons, isFinite_add] at h
    intro y hy
    rcases List.mem_cons.1 hy with rfl | hy
    · exact h.1
    · exact ih h.2 y hy

/-- A finite trapezoid sum over at least two nodes has only finite ordinates. -/
theorem trapz_isFinite {ys xs : List Fl} (hlen : ys.length = xs.length) (h2 : 2 ≤ ys.length)
    (h : isFinite (Arr.trapz ys xs)) : ∀ y ∈ ys, isFinite y := by
  induction ys generalizing xs with
  | nil => simp
  | cons y0 ys ih =>
    rcases ys with _ | ⟨y1, ys⟩
    · simp at h2
    rcases xs with _ | ⟨x0, _ | ⟨x1, xs⟩⟩
    · simp at hlen
    · simp at hlen
    rw [Arr.trapz, isFinite_add] at h
    have h01 := (isFinite_mul.1 (isFinite_of_div h.1)).2
    rw [isFinite_add] at h01
    intro y hy
    rcases List.mem_cons.1 hy with rfl | hy
    · exact h01.2
    · rcases ys with _ | ⟨y2, ys⟩
      · simp only [List.mem_singleton] at hy
        subst hy; exact h01.1
      · exact ih (by simpa using hlen) (by simp) h.2 y hy

/-- Dividing the ordinates by the (nonzero) trapezoid sum makes the trapezoid sum 1. -/
theorem trapz_normalise {ys : List Fl} {xs : List ℝ} (hlen : ys.length = xs.length)
    (h2 : 2 ≤ ys.length) {r : ℝ} (h : Arr.trapz ys (xs.map fin) = fin r) (hr : r ≠ 0) :
    Arr.trapz (ys.map (· / fin r)) (xs.map fin) = fin 1 := by
  obtain ⟨l, rfl⟩ := exists_map_fin (trapz_isFinite (xs := xs.map fin) (by simpa using hlen) h2 (by rw [h]; trivial))
  rw [Arr.trapz_fin, fin_inj] at h
  have e : (l.map fin).map (· / fin r) = (l.map (fun y => y / r)).map fin := by
    rw [List.map_map, List.map_map]
    apply List.map_congr_left
    intro y _
    simp [Function.comp, fin_div hr]
  rw [e, Arr.trapz_fin, Arr.trapzR_map_div, h, div_self hr]

end GW
