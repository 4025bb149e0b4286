import Verif.Props.UtilsMisc

/-!
# C10: `trapezoid` with one interval for many samples, or two samples for many nodes

Arrays whose lengths differ are accepted if one of them describes a single interval, which is then used for all
intervals of the other.
-/

noncomputable section

namespace GW

open Fl Spec

namespace TrapezoidBroadcast

theorem sums (ys : List ℝ) : neighbourSums (ys.map fin) =
    (List.zipWith (fun y1 y0 : ℝ => y1 + y0) ys.tail ys).map fin := by
  unfold neighbourSums
  rw [← List.map_tail, List.zipWith_map, List.map_zipWith]
  simp

theorem steps (xs : List ℝ) : gridSteps (xs.map fin) =
    (List.zipWith (fun x1 x0 : ℝ => x1 - x0) xs.tail xs).map fin := by
  unfold gridSteps
  rw [← List.map_tail, List.zipWith_map, List.map_zipWith]
  simp

theorem sum_map_fin (l : List ℝ) : (l.map fin).sum = fin l.sum := by
  induction l with
  | nil => rfl
  | cons a l ih => rw [List.map_cons, List.sum_cons, ih, fin_add, List.sum_cons]

theorem rule_const (d : ℝ) (ys : List ℝ) :
    ((List.zipWith (fun y1 y0 : ℝ => y1 + y0) ys.tail ys).map fun v => d * v / 2).sum =
      trapezoidRule (ys.length - 1) (fun i => ys.getD i 0) (fun i => i * d) := by
  have h := trapzDx_fin d ys
  have key : ∀ ys : List ℝ, Arr.trapzDx (fin d) (ys.map fin) =
      fin ((List.zipWith (fun y1 y0 : ℝ => y1 + y0) ys.tail ys).map fun v => d * v / 2).sum := by
    intro ys
    induction ys with
    | nil => rfl
    | cons y0 ys ih =>
      rcases ys with _ | ⟨y1, ys⟩
      · rfl
      · simp only [List.map_cons] at ih ⊢
        rw [Arr.trapzDx, ih]
        simp only [ofNat_eq, fin_add, fin_mul, fin_div (two_ne_zero' ℝ)]
        simp
  rw [key] at h
  exact fin_inj.1 h

theorem telescope (c : ℝ) (x0 : ℝ) (xs : List ℝ) :
    ((List.zipWith (fun x1 x0 : ℝ => x1 - x0) (x0 :: xs).tail (x0 :: xs)).map fun d => d * c / 2).sum =
      ((x0 :: xs).getLast (by simp) - x0) * c / 2 := by
  induction xs generalizing x0 with
  | nil => simp
  | cons x1 xs ih =>
    have := ih x1
    have hlast : (x0 :: x1 :: xs).getLast (by simp) = (x1 :: xs).getLast (by simp) := List.getLast_cons (by simp)
    rw [hlast]
    simp only [List.tail_cons] at this ⊢
    rw [List.zipWith_cons_cons, List.map_cons, List.sum_cons, this]
    ring

end TrapezoidBroadcast

open TrapezoidBroadcast

/-- **C10.** Two nodes for any number of samples: the trapezoid rule with the distance of the nodes as the step of an
even grid. -/
theorem C10_trapezoid_one_interval (caps : XpCaps) (h : caps.hasTrapezoid = true ∨ caps.hasTrapz = true)
    (ys : List ℝ) (a b : ℝ) (dx : Fl) (hy : 2 ≤ ys.length) :
    trapezoid caps (ys.map fin) (some [fin a, fin b]) dx =
      .ok (fin (trapezoidRule (ys.length - 1) (fun i => ys.getD i 0) (fun i => i * (b - a)))) := by
  have e : trapezoid caps (ys.map fin) (some [fin a, fin b]) dx = trapzOf caps.mismatch (ys.map fin) [fin a, fin b] := by
    rw [trapezoid]
    rcases caps with ⟨_ | _, _ | _, e⟩ <;> simp at h ⊢
  rw [e]
  by_cases h2 : ys.length = 2
  · obtain ⟨u, v, rfl⟩ : ∃ u v, ys = [u, v] := by
      match ys, h2 with
      | [u, v], _ => exact ⟨u, v, rfl⟩
    rw [trapzOf_same _ (by simp)]
    congr 1
    simp [Arr.trapz, trapezoidRule, fin_div, ofNat_eq]
    left
    ring
  · unfold trapzOf
    have hs : gridSteps [fin a, fin b] = [fin (b - a)] := by
      have := steps [a, b]
      simpa using this
    rw [hs, sums, if_neg (by simp; omega)]
    simp only [List.map_map]
    rw [← rule_const, ← sum_map_fin, List.map_map]
    congr 2
    refine List.map_congr_left fun v _ => ?_
    simp [fin_div, ofNat_eq]

/-- Three samples with distance 2. -/
example : trapezoid ⟨true, false, .valueError⟩ [fin 1, fin 2, fin 4] (some [fin 3, fin 5]) (fin 1) =
    .ok (fin 9) := by
  have := C10_trapezoid_one_interval ⟨true, false, .valueError⟩ (.inl rfl) [1, 2, 4] 3 5 (fin 1) (by simp)
  simp only [List.map_cons, List.map_nil] at this
  rw [this]
  simp [trapezoidRule, Finset.sum_range_succ]
  norm_num

/-- **C10.** Two samples for any number of nodes: the mean of the samples times the distance of the outer nodes. -/
theorem C10_trapezoid_two_samples (caps : XpCaps) (h : caps.hasTrapezoid = true ∨ caps.hasTrapz = true)
    (u v x0 x1 : ℝ) (xs : List ℝ) (dx : Fl) :
    trapezoid caps [fin u, fin v] (some ((x0 :: x1 :: xs).map fin)) dx =
      .ok (fin (((x0 :: x1 :: xs).getLast (by simp) - x0) * ((u + v) / 2))) := by
  have e : trapezoid caps [fin u, fin v] (some ((x0 :: x1 :: xs).map fin)) dx =
      trapzOf caps.mismatch [fin u, fin v] ((x0 :: x1 :: xs).map fin) := by
    rw [trapezoid]
    rcases caps with ⟨_ | _, _ | _, e⟩ <;> simp at h ⊢
  rw [e]
  rcases xs with _ | ⟨x2, xs⟩
  · rw [trapzOf_same _ (by simp)]
    congr 1
    simp [Arr.trapz, fin_div, ofNat_eq]
    ring
  · unfold trapzOf
    have hs : neighbourSums [fin u, fin v] = [fin (v + u)] := by
      have := sums [u, v]
      simpa using this
    rw [hs, steps, if_neg (by simp)]
    have e2 := telescope (v + u) x0 (x1 :: x2 :: xs)
    have e3 : ∀ l : List ℝ, ((l.map fin).map fun d => d * fin (v + u) / 2).sum =
        fin (l.map fun d => d * (v + u) / 2).sum := by
      intro l
      rw [← sum_map_fin, List.map_map, List.map_map]
      congr 1
      refine List.map_congr_left fun v _ => ?_
      simp [fin_div, ofNat_eq]
    show Except.ok (((List.zipWith (fun x1 x0 : ℝ => x1 - x0) (x0 :: x1 :: x2 :: xs).tail
      (x0 :: x1 :: x2 :: xs)).map fin).map fun d => d * fin (v + u) / 2).sum = _
    rw [e3, e2]
    congr 2
    ring

/-- Two samples at four nodes. -/
example : trapezoid ⟨true, false, .valueError⟩ [fin 1, fin 2] (some [fin 3, fin 5, fin 4, fin 7]) (fin 1) =
    .ok (fin 6) := by
  have := C10_trapezoid_two_samples ⟨true, false, .valueError⟩ (.inl rfl) 1 2 3 5 [4, 7] (fin 1)
  simp only [List.map_cons, List.map_nil] at this
  rw [this]
  norm_num

end GW
