import Verif.Spec.Density
import Mathlib.Analysis.BoundedVariation
import Mathlib.MeasureTheory.Integral.IntervalIntegral.Basic

/-!
# Error of the trapezoid rule for functions of bounded variation
-/

noncomputable section

open Set MeasureTheory

namespace GW

open Spec

/-- A function of bounded variation on an interval is integrable there. -/
theorem bv_intervalIntegrable {f : ℝ → ℝ} {a b : ℝ} (hab : a ≤ b)
    (hf : BoundedVariationOn f (Icc a b)) : IntervalIntegrable f volume a b := by
  obtain ⟨p, q, hp, hq, rfl⟩ :=
    hf.locallyBoundedVariationOn.exists_monotoneOn_sub_monotoneOn
  rw [← uIcc_of_le hab] at hp hq
  exact hp.intervalIntegrable.sub hq.intervalIntegrable

/-- Sums have bounded variation. -/
theorem bv_add {f g : ℝ → ℝ} {s : Set ℝ} (hf : BoundedVariationOn f s)
    (hg : BoundedVariationOn g s) : BoundedVariationOn (fun x => f x + g x) s := by
  have h : eVariationOn (fun x => f x + g x) s ≤ eVariationOn f s + eVariationOn g s := by
    refine iSup_le ?_
    rintro ⟨n, ⟨u, hu, us⟩⟩
    refine le_trans (Finset.sum_le_sum fun i _ => edist_add_add_le _ _ _ _) ?_
    rw [Finset.sum_add_distrib]
    exact add_le_add (eVariationOn.sum_le hu us) (eVariationOn.sum_le hu us)
  exact ne_top_of_le_ne_top (ENNReal.add_ne_top.2 ⟨hf, hg⟩) h

/-- Constants have bounded variation. -/
theorem bv_const (c : ℝ) (s : Set ℝ) : BoundedVariationOn (fun _ => c) s := by
  unfold BoundedVariationOn
  rw [eVariationOn.constant_on]
  · exact ENNReal.zero_ne_top
  · rintro _ ⟨x, _, rfl⟩ _ ⟨y, _, rfl⟩; rfl

/-- Multiples have bounded variation. -/
theorem bv_const_mul (c : ℝ) {f : ℝ → ℝ} {s : Set ℝ} (hf : BoundedVariationOn f s) :
    BoundedVariationOn (fun x => c * f x) s := (bv_const c s).mul hf

/-- Quotients by a constant have bounded variation. -/
theorem bv_div_const (c : ℝ) {f : ℝ → ℝ} {s : Set ℝ} (hf : BoundedVariationOn f s) :
    BoundedVariationOn (fun x => f x / c) s := by
  have := bv_const_mul c⁻¹ hf
  simpa [div_eq_inv_mul] using this

/-- Monotone functions have bounded variation on closed intervals. -/
theorem bv_monotone {f : ℝ → ℝ} {a b : ℝ} (hf : MonotoneOn f (Icc a b)) :
    BoundedVariationOn f (Icc a b) := by
  rcases le_or_gt a b with hab | hab
  · have := hf.locallyBoundedVariationOn a b (left_mem_Icc.2 hab) (right_mem_Icc.2 hab)
    rwa [inter_self] at this
  · rw [Icc_eq_empty_of_lt hab]; simp

/-- Antitone functions have bounded variation on closed intervals. -/
theorem bv_antitone {f : ℝ → ℝ} {a b : ℝ} (hf : AntitoneOn f (Icc a b)) :
    BoundedVariationOn f (Icc a b) := by
  have := bv_const_mul (-1) (bv_monotone (f := fun x => -f x) fun x hx y hy h => neg_le_neg (hf hx hy h))
  simpa using this

theorem bv_congr {f g : ℝ → ℝ} {s : Set ℝ} (hf : BoundedVariationOn f s) (h : ∀ x ∈ s, f x = g x) :
    BoundedVariationOn g s := by
  unfold BoundedVariationOn at hf ⊢
  rwa [← eVariationOn.congr (f := f) h]

/-- Indicators of half lines and intervals have bounded variation. -/
theorem bv_indicator (lo hi a b : ℝ) :
    BoundedVariationOn (fun x => open Classical in if lo ≤ x ∧ x ≤ hi then (1 : ℝ) else 0) (Icc a b) := by
  classical
  have h1 : BoundedVariationOn (fun x : ℝ => if lo ≤ x then (1 : ℝ) else 0) (Icc a b) := by
    refine bv_monotone fun x _ y _ h => ?_
    split_ifs <;> first | (exfalso; linarith) | norm_num
  have h2 : BoundedVariationOn (fun x : ℝ => if x ≤ hi then (1 : ℝ) else 0) (Icc a b) := by
    refine bv_antitone fun x _ y _ h => ?_
    split_ifs <;> first | (exfalso; linarith) | norm_num
  have := h1.mul h2
  refine bv_congr this fun x _ => ?_
  simp only [Pi.mul_apply]
  split_ifs <;> simp_all

/-- Restricting to an interval keeps bounded variation. -/
theorem bv_restrict {f : ℝ → ℝ} {a b : ℝ} (lo hi : ℝ) (hf : BoundedVariationOn f (Icc a b)) :
    BoundedVariationOn (fun x => open Classical in if lo ≤ x ∧ x ≤ hi then f x else 0) (Icc a b) := by
  have := (bv_indicator lo hi a b).mul hf
  refine bv_congr this fun x _ => ?_
  simp only [Pi.mul_apply]
  split_ifs <;> simp

/-- One cell of the trapezoid rule. -/
theorem trapezoid_cell {f : ℝ → ℝ} {a b : ℝ} (hab : a ≤ b) (hf : BoundedVariationOn f (Icc a b)) :
    |(∫ x in a..b, f x) - (b - a) * (f a + f b) / 2| ≤
      (b - a) / 2 * (eVariationOn f (Icc a b)).toReal := by
  have hi := bv_intervalIntegrable hab hf
  have e : (∫ x in a..b, f x) - (b - a) * (f a + f b) / 2 =
      ∫ x in a..b, (f x - (f a + f b) / 2) := by
    rw [intervalIntegral.integral_sub hi intervalIntegrable_const,
      intervalIntegral.integral_const, smul_eq_mul]
    ring
  rw [e]
  have := intervalIntegral.norm_integral_le_of_norm_le_const (a := a) (b := b)
    (f := fun x => f x - (f a + f b) / 2) (C := (eVariationOn f (Icc a b)).toReal / 2) ?_
  · rw [Real.norm_eq_abs, abs_of_nonneg (sub_nonneg.2 hab)] at this
    linarith
  · intro x hx
    rw [uIoc_of_le hab] at hx
    have hx' : x ∈ Icc a b := Ioc_subset_Icc_self hx
    -- the two distances add up to at most the variation
    have h3 : edist (f a) (f x) + edist (f x) (f b) ≤ eVariationOn f (Icc a b) := by
      have := eVariationOn.Icc_add_Icc f (s := univ) hx'.1 hx'.2 (mem_univ _)
      simp only [univ_inter] at this
      rw [← this]
      exact add_le_add
        (eVariationOn.edist_le f (left_mem_Icc.2 hx'.1) (right_mem_Icc.2 hx'.1))
        (eVariationOn.edist_le f (left_mem_Icc.2 hx'.2) (right_mem_Icc.2 hx'.2))
    have h4 := ENNReal.toReal_mono hf h3
    rw [ENNReal.toReal_add (edist_ne_top _ _) (edist_ne_top _ _), edist_dist, edist_dist,
      ENNReal.toReal_ofReal dist_nonneg, ENNReal.toReal_ofReal dist_nonneg, Real.dist_eq,
      Real.dist_eq] at h4
    rw [Real.norm_eq_abs]
    have h5 : f x - (f a + f b) / 2 = ((f x - f b) - (f a - f x)) / 2 := by ring
    rw [h5, abs_div, abs_two]
    have := abs_sub (f x - f b) (f a - f x)
    linarith [abs_sub_comm (f x) (f b)]

/-- **Error of the trapezoid rule on an increasing grid** with cells of width at most `h`. -/
theorem trapezoid_error {f : ℝ → ℝ} {x : ℕ → ℝ} (hx : Monotone x) (n : ℕ) {h : ℝ}
    (hh : ∀ i < n, x (i + 1) - x i ≤ h) (hf : BoundedVariationOn f (Icc (x 0) (x n))) :
    |(∫ t in x 0..x n, f t) - trapezoidRule n (fun i => f (x i)) x| ≤
      h / 2 * (eVariationOn f (Icc (x 0) (x n))).toReal := by
  have hcell : ∀ i < n, BoundedVariationOn f (Icc (x i) (x (i + 1))) := fun i hi =>
    hf.mono (Icc_subset_Icc (hx (Nat.zero_le i)) (hx hi))
  have h1 : (∫ t in x 0..x n, f t) = ∑ i ∈ Finset.range n, ∫ t in x i..x (i + 1), f t :=
    (intervalIntegral.sum_integral_adjacent_intervals fun i hi =>
      bv_intervalIntegrable (hx (Nat.le_succ i)) (hcell i hi)).symm
  have h2 : (eVariationOn f (Icc (x 0) (x n))).toReal =
      ∑ i ∈ Finset.range n, (eVariationOn f (Icc (x i) (x (i + 1)))).toReal := by
    rw [← eVariationOn.sum' f hx, ENNReal.toReal_sum]
    intro i hi
    exact hcell i (Finset.mem_range.1 hi)
  rw [h1, h2, trapezoidRule, ← Finset.sum_sub_distrib, Finset.mul_sum]
  refine (Finset.abs_sum_le_sum_abs _ _).trans (Finset.sum_le_sum fun i hi => ?_)
  have hi' := Finset.mem_range.1 hi
  refine (trapezoid_cell (hx (Nat.le_succ i)) (hcell i hi')).trans ?_
  have := hh i hi'
  gcongr

end GW
