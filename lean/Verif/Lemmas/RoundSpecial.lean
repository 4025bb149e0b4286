import Verif.Lemmas.RelError
import Verif.Lemmas.Gauss
import Verif.Lemmas.Autodiff
import Verif.Model.RoundedDensities
import Verif.Props.Truncnorm
import Mathlib.Analysis.Real.Pi.Bounds
import Mathlib.Analysis.Complex.ExponentialBounds

/-!
# Absolute rounding errors, and how the normal distribution function amplifies them
-/

noncomputable section

open Classical Set MeasureTheory ProbabilityTheory

namespace GW

open Fl Ex

/-- Rounding a number of size at most `B`. -/
theorem round_abs {x B : ℝ} (h : |x| ≤ B) (hB : B ≤ 2 ^ 100) :
    ∃ y, toDouble (fin x) = fin y ∧ IsDouble y ∧ |y - x| ≤ ur * (B + 1) := by
  have hB' : |x| ≤ 2 ^ (1023 : ℤ) := h.trans (hB.trans (by
    calc (2 : ℝ) ^ 100 = 2 ^ (100 : ℤ) := by norm_num
      _ ≤ _ := zpow_le_zpow_right₀ (by norm_num) (by norm_num)))
  refine ⟨round53 x, fl64_of_le hB', round53_isDouble x, (round53_error x).trans ?_⟩
  have h1 : (2 : ℝ) ^ (-1075 : ℤ) ≤ ur := zpow_le_zpow_right₀ (by norm_num) (by norm_num)
  have h2 := mul_le_mul_of_nonneg_left h ur_pos.le
  linarith

/-- Logarithms of two numbers that are close relative to the first. -/
theorem log_error {x y e : ℝ} (hx : 0 < x) (h : |y - x| ≤ e * x) (he : e ≤ 1 / 2) :
    0 < y ∧ |Real.log y - Real.log x| ≤ 2 * e := by
  obtain ⟨h1, h2⟩ := abs_le.1 h
  have he0 : 0 ≤ e := by
    by_contra hc
    have := abs_nonneg (y - x)
    nlinarith
  have hy : 0 < y := by nlinarith
  refine ⟨hy, ?_⟩
  rw [← Real.log_div hy.ne' hx.ne']
  have hr1 : y / x ≤ 1 + e := by rw [div_le_iff₀ hx]; linarith
  have hr2 : 1 - e ≤ y / x := by rw [le_div_iff₀ hx]; linarith
  have hr0 : 0 < y / x := div_pos hy hx
  rw [abs_le]
  constructor
  · have h3 := Real.one_sub_inv_le_log_of_pos hr0
    have h4 : (y / x)⁻¹ ≤ 1 + 2 * e := by
      rw [inv_le_iff_one_le_mul₀ hr0]
      nlinarith
    linarith
  · have := Real.log_le_sub_one_of_pos hr0
    linarith

/-- `|log x| ≤ 1 / x` for `0 < x ≤ 1`. -/
theorem abs_log_le_inv {x : ℝ} (hx : 0 < x) (h1 : x ≤ 1) : |Real.log x| ≤ 1 / x := by
  rw [abs_of_nonpos (Real.log_nonpos hx.le h1), one_div]
  have := Real.one_sub_inv_le_log_of_pos hx
  linarith

/-- The exponential function amplifies an absolute error. -/
theorem exp_error {x y e : ℝ} (h : |y - x| ≤ e) (he : e ≤ 1) :
    |Real.exp y - Real.exp x| ≤ 2 * e * Real.exp x := by
  have h1 := Real.abs_exp_sub_one_le (h.trans he)
  have e1 : Real.exp y - Real.exp x = (Real.exp (y - x) - 1) * Real.exp x := by
    rw [Real.exp_sub]
    have := (Real.exp_pos x).ne'
    field_simp
  rw [e1, abs_mul, abs_of_pos (Real.exp_pos x)]
  exact mul_le_mul_of_nonneg_right (by linarith) (Real.exp_pos x).le

/-- The density of the standard normal distribution is below 1/2. -/
theorem stdPdf_le (x : ℝ) : Real.exp (-(x ^ 2 / 2)) / Real.sqrt (2 * Real.pi) ≤ 1 / 2 := by
  have h2 : 2 ≤ Real.sqrt (2 * Real.pi) := by
    apply Real.le_sqrt_of_sq_le
    have := Real.pi_gt_three
    linarith
  rw [div_le_iff₀ (by linarith)]
  have : Real.exp (-(x ^ 2 / 2)) ≤ 1 := Real.exp_le_one_iff.2 (by nlinarith [sq_nonneg x])
  linarith

theorem stdNormalCDF_lipschitz (x y : ℝ) : |stdNormalCDF y - stdNormalCDF x| ≤ 1 / 2 * |y - x| := by
  have := convex_univ.norm_image_sub_le_of_norm_hasDerivWithin_le (f := stdNormalCDF)
    (f' := fun x => Real.exp (-(x ^ 2 / 2)) / Real.sqrt (2 * Real.pi)) (C := 1 / 2)
    (fun x _ => (hasDerivAt_stdNormalCDF x).hasDerivWithinAt) (fun x _ => by
      rw [Real.norm_eq_abs, abs_of_nonneg (by positivity)]
      exact stdPdf_le x) (mem_univ x) (mem_univ y)
  simpa [Real.norm_eq_abs] using this

/-- The density is at most `5 m` times the distribution function on `[-m, m]`. -/
theorem stdPdf_le_cdf {x m : ℝ} (hm : 1 ≤ m) (hx : |x| ≤ m) :
    Real.exp (-(x ^ 2 / 2)) / Real.sqrt (2 * Real.pi) ≤ 5 * m * stdNormalCDF x := by
  have hm0 : 0 < m := by linarith
  have hs : 0 < Real.sqrt (2 * Real.pi) := Real.sqrt_pos.2 (by positivity)
  have h1 : stdNormalCDF x - stdNormalCDF (x - 1 / m) ≤ stdNormalCDF x := by
    have := stdNormalCDF_nonneg (x - 1 / m)
    linarith
  have hle : x - 1 / m ≤ x := by
    have : 0 < 1 / m := by positivity
    linarith
  rw [stdNormalCDF_sub hle] at h1
  have hint : ∫ _ in (x - 1 / m)..x, Real.exp (-(3 / 2)) * (Real.exp (-(x ^ 2 / 2)) / Real.sqrt (2 * Real.pi)) ≤
      ∫ t in (x - 1 / m)..x, gaussianPDFReal 0 1 t := by
    refine intervalIntegral.integral_mono_on hle (by simp) (integrable_gaussianPDFReal 0 1).intervalIntegrable ?_
    intro t ht
    rw [gaussianPDFReal_std, ← mul_div_assoc, ← Real.exp_add, div_eq_inv_mul]
    refine mul_le_mul_of_nonneg_left (Real.exp_le_exp.2 ?_) (by positivity)
    have hd0 : 0 ≤ x - t := by linarith [ht.2]
    have hd1 : x - t ≤ 1 / m := by linarith [ht.1]
    have k1 : |x| * (x - t) ≤ 1 := by
      calc |x| * (x - t) ≤ m * (1 / m) := mul_le_mul hx hd1 hd0 hm0.le
        _ = 1 := by field_simp
    have k2 : -(x * (x - t)) ≤ 1 := by
      have := neg_abs_le x
      nlinarith
    have k3 : (x - t) ^ 2 ≤ 1 := by
      have : 1 / m ≤ 1 := by rw [div_le_one hm0]; exact hm
      nlinarith
    nlinarith
  rw [intervalIntegral.integral_const, smul_eq_mul, sub_sub_cancel] at hint
  have hF := hint.trans h1
  have h5 : Real.exp (3 / 2) ≤ 5 := by
    have h27 := Real.exp_one_lt_d9
    have : Real.exp (3 / 2) ^ 2 = Real.exp 1 ^ 3 := by
      rw [← Real.exp_nat_mul, ← Real.exp_nat_mul]; norm_num
    have h0 := Real.exp_pos (3 / 2)
    have h1 := Real.exp_pos 1
    have h3 : Real.exp 1 ^ 3 ≤ 2.72 ^ 3 := pow_le_pow_left₀ h1.le (by linarith) 3
    nlinarith
  set F := Real.exp (-(x ^ 2 / 2)) / Real.sqrt (2 * Real.pi) with hFdef
  have hF0 : 0 < F := by positivity
  have e1 : F = Real.exp (3 / 2) * m * (1 / m * (Real.exp (-(3 / 2)) * F)) := by
    rw [Real.exp_neg]
    have := (Real.exp_pos (3 / 2)).ne'
    field_simp
  rw [e1]
  have hc := stdNormalCDF_pos x
  calc Real.exp (3 / 2) * m * (1 / m * (Real.exp (-(3 / 2)) * F)) ≤ Real.exp (3 / 2) * m * stdNormalCDF x :=
        mul_le_mul_of_nonneg_left hF (by positivity)
    _ ≤ 5 * m * stdNormalCDF x :=
        mul_le_mul_of_nonneg_right (mul_le_mul_of_nonneg_right h5 hm0.le) hc.le

/-- The logarithm of the distribution function on `[-m, m]`. -/
theorem logCDF_lipschitz {x y m : ℝ} (hm : 1 ≤ m) (hx : |x| ≤ m) (hy : |y| ≤ m) :
    |Real.log (stdNormalCDF y) - Real.log (stdNormalCDF x)| ≤ 5 * m * |y - x| := by
  have := (convex_Icc (-m) m).norm_image_sub_le_of_norm_hasDerivWithin_le
    (f := fun x => Real.log (stdNormalCDF x))
    (f' := fun x => Real.exp (-(x ^ 2 / 2)) / Real.sqrt (2 * Real.pi) / stdNormalCDF x) (C := 5 * m)
    (fun x _ => ((hasDerivAt_stdNormalCDF x).log (stdNormalCDF_pos x).ne').hasDerivWithinAt) (fun x hx => by
      have := stdNormalCDF_pos x
      rw [Real.norm_eq_abs, abs_of_nonneg (by positivity), div_le_iff₀ this]
      exact stdPdf_le_cdf hm (abs_le.2 hx)) (abs_le.1 hx) (abs_le.1 hy)
  simpa [Real.norm_eq_abs] using this

theorem abs_logCDF_le {x m : ℝ} (hm : 1 ≤ m) (hx : |x| ≤ m) : |Real.log (stdNormalCDF x)| ≤ 5 * m ^ 2 := by
  have hc := stdNormalCDF_pos x
  rw [abs_of_nonpos (Real.log_nonpos hc.le (stdNormalCDF_lt_one x).le)]
  have hs : 0 < Real.sqrt (2 * Real.pi) := Real.sqrt_pos.2 (by positivity)
  have hs3 : Real.sqrt (2 * Real.pi) ≤ 3 := by
    rw [Real.sqrt_le_left (by norm_num)]
    have := Real.pi_lt_d2
    linarith
  have h1 := stdPdf_le_cdf hm hx
  have h2 : Real.exp (-(x ^ 2 / 2)) ≤ 15 * m * stdNormalCDF x := by
    rw [div_le_iff₀ hs] at h1
    have : 5 * m * stdNormalCDF x * Real.sqrt (2 * Real.pi) ≤ 5 * m * stdNormalCDF x * 3 :=
      mul_le_mul_of_nonneg_left hs3 (by positivity)
    linarith
  have h3 := Real.log_le_log (Real.exp_pos _) h2
  have hm0 : 0 < m := by linarith
  rw [Real.log_exp, Real.log_mul (by positivity) hc.ne', Real.log_mul (by norm_num) hm0.ne'] at h3
  have h4 := Real.log_le_sub_one_of_pos hm0
  have h5 : Real.log 15 ≤ 3 := by
    rw [← Real.log_exp 3]
    refine Real.log_le_log (by norm_num) ?_
    have : (2.7 : ℝ) < Real.exp 1 := by linarith [Real.exp_one_gt_d9]
    have e : Real.exp 3 = Real.exp 1 ^ 3 := by rw [← Real.exp_nat_mul]; norm_num
    rw [e]
    have : (2.7 : ℝ) ^ 3 ≤ Real.exp 1 ^ 3 := pow_le_pow_left₀ (by norm_num) this.le 3
    norm_num at this ⊢
    linarith
  have h6 : x ^ 2 ≤ m ^ 2 := by rw [← sq_abs x]; exact pow_le_pow_left₀ (abs_nonneg x) hx 2
  have h7 : m ≤ m ^ 2 := by nlinarith
  have h8 : 1 ≤ m ^ 2 := by nlinarith
  linarith

end GW
