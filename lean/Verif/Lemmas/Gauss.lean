import Verif.Model.Utils
import Verif.Lemmas.Density

noncomputable section

open MeasureTheory Set ProbabilityTheory

namespace GW

/-- The unnormalised Gaussian. -/
def gaussShape (mu sigma t : ℝ) : ℝ := Real.exp (-(t - mu) ^ 2 / (2 * sigma ^ 2))

theorem gaussShape_pos (mu sigma t : ℝ) : 0 < gaussShape mu sigma t := Real.exp_pos _

theorem gaussShape_continuous (mu sigma : ℝ) : Continuous (gaussShape mu sigma) := by
  unfold gaussShape
  fun_prop

theorem stdNormalCDF_eq (x : ℝ) : stdNormalCDF x = ∫ t in Iic x, gaussianPDFReal 0 1 t := by
  rw [stdNormalCDF, Measure.real, gaussianReal_apply_eq_integral 0 one_ne_zero,
    ENNReal.toReal_ofReal (integral_nonneg fun t => gaussianPDFReal_nonneg 0 1 t)]

theorem gaussianPDFReal_std (t : ℝ) :
    gaussianPDFReal 0 1 t = (Real.sqrt (2 * Real.pi))⁻¹ * Real.exp (-t ^ 2 / 2) := by
  simp [gaussianPDFReal]

theorem stdNormalCDF_sub {a b : ℝ} (_h : a ≤ b) :
    stdNormalCDF b - stdNormalCDF a = ∫ t in a..b, gaussianPDFReal 0 1 t := by
  rw [stdNormalCDF_eq, stdNormalCDF_eq]
  exact intervalIntegral.integral_Iic_sub_Iic (integrable_gaussianPDFReal 0 1).integrableOn
    (integrable_gaussianPDFReal 0 1).integrableOn

theorem stdNormalCDF_lt {a b : ℝ} (h : a < b) : stdNormalCDF a < stdNormalCDF b := by
  have := stdNormalCDF_sub h.le
  have hp : 0 < ∫ t in a..b, gaussianPDFReal 0 1 t :=
    intervalIntegral.intervalIntegral_pos_of_pos_on
      (integrable_gaussianPDFReal 0 1).intervalIntegrable
      (fun t _ => gaussianPDFReal_pos 0 1 t one_ne_zero) h
  linarith

theorem stdNormalCDF_nonneg (x : ℝ) : 0 ≤ stdNormalCDF x := measureReal_nonneg

theorem stdNormalCDF_pos (x : ℝ) : 0 < stdNormalCDF x :=
  lt_of_le_of_lt (stdNormalCDF_nonneg (x - 1)) (stdNormalCDF_lt (by linarith))

theorem stdNormalCDF_neg (x : ℝ) : stdNormalCDF (-x) = 1 - stdNormalCDF x := by
  have h1 : stdNormalCDF (-x) = (gaussianReal 0 1).real (Ici x) := by
    have : gaussianReal 0 1 = (gaussianReal 0 1).map (fun x => -x) := by
      rw [gaussianReal_map_neg, neg_zero]
    rw [stdNormalCDF]
    conv_lhs => rw [this]
    rw [map_measureReal_apply measurable_neg measurableSet_Iic]
    congr 1
    ext t; simp
  have h2 : (gaussianReal 0 1).real (Ici x) = (gaussianReal 0 1).real (Ioi x) := by
    have := nullSingletonClass_gaussianReal (μ := 0) (v := 1) one_ne_zero
    exact measureReal_congr Ioi_ae_eq_Ici.symm
  rw [h1, h2, ← compl_Iic, probReal_compl_eq_one_sub measurableSet_Iic]
  rfl

theorem stdNormalCDF_lt_one (x : ℝ) : stdNormalCDF x < 1 := by
  have := stdNormalCDF_pos (-x)
  rw [stdNormalCDF_neg] at this
  linarith

theorem integral_gaussShape {mu sigma lo hi : ℝ} (hs : 0 < sigma) (h : lo ≤ hi) :
    ∫ t in lo..hi, gaussShape mu sigma t =
      Real.sqrt (2 * Real.pi) * sigma *
        (stdNormalCDF ((hi - mu) / sigma) - stdNormalCDF ((lo - mu) / sigma)) := by
  have hab : (lo - mu) / sigma ≤ (hi - mu) / sigma := by gcongr
  rw [stdNormalCDF_sub hab]
  have hsq : Real.sqrt (2 * Real.pi) ≠ 0 := (Real.sqrt_pos.2 (by positivity)).ne'
  have e : ∀ t, gaussShape mu sigma t =
      Real.sqrt (2 * Real.pi) * gaussianPDFReal 0 1 (t / sigma - mu / sigma) := by
    intro t
    rw [gaussianPDFReal_std, gaussShape, ← mul_assoc, mul_inv_cancel₀ hsq, one_mul]
    congr 1
    field_simp
  simp_rw [e]
  rw [intervalIntegral.integral_const_mul, intervalIntegral.integral_comp_div_sub _ hs.ne']
  rw [smul_eq_mul, sub_div, sub_div, mul_assoc]

end GW
