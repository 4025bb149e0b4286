import Verif.Model.Utils
import Verif.Lemmas.Density

noncomputable section

open MeasureTheory Set ProbabilityTheory

namespace GW

/-- The unnormalised scaled Beta density. -/
def betaShape (a b scale t : ℝ) : ℝ := t ^ (a - 1) * (scale - t) ^ (b - 1)

theorem betaPDFReal_nonneg {a b : ℝ} (ha : 0 < a) (hb : 0 < b) (x : ℝ) :
    0 ≤ betaPDFReal a b x := by
  by_cases h : 0 < x ∧ x < 1
  · exact (betaPDFReal_pos h.1 h.2 ha hb).le
  · rw [betaPDFReal, if_neg h]

theorem betaPDFReal_integrable {a b : ℝ} (ha : 0 < a) (hb : 0 < b) :
    Integrable (betaPDFReal a b) := by
  refine ⟨(measurable_betaPDFReal a b).aestronglyMeasurable, ?_⟩
  rw [hasFiniteIntegral_iff_ofReal (ae_of_all _ (betaPDFReal_nonneg ha hb))]
  have := lintegral_betaPDF_eq_one ha hb
  unfold betaPDF at this
  rw [this]; exact ENNReal.one_lt_top

theorem betaPDFReal_integral {a b : ℝ} (ha : 0 < a) (hb : 0 < b) :
    ∫ x, betaPDFReal a b x = 1 := by
  rw [integral_eq_lintegral_of_nonneg_ae (ae_of_all _ (betaPDFReal_nonneg ha hb))
    (measurable_betaPDFReal a b).aestronglyMeasurable]
  have := lintegral_betaPDF_eq_one ha hb
  unfold betaPDF at this
  rw [this]; rfl

theorem betaPDFReal_eq_zero {a b x : ℝ} (h : ¬ (0 < x ∧ x < 1)) : betaPDFReal a b x = 0 := by
  rw [betaPDFReal, if_neg h]

/-- On the open interval the scaled Beta density is a rescaled standard Beta density. -/
theorem betaShape_eq {a b scale t : ℝ} (ha : 0 < a) (hb : 0 < b) (hs : 0 < scale)
    (h : 0 < t ∧ t < scale) :
    betaShape a b scale t =
      scale ^ (a + b - 2) * beta a b * betaPDFReal a b (t / scale) := by
  have h1 : 0 < t / scale := div_pos h.1 hs
  have h2 : t / scale < 1 := (div_lt_one hs).2 h.2
  rw [betaPDFReal, if_pos ⟨h1, h2⟩]
  have hB := (beta_pos ha hb).ne'
  have e1 : scale ^ (a + b - 2) = scale ^ (a - 1) * scale ^ (b - 1) := by
    rw [← Real.rpow_add hs]; congr 1; ring
  have e2 : scale ^ (a - 1) * (t / scale) ^ (a - 1) = t ^ (a - 1) := by
    rw [← Real.mul_rpow hs.le h1.le]; congr 1; field_simp
  have e3 : scale ^ (b - 1) * (1 - t / scale) ^ (b - 1) = (scale - t) ^ (b - 1) := by
    rw [← Real.mul_rpow hs.le (by linarith)]; congr 1; field_simp
  rw [betaShape, ← e2, ← e3, e1]
  field_simp

theorem integral_betaPDFReal_scaled {a b scale : ℝ} (ha : 0 < a) (hb : 0 < b) (hs : 0 < scale) :
    ∫ t in (0 : ℝ)..scale, betaPDFReal a b (t / scale) = scale := by
  rw [intervalIntegral.integral_comp_div (fun x => betaPDFReal a b x) hs.ne', zero_div,
    div_self hs.ne', smul_eq_mul]
  have : ∫ x in (0 : ℝ)..1, betaPDFReal a b x = 1 := by
    refine Eq.trans ?_ (betaPDFReal_integral ha hb)
    rw [intervalIntegral.integral_of_le zero_le_one]
    apply setIntegral_eq_integral_of_forall_compl_eq_zero
    intro x hx
    apply betaPDFReal_eq_zero
    intro h; exact hx ⟨h.1, h.2.le⟩
  rw [this, mul_one]

theorem betaShape_ae {a b scale : ℝ} (ha : 0 < a) (hb : 0 < b) (hs : 0 < scale) :
    ∀ᵐ t, t ∈ uIoc 0 scale → betaShape a b scale t =
      scale ^ (a + b - 2) * beta a b * betaPDFReal a b (t / scale) := by
  have hne : ∀ᵐ t : ℝ, t ≠ scale := by
    simp [ae_iff, measure_singleton]
  filter_upwards [hne] with t hts ht
  rw [uIoc_of_le hs.le] at ht
  exact betaShape_eq ha hb hs ⟨ht.1, lt_of_le_of_ne ht.2 hts⟩

theorem integral_betaShape {a b scale : ℝ} (ha : 0 < a) (hb : 0 < b) (hs : 0 < scale) :
    ∫ t in (0 : ℝ)..scale, betaShape a b scale t = scale ^ (a + b - 1) * beta a b := by
  rw [intervalIntegral.integral_congr_ae (betaShape_ae ha hb hs),
    intervalIntegral.integral_const_mul, integral_betaPDFReal_scaled ha hb hs]
  have : scale ^ (a + b - 1) = scale ^ (a + b - 2) * scale := by
    rw [← Real.rpow_add_one hs.ne']; congr 1; ring
  rw [this]; ring

theorem betaShape_intervalIntegrable {a b scale : ℝ} (ha : 0 < a) (hb : 0 < b) (hs : 0 < scale) :
    IntervalIntegrable (betaShape a b scale) volume 0 scale := by
  have h1 : IntervalIntegrable (fun t => scale ^ (a + b - 2) * beta a b * betaPDFReal a b (t / scale))
      volume 0 scale :=
    (((betaPDFReal_integrable ha hb).comp_div hs.ne').const_mul _).intervalIntegrable
  refine h1.congr_ae ?_
  have := betaShape_ae ha hb hs
  rw [Filter.EventuallyEq, ae_restrict_iff' measurableSet_uIoc]
  filter_upwards [this] with t ht h
  exact (ht h).symm

end GW
