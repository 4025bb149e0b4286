import Verif.Props.Measured
import Verif.Props.Identifiable
import Mathlib.Probability.Moments.MGFAnalytic
import Mathlib.MeasureTheory.Topology

/-!
# C159: with Gaussian errors all hyper-parameters are found that describe different populations
-/

noncomputable section

open MeasureTheory ProbabilityTheory Filter Topology Set

namespace GW

open Fl Spec TruePopulation Posterior

variable {S Det : Set ℝ} {K : ℝ} {v : NNReal} {p p₀ p₁ : ℝ → ℝ}

/-! ## Specification -/

/-- The density of a measured value `d`, for the true value `x` and Gaussian errors of variance `v`. -/
def Spec.gaussianErrors (v : NNReal) (d x : ℝ) : ℝ := gaussianPDFReal x v d

/-- A density on `S` that is zero beyond `K`. It need not be normalised. -/
structure Spec.BoundedPopulation (S : Set ℝ) (K : ℝ) (p : ℝ → ℝ) : Prop where
  measurable : Measurable p
  nonneg : ∀ x ∈ S, 0 ≤ p x
  integrable : IntegrableOn p S
  pos : 0 < ∫ x in S, p x
  zero : ∀ x ∈ S, K < |x| → p x = 0

/-! ## Lemmas -/

namespace GaussianErrors

theorem errors_ordered (hv : v ≠ 0) : OrderedMeasurement (gaussianErrors v) := gaussian_measurement hv

theorem integrable_data (hv : v ≠ 0) (hp : BoundedPopulation S K p) (d : ℝ) :
    IntegrableOn (fun x => gaussianErrors v d x * p x) S := by
  obtain ⟨B, hB⟩ := (errors_ordered hv).bounded d
  refine Integrable.bdd_mul (c := B) hp.integrable
    (Measured.like_measurable (errors_ordered hv) d).aestronglyMeasurable (ae_of_all _ fun x => ?_)
  rw [Real.norm_eq_abs, abs_of_pos ((errors_ordered hv).pos d x)]
  exact hB x

/-- The factor in front of the exponential. -/
def front (v : NNReal) : ℝ := (√(2 * Real.pi * v))⁻¹

theorem front_pos (hv : v ≠ 0) : 0 < front v := by
  have : (0 : ℝ) < v := by positivity
  unfold front
  positivity

theorem errors_eq (d x : ℝ) : gaussianErrors v d x = front v * Real.exp (-(d - x) ^ 2 / (2 * v)) := rfl

theorem bounds (hv : v ≠ 0) (hS : MeasurableSet S) (hp : BoundedPopulation S K p) (d : ℝ) :
    front v * Real.exp (-(d ^ 2 + 2 * K * |d| + K ^ 2) / (2 * v)) * ∫ x in S, p x ≤
        dataDensity (volume.restrict S) (gaussianErrors v) p d ∧
      dataDensity (volume.restrict S) (gaussianErrors v) p d ≤
        front v * Real.exp (-(d ^ 2 - 2 * K * |d|) / (2 * v)) * ∫ x in S, p x := by
  have hv0 : (0 : ℝ) < v := by positivity
  have hf := front_pos hv
  have hi := integrable_data hv hp d
  have hx : ∀ x, |x| ≤ K → |d * x| ≤ K * |d| := fun x h => by
    rw [abs_mul, mul_comm]
    exact mul_le_mul_of_nonneg_right h (abs_nonneg d)
  unfold dataDensity
  rw [← integral_const_mul, ← integral_const_mul]
  constructor
  · refine setIntegral_mono_on (hp.integrable.const_mul _) hi hS fun x hxS => ?_
    rcases lt_or_ge K |x| with h | h
    · rw [hp.zero x hxS h, mul_zero, mul_zero]
    · refine mul_le_mul_of_nonneg_right ?_ (hp.nonneg x hxS)
      rw [errors_eq]
      refine mul_le_mul_of_nonneg_left (Real.exp_le_exp.2 (div_le_div_of_nonneg_right ?_ (by positivity))) hf.le
      have h1 := neg_abs_le (d * x)
      have h2 := hx x h
      have h3 : x ^ 2 ≤ K ^ 2 := by
        rw [← sq_abs]
        exact pow_le_pow_left₀ (abs_nonneg x) h 2
      nlinarith
  · refine setIntegral_mono_on hi (hp.integrable.const_mul _) hS fun x hxS => ?_
    rcases lt_or_ge K |x| with h | h
    · rw [hp.zero x hxS h, mul_zero, mul_zero]
    · refine mul_le_mul_of_nonneg_right ?_ (hp.nonneg x hxS)
      rw [errors_eq]
      refine mul_le_mul_of_nonneg_left (Real.exp_le_exp.2 (div_le_div_of_nonneg_right ?_ (by positivity))) hf.le
      have h1 := le_abs_self (d * x)
      have h2 := hx x h
      nlinarith [sq_nonneg x]

theorem data_pos (hv : v ≠ 0) (hS : MeasurableSet S) (hp : BoundedPopulation S K p) (d : ℝ) :
    0 < dataDensity (volume.restrict S) (gaussianErrors v) p d :=
  lt_of_lt_of_le (mul_pos (mul_pos (front_pos hv) (Real.exp_pos _)) hp.pos) (bounds hv hS hp d).1

theorem sources_integrable {like : ℝ → ℝ → ℝ} {ν : Measure ℝ} [SFinite ν] (hl : OrderedMeasurement like)
    (hpm : Measurable p) (hpi : Integrable p ν) :
    Integrable (fun z : ℝ × ℝ => like z.2 z.1 * p z.1) (ν.prod (volume.restrict Det)) := by
  have hm : Measurable fun z : ℝ × ℝ => like z.2 z.1 * p z.1 := hl.measurable.mul (hpm.comp measurable_fst)
  have hi1 : ∀ x, Integrable fun d => like d x := fun x => by
    have hmx : Measurable fun d => like d x := hl.measurable.comp (measurable_const.prodMk measurable_id)
    refine ⟨hmx.aestronglyMeasurable, ?_⟩
    rw [hasFiniteIntegral_iff_ofReal (ae_of_all _ fun d => (hl.pos d x).le), hl.normalised x]
    exact ENNReal.one_lt_top
  refine (integrable_prod_iff hm.aestronglyMeasurable).2 ⟨?_, ?_⟩
  · exact ae_of_all _ fun x => ((hi1 x).mul_const (p x)).integrableOn
  · refine Integrable.mono' hpi.norm
      (hm.norm.stronglyMeasurable.integral_prod_right').aestronglyMeasurable (ae_of_all _ fun x => ?_)
    have h1 : ∫ d, like d x = 1 := by
      rw [integral_eq_lintegral_of_nonneg_ae (ae_of_all _ fun d => (hl.pos d x).le) (hi1 x).1, hl.normalised x]
      rfl
    have h2 : ∫ d in Det, ‖like d x * p x‖ ≤ ∫ d, ‖like d x * p x‖ :=
      setIntegral_le_integral ((hi1 x).mul_const (p x)).norm (ae_of_all _ fun _ => norm_nonneg _)
    have h3 : ∫ d, ‖like d x * p x‖ = ‖p x‖ := by
      simp only [norm_mul, Real.norm_of_nonneg (hl.pos _ x).le]
      rw [integral_mul_const, h1, one_mul]
    rw [Real.norm_of_nonneg (integral_nonneg fun _ => norm_nonneg _)]
    exact h2.trans h3.le

theorem bounded_population (hv : v ≠ 0) (hS : MeasurableSet S) (hp : BoundedPopulation S K p) :
    Population (volume.restrict S) volume (gaussianErrors v) Det p :=
  ⟨hp.measurable, sources_integrable (errors_ordered hv) hp.measurable hp.integrable,
    fun d _ => data_pos hv hS hp d⟩

theorem integrable_tail (hv : v ≠ 0) (c : ℝ) : Integrable fun d : ℝ => gaussianErrors v d 0 * Real.exp (c * d) := by
  have h := integrable_exp_mul_gaussianReal (μ := 0) (v := v) c
  rw [gaussianReal_of_var_ne_zero 0 hv,
    integrable_withDensity_iff_integrable_smul' (measurable_gaussianPDF 0 v)
      (ae_of_all _ fun _ => by simp [gaussianPDF])] at h
  refine h.congr (ae_of_all _ fun d => ?_)
  simp [gaussianPDF, gaussianErrors, ENNReal.toReal_ofReal (gaussianPDFReal_nonneg 0 v d)]

theorem log_ratio (hv : v ≠ 0) (hS : MeasurableSet S) (h₀ : BoundedPopulation S K p₀)
    (h₁ : BoundedPopulation S K p₁) (d : ℝ) :
    Real.log (dataDensity (volume.restrict S) (gaussianErrors v) p₁ d /
        dataDensity (volume.restrict S) (gaussianErrors v) p₀ d) ≤
      Real.log ((∫ x in S, p₁ x) / ∫ x in S, p₀ x) + (4 * K * |d| + K ^ 2) / (2 * v) := by
  have hv0 : (0 : ℝ) < v := by positivity
  have b1 := (bounds hv hS h₁ d).2
  have b0 := (bounds hv hS h₀ d).1
  have d0 := data_pos hv hS h₀ d
  have d1 := data_pos hv hS h₁ d
  have i0 := h₀.pos
  have i1 := h₁.pos
  have hf := front_pos hv
  have hlow := mul_pos (mul_pos hf (Real.exp_pos (-(d ^ 2 + 2 * K * |d| + K ^ 2) / (2 * v)))) i0
  have hup := mul_pos (mul_pos hf (Real.exp_pos (-(d ^ 2 - 2 * K * |d|) / (2 * v)))) i1
  have l1 := Real.log_le_log d1 b1
  have l0 := Real.log_le_log hlow b0
  rw [Real.log_mul (mul_pos hf (Real.exp_pos _)).ne' i1.ne', Real.log_mul hf.ne' (Real.exp_pos _).ne', Real.log_exp] at l1
  rw [Real.log_mul (mul_pos hf (Real.exp_pos _)).ne' i0.ne', Real.log_mul hf.ne' (Real.exp_pos _).ne', Real.log_exp] at l0
  rw [Real.log_div d1.ne' d0.ne', Real.log_div i1.ne' i0.ne']
  have e : (4 * K * |d| + K ^ 2) / (2 * v) =
      -(d ^ 2 - 2 * K * |d|) / (2 * v) - -(d ^ 2 + 2 * K * |d| + K ^ 2) / (2 * v) := by
    rw [← sub_div]
    congr 1
    ring
  linarith

theorem bounded_comparable (hv : v ≠ 0) (hS : MeasurableSet S) (hD : MeasurableSet Det) (hK : 0 ≤ K)
    (h₀ : BoundedPopulation S K p₀) (h₁ : BoundedPopulation S K p₁) :
    Comparable (volume.restrict S) volume (gaussianErrors v) Det p₀ p₁ := by
  have hv0 : (0 : ℝ) < v := by positivity
  have hs := Measured.survey (errors_ordered hv) hD
  have m0 := measurable_density (ν := volume.restrict S) hs h₀.measurable
  have m1 := measurable_density (ν := volume.restrict S) hs h₁.measurable
  set D0 := dataDensity (volume.restrict S) (gaussianErrors v) p₀ with hD0
  set D1 := dataDensity (volume.restrict S) (gaussianErrors v) p₁ with hD1
  set A := |Real.log ((∫ x in S, p₁ x) / ∫ x in S, p₀ x)| + K ^ 2 / (2 * v) with hA
  set B := 2 * K / v with hB
  have hA0 : 0 ≤ A := by positivity
  have hB0 : 0 ≤ B := by positivity
  have hlog : ∀ d, |Real.log (D1 d / D0 d)| ≤ A + B * |d| := by
    intro d
    have e : (4 * K * |d| + K ^ 2) / (2 * v) = B * |d| + K ^ 2 / (2 * v) := by
      rw [hB]
      field_simp
      ring
    have u := log_ratio hv hS h₀ h₁ d
    have l := log_ratio hv hS h₁ h₀ d
    rw [← inv_div, Real.log_inv, ← inv_div (∫ x in S, p₁ x), Real.log_inv] at l
    rw [e] at u l
    rw [abs_le, hA]
    have := le_abs_self (Real.log ((∫ x in S, p₁ x) / ∫ x in S, p₀ x))
    have := neg_abs_le (Real.log ((∫ x in S, p₁ x) / ∫ x in S, p₀ x))
    constructor <;> linarith
  set c := K / v + 1 with hc
  have hc1 : 0 ≤ K / v := by positivity
  have hdom : Integrable fun d : ℝ => (A + B) * (∫ x in S, p₀ x) *
      (gaussianErrors v d 0 * Real.exp (c * d) + gaussianErrors v d 0 * Real.exp (-c * d)) :=
    ((integrable_tail hv c).add (integrable_tail hv (-c))).const_mul _
  refine Integrable.mono' hdom.integrableOn
    (m0.mul (Real.measurable_log.comp (m1.div m0))).aestronglyMeasurable (ae_of_all _ fun d => ?_)
  have b0 := (bounds hv hS h₀ d).2
  have d0 := data_pos hv hS h₀ d
  rw [Real.norm_eq_abs, abs_mul, abs_of_pos d0]
  have e1 : A + B * |d| ≤ (A + B) * Real.exp |d| := by
    have h1 := Real.add_one_le_exp |d|
    have h2 := abs_nonneg d
    nlinarith [mul_nonneg hA0 h2]
  have e2 : front v * Real.exp (-(d ^ 2 - 2 * K * |d|) / (2 * v)) * Real.exp |d| =
      gaussianErrors v d 0 * Real.exp (c * |d|) := by
    rw [errors_eq, mul_assoc (front v), mul_assoc (front v), ← Real.exp_add, ← Real.exp_add]
    congr 2
    rw [hc]
    field_simp
    ring
  have e3 : Real.exp (c * |d|) ≤ Real.exp (c * d) + Real.exp (-c * d) := by
    rcases abs_choice d with h | h <;> rw [h]
    · linarith [Real.exp_pos (-c * d)]
    · rw [mul_neg, ← neg_mul]
      linarith [Real.exp_pos (c * d)]
  have hg : 0 ≤ gaussianErrors v d 0 := ((errors_ordered hv).pos d 0).le
  have i0 := h₀.pos
  calc D0 d * |Real.log (D1 d / D0 d)|
      ≤ (front v * Real.exp (-(d ^ 2 - 2 * K * |d|) / (2 * v)) * ∫ x in S, p₀ x) * ((A + B) * Real.exp |d|) :=
        mul_le_mul b0 ((hlog d).trans e1) (abs_nonneg _) (d0.le.trans b0)
    _ = (A + B) * (∫ x in S, p₀ x) * (gaussianErrors v d 0 * Real.exp (c * |d|)) := by rw [← e2]; ring
    _ ≤ _ := by
        rw [← mul_add]
        exact mul_le_mul_of_nonneg_left (mul_le_mul_of_nonneg_left e3 hg) (by positivity)

/-- The measure whose moment generating function gives the density of the data. -/
def weighted (S : Set ℝ) (v : NNReal) (p : ℝ → ℝ) : Measure ℝ :=
  (volume.restrict S).withDensity fun x => ENNReal.ofReal (Real.exp (-x ^ 2 / (2 * v)) * p x)

theorem weighted_measurable (hp : Measurable p) :
    Measurable fun x => ENNReal.ofReal (Real.exp (-x ^ 2 / (2 * v)) * p x) := by
  fun_prop

theorem weighted_integral (hS : MeasurableSet S) (hp : BoundedPopulation S K p) (t : ℝ) :
    (Integrable (fun x => Real.exp (t * x)) (weighted S v p) ↔
      IntegrableOn (fun x => Real.exp (t * x) * (Real.exp (-x ^ 2 / (2 * v)) * p x)) S) ∧
    ∫ x, Real.exp (t * x) ∂weighted S v p = ∫ x in S, Real.exp (t * x) * (Real.exp (-x ^ 2 / (2 * v)) * p x) := by
  have hm := weighted_measurable (v := v) hp.measurable
  have he : ∀ᵐ x ∂volume.restrict S, (ENNReal.ofReal (Real.exp (-x ^ 2 / (2 * v)) * p x)).toReal • Real.exp (t * x) =
      Real.exp (t * x) * (Real.exp (-x ^ 2 / (2 * v)) * p x) := by
    refine (ae_restrict_iff' hS).2 (ae_of_all _ fun x hx => ?_)
    rw [ENNReal.toReal_ofReal (mul_nonneg (Real.exp_pos _).le (hp.nonneg x hx)), smul_eq_mul, mul_comm]
  unfold weighted
  constructor
  · rw [integrable_withDensity_iff_integrable_smul' hm (ae_of_all _ fun _ => ENNReal.ofReal_lt_top)]
    exact integrable_congr he
  · rw [integral_withDensity_eq_integral_toReal_smul hm (ae_of_all _ fun _ => ENNReal.ofReal_lt_top)]
    exact integral_congr_ae he

theorem shift (hv : v ≠ 0) (t x : ℝ) : Real.exp (t * x) * (Real.exp (-x ^ 2 / (2 * v)) * p x) =
    (front v)⁻¹ * Real.exp ((t * v) ^ 2 / (2 * v)) * (gaussianErrors v (t * v) x * p x) := by
  have hv0 : (v : ℝ) ≠ 0 := by exact_mod_cast hv
  have hf := (front_pos hv).ne'
  have e : Real.exp (t * x) * Real.exp (-x ^ 2 / (2 * v)) =
      Real.exp ((t * v) ^ 2 / (2 * v)) * Real.exp (-(t * v - x) ^ 2 / (2 * v)) := by
    rw [← Real.exp_add, ← Real.exp_add]
    congr 1
    field_simp
    ring
  rw [errors_eq, ← mul_assoc, e]
  field_simp

theorem weighted_exp (hv : v ≠ 0) (hS : MeasurableSet S) (hp : BoundedPopulation S K p) (t : ℝ) :
    Integrable (fun x => Real.exp (t * x)) (weighted S v p) := by
  rw [(weighted_integral hS hp t).1]
  simp only [shift hv]
  exact (integrable_data hv hp _).const_mul _

theorem mgf_eq (hv : v ≠ 0) (hS : MeasurableSet S) (hp : BoundedPopulation S K p) (t : ℝ) :
    mgf id (weighted S v p) t = (front v)⁻¹ * Real.exp ((t * v) ^ 2 / (2 * v)) *
      dataDensity (volume.restrict S) (gaussianErrors v) p (t * v) := by
  unfold mgf dataDensity
  simp only [id]
  rw [(weighted_integral hS hp t).2, ← integral_const_mul]
  simp only [shift hv]

theorem expSet_univ (hv : v ≠ 0) (hS : MeasurableSet S) (hp : BoundedPopulation S K p) :
    integrableExpSet id (weighted S v p) = univ :=
  eq_univ_of_forall fun t => weighted_exp hv hS hp t

theorem weighted_finite (hv : v ≠ 0) (hS : MeasurableSet S) (hp : BoundedPopulation S K p) :
    IsFiniteMeasure (weighted S v p) := by
  have h := weighted_exp hv hS hp 0
  simp only [zero_mul, Real.exp_zero] at h
  exact (integrable_const_iff_isFiniteMeasure one_ne_zero).1 h

/-- The density of the data on a set that is not negligible determines the population. -/
theorem unique (hv : v ≠ 0) (hS : MeasurableSet S) (hD : MeasurableSet Det) (hDv : volume Det ≠ 0)
    (h₀ : BoundedPopulation S K p₀) (h₁ : BoundedPopulation S K p₁)
    (h : ∀ᵐ d ∂volume.restrict Det, dataDensity (volume.restrict S) (gaussianErrors v) p₁ d =
      dataDensity (volume.restrict S) (gaussianErrors v) p₀ d) :
    ∀ᵐ x ∂volume.restrict S, p₁ x = p₀ x := by
  have hv0 : (0 : ℝ) < v := by positivity
  have a0 : AnalyticOnNhd ℝ (mgf id (weighted S v p₀)) univ := by
    have := analyticOnNhd_mgf (X := id) (μ := weighted S v p₀)
    rwa [expSet_univ hv hS h₀, interior_univ] at this
  have a1 : AnalyticOnNhd ℝ (mgf id (weighted S v p₁)) univ := by
    have := analyticOnNhd_mgf (X := id) (μ := weighted S v p₁)
    rwa [expSet_univ hv hS h₁, interior_univ] at this
  have a := a1.sub a0
  have hmgf : mgf id (weighted S v p₁) = mgf id (weighted S v p₀) := by
    by_contra hne
    obtain ⟨t, ht⟩ := Function.ne_iff.1 hne
    have hcod := a.preimage_zero_mem_codiscrete (x := t) (by simpa [sub_eq_zero] using ht)
    have hae : ∀ᵐ t : ℝ, mgf id (weighted S v p₁) t ≠ mgf id (weighted S v p₀) t := by
      have := ae_restrict_le_codiscreteWithin (μ := (volume : Measure ℝ)) (U := univ) MeasurableSet.univ hcod
      rw [Measure.restrict_univ] at this
      filter_upwards [this] with t ht h
      exact ht (by simp [h])
    have hae' : ∀ᵐ d : ℝ, mgf id (weighted S v p₁) (d / v) ≠ mgf id (weighted S v p₀) (d / v) := by
      have hq : Measure.QuasiMeasurePreserving (fun d : ℝ => d / v) volume volume := by
        refine ⟨by fun_prop, ?_⟩
        have e : (fun d : ℝ => d / v) = fun d => (v : ℝ)⁻¹ * d := by
          funext d
          rw [div_eq_inv_mul]
        rw [e, Real.map_volume_mul_left (inv_ne_zero hv0.ne')]
        exact Measure.smul_absolutelyContinuous
      exact hq.ae hae
    rw [ae_restrict_iff' hD] at h
    refine hDv (measure_mono_null (fun d hd => ?_) (measure_union_null h hae'))
    by_contra hn
    simp only [mem_union, mem_compl_iff, Set.mem_ofPred_eq, not_or, not_not] at hn
    refine hn.2 ?_
    rw [mgf_eq hv hS h₁, mgf_eq hv hS h₀, div_mul_cancel₀ _ hv0.ne', hn.1 hd]
  have f0 := weighted_finite (v := v) hv hS h₀
  have f1 := weighted_finite (v := v) hv hS h₁
  have hz : ∀ {q : ℝ → ℝ}, BoundedPopulation S K q → weighted S v q ≠ 0 := by
    intro q hq h0
    have h1 := mgf_eq hv hS hq 0
    rw [h0, mgf_zero_measure] at h1
    have h2 := data_pos hv hS hq (0 * v)
    have h3 := inv_pos.2 (front_pos hv)
    exact absurd h1 (mul_pos (mul_pos h3 (Real.exp_pos _)) h2).ne
  have hc := eqOn_complexMGF_of_mgf' hmgf (iff_of_false (hz h₁) (hz h₀))
  have hμ : weighted S v p₁ = weighted S v p₀ := Measure.ext_of_complexMGF_id_eq (funext fun z => hc (by
    simp [expSet_univ hv hS h₁]))
  have hw := (withDensity_eq_iff_of_sigmaFinite (weighted_measurable h₁.measurable).aemeasurable
    (weighted_measurable h₀.measurable).aemeasurable).1 hμ
  filter_upwards [hw, ae_restrict_mem hS] with x hx hxS
  have k1 := mul_nonneg (Real.exp_pos (-x ^ 2 / (2 * v))).le (h₁.nonneg x hxS)
  have k0 := mul_nonneg (Real.exp_pos (-x ^ 2 / (2 * v))).le (h₀.nonneg x hxS)
  rw [ENNReal.ofReal_eq_ofReal_iff k1 k0] at hx
  exact mul_left_cancel₀ (Real.exp_pos _).ne' hx

theorem scaled (hp : BoundedPopulation S K p) {c : ℝ} (hc : 0 < c) : BoundedPopulation S K fun x => p x / c :=
  ⟨hp.measurable.div_const _, fun x hx => div_nonneg (hp.nonneg x hx) hc.le, hp.integrable.div_const _, by
    rw [integral_div]
    exact div_pos hp.pos hc, fun x hx h => by rw [hp.zero x hx h, zero_div]⟩

end GaussianErrors

open GaussianErrors

/-! ## The property -/

/-- **C159.** Two populations that give the same data of detected sources are the same, up to a constant. -/
theorem C159_same (hv : v ≠ 0) (hS : MeasurableSet S) (hD : MeasurableSet Det) (hDv : volume Det ≠ 0)
    (h₀ : BoundedPopulation S K p₀) (h₁ : BoundedPopulation S K p₁)
    (h : SameData (volume.restrict S) volume (gaussianErrors v) Det p₀ p₁) :
    ∃ k > 0, ∀ᵐ x ∂volume.restrict S, p₁ x = k * p₀ x := by
  have hs := Measured.survey (errors_ordered hv) hD
  have f0 := fraction_pos hs (bounded_population (Det := Det) hv hS h₀) hDv
  have f1 := fraction_pos hs (bounded_population (Det := Det) hv hS h₁) hDv
  refine ⟨_, div_pos f1 f0, ?_⟩
  have hd : ∀ (q : ℝ → ℝ) (c d : ℝ), dataDensity (volume.restrict S) (gaussianErrors v) (fun x => q x / c) d =
      dataDensity (volume.restrict S) (gaussianErrors v) q d / c := fun q c d => by
    unfold dataDensity
    rw [← integral_div]
    exact integral_congr_ae (ae_of_all _ fun x => (mul_div_assoc _ _ _).symm)
  have hu := unique hv hS hD hDv (scaled h₀ f0) (scaled h₁ f1) (by
    filter_upwards [h] with d e
    rw [hd, hd, e])
  filter_upwards [hu] with x hx
  rw [div_eq_div_iff f1.ne' f0.ne'] at hx
  field_simp
  linarith

/-- **C159.** Events detected from the population `p j₀` of the package are analysed for finitely many candidates
`p j`, which are densities and describe other populations: the posterior is concentrated on `j₀`. -/
theorem C159_recovers {J : Type} [Fintype J] {F : J → ℝ → Except PyErr Fl} {p : J → ℝ → ℝ} {j₀ : J} (hv : v ≠ 0)
    (hS : MeasurableSet S) (hD : MeasurableSet Det) (hF : ∀ j, IsDensityOn (F j) S)
    (hp : ∀ j, ∀ x ∈ S, F j x = .ok (fin (p j x))) (hm : ∀ j, Measurable (p j))
    (hK : ∀ j, ∀ x ∈ S, K < |x| → F j x = .ok (fin 0)) (hne : ∀ j, j ≠ j₀ → ¬ SamePopulation S (F j₀) (F j)) :
    Recovers (volume.restrict S) volume (gaussianErrors v) Det p j₀ := by
  have hb : ∀ j, BoundedPopulation S |K| (p j) := by
    intro j
    obtain ⟨g, e, hg, hi, h1⟩ := hF j
    have eg : ∀ x ∈ S, g x = p j x := fun x hx => by
      have := (e x hx).symm.trans (hp j x hx)
      exact Fl.fin.inj (Except.ok.inj this)
    refine ⟨hm j, fun x hx => eg x hx ▸ hg x hx, hi.congr_fun eg hS, ?_, fun x hx h => ?_⟩
    · rw [← setIntegral_congr_fun hS eg, h1]
      exact one_pos
    · have := (hp j x hx).symm.trans (hK j x hx ((le_abs_self K).trans_lt h))
      exact Fl.fin.inj (Except.ok.inj this)
  have hone : ∀ j, ∫ x in S, p j x = 1 := by
    intro j
    obtain ⟨g, e, -, -, h1⟩ := hF j
    rw [← h1]
    refine setIntegral_congr_fun hS fun x hx => ?_
    have := (hp j x hx).symm.trans (e x hx)
    exact Fl.fin.inj (Except.ok.inj this)
  intro Ω _ P _ d hd w hw
  have hDv := detectable_of_events hd
  refine C147_posterior (Measured.survey (errors_ordered hv) hD)
    (fun j => bounded_population hv hS (hb j))
    (fun j _ => bounded_comparable hv hS hD (abs_nonneg K) (hb j₀) (hb j)) (fun j hj hsame => hne j hj ?_) hd hw
  obtain ⟨k, hk, e⟩ := C159_same hv hS hD hDv (hb j₀) (hb j) hsame
  have hk1 : k = 1 := by
    have h1 := hone j
    rw [integral_congr_ae e, integral_const_mul, hone j₀, mul_one] at h1
    exact h1
  rw [ae_restrict_iff' hS] at e
  filter_upwards [e] with x hx hxS
  rw [hp j₀ x hxS, hp j x hxS, hx hxS, hk1, one_mul]

namespace GaussianErrors

/-- A number that no upper limit exceeds. -/
def allBelow {J : Type} [Fintype J] (hi : J → ℝ) : ℝ := ∑ j, |hi j|

theorem le_allBelow {J : Type} [Fintype J] (hi : J → ℝ) (j : J) : hi j ≤ allBelow hi :=
  (le_abs_self _).trans (Finset.single_le_sum (f := fun j => |hi j|) (fun _ _ => abs_nonneg _) (Finset.mem_univ j))

theorem zero_above {f : ℝ → ℝ} {lo hi x : ℝ} (h : hi < x) : Spec.normalised f lo hi x = 0 := by
  rw [Spec.normalised, if_neg fun k => absurd k.2 (not_le.2 h)]

theorem samePopulation_symm {F G : ℝ → Except PyErr Fl} (h : SamePopulation S F G) : SamePopulation S G F :=
  h.mono fun _ k hx => (k hx).symm

end GaussianErrors

/-- **C159** for the index, the minimum and the maximum of the power law in mass. -/
theorem C159_mass {J : Type} [Fintype J] {p : J → ℝ → ℝ} {j₀ : J} (b : Backend) (py : Bool) {a lo hi : J → ℝ}
    (h0 : ∀ j, 0 < lo j) (h : ∀ j, lo j < hi j) (ha : ∀ j, b = .jax ∨ a j ≠ -1)
    (hinj : ∀ j, j ≠ j₀ → (a j, lo j, hi j) ≠ (a j₀, lo j₀, hi j₀))
    (hp : ∀ j m, 0 < m → powerLawMass b py (fin m) (fin (a j)) (fin (lo j)) (fin (hi j)) = .ok (fin (p j m)))
    (hm : ∀ j, Measurable (p j)) (hv : v ≠ 0) (hD : MeasurableSet Det) :
    Recovers (volume.restrict (Ioi 0)) volume (gaussianErrors v) Det p j₀ := by
  refine C159_recovers (K := allBelow hi)
    (F := fun j m => powerLawMass b py (fin m) (fin (a j)) (fin (lo j)) (fin (hi j))) hv measurableSet_Ioi hD
    (fun j => C01_powerlaw_isDensity b py false true true true (h0 j) (h j)
      ((ha j).imp_right fun h => Or.inr fun h' => h (by linarith))) hp hm (fun j x hx hK => ?_) fun j hj hs => ?_
  · rw [C18_powerLawMass_value b py (ha j) (h0 j) (h j) hx,
      zero_above ((le_allBelow hi j).trans_lt (by rwa [abs_of_pos hx] at hK))]
  · obtain ⟨e1, e2, e3⟩ := C156_mass b py (h0 j₀) (h j₀) (h0 j) (h j) (ha j₀) (ha j) hs
    exact hinj j hj (by rw [e1, e2, e3])

/-- **C159** for both indices, the break and the limits of the broken power law in mass. -/
theorem C159_broken {J : Type} [Fintype J] {p : J → ℝ → ℝ} {j₀ : J} (b : Backend) (py : Bool)
    {a1 a2 lo hi bf : J → ℝ} (h0 : ∀ j, 0 < lo j) (h : ∀ j, lo j < hi j) (b0 : ∀ j, 0 < bf j) (b1 : ∀ j, bf j < 1)
    (ha1 : ∀ j, b = .jax ∨ a1 j ≠ -1) (ha2 : ∀ j, b = .jax ∨ a2 j ≠ -1) (hbreak : a1 j₀ ≠ a2 j₀)
    (hinj : ∀ j, j ≠ j₀ → (a1 j, a2 j, lo j, hi j, bf j) ≠ (a1 j₀, a2 j₀, lo j₀, hi j₀, bf j₀))
    (hp : ∀ j m, 0 < m → doublePowerLawPrimaryMass b py (fin m) (fin (a1 j)) (fin (a2 j)) (fin (lo j)) (fin (hi j))
      (fin (bf j)) = .ok (fin (p j m)))
    (hm : ∀ j, Measurable (p j)) (hv : v ≠ 0) (hD : MeasurableSet Det) :
    Recovers (volume.restrict (Ioi 0)) volume (gaussianErrors v) Det p j₀ := by
  refine C159_recovers (K := allBelow hi)
    (F := fun j m => doublePowerLawPrimaryMass b py (fin m) (fin (a1 j)) (fin (a2 j)) (fin (lo j)) (fin (hi j))
      (fin (bf j))) hv measurableSet_Ioi hD
    (fun j => C17_doublePowerLaw_isDensity b py (ha1 j) (ha2 j) (h0 j) (h j) (b0 j) (b1 j)) hp hm
    (fun j x hx hK => ?_) fun j hj hs => ?_
  · rw [C17_doublePowerLaw_value b py (ha1 j) (ha2 j) (h0 j) (h j) (b0 j) (b1 j) hx,
      zero_above ((le_allBelow hi j).trans_lt (by rwa [abs_of_pos hx] at hK))]
  · obtain ⟨e1, e2, e3, e4, e5⟩ := C156_broken b py (h0 j₀) (h j₀) (h0 j) (h j) (b0 j₀) (b1 j₀) (b0 j) (b1 j)
      (ha1 j₀) (ha2 j₀) (ha1 j) (ha2 j) hs
    exact hinj j hj (by rw [e1, e2, e3, e4, e5 hbreak])

/-- **C159** for the mean, the width and the limits of the truncated Gaussian. -/
theorem C159_truncnorm {J : Type} [Fintype J] {p : J → ℝ → ℝ} {j₀ : J} (b : Backend) (k₁ k₂ k₃ k₄ k₅ : Bool)
    {mu sigma lo hi : J → ℝ} (hs : ∀ j, 0 < sigma j) (h : ∀ j, lo j < hi j)
    (hinj : ∀ j, j ≠ j₀ → (mu j, sigma j, lo j, hi j) ≠ (mu j₀, sigma j₀, lo j₀, hi j₀))
    (hp : ∀ j x, truncnorm b ⟨fin x, k₁⟩ ⟨fin (mu j), k₂⟩ ⟨fin (sigma j), k₃⟩ ⟨fin (hi j), k₄⟩ ⟨fin (lo j), k₅⟩ =
      .ok (fin (p j x)))
    (hm : ∀ j, Measurable (p j)) (hv : v ≠ 0) (hD : MeasurableSet Det) :
    Recovers (volume.restrict univ) volume (gaussianErrors v) Det p j₀ := by
  refine C159_recovers (K := allBelow hi + allBelow fun j => -lo j)
    (F := fun j x => truncnorm b ⟨fin x, k₁⟩ ⟨fin (mu j), k₂⟩ ⟨fin (sigma j), k₃⟩ ⟨fin (hi j), k₄⟩ ⟨fin (lo j), k₅⟩)
    hv MeasurableSet.univ hD (fun j => C03_truncnorm_isDensity b k₁ k₂ k₃ k₄ k₅ (hs j) (h j) univ (subset_univ _))
    (fun j x _ => hp j x) hm (fun j x _ hK => ?_) fun j hj hsame => ?_
  · rw [C03_truncnorm_value b k₁ k₂ k₃ k₄ k₅ x (hs j) (h j), Spec.normalised, if_neg]
    rintro ⟨l1, l2⟩
    have h1 := le_allBelow hi j
    have h2 := le_allBelow (fun j => -lo j) j
    have h3 : 0 ≤ allBelow hi := Finset.sum_nonneg fun _ _ => abs_nonneg _
    have h4 : 0 ≤ allBelow fun j => -lo j := Finset.sum_nonneg fun _ _ => abs_nonneg _
    have h5 : |x| ≤ allBelow hi + allBelow fun j => -lo j := abs_le.2 ⟨by linarith, by linarith⟩
    exact absurd h5 (not_le.2 hK)
  · obtain ⟨e1, e2, e3, e4⟩ := C156_truncnorm b k₁ k₂ k₃ k₄ k₅ (hs j₀) (hs j) (h j₀) (h j) hsame
    exact hinj j hj (by rw [e1, e2, e3, e4])

/-- **C159** for the fraction of black holes in the Gaussian peak of the mass model. -/
theorem C159_fraction {J : Type} [Fintype J] {p : J → ℝ → ℝ} {j₀ : J} (b : Backend) (py : Bool)
    {a mmin mmax mpp sigpp gmm : ℝ} {lam : J → ℝ} (ha : b = .jax ∨ a ≠ -1) (h0 : 0 < mmin) (h : mmin < mmax)
    (hg : mmin < gmm) (hs : 0 < sigpp) (l0 : ∀ j, 0 ≤ lam j) (l1 : ∀ j, lam j ≤ 1)
    (hinj : ∀ j, j ≠ j₀ → lam j ≠ lam j₀)
    (hp : ∀ j m, 0 < m → twoComponentSingle b py (fin m) (fin a) (fin mmin) (fin mmax) (fin (lam j)) (fin mpp)
      (fin sigpp) (fin gmm) = .ok (fin (p j m)))
    (hm : ∀ j, Measurable (p j)) (hv : v ≠ 0) (hD : MeasurableSet Det) :
    Recovers (volume.restrict (Ioi 0)) volume (gaussianErrors v) Det p j₀ := by
  have hd := fun j => C18_twoComponentSingle_isDensity (mpp := mpp) b py ha h0 h hg hs (l0 j) (l1 j)
  refine C159_recovers (K := max mmax gmm)
    (F := fun j m => twoComponentSingle b py (fin m) (fin a) (fin mmin) (fin mmax) (fin (lam j)) (fin mpp) (fin sigpp)
      (fin gmm)) hv measurableSet_Ioi hD (fun j => (hd j).1) hp hm
    (fun j x hx hK => (hd j).2 x hx (Or.inr (by rwa [abs_of_pos hx] at hK))) fun j hj hsame => ?_
  set A := ∫ t in mmin..mmax, t ^ (-a) with hA
  set B := ∫ t in mmin..gmm, bell mpp sigpp t with hB
  have hA0 : 0 < A := integral_rpow_pos h0 h
  have hB0 : 0 < B := integral_gaussShape_pos hg
  have hae : ∀ᵐ x : ℝ, x ∈ Ioo mmin (min mmax gmm) → x ^ (-a) / A = bell mpp sigpp x / B := by
    filter_upwards [hsame] with x hx hxI
    have hx0 : 0 < x := h0.trans hxI.1
    have hx1 := hxI.2.trans_le (min_le_left _ _)
    have hx2 := hxI.2.trans_le (min_le_right _ _)
    have e := hx hx0
    simp only [C18_twoComponentSingle_value b py ha h0 h hg hs hx0] at e
    have e := Fl.fin.inj (Except.ok.inj e)
    simp only [Spec.normalised] at e
    rw [if_pos ⟨hxI.1.le, hx1.le⟩, if_pos ⟨hxI.1.le, hx2.le⟩, ← hA, ← hB] at e
    have e2 : (lam j - lam j₀) * (x ^ (-a) / A - bell mpp sigpp x / B) = 0 := by linarith
    rcases mul_eq_zero.1 e2 with k | k
    · exact absurd (sub_eq_zero.1 k) (hinj j hj)
    · linarith
  have hI : mmin < min mmax gmm := lt_min h hg
  have hcont : ∀ x ∈ Ioo mmin (min mmax gmm), x ^ (-a) / A = bell mpp sigpp x / B := by
    have c1 : ContinuousOn (fun x : ℝ => x ^ (-a) / A) (Ioo mmin (min mmax gmm)) :=
      (continuousOn_id.rpow_const fun x hx => Or.inl (h0.trans hx.1).ne').div_const _
    have c2 : ContinuousOn (fun x : ℝ => bell mpp sigpp x / B) (Ioo mmin (min mmax gmm)) :=
      ((gaussShape_continuous mpp sigpp).div_const _).continuousOn
    exact Measure.eqOn_open_of_ae_eq (μ := volume)
      ((ae_restrict_iff' measurableSet_Ioo).2 hae) isOpen_Ioo c1 c2
  have hlog : ∀ x ∈ Ioo mmin (min mmax gmm),
      -a * Real.log x + (x - mpp) ^ 2 / (2 * sigpp ^ 2) = Real.log A - Real.log B := by
    intro x hx
    have hx0 : 0 < x := h0.trans hx.1
    have e := congrArg Real.log (hcont x hx)
    rw [Real.log_div (Real.rpow_pos_of_pos hx0 _).ne' hA0.ne', Real.log_rpow hx0,
      show bell mpp sigpp x = Real.exp (-(x - mpp) ^ 2 / (2 * sigpp ^ 2)) from rfl,
      Real.log_div (Real.exp_pos _).ne' hB0.ne', Real.log_exp, neg_div] at e
    linarith
  have hder : ∀ x ∈ Ioo mmin (min mmax gmm), x ^ 2 - mpp * x - a * sigpp ^ 2 = 0 := by
    intro x hx
    have hx0 : 0 < x := h0.trans hx.1
    have d1 : HasDerivAt (fun x : ℝ => -a * Real.log x + (x - mpp) ^ 2 / (2 * sigpp ^ 2))
        (-a * x⁻¹ + (2 : ℕ) * (x - mpp) ^ (2 - 1) * 1 / (2 * sigpp ^ 2)) x :=
      ((Real.hasDerivAt_log hx0.ne').const_mul (-a)).add
        ((((hasDerivAt_id x).sub_const mpp).pow 2).div_const _)
    have d2 : HasDerivAt (fun x : ℝ => -a * Real.log x + (x - mpp) ^ 2 / (2 * sigpp ^ 2)) 0 x :=
      (hasDerivAt_const x (Real.log A - Real.log B)).congr_of_eventuallyEq
        (Filter.eventuallyEq_of_mem (isOpen_Ioo.mem_nhds hx) hlog)
    have e := d1.unique d2
    simp only [Nat.cast_ofNat, Nat.add_one_sub_one, pow_one, mul_one] at e
    field_simp at e
    linarith
  obtain ⟨δ, hδ, e⟩ : ∃ δ > 0, min mmax gmm = mmin + 4 * δ :=
    ⟨(min mmax gmm - mmin) / 4, by linarith, by ring⟩
  have q1 := hder (mmin + δ) ⟨by linarith, by linarith⟩
  have q2 := hder (mmin + 2 * δ) ⟨by linarith, by linarith⟩
  have q3 := hder (mmin + 3 * δ) ⟨by linarith, by linarith⟩
  nlinarith [sq_nonneg δ, mul_pos hδ hδ]

/-! ## Non-vacuity -/

namespace GaussianErrors

/-- Detected events of a population exist. -/
theorem events_exist (hv : v ≠ 0) (hS : MeasurableSet S) (hD : MeasurableSet Det) (hDv : volume Det ≠ 0)
    (hp : BoundedPopulation S K p) :
    ∃ (Ω : Type) (_ : MeasurableSpace Ω) (P : Measure Ω) (_ : IsProbabilityMeasure P) (d : ℕ → Ω → ℝ),
      DetectedEvents P (volume.restrict S) volume (gaussianErrors v) Det p d := by
  have hpop := bounded_population (Det := Det) hv hS hp
  have hF := fraction_pos (Measured.survey (errors_ordered hv) hD) hpop hDv
  have hprob : IsProbabilityMeasure ((volume.restrict Det).withDensity fun t =>
      ENNReal.ofReal (dataDensity (volume.restrict S) (gaussianErrors v) p t /
        detectedFraction (volume.restrict S) volume (gaussianErrors v) Det p)) := by
    refine ⟨?_⟩
    have hi' := integrable_density hpop
    rw [withDensity_apply _ MeasurableSet.univ, Measure.restrict_univ,
      ← ofReal_integral_eq_lintegral_ofReal (hi'.div_const _)
        (ae_of_all _ fun t => (div_pos (data_pos hv hS hp t) hF).le), integral_div, ← fraction_eq hpop,
      div_self hF.ne', ENNReal.ofReal_one]
  obtain ⟨Ω, mΩ, P, d, hm, hlaw, hi, hP⟩ := exists_iid ℕ ((volume.restrict Det).withDensity fun t =>
      ENNReal.ofReal (dataDensity (volume.restrict S) (gaussianErrors v) p t /
        detectedFraction (volume.restrict S) volume (gaussianErrors v) Det p))
  exact ⟨Ω, mΩ, P, hP, d, hm, fun i => (hlaw i).map_eq, fun i j hij => hi.indepFun hij⟩

/-- For any data an analysis with the package exists, for all bounded populations at once: injections from any
positive density `q`, flat priors. -/
theorem analyses_exist (planck15 : Cosmology) {like : ℝ → ℝ → ℝ} {ν : Measure ℝ} [SigmaFinite ν] (hl : OrderedMeasurement like)
    (hν : ν ≠ 0) (hli : ∀ d, Integrable (like d) ν) (hD : MeasurableSet Det) {q : ℝ → ℝ} (hqm : Measurable q)
    (hq0 : ∀ x, 0 < q x) (hq1 : ∫⁻ x, ENNReal.ofReal (q x) ∂ν = 1)
    {n : ℕ} (data : Fin n → ℝ) (pop : Dict Fl → ℝ → ℝ) (hpm : ∀ φ, Measurable (pop φ))
    (hpi : ∀ φ, Integrable (pop φ) ν) (hpb : ∀ φ, ∃ B, ∀ x, |pop φ x| ≤ B)
    (hpq : ∀ φ, Integrable (fun x => pop φ x ^ 2 / q x) ν) :
    ∃ (Ω' : Type) (_ : MeasurableSpace Ω')
    (P' : Measure Ω') (_ : IsProbabilityMeasure P') (X : ℕ → Ω' → ℝ × ℝ) (vt : ℕ → Ω' → ResamplingVT)
    (Z : Fin n → ℝ) (Y : Fin n → ℕ → Ω' → ℝ) (L : ℕ → ℕ → Ω' → Likelihood),
    ∀ φ, Analysis P' ν volume like Det data q X vt (fun _ _ => 1) Z Y L (pop φ) φ φ := by
  classical
  set Z : Fin n → ℝ := fun i => ∫ x, like (data i) x ∂ν with hZ
  have hZ0 : ∀ i, 0 < Z i := fun i => by
    simp only [hZ]
    rw [integral_pos_iff_support_of_nonneg (fun x => (hl.pos _ x).le) (hli _)]
    rw [show Function.support (like (data i)) = univ from eq_univ_of_forall fun x => (hl.pos _ x).ne']
    exact pos_iff_ne_zero.2 (Measure.measure_univ_ne_zero.2 hν)
  let μX : Measure (ℝ × ℝ) := (joint ν volume like).withDensity fun z => ENNReal.ofReal (q z.1)
  let μY : Fin n → Measure ℝ := fun i => ν.withDensity fun x => ENNReal.ofReal (like (data i) x * 1 / Z i)
  let μ : ℕ ⊕ Fin n × ℕ → Measure (ℝ × ℝ) := fun i => match i with
    | .inl _ => μX
    | .inr j => (μY j.1).prod (Measure.dirac 0)
  have hqm' : Measurable fun z : ℝ × ℝ => ENNReal.ofReal (q z.1) := (hqm.comp measurable_fst).ennreal_ofReal
  have pX : IsProbabilityMeasure μX := by
    refine ⟨?_⟩
    simp only [μX]
    rw [withDensity_apply _ MeasurableSet.univ, Measure.restrict_univ, joint,
      lintegral_withDensity_eq_lintegral_mul _ hl.measurable.ennreal_ofReal hqm',
      lintegral_prod _ (hl.measurable.ennreal_ofReal.mul hqm').aemeasurable]
    simp only [Pi.mul_apply]
    rw [← hq1]
    refine lintegral_congr fun x => ?_
    have hmx : Measurable fun d => ENNReal.ofReal (like d x) :=
      (hl.measurable.comp (measurable_const.prodMk measurable_id)).ennreal_ofReal
    rw [lintegral_mul_const _ hmx, hl.normalised, one_mul]
  have pY : ∀ i, IsProbabilityMeasure (μY i) := by
    intro i
    refine ⟨?_⟩
    simp only [μY, mul_one]
    rw [withDensity_apply _ MeasurableSet.univ, Measure.restrict_univ,
      ← ofReal_integral_eq_lintegral_ofReal ((hli (data i)).div_const _) (ae_of_all _ fun z =>
        div_nonneg (hl.pos _ _).le (hZ0 i).le), integral_div]
    change ENNReal.ofReal (Z i / Z i) = 1
    rw [div_self (hZ0 i).ne', ENNReal.ofReal_one]
  have hμ : ∀ i, IsProbabilityMeasure (μ i) := fun i => match i with
    | .inl _ => pX
    | .inr j => by have := pY j.1; exact inferInstanceAs (IsProbabilityMeasure ((μY j.1).prod _))
  obtain ⟨Ω, mΩ, P, W, hm, hlw, hind, hP⟩ := exists_hasLaw_indepFun (fun _ => ℝ × ℝ) μ
  set X : ℕ → Ω → ℝ × ℝ := fun i => W (.inl i) with hX
  set Y : Fin n → ℕ → Ω → ℝ := fun i k ω => (W (.inr (i, k)) ω).1 with hY
  have lX : ∀ i, P.map (X i) = μX := fun i => (hlw (.inl i)).map_eq
  have lY : ∀ i k, P.map (Y i k) = μY i := by
    intro i k
    have := pY i
    have h := (hlw (.inr (i, k))).map_eq
    rw [show Y i k = Prod.fst ∘ W (.inr (i, k)) from rfl, ← Measure.map_map measurable_fst (hm _), h]
    simp only [μ]
    rw [Measure.map_fst_prod]
    simp
  have iX : Pairwise fun i j => X i ⟂ᵢ[P] X j := fun i j hij =>
    hind.indepFun fun h => hij (Sum.inl.inj h)
  have iY : ∀ i, Pairwise fun k l => Y i k ⟂ᵢ[P] Y i l := fun i k l hkl =>
    (hind.indepFun (i := .inr (i, k)) (j := .inr (i, l)) fun h => hkl (by simpa using h)).comp
      measurable_fst measurable_fst
  have hvt : ∀ xs : List (ℝ × ℝ), ∃ vt : ResamplingVT,
      (∀ φ, BuiltFrom vt φ (fun z => pop φ z.1) (fun z => q z.1) (univ ×ˢ Det) xs) ∧
      vt.marginalizeUncertainty = false ∧ vt.enforceConvergence = false := by
    intro xs
    have hinit : ∃ r, ResamplingVT.init .numpy planck15
        ⟨[], fun _ φ => .ok ((found (univ ×ˢ Det) xs).map fun z => fin (pop φ z.1))⟩
        [("prior", .arr ((found (univ ×ˢ Det) xs).map fun z => fin (q z.1))),
          ("total_generated", .num true (fin xs.length))] pinf false false = .ok r ∧
        r.1.marginalizeUncertainty = false ∧ r.1.enforceConvergence = false := by
      refine ⟨_, rfl, rfl, rfl⟩
    obtain ⟨⟨vt, d⟩, h, h1, h2⟩ := hinit
    refine ⟨vt, fun φ => ⟨_, _, _, _, _, _, _, _, h, rfl, ?_, true, ?_⟩, h1, h2⟩
    · simp [Dict.get?_cons]
    · simp [Dict.get?_cons]
  choose vt hvt using fun (N : ℕ) (ω : Ω) => hvt (firstN X N ω)
  let L : ℕ → ℕ → Ω → Likelihood := fun K N ω =>
    { cls := .hyper, backend := .numpy, data := []
      hyperPrior := ⟨[], fun _ φ =>
        .ok (matFin ((List.finRange n).map fun i => (firstN (Y i) K ω).map (pop φ)))⟩
      samplingPrior := some (matFin ((List.finRange n).map fun i => (firstN (Y i) K ω).map fun _ => 1))
      totalNoiseEvidence := 0, conversion := fun θ => .ok θ, selection := (vt N ω).asSelection
      nPosteriors := n, samplesPerPosterior := K, maximumUncertainty := pinf, maxVariance := pinf }
  have hsq : ∀ φ, ∃ B, ∀ x, |pop φ x ^ 2| ≤ B := fun φ => by
    obtain ⟨B, hB⟩ := hpb φ
    refine ⟨B ^ 2, fun x => ?_⟩
    rw [abs_pow]
    exact pow_le_pow_left₀ (abs_nonneg _) (hB x) 2
  have hjm : ∀ f : ℝ → ℝ, Measurable f → Integrable f ν →
      Integrable (fun z : ℝ × ℝ => f z.1) (joint ν volume like) := fun f hf hfi => by
    rw [joint, integrable_withDensity_iff_integrable_smul' hl.measurable.ennreal_ofReal
      (ae_of_all _ fun _ => ENNReal.ofReal_lt_top)]
    have := sources_integrable (Det := univ) hl hf hfi
    rw [Measure.restrict_univ] at this
    refine this.congr (ae_of_all _ fun z => ?_)
    simp [ENNReal.toReal_ofReal (hl.pos z.2 z.1).le]
  have hlm : ∀ (d : ℝ) (f : ℝ → ℝ), Measurable f → (∃ B, ∀ x, |f x| ≤ B) →
      Integrable (fun x => like d x * f x) ν := fun d f hf ⟨B, hB⟩ =>
    Integrable.mul_bdd (c := B) (hli d) hf.aestronglyMeasurable (ae_of_all _ hB)
  exact ⟨Ω, mΩ, P, hP, X, vt, Z, Y, L, fun φ =>
    { campaign := ⟨(hpm φ).comp measurable_fst, hqm.comp measurable_fst, MeasurableSet.univ.prod hD,
        fun z _ => hq0 z.1, fun i => hm _, lX, (hjm _ (hpm φ) (hpi φ)).integrableOn⟩
      indep := iX
      finite := (hjm _ (((hpm φ).pow_const 2).div hqm) (hpq φ)).integrableOn
      built := fun N _ ω => (hvt N ω).1 φ
      mode := .inl fun N ω => (hvt N ω).2
      samples := fun i => ⟨hpm φ, measurable_const, Measured.like_measurable hl _, fun _ => one_pos,
        fun x => (hl.pos _ x).le, hZ0 i, fun k => measurable_fst.comp (hm _), lY i, iY i,
        hlm _ _ (hpm φ) (hpb φ), (hlm _ _ ((hpm φ).pow_const 2) (hsq φ)).div_const _⟩
      likelihood := fun K N ω => ⟨rfl, rfl, rfl, rfl, rfl⟩
      conversion := fun _ _ _ => rfl
      selection := fun _ _ _ => rfl }⟩

end GaussianErrors

/-- Two candidates that differ in the index and both limits, masses measured with an error of 1, sources detected if
the measured mass is larger than 10. Events and analyses of both candidates exist. -/
example (planck15 : Cosmology) (py : Bool) (data : ℕ → ℝ) : ∃ p : Bool → ℝ → ℝ, (∀ j, Measurable (p j)) ∧
    (∀ j m, 0 < m → powerLawMass .numpy py (fin m) (fin (if j then 2.35 else 3)) (fin (if j then 5 else 6))
      (fin (if j then 50 else 60)) = .ok (fin (p j m))) ∧
    (∃ (Ω : Type) (_ : MeasurableSpace Ω) (P : Measure Ω) (_ : IsProbabilityMeasure P) (d : ℕ → Ω → ℝ),
      DetectedEvents P (volume.restrict (Ioi 0)) volume (gaussianErrors 1) (Ioi 10) (p true) d) ∧
    (∀ (n : ℕ), ∃ (Ω' : Type) (_ : MeasurableSpace Ω') (P' : Measure Ω')
      (_ : IsProbabilityMeasure P') (q : ℝ → ℝ) (X : ℕ → Ω' → ℝ × ℝ) (vt : ℕ → Ω' → ResamplingVT)
      (prior : Fin n → ℝ → ℝ) (Z : Fin n → ℝ) (Y : Fin n → ℕ → Ω' → ℝ) (L : ℕ → ℕ → Ω' → Likelihood)
      (θ : Bool → Dict Fl), ∀ j, Analysis P' (volume.restrict (Ioi 0)) volume (gaussianErrors 1)
        (Ioi 10) (fun i : Fin n => data i) q X vt prior Z Y L (p j) (θ j) (θ j)) ∧
    Recovers (volume.restrict (Ioi 0)) volume (gaussianErrors 1) (Ioi 10) p true := by
  classical
  have hl := errors_ordered (v := 1) one_ne_zero
  obtain ⟨a, ha⟩ : ∃ a : Bool → ℝ, a = fun j => if j then 2.35 else 3 := ⟨_, rfl⟩
  obtain ⟨lo, hlo⟩ : ∃ a : Bool → ℝ, a = fun j => if j then 5 else 6 := ⟨_, rfl⟩
  obtain ⟨hi, hhi⟩ : ∃ a : Bool → ℝ, a = fun j => if j then 50 else 60 := ⟨_, rfl⟩
  have ha1 : ∀ j, a j ≠ -1 := fun j => by cases j <;> norm_num [ha]
  have ha0 : ∀ j, -a j ≤ 0 := fun j => by cases j <;> norm_num [ha]
  have h1 : ∀ j, 1 ≤ lo j := fun j => by cases j <;> norm_num [hlo]
  have h0 : ∀ j, 0 < lo j := fun j => one_pos.trans_le (h1 j)
  have h : ∀ j, lo j < hi j := fun j => by cases j <;> norm_num [hlo, hhi]
  have h60 : ∀ j, hi j ≤ 60 := fun j => by cases j <;> norm_num [hhi]
  have hI : ∀ j, 0 < ∫ t in lo j..hi j, t ^ (-a j) := fun j => integral_rpow_pos (h0 j) (h j)
  obtain ⟨p, hpe⟩ : ∃ p : Bool → ℝ → ℝ, ∀ j x, p j x = if lo j ≤ x ∧ x ≤ hi j then
    x ^ (-a j) / ∫ t in lo j..hi j, t ^ (-a j) else 0 := ⟨fun j x => _, fun j x => rfl⟩
  have hm : ∀ j, Measurable (p j) := fun j => by
    rw [show p j = _ from funext (hpe j)]
    exact Measurable.ite measurableSet_Icc ((measurable_id.pow_const _).div_const _) measurable_const
  have hval : ∀ j m, 0 < m → powerLawMass .numpy py (fin m) (fin (a j)) (fin (lo j)) (fin (hi j)) =
      .ok (fin (p j m)) := fun j m hm0 => by
    rw [C18_powerLawMass_value .numpy py (Or.inr (ha1 j)) (h0 j) (h j) hm0, hpe, Spec.normalised]
  have hnn : ∀ j x, 0 ≤ p j x := fun j x => by
    rw [hpe]
    split_ifs with hx
    · exact div_nonneg (Real.rpow_nonneg ((h0 j).le.trans hx.1) _) (hI j).le
    · exact le_rfl
  have hb : ∀ j x, |p j x| ≤ 1 / ∫ t in lo j..hi j, t ^ (-a j) := fun j x => by
    rw [abs_of_nonneg (hnn j x), hpe]
    split_ifs with hx
    · exact div_le_div_of_nonneg_right (Real.rpow_le_one_of_one_le_of_nonpos ((h1 j).trans hx.1) (ha0 j)) (hI j).le
    · exact (div_pos one_pos (hI j)).le
  have hint : ∀ j, IntegrableOn (p j) (Ioi 0) ∧ ∫ x in Ioi 0, p j x = 1 := fun j => by
    obtain ⟨g, e, -, gi, g1⟩ := C01_powerlaw_isDensity .numpy py false true true true (h0 j) (h j)
      (Or.inr (Or.inr fun h' => ha1 j (by linarith)) : Backend.numpy = .jax ∨ true = false ∨ -a j ≠ 1)
    have eg : ∀ x ∈ Ioi (0 : ℝ), g x = p j x := fun x hx =>
      Fl.fin.inj (Except.ok.inj ((e x hx).symm.trans (hval j x hx)))
    exact ⟨gi.congr_fun eg measurableSet_Ioi, by rw [← setIntegral_congr_fun measurableSet_Ioi eg, g1]⟩
  have hpop : BoundedPopulation (Ioi 0) 60 (p true) := ⟨hm _, fun x _ => hnn _ x, (hint true).1, by
    rw [(hint true).2]; exact one_pos, fun x hx hK => by
    rw [abs_of_pos hx] at hK
    rw [hpe, if_neg fun k => absurd (k.2.trans (h60 true)) (not_le.2 hK)]⟩
  have hpq : ∀ j, Integrable (fun x => p j x ^ 2 / Real.exp (-x)) (volume.restrict (Ioi 0)) := fun j => by
    refine Integrable.mono' ((hint j).1.const_mul ((1 / ∫ t in lo j..hi j, t ^ (-a j)) * Real.exp 60))
      (((hm j).pow_const 2).div (Real.measurable_exp.comp measurable_neg)).aestronglyMeasurable
      (ae_of_all _ fun x => ?_)
    have k1 := hnn j x
    have k2 := hb j x
    rw [abs_of_nonneg k1] at k2
    rw [Real.norm_of_nonneg (div_nonneg (sq_nonneg _) (Real.exp_pos _).le), Real.exp_neg, div_inv_eq_mul]
    by_cases hx : x ≤ 60
    · have k3 := Real.exp_le_exp.2 hx
      calc p j x ^ 2 * Real.exp x = p j x * Real.exp x * p j x := by ring
        _ ≤ _ := mul_le_mul_of_nonneg_right (mul_le_mul k2 k3 (Real.exp_pos _).le (k1.trans k2)) k1
    · rw [hpe, if_neg fun k => hx (k.2.trans (h60 j))]
      simp
  have hq1 : ∫⁻ x, ENNReal.ofReal (Real.exp (-x)) ∂volume.restrict (Ioi (0 : ℝ)) = 1 := by
    rw [← ofReal_integral_eq_lintegral_ofReal (integrableOn_exp_neg_Ioi 0)
      (ae_of_all _ fun x => (Real.exp_pos _).le), integral_exp_neg_Ioi_zero, ENNReal.ofReal_one]
  refine ⟨p, hm, fun j m hm0 => ?_, events_exist one_ne_zero measurableSet_Ioi measurableSet_Ioi (by simp) hpop,
    fun n => ?_, C159_mass .numpy py h0 h (fun j => Or.inr (ha1 j)) (fun j hj => ?_) hval hm one_ne_zero
      measurableSet_Ioi⟩
  · rw [← hval j m hm0, ha, hlo, hhi]
  · have hli : ∀ d, Integrable (gaussianErrors 1 d) (volume.restrict (Ioi 0)) := fun d => by
      have := (integrable_gaussianPDFReal d 1).integrableOn (s := Ioi 0)
      refine this.congr (ae_of_all _ fun x => ?_)
      simp only [gaussianErrors, gaussianPDFReal]
      rw [← sub_sq_comm x d]
    obtain ⟨Ω, mΩ, P, hP, X, vt, Z, Y, L, main⟩ := analyses_exist planck15 hl
      (by simp [Measure.restrict_eq_zero]) hli
      (measurableSet_Ioi (a := (10 : ℝ))) (Real.measurable_exp.comp measurable_neg) (fun x => Real.exp_pos (-x)) hq1
      (fun i : Fin n => data i) (fun φ => if φ = [("alpha", fin 2.35)] then p true else p false)
      (fun φ => by split_ifs <;> exact hm _) (fun φ => by split_ifs <;> exact (hint _).1)
      (fun φ => by split_ifs <;> exact ⟨_, hb _⟩) (fun φ => by split_ifs <;> exact hpq _)
    refine ⟨Ω, mΩ, P, hP, Real.exp ∘ Neg.neg, X, vt, fun _ _ => 1, Z, Y, L, fun j => [("alpha", fin (a j))], fun j => ?_⟩
    cases j
    · have h := main [("alpha", fin (a false))]
      rwa [if_neg (by norm_num [ha])] at h
    · have h := main [("alpha", fin (a true))]
      rwa [if_pos (by norm_num [ha])] at h
  · cases j
    · norm_num [ha]
    · exact absurd rfl hj

/-- Candidates for the fraction in the peak. -/
example (py : Bool) (hv : v ≠ 0) (hD : MeasurableSet Det) : ∃ p : Bool → ℝ → ℝ, (∀ j, Measurable (p j)) ∧
    (∀ j m, 0 < m → twoComponentSingle .cupy py (fin m) (fin 3.5) (fin 5) (fin 85) (fin (if j then 0.04 else 0.1))
      (fin 34) (fin 3.6) (fin 100) = .ok (fin (p j m))) ∧
    Recovers (volume.restrict (Ioi 0)) volume (gaussianErrors v) Det p true := by
  obtain ⟨lam, hlam⟩ : ∃ a : Bool → ℝ, a = fun j => if j then 0.04 else 0.1 := ⟨_, rfl⟩
  obtain ⟨p, hpe⟩ : ∃ p : Bool → ℝ → ℝ, ∀ j m, p j m = (1 - lam j) * Spec.normalised (fun t => t ^ (-3.5 : ℝ)) 5 85 m +
    lam j * Spec.normalised (bell 34 3.6) 5 100 m := ⟨fun j m => _, fun j m => rfl⟩
  have hm : ∀ j, Measurable (p j) := fun j => by
    rw [show p j = _ from funext (hpe j)]
    unfold Spec.normalised
    refine (Measurable.const_mul ?_ _).add (Measurable.const_mul ?_ _)
    · exact Measurable.ite measurableSet_Icc ((measurable_id.pow_const _).div_const _) measurable_const
    · exact Measurable.ite measurableSet_Icc ((gaussShape_continuous 34 3.6).measurable.div_const _) measurable_const
  have hval : ∀ j m, 0 < m → twoComponentSingle .cupy py (fin m) (fin 3.5) (fin 5) (fin 85) (fin (lam j))
      (fin 34) (fin 3.6) (fin 100) = .ok (fin (p j m)) := fun j m hm0 => by
    rw [C18_twoComponentSingle_value .cupy py (Or.inr (by norm_num)) (by norm_num) (by norm_num) (by norm_num)
      (by norm_num) hm0, hpe]
  refine ⟨p, hm, fun j m hm0 => by rw [← hval j m hm0, hlam], C159_fraction .cupy py (Or.inr (by norm_num))
    (by norm_num) (by norm_num) (by norm_num) (by norm_num) (fun j => ?_) (fun j => ?_) (fun j hj => ?_) hval hm hv hD⟩
  · cases j <;> norm_num [hlam]
  · cases j <;> norm_num [hlam]
  · cases j
    · norm_num [hlam]
    · exact absurd rfl hj

/-- Candidates for the mean and width of a truncated Gaussian. -/
example (hv : v ≠ 0) (hD : MeasurableSet Det) : ∃ p : Bool → ℝ → ℝ, (∀ j, Measurable (p j)) ∧
    (∀ j x, truncnorm .jax ⟨fin x, false⟩ ⟨fin (if j then 0.06 else 0.1), true⟩ ⟨fin (if j then 0.1 else 0.2), true⟩
      ⟨fin 1, true⟩ ⟨fin (-1), true⟩ = .ok (fin (p j x))) ∧
    Recovers (volume.restrict univ) volume (gaussianErrors v) Det p true := by
  obtain ⟨mu, hmu⟩ : ∃ a : Bool → ℝ, a = fun j => if j then 0.06 else 0.1 := ⟨_, rfl⟩
  obtain ⟨sg, hsg⟩ : ∃ a : Bool → ℝ, a = fun j => if j then 0.1 else 0.2 := ⟨_, rfl⟩
  have hs : ∀ j, 0 < sg j := fun j => by cases j <;> norm_num [hsg]
  obtain ⟨p, hpe⟩ : ∃ p : Bool → ℝ → ℝ, ∀ j x, p j x = Spec.normalised (bell (mu j) (sg j)) (-1) 1 x :=
    ⟨fun j x => _, fun j x => rfl⟩
  have hm : ∀ j, Measurable (p j) := fun j => by
    rw [show p j = _ from funext (hpe j)]
    unfold Spec.normalised
    exact Measurable.ite measurableSet_Icc ((gaussShape_continuous (mu j) (sg j)).measurable.div_const _)
      measurable_const
  have hval : ∀ j x, truncnorm .jax ⟨fin x, false⟩ ⟨fin (mu j), true⟩ ⟨fin (sg j), true⟩ ⟨fin 1, true⟩ ⟨fin (-1), true⟩ =
      .ok (fin (p j x)) := fun j x => by
    rw [C03_truncnorm_value .jax false true true true true x (hs j) (by norm_num), hpe]
    rfl
  refine ⟨p, hm, fun j x => by rw [← hval j x, hmu, hsg], C159_truncnorm .jax false true true true true
    (lo := fun _ => -1) (hi := fun _ => 1) hs (fun _ => by norm_num) (fun j hj => ?_) hval hm hv hD⟩
  cases j
  · norm_num [hmu]
  · exact absurd rfl hj

/-- Candidates for the break of a broken power law. -/
example (py : Bool) (hv : v ≠ 0) (hD : MeasurableSet Det) : ∃ p : Bool → ℝ → ℝ, (∀ j, Measurable (p j)) ∧
    (∀ j m, 0 < m → doublePowerLawPrimaryMass .numpy py (fin m) (fin 1.6) (fin 5.6) (fin 5) (fin 85)
      (fin (if j then 0.4 else 0.5)) = .ok (fin (p j m))) ∧
    Recovers (volume.restrict (Ioi 0)) volume (gaussianErrors v) Det p true := by
  obtain ⟨bf, hbf⟩ : ∃ a : Bool → ℝ, a = fun j => if j then 0.4 else 0.5 := ⟨_, rfl⟩
  have b0 : ∀ j, 0 < bf j := fun j => by cases j <;> norm_num [hbf]
  have b1 : ∀ j, bf j < 1 := fun j => by cases j <;> norm_num [hbf]
  obtain ⟨p, hpe⟩ : ∃ p : Bool → ℝ → ℝ, ∀ j x, p j x =
    Spec.normalised (brokenShape 1.6 5.6 (5 + bf j * (85 - 5))) 5 85 x := ⟨fun j x => _, fun j x => rfl⟩
  have hm : ∀ j, Measurable (p j) := fun j => by
    rw [show p j = _ from funext (hpe j)]
    unfold Spec.normalised
    refine Measurable.ite measurableSet_Icc (Measurable.div_const ?_ _) measurable_const
    unfold brokenShape
    exact Measurable.ite measurableSet_Iio ((measurable_id.div_const _).pow_const _)
      ((measurable_id.div_const _).pow_const _)
  have hval : ∀ j m, 0 < m → doublePowerLawPrimaryMass .numpy py (fin m) (fin 1.6) (fin 5.6) (fin 5) (fin 85)
      (fin (bf j)) = .ok (fin (p j m)) := fun j m hm0 => by
    rw [C17_doublePowerLaw_value .numpy py (Or.inr (by norm_num)) (Or.inr (by norm_num)) (by norm_num) (by norm_num)
      (b0 j) (b1 j) hm0, hpe]
  refine ⟨p, hm, fun j m hm0 => by rw [← hval j m hm0, hbf], C159_broken .numpy py (a1 := fun _ => 1.6)
    (a2 := fun _ => 5.6) (lo := fun _ => 5) (hi := fun _ => 85) (fun _ => by norm_num) (fun _ => by norm_num) b0 b1
    (fun _ => Or.inr (by norm_num)) (fun _ => Or.inr (by norm_num)) (by norm_num) (fun j hj => ?_) hval hm hv hD⟩
  cases j
  · norm_num [hbf]
  · exact absurd rfl hj

end GW
