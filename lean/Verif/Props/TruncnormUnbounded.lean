import Verif.Props.Truncnorm

/-!
# C03: truncated normal distribution with unbounded windows

`low = -inf` and `high = inf` are legal arguments of `truncnorm`: half a line, or no truncation at
all.
-/

noncomputable section

open MeasureTheory Set Classical ProbabilityTheory

namespace GW

open Fl Spec

/-- The real numbers between two floats. -/
def Spec.between (lo hi : Fl) : Set ℝ := {x | lo ≤ fin x ∧ fin x ≤ hi}

/-- The distribution function of the standard normal distribution, extended to the infinities. -/
def extCDF : Fl → ℝ
  | .fin x => stdNormalCDF x
  | .pinf => 1
  | _ => 0

theorem window_measure {a b : Fl} (h : a < b) :
    (gaussianReal 0 1).real (between a b) = extCDF b - extCDF a := by
  have hIcc : ∀ s t : ℝ, s < t → (gaussianReal 0 1).real (Icc s t) = stdNormalCDF t - stdNormalCDF s := by
    intro s t hst
    rw [stdNormalCDF_sub hst.le, intervalIntegral.integral_of_le hst.le,
      ← integral_Icc_eq_integral_Ioc, Measure.real, gaussianReal_apply_eq_integral 0 one_ne_zero,
      ENNReal.toReal_ofReal (integral_nonneg fun t => gaussianPDFReal_nonneg 0 1 t)]
  have hIci : ∀ s : ℝ, (gaussianReal 0 1).real (Ici s) = 1 - stdNormalCDF s := by
    intro s
    have h2 : (gaussianReal 0 1).real (Ici s) = (gaussianReal 0 1).real (Ioi s) := by
      have := nullSingletonClass_gaussianReal (μ := 0) (v := 1) one_ne_zero
      exact measureReal_congr Ioi_ae_eq_Ici.symm
    rw [h2, ← compl_Iic, probReal_compl_eq_one_sub measurableSet_Iic]
    rfl
  cases a <;> cases b <;> simp at h
  · rename_i s t
    have : between (fin s) (fin t) = Icc s t := by ext x; simp [between]
    rw [this, hIcc s t h]; rfl
  · rename_i s
    have : between (fin s) pinf = Ici s := by ext x; simp [between]
    rw [this, hIci s]; rfl
  · rename_i t
    have : between ninf (fin t) = Iic t := by ext x; simp [between]
    rw [this]; simp [extCDF, stdNormalCDF]
  · have : between ninf pinf = univ := by ext x; simp [between]
    rw [this]; simp [extCDF]

theorem extCDF_lt {a b : Fl} (h : a < b) : extCDF a < extCDF b := by
  cases a <;> cases b <;> simp at h
  · exact stdNormalCDF_lt h
  · exact stdNormalCDF_lt_one _
  · exact stdNormalCDF_pos _
  · exact one_pos

/-- The branches of the log-normalisation for any window, bounded or not. -/
theorem truncnorm_logNorm_ext {a b : Fl} (h : a < b) :
    (if b ≤ 0 then logsubexp (logNdtr b) (logNdtr a)
      else if 0 < a then logsubexp (logNdtr (-a)) (logNdtr (-b))
      else if 0 < b then log1p (-(ndtr a) - ndtr (-b))
      else nan) = fin (Real.log (extCDF b - extCDF a)) := by
  have hl0 : logNdtr ninf = ninf := by
    simp [logNdtr, ndtr, Fl.log]
  have hsub : ∀ p : ℝ, logsubexp (fin p) ninf = fin p := by
    intro p
    simp [logsubexp, log_fin one_pos]
  cases a <;> cases b <;> simp at h
  · exact truncnorm_logNorm h
  · rename_i s
    rw [if_neg (by simp)]
    by_cases ha : 0 < s
    · rw [if_pos (by simpa using ha), fin_neg, show (-pinf : Fl) = ninf from rfl, hl0, logNdtr_fin, hsub,
        stdNormalCDF_neg]
      rfl
    · rw [if_neg (by simpa using ha), if_pos (by simp), show (-pinf : Fl) = ninf from rfl]
      unfold log1p
      simp only [ndtr, extCDF]
      rw [fin_neg, fin_sub, one_eq, fin_add, log_fin (by have := stdNormalCDF_lt_one s; linarith)]
      congr 2; ring
  · rename_i t
    by_cases hb : t ≤ 0
    · rw [if_pos (by simpa using hb), hl0, logNdtr_fin, hsub]
      simp [extCDF]
    · rw [if_neg (by simpa using hb), if_neg (by simp), if_pos (by simpa using hb)]
      unfold log1p
      rw [fin_neg]
      simp only [ndtr, extCDF]
      rw [fin_neg, fin_sub, one_eq, fin_add, stdNormalCDF_neg,
        log_fin (by have := stdNormalCDF_pos t; linarith)]
      congr 2; ring
  · rw [if_neg (by simp), if_neg (by simp), if_pos (by simp), show (-pinf : Fl) = ninf from rfl]
    unfold log1p
    simp only [ndtr, extCDF]
    rw [fin_neg, fin_sub, one_eq, fin_add, log_fin (by norm_num)]
    congr 2; ring

/-- Standardising a bound. -/
theorem standard_lt {lo hi : Fl} (h : lo < hi) (mu : ℝ) {sigma : ℝ} (hs : 0 < sigma) :
    (lo - fin mu) / fin sigma < (hi - fin mu) / fin sigma ∧
      between ((lo - fin mu) / fin sigma) ((hi - fin mu) / fin sigma) =
        (fun z => z * sigma + mu) ⁻¹' between lo hi := by
  have hp : (pinf : Fl) / fin sigma = pinf := by simp [pinf_div_fin, ninf_div_fin, hs.le]
  have hn : (ninf : Fl) / fin sigma = ninf := by simp [pinf_div_fin, ninf_div_fin, hs.le]
  have e1 : ∀ s z : ℝ, (s - mu) / sigma ≤ z ↔ s ≤ z * sigma + mu := by
    intro s z; rw [div_le_iff₀ hs]; constructor <;> intro <;> linarith
  have e2 : ∀ s z : ℝ, z ≤ (s - mu) / sigma ↔ z * sigma + mu ≤ s := by
    intro s z; rw [le_div_iff₀ hs]; constructor <;> intro <;> linarith
  cases lo <;> cases hi <;> simp at h
  · rw [fin_sub, fin_sub, fin_div hs.ne', fin_div hs.ne']
    refine ⟨fin_lt.2 (by gcongr), ?_⟩
    ext z; simp [between, e1, e2]
  · rw [fin_sub, fin_div hs.ne', show (pinf - fin mu : Fl) = pinf from rfl, hp]
    refine ⟨by simp, ?_⟩
    ext z; simp [between, e1]
  · rw [fin_sub, fin_div hs.ne', show (ninf - fin mu : Fl) = ninf from rfl, hn]
    refine ⟨by simp, ?_⟩
    ext z; simp [between, e2]
  · rw [show (ninf - fin mu : Fl) = ninf from rfl, show (pinf - fin mu : Fl) = pinf from rfl, hn, hp]
    refine ⟨by simp, ?_⟩
    ext z; simp [between]

theorem measurableSet_window (lo hi : Fl) : MeasurableSet (between lo hi) := by
  have h1 : MeasurableSet {x : ℝ | lo ≤ fin x} := by
    cases lo with
    | fin r => simp only [fin_le]; exact measurableSet_Ici
    | _ => simp
  have h2 : MeasurableSet {x : ℝ | fin x ≤ hi} := by
    cases hi with
    | fin r => simp only [fin_le]; exact measurableSet_Iic
    | _ => simp
  exact h1.inter h2

/-- The Gaussian integral over any window. -/
theorem integral_window {lo hi : Fl} (h : lo < hi) (mu : ℝ) {sigma : ℝ} (hs : 0 < sigma) :
    IntegrableOn (gaussShape mu sigma) (between lo hi) ∧
    ∫ t in between lo hi, gaussShape mu sigma t = Real.sqrt (2 * Real.pi) * sigma *
      (extCDF ((hi - fin mu) / fin sigma) - extCDF ((lo - fin mu) / fin sigma)) := by
  obtain ⟨hlt, hw⟩ := standard_lt h mu hs
  have hsq : Real.sqrt (2 * Real.pi) ≠ 0 := (Real.sqrt_pos.2 (by positivity)).ne'
  have e : ∀ t, gaussShape mu sigma t =
      Real.sqrt (2 * Real.pi) * gaussianPDFReal 0 1 ((t - mu) / sigma) := by
    intro t
    rw [gaussianPDFReal_std, gaussShape, ← mul_assoc, mul_inv_cancel₀ hsq, one_mul]
    congr 1
    field_simp
  have hint : Integrable (gaussShape mu sigma) := by
    have h1 := ((integrable_gaussianPDFReal 0 1).comp_div hs.ne').comp_sub_right mu
    exact (h1.const_mul (Real.sqrt (2 * Real.pi))).congr (ae_of_all _ fun t => (e t).symm)
  refine ⟨hint.integrableOn, ?_⟩
  rw [← window_measure hlt, hw, Measure.real, gaussianReal_apply_eq_integral 0 one_ne_zero,
    ENNReal.toReal_ofReal (integral_nonneg fun t => gaussianPDFReal_nonneg 0 1 t),
    ← integral_indicator (measurableSet_window lo hi),
    ← integral_indicator (s := (fun z => z * sigma + mu) ⁻¹' between lo hi)
      ((by fun_prop : Measurable fun z : ℝ => z * sigma + mu) (measurableSet_window lo hi))]
  set g : ℝ → ℝ := ((fun z => z * sigma + mu) ⁻¹' between lo hi).indicator (gaussianPDFReal 0 1) with hg
  have hf : ∀ t, (between lo hi).indicator (gaussShape mu sigma) t =
      Real.sqrt (2 * Real.pi) * g ((t - mu) / sigma) := by
    intro t
    have hmem : (t - mu) / sigma ∈ (fun z => z * sigma + mu) ⁻¹' between lo hi ↔ t ∈ between lo hi := by
      rw [mem_preimage]
      have : (t - mu) / sigma * sigma + mu = t := by field_simp; ring
      rw [this]
    by_cases ht : t ∈ between lo hi
    · rw [indicator_of_mem ht, hg, indicator_of_mem (hmem.2 ht), e]
    · rw [indicator_of_notMem ht, hg, indicator_of_notMem (fun h' => ht (hmem.1 h')), mul_zero]
  simp_rw [hf]
  rw [integral_const_mul, integral_sub_right_eq_self (fun t => g (t / sigma)) mu,
    Measure.integral_comp_div, abs_of_pos hs, smul_eq_mul, mul_assoc]

/-- **C03.** For every window, bounded or not (`low` may be `-inf`, `high` may be `inf`), `truncnorm` is
the Gaussian restricted to the real numbers between the bounds and divided by its integral over them. -/
theorem C03_truncnorm_unbounded (b : Backend) (k₁ k₂ k₃ k₄ k₅ : Bool) {mu sigma : ℝ} {hi lo : Fl} (x : ℝ)
    (hs : 0 < sigma) (h : lo < hi) :
    truncnorm b ⟨fin x, k₁⟩ ⟨fin mu, k₂⟩ ⟨fin sigma, k₃⟩ ⟨hi, k₄⟩ ⟨lo, k₅⟩ =
      .ok (fin (if lo ≤ fin x ∧ fin x ≤ hi then
        Real.exp (-(x - mu) ^ 2 / (2 * sigma ^ 2)) /
          ∫ t in between lo hi, Real.exp (-(t - mu) ^ 2 / (2 * sigma ^ 2)) else 0)) := by
  rw [truncnorm_eq, if_neg (by simp [hs])]
  refine congrArg Except.ok ?_
  obtain ⟨hlt, -⟩ := standard_lt h mu hs
  have hI := (integral_window h mu hs).2
  unfold gaussShape at hI
  rw [hI]
  have hpos := extCDF_lt hlt
  unfold truncnormBody
  simp only
  rw [truncnorm_logNorm_ext hlt]
  generalize extCDF ((hi - fin mu) / fin sigma) = F1 at *
  generalize extCDF ((lo - fin mu) / fin sigma) = F2 at *
  have h2pi : (0 : ℝ) < 2 * Real.pi := by positivity
  simp only [fin_sub, fin_div hs.ne', ofNat_eq, fin_npow, fin_neg,
    fin_div (two_ne_zero' ℝ), fin_mul, log_fin h2pi, log_fin hs, exp_fin, nanToNum_fin,
    fin_mul_ind]
  congr 1
  by_cases h1 : lo ≤ fin x
  · by_cases h2 : fin x ≤ hi
    · rw [if_pos h2, if_pos h1, if_pos ⟨h1, h2⟩, Real.exp_sub, Real.exp_sub, Real.exp_sub,
        Real.exp_log hs, Real.exp_log (by linarith)]
      have e1 : Real.exp (Real.log (2 * Real.pi) / 2) = Real.sqrt (2 * Real.pi) := by
        rw [Real.sqrt_eq_rpow, Real.rpow_def_of_pos h2pi]; congr 1; ring
      have e2 : -((x - mu) / sigma) ^ 2 / 2 = -(x - mu) ^ 2 / (2 * sigma ^ 2) := by
        field_simp
      rw [e1, e2, div_div, div_div, mul_assoc]
    · rw [if_neg h2, if_neg (fun h => h2 h.2)]
  · rw [if_neg (c := lo ≤ fin x) h1, if_neg (c := lo ≤ fin x ∧ fin x ≤ hi) (fun h => h1 h.1)]
    simp

/-- **C03.** With or without bounds, `truncnorm` is a probability density on every measurable set that
contains the window. -/
theorem C03_truncnorm_unbounded_isDensity (b : Backend) (k₁ k₂ k₃ k₄ k₅ : Bool) {mu sigma : ℝ} {hi lo : Fl}
    (hs : 0 < sigma) (h : lo < hi) {S : Set ℝ} (hS : between lo hi ⊆ S) :
    IsDensityOn (fun x : ℝ =>
      truncnorm b ⟨fin x, k₁⟩ ⟨fin mu, k₂⟩ ⟨fin sigma, k₃⟩ ⟨hi, k₄⟩ ⟨lo, k₅⟩) S := by
  obtain ⟨hint, hI⟩ := integral_window h mu hs
  have hlt := extCDF_lt (standard_lt h mu hs).1
  have hpos : 0 < ∫ t in between lo hi, gaussShape mu sigma t := by
    rw [hI]
    have : 0 < Real.sqrt (2 * Real.pi) := Real.sqrt_pos.2 (by positivity)
    have h3 := sub_pos.2 hlt
    positivity
  have e : (fun x => if lo ≤ fin x ∧ fin x ≤ hi then
        Real.exp (-(x - mu) ^ 2 / (2 * sigma ^ 2)) /
          ∫ t in between lo hi, Real.exp (-(t - mu) ^ 2 / (2 * sigma ^ 2)) else 0) =
      (between lo hi).indicator fun x => gaussShape mu sigma x / ∫ t in between lo hi, gaussShape mu sigma t := by
    funext x
    by_cases hx : x ∈ between lo hi
    · rw [indicator_of_mem hx, if_pos (show _ ∧ _ from hx)]; rfl
    · rw [indicator_of_notMem hx, if_neg (show ¬ (_ ∧ _) from hx)]
  refine ⟨_, fun x _ => C03_truncnorm_unbounded b k₁ k₂ k₃ k₄ k₅ x hs h, ?_, ?_, ?_⟩
  · intro x _
    split_ifs
    · exact div_nonneg (Real.exp_pos _).le hpos.le
    · exact le_rfl
  · rw [e]
    have h1 : IntegrableOn (fun x => gaussShape mu sigma x / ∫ t in between lo hi, gaussShape mu sigma t)
        (between lo hi) := hint.div_const _
    exact (h1.integrable_indicator (measurableSet_window lo hi)).integrableOn
  · rw [e, setIntegral_indicator (measurableSet_window lo hi), inter_eq_right.2 hS,
      integral_div, div_self hpos.ne']

/-- Non-vacuity: the normal distribution above 2, and without any bounds. -/
example : IsDensityOn (fun x : ℝ =>
    truncnorm .jax (pos (fin x)) (kw (fin 0)) (kw (fin 1)) (kw pinf) (kw (fin 2))) univ :=
  C03_truncnorm_unbounded_isDensity .jax false true true true true one_pos (by simp) (subset_univ _)

example : IsDensityOn (fun x : ℝ =>
    truncnorm .numpy (pos (fin x)) (kw (fin 3)) (kw (fin 1)) (kw pinf) (kw ninf)) univ :=
  C03_truncnorm_unbounded_isDensity .numpy false true true true true one_pos (by simp) (subset_univ _)

end GW
