import Verif.Props.Spin
import Verif.Props.MassSingle
import Mathlib.MeasureTheory.Integral.IntervalIntegral.FundThmCalculus

/-!
# C132: the documented means and standard deviations of the Gaussian components

`gaussian_chi_eff` and `gaussian_chi_p` document `mu` and `sigma` as the mean and the standard
deviation of the distribution (`spin.py:186-219`), and so do `truncnorm` (`utils.py:149-151`) and
the Gaussian components of the mass models.  They are the mean and the standard deviation of the
Gaussian before it is truncated.
-/

noncomputable section

open MeasureTheory Set Filter Topology

namespace GW

open Fl Spec

/-! ## Specification -/

/-- The numbers `p x` are what the computation returns at every real `x`, and they form a
probability density on the line. -/
def Spec.HasDensity (f : ℝ → Except PyErr Fl) (p : ℝ → ℝ) : Prop :=
  (∀ x, f x = .ok (fin (p x))) ∧ (∀ x, 0 ≤ p x) ∧ Integrable p ∧ ∫ x, p x = 1

/-- The mean of a density. -/
def Spec.IsMean (p : ℝ → ℝ) (m : ℝ) : Prop :=
  Integrable (fun x => x * p x) ∧ ∫ x, x * p x = m

/-- The variance of a density about its mean. -/
def Spec.IsVariance (p : ℝ → ℝ) (v : ℝ) : Prop :=
  ∃ m, Spec.IsMean p m ∧ Integrable (fun x => (x - m) ^ 2 * p x) ∧ ∫ x, (x - m) ^ 2 * p x = v

/-- The full statement of C132: the effective spin models have the mean and the standard deviation
they are given, for every mean that is possible. -/
def C132_statement : Prop :=
  ∀ (b : Backend) (mu sigma : ℝ) (p : ℝ → ℝ), 0 < sigma →
    (-1 < mu → mu < 1 →
      Spec.HasDensity (fun x => gaussianChiEff b [("chi_eff", fin x)] (fin mu) (fin sigma)) p →
      Spec.IsMean p mu ∧ Spec.IsVariance p (sigma ^ 2)) ∧
    (0 < mu → mu < 1 →
      Spec.HasDensity (fun x => gaussianChiP b [("chi_p", fin x)] (fin mu) (fin sigma)) p →
      Spec.IsMean p mu ∧ Spec.IsVariance p (sigma ^ 2))

/-! ## Moments of a truncated Gaussian -/

namespace GaussianMoments

/-- The truncated Gaussian. -/
def dens (lo hi mu sigma : ℝ) : ℝ → ℝ := Spec.normalised (gaussShape mu sigma) lo hi

/-- An expectation over the truncated Gaussian. -/
def ex (lo hi mu sigma : ℝ) (h : ℝ → ℝ) : ℝ :=
  (∫ t in lo..hi, h t * gaussShape mu sigma t) / ∫ t in lo..hi, gaussShape mu sigma t

variable {lo hi mu sigma : ℝ}

theorem weighted_eq (h : ℝ → ℝ) : (fun x => h x * dens lo hi mu sigma x) =
    (Icc lo hi).indicator
      (fun x => h x * gaussShape mu sigma x / ∫ t in lo..hi, gaussShape mu sigma t) := by
  funext x
  rw [dens, normalised_eq_indicator]
  by_cases hx : x ∈ Icc lo hi
  · rw [indicator_of_mem hx, indicator_of_mem hx, mul_div_assoc]
  · rw [indicator_of_notMem hx, indicator_of_notMem hx, mul_zero]

theorem weighted_integrable {h : ℝ → ℝ} (hc : Continuous h) :
    Integrable (fun x => h x * dens lo hi mu sigma x) := by
  rw [weighted_eq, integrable_indicator_iff measurableSet_Icc]
  exact (((hc.mul (gaussShape_continuous mu sigma)).div_const _).continuousOn).integrableOn_compact
    isCompact_Icc

theorem weighted_integral (hlh : lo < hi) (h : ℝ → ℝ) :
    ∫ x, h x * dens lo hi mu sigma x = ex lo hi mu sigma h := by
  rw [weighted_eq, integral_indicator measurableSet_Icc, integral_Icc_eq_integral_Ioc,
    ← intervalIntegral.integral_of_le hlh.le, intervalIntegral.integral_div, ex]

theorem Z_pos (hlh : lo < hi) : 0 < ∫ t in lo..hi, gaussShape mu sigma t :=
  intervalIntegral.intervalIntegral_pos_of_pos_on
    ((gaussShape_continuous mu sigma).intervalIntegrable _ _) (fun t _ => gaussShape_pos mu sigma t) hlh

theorem ex_pos (hlh : lo < hi) {h : ℝ → ℝ} (hc : Continuous h) (hp : ∀ t ∈ Ioo lo hi, 0 < h t) :
    0 < ex lo hi mu sigma h :=
  div_pos (intervalIntegral.intervalIntegral_pos_of_pos_on
    ((hc.mul (gaussShape_continuous mu sigma)).intervalIntegrable _ _)
    (fun t ht => mul_pos (hp t ht) (gaussShape_pos mu sigma t)) hlh) (Z_pos hlh)

theorem ex_add {h k : ℝ → ℝ} (hh : Continuous h) (hk : Continuous k) :
    ex lo hi mu sigma (fun t => h t + k t) = ex lo hi mu sigma h + ex lo hi mu sigma k := by
  have e := intervalIntegral.integral_add (μ := volume) (a := lo) (b := hi)
    (f := fun t => h t * gaussShape mu sigma t) (g := fun t => k t * gaussShape mu sigma t)
    ((hh.mul (gaussShape_continuous mu sigma)).intervalIntegrable _ _)
    ((hk.mul (gaussShape_continuous mu sigma)).intervalIntegrable _ _)
  unfold ex
  rw [← add_div, ← e]
  simp only [add_mul]

theorem ex_const_mul (c : ℝ) (h : ℝ → ℝ) :
    ex lo hi mu sigma (fun t => c * h t) = c * ex lo hi mu sigma h := by
  unfold ex
  rw [mul_div_assoc', ← intervalIntegral.integral_const_mul]
  simp only [mul_assoc]

theorem ex_const (hlh : lo < hi) (c : ℝ) : ex lo hi mu sigma (fun _ => c) = c := by
  unfold ex
  rw [intervalIntegral.integral_const_mul, mul_div_assoc, div_self (Z_pos hlh).ne', mul_one]

/-- The expectation of a quadratic. -/
theorem ex_quadratic (hlh : lo < hi) {h : ℝ → ℝ} (a c e : ℝ)
    (hh : ∀ t, h t = a * t ^ 2 + c * t + e) :
    ex lo hi mu sigma h = a * ex lo hi mu sigma (fun t => t ^ 2) + c * ex lo hi mu sigma (fun t => t) + e := by
  have : h = fun t => (a * t ^ 2 + c * t) + e := funext hh
  rw [this, ex_add (by fun_prop) (by fun_prop), ex_add (by fun_prop) (by fun_prop), ex_const_mul,
    ex_const_mul, ex_const hlh]

theorem gaussShape_deriv (hs : 0 < sigma) (t : ℝ) :
    HasDerivAt (gaussShape mu sigma) (-(t - mu) / sigma ^ 2 * gaussShape mu sigma t) t := by
  have h1 : HasDerivAt (fun t : ℝ => -(t - mu) ^ 2 / (2 * sigma ^ 2))
      (-(2 * (t - mu)) / (2 * sigma ^ 2)) t := by
    have := ((((hasDerivAt_id t).sub_const mu).pow 2).neg).div_const (2 * sigma ^ 2)
    simpa using this
  have h2 := h1.exp
  unfold gaussShape
  convert h2 using 1
  field_simp

theorem dens_at (hx : lo ≤ mu ∧ mu ≤ hi) {s : ℝ} : dens lo hi s sigma mu =
    gaussShape s sigma mu / ∫ t in lo..hi, gaussShape s sigma t := by
  simp [dens, Spec.normalised, hx]

/-- Integration by parts. -/
theorem ex_parts (hlh : lo < hi) (hs : 0 < sigma) (a c : ℝ) :
    ex lo hi mu sigma (fun t => (t - mu) * (a * t + c)) = sigma ^ 2 * (a +
      (a * lo + c) * dens lo hi mu sigma lo - (a * hi + c) * dens lo hi mu sigma hi) := by
  have hd : ∀ t ∈ uIcc lo hi, HasDerivAt
      (fun t => -(sigma ^ 2 * (a * t + c) * gaussShape mu sigma t))
      ((t - mu) * (a * t + c) * gaussShape mu sigma t - sigma ^ 2 * a * gaussShape mu sigma t) t := by
    intro t _
    have h1 : HasDerivAt (fun t : ℝ => sigma ^ 2 * (a * t + c)) (sigma ^ 2 * a) t := by
      have := (((hasDerivAt_id t).const_mul a).add_const c).const_mul (sigma ^ 2)
      simpa using this
    have := (h1.mul (gaussShape_deriv (mu := mu) hs t)).neg
    refine this.congr_deriv ?_
    field_simp
    ring
  have hg := gaussShape_continuous mu sigma
  have hc : Continuous fun t => (t - mu) * (a * t + c) * gaussShape mu sigma t := by fun_prop
  have hc2 : Continuous fun t => sigma ^ 2 * a * gaussShape mu sigma t := by fun_prop
  have hF := intervalIntegral.integral_eq_sub_of_hasDerivAt hd ((hc.sub hc2).intervalIntegrable _ _)
  rw [intervalIntegral.integral_sub (hc.intervalIntegrable _ _) (hc2.intervalIntegrable _ _),
    intervalIntegral.integral_const_mul] at hF
  have hZ := (Z_pos (mu := mu) (sigma := sigma) hlh).ne'
  rw [dens_at ⟨le_rfl, hlh.le⟩, dens_at ⟨hlh.le, le_rfl⟩, ex, div_eq_iff hZ]
  have e : ∀ u v w z I : ℝ, I ≠ 0 → sigma ^ 2 * (a + u * (v / I) - w * (z / I)) * I =
      sigma ^ 2 * a * I + sigma ^ 2 * u * v - sigma ^ 2 * w * z := by
    intro u v w z I hI
    field_simp
  rw [e _ _ _ _ _ hZ]
  linarith

/-- The mean of the truncated Gaussian. -/
def mean (lo hi mu sigma : ℝ) : ℝ := ex lo hi mu sigma fun t => t

/-- The variance of the truncated Gaussian. -/
def var (lo hi mu sigma : ℝ) : ℝ := ex lo hi mu sigma fun t => (t - mean lo hi mu sigma) ^ 2

theorem isMean (hlh : lo < hi) {m : ℝ} :
    Spec.IsMean (dens lo hi mu sigma) m ↔ mean lo hi mu sigma = m := by
  unfold Spec.IsMean mean
  rw [weighted_integral hlh fun t => t]
  exact ⟨fun h => h.2, fun h => ⟨weighted_integrable continuous_id, h⟩⟩

theorem isVariance (hlh : lo < hi) {v : ℝ} :
    Spec.IsVariance (dens lo hi mu sigma) v ↔ var lo hi mu sigma = v := by
  unfold Spec.IsVariance
  constructor
  · rintro ⟨m, hm, -, hv⟩
    rw [isMean hlh] at hm
    rw [weighted_integral hlh fun t => (t - m) ^ 2] at hv
    rw [var, hm, hv]
  · intro h
    refine ⟨_, (isMean hlh).2 rfl, weighted_integrable (by fun_prop), ?_⟩
    rw [weighted_integral hlh fun t => (t - mean lo hi mu sigma) ^ 2]
    exact h

theorem mean_eq (hlh : lo < hi) (hs : 0 < sigma) : mean lo hi mu sigma =
    mu + sigma ^ 2 * (dens lo hi mu sigma lo - dens lo hi mu sigma hi) := by
  have h1 := ex_parts (mu := mu) hlh hs 0 1
  rw [ex_quadratic hlh 0 1 (-mu) (fun t => by ring)] at h1
  rw [mean]
  linarith

theorem var_eq (hlh : lo < hi) (hs : 0 < sigma) : var lo hi mu sigma =
    sigma ^ 2 * (1 - (mean lo hi mu sigma - lo) * dens lo hi mu sigma lo -
      (hi - mean lo hi mu sigma) * dens lo hi mu sigma hi) := by
  set m := mean lo hi mu sigma with hm
  have h1 := ex_parts (mu := mu) hlh hs 1 (-m)
  rw [ex_quadratic hlh 1 (-m - mu) (mu * m) (fun t => by ring), ← mean, ← hm] at h1
  rw [var, ← hm, ex_quadratic hlh 1 (-2 * m) (m ^ 2) (fun t => by ring), ← mean, ← hm]
  linear_combination h1

theorem mean_gt (hlh : lo < hi) : lo < mean lo hi mu sigma := by
  have := ex_pos (mu := mu) (sigma := sigma) hlh (h := fun t => t - lo) (by fun_prop)
    fun t ht => by simpa using ht.1
  rw [ex_quadratic hlh 0 1 (-lo) (fun t => by ring), ← mean] at this
  linarith

theorem mean_lt (hlh : lo < hi) : mean lo hi mu sigma < hi := by
  have := ex_pos (mu := mu) (sigma := sigma) hlh (h := fun t => hi - t) (by fun_prop)
    fun t ht => by simpa using ht.2
  rw [ex_quadratic hlh 0 (-1) hi (fun t => by ring), ← mean] at this
  linarith

theorem dens_pos (hlh : lo < hi) {x : ℝ} (hx : lo ≤ x ∧ x ≤ hi) : 0 < dens lo hi mu sigma x := by
  rw [dens_at hx]
  exact div_pos (gaussShape_pos _ _ _) (Z_pos hlh)

theorem var_lt (hlh : lo < hi) (hs : 0 < sigma) : var lo hi mu sigma < sigma ^ 2 := by
  have h1 := mean_gt (mu := mu) (sigma := sigma) hlh
  have h2 := mean_lt (mu := mu) (sigma := sigma) hlh
  have p1 := dens_pos (mu := mu) (sigma := sigma) hlh ⟨le_rfl, hlh.le⟩
  have p2 := dens_pos (mu := mu) (sigma := sigma) hlh ⟨hlh.le, le_rfl⟩
  have := mul_pos (sub_pos.2 h1) p1
  have := mul_pos (sub_pos.2 h2) p2
  have := pow_pos hs 2
  rw [var_eq hlh hs]
  nlinarith

theorem var_pos (hlh : lo < hi) : 0 < var lo hi mu sigma := by
  have h0 : 0 ≤ var lo hi mu sigma := div_nonneg
    (intervalIntegral.integral_nonneg hlh.le fun t _ =>
      mul_nonneg (sq_nonneg _) (gaussShape_pos _ _ _).le) (Z_pos hlh).le
  rcases h0.lt_or_eq with h | h
  · exact h
  · exfalso
    -- on the half above the mean the integrand is positive
    set m := mean lo hi mu sigma with hm
    have hc : Continuous fun t => (t - m) ^ 2 * gaussShape mu sigma t := by
      have := gaussShape_continuous mu sigma
      fun_prop
    have hmlo := mean_gt (mu := mu) (sigma := sigma) hlh
    have hmhi := mean_lt (mu := mu) (sigma := sigma) hlh
    have e := intervalIntegral.integral_add_adjacent_intervals (μ := volume) (hc.intervalIntegrable lo m)
      (hc.intervalIntegrable m hi)
    have i1 : 0 ≤ ∫ t in lo..m, (t - m) ^ 2 * gaussShape mu sigma t :=
      intervalIntegral.integral_nonneg hmlo.le fun t _ =>
        mul_nonneg (sq_nonneg _) (gaussShape_pos _ _ _).le
    have i2 : 0 < ∫ t in m..hi, (t - m) ^ 2 * gaussShape mu sigma t :=
      intervalIntegral.intervalIntegral_pos_of_pos_on (hc.intervalIntegrable _ _)
        (fun t ht => mul_pos (pow_pos (sub_pos.2 ht.1) 2) (gaussShape_pos _ _ _)) hmhi
    have : 0 < var lo hi mu sigma := by
      rw [var, ex, ← hm]
      exact div_pos (by linarith) (Z_pos hlh)
    linarith

theorem var_bounded (hlh : lo < hi) :
    var lo hi mu sigma < (mean lo hi mu sigma - lo) * (hi - mean lo hi mu sigma) := by
  have := ex_pos (mu := mu) (sigma := sigma) hlh (h := fun t => (t - lo) * (hi - t)) (by fun_prop)
    fun t ht => mul_pos (sub_pos.2 ht.1) (sub_pos.2 ht.2)
  rw [ex_quadratic hlh (-1) (lo + hi) (-(lo * hi)) (fun t => by ring), ← mean] at this
  rw [var, ex_quadratic hlh 1 (-2 * mean lo hi mu sigma) (mean lo hi mu sigma ^ 2) (fun t => by ring),
    ← mean]
  linarith

theorem dens_lt_iff (hlh : lo < hi) (hs : 0 < sigma) :
    dens lo hi mu sigma lo < dens lo hi mu sigma hi ↔ (lo + hi) / 2 < mu := by
  rw [dens_at ⟨le_rfl, hlh.le⟩, dens_at ⟨hlh.le, le_rfl⟩, div_lt_div_iff_of_pos_right (Z_pos hlh)]
  unfold gaussShape
  rw [Real.exp_lt_exp, div_lt_div_iff_of_pos_right (by positivity), neg_lt_neg_iff]
  constructor <;> intro h
  · nlinarith
  · nlinarith

theorem dens_gt_iff (hlh : lo < hi) (hs : 0 < sigma) :
    dens lo hi mu sigma hi < dens lo hi mu sigma lo ↔ mu < (lo + hi) / 2 := by
  rw [dens_at ⟨le_rfl, hlh.le⟩, dens_at ⟨hlh.le, le_rfl⟩, div_lt_div_iff_of_pos_right (Z_pos hlh)]
  unfold gaussShape
  rw [Real.exp_lt_exp, div_lt_div_iff_of_pos_right (by positivity), neg_lt_neg_iff]
  constructor <;> intro h
  · nlinarith
  · nlinarith

theorem mean_lt_iff (hlh : lo < hi) (hs : 0 < sigma) :
    mean lo hi mu sigma < mu ↔ (lo + hi) / 2 < mu := by
  rw [← dens_lt_iff hlh hs, mean_eq hlh hs]
  have := pow_pos hs 2
  constructor <;> intro h
  · by_contra hc
    have := mul_nonneg this.le (sub_nonneg.2 (not_lt.1 hc))
    linarith
  · have := mul_pos this (sub_pos.2 h)
    linarith

theorem mean_gt_iff (hlh : lo < hi) (hs : 0 < sigma) :
    mu < mean lo hi mu sigma ↔ mu < (lo + hi) / 2 := by
  rw [← dens_gt_iff hlh hs, mean_eq hlh hs]
  have := pow_pos hs 2
  constructor <;> intro h
  · by_contra hc
    have := mul_nonneg this.le (sub_nonneg.2 (not_lt.1 hc))
    linarith
  · have := mul_pos this (sub_pos.2 h)
    linarith

theorem mean_eq_iff (hlh : lo < hi) (hs : 0 < sigma) :
    mean lo hi mu sigma = mu ↔ mu = (lo + hi) / 2 := by
  have h1 := mean_lt_iff (mu := mu) hlh hs
  have h2 := mean_gt_iff (mu := mu) hlh hs
  constructor <;> intro h
  · rcases lt_trichotomy mu ((lo + hi) / 2) with c | c | c
    · exact absurd (h2.2 c) (by rw [h]; exact lt_irrefl _)
    · exact c
    · exact absurd (h1.2 c) (by rw [h]; exact lt_irrefl _)
  · rcases lt_trichotomy (mean lo hi mu sigma) mu with c | c | c
    · exact absurd (h1.1 c) (by rw [← h]; exact lt_irrefl _)
    · exact c
    · exact absurd (h2.1 c) (by rw [← h]; exact lt_irrefl _)

theorem mean_close (hlh : lo < hi) (hs : 0 < sigma) (h1 : lo ≤ mu) (h2 : mu ≤ hi) :
    |mean lo hi mu sigma - mu| < sigma := by
  set m := mean lo hi mu sigma with hm
  have hv := var_pos (mu := mu) (sigma := sigma) hlh
  rw [var, ← hm, ex_quadratic hlh 1 (-2 * m) (m ^ 2) (fun t => by ring), ← mean, ← hm] at hv
  have hp := ex_parts (mu := mu) hlh hs 1 (-mu)
  rw [ex_quadratic hlh 1 (-2 * mu) (mu ^ 2) (fun t => by ring), ← mean, ← hm] at hp
  have p1 := dens_pos (mu := mu) (sigma := sigma) hlh ⟨le_rfl, hlh.le⟩
  have p2 := dens_pos (mu := mu) (sigma := sigma) hlh ⟨hlh.le, le_rfl⟩
  have q1 := mul_nonneg (sub_nonneg.2 h1) p1.le
  have q2 := mul_nonneg (sub_nonneg.2 h2) p2.le
  have hs2 := pow_pos hs 2
  have hle : sigma ^ 2 * (1 + (1 * lo + -mu) * dens lo hi mu sigma lo -
      (1 * hi + -mu) * dens lo hi mu sigma hi) ≤ sigma ^ 2 := by nlinarith
  apply abs_lt_of_sq_lt_sq _ hs.le
  nlinarith

theorem hasDensity (hlh : lo < hi) {f : ℝ → Except PyErr Fl}
    (hf : ∀ x, f x = .ok (fin (Spec.normalised (fun t => Real.exp (-(t - mu) ^ 2 / (2 * sigma ^ 2))) lo hi x)))
    {p : ℝ → ℝ} : Spec.HasDensity f p ↔ p = dens lo hi mu sigma := by
  constructor
  · rintro ⟨h, -⟩
    funext x
    have := (h x).symm.trans (hf x)
    simp only [Except.ok.injEq, Fl.fin.injEq] at this
    exact this
  · rintro rfl
    have hi0 : IntervalIntegrable (gaussShape mu sigma) volume lo hi :=
      (gaussShape_continuous mu sigma).intervalIntegrable _ _
    refine ⟨hf, normalised_nonneg hlh.le fun x _ => (gaussShape_pos mu sigma x).le,
      normalised_integrable hlh.le hi0, ?_⟩
    have := normalised_integral (S := univ) hlh.le (Z_pos (mu := mu) (sigma := sigma) hlh).ne'
      (subset_univ _)
    rwa [setIntegral_univ] at this

end GaussianMoments

open GaussianMoments

/-! ## The property -/

/-- What is true of the mean `m` and the variance `v` of a density `p` that is a Gaussian with
parameters `mu` and `sigma` truncated to `[lo, hi]`. -/
structure Spec.TruncatedMoments (p : ℝ → ℝ) (lo hi mu sigma m v : ℝ) : Prop where
  /-- `m` is the mean -/
  isMean : Spec.IsMean p m
  /-- `v` is the variance -/
  isVariance : Spec.IsVariance p v
  /-- the mean is `mu` shifted by the heights of the density at the ends of the window -/
  mean_value : m = mu + sigma ^ 2 * (p lo - p hi)
  /-- the variance is `sigma²` reduced by the heights of the density at the ends of the window -/
  variance_value : v = sigma ^ 2 * (1 - (m - lo) * p lo - (hi - m) * p hi)
  /-- the mean lies strictly inside the window -/
  mean_inside : lo < m ∧ m < hi
  /-- the standard deviation is strictly smaller than `sigma` -/
  variance_lt : 0 < v ∧ v < sigma ^ 2
  /-- the standard deviation does not grow beyond the window, however large `sigma` is -/
  variance_bounded : v < (m - lo) * (hi - m)
  /-- `mu` is the mean exactly when it is the centre of the window -/
  mean_eq_iff : m = mu ↔ mu = (lo + hi) / 2
  /-- the mean is below `mu` exactly when `mu` is above the centre -/
  mean_lt_iff : m < mu ↔ (lo + hi) / 2 < mu
  /-- inside the window `mu` is the mode, and the mean is within `sigma` of it -/
  mode : lo ≤ mu → mu ≤ hi → (∀ x, x ≠ mu → p x < p mu) ∧ |m - mu| < sigma

theorem GaussianMoments.moments {lo hi mu sigma : ℝ} (hlh : lo < hi) (hs : 0 < sigma) :
    Spec.TruncatedMoments (dens lo hi mu sigma) lo hi mu sigma (mean lo hi mu sigma)
      (var lo hi mu sigma) where
  isMean := (isMean hlh).2 rfl
  isVariance := (isVariance hlh).2 rfl
  mean_value := mean_eq hlh hs
  variance_value := var_eq hlh hs
  mean_inside := ⟨mean_gt hlh, mean_lt hlh⟩
  variance_lt := ⟨var_pos hlh, var_lt hlh hs⟩
  variance_bounded := var_bounded hlh
  mean_eq_iff := mean_eq_iff hlh hs
  mean_lt_iff := mean_lt_iff hlh hs
  mode := fun h1 h2 => by
    refine ⟨fun x hx => ?_, mean_close hlh hs h1 h2⟩
    by_cases hw : lo ≤ x ∧ x ≤ hi
    · rw [dens_at hw, dens_at ⟨h1, h2⟩, div_lt_div_iff_of_pos_right (Z_pos hlh)]
      unfold gaussShape
      rw [Real.exp_lt_exp, div_lt_div_iff_of_pos_right (by positivity), neg_lt_neg_iff]
      have := sub_ne_zero.2 hx
      have : 0 < (x - mu) ^ 2 := by positivity
      simpa using this
    · have : dens lo hi mu sigma x = 0 := by simp only [dens, Spec.normalised, if_neg hw]
      rw [this]
      exact dens_pos hlh ⟨h1, h2⟩

/-- **C132, partial.** The truncated normal of the package, however its arguments are passed: its
mean and its standard deviation are not `mu` and `sigma` but the numbers given here. -/
theorem C132_truncnorm_partial (b : Backend) (k₁ k₂ k₃ k₄ k₅ : Bool) {lo hi mu sigma : ℝ} (hlh : lo < hi)
    (hs : 0 < sigma) : ∃ p, Spec.HasDensity (fun x => truncnorm b ⟨fin x, k₁⟩ ⟨fin mu, k₂⟩ ⟨fin sigma, k₃⟩
      ⟨fin hi, k₄⟩ ⟨fin lo, k₅⟩) p ∧ ∃ m v, Spec.TruncatedMoments p lo hi mu sigma m v :=
  ⟨_, (hasDensity hlh fun x => C03_truncnorm_value b k₁ k₂ k₃ k₄ k₅ x hs hlh).2 rfl, _, _, moments hlh hs⟩

example : ∃ p, Spec.HasDensity (fun x => truncnorm .numpy ⟨fin x, true⟩ ⟨fin 35, true⟩ ⟨fin 5, true⟩
    ⟨fin 100, true⟩ ⟨fin 2, true⟩) p ∧ ∃ m v, Spec.TruncatedMoments p 2 100 35 5 m v :=
  C132_truncnorm_partial _ _ _ _ _ _ (by norm_num) (by norm_num)

theorem GaussianMoments.chiEff (b : Backend) {mu sigma : ℝ} (hs : 0 < sigma) {p : ℝ → ℝ} :
    Spec.HasDensity (fun x => gaussianChiEff b [("chi_eff", fin x)] (fin mu) (fin sigma)) p ↔
      p = dens (-1) 1 mu sigma :=
  hasDensity (by norm_num) fun x => (C29_single b mu hs).1 (by simp [Dict.get?])

theorem GaussianMoments.chiP (b : Backend) {mu sigma : ℝ} (hs : 0 < sigma) {p : ℝ → ℝ} :
    Spec.HasDensity (fun x => gaussianChiP b [("chi_p", fin x)] (fin mu) (fin sigma)) p ↔
      p = dens 0 1 mu sigma :=
  hasDensity (by norm_num) fun x => (C29_single b mu hs).2 (by simp [Dict.get?])

/-- **C132, partial.** The effective aligned spin: a density whose mean is `mu` only if `mu = 0`, and
whose standard deviation is always smaller than `sigma`. -/
theorem C132_chiEff_partial (b : Backend) {mu sigma : ℝ} (hs : 0 < sigma) :
    ∃ p, Spec.HasDensity (fun x => gaussianChiEff b [("chi_eff", fin x)] (fin mu) (fin sigma)) p ∧
      ∃ m v, Spec.TruncatedMoments p (-1) 1 mu sigma m v ∧ (m = mu ↔ mu = 0) := by
  have h := moments (lo := -1) (hi := 1) (mu := mu) (by norm_num) hs
  refine ⟨_, (chiEff b hs).2 rfl, _, _, h, ?_⟩
  rw [h.mean_eq_iff]
  norm_num

example : ∃ p, Spec.HasDensity (fun x => gaussianChiEff .numpy [("chi_eff", fin x)] (fin 0) (fin (1 / 2))) p ∧
    Spec.IsMean p 0 := by
  obtain ⟨p, hp, m, v, h, hm⟩ := C132_chiEff_partial .numpy (mu := 0) (sigma := 1 / 2) (by norm_num)
  have := h.isMean
  rw [hm.2 rfl] at this
  exact ⟨p, hp, this⟩

/-- **C132, partial.** The effective precessing spin: a density whose mean is `mu` only if
`mu = 1 / 2`, whose standard deviation is always smaller than `sigma`, and smaller than `1 / 2`. -/
theorem C132_chiP_partial (b : Backend) {mu sigma : ℝ} (hs : 0 < sigma) :
    ∃ p, Spec.HasDensity (fun x => gaussianChiP b [("chi_p", fin x)] (fin mu) (fin sigma)) p ∧
      ∃ m v, Spec.TruncatedMoments p 0 1 mu sigma m v ∧ (m = mu ↔ mu = 1 / 2) ∧ v < (1 / 2) ^ 2 := by
  have h := moments (lo := 0) (hi := 1) (mu := mu) (by norm_num) hs
  refine ⟨_, (chiP b hs).2 rfl, _, _, h, ?_, ?_⟩
  · rw [h.mean_eq_iff]
    norm_num
  · have := h.variance_bounded
    nlinarith [sq_nonneg (mean 0 1 mu sigma - 1 / 2)]

example : ∃ p, Spec.HasDensity (fun x => gaussianChiP .jax [("chi_p", fin x)] (fin (1 / 4)) (fin 1)) p ∧
    ∃ m, Spec.IsMean p m ∧ 1 / 4 < m ∧ m < 1 := by
  obtain ⟨p, hp, m, v, h, hm, -⟩ := C132_chiP_partial .jax (mu := 1 / 4) (sigma := 1) (by norm_num)
  refine ⟨p, hp, m, h.isMean, ?_, h.mean_inside.2⟩
  rcases lt_trichotomy m (1 / 4) with c | c | c
  · have := h.mean_lt_iff.1 c; norm_num at this
  · have := hm.1 c; norm_num at this
  · exact c

/-- **C132.** Each half of the property fails, for both models: the mean whenever `mu` is not the
centre of the window, the standard deviation always. -/
theorem C132_fails_parts (b : Backend) {mu sigma : ℝ} (hs : 0 < sigma) {p : ℝ → ℝ} :
    (Spec.HasDensity (fun x => gaussianChiEff b [("chi_eff", fin x)] (fin mu) (fin sigma)) p →
      (mu ≠ 0 → ¬ Spec.IsMean p mu) ∧ ¬ Spec.IsVariance p (sigma ^ 2)) ∧
    (Spec.HasDensity (fun x => gaussianChiP b [("chi_p", fin x)] (fin mu) (fin sigma)) p →
      (mu ≠ 1 / 2 → ¬ Spec.IsMean p mu) ∧ ¬ Spec.IsVariance p (sigma ^ 2)) := by
  constructor <;> intro hp
  · rw [(chiEff b hs).1 hp, isMean (by norm_num), isVariance (by norm_num), mean_eq_iff (by norm_num) hs]
    exact ⟨fun h e => h (by linarith), (var_lt (by norm_num) hs).ne⟩
  · rw [(chiP b hs).1 hp, isMean (by norm_num), isVariance (by norm_num), mean_eq_iff (by norm_num) hs]
    exact ⟨fun h e => h (by linarith), (var_lt (by norm_num) hs).ne⟩

/-- **C132.** The full property fails. -/
theorem C132_fails : ¬ C132_statement := by
  intro h
  have hp := (chiEff .numpy (mu := 1 / 2) (sigma := 1) one_pos).2 rfl
  exact ((C132_fails_parts .numpy one_pos).1 hp).1 (by norm_num)
    (((h .numpy (1 / 2) 1 _ one_pos).1 (by norm_num) (by norm_num) hp).1)

end GW
