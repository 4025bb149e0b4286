import Verif.Props.Powerlaw
import Verif.Lemmas.Gauss

/-!
# C03, C04: truncated normal distribution
-/

noncomputable section

open MeasureTheory Set Classical

namespace GW

open Fl Spec

/-- The decorated `truncnorm` in terms of its body. -/
theorem truncnorm_eq (b : Backend) (xx mu sigma high low : Arg) :
    truncnorm b xx mu sigma high low =
      if b ≠ .jax ∧ sigma.kw = true ∧ ¬ (0 < sigma.val) then .error .valueError
      else .ok (truncnormBody xx.val mu.val sigma.val high.val low.val) := by
  unfold truncnorm
  rw [C02_applyConditions_spec]
  have : Spec.someViolated [("sigma", .opVal opGt 0)]
      (kwargsOf [("xx", xx), ("mu", mu), ("sigma", sigma), ("high", high), ("low", low)]) ↔
      (sigma.kw = true ∧ ¬ (0 < sigma.val)) := by
    rcases xx with ⟨_, _ | _⟩ <;> rcases mu with ⟨_, _ | _⟩ <;> rcases sigma with ⟨_, _ | _⟩ <;>
      rcases high with ⟨_, _ | _⟩ <;> rcases low with ⟨_, _ | _⟩ <;>
      simp [Spec.someViolated, Spec.condHolds, kwargsOf, Dict.get?_cons, opGt]
  simp only [this]

theorem logNdtr_fin (x : ℝ) : logNdtr (fin x) = fin (Real.log (stdNormalCDF x)) :=
  log_fin (stdNormalCDF_pos x)

theorem logsubexp_fin {p q : ℝ} (hq : 0 < q) (hpq : q < p) :
    logsubexp (fin (Real.log p)) (fin (Real.log q)) = fin (Real.log (p - q)) := by
  have hp : 0 < p := hq.trans hpq
  have hr : q / p < 1 := (div_lt_one hp).2 hpq
  unfold logsubexp
  rw [fin_sub, exp_fin, Real.exp_sub, Real.exp_log hq, Real.exp_log hp, one_eq, fin_sub,
    log_fin (by linarith), fin_add, ← Real.log_mul hp.ne' (by linarith)]
  congr 2
  field_simp

/-- All three branches compute the same number: the log-probability of the window. -/
theorem truncnorm_logNorm {a b : ℝ} (h : a < b) :
    (if fin b ≤ 0 then logsubexp (logNdtr (fin b)) (logNdtr (fin a))
      else if 0 < fin a then logsubexp (logNdtr (-fin a)) (logNdtr (-fin b))
      else if 0 < fin b then log1p (-(ndtr (fin a)) - ndtr (-fin b))
      else nan) = fin (Real.log (stdNormalCDF b - stdNormalCDF a)) := by
  have hlt := stdNormalCDF_lt h
  by_cases hb : b ≤ 0
  · rw [if_pos (by simpa using hb), logNdtr_fin, logNdtr_fin, logsubexp_fin (stdNormalCDF_pos a) hlt]
  · rw [if_neg (by simpa using hb)]
    by_cases ha : 0 < a
    · rw [if_pos (by simpa using ha), fin_neg, fin_neg, logNdtr_fin, logNdtr_fin,
        logsubexp_fin (stdNormalCDF_pos _) (stdNormalCDF_lt (by linarith)),
        stdNormalCDF_neg, stdNormalCDF_neg]
      congr 2; ring
    · rw [if_neg (by simpa using ha), if_pos (by simpa using hb)]
      unfold log1p
      rw [fin_neg]
      simp only [ndtr]
      rw [fin_neg, fin_sub, one_eq, fin_add, stdNormalCDF_neg, log_fin (by linarith)]
      congr 2; ring

theorem truncnormBody_eq {x mu sigma hi lo : ℝ} (hs : 0 < sigma) (h : lo < hi) :
    truncnormBody (fin x) (fin mu) (fin sigma) (fin hi) (fin lo) =
      fin (normalised (gaussShape mu sigma) lo hi x) := by
  have hab : (lo - mu) / sigma < (hi - mu) / sigma := by gcongr
  have hlt := stdNormalCDF_lt hab
  have h2pi : (0 : ℝ) < 2 * Real.pi := by positivity
  have hsq : 0 < Real.sqrt (2 * Real.pi) := Real.sqrt_pos.2 h2pi
  unfold truncnormBody
  simp only [fin_sub, fin_div hs.ne']
  rw [truncnorm_logNorm hab]
  simp only [fin_sub, ofNat_eq, fin_npow, fin_neg,
    fin_div (two_ne_zero' ℝ), fin_mul, log_fin h2pi, log_fin hs, exp_fin, nanToNum_fin,
    fin_mul_ind, fin_le]
  congr 1
  unfold normalised
  rw [integral_gaussShape hs h.le]
  by_cases h1 : lo ≤ x
  · by_cases h2 : x ≤ hi
    · rw [if_pos h2, if_pos h1, if_pos ⟨h1, h2⟩, Real.exp_sub, Real.exp_sub, Real.exp_sub,
        Real.exp_log hs, Real.exp_log (by linarith), gaussShape]
      have e1 : Real.exp (Real.log (2 * Real.pi) / 2) = Real.sqrt (2 * Real.pi) := by
        rw [Real.sqrt_eq_rpow, Real.rpow_def_of_pos h2pi]; congr 1; ring
      have e2 : -((x - mu) / sigma) ^ 2 / 2 = -(x - mu) ^ 2 / (2 * sigma ^ 2) := by
        field_simp
      rw [e1, e2, div_div, div_div, mul_assoc]
    · rw [if_neg h2, if_neg (fun h => h2 h.2)]
  · rw [if_neg (c := lo ≤ x) h1, if_neg (c := lo ≤ x ∧ x ≤ hi) (fun h => h1 h.1)]
    simp

/-- **C03.** For every mean, every positive width and every window, whichever branch of the
log-normalisation is taken and however the arguments are passed, `truncnorm` is the Gaussian
restricted to the window and normalised. -/
theorem C03_truncnorm_value (b : Backend) (k₁ k₂ k₃ k₄ k₅ : Bool) {mu sigma hi lo : ℝ} (x : ℝ)
    (hs : 0 < sigma) (h : lo < hi) :
    truncnorm b ⟨fin x, k₁⟩ ⟨fin mu, k₂⟩ ⟨fin sigma, k₃⟩ ⟨fin hi, k₄⟩ ⟨fin lo, k₅⟩ =
      .ok (fin (normalised (fun t => Real.exp (-(t - mu) ^ 2 / (2 * sigma ^ 2))) lo hi x)) := by
  rw [truncnorm_eq, if_neg (by simp [hs])]
  exact congrArg Except.ok (truncnormBody_eq hs h)

theorem integral_gaussShape_pos {mu sigma lo hi : ℝ} (h : lo < hi) :
    0 < ∫ t in lo..hi, gaussShape mu sigma t :=
  intervalIntegral.intervalIntegral_pos_of_pos_on
    ((gaussShape_continuous mu sigma).intervalIntegrable _ _) (fun t _ => gaussShape_pos _ _ t) h

/-- **C03.** `truncnorm` is a probability density on the real line (and on every set that
contains the window). -/
theorem C03_truncnorm_isDensity (b : Backend) (k₁ k₂ k₃ k₄ k₅ : Bool) {mu sigma hi lo : ℝ}
    (hs : 0 < sigma) (h : lo < hi) (S : Set ℝ) (hS : Icc lo hi ⊆ S) :
    IsDensityOn (fun x : ℝ =>
      truncnorm b ⟨fin x, k₁⟩ ⟨fin mu, k₂⟩ ⟨fin sigma, k₃⟩ ⟨fin hi, k₄⟩ ⟨fin lo, k₅⟩) S :=
  isDensityOn_normalised h.le (fun x _ => (gaussShape_pos mu sigma x).le)
    ((gaussShape_continuous mu sigma).intervalIntegrable _ _)
    (integral_gaussShape_pos h).ne' hS
    (fun x _ => C03_truncnorm_value b k₁ k₂ k₃ k₄ k₅ x hs h)

/-- Non-vacuity: a window in the far upper tail (second branch) with mean 0. -/
example : IsDensityOn (fun x : ℝ =>
    truncnorm .numpy (pos (fin x)) (kw (fin 0)) (kw (fin 1)) (kw (fin 7)) (kw (fin 5))) univ :=
  C03_truncnorm_isDensity .numpy false true true true true one_pos (by norm_num) univ
    (subset_univ _)

/-- `nan_to_num(exp(y))` is always a finite non-negative number. -/
theorem nanToNum_exp (y : Fl) : ∃ r : ℝ, 0 ≤ r ∧ nanToNum (Fl.exp y) = fin r := by
  cases y with
  | fin a => exact ⟨Real.exp a, (Real.exp_pos a).le, rfl⟩
  | pinf => exact ⟨bigR, bigR_pos.le, rfl⟩
  | ninf => exact ⟨0, le_rfl, rfl⟩
  | nan => exact ⟨0, le_rfl, rfl⟩

/-- **C04.** For all floats whatsoever (NaN, infinities, non-positive widths, inverted windows),
an unchecked call of `truncnorm` returns a finite non-negative number, which is zero unless
`low <= x <= high` holds as an IEEE comparison. -/
theorem C04_truncnorm_total (b : Backend) (x mu sigma high low : Fl) :
    ∃ r : ℝ, 0 ≤ r ∧
      truncnorm b (pos x) (pos mu) (pos sigma) (pos high) (pos low) = .ok (fin r) ∧
      (¬ (low ≤ x ∧ x ≤ high) → r = 0) := by
  rw [truncnorm_eq, if_neg (by simp)]
  simp only [pos_val]
  obtain ⟨r, hr0, hr⟩ := nanToNum_exp
    (-(((x - mu) / sigma) ^ 2) / 2 - Fl.log (2 * fin Real.pi) / 2 - Fl.log sigma -
      (if (high - mu) / sigma ≤ 0 then
          logsubexp (logNdtr ((high - mu) / sigma)) (logNdtr ((low - mu) / sigma))
        else if 0 < (low - mu) / sigma then
          logsubexp (logNdtr (-((low - mu) / sigma))) (logNdtr (-((high - mu) / sigma)))
        else if 0 < (high - mu) / sigma then
          log1p (-(ndtr ((low - mu) / sigma)) - ndtr (-((high - mu) / sigma)))
        else nan))
  have : truncnormBody x mu sigma high low =
      fin (if x ≤ high then (if low ≤ x then r else 0) else 0) := by
    unfold truncnormBody
    simp only [hr, fin_mul_ind]
  refine ⟨_, ?_, congrArg Except.ok this, ?_⟩
  · split_ifs <;> first | exact hr0 | exact le_rfl
  · intro hn
    by_cases h1 : x ≤ high
    · rw [if_pos h1, if_neg (fun h2 => hn ⟨h2, h1⟩)]
    · rw [if_neg h1]

/-- **C04.** In every call style the only exception is the `ValueError` of the `sigma` check. -/
theorem C04_truncnorm_only_error (b : Backend) (x mu sigma high low : Arg) :
    (∃ r : ℝ, 0 ≤ r ∧ truncnorm b x mu sigma high low = .ok (fin r)) ∨
    (truncnorm b x mu sigma high low = .error .valueError ∧ sigma.kw = true ∧ b ≠ .jax ∧
      ¬ (0 < sigma.val)) := by
  rw [truncnorm_eq]
  by_cases h : b ≠ .jax ∧ sigma.kw = true ∧ ¬ (0 < sigma.val)
  · rw [if_pos h]; exact Or.inr ⟨rfl, h.2.1, h.1, h.2.2⟩
  · rw [if_neg h]
    left
    obtain ⟨r, h0, hr, -⟩ := C04_truncnorm_total b x.val mu.val sigma.val high.val low.val
    rw [truncnorm_eq, if_neg (by simp)] at hr
    exact ⟨r, h0, hr⟩

/-- Non-vacuity: NaN data give 0. -/
example : truncnorm .numpy (pos nan) (pos (fin 0)) (pos (fin (-1))) (pos pinf) (pos ninf) =
    .ok (fin 0) := by
  obtain ⟨r, -, hr, h⟩ := C04_truncnorm_total .numpy nan (fin 0) (fin (-1)) pinf ninf
  rw [hr, h (by simp)]

end GW
