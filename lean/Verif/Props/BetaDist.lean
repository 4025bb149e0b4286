import Verif.Props.Truncnorm
import Verif.Lemmas.BetaInt

/-!
# C05, C06, C07: scaled Beta distribution
-/

noncomputable section

open MeasureTheory Set Classical

namespace GW

open Fl Spec ProbabilityTheory

/-- The decorated `beta_dist` in terms of its body. -/
theorem betaDist_eq (junk : Fl → Fl → Fl) (b : Backend) (xx alpha beta scale : Arg) :
    betaDist junk b xx alpha beta scale =
      if b ≠ .jax ∧ ((alpha.kw = true ∧ ¬ (0 < alpha.val)) ∨ (beta.kw = true ∧ ¬ (0 < beta.val)) ∨
        (scale.kw = true ∧ ¬ (0 < scale.val))) then .error .valueError
      else .ok (betaDistBody junk xx.val alpha.val beta.val scale.val) := by
  unfold betaDist
  rw [C02_applyConditions_spec]
  have : Spec.someViolated
      [("alpha", .opVal opGt 0), ("beta", .opVal opGt 0), ("scale", .opVal opGt 0)]
      (kwargsOf [("xx", xx), ("alpha", alpha), ("beta", beta), ("scale", scale)]) ↔
      ((alpha.kw = true ∧ ¬ (0 < alpha.val)) ∨ (beta.kw = true ∧ ¬ (0 < beta.val)) ∨
        (scale.kw = true ∧ ¬ (0 < scale.val))) := by
    rcases xx with ⟨_, _ | _⟩ <;> rcases alpha with ⟨_, _ | _⟩ <;> rcases beta with ⟨_, _ | _⟩ <;>
      rcases scale with ⟨_, _ | _⟩ <;>
      simp [Spec.someViolated, Spec.condHolds, kwargsOf, Dict.get?_cons, opGt]
  simp only [this]

theorem betaln_fin (junk : Fl → Fl → Fl) {a b : ℝ} (ha : 0 < a) (hb : 0 < b) :
    betaln junk (fin a) (fin b) = fin (Real.log (beta a b)) := by
  simp [betaln, ha, hb]

theorem betaDistBody_interior (junk : Fl → Fl → Fl) {x a b scale : ℝ} (ha : 0 < a) (hb : 0 < b)
    (hx : 0 < x) (hxs : x < scale) :
    betaDistBody junk (fin x) (fin a) (fin b) (fin scale) =
      fin (normalised (betaShape a b scale) 0 scale x) := by
  have hs : 0 < scale := hx.trans hxs
  have hd : 0 < scale - x := by linarith
  have hB := beta_pos ha hb
  unfold betaDistBody
  rw [one_eq]
  simp only [fin_sub, fin_add, log_fin hx, log_fin hd, log_fin hs, fin_mul, betaln_fin junk ha hb,
    exp_fin, nanToNum_fin, ind_mul_ind]
  rw [mul_ind_true _ (by simp [hx.le, hxs.le])]
  congr 1
  unfold normalised
  rw [if_pos ⟨hx.le, hxs.le⟩, integral_betaShape ha hb hs, Real.exp_sub, Real.exp_sub, Real.exp_add,
    Real.exp_log hB, betaShape, Real.rpow_def_of_pos hx, Real.rpow_def_of_pos hd,
    Real.rpow_def_of_pos hs, div_div]
  congr 1
  · rw [mul_comm (a - 1), mul_comm (b - 1)]
  · rw [mul_comm (Real.log scale)]; ring

/-- **C05.** For all positive shape parameters and scales and `0 < x < scale`, in every call style,
`beta_dist` is `x^(alpha-1) (scale-x)^(beta-1)` divided by its integral over `[0, scale]`. -/
theorem C05_betaDist_value (junk : Fl → Fl → Fl) (bk : Backend) (k₁ k₂ k₃ k₄ : Bool)
    {x a b scale : ℝ} (ha : 0 < a) (hb : 0 < b) (hx : 0 < x) (hxs : x < scale) :
    betaDist junk bk ⟨fin x, k₁⟩ ⟨fin a, k₂⟩ ⟨fin b, k₃⟩ ⟨fin scale, k₄⟩ =
      .ok (fin (normalised (fun t => t ^ (a - 1) * (scale - t) ^ (b - 1)) 0 scale x)) := by
  rw [betaDist_eq, if_neg (by simp [ha, hb, hx.trans hxs])]
  exact congrArg Except.ok (betaDistBody_interior junk ha hb hx hxs)

/-- **C06.** For all floats whatsoever an unchecked call of `beta_dist` returns a finite
non-negative number, and 0 unless `0 <= x <= scale` holds as an IEEE comparison. -/
theorem C06_betaDist_total (junk : Fl → Fl → Fl) (bk : Backend) (x a b scale : Fl) :
    ∃ r : ℝ, 0 ≤ r ∧ betaDist junk bk (pos x) (pos a) (pos b) (pos scale) = .ok (fin r) ∧
      (¬ (0 ≤ x ∧ x ≤ scale) → r = 0) := by
  rw [betaDist_eq, if_neg (by simp)]
  simp only [pos_val]
  obtain ⟨r, hr0, hr⟩ := nanToNum_exp ((a - 1) * Fl.log x + (b - 1) * Fl.log (scale - x) -
    betaln junk a b - (a + b - 1) * Fl.log scale)
  have : betaDistBody junk x a b scale = fin (if 0 ≤ x ∧ x ≤ scale then r else 0) := by
    unfold betaDistBody
    simp only [hr, ind_mul_ind, fin_mul_ind]
  refine ⟨_, ?_, congrArg Except.ok this, fun hn => if_neg hn⟩
  split_ifs <;> first | exact hr0 | exact le_rfl

/-- **C06.** In every call style the only exception is the `ValueError` of the parameter checks. -/
theorem C06_betaDist_only_error (junk : Fl → Fl → Fl) (bk : Backend) (x a b scale : Arg) :
    (∃ r : ℝ, 0 ≤ r ∧ betaDist junk bk x a b scale = .ok (fin r)) ∨
    (betaDist junk bk x a b scale = .error .valueError ∧ bk ≠ .jax ∧
      ((a.kw = true ∧ ¬ (0 < a.val)) ∨ (b.kw = true ∧ ¬ (0 < b.val)) ∨
        (scale.kw = true ∧ ¬ (0 < scale.val)))) := by
  rw [betaDist_eq]
  by_cases h : bk ≠ .jax ∧ ((a.kw = true ∧ ¬ (0 < a.val)) ∨ (b.kw = true ∧ ¬ (0 < b.val)) ∨
        (scale.kw = true ∧ ¬ (0 < scale.val)))
  · rw [if_pos h]; exact Or.inr ⟨rfl, h⟩
  · rw [if_neg h]
    left
    obtain ⟨r, h0, hr, -⟩ := C06_betaDist_total junk bk x.val a.val b.val scale.val
    rw [betaDist_eq, if_neg (by simp)] at hr
    exact ⟨r, h0, hr⟩

/-- Non-vacuity of C06: spin magnitude above the maximum. -/
example (junk : Fl → Fl → Fl) :
    betaDist junk .numpy (pos (fin 2)) (pos (fin 0)) (pos nan) (pos (fin 1)) = .ok (fin 0) := by
  obtain ⟨r, -, hr, h⟩ := C06_betaDist_total junk .numpy (fin 2) (fin 0) nan (fin 1)
  rw [hr, h (by simp)]

theorem betaShape_nonneg {a b scale t : ℝ} (h : t ∈ Icc 0 scale) : 0 ≤ betaShape a b scale t :=
  mul_nonneg (Real.rpow_nonneg h.1 _) (Real.rpow_nonneg (by linarith [h.2]) _)

/-- **C05.** `beta_dist` is a probability density on every measurable set containing
`(0, scale)`, in particular on `[0, scale]` and on the real line. -/
theorem C05_betaDist_isDensity (junk : Fl → Fl → Fl) (bk : Backend) (k₁ k₂ k₃ k₄ : Bool)
    {a b scale : ℝ} (ha : 0 < a) (hb : 0 < b) (hs : 0 < scale) (S : Set ℝ)
    (hS : Ioo 0 scale ⊆ S) (hSm : MeasurableSet S) :
    IsDensityOn (fun x : ℝ => betaDist junk bk ⟨fin x, k₁⟩ ⟨fin a, k₂⟩ ⟨fin b, k₃⟩ ⟨fin scale, k₄⟩)
      S := by
  have hval : ∀ x : ℝ, betaDist junk bk ⟨fin x, k₁⟩ ⟨fin a, k₂⟩ ⟨fin b, k₃⟩ ⟨fin scale, k₄⟩ =
      .ok (betaDistBody junk (fin x) (fin a) (fin b) (fin scale)) := by
    intro x
    rw [betaDist_eq, if_neg (by simp [ha, hb, hs])]
  have htot : ∀ x : ℝ, ∃ r : ℝ, 0 ≤ r ∧
      betaDistBody junk (fin x) (fin a) (fin b) (fin scale) = fin r ∧
      (¬ (0 ≤ x ∧ x ≤ scale) → r = 0) := by
    intro x
    obtain ⟨r, h0, hr, hz⟩ := C06_betaDist_total junk bk (fin x) (fin a) (fin b) (fin scale)
    rw [betaDist_eq, if_neg (by simp)] at hr
    exact ⟨r, h0, by simpa using hr, by simpa using hz⟩
  choose g hg0 hg hgz using htot
  have hae : ∀ᵐ x : ℝ, g x = normalised (betaShape a b scale) 0 scale x := by
    have h1 : ∀ᵐ x : ℝ, x ≠ 0 := by simp [ae_iff, measure_singleton]
    have h2 : ∀ᵐ x : ℝ, x ≠ scale := by simp [ae_iff, measure_singleton]
    filter_upwards [h1, h2] with x hx0 hxs
    by_cases hin : 0 ≤ x ∧ x ≤ scale
    · have hx : 0 < x := lt_of_le_of_ne hin.1 (Ne.symm hx0)
      have hx' : x < scale := lt_of_le_of_ne hin.2 hxs
      have := betaDistBody_interior junk ha hb hx hx'
      rw [hg x] at this
      exact fin_inj.1 this
    · rw [hgz x hin, normalised, if_neg hin]
  have hI : ∫ t in (0 : ℝ)..scale, betaShape a b scale t ≠ 0 := by
    rw [integral_betaShape ha hb hs]
    exact (mul_pos (Real.rpow_pos_of_pos hs _) (beta_pos ha hb)).ne'
  have hint : Integrable (normalised (betaShape a b scale) 0 scale) :=
    normalised_integrable hs.le (betaShape_intervalIntegrable ha hb hs)
  refine ⟨g, fun x _ => (hval x).trans (congrArg Except.ok (hg x)), fun x _ => hg0 x, ?_, ?_⟩
  · exact (hint.congr (hae.mono fun x hx => hx.symm)).integrableOn
  · rw [setIntegral_congr_ae hSm (hae.mono fun x hx _ => hx)]
    have hunion : ∫ x in S, normalised (betaShape a b scale) 0 scale x =
        ∫ x in S ∪ Icc 0 scale, normalised (betaShape a b scale) 0 scale x := by
      apply setIntegral_congr_set
      have : (Icc 0 scale : Set ℝ) =ᵐ[volume] Ioo 0 scale := Ioo_ae_eq_Icc.symm
      have h2 : (S ∪ Ioo 0 scale : Set ℝ) =ᵐ[volume] (S ∪ Icc 0 scale : Set ℝ) :=
        Filter.EventuallyEq.union (Filter.EventuallyEq.refl _ _) this.symm
      rwa [union_eq_left.2 hS] at h2
    rw [hunion]
    exact normalised_integral hs.le hI subset_union_right

/-- Non-vacuity of C05: shape parameters below one (integrable singularities at both ends). -/
example (junk : Fl → Fl → Fl) : IsDensityOn (fun x : ℝ =>
    betaDist junk .numpy (pos (fin x)) (pos (fin (1/2))) (pos (fin (1/2))) (kw (fin 1)))
    (Icc 0 1) :=
  C05_betaDist_isDensity junk .numpy false false false true (by norm_num) (by norm_num) one_pos _
    Ioo_subset_Icc_self measurableSet_Icc

/-! ## C07: end points -/

/-- Full statement of C07: at the end points the density value is returned whenever it is finite
(`alpha >= 1` at 0 and `beta >= 1` at `scale`). -/
def C07_statement (junk : Fl → Fl → Fl) : Prop :=
  ∀ (bk : Backend) (a b scale : ℝ), 1 ≤ a → 1 ≤ b → 0 < scale →
    betaDist junk bk (pos (fin 0)) (pos (fin a)) (pos (fin b)) (pos (fin scale)) =
      .ok (fin (normalised (fun t => t ^ (a - 1) * (scale - t) ^ (b - 1)) 0 scale 0)) ∧
    betaDist junk bk (pos (fin scale)) (pos (fin a)) (pos (fin b)) (pos (fin scale)) =
      .ok (fin (normalised (fun t => t ^ (a - 1) * (scale - t) ^ (b - 1)) 0 scale scale))

/-- Exact values at the lower end point: 0 for `alpha >= 1`, the largest float for
`alpha < 1`. -/
theorem betaDist_at_zero (junk : Fl → Fl → Fl) (bk : Backend) {a b scale : ℝ} (ha : 0 < a)
    (hb : 0 < b) (hs : 0 < scale) :
    betaDist junk bk (pos (fin 0)) (pos (fin a)) (pos (fin b)) (pos (fin scale)) =
      .ok (fin (if a < 1 then bigR else 0)) := by
  rw [betaDist_eq, if_neg (by simp)]
  unfold betaDistBody
  simp only [pos_val]
  rw [one_eq]
  simp only [fin_sub, sub_zero, fin_add, log_zero, log_fin hs, fin_mul, fin_mul_ninf,
    betaln_fin junk ha hb, ind_mul_ind]
  rw [mul_ind_true _ (by simp [hs.le])]
  congr 1
  rcases lt_trichotomy a 1 with h | h | h
  · rw [signInf_pos (by linarith), if_pos h]
    simp
  · subst h; simp
  · rw [signInf_neg (by linarith), if_neg (by linarith)]
    simp

/-- Exact values at the upper end point. -/
theorem betaDist_at_scale (junk : Fl → Fl → Fl) (bk : Backend) {a b scale : ℝ} (ha : 0 < a)
    (hb : 0 < b) (hs : 0 < scale) :
    betaDist junk bk (pos (fin scale)) (pos (fin a)) (pos (fin b)) (pos (fin scale)) =
      .ok (fin (if b < 1 then bigR else 0)) := by
  rw [betaDist_eq, if_neg (by simp)]
  unfold betaDistBody
  simp only [pos_val]
  rw [one_eq]
  simp only [fin_sub, sub_self, fin_add, log_zero, log_fin hs, fin_mul, fin_mul_ninf,
    betaln_fin junk ha hb, ind_mul_ind]
  rw [mul_ind_true _ (by simp [hs.le])]
  congr 1
  rcases lt_trichotomy b 1 with h | h | h
  · rw [signInf_pos (by linarith), if_pos h]
    simp
  · subst h; simp
  · rw [signInf_neg (by linarith), if_neg (by linarith)]
    simp

/-- **C07 fails**: the uniform distribution (`alpha = beta = 1`) is returned as 0 at 0. -/
theorem C07_fails (junk : Fl → Fl → Fl) : ¬ C07_statement junk := by
  intro h
  have h1 := (h .numpy 1 1 1 le_rfl le_rfl one_pos).1
  rw [betaDist_at_zero junk _ one_pos one_pos one_pos, if_neg (by norm_num)] at h1
  rw [normalised, if_pos (by norm_num)] at h1
  simp at h1

/-- **C07, what holds.** At both end points the returned value is the density exactly when the
density is finite and zero (`alpha > 1`, `beta > 1`); for exponent exactly 1 the value is 0
instead of the density, and for smaller exponents it is the largest float. -/
theorem C07_endpoints_partial (junk : Fl → Fl → Fl) (bk : Backend) {a b scale : ℝ} (ha : 0 < a)
    (hb : 0 < b) (hs : 0 < scale) :
    (betaDist junk bk (pos (fin 0)) (pos (fin a)) (pos (fin b)) (pos (fin scale)) =
      .ok (fin (if a < 1 then bigR else 0))) ∧
    (betaDist junk bk (pos (fin scale)) (pos (fin a)) (pos (fin b)) (pos (fin scale)) =
      .ok (fin (if b < 1 then bigR else 0))) ∧
    (1 < a → betaDist junk bk (pos (fin 0)) (pos (fin a)) (pos (fin b)) (pos (fin scale)) =
      .ok (fin (normalised (fun t => t ^ (a - 1) * (scale - t) ^ (b - 1)) 0 scale 0))) ∧
    (1 < b → betaDist junk bk (pos (fin scale)) (pos (fin a)) (pos (fin b)) (pos (fin scale)) =
      .ok (fin (normalised (fun t => t ^ (a - 1) * (scale - t) ^ (b - 1)) 0 scale scale))) := by
  refine ⟨betaDist_at_zero junk bk ha hb hs, betaDist_at_scale junk bk ha hb hs, ?_, ?_⟩
  · intro h
    rw [betaDist_at_zero junk bk ha hb hs, if_neg (by linarith), normalised,
      if_pos ⟨le_rfl, hs.le⟩, Real.zero_rpow (by linarith)]
    simp
  · intro h
    rw [betaDist_at_scale junk bk ha hb hs, if_neg (by linarith), normalised,
      if_pos ⟨hs.le, le_rfl⟩, sub_self, Real.zero_rpow (by linarith)]
    simp

/-- Non-vacuity of C07. -/
example (junk : Fl → Fl → Fl) :
    betaDist junk .numpy (pos (fin 0)) (pos (fin 2)) (pos (fin 3)) (pos (fin 1)) = .ok (fin 0) := by
  have := (C07_endpoints_partial junk .numpy (a := 2) (b := 3) (scale := 1) (by norm_num)
    (by norm_num) one_pos).1
  rw [this, if_neg (by norm_num)]

end GW
