import Verif.Props.UtilsMisc

/-!
# C134: the mean direction and the concentration of the von Mises distribution

`von_mises` documents `mu` as the mean of the distribution and `kappa` as its scale
(`utils.py:243-246`).
-/

noncomputable section

open MeasureTheory Set

namespace GW

open Fl

/-! ## Specification -/

/-- The density `p` of an angle, over the period that starts at `a`, has the mean direction `mu` with
the resultant length `R`: the mean of the point `(cos x, sin x)` of the circle is the point at the
distance `R` from the centre in the direction `mu`. -/
def Spec.HasMeanDirection (p : ℝ → ℝ) (a mu R : ℝ) : Prop :=
  ∫ x in a..a + 2 * Real.pi, Real.cos x * p x = R * Real.cos mu ∧
    ∫ x in a..a + 2 * Real.pi, Real.sin x * p x = R * Real.sin mu

/-! ## Moments -/

namespace VonMisesMoments

/-- The shape. -/
def shape (k t : ℝ) : ℝ := Real.exp (k * Real.cos t)

theorem shape_pos (k t : ℝ) : 0 < shape k t := Real.exp_pos _

theorem shape_continuous (k : ℝ) : Continuous (shape k) := by unfold shape; fun_prop

theorem norm_pos (k : ℝ) : 0 < ∫ t in -Real.pi..Real.pi, shape k t :=
  intervalIntegral.intervalIntegral_pos_of_pos_on ((shape_continuous k).intervalIntegrable _ _)
    (fun t _ => shape_pos k t) (by linarith [Real.pi_pos])

/-- The resultant length. -/
def R (k : ℝ) : ℝ := (∫ t in -Real.pi..Real.pi, Real.cos t * shape k t) / ∫ t in -Real.pi..Real.pi, shape k t

theorem period (a : ℝ) {f : ℝ → ℝ} (hf : Function.Periodic f (2 * Real.pi)) (mu : ℝ) :
    ∫ x in a..a + 2 * Real.pi, f (x - mu) = ∫ t in -Real.pi..Real.pi, f t := by
  rw [intervalIntegral.integral_comp_sub_right (fun t => f t) mu,
    show a + 2 * Real.pi - mu = (a - mu) + 2 * Real.pi by ring, hf.intervalIntegral_add_eq (a - mu) (-Real.pi)]
  congr 1
  ring

theorem sin_zero (k : ℝ) : ∫ t in -Real.pi..Real.pi, Real.sin t * shape k t = 0 := by
  have h := intervalIntegral.integral_comp_neg (a := -Real.pi) (b := Real.pi) fun t => Real.sin t * shape k t
  have e : ∀ t, Real.sin (-t) * shape k (-t) = -(Real.sin t * shape k t) := by
    intro t
    unfold shape
    rw [Real.sin_neg, Real.cos_neg]
    ring
  simp only [e, neg_neg] at h
  rw [intervalIntegral.integral_neg] at h
  linarith

/-- An integral against the shape is positive if the other factor is non-negative and not zero. -/
theorem moment_pos (k : ℝ) {f : ℝ → ℝ} (hc : Continuous f) (h0 : ∀ t, 0 ≤ f t)
    (h1 : ∃ t ∈ Icc (-Real.pi) Real.pi, 0 < f t) : 0 < ∫ t in -Real.pi..Real.pi, f t * shape k t := by
  obtain ⟨t, ht, hp⟩ := h1
  exact intervalIntegral.integral_pos (by linarith [Real.pi_pos])
    (hc.mul (shape_continuous k)).continuousOn (fun t _ => mul_nonneg (h0 t) (shape_pos k t).le)
    ⟨t, ht, mul_pos hp (shape_pos k t)⟩

theorem cos_moment (k c : ℝ) : ∫ t in -Real.pi..Real.pi, (Real.cos t - c) * shape k t =
    (R k - c) * ∫ t in -Real.pi..Real.pi, shape k t := by
  have hs := shape_continuous k
  have h1 : Continuous fun t => Real.cos t * shape k t := by fun_prop
  have h2 : Continuous fun t => c * shape k t := by fun_prop
  have e : ∀ t, (Real.cos t - c) * shape k t = Real.cos t * shape k t - c * shape k t := fun t => by ring
  simp only [e]
  rw [intervalIntegral.integral_sub (h1.intervalIntegrable _ _) (h2.intervalIntegrable _ _),
    intervalIntegral.integral_const_mul, sub_mul, R, div_mul_cancel₀ _ (norm_pos k).ne']

theorem R_lt_one (k : ℝ) : R k < 1 := by
  have h := moment_pos k (f := fun t => 1 - Real.cos t) (by fun_prop)
    (fun t => sub_nonneg.2 (Real.cos_le_one t))
    ⟨Real.pi, ⟨by linarith [Real.pi_pos], le_rfl⟩, by rw [Real.cos_pi]; norm_num⟩
  have e : ∀ t, (1 - Real.cos t) * shape k t = -((Real.cos t - 1) * shape k t) := fun t => by ring
  simp only [e] at h
  rw [intervalIntegral.integral_neg, cos_moment] at h
  have := norm_pos k
  by_contra hc
  nlinarith

theorem R_zero : R 0 = 0 := by
  unfold R shape
  simp

theorem R_strictMono : StrictMono R := by
  intro k k' hk
  have hs := shape_continuous k
  have hr := R_lt_one k
  have h := moment_pos k
    (f := fun t => (Real.cos t - R k) * (Real.exp ((k' - k) * Real.cos t) - Real.exp ((k' - k) * R k)))
    (by fun_prop) (fun t => ?_) ⟨0, ⟨by linarith [Real.pi_pos], Real.pi_pos.le⟩, ?_⟩
  · have e : ∀ t, (Real.cos t - R k) * (Real.exp ((k' - k) * Real.cos t) - Real.exp ((k' - k) * R k)) * shape k t =
        (Real.cos t - R k) * shape k' t - Real.exp ((k' - k) * R k) * ((Real.cos t - R k) * shape k t) := by
      intro t
      have : shape k' t = Real.exp ((k' - k) * Real.cos t) * shape k t := by
        unfold shape
        rw [← Real.exp_add]
        congr 1
        ring
      rw [this]
      ring
    simp only [e] at h
    have hs' := shape_continuous k'
    have h1 : Continuous fun t => (Real.cos t - R k) * shape k' t := by fun_prop
    have h2 : Continuous fun t => Real.exp ((k' - k) * R k) * ((Real.cos t - R k) * shape k t) := by fun_prop
    rw [intervalIntegral.integral_sub (h1.intervalIntegrable _ _) (h2.intervalIntegrable _ _),
      intervalIntegral.integral_const_mul, cos_moment, cos_moment, sub_self, zero_mul, mul_zero, sub_zero] at h
    have := norm_pos k'
    by_contra hc
    nlinarith
  · rcases le_total (R k) (Real.cos t) with hc | hc
    · exact mul_nonneg (sub_nonneg.2 hc) (sub_nonneg.2 (Real.exp_le_exp.2
        (mul_le_mul_of_nonneg_left hc (by linarith))))
    · exact mul_nonneg_of_nonpos_of_nonpos (sub_nonpos.2 hc) (sub_nonpos.2 (Real.exp_le_exp.2
        (mul_le_mul_of_nonneg_left hc (by linarith))))
  · rw [Real.cos_zero]
    refine mul_pos (by linarith) (sub_pos.2 (Real.exp_lt_exp.2 ?_))
    exact mul_lt_mul_of_pos_left hr (by linarith)

end VonMisesMoments

open VonMisesMoments

/-- The numbers returned by `von_mises`. -/
def Spec.IsVonMises (mu k : ℝ) (p : ℝ → ℝ) : Prop := ∀ x, vonMises (fin x) (fin mu) (fin k) = fin (p x)

theorem VonMisesMoments.direction {mu k : ℝ} (hk : 0 ≤ k) {p : ℝ → ℝ} (hp : Spec.IsVonMises mu k p) (a : ℝ) :
    Spec.HasMeanDirection p a mu (R k) := by
  have hval : p = fun x => shape k (x - mu) / (2 * Real.pi * besselI0 k) := by
    funext x
    have := (hp x).symm.trans (C09_vonMises_value x mu hk)
    simpa [shape] using this
  set D := 2 * Real.pi * besselI0 k with hD
  have hDe : D = ∫ t in -Real.pi..Real.pi, shape k t := by
    have := integral_exp_cos k 0 (-Real.pi)
    rw [show -Real.pi + 2 * Real.pi = Real.pi by ring] at this
    simp only [sub_zero] at this
    exact this.symm
  have hD0 : D ≠ 0 := by rw [hDe]; exact (norm_pos k).ne'
  have hs := shape_continuous k
  have perS : Function.Periodic (fun t => Real.sin t * shape k t) (2 * Real.pi) := by
    intro t
    simp only [shape, Real.sin_add_two_pi, Real.cos_add_two_pi]
  have perC : Function.Periodic (fun t => Real.cos t * shape k t) (2 * Real.pi) := by
    intro t
    simp only [shape, Real.cos_add_two_pi]
  have iS : ∫ x in a..a + 2 * Real.pi, Real.sin (x - mu) * shape k (x - mu) = 0 :=
    (period a perS mu).trans (sin_zero k)
  have iC : ∫ x in a..a + 2 * Real.pi, Real.cos (x - mu) * shape k (x - mu) = R k * D := by
    rw [period a perC mu, hDe, R, div_mul_cancel₀ _ (norm_pos k).ne']
  have cS : Continuous fun x => Real.sin (x - mu) * shape k (x - mu) := by fun_prop
  have cC : Continuous fun x => Real.cos (x - mu) * shape k (x - mu) := by fun_prop
  have key : ∀ c s : ℝ, ∫ x in a..a + 2 * Real.pi,
      (c * (Real.cos (x - mu) * shape k (x - mu)) + s * (Real.sin (x - mu) * shape k (x - mu))) / D = R k * c := by
    intro c s
    rw [intervalIntegral.integral_div, intervalIntegral.integral_add ((cC.const_mul c).intervalIntegrable _ _)
      ((cS.const_mul s).intervalIntegrable _ _), intervalIntegral.integral_const_mul,
      intervalIntegral.integral_const_mul, iS, iC]
    field_simp
    ring
  constructor
  · rw [← key (Real.cos mu) (-Real.sin mu), hval]
    refine intervalIntegral.integral_congr fun x _ => ?_
    simp only
    have : Real.cos x = Real.cos (x - mu) * Real.cos mu - Real.sin (x - mu) * Real.sin mu := by
      rw [← Real.cos_add, sub_add_cancel]
    rw [this]
    ring
  · rw [← key (Real.sin mu) (Real.cos mu), hval]
    refine intervalIntegral.integral_congr fun x _ => ?_
    simp only
    have : Real.sin x = Real.sin (x - mu) * Real.cos mu + Real.cos (x - mu) * Real.sin mu := by
      rw [← Real.sin_add, sub_add_cancel]
    rw [this]
    ring

/-- **C134.** For `kappa > 0` the mean direction of the von Mises distribution is `mu`, on every
period. -/
theorem C134_direction (mu : ℝ) {k : ℝ} (hk : 0 < k) :
    ∃ p, Spec.IsVonMises mu k p ∧ ∃ r, 0 < r ∧ r < 1 ∧ ∀ a, Spec.HasMeanDirection p a mu r := by
  have hp : Spec.IsVonMises mu k _ := fun x => C09_vonMises_value x mu hk.le
  refine ⟨_, hp, R k, ?_, R_lt_one k, direction hk.le hp⟩
  rw [← R_zero]
  exact R_strictMono hk

example := C134_direction 1 (k := 4) (by norm_num)

/-- **C134.** The larger `kappa`, the more concentrated is the distribution, whatever the means; for
`kappa = 0` there is no preferred direction. -/
theorem C134_concentration {mu mu' k k' : ℝ} (hk : 0 ≤ k) (h : k < k') {p p' : ℝ → ℝ} {r r' a a' : ℝ}
    (hp : Spec.IsVonMises mu k p) (hp' : Spec.IsVonMises mu' k' p')
    (hr : Spec.HasMeanDirection p a mu r) (hr' : Spec.HasMeanDirection p' a' mu' r') :
    r < r' ∧ (k = 0 → r = 0) := by
  have key : ∀ {m κ x b : ℝ} {q : ℝ → ℝ}, 0 ≤ κ → Spec.IsVonMises m κ q → Spec.HasMeanDirection q b m x →
      x = R κ := by
    intro m κ x b q hκ hq hx
    have hd := direction hκ hq b
    have e1 := hx.1.symm.trans hd.1
    have e2 := hx.2.symm.trans hd.2
    have h1 := Real.sin_sq_add_cos_sq m
    linear_combination Real.cos m * e1 + Real.sin m * e2 - (x - R κ) * h1
  have e := key hk hp hr
  have e' := key (hk.trans h.le) hp' hr'
  rw [e, e']
  exact ⟨R_strictMono h, fun h0 => by rw [h0, R_zero]⟩

example : ∃ (p p' : ℝ → ℝ) (r r' : ℝ), Spec.IsVonMises 1 2 p ∧ Spec.IsVonMises 1 3 p' ∧
    Spec.HasMeanDirection p 0 1 r ∧ Spec.HasMeanDirection p' 0 1 r' ∧ r < r' := by
  obtain ⟨p, hp, r, -, -, hr⟩ := C134_direction 1 (k := 2) (by norm_num)
  obtain ⟨p', hp', r', -, -, hr'⟩ := C134_direction 1 (k := 3) (by norm_num)
  exact ⟨p, p', r, r', hp, hp', hr 0, hr' 0,
    (C134_concentration (by norm_num) (by norm_num) hp hp' (hr 0) (hr' 0)).1⟩

/-- **C134.** Over the period centred on `mu` the ordinary mean is `mu` as well, also for `kappa = 0`. -/
theorem C134_mean (mu : ℝ) {k : ℝ} (hk : 0 ≤ k) :
    ∃ p, Spec.IsVonMises mu k p ∧ ∫ x in mu - Real.pi..mu + Real.pi, x * p x = mu := by
  have hp : Spec.IsVonMises mu k _ := fun x => C09_vonMises_value x mu hk
  refine ⟨_, hp, ?_⟩
  have h1 := intervalIntegral.integral_comp_sub_right (a := mu - Real.pi) (b := mu + Real.pi)
    (fun t => (t + mu) * (shape k t / (2 * Real.pi * besselI0 k))) mu
  have hs := shape_continuous k
  have odd : ∫ t in -Real.pi..Real.pi, t * shape k t = 0 := by
    have h := intervalIntegral.integral_comp_neg (a := -Real.pi) (b := Real.pi) fun t => t * shape k t
    have e : ∀ t, -t * shape k (-t) = -(t * shape k t) := by
      intro t
      unfold shape
      rw [Real.cos_neg]
      ring
    simp only [e, neg_neg] at h
    rw [intervalIntegral.integral_neg] at h
    linarith
  have hD : ∫ t in -Real.pi..Real.pi, shape k t = 2 * Real.pi * besselI0 k := by
    have := integral_exp_cos k 0 (-Real.pi)
    rw [show -Real.pi + 2 * Real.pi = Real.pi by ring] at this
    simp only [sub_zero] at this
    exact this
  have hD0 : 2 * Real.pi * besselI0 k ≠ 0 := by rw [← hD]; exact (norm_pos k).ne'
  have e : ∀ t, (t + mu) * (shape k t / (2 * Real.pi * besselI0 k)) =
      (t * shape k t + mu * shape k t) / (2 * Real.pi * besselI0 k) := fun t => by ring
  have c1 : Continuous fun t => t * shape k t := by fun_prop
  have c2 : Continuous fun t => mu * shape k t := by fun_prop
  have h2 : ∫ t in -Real.pi..Real.pi, (t + mu) * (shape k t / (2 * Real.pi * besselI0 k)) = mu := by
    simp only [e]
    rw [intervalIntegral.integral_div, intervalIntegral.integral_add (c1.intervalIntegrable _ _)
      (c2.intervalIntegrable _ _), intervalIntegral.integral_const_mul, odd, hD, zero_add,
      mul_div_cancel_right₀ _ hD0]
  rw [show mu - Real.pi - mu = -Real.pi by ring, show mu + Real.pi - mu = Real.pi by ring, h2] at h1
  simpa [shape] using h1

example := C134_mean 1 (k := 4) (by norm_num)

end GW
