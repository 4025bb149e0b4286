import Verif.Props.SmoothedLimit
import Verif.Props.BetaDist
import Mathlib.MeasureTheory.Integral.DominatedConvergence

/-!
# C91: continuous dependence on the hyper-parameters
-/

noncomputable section

open Classical Set Filter Topology MeasureTheory

namespace GW

open Fl Spec

namespace Spec

/-- Near `p` the computation `F` returns numbers that depend continuously, at `p`, on its argument. -/
def ContinuousResult {P : Type*} [TopologicalSpace P] (F : P → Except PyErr Fl) (p : P) : Prop :=
  ∃ g : P → ℝ, ContinuousAt g p ∧ ∀ᶠ p' in 𝓝 p, F p' = .ok (fin (g p'))

/-- The same for a computation that returns an array, one number for each element of `data`. -/
def ContinuousResults {P ι : Type*} [TopologicalSpace P] (F : P → Except PyErr (List Fl))
    (data : List ι) (p : P) : Prop :=
  ∃ g : P → ι → ℝ, (∀ x ∈ data, ContinuousAt (fun p' => g p' x) p) ∧
    ∀ᶠ p' in 𝓝 p, F p' = .ok (data.map fun x => fin (g p' x))

/-- Keyword arguments with the given names, whose values are those of `θ`. -/
def namedArgs (names : List String) (θ : String → ℝ) : Dict Fl := names.map fun k => (k, fin (θ k))

end Spec

/-! ### Integrals depend continuously on their parameters -/

variable {P : Type*} [TopologicalSpace P]

theorem integral_rpow_exp {a u v : ℝ} :
    ∫ t in Real.exp u..Real.exp v, t ^ a = ∫ s in u..v, Real.exp ((1 + a) * s) := by
  have h := intervalIntegral.integral_comp_mul_deriv' (a := u) (b := v) (f := Real.exp)
    (f' := Real.exp) (g := fun t => t ^ a) (fun x _ => Real.hasDerivAt_exp x)
    Real.continuous_exp.continuousOn (by
      rintro t ⟨s, -, rfl⟩
      exact (Real.continuousAt_rpow_const _ _ (Or.inl (Real.exp_pos s).ne')).continuousWithinAt)
  rw [← h]
  apply intervalIntegral.integral_congr
  intro s _
  simp only [Function.comp_apply]
  rw [← Real.exp_mul, ← Real.exp_add]
  ring_nf

theorem continuousAt_integral_rpow {a lo hi : P → ℝ} {p : P} (ha : ContinuousAt a p)
    (hlo : ContinuousAt lo p) (hhi : ContinuousAt hi p) (h0 : 0 < lo p) (h1 : 0 < hi p) :
    ContinuousAt (fun p => ∫ t in lo p..hi p, t ^ a p) p := by
  have hF : Continuous fun c : ℝ × ℝ => ∫ s in (0 : ℝ)..c.2, Real.exp ((1 + c.1) * s) :=
    intervalIntegral.continuous_parametric_intervalIntegral_of_continuous
      (f := fun (c : ℝ × ℝ) s => Real.exp ((1 + c.1) * s)) (by
        apply Real.continuous_exp.comp
        fun_prop) continuous_snd
  have e : (fun p => (∫ s in (0 : ℝ)..Real.log (hi p), Real.exp ((1 + a p) * s)) -
      ∫ s in (0 : ℝ)..Real.log (lo p), Real.exp ((1 + a p) * s)) =ᶠ[𝓝 p]
      fun p => ∫ t in lo p..hi p, t ^ a p := by
    filter_upwards [hlo.eventually (lt_mem_nhds h0), hhi.eventually (lt_mem_nhds h1)] with p' q0 q1
    have hi' : ∀ u v : ℝ, IntervalIntegrable (fun s => Real.exp ((1 + a p') * s)) volume u v :=
      fun u v => Continuous.intervalIntegrable (by fun_prop) u v
    rw [intervalIntegral.integral_interval_sub_left (hi' _ _) (hi' _ _), ← integral_rpow_exp,
      Real.exp_log q0, Real.exp_log q1]
  refine ContinuousAt.congr ?_ e
  refine ContinuousAt.sub ?_ ?_
  · exact hF.continuousAt.comp (f := fun p => (a p, Real.log (hi p)))
      (ha.prodMk (hhi.log h1.ne'))
  · exact hF.continuousAt.comp (f := fun p => (a p, Real.log (lo p)))
      (ha.prodMk (hlo.log h0.ne'))

theorem continuousAt_integral_bell {mu sigma lo hi : P → ℝ} {p : P} (hmu : ContinuousAt mu p)
    (hs : ContinuousAt sigma p) (hs0 : sigma p ≠ 0) (hlo : ContinuousAt lo p)
    (hhi : ContinuousAt hi p) :
    ContinuousAt (fun p => ∫ t in lo p..hi p, bell (mu p) (sigma p) t) p := by
  have hF : Continuous fun c : (ℝ × ℝ) × ℝ => ∫ t in (0 : ℝ)..c.2, Real.exp (-(t - c.1.1) ^ 2 * c.1.2) :=
    intervalIntegral.continuous_parametric_intervalIntegral_of_continuous
      (f := fun (c : (ℝ × ℝ) × ℝ) t => Real.exp (-(t - c.1.1) ^ 2 * c.1.2)) (by
        apply Real.continuous_exp.comp
        fun_prop) continuous_snd
  have e : (fun p => (∫ t in (0 : ℝ)..hi p, Real.exp (-(t - mu p) ^ 2 * (2 * sigma p ^ 2)⁻¹)) -
      ∫ t in (0 : ℝ)..lo p, Real.exp (-(t - mu p) ^ 2 * (2 * sigma p ^ 2)⁻¹)) =
      fun p => ∫ t in lo p..hi p, bell (mu p) (sigma p) t := by
    funext p'
    have hi' : ∀ u v : ℝ, IntervalIntegrable
        (fun t => Real.exp (-(t - mu p') ^ 2 * (2 * sigma p' ^ 2)⁻¹)) volume u v :=
      fun u v => Continuous.intervalIntegrable (by fun_prop) u v
    rw [intervalIntegral.integral_interval_sub_left (hi' _ _) (hi' _ _)]
    rfl
  rw [← e]
  have hc : ContinuousAt (fun p => (2 * sigma p ^ 2)⁻¹) p :=
    (continuousAt_const.mul (hs.pow 2)).inv₀ (mul_ne_zero two_ne_zero (pow_ne_zero 2 hs0))
  refine ContinuousAt.sub ?_ ?_
  · exact hF.continuousAt.comp (f := fun p => ((mu p, (2 * sigma p ^ 2)⁻¹), hi p))
      ((hmu.prodMk hc).prodMk hhi)
  · exact hF.continuousAt.comp (f := fun p => ((mu p, (2 * sigma p ^ 2)⁻¹), lo p))
      ((hmu.prodMk hc).prodMk hlo)

/-- A normalised density depends continuously on parameters, except where a limit of its support
moves across the point of evaluation. -/
theorem continuousAt_normalised {f : P → ℝ → ℝ} {lo hi x : P → ℝ} {p : P}
    (hlo : ContinuousAt lo p) (hhi : ContinuousAt hi p) (hx : ContinuousAt x p)
    (hf : lo p < x p → x p ≤ hi p → ContinuousAt (fun p => f p (x p)) p)
    (hI : ContinuousAt (fun p => ∫ t in lo p..hi p, f p t) p) (h0 : ∫ t in lo p..hi p, f p t ≠ 0)
    (h1 : x p ≠ lo p) (h2 : x p ≠ hi p ∨ ∀ p', x p' ≤ hi p') :
    ContinuousAt (fun p => normalised (f p) (lo p) (hi p) (x p)) p := by
  rcases lt_or_gt_of_ne h1 with h | h
  · refine (continuousAt_const (y := (0 : ℝ))).congr ?_
    filter_upwards [hx.eventually_lt hlo h] with p' hp'
    unfold normalised
    rw [if_neg (fun hc => absurd hc.1 (not_le.2 hp'))]
  · rcases lt_or_ge (hi p) (x p) with h' | h'
    · refine (continuousAt_const (y := (0 : ℝ))).congr ?_
      filter_upwards [hhi.eventually_lt hx h'] with p' hp'
      unfold normalised
      rw [if_neg (fun hc => absurd hc.2 (not_le.2 hp'))]
    · have hev : ∀ᶠ p' in 𝓝 p, x p' ≤ hi p' := by
        rcases h2 with h2 | h2
        · exact (hx.eventually_lt hhi (lt_of_le_of_ne h' h2)).mono fun _ h => h.le
        · exact Eventually.of_forall h2
      refine ((hf h h').div hI h0).congr ?_
      filter_upwards [hlo.eventually_lt hx h, hev] with p' q1 q2
      unfold normalised
      rw [if_pos ⟨q1.le, q2⟩]
      rfl

theorem continuousAt_powerlaw {a lo hi x : P → ℝ} {p : P} (ha : ContinuousAt a p)
    (hlo : ContinuousAt lo p) (hhi : ContinuousAt hi p) (hx : ContinuousAt x p) (h0 : 0 < lo p)
    (h : lo p < hi p) (h1 : x p ≠ lo p) (h2 : x p ≠ hi p ∨ ∀ p', x p' ≤ hi p') :
    ContinuousAt (fun p => normalised (fun t => t ^ a p) (lo p) (hi p) (x p)) p := by
  refine continuousAt_normalised hlo hhi hx (fun h3 _ => ?_)
    (continuousAt_integral_rpow ha hlo hhi h0 (h0.trans h)) (integral_rpow_pos h0 h).ne' h1 h2
  exact hx.rpow ha (Or.inl (by linarith))

theorem continuousAt_bell {mu sigma lo hi x : P → ℝ} {p : P} (hmu : ContinuousAt mu p)
    (hs : ContinuousAt sigma p) (hs0 : sigma p ≠ 0) (hlo : ContinuousAt lo p)
    (hhi : ContinuousAt hi p) (hx : ContinuousAt x p) (h : lo p < hi p) (h1 : x p ≠ lo p)
    (h2 : x p ≠ hi p ∨ ∀ p', x p' ≤ hi p') :
    ContinuousAt (fun p => normalised (bell (mu p) (sigma p)) (lo p) (hi p) (x p)) p := by
  refine continuousAt_normalised hlo hhi hx (fun _ _ => ?_)
    (continuousAt_integral_bell hmu hs hs0 hlo hhi) (integral_gaussShape_pos h).ne' h1 h2
  unfold bell
  refine ContinuousAt.rexp ?_
  exact (((hx.sub hmu).pow 2).neg).div (continuousAt_const.mul (hs.pow 2)) (by positivity)

/-! ### The basic densities -/

/-- **C91, power law.** `powerlaw` depends continuously on the value, the spectral index and both limits at
every point with `0 < low < high` except at the limits themselves, also at spectral index -1, where the
code uses another formula. (Outside jax an index of 1 given by keyword is refused.) -/
theorem C91_powerlaw (b : Backend) (py : Bool) (k₁ k₂ k₃ k₄ : Bool) {x a hi lo : ℝ} (h0 : 0 < lo)
    (h : lo < hi) (hx : 0 < x) (ha : b = .jax ∨ k₂ = false ∨ a ≠ 1) (h1 : x ≠ lo) (h2 : x ≠ hi) :
    ContinuousResult (fun p : ℝ × ℝ × ℝ × ℝ => powerlaw b py ⟨fin p.1, k₁⟩ ⟨fin p.2.1, k₂⟩
      ⟨fin p.2.2.1, k₃⟩ ⟨fin p.2.2.2, k₄⟩) (x, a, hi, lo) := by
  refine ⟨fun p => normalised (fun t => t ^ p.2.1) p.2.2.2 p.2.2.1 p.1, ?_, ?_⟩
  · exact continuousAt_powerlaw (a := fun p : ℝ × ℝ × ℝ × ℝ => p.2.1) (lo := fun p => p.2.2.2)
      (hi := fun p => p.2.2.1) (x := fun p => p.1) (by fun_prop) (by fun_prop) (by fun_prop)
      (by fun_prop) h0 h h1 (.inl h2)
  · have c1 : ContinuousAt (fun p : ℝ × ℝ × ℝ × ℝ => p.1) (x, a, hi, lo) := by fun_prop
    have c2 : ContinuousAt (fun p : ℝ × ℝ × ℝ × ℝ => p.2.1) (x, a, hi, lo) := by fun_prop
    have c3 : ContinuousAt (fun p : ℝ × ℝ × ℝ × ℝ => p.2.2.1) (x, a, hi, lo) := by fun_prop
    have c4 : ContinuousAt (fun p : ℝ × ℝ × ℝ × ℝ => p.2.2.2) (x, a, hi, lo) := by fun_prop
    have ca : ∀ᶠ p : ℝ × ℝ × ℝ × ℝ in 𝓝 (x, a, hi, lo), b = .jax ∨ k₂ = false ∨ p.2.1 ≠ 1 := by
      rcases ha with ha | ha | ha
      · exact Eventually.of_forall fun _ => Or.inl ha
      · exact Eventually.of_forall fun _ => Or.inr (Or.inl ha)
      · filter_upwards [c2.eventually_ne ha] with p hp using Or.inr (Or.inr hp)
    filter_upwards [c1.eventually (lt_mem_nhds hx), c4.eventually (lt_mem_nhds h0),
      c4.eventually_lt c3 h, ca] with p q1 q2 q3 q4
    exact C01_powerlaw_value b py k₁ k₂ k₃ k₄ q2 q3 q1 q4

/-- At the index -1, between 5 and 80. -/
example (b : Backend) : ContinuousResult (fun p : ℝ × ℝ × ℝ × ℝ => powerlaw b true ⟨fin p.1, false⟩
    ⟨fin p.2.1, true⟩ ⟨fin p.2.2.1, true⟩ ⟨fin p.2.2.2, true⟩) (30, -1, 80, 5) :=
  C91_powerlaw b true false true true true (by norm_num) (by norm_num) (by norm_num)
    (.inr (.inr (by norm_num))) (by norm_num) (by norm_num)

/-- **C91, truncated Gaussian.** `truncnorm` depends continuously on the value, the mean, the width and both
limits, wherever these are in order and the value is not one of the limits; in particular where the code
switches between its three formulas for the normalisation. -/
theorem C91_truncnorm (b : Backend) (k₁ k₂ k₃ k₄ k₅ : Bool) {x mu sigma hi lo : ℝ} (hs : 0 < sigma)
    (h : lo < hi) (h1 : x ≠ lo) (h2 : x ≠ hi) :
    ContinuousResult (fun p : ℝ × ℝ × ℝ × ℝ × ℝ => truncnorm b ⟨fin p.1, k₁⟩ ⟨fin p.2.1, k₂⟩
      ⟨fin p.2.2.1, k₃⟩ ⟨fin p.2.2.2.1, k₄⟩ ⟨fin p.2.2.2.2, k₅⟩) (x, mu, sigma, hi, lo) := by
  refine ⟨fun p => normalised (bell p.2.1 p.2.2.1) p.2.2.2.2 p.2.2.2.1 p.1, ?_, ?_⟩
  · exact continuousAt_bell (mu := fun p : ℝ × ℝ × ℝ × ℝ × ℝ => p.2.1) (sigma := fun p => p.2.2.1)
      (lo := fun p => p.2.2.2.2) (hi := fun p => p.2.2.2.1) (x := fun p => p.1) (by fun_prop)
      (by fun_prop) hs.ne' (by fun_prop) (by fun_prop) (by fun_prop) h h1 (.inl h2)
  · have c3 : ContinuousAt (fun p : ℝ × ℝ × ℝ × ℝ × ℝ => p.2.2.1) (x, mu, sigma, hi, lo) := by fun_prop
    have c4 : ContinuousAt (fun p : ℝ × ℝ × ℝ × ℝ × ℝ => p.2.2.2.1) (x, mu, sigma, hi, lo) := by fun_prop
    have c5 : ContinuousAt (fun p : ℝ × ℝ × ℝ × ℝ × ℝ => p.2.2.2.2) (x, mu, sigma, hi, lo) := by fun_prop
    filter_upwards [c3.eventually (lt_mem_nhds hs), c5.eventually_lt c4 h] with p q1 q2
    exact C03_truncnorm_value b k₁ k₂ k₃ k₄ k₅ p.1 q1 q2

/-- A mean far below the window, where the code works with the survival function. -/
example (b : Backend) : ContinuousResult (fun p : ℝ × ℝ × ℝ × ℝ × ℝ => truncnorm b ⟨fin p.1, false⟩
    ⟨fin p.2.1, true⟩ ⟨fin p.2.2.1, true⟩ ⟨fin p.2.2.2.1, true⟩ ⟨fin p.2.2.2.2, true⟩)
    (1 / 2, -3, 1 / 10, 1, 0) :=
  C91_truncnorm b false true true true true (by norm_num) (by norm_num) (by norm_num) (by norm_num)

theorem continuousAt_realGamma {f : P → ℝ} {p : P} (hf : ContinuousAt f p) (h : 0 < f p) :
    ContinuousAt (fun p => Real.Gamma (f p)) p :=
  (Real.differentiableAt_Gamma fun m => by
    have : (0 : ℝ) ≤ m := Nat.cast_nonneg m
    linarith).continuousAt.comp (f := f) hf

/-- **C91, scaled beta distribution.** `beta_dist` depends continuously on the value, both shape parameters
and the scale, for positive parameters and values inside the support. -/
theorem C91_betaDist (junk : Fl → Fl → Fl) (bk : Backend) (k₁ k₂ k₃ k₄ : Bool) {x a b scale : ℝ}
    (ha : 0 < a) (hb : 0 < b) (hx : 0 < x) (hxs : x < scale) :
    ContinuousResult (fun p : ℝ × ℝ × ℝ × ℝ => betaDist junk bk ⟨fin p.1, k₁⟩ ⟨fin p.2.1, k₂⟩
      ⟨fin p.2.2.1, k₃⟩ ⟨fin p.2.2.2, k₄⟩) (x, a, b, scale) := by
  have c1 : ContinuousAt (fun p : ℝ × ℝ × ℝ × ℝ => p.1) (x, a, b, scale) := by fun_prop
  have c2 : ContinuousAt (fun p : ℝ × ℝ × ℝ × ℝ => p.2.1) (x, a, b, scale) := by fun_prop
  have c3 : ContinuousAt (fun p : ℝ × ℝ × ℝ × ℝ => p.2.2.1) (x, a, b, scale) := by fun_prop
  have c4 : ContinuousAt (fun p : ℝ × ℝ × ℝ × ℝ => p.2.2.2) (x, a, b, scale) := by fun_prop
  have hs : 0 < scale := hx.trans hxs
  have hev : ∀ᶠ p : ℝ × ℝ × ℝ × ℝ in 𝓝 (x, a, b, scale), 0 < p.2.1 ∧ 0 < p.2.2.1 ∧ 0 < p.1 ∧
      p.1 < p.2.2.2 := by
    filter_upwards [c2.eventually (lt_mem_nhds ha), c3.eventually (lt_mem_nhds hb),
      c1.eventually (lt_mem_nhds hx), c1.eventually_lt c4 hxs] with p q1 q2 q3 q4
    exact ⟨q1, q2, q3, q4⟩
  refine ⟨fun p => normalised (fun t => t ^ (p.2.1 - 1) * (p.2.2.2 - t) ^ (p.2.2.1 - 1)) 0 p.2.2.2 p.1,
    ?_, ?_⟩
  · refine continuousAt_normalised (lo := fun _ => 0) (hi := fun p : ℝ × ℝ × ℝ × ℝ => p.2.2.2)
      (x := fun p => p.1) (f := fun p t => t ^ (p.2.1 - 1) * (p.2.2.2 - t) ^ (p.2.2.1 - 1))
      continuousAt_const c4 c1 (fun _ _ => ?_) ?_ ?_ hx.ne' (.inl hxs.ne)
    · exact (c1.rpow (c2.sub continuousAt_const) (.inl hx.ne')).mul
        ((c4.sub c1).rpow (c3.sub continuousAt_const) (.inl (sub_ne_zero.2 hxs.ne')))
    · have e : (fun p : ℝ × ℝ × ℝ × ℝ => p.2.2.2 ^ (p.2.1 + p.2.2.1 - 1) *
          (Real.Gamma p.2.1 * Real.Gamma p.2.2.1 / Real.Gamma (p.2.1 + p.2.2.1))) =ᶠ[𝓝 (x, a, b, scale)]
          fun p => ∫ t in (0 : ℝ)..p.2.2.2, t ^ (p.2.1 - 1) * (p.2.2.2 - t) ^ (p.2.2.1 - 1) := by
        filter_upwards [hev] with p hp
        exact (integral_betaShape hp.1 hp.2.1 (hp.2.2.1.trans hp.2.2.2)).symm
      refine ContinuousAt.congr ?_ e
      have hab : 0 < a + b := by linarith
      exact (c4.rpow ((c2.add c3).sub continuousAt_const) (.inl hs.ne')).mul
        (((continuousAt_realGamma c2 ha).mul (continuousAt_realGamma c3 hb)).div
          (continuousAt_realGamma (c2.add c3) hab) (Real.Gamma_pos_of_pos hab).ne')
    · show ∫ t in (0 : ℝ)..scale, betaShape a b scale t ≠ 0
      rw [integral_betaShape ha hb hs]
      exact (mul_pos (Real.rpow_pos_of_pos hs _) (ProbabilityTheory.beta_pos ha hb)).ne'
  · filter_upwards [hev] with p hp
    exact C05_betaDist_value junk bk k₁ k₂ k₃ k₄ hp.1 hp.2.1 hp.2.2.1 hp.2.2.2

example (junk : Fl → Fl → Fl) (bk : Backend) : ContinuousResult (fun p : ℝ × ℝ × ℝ × ℝ =>
    betaDist junk bk ⟨fin p.1, false⟩ ⟨fin p.2.1, true⟩ ⟨fin p.2.2.1, true⟩ ⟨fin p.2.2.2, true⟩)
    (3 / 10, 2, 1 / 2, 1) :=
  C91_betaDist junk bk false true true true (by norm_num) (by norm_num) (by norm_num) (by norm_num)

end GW
