import Verif.Model.Utils
import Verif.Lemmas.Trapz
import Mathlib.LinearAlgebra.Matrix.NonsingularInverse
import Mathlib.Analysis.SpecialFunctions.Integrals.Basic
import Mathlib.MeasureTheory.Integral.IntervalIntegral.Periodic

/-!
# C08, C09, C10, C65: two-dimensional Gaussian, von Mises, trapezoid, helpers
-/

noncomputable section

open MeasureTheory Set Classical

namespace GW

open Fl Spec

/-! ## C08 -/

/-- The documented covariance matrix. -/
def Spec.covMatrix (sx sy rho : ℝ) : Matrix (Fin 2) (Fin 2) ℝ :=
  !![sx ^ 2, rho * sx * sy; rho * sx * sy, sy ^ 2]

/-- The documented density `exp(-r^T Sigma^{-1} r / 2)`. -/
def Spec.gauss2d (x y mx my sx sy rho : ℝ) : ℝ :=
  Real.exp (-(![x - mx, y - my] ⬝ᵥ ((Spec.covMatrix sx sy rho)⁻¹.mulVec ![x - mx, y - my])) / 2)

/-- Full statement of C08. -/
def C08_statement : Prop :=
  ∀ x y mx my sx sy rho : ℝ, 0 < sx → 0 < sy → |rho| < 1 →
    unnormalized2dGaussian (fin x) (fin y) (fin mx) (fin my) (fin sx) (fin sy) (fin rho) =
      fin (Spec.gauss2d x y mx my sx sy rho)

theorem covMatrix_quadratic {x y mx my sx sy rho : ℝ} (hx : 0 < sx) (hy : 0 < sy)
    (hr : |rho| < 1) :
    ![x - mx, y - my] ⬝ᵥ ((Spec.covMatrix sx sy rho)⁻¹.mulVec ![x - mx, y - my]) =
      (((x - mx) * sy) ^ 2 + ((y - my) * sx) ^ 2 - 2 * ((x - mx) * sy) * ((y - my) * sx) * rho) /
        (sx ^ 2 * sy ^ 2 * (1 - rho ^ 2)) := by
  have hr2 : 0 < 1 - rho ^ 2 := by
    have := (sq_lt_one_iff_abs_lt_one rho).2 hr
    linarith
  have hdet : (Spec.covMatrix sx sy rho).det = sx ^ 2 * sy ^ 2 * (1 - rho ^ 2) := by
    rw [Spec.covMatrix, Matrix.det_fin_two_of]; ring
  have hne : sx ^ 2 * sy ^ 2 * (1 - rho ^ 2) ≠ 0 := by positivity
  rw [Matrix.inv_def, hdet, Ring.inverse_eq_inv', Spec.covMatrix, Matrix.adjugate_fin_two_of]
  simp [Matrix.mulVec, dotProduct, Fin.sum_univ_two]
  field_simp
  ring

/-- The value that the code computes. -/
theorem unnormalized2dGaussian_eq {x y mx my sx sy rho : ℝ} (hx : 0 < sx) (hy : 0 < sy)
    (hr : |rho| < 1) :
    unnormalized2dGaussian (fin x) (fin y) (fin mx) (fin my) (fin sx) (fin sy) (fin rho) =
      fin (Spec.gauss2d x y mx my sx sy rho ^ (1 + rho)) := by
  obtain ⟨h1, h2⟩ := abs_lt.1 hr
  have hne : sx ^ 2 * sy ^ 2 * (1 - rho) ≠ 0 := by
    have : 0 < 1 - rho := by linarith
    positivity
  unfold unnormalized2dGaussian
  simp only [one_eq, ofNat_eq, fin_npow, fin_sub, fin_mul, fin_add, fin_neg,
    fin_div (two_ne_zero' ℝ), fin_div hne, exp_fin]
  congr 1
  rw [Spec.gauss2d, covMatrix_quadratic hx hy hr, ← Real.exp_mul]
  congr 1
  have h3 : 1 - rho ≠ 0 := by linarith
  have h4 : 1 - rho ^ 2 = (1 - rho) * (1 + rho) := by ring
  have h5 : 1 + rho ≠ 0 := by linarith
  rw [h4]
  field_simp
  ring

/-- **C08 fails**: with correlation 1/2 the value at one standard deviation is wrong. -/
theorem C08_fails : ¬ C08_statement := by
  intro h
  have h1 := h 1 0 0 0 1 1 (1 / 2) one_pos one_pos (by rw [abs_of_pos] <;> norm_num)
  rw [unnormalized2dGaussian_eq one_pos one_pos (by rw [abs_of_pos] <;> norm_num)] at h1
  rw [fin_inj, Spec.gauss2d, covMatrix_quadratic one_pos one_pos
    (by rw [abs_of_pos] <;> norm_num), ← Real.exp_mul] at h1
  have := Real.exp_injective h1
  norm_num at this

/-- **C08, what holds.** For every correlation the log-density is `1 + rho` times the documented
one; hence the value is the documented one exactly when `rho = 0` or at the mean. -/
theorem C08_gauss2d_partial {x y mx my sx sy rho : ℝ} (hx : 0 < sx) (hy : 0 < sy)
    (hr : |rho| < 1) :
    unnormalized2dGaussian (fin x) (fin y) (fin mx) (fin my) (fin sx) (fin sy) (fin rho) =
      fin (Spec.gauss2d x y mx my sx sy rho ^ (1 + rho)) ∧
    (unnormalized2dGaussian (fin x) (fin y) (fin mx) (fin my) (fin sx) (fin sy) (fin rho) =
      fin (Spec.gauss2d x y mx my sx sy rho) ↔ rho = 0 ∨ (x = mx ∧ y = my)) := by
  have hval := unnormalized2dGaussian_eq (x := x) (y := y) (mx := mx) (my := my) hx hy hr
  refine ⟨hval, ?_⟩
  obtain ⟨h1, h2⟩ := abs_lt.1 hr
  have hr2 : 0 < 1 - rho ^ 2 := by
    have := (sq_lt_one_iff_abs_lt_one rho).2 hr
    linarith
  have hne : sx ^ 2 * sy ^ 2 * (1 - rho ^ 2) ≠ 0 := by positivity
  rw [hval, fin_inj, Spec.gauss2d, covMatrix_quadratic hx hy hr, ← Real.exp_mul,
    Real.exp_eq_exp]
  set Q := ((x - mx) * sy) ^ 2 + ((y - my) * sx) ^ 2 -
    2 * ((x - mx) * sy) * ((y - my) * sx) * rho with hQ
  have hQ0 : Q = 0 ↔ x = mx ∧ y = my := by
    constructor
    · intro h0
      have e : (((x - mx) * sy) - rho * ((y - my) * sx)) ^ 2 +
          (1 - rho ^ 2) * ((y - my) * sx) ^ 2 = 0 := by rw [← h0, hQ]; ring
      have e1 : 0 ≤ (((x - mx) * sy) - rho * ((y - my) * sx)) ^ 2 := sq_nonneg _
      have e2 : 0 ≤ (1 - rho ^ 2) * ((y - my) * sx) ^ 2 := by positivity
      have e3 : (1 - rho ^ 2) * ((y - my) * sx) ^ 2 = 0 := by linarith
      have e4 : (y - my) * sx = 0 := by
        rcases mul_eq_zero.1 e3 with h | h
        · linarith
        · exact pow_eq_zero_iff (two_ne_zero) |>.1 h
      have e5 : (x - mx) * sy = 0 := by
        rw [e4] at e
        have : ((x - mx) * sy) ^ 2 = 0 := by linarith [e]
        exact pow_eq_zero_iff (two_ne_zero) |>.1 this
      constructor
      · rcases mul_eq_zero.1 e5 with h | h
        · linarith
        · exact absurd h hy.ne'
      · rcases mul_eq_zero.1 e4 with h | h
        · linarith
        · exact absurd h hx.ne'
    · rintro ⟨rfl, rfl⟩; rw [hQ]; ring
  rw [← hQ0]
  constructor
  · intro h
    have h3 : Q / (sx ^ 2 * sy ^ 2 * (1 - rho ^ 2)) * rho = 0 := by linarith
    rcases mul_eq_zero.1 h3 with h4 | h4
    · right; rcases div_eq_zero_iff.1 h4 with h5 | h5
      · exact h5
      · exact absurd h5 hne
    · exact Or.inl h4
  · rintro (h | h)
    · rw [h]; ring
    · rw [h]; simp

/-- Non-vacuity of C08: uncorrelated, off the mean. -/
example : unnormalized2dGaussian (fin 1) (fin 2) (fin 0) (fin 0) (fin 1) (fin 1) (fin 0) =
    fin (Spec.gauss2d 1 2 0 0 1 1 0) :=
  (C08_gauss2d_partial one_pos one_pos (by simp)).2.2 (Or.inl rfl)

/-! ## C09: von Mises -/

theorem besselI0_pos (k : ℝ) : 0 < besselI0 k := by
  apply div_pos _ Real.pi_pos
  apply intervalIntegral.intervalIntegral_pos_of_pos_on _ (fun t _ => Real.exp_pos _) Real.pi_pos
  exact (by fun_prop : Continuous fun t => Real.exp (k * Real.cos t)).intervalIntegrable _ _

/-- The integral of `exp(k cos(x - mu))` over any full period. -/
theorem integral_exp_cos (k mu a : ℝ) :
    ∫ x in a..a + 2 * Real.pi, Real.exp (k * Real.cos (x - mu)) = 2 * Real.pi * besselI0 k := by
  have hper : Function.Periodic (fun x => Real.exp (k * Real.cos x)) (2 * Real.pi) := by
    intro x; simp
  have hc : Continuous fun t => Real.exp (k * Real.cos t) := by fun_prop
  rw [intervalIntegral.integral_comp_sub_right (fun x => Real.exp (k * Real.cos x)),
    show a + 2 * Real.pi - mu = (a - mu) + 2 * Real.pi by ring,
    hper.intervalIntegral_add_eq (a - mu) 0, zero_add]
  rw [← intervalIntegral.integral_add_adjacent_intervals (b := Real.pi)
    (hc.intervalIntegrable _ _) (hc.intervalIntegrable _ _)]
  have h2 : ∫ x in Real.pi..2 * Real.pi, Real.exp (k * Real.cos x) =
      ∫ x in (0 : ℝ)..Real.pi, Real.exp (k * Real.cos x) := by
    have := intervalIntegral.integral_comp_sub_left
      (fun x => Real.exp (k * Real.cos x)) (a := 0) (b := Real.pi) (2 * Real.pi)
    rw [sub_zero, show 2 * Real.pi - Real.pi = Real.pi by ring] at this
    rw [← this]
    apply intervalIntegral.integral_congr
    intro x _
    simp [Real.cos_two_pi_sub]
  rw [h2, besselI0]
  field_simp
  ring

theorem vonMises_eq (x mu k : ℝ) :
    vonMises (fin x) (fin mu) (fin k) =
      fin (Real.exp (k * (Real.cos (x - mu) - 1)) /
        (2 * Real.pi * (Real.exp (-|k|) * besselI0 k))) := by
  unfold vonMises
  have hne : 2 * Real.pi * (Real.exp (-|k|) * besselI0 k) ≠ 0 := by
    have := besselI0_pos k
    positivity
  simp only [fin_sub, cos_fin, one_eq, fin_mul, exp_fin, ofNat_eq, i0e]
  rw [fin_div hne]

/-- **C09.** For `kappa ≥ 0` the value is the documented
`exp(kappa cos(x - mu)) / (2 pi I0(kappa))`. -/
theorem C09_vonMises_value (x mu : ℝ) {k : ℝ} (hk : 0 ≤ k) :
    vonMises (fin x) (fin mu) (fin k) =
      fin (Real.exp (k * Real.cos (x - mu)) / (2 * Real.pi * besselI0 k)) := by
  rw [vonMises_eq, fin_inj, abs_of_nonneg hk]
  have hI := (besselI0_pos k).ne'
  have : Real.exp (k * (Real.cos (x - mu) - 1)) =
      Real.exp (k * Real.cos (x - mu)) * Real.exp (-k) := by
    rw [← Real.exp_add]; congr 1; ring
  rw [this]
  have hE := (Real.exp_pos (-k)).ne'
  field_simp

/-- **C09.** For `kappa ≥ 0` the von Mises function is a probability density on every interval of
length `2 pi`. -/
theorem C09_vonMises_isDensity (mu a : ℝ) {k : ℝ} (hk : 0 ≤ k) :
    IsDensityOn (fun x : ℝ => .ok (vonMises (fin x) (fin mu) (fin k)))
      (Ioc a (a + 2 * Real.pi)) := by
  have hI := besselI0_pos k
  have hc : Continuous fun x => Real.exp (k * Real.cos (x - mu)) / (2 * Real.pi * besselI0 k) := by
    fun_prop
  have hle : a ≤ a + 2 * Real.pi := by linarith [Real.pi_pos]
  refine ⟨fun x => Real.exp (k * Real.cos (x - mu)) / (2 * Real.pi * besselI0 k),
    fun x _ => congrArg Except.ok (C09_vonMises_value x mu hk), fun x _ => by positivity, ?_, ?_⟩
  · rw [← intervalIntegrable_iff_integrableOn_Ioc_of_le hle]
    exact hc.intervalIntegrable _ _
  · rw [← intervalIntegral.integral_of_le hle, intervalIntegral.integral_div, integral_exp_cos,
      div_self (by positivity)]

/-- **C09.** Periodicity, symmetry about `mu`, positivity and maximum at `mu`. -/
theorem C09_vonMises_shape (x mu d : ℝ) {k : ℝ} (hk : 0 ≤ k) :
    vonMises (fin (x + 2 * Real.pi)) (fin mu) (fin k) = vonMises (fin x) (fin mu) (fin k) ∧
    vonMises (fin (mu + d)) (fin mu) (fin k) = vonMises (fin (mu - d)) (fin mu) (fin k) ∧
    0 < vonMises (fin x) (fin mu) (fin k) ∧
    vonMises (fin x) (fin mu) (fin k) ≤ vonMises (fin mu) (fin mu) (fin k) := by
  have hI := besselI0_pos k
  refine ⟨?_, ?_, ?_, ?_⟩
  · rw [C09_vonMises_value _ _ hk, C09_vonMises_value _ _ hk,
      show x + 2 * Real.pi - mu = (x - mu) + 2 * Real.pi by ring, Real.cos_add_two_pi]
  · rw [C09_vonMises_value _ _ hk, C09_vonMises_value _ _ hk,
      show mu - d - mu = -(mu + d - mu) by ring, Real.cos_neg]
  · rw [C09_vonMises_value _ _ hk, zero_eq, fin_lt]; positivity
  · rw [C09_vonMises_value _ _ hk, C09_vonMises_value _ _ hk, fin_le, sub_self, Real.cos_zero]
    gcongr
    exact Real.cos_le_one _

/-- **C09**, boundary of the domain: for `kappa < 0` (not refused by the code) the integral over a
period is `exp(2 |kappa|)`, not one. -/
theorem C09_vonMises_negative_kappa (mu a : ℝ) {k : ℝ} (hk : k < 0) :
    ∃ g : ℝ → ℝ, (∀ x, vonMises (fin x) (fin mu) (fin k) = fin (g x)) ∧
      ∫ x in a..a + 2 * Real.pi, g x = Real.exp (2 * |k|) ∧ 1 < Real.exp (2 * |k|) := by
  have hI := (besselI0_pos k).ne'
  refine ⟨_, fun x => vonMises_eq x mu k, ?_, ?_⟩
  · have : ∀ x, Real.exp (k * (Real.cos (x - mu) - 1)) =
        Real.exp (k * Real.cos (x - mu)) * Real.exp (-k) := by
      intro x; rw [← Real.exp_add]; congr 1; ring
    simp_rw [this]
    rw [intervalIntegral.integral_div, intervalIntegral.integral_mul_const, integral_exp_cos,
      abs_of_neg hk]
    have e : Real.exp (2 * -k) = Real.exp (-k) / Real.exp (- -k) := by
      rw [← Real.exp_sub]; congr 1; ring
    rw [e]
    have hp := Real.pi_ne_zero
    have hE := (Real.exp_pos (- -k)).ne'
    field_simp
  · rw [Real.one_lt_exp_iff]
    have := abs_pos.2 hk.ne
    linarith

/-- Non-vacuity of C09. -/
example : IsDensityOn (fun x : ℝ => .ok (vonMises (fin x) (fin 1) (fin 4)))
    (Ioc (-Real.pi) (-Real.pi + 2 * Real.pi)) :=
  C09_vonMises_isDensity 1 _ (by norm_num)

/-! ## C10: trapezoid -/

theorem neighbours_length (op : Fl → Fl → Fl) (l : List Fl) :
    (List.zipWith op l.tail l).length = l.length - 1 := by
  simp

/-- Samples and nodes of the same number. -/
theorem trapzOf_same (e : PyErr) {y x : List Fl} (h : y.length = x.length) :
    trapzOf e y x = .ok (Arr.trapz y x) := by
  unfold trapzOf gridSteps neighbourSums
  rw [if_pos (by rw [neighbours_length, neighbours_length, h])]

/-- **C10.** Dispatch and value: with either routine available the wrapper returns the trapezoid
rule for the given nodes, on every grid; with neither it raises `NotImplementedError`. -/
theorem C10_trapezoid_value (caps : XpCaps) (ys xs : List ℝ) (dx : Fl)
    (hlen : ys.length = xs.length) :
    trapezoid caps (ys.map fin) (some (xs.map fin)) dx =
      if caps.hasTrapezoid = true ∨ caps.hasTrapz = true then
        .ok (fin (trapezoidRule (ys.length - 1) (fun i => ys.getD i 0) (fun i => xs.getD i 0)))
      else .error .notImplemented := by
  rw [trapezoid]
  rw [trapzOf_same _ (by simpa using hlen), Arr.trapz_fin, Arr.trapzR_eq_rule ys xs hlen]
  rcases caps with ⟨_ | _, _ | _, e⟩ <;> simp

theorem trapzDx_fin (d : ℝ) (ys : List ℝ) :
    Arr.trapzDx (fin d) (ys.map fin) =
      fin (trapezoidRule (ys.length - 1) (fun i => ys.getD i 0) (fun i => i * d)) := by
  induction ys with
  | nil => simp [Arr.trapzDx, trapezoidRule]
  | cons y0 ys ih =>
    rcases ys with _ | ⟨y1, ys⟩
    · simp [Arr.trapzDx, trapezoidRule]
    · simp only [List.map_cons] at ih ⊢
      rw [Arr.trapzDx, ih]
      simp only [ofNat_eq, fin_add, fin_mul, fin_div (two_ne_zero' ℝ)]
      congr 1
      simp only [List.length_cons, Nat.add_sub_cancel, trapezoidRule]
      rw [Finset.sum_range_succ' _ (ys.length)]
      have : ∀ i : ℕ, ((↑(i + 1 + 1) : ℝ) * d - ↑(i + 1) * d) = (↑(i + 1) * d - ↑i * d) := by
        intro i; push_cast; ring
      simp only [this, List.getD_cons_succ, List.getD_cons_zero]
      push_cast
      ring

/-- **C10.** Without nodes the grid is uniform with spacing `dx`. -/
theorem C10_trapezoid_uniform (caps : XpCaps) (ys : List ℝ) (d : ℝ) :
    trapezoid caps (ys.map fin) none (fin d) =
      if caps.hasTrapezoid = true ∨ caps.hasTrapz = true then
        .ok (fin (trapezoidRule (ys.length - 1) (fun i => ys.getD i 0) (fun i => i * d)))
      else .error .notImplemented := by
  rw [trapezoid, trapzDx_fin]
  rcases caps with ⟨_ | _, _ | _, e⟩ <;> simp

theorem trapezoid_same {caps : XpCaps} (h : caps.hasTrapezoid = true ∨ caps.hasTrapz = true) (dx : Fl)
    {ys xs : List ℝ} (hlen : ys.length = xs.length) :
    trapezoid caps (ys.map fin) (some (xs.map fin)) dx = .ok (fin (Arr.trapzR ys xs)) := by
  rw [trapezoid]
  rw [trapzOf_same _ (by simpa using hlen), Arr.trapz_fin]
  rcases caps with ⟨_ | _, _ | _, e⟩ <;> simp at h ⊢

/-- **C10.** Linearity in the integrand, on every grid. -/
theorem C10_trapezoid_linear (caps : XpCaps) (h : caps.hasTrapezoid = true ∨ caps.hasTrapz = true)
    (l : List ℝ) (f g : ℝ → ℝ) (c d : ℝ) (xs : List ℝ) (dx : Fl) (hlen : l.length = xs.length) :
    ∃ F G : ℝ, trapezoid caps ((l.map f).map fin) (some (xs.map fin)) dx = .ok (fin F) ∧
      trapezoid caps ((l.map g).map fin) (some (xs.map fin)) dx = .ok (fin G) ∧
      trapezoid caps ((l.map (fun t => f t * c + g t * d)).map fin) (some (xs.map fin)) dx =
        .ok (fin (F * c + G * d)) := by
  have key : ∀ e : ℝ → ℝ, trapezoid caps ((l.map e).map fin) (some (xs.map fin)) dx =
      .ok (fin (Arr.trapzR (l.map e) xs)) := fun e => trapezoid_same h dx (by simpa using hlen)
  refine ⟨Arr.trapzR (l.map f) xs, Arr.trapzR (l.map g) xs, key _, key _, ?_⟩
  rw [key, Arr.trapzR_map_add l (fun t => f t * c) (fun t => g t * d)]
  have e1 := Arr.trapzR_map_mul c (l.map f) xs
  have e2 := Arr.trapzR_map_mul d (l.map g) xs
  rw [List.map_map] at e1 e2
  rw [← e1, ← e2]; rfl

/-- **C10.** Non-negative samples on an increasing grid give a non-negative integral. -/
theorem C10_trapezoid_nonneg (caps : XpCaps) (h : caps.hasTrapezoid = true ∨ caps.hasTrapz = true)
    (ys xs : List ℝ) (dx : Fl) (hlen : ys.length = xs.length) (hy : ∀ y ∈ ys, 0 ≤ y)
    (hx : xs.IsChain (· ≤ ·)) :
    ∃ F : ℝ, 0 ≤ F ∧ trapezoid caps (ys.map fin) (some (xs.map fin)) dx = .ok (fin F) :=
  ⟨Arr.trapzR ys xs, Arr.trapzR_nonneg hy hx, trapezoid_same h dx hlen⟩

/-- **C10.** Splitting the grid at a node splits the integral. -/
theorem C10_trapezoid_split (caps : XpCaps) (h : caps.hasTrapezoid = true ∨ caps.hasTrapz = true)
    (ys₁ : List ℝ) (y : ℝ) (ys₂ xs₁ : List ℝ) (x : ℝ) (xs₂ : List ℝ) (dx : Fl)
    (hlen : ys₁.length = xs₁.length) (hlen' : ys₂.length = xs₂.length) :
    ∃ F G : ℝ,
      trapezoid caps ((ys₁ ++ [y]).map fin) (some ((xs₁ ++ [x]).map fin)) dx = .ok (fin F) ∧
      trapezoid caps ((y :: ys₂).map fin) (some ((x :: xs₂).map fin)) dx = .ok (fin G) ∧
      trapezoid caps ((ys₁ ++ y :: ys₂).map fin) (some ((xs₁ ++ x :: xs₂).map fin)) dx =
        .ok (fin (F + G)) :=
  ⟨_, _, trapezoid_same h dx (by simp [hlen]), trapezoid_same h dx (by simp [hlen']), by
    rw [trapezoid_same h dx (by simp [hlen, hlen']), Arr.trapzR_append ys₁ y ys₂ xs₁ x xs₂ hlen]⟩

theorem trapzR_affine (c d x0 : ℝ) (xs : List ℝ) :
    Arr.trapzR ((x0 :: xs).map (fun t => c + d * t)) (x0 :: xs) =
      ∫ t in x0..(x0 :: xs).getLast (by simp), (c + d * t) := by
  induction xs generalizing x0 with
  | nil => simp
  | cons x1 xs ih =>
    have := ih x1
    simp only [List.map_cons] at this ⊢
    have hl : (x0 :: x1 :: xs).getLast (by simp) = (x1 :: xs).getLast (by simp) :=
      List.getLast_cons (by simp)
    rw [Arr.trapzR_cons, this, hl]
    have hc : Continuous fun t : ℝ => c + d * t := by fun_prop
    rw [← intervalIntegral.integral_add_adjacent_intervals (a := x0) (b := x1)
      (hc.intervalIntegrable _ _) (hc.intervalIntegrable _ _)]
    congr 1
    rw [intervalIntegral.integral_add (by simp)
      ((by fun_prop : Continuous fun t : ℝ => d * t).intervalIntegrable _ _),
      intervalIntegral.integral_const_mul, integral_id, intervalIntegral.integral_const]
    simp; ring

/-- **C10.** Affine integrands are integrated exactly on every grid (of any spacing or order). -/
theorem C10_trapezoid_affine_exact (caps : XpCaps)
    (h : caps.hasTrapezoid = true ∨ caps.hasTrapz = true) (c d x0 : ℝ) (xs : List ℝ) (dx : Fl) :
    trapezoid caps (((x0 :: xs).map (fun t => c + d * t)).map fin)
      (some ((x0 :: xs).map fin)) dx =
      .ok (fin (∫ t in x0..(x0 :: xs).getLast (by simp), (c + d * t))) := by
  rw [trapezoid_same h dx (by simp), trapzR_affine]

/-- **C10.** Numbers of samples and nodes that describe different numbers of intervals are refused, except where one of
them describes a single interval. -/
theorem C10_trapezoid_mismatch (caps : XpCaps) (h : caps.hasTrapezoid = true ∨ caps.hasTrapz = true)
    (y x : List Fl) (dx : Fl) :
    (trapezoid caps y (some x) dx = .error caps.mismatch ↔
      y.length - 1 ≠ x.length - 1 ∧ y.length ≠ 2 ∧ x.length ≠ 2) ∧
    ((∃ r, trapezoid caps y (some x) dx = .ok r) ↔
      y.length - 1 = x.length - 1 ∨ y.length = 2 ∨ x.length = 2) := by
  have e : trapezoid caps y (some x) dx = trapzOf caps.mismatch y x := by
    rw [trapezoid]
    rcases caps with ⟨_ | _, _ | _, e⟩ <;> simp at h ⊢
  have hx : (gridSteps x).length = x.length - 1 := neighbours_length _ _
  have hy : (neighbourSums y).length = y.length - 1 := neighbours_length _ _
  rw [e]
  unfold trapzOf
  split_ifs with h1
  · exact ⟨by simp; omega, by simp; omega⟩
  · split
    · rename_i d _ h2
      rw [h2] at hx
      simp only [List.length_singleton] at hx
      exact ⟨by simp; omega, by simp; omega⟩
    · rename_i v h2 _
      rw [h2] at hy
      simp only [List.length_singleton] at hy
      exact ⟨by simp; omega, by simp; omega⟩
    · rename_i h2 h3
      have k1 : (gridSteps x).length ≠ 1 := fun h => by
        obtain ⟨d, hd⟩ := List.length_eq_one_iff.1 h
        exact h2 d hd
      have k2 : (neighbourSums y).length ≠ 1 := fun h => by
        obtain ⟨d, hd⟩ := List.length_eq_one_iff.1 h
        exact h3 d hd
      exact ⟨by simp; omega, by simp; omega⟩

/-- Non-vacuity of C10: old backends (only `trapz`), three nodes. -/
example : trapezoid ⟨false, true, .valueError⟩ [fin 1, fin 2, fin 4] (some [fin 0, fin 1, fin 3]) (fin 1) =
    .ok (fin (15 / 2)) := by
  have := C10_trapezoid_value ⟨false, true, .valueError⟩ [1, 2, 4] [0, 1, 3] (fin 1) rfl
  simp only [List.map_cons, List.map_nil] at this
  rw [this]
  simp [trapezoidRule, Finset.sum_range_succ]
  norm_num

/-- Three samples at four nodes are refused. -/
example : trapezoid ⟨true, false, .valueError⟩ [fin 1, fin 2, fin 4] (some [fin 0, fin 1, fin 3, fin 4]) (fin 1) =
    .error .valueError := rfl

/-! ## C65: object classification -/

/-- Full statement of C65 for `to_numpy`: cupy arrays are converted whatever backend is active. -/
def C65_statement : Prop :=
  ∀ (b : Backend) (k : PyObjKind), k.numberOrNdarray = false → k.cupy = true →
    toNumpy b k = .ok .cupyAsnumpy

/-- **C65 fails**: a cupy array can only be converted while cupy is the active backend. -/
theorem C65_fails : ¬ C65_statement := by
  intro h
  have := h .numpy ⟨false, true, false, false⟩ rfl rfl
  simp [toNumpy] at this

/-- **C65, what holds.** Complete behaviour of `to_numpy`: numbers, numpy arrays and pandas objects
are returned unchanged, jax arrays are converted, cupy arrays are converted iff cupy is active
(`AttributeError` otherwise) and everything else raises `TypeError`. -/
theorem C65_toNumpy_partial (b : Backend) (k : PyObjKind) :
    (toNumpy b k = .ok .unchanged ↔
      k.numberOrNdarray = true ∨ (k.cupy = false ∧ k.pandas = true)) ∧
    (toNumpy b k = .ok .cupyAsnumpy ↔
      k.numberOrNdarray = false ∧ k.cupy = true ∧ b = .cupy) ∧
    (toNumpy b k = .error .attributeError ↔
      k.numberOrNdarray = false ∧ k.cupy = true ∧ b ≠ .cupy) ∧
    (toNumpy b k = .ok .npAsarray ↔
      k.numberOrNdarray = false ∧ k.cupy = false ∧ k.pandas = false ∧ k.jax = true) ∧
    (toNumpy b k = .error .typeError ↔
      k.numberOrNdarray = false ∧ k.cupy = false ∧ k.pandas = false ∧ k.jax = false) := by
  rcases k with ⟨_ | _, _ | _, _ | _, _ | _⟩ <;> cases b <;> simp [toNumpy]

/-- **C65.** `get_name` prefers `__name__` and falls back to the class name. -/
theorem C65_getName (o : PyObjName) :
    (∀ n, o.name = some n → getName o = n) ∧ (o.name = none → getName o = o.className) := by
  constructor
  · intro n h; simp [getName, h]
  · intro h; simp [getName, h]

/-- **C65.** `to_number` uses the array method exactly on jax. -/
theorem C65_toNumber {α β : Type} (b : Backend) (astype func : α → β) (v : α) :
    (b = .jax → toNumber b astype func v = astype v) ∧
    (b ≠ .jax → toNumber b astype func v = func v) := by
  constructor <;> intro h <;> simp [toNumber, h]

/-- Non-vacuity of C65: a pandas series on jax. -/
example : toNumpy .jax ⟨false, false, true, false⟩ = .ok .unchanged :=
  ((C65_toNumpy_partial .jax ⟨false, false, true, false⟩).1).2 (Or.inr ⟨rfl, rfl⟩)

end GW
