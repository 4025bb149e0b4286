import Verif.Lemmas.RoundSpecial
import Verif.Props.RoundedPowerlaw

/-!
# C94: densities built from exponentials in double precision: the truncated Gaussian
-/

noncomputable section

open Classical Set

namespace GW

open Fl

namespace Spec

/-- An accurate library: its functions have relative error at most `δ`, up to the smallest positive number, on
the given ranges; `betaln`, which can vanish, has error `δ` relative to `1 + |betaln|`. -/
structure AccurateSpecial (L : SpecialLib) (δ : ℝ) : Prop where
  unit : ur ≤ δ
  log : ∀ x, IsDouble x → (2 : ℝ) ^ (-1000 : ℤ) ≤ x → x ≤ 2 ^ (1000 : ℤ) →
    ∃ y, L.log (fin x) = fin y ∧ IsDouble y ∧ |y - Real.log x| ≤ δ * |Real.log x| + 2 ^ (-1074 : ℤ)
  exp : ∀ x, IsDouble x → |x| ≤ 2 ^ 60 → x ≤ 690 →
    ∃ y, L.exp (fin x) = fin y ∧ IsDouble y ∧ |y - Real.exp x| ≤ δ * Real.exp x + 2 ^ (-1074 : ℤ)
  log1p : ∀ x, IsDouble x → (2 : ℝ) ^ (-1000 : ℤ) ≤ 1 + x → x ≤ 2 ^ 60 →
    ∃ y, L.log1p (fin x) = fin y ∧ IsDouble y ∧ |y - Real.log (1 + x)| ≤ δ * |Real.log (1 + x)| + 2 ^ (-1074 : ℤ)
  cos : ∀ x, IsDouble x → |x| ≤ 2 ^ 30 →
    ∃ y, L.cos (fin x) = fin y ∧ IsDouble y ∧ |y - Real.cos x| ≤ δ * |Real.cos x| + 2 ^ (-1074 : ℤ)
  ndtr : ∀ x, IsDouble x → |x| ≤ 2 ^ 30 →
    ∃ y, L.ndtr (fin x) = fin y ∧ IsDouble y ∧ |y - stdNormalCDF x| ≤ δ * stdNormalCDF x + 2 ^ (-1074 : ℤ)
  logNdtr : ∀ x, IsDouble x → |x| ≤ 2 ^ 30 →
    ∃ y, L.logNdtr (fin x) = fin y ∧ IsDouble y ∧
      |y - Real.log (stdNormalCDF x)| ≤ δ * |Real.log (stdNormalCDF x)| + 2 ^ (-1074 : ℤ)
  betaln : ∀ a b, IsDouble a → IsDouble b → (2 : ℝ) ^ (-30 : ℤ) ≤ a → (2 : ℝ) ^ (-30 : ℤ) ≤ b → a ≤ 2 ^ 30 → b ≤ 2 ^ 30 →
    |Real.log (ProbabilityTheory.beta a b)| ≤ 2 ^ 90 → ∃ y, L.betaln (fin a) (fin b) = fin y ∧ IsDouble y ∧
      |y - Real.log (ProbabilityTheory.beta a b)| ≤ δ * (1 + |Real.log (ProbabilityTheory.beta a b)|)
  i0e : ∀ k, IsDouble k → 0 ≤ k → k ≤ 2 ^ 60 →
    ∃ y, L.i0e (fin k) = fin y ∧ IsDouble y ∧
      |y - Real.exp (-|k|) * besselI0 k| ≤ δ * (Real.exp (-|k|) * besselI0 k)

/-- The part of the window in the probability of the half-line on the far side of its end next to the mean; the
probability of the window if it contains the mean. -/
def windowShare (a b : ℝ) : ℝ :=
  if b ≤ 0 then (stdNormalCDF b - stdNormalCDF a) / stdNormalCDF b
  else if 0 < a then (stdNormalCDF b - stdNormalCDF a) / stdNormalCDF (-a)
  else stdNormalCDF b - stdNormalCDF a

/-- How much `truncnorm` amplifies rounding errors: it grows with the distance of the limits from the mean in
units of the width, and without bound as the window gets narrow. -/
def gaussAmplification (mu sigma lo hi : ℝ) : ℝ :=
  max 1 (max |(lo - mu) / sigma| |(hi - mu) / sigma|) ^ 2 /
    windowShare ((lo - mu) / sigma) ((hi - mu) / sigma) + |Real.log sigma|

/-- Arguments of `truncnorm` that are doubles, and cause no overflow or underflow of differences and quotients. -/
structure TruncnormArgs (x mu sigma lo hi : ℝ) : Prop where
  lt : lo < hi
  low : lo ≤ x
  high : x ≤ hi
  isDouble : IsDouble x ∧ IsDouble mu ∧ IsDouble sigma ∧ IsDouble lo ∧ IsDouble hi
  width : (2 : ℝ) ^ (-400 : ℤ) ≤ sigma ∧ sigma ≤ 2 ^ (400 : ℤ)
  range : ∀ y ∈ [x - mu, lo - mu, hi - mu], y = 0 ∨ (2 : ℝ) ^ (-400 : ℤ) ≤ |y| ∧ |y| ≤ 2 ^ (400 : ℤ)

end Spec

open Spec

theorem tiny_le_ur : (2 : ℝ) ^ (-1074 : ℤ) ≤ ur := zpow_le_zpow_right₀ (by norm_num) (by norm_num)

theorem two_neg_thousand : (2 : ℝ) ^ (-1000 : ℤ) ≤ 1 / 2 ^ 54 := by
  calc (2 : ℝ) ^ (-1000 : ℤ) ≤ 2 ^ (-54 : ℤ) := zpow_le_zpow_right₀ (by norm_num) (by norm_num)
    _ = _ := by norm_num

theorem ur_le : ur ≤ 1 / 2 ^ 50 := by rw [ur_val]; norm_num

theorem Rel.nonpos_iff {a x y : ℝ} (h : Rel a x y) (ha : a < 1) : y ≤ 0 ↔ x ≤ 0 := by
  unfold Rel at h
  rcases lt_trichotomy x 0 with hx | hx | hx
  · rw [abs_of_neg hx] at h
    have := (abs_le.1 h).2
    exact ⟨fun _ => hx.le, fun _ => by nlinarith⟩
  · subst hx
    rw [abs_zero, mul_zero, sub_zero] at h
    have : y = 0 := abs_eq_zero.1 (le_antisymm h (abs_nonneg y))
    simp [this]
  · rw [abs_of_pos hx] at h
    have := (abs_le.1 h).1
    constructor
    · intro h'
      nlinarith
    · intro h'
      linarith

/-- `(u - v) / s` in double precision. -/
theorem scaled_error {u v s : ℝ} (hu : IsDouble u) (hv : IsDouble v) (hs1 : (2 : ℝ) ^ (-400 : ℤ) ≤ s)
    (hs2 : s ≤ 2 ^ (400 : ℤ))
    (hr : u - v = 0 ∨ (2 : ℝ) ^ (-400 : ℤ) ≤ |u - v| ∧ |u - v| ≤ 2 ^ (400 : ℤ)) :
    ∃ w, toDouble (toDouble (fin u - fin v) / fin s) = fin w ∧ IsDouble w ∧ Rel (3 * ur) ((u - v) / s) w := by
  have hs : 0 < s := lt_of_lt_of_le (by positivity) hs1
  have hur := ur_pos
  have hur1 : ur ≤ 1 / 1000 := by rw [ur_val]; norm_num
  rw [fin_sub]
  rcases hr with h0 | ⟨h1, h2⟩
  · rw [h0]
    refine ⟨0, ?_, isDouble_zero, by simp [Rel]⟩
    have e : toDouble (fin 0) = fin 0 := fl64_zero
    rw [e, fin_div hs.ne', zero_div, e]
  · have t1 : toDouble (fin (u - v)) = fin (round53 (u - v)) :=
      fl64_of_le (h2.trans (zpow_le_zpow_right₀ (by norm_num) (by norm_num)))
    have t2 : Rel ur (u - v) (round53 (u - v)) := by
      have := round53_add hu hv.neg
      rwa [← sub_eq_add_neg] at this
    have b1 := t2.size
    have b2 : |u - v| ≤ 2 * |round53 (u - v)| := by
      have := abs_sub_abs_le_abs_sub (u - v) (round53 (u - v))
      have t3 := t2
      unfold Rel at t3
      rw [abs_sub_comm] at t3
      have : ur * |u - v| ≤ 1 / 2 * |u - v| := mul_le_mul_of_nonneg_right (by linarith) (abs_nonneg _)
      linarith
    have c1 : (2 : ℝ) ^ (-801 : ℤ) ≤ |round53 (u - v) / s| := by
      rw [abs_div, abs_of_pos hs, le_div_iff₀ hs]
      have : (2 : ℝ) ^ (-801 : ℤ) * s ≤ 2 ^ (-801 : ℤ) * 2 ^ (400 : ℤ) := mul_le_mul_of_nonneg_left hs2 (by positivity)
      rw [← zpow_add₀ (by norm_num)] at this
      have e : (2 : ℝ) ^ (-400 : ℤ) = 2 * 2 ^ (-801 + 400 : ℤ) := by
        rw [show (-400 : ℤ) = 1 + (-801 + 400) by norm_num, zpow_add₀ (by norm_num), zpow_one]
      linarith
    have c2 : |round53 (u - v) / s| ≤ 2 ^ (801 : ℤ) := by
      rw [abs_div, abs_of_pos hs, div_le_iff₀ hs]
      have : (2 : ℝ) ^ (801 : ℤ) * 2 ^ (-400 : ℤ) ≤ 2 ^ (801 : ℤ) * s := mul_le_mul_of_nonneg_left hs1 (by positivity)
      rw [← zpow_add₀ (by norm_num)] at this
      have e : (2 : ℝ) ^ (801 + -400 : ℤ) = 2 * 2 ^ (400 : ℤ) := by
        rw [show (801 + -400 : ℤ) = 1 + 400 by norm_num, zpow_add₀ (by norm_num), zpow_one]
      have : (1 + ur) * |u - v| ≤ 2 * |u - v| := mul_le_mul_of_nonneg_right (by linarith) (abs_nonneg _)
      linarith
    obtain ⟨t4, t5⟩ := rel_toDouble (c1.trans' (zpow_le_zpow_right₀ (by norm_num) (by norm_num)))
      (c2.trans (zpow_le_zpow_right₀ (by norm_num) (by norm_num)))
    refine ⟨round53 (round53 (u - v) / s), ?_, round53_isDouble _, ?_⟩
    · rw [t1, fin_div hs.ne', t4]
    · have t6 : Rel ur ((u - v) / s) (round53 (u - v) / s) := by
        unfold Rel at *
        rw [← sub_div, abs_div, abs_div, ← mul_div_assoc]
        exact div_le_div_of_nonneg_right t2 (abs_nonneg s)
      refine (t6.trans t5 hur.le).mono ?_
      nlinarith

section Library

variable {L : SpecialLib} {δ : ℝ}

theorem Spec.AccurateSpecial.pos (hL : AccurateSpecial L δ) : 0 < δ := lt_of_lt_of_le ur_pos hL.unit

/-- One value of `log_ndtr`, at an argument with relative error `3 * 2^-53`. -/
theorem logNdtr_error (hL : AccurateSpecial L δ) {x x' M : ℝ} (hM : 1 ≤ M) (hM2 : M ≤ 2 ^ 29) (hx : |x| ≤ M)
    (hd : IsDouble x') (h : Rel (3 * ur) x x') :
    ∃ y, L.logNdtr (fin x') = fin y ∧ IsDouble y ∧
      |y - Real.log (stdNormalCDF x)| ≤ 51 * (δ * M ^ 2) ∧ |Real.log (stdNormalCDF x)| ≤ 5 * M ^ 2 := by
  have hδ := hL.pos
  have hu := hL.unit
  have hur := ur_pos
  have hurl := ur_le
  have hx' : |x'| ≤ 2 * M := by
    have := h.size
    have h3 : (1 + 3 * ur) * |x| ≤ 2 * |x| := mul_le_mul_of_nonneg_right (by norm_num at hurl; linarith) (abs_nonneg x)
    linarith
  obtain ⟨y, h1, h2, h3⟩ := hL.logNdtr x' hd (hx'.trans (by norm_num at hM2 ⊢; linarith))
  refine ⟨y, h1, h2, ?_, abs_logCDF_le hM hx⟩
  have b1 := abs_logCDF_le (by linarith : 1 ≤ 2 * M) hx'
  have b2 := logCDF_lipschitz (by linarith : 1 ≤ 2 * M) (by linarith : |x| ≤ 2 * M) hx'
  have b3 : |x' - x| ≤ 3 * ur * M :=
      le_trans (show |x' - x| ≤ 3 * ur * |x| from h) (mul_le_mul_of_nonneg_left hx (by linarith))
  have b4 : 5 * (2 * M) * |x' - x| ≤ 5 * (2 * M) * (3 * ur * M) := mul_le_mul_of_nonneg_left b3 (by linarith)
  have b5 : ur * M ^ 2 ≤ δ * M ^ 2 := mul_le_mul_of_nonneg_right hu (by positivity)
  have b6 : δ * |Real.log (stdNormalCDF x')| ≤ δ * (5 * (2 * M) ^ 2) := mul_le_mul_of_nonneg_left b1 hδ.le
  have b7 : δ ≤ δ * M ^ 2 := le_mul_of_one_le_right hδ.le (by nlinarith)
  have b8 := tiny_le_ur
  have := abs_sub_le y (Real.log (stdNormalCDF x')) (Real.log (stdNormalCDF x))
  nlinarith

set_option maxHeartbeats 1000000 in
/-- The logarithm of the probability between `y` and `x`, both on the negative half-line. -/
theorem tail_error (hL : AccurateSpecial L δ) {x x' y y' M : ℝ} (hM : 1 ≤ M) (hx : |x| ≤ M) (hy : |y| ≤ M) (hyx : y < x)
    (dx : IsDouble x') (dy : IsDouble y') (rx : Rel (3 * ur) x x') (ry : Rel (3 * ur) y y')
    (hK : 2000 * (δ * (M ^ 2 / ((stdNormalCDF x - stdNormalCDF y) / stdNormalCDF x))) ≤ 1) :
    ∃ g, logsubexpD L (L.logNdtr (fin x')) (L.logNdtr (fin y')) = fin g ∧ IsDouble g ∧
      |g - Real.log (stdNormalCDF x - stdNormalCDF y)| ≤
        850 * (δ * (M ^ 2 / ((stdNormalCDF x - stdNormalCDF y) / stdNormalCDF x))) ∧
      |Real.log (stdNormalCDF x - stdNormalCDF y)| ≤
        6 * (M ^ 2 / ((stdNormalCDF x - stdNormalCDF y) / stdNormalCDF x)) := by
  have hδ := hL.pos
  have hu := hL.unit
  have hur := ur_pos
  have hurl := ur_le
  have hP := stdNormalCDF_pos x
  have hQ := stdNormalCDF_pos y
  have hPQ := stdNormalCDF_lt hyx
  obtain ⟨P, hPdef⟩ : ∃ P, P = stdNormalCDF x := ⟨_, rfl⟩
  obtain ⟨Q, hQdef⟩ : ∃ Q, Q = stdNormalCDF y := ⟨_, rfl⟩
  rw [← hPdef, ← hQdef] at hK hPQ ⊢
  rw [← hPdef] at hP
  rw [← hQdef] at hQ
  obtain ⟨ρ, hρ⟩ : ∃ ρ, ρ = (P - Q) / P := ⟨_, rfl⟩
  rw [← hρ] at hK ⊢
  have hρ0 : 0 < ρ := by rw [hρ]; exact div_pos (by linarith) hP
  have hρ1 : ρ ≤ 1 := by rw [hρ, div_le_one hP]; linarith
  have hM1 : 1 ≤ M ^ 2 := by nlinarith
  -- the unit of all errors
  obtain ⟨W, hW⟩ : ∃ W, W = δ * (M ^ 2 / ρ) := ⟨_, rfl⟩
  rw [← hW] at hK ⊢
  have hMρ : M ^ 2 ≤ M ^ 2 / ρ := by rw [le_div_iff₀ hρ0]; nlinarith
  have hiρ : 1 / ρ ≤ M ^ 2 / ρ := div_le_div_of_nonneg_right hM1 hρ0.le
  have hw : δ * M ^ 2 ≤ W := by rw [hW]; exact mul_le_mul_of_nonneg_left hMρ hδ.le
  have hδw : δ ≤ δ * M ^ 2 := le_mul_of_one_le_right hδ.le hM1
  have hδρ : δ * (1 / ρ) ≤ W := by rw [hW]; exact mul_le_mul_of_nonneg_left hiρ hδ.le
  have hW0 : 0 < W := by linarith
  have hδ2 : 1 / 2 ^ 53 ≤ δ := by
    rw [show (1 : ℝ) / 2 ^ 53 = ur by rw [ur_val]; norm_num]; exact hu
  have hB : M ^ 2 / ρ ≤ 2 ^ 53 := by
    have : 1 / 2 ^ 53 * (M ^ 2 / ρ) ≤ W := by
      rw [hW]; exact mul_le_mul_of_nonneg_right hδ2 (by positivity)
    have h1 : 1 / 2 ^ 53 * (M ^ 2 / ρ) ≤ 1 := by linarith
    have : M ^ 2 / ρ = 2 ^ 53 * (1 / 2 ^ 53 * (M ^ 2 / ρ)) := by ring
    rw [this]
    linarith
  have hM2 : M ≤ 2 ^ 29 := by
    by_contra hc
    push Not at hc
    have : (2 ^ 29 : ℝ) ^ 2 < M ^ 2 := pow_lt_pow_left₀ hc (by norm_num) (by norm_num)
    norm_num at this hB
    linarith
  obtain ⟨p, p1, p2, p3, p4⟩ := logNdtr_error hL hM hM2 hx dx rx
  obtain ⟨q, q1, q2, q3, q4⟩ := logNdtr_error hL hM hM2 hy dy ry
  rw [← hPdef] at p3 p4
  rw [← hQdef] at q3 q4
  rw [p1, q1]
  unfold logsubexpD
  rw [fin_sub]
  have hWs : W ≤ 1 / 2000 := by linarith
  -- the difference
  have ap : |p| ≤ 6 * M ^ 2 := by
    have := abs_sub_abs_le_abs_sub p (Real.log P)
    linarith
  have aq : |q| ≤ 6 * M ^ 2 := by
    have := abs_sub_abs_le_abs_sub q (Real.log Q)
    linarith
  have aqp : |q - p| ≤ 12 * M ^ 2 := (abs_sub q p).trans (by linarith)
  have hMB : M ^ 2 ≤ 2 ^ 53 := hMρ.trans hB
  have urM : ur * M ^ 2 ≤ δ * M ^ 2 := mul_le_mul_of_nonneg_right hu (by positivity)
  obtain ⟨d, d1, d2, d3⟩ := round_abs aqp (by norm_num at hMB ⊢; linarith)
  rw [d1]
  obtain ⟨D, hD⟩ : ∃ D, D = Real.log Q - Real.log P := ⟨_, rfl⟩
  have hDneg : D < 0 := by rw [hD]; linarith [Real.log_lt_log hQ hPQ]
  have hexpD : Real.exp D = 1 - ρ := by
    rw [hD, Real.exp_sub, Real.exp_log hQ, Real.exp_log hP, hρ]
    field_simp
    ring
  have dD : |d - D| ≤ 116 * (δ * M ^ 2) := by
    have a1 := abs_sub_le d (q - p) D
    have a2 : |q - p - D| ≤ |q - Real.log Q| + |p - Real.log P| := by
      rw [hD, show q - p - (Real.log Q - Real.log P) = (q - Real.log Q) - (p - Real.log P) by ring]
      exact abs_sub _ _
    nlinarith
  have hη : 116 * (δ * M ^ 2) ≤ 1 := by linarith
  have hd690 : d ≤ 690 := by
    have := (abs_le.1 dD).2
    linarith
  have hd60 : |d| ≤ 2 ^ 60 := by
    have a1 := abs_sub_abs_le_abs_sub d (q - p)
    have a2 : ur * (12 * M ^ 2 + 1) ≤ 1 * (12 * M ^ 2 + 1) :=
      mul_le_mul_of_nonneg_right (by norm_num at hurl; linarith) (by positivity)
    norm_num at hMB ⊢
    linarith
  obtain ⟨e, e1, e2, e3⟩ := hL.exp d d2 hd60 hd690
  rw [e1]
  have eD := exp_error dD hη
  have hexp1 : Real.exp D ≤ 1 := by rw [hexpD]; linarith
  have hexpd : Real.exp d ≤ 3 := by
    have a0 := (abs_le.1 eD).2
    have a1 := Real.exp_pos D
    nlinarith
  have htiny := tiny_le_ur
  have eE : |e - Real.exp D| ≤ 236 * (δ * M ^ 2) := by
    have a1 := abs_sub_le e (Real.exp d) (Real.exp D)
    have a2 : δ * Real.exp d ≤ δ * 3 := mul_le_mul_of_nonneg_left hexpd hδ.le
    have a3 : 2 * (116 * (δ * M ^ 2)) * Real.exp D ≤ 2 * (116 * (δ * M ^ 2)) * 1 :=
      mul_le_mul_of_nonneg_left hexp1 (by positivity)
    linarith
  -- one minus the quotient
  have ae : |1 - e| ≤ 2 := by
    have a1 := abs_le.1 eE
    have a2 := Real.exp_pos D
    rw [abs_le]
    constructor <;> linarith
  obtain ⟨f, f1, f2, f3⟩ := round_abs ae (by norm_num)
  rw [one_eq, fin_sub, f1]
  have fρ : |f - ρ| ≤ 239 * W * ρ := by
    have a1 := abs_sub_le f (1 - e) ρ
    have a2 : |1 - e - ρ| = |e - Real.exp D| := by
      rw [hexpD, abs_sub_comm]; congr 1; ring
    have a3 : δ * M ^ 2 = W * ρ := by rw [hW]; field_simp
    nlinarith
  obtain ⟨fpos, flog⟩ := log_error hρ0 fρ (by linarith)
  have hρB : 1 / 2 ^ 53 ≤ ρ := by
    have : 1 / ρ ≤ 2 ^ 53 := hiρ.trans hB
    rw [div_le_iff₀ hρ0] at this
    rw [div_le_iff₀ (by positivity)]
    linarith
  have flow : (2 : ℝ) ^ (-1000 : ℤ) ≤ f := by
    have a1 := (abs_le.1 fρ).1
    have a2 := two_neg_thousand
    have a3 : 239 * W * ρ ≤ 1 / 2 * ρ := mul_le_mul_of_nonneg_right (by linarith) hρ0.le
    have a4 : (1 : ℝ) / 2 ^ 54 = 1 / 2 * (1 / 2 ^ 53) := by norm_num
    rw [a4] at a2
    linarith
  have fhigh : f ≤ 2 ^ (1000 : ℤ) := by
    have a1 := (abs_le.1 f3).2
    have a2 := (abs_le.1 ae).2
    have a3 : ur ≤ 1 / 1000 := by rw [ur_val]; norm_num
    have a4 : f ≤ 4 := by linarith
    refine a4.trans ?_
    calc (4 : ℝ) = 2 ^ (2 : ℤ) := by norm_num
      _ ≤ _ := zpow_le_zpow_right₀ (by norm_num) (by norm_num)
  obtain ⟨l, l1, l2, l3⟩ := hL.log f f2 flow fhigh
  rw [l1, fin_add]
  have hlρ := abs_log_le_inv hρ0 hρ1
  have alf : |Real.log f| ≤ 1 / ρ + 1 := by
    have := abs_sub_abs_le_abs_sub (Real.log f) (Real.log ρ)
    linarith
  have lρ : |l - Real.log ρ| ≤ 481 * W := by
    have a1 := abs_sub_le l (Real.log f) (Real.log ρ)
    have a2 : δ * |Real.log f| ≤ δ * (1 / ρ + 1) := mul_le_mul_of_nonneg_left alf hδ.le
    linarith
  have al : |l| ≤ 1 / ρ + 1 := by
    have := abs_sub_abs_le_abs_sub l (Real.log ρ)
    linarith
  have apl : |p + l| ≤ 8 * (M ^ 2 / ρ) := (abs_add_le p l).trans (by
    have : 1 ≤ 1 / ρ := by rw [le_div_iff₀ hρ0]; linarith
    linarith)
  obtain ⟨g, g1, g2, g3⟩ := round_abs apl (by norm_num at hB ⊢; linarith)
  have hlog : Real.log (P - Q) = Real.log P + Real.log ρ := by
    rw [← Real.log_mul hP.ne' hρ0.ne', hρ]
    congr 1
    field_simp
  refine ⟨g, g1, g2, ?_, ?_⟩
  · have a1 := abs_sub_le g (p + l) (Real.log (P - Q))
    have a2 : |p + l - Real.log (P - Q)| ≤ |p - Real.log P| + |l - Real.log ρ| := by
      rw [hlog, show p + l - (Real.log P + Real.log ρ) = (p - Real.log P) + (l - Real.log ρ) by ring]
      exact abs_add_le _ _
    have a3 : ur * (8 * (M ^ 2 / ρ) + 1) ≤ 9 * W := by
      have b1 : ur * (M ^ 2 / ρ) ≤ W := by rw [hW]; exact mul_le_mul_of_nonneg_right hu (by positivity)
      linarith
    linarith
  · rw [hlog]
    have := abs_add_le (Real.log P) (Real.log ρ)
    linarith

set_option maxHeartbeats 1000000 in
/-- The logarithm of the probability of a window that contains 0. -/
theorem middle_error (hL : AccurateSpecial L δ) {a a' b b' M : ℝ} (hM : 1 ≤ M) (ha : |a| ≤ M) (hb : |b| ≤ M) (hab : a < b)
    (da : IsDouble a') (db : IsDouble b') (ra : Rel (3 * ur) a a') (rb : Rel (3 * ur) b b')
    (hK : 2000 * (δ * (M ^ 2 / (stdNormalCDF b - stdNormalCDF a))) ≤ 1) :
    ∃ g, L.log1p (toDouble (-(L.ndtr (fin a')) - L.ndtr (-fin b'))) = fin g ∧ IsDouble g ∧
      |g - Real.log (stdNormalCDF b - stdNormalCDF a)| ≤ 850 * (δ * (M ^ 2 / (stdNormalCDF b - stdNormalCDF a))) ∧
      |Real.log (stdNormalCDF b - stdNormalCDF a)| ≤ 6 * (M ^ 2 / (stdNormalCDF b - stdNormalCDF a)) := by
  have hδ := hL.pos
  have hu := hL.unit
  have hur := ur_pos
  have hurl := ur_le
  have htiny := tiny_le_ur
  have hlt := stdNormalCDF_lt hab
  obtain ⟨N, hN⟩ : ∃ N, N = stdNormalCDF b - stdNormalCDF a := ⟨_, rfl⟩
  rw [← hN] at hK ⊢
  have hN0 : 0 < N := by rw [hN]; linarith
  have hN1 : N ≤ 1 := by
    have := stdNormalCDF_lt_one b
    have := stdNormalCDF_nonneg a
    linarith
  have hM1 : 1 ≤ M ^ 2 := by nlinarith
  obtain ⟨W, hW⟩ : ∃ W, W = δ * (M ^ 2 / N) := ⟨_, rfl⟩
  rw [← hW] at hK ⊢
  have hMN : M ^ 2 ≤ M ^ 2 / N := by rw [le_div_iff₀ hN0]; nlinarith
  have hiN : 1 / N ≤ M ^ 2 / N := div_le_div_of_nonneg_right hM1 hN0.le
  have hδN : δ * (1 / N) ≤ W := by rw [hW]; exact mul_le_mul_of_nonneg_left hiN hδ.le
  have hw : δ * M ^ 2 ≤ W := by rw [hW]; exact mul_le_mul_of_nonneg_left hMN hδ.le
  have hδw : δ ≤ δ * M ^ 2 := le_mul_of_one_le_right hδ.le hM1
  have hδ2 : 1 / 2 ^ 53 ≤ δ := by
    rw [show (1 : ℝ) / 2 ^ 53 = ur by rw [ur_val]; norm_num]; exact hu
  have hB : M ^ 2 / N ≤ 2 ^ 53 := by
    have : 1 / 2 ^ 53 * (M ^ 2 / N) ≤ W := by
      rw [hW]; exact mul_le_mul_of_nonneg_right hδ2 (by positivity)
    have h1 : 1 / 2 ^ 53 * (M ^ 2 / N) ≤ 1 := by linarith
    have : M ^ 2 / N = 2 ^ 53 * (1 / 2 ^ 53 * (M ^ 2 / N)) := by ring
    rw [this]
    linarith
  have hM2 : M ≤ 2 ^ 29 := by
    by_contra hc
    push Not at hc
    have : (2 ^ 29 : ℝ) ^ 2 < M ^ 2 := pow_lt_pow_left₀ hc (by norm_num) (by norm_num)
    norm_num at this hB
    linarith
  -- one value of the distribution function
  have one : ∀ x x' : ℝ, |x| ≤ M → IsDouble x' → Rel (3 * ur) x x' → ∃ y, L.ndtr (fin x') = fin y ∧ IsDouble y ∧
      |y - stdNormalCDF x| ≤ 4 * (δ * M ^ 2) := by
    intro x x' hx hd h
    have b0 : |x' - x| ≤ 3 * ur * M :=
      le_trans (show |x' - x| ≤ 3 * ur * |x| from h) (mul_le_mul_of_nonneg_left hx (by linarith))
    have hx' : |x'| ≤ 2 ^ 30 := by
      have := abs_sub_abs_le_abs_sub x' x
      norm_num at hM2 hurl ⊢
      nlinarith
    obtain ⟨y, h1, h2, h3⟩ := hL.ndtr x' hd hx'
    refine ⟨y, h1, h2, ?_⟩
    have b1 := stdNormalCDF_lipschitz x x'
    have b2 := (stdNormalCDF_lt_one x').le
    have b3 : δ * stdNormalCDF x' ≤ δ * 1 := mul_le_mul_of_nonneg_left b2 hδ.le
    have b4 := abs_sub_le y (stdNormalCDF x') (stdNormalCDF x)
    have b5 : ur * M ≤ δ * M ^ 2 := mul_le_mul hu (by nlinarith) (by linarith) hδ.le
    linarith
  obtain ⟨u, u1, u2, u3⟩ := one a a' ha da ra
  obtain ⟨v, v1, v2, v3⟩ := one (-b) (-b') (by rwa [abs_neg]) db.neg (by
    unfold Rel at rb ⊢
    rwa [abs_neg, show -b' - -b = -(b' - b) by ring, abs_neg])
  rw [stdNormalCDF_neg] at v3
  rw [u1, fin_neg, fin_neg, v1, fin_sub]
  have hs : |(1 + (-u - v)) - N| ≤ 8 * (δ * M ^ 2) := by
    rw [hN, show 1 + (-u - v) - (stdNormalCDF b - stdNormalCDF a) =
      -((u - stdNormalCDF a) + (v - (1 - stdNormalCDF b))) by ring, abs_neg]
    exact (abs_add_le _ _).trans (by linarith)
  have auv : |-u - v| ≤ 2 := by
    obtain ⟨c1, c2⟩ := abs_le.1 hs
    rw [abs_le]
    constructor <;> linarith
  obtain ⟨s, s1, s2, s3⟩ := round_abs auv (by norm_num)
  rw [s1]
  have hsN : |1 + s - N| ≤ 11 * W * N := by
    have a1 := abs_sub_le (1 + s) (1 + (-u - v)) N
    rw [show 1 + s - (1 + (-u - v)) = s - (-u - v) by ring] at a1
    have a3 : δ * M ^ 2 = W * N := by rw [hW]; field_simp
    nlinarith
  obtain ⟨spos, slog⟩ := log_error hN0 hsN (by linarith)
  have hNB : 1 / 2 ^ 53 ≤ N := by
    have : 1 / N ≤ 2 ^ 53 := hiN.trans hB
    rw [div_le_iff₀ hN0] at this
    rw [div_le_iff₀ (by positivity)]
    linarith
  have slow : (2 : ℝ) ^ (-1000 : ℤ) ≤ 1 + s := by
    have a1 := (abs_le.1 hsN).1
    have a2 := two_neg_thousand
    have a3 : 11 * W * N ≤ 1 / 2 * N := mul_le_mul_of_nonneg_right (by linarith) hN0.le
    have a4 : (1 : ℝ) / 2 ^ 54 = 1 / 2 * (1 / 2 ^ 53) := by norm_num
    rw [a4] at a2
    linarith
  obtain ⟨g, g1, g2, g3⟩ := hL.log1p s s2 slow (by
    have a1 := (abs_le.1 s3).2
    have a2 := (abs_le.1 auv).2
    norm_num at hurl ⊢
    linarith)
  have hlN := abs_log_le_inv hN0 hN1
  have als : |Real.log (1 + s)| ≤ 1 / N + 1 := by
    have := abs_sub_abs_le_abs_sub (Real.log (1 + s)) (Real.log N)
    linarith
  refine ⟨g, g1, g2, ?_, by linarith⟩
  have a1 := abs_sub_le g (Real.log (1 + s)) (Real.log N)
  have a2 : δ * |Real.log (1 + s)| ≤ δ * (1 / N + 1) := mul_le_mul_of_nonneg_left als hδ.le
  linarith

/-- The logarithm of the normalisation. -/
theorem truncLogNormD_error (hL : AccurateSpecial L δ) {a a' b b' M : ℝ} (hM : 1 ≤ M) (ha : |a| ≤ M) (hb : |b| ≤ M)
    (hab : a < b) (da : IsDouble a') (db : IsDouble b') (ra : Rel (3 * ur) a a') (rb : Rel (3 * ur) b b')
    (hK : 2000 * (δ * (M ^ 2 / windowShare a b)) ≤ 1) :
    ∃ g, truncLogNormD L (fin a') (fin b') = fin g ∧ IsDouble g ∧
      |g - Real.log (stdNormalCDF b - stdNormalCDF a)| ≤ 850 * (δ * (M ^ 2 / windowShare a b)) ∧
      |Real.log (stdNormalCDF b - stdNormalCDF a)| ≤ 6 * (M ^ 2 / windowShare a b) := by
  have hu3 : 3 * ur < 1 := by rw [ur_val]; norm_num
  have na := ra.nonpos_iff hu3
  have nb := rb.nonpos_iff hu3
  have neg : ∀ {x x' : ℝ}, Rel (3 * ur) x x' → Rel (3 * ur) (-x) (-x') := by
    intro x x' h
    unfold Rel at h ⊢
    rwa [abs_neg, show -x' - -x = -(x' - x) by ring, abs_neg]
  unfold truncLogNormD windowShare at *
  by_cases h1 : b ≤ 0
  · rw [if_pos h1] at hK ⊢
    rw [if_pos (by rw [zero_eq, fin_le]; exact nb.2 h1)]
    exact tail_error hL hM hb ha hab db da rb ra hK
  · rw [if_neg h1] at hK ⊢
    rw [if_neg (by rw [zero_eq, fin_le, nb]; exact h1)]
    by_cases h2 : 0 < a
    · rw [if_pos h2] at hK ⊢
      rw [if_pos (by rw [zero_eq, fin_lt, ← not_le, na, not_le]; exact h2)]
      have e : stdNormalCDF b - stdNormalCDF a = stdNormalCDF (-a) - stdNormalCDF (-b) := by
        rw [stdNormalCDF_neg, stdNormalCDF_neg]; ring
      rw [e] at hK ⊢
      rw [fin_neg, fin_neg]
      exact tail_error hL hM (by rwa [abs_neg]) (by rwa [abs_neg]) (by linarith) da.neg db.neg (neg ra) (neg rb) hK
    · rw [if_neg h2] at hK ⊢
      rw [if_neg (by rw [zero_eq, fin_lt, ← not_le, na, not_le]; exact h2),
        if_pos (by rw [zero_eq, fin_lt, ← not_le, nb]; exact h1)]
      exact middle_error hL hM ha hb hab da db ra rb hK

theorem windowShare_pos {a b : ℝ} (h : a < b) : 0 < windowShare a b := by
  have h1 := stdNormalCDF_lt h
  unfold windowShare
  split_ifs
  · exact div_pos (by linarith) (stdNormalCDF_pos _)
  · exact div_pos (by linarith) (stdNormalCDF_pos _)
  · linarith

theorem windowShare_le_one {a b : ℝ} : windowShare a b ≤ 1 := by
  have h1 := stdNormalCDF_pos a
  have h2 := stdNormalCDF_lt_one b
  unfold windowShare
  split_ifs
  · rw [div_le_one (stdNormalCDF_pos _)]; linarith
  · rw [div_le_one (stdNormalCDF_pos _), stdNormalCDF_neg]; linarith
  · linarith

/-- The constant `log(2 pi) / 2`. -/
theorem const_error (hL : AccurateSpecial L δ) (hδ1 : δ ≤ 1 / 1000) :
    ∃ c, toDouble (L.log (toDouble (2 * toDouble (fin Real.pi))) / 2) = fin c ∧ IsDouble c ∧
      |c - Real.log (2 * Real.pi) / 2| ≤ 13 * δ ∧ |c| ≤ 4 := by
  have hδ := hL.pos
  have hu := hL.unit
  have hur := ur_pos
  have htiny := tiny_le_ur
  have hpi3 := Real.pi_gt_three
  have hpi4 := Real.pi_lt_four
  have hpos := Real.pi_pos
  have lo : (2 : ℝ) ^ (-1022 : ℤ) ≤ 1 := zpow_le_one_of_nonpos₀ (by norm_num) (by norm_num)
  have up : (16 : ℝ) ≤ 2 ^ (1000 : ℤ) := by
    calc (16 : ℝ) = 2 ^ (4 : ℤ) := by norm_num
      _ ≤ _ := zpow_le_zpow_right₀ (by norm_num) (by norm_num)
  have up' : (16 : ℝ) ≤ 2 ^ (1023 : ℤ) := up.trans (zpow_le_zpow_right₀ (by norm_num) (by norm_num))
  obtain ⟨t1, t2⟩ := rel_toDouble (x := Real.pi) (by rw [abs_of_pos hpos]; linarith)
    (by rw [abs_of_pos hpos]; exact le_trans (by linarith) up')
  obtain ⟨q, hq⟩ : ∃ q, q = round53 Real.pi := ⟨_, rfl⟩
  rw [← hq] at t1 t2
  rw [t1, ofNat_eq, fin_mul]
  have q1 : |q - Real.pi| ≤ ur * Real.pi := by
    have := t2
    unfold Rel at this
    rwa [abs_of_pos hpos] at this
  have hurs : ur ≤ 1 / 1000 := by rw [ur_val]; norm_num
  have hq0 : 2 ≤ q ∧ q ≤ 5 := by
    obtain ⟨h1, h2⟩ := abs_le.1 q1
    constructor <;> nlinarith
  obtain ⟨t3, t4⟩ := rel_toDouble (x := 2 * q) (by rw [abs_of_pos (by linarith)]; linarith)
    (by rw [abs_of_pos (by linarith)]; exact le_trans (by linarith) up')
  obtain ⟨r, hr⟩ : ∃ r, r = round53 (2 * q) := ⟨_, rfl⟩
  have dr : IsDouble r := by rw [hr]; exact round53_isDouble _
  rw [← hr] at t3 t4
  have r1 : |r - 2 * Real.pi| ≤ 3 * ur * (2 * Real.pi) := by
    have h1 : Rel ur (2 * Real.pi) (2 * q) := by
      unfold Rel
      rw [← mul_sub, abs_mul, abs_mul, abs_of_pos hpos]
      nlinarith [abs_nonneg (2 : ℝ)]
    have h2 := (h1.trans t4 hur.le).mono (b := 3 * ur) (by nlinarith)
    unfold Rel at h2
    rwa [abs_of_pos (by linarith : 0 < 2 * Real.pi)] at h2
  obtain ⟨rpos, rlog⟩ := log_error (by linarith : 0 < 2 * Real.pi) r1 (by linarith)
  have hr16 : r ≤ 16 := by
    obtain ⟨h1, h2⟩ := abs_le.1 r1
    nlinarith
  have hr1 : 1 ≤ r := by
    obtain ⟨h1, h2⟩ := abs_le.1 r1
    nlinarith
  obtain ⟨y, y1, y2, y3⟩ := hL.log r dr
    ((zpow_le_one_of_nonpos₀ (by norm_num) (by norm_num)).trans hr1) (hr16.trans up)
  have hl : 0 ≤ Real.log (2 * Real.pi) ∧ Real.log (2 * Real.pi) ≤ 3 := by
    constructor
    · exact Real.log_nonneg (by linarith)
    · rw [Real.log_le_iff_le_exp (by linarith)]
      have h1 : (1 + 1 : ℝ) ≤ Real.exp 1 := Real.add_one_le_exp 1
      have h2 : Real.exp 3 = Real.exp 1 * Real.exp 1 * Real.exp 1 := by
        rw [← Real.exp_add, ← Real.exp_add]; norm_num
      have h3 := Real.pi_lt_d2
      have h4 : (2 : ℝ) ≤ Real.exp 1 := by linarith
      have h5 : 4 ≤ Real.exp 1 * Real.exp 1 := by nlinarith
      rw [h2]
      nlinarith
  have alr : |Real.log r| ≤ 4 := by
    have := abs_sub_abs_le_abs_sub (Real.log r) (Real.log (2 * Real.pi))
    rw [abs_of_nonneg hl.1] at this
    linarith
  have yl : |y - Real.log (2 * Real.pi)| ≤ 11 * δ := by
    have h1 := abs_sub_le y (Real.log r) (Real.log (2 * Real.pi))
    have h2 : δ * |Real.log r| ≤ δ * 4 := mul_le_mul_of_nonneg_left alr hδ.le
    linarith
  have ay : |y / 2| ≤ 2 := by
    have h1 := abs_sub_abs_le_abs_sub y (Real.log (2 * Real.pi))
    rw [abs_of_nonneg hl.1] at h1
    rw [abs_div, abs_two]
    linarith
  obtain ⟨c, c1, c2, c3⟩ := round_abs ay (by norm_num)
  refine ⟨c, ?_, c2, ?_, ?_⟩
  · rw [t3, y1, fin_div (by norm_num), c1]
  · have h1 := abs_sub_le c (y / 2) (Real.log (2 * Real.pi) / 2)
    have h2 : |y / 2 - Real.log (2 * Real.pi) / 2| = |y - Real.log (2 * Real.pi)| / 2 := by
      rw [← sub_div, abs_div, abs_two]
    linarith
  · have := abs_sub_abs_le_abs_sub c (y / 2)
    linarith

end Library

end GW
