import Verif.Model.Smoothed
import Verif.Lemmas.Scaling
import Verif.Props.Powerlaw
import Verif.Props.Truncnorm
import Verif.Props.SmoothedCore

/-!
# C101: mass models do not depend on the unit of mass
-/

noncomputable section

open Classical MeasureTheory

namespace GW

open Fl

/-! ## Specification -/

/-- A density per unit of mass, when the unit is made smaller by the factor `c` (masses become `c` times larger). -/
def Spec.perUnit (c : ℝ) (r : Except PyErr Fl) : Except PyErr Fl := r.map (· / fin c)

/-- The hyper-parameters that are masses. -/
def Spec.massNames : List String :=
  ["mmin", "mmax", "delta_m", "mpp", "sigpp", "mpp_1", "sigpp_1", "mpp_2", "sigpp_2",
    "gaussian_mass_maximum"]

/-- Hyper-parameters in the new unit: those that are masses are multiplied by `c`. -/
def Spec.inUnit (c : ℝ) (kwargs : Dict Fl) : Dict Fl :=
  kwargs.map fun p => (p.1, if p.1 ∈ Spec.massNames then fin c * p.2 else p.2)

/-- A dataset of primary masses and mass ratios in the new unit. -/
def Spec.dataInUnit (c : ℝ) (data : List (Fl × Fl)) : List (Fl × Fl) :=
  data.map fun d => (fin c * d.1, d.2)

/-! ## Power law and Gaussian -/

theorem div_fin_eq {c : ℝ} (hc : 0 < c) (x : Fl) : x / fin c = fin c⁻¹ * x := by
  have := div_scale hc x (fin 1)
  rw [fin_mul, mul_one] at this
  rw [this]
  congr 1
  cases x with
  | fin r => rw [fin_div one_ne_zero, div_one]
  | pinf => rw [pinf_div_fin, if_neg (by norm_num)]
  | ninf => rw [ninf_div_fin, if_neg (by norm_num)]
  | nan => rw [nan_div]

theorem perUnit_eq {c : ℝ} (hc : 0 < c) (r : Except PyErr Fl) :
    Spec.perUnit c r = r.map (fin c⁻¹ * ·) := by
  unfold Spec.perUnit
  congr 1
  funext x
  exact div_fin_eq hc x

theorem scale_le {c : ℝ} (hc : 0 < c) (x y : Fl) : fin c * x ≤ fin c * y ↔ x ≤ y := by
  cases x <;> cases y <;>
    simp [scale_pinf hc, scale_ninf hc, -fin_mul_pinf, -fin_mul_ninf, mul_le_mul_iff_right₀ hc]

theorem zero_le_scale {c : ℝ} (hc : 0 < c) (x : Fl) : 0 ≤ fin c * x ↔ 0 ≤ x := by
  have := scale_le hc 0 x
  rwa [show fin c * (0 : Fl) = 0 by rw [zero_eq, fin_mul, mul_zero]] at this

theorem zero_lt_scale {c : ℝ} (hc : 0 < c) (x : Fl) : 0 < fin c * x ↔ 0 < x := by
  have := scale_lt hc 0 x
  rwa [show fin c * (0 : Fl) = 0 by rw [zero_eq, fin_mul, mul_zero]] at this

theorem pow_scale {c : ℝ} (hc : 0 < c) (x : Fl) (a : ℝ) :
    Fl.pow (fin c * x) (fin a) = fin (c ^ a) * Fl.pow x (fin a) := by
  have hca : 0 < c ^ a := Real.rpow_pos_of_pos hc a
  cases x with
  | fin r =>
    rw [fin_mul]
    simp only [Fl.pow, powFin]
    rcases lt_trichotomy r 0 with h | h | h
    · have h' : c * r < 0 := mul_neg_of_pos_of_neg hc h
      rw [if_neg (not_lt.2 h'.le), if_neg h'.ne, if_neg (not_lt.2 h.le), if_neg h.ne]
      split_ifs with hi
      · rw [fin_mul]
        obtain ⟨n, hn⟩ := hi
        rw [fin_inj, ← hn, Real.rpow_intCast, Real.rpow_intCast, Real.rpow_intCast, mul_zpow]
      · rw [mul_nan]
    · subst h
      rw [mul_zero]
      simp only [lt_irrefl, if_false, if_true]
      split_ifs with h1 h2
      · rw [h1, Real.rpow_zero, fin_mul, mul_one]
      · rw [fin_mul, mul_zero]
      · rw [scale_pinf hca]
    · rw [if_pos (mul_pos hc h), if_pos h, fin_mul, Real.mul_rpow hc.le h.le]
  | pinf =>
    rw [scale_pinf hc]
    simp only [Fl.pow]
    split_ifs with h1 h2
    · rw [h1, Real.rpow_zero, fin_mul, mul_one]
    · rw [scale_pinf hca]
    · rw [fin_mul, mul_zero]
  | ninf =>
    rw [scale_ninf hc]
    simp only [Fl.pow]
    split_ifs with h1 h2 h3
    · rw [h1, Real.rpow_zero, fin_mul, mul_one]
    · rw [scale_ninf hca]
    · rw [scale_pinf hca]
    · rw [fin_mul, mul_zero]
  | nan =>
    rw [mul_nan]
    simp only [Fl.pow]
    split_ifs with h1
    · rw [h1, Real.rpow_zero, fin_mul, mul_one]
    · rw [mul_nan]

theorem pyPow_scale {c : ℝ} (hc : 0 < c) (py : Bool) (x : Fl) (a : ℝ) :
    pyPow py (fin c * x) (fin a) = (pyPow py x (fin a)).map (fin (c ^ a) * ·) := by
  unfold pyPow
  rw [eqf_zero_scale hc, pow_scale hc]
  split_ifs <;> rfl

theorem powerlawBody_scale {c : ℝ} (hc : 0 < c) (py : Bool) (x high low : Fl) (a : ℝ) :
    powerlawBody py (fin c * x) (fin a) (fin c * high) (fin c * low) =
      (powerlawBody py x (fin a) high low).map (fin c⁻¹ * ·) := by
  have h1a : (1 : Fl) + fin a = fin (1 + a) := by rw [one_eq, fin_add]
  unfold powerlawBody
  rw [pyDiv_scale_cancel hc, h1a, pyPow_scale hc, pyPow_scale hc, pow_scale hc, scale_le hc, scale_le hc]
  cases pyDiv py high low with
  | error e => rfl
  | ok ratio =>
    cases pyPow py high (fin (1 + a)) with
    | error e => rfl
    | ok ph =>
      cases pyPow py low (fin (1 + a)) with
      | error e => rfl
      | ok pl =>
        have hk : 0 < c ^ (1 + a) := Real.rpow_pos_of_pos hc _
        show Except.ok _ = Except.ok _
        congr 1
        beta_reduce
        rw [← scale_sub hk, div_scale hk]
        have hn : (if eqf (fin a) (-1) then 1 / Fl.log ratio else fin (c ^ (1 + a))⁻¹ * (fin (1 + a) / (ph - pl))) =
            fin (c ^ (1 + a))⁻¹ * (if eqf (fin a) (-1) then 1 / Fl.log ratio else fin (1 + a) / (ph - pl)) := by
          split_ifs with h
          · have ha : a = -1 := by
              rw [one_eq, fin_neg] at h; exact h
            rw [ha, add_neg_cancel, Real.rpow_zero, inv_one, ← one_eq, one_mul]
          · rfl
        rw [hn]
        generalize (if eqf (fin a) (-1) then 1 / Fl.log ratio else fin (1 + a) / (ph - pl)) = N
        have hcc : c ^ a * (c ^ (1 + a))⁻¹ = c⁻¹ := by
          rw [Real.rpow_add hc, Real.rpow_one]
          field_simp
        rw [mul_mul_mul_comm, fin_mul, hcc, mul_assoc]

theorem powerlaw_scale {c : ℝ} (hc : 0 < c) (b : Backend) (py : Bool) (x high low : Fl) (a : ℝ)
    (k₁ k₂ k₃ k₄ : Bool) :
    powerlaw b py ⟨fin c * x, k₁⟩ ⟨fin a, k₂⟩ ⟨fin c * high, k₃⟩ ⟨fin c * low, k₄⟩ =
      (powerlaw b py ⟨x, k₁⟩ ⟨fin a, k₂⟩ ⟨high, k₃⟩ ⟨low, k₄⟩).map (fin c⁻¹ * ·) := by
  rw [powerlaw_eq, powerlaw_eq]
  simp only [zero_le_scale hc]
  split_ifs
  · rfl
  · exact powerlawBody_scale hc py x high low a

theorem normalised_gauss_scale {c : ℝ} (hc : 0 < c) (x mu sigma lo hi : ℝ) :
    Spec.normalised (gaussShape (c * mu) (c * sigma)) (c * lo) (c * hi) (c * x) =
      c⁻¹ * Spec.normalised (gaussShape mu sigma) lo hi x := by
  have hshape (t : ℝ) : gaussShape (c * mu) (c * sigma) (c * t) = gaussShape mu sigma t := by
    unfold gaussShape
    congr 1
    rw [← mul_sub, mul_pow, mul_pow, show 2 * (c ^ 2 * sigma ^ 2) = c ^ 2 * (2 * sigma ^ 2) by ring,
      ← mul_neg, mul_div_mul_left _ _ (by positivity)]
  have hint : ∫ t in (c * lo)..(c * hi), gaussShape (c * mu) (c * sigma) t =
      c * ∫ t in lo..hi, gaussShape mu sigma t := by
    rw [← intervalIntegral.mul_integral_comp_mul_left]
    simp only [hshape]
  unfold Spec.normalised
  rw [hint, hshape]
  simp only [mul_le_mul_iff_right₀ hc]
  split_ifs
  · rw [div_mul_eq_div_div, div_right_comm, div_eq_inv_mul]
  · rw [mul_zero]

theorem truncnormBody_nonpos {x mu hi lo : Fl} {sigma : ℝ} (hs : sigma ≤ 0) :
    truncnormBody x mu (fin sigma) hi lo = fin 0 := by
  unfold truncnormBody
  have hpdf : -(((x - mu) / fin sigma) ^ 2) / 2 - Fl.log (2 * fin Real.pi) / 2 - Fl.log (fin sigma) = nan := by
    have h2 : ∃ k, Fl.log (2 * fin Real.pi) / 2 = fin k := by
      refine ⟨Real.log (2 * Real.pi) / 2, ?_⟩
      rw [ofNat_eq, fin_mul, log_fin (by positivity), fin_div (two_ne_zero' ℝ)]
    obtain ⟨k, hk⟩ := h2
    rw [hk]
    rcases hs.lt_or_eq with h | h
    · rw [log_fin_neg h, sub_nan]
    · subst h
      have hz : ((x - mu) / fin 0) ^ 2 = pinf ∨ ((x - mu) / fin 0) ^ 2 = nan := by
        generalize x - mu = d
        have : d / fin 0 = pinf ∨ d / fin 0 = ninf ∨ d / fin 0 = nan := by
          cases d with
          | fin r =>
            rw [fin_div_def, if_pos rfl]
            rcases signInf_cases r with ⟨_, h⟩ | ⟨_, h⟩ | ⟨_, h⟩ <;> simp [h]
          | pinf => left; rw [pinf_div_fin, if_neg (lt_irrefl _)]
          | ninf => right; left; rw [ninf_div_fin, if_neg (lt_irrefl _)]
          | nan => right; right; rw [nan_div]
        rcases this with h | h | h <;> rw [h, sq] <;> simp
      rw [log_zero]
      rcases hz with h | h
      · rw [h]
        have : -pinf / (2 : Fl) - fin k = ninf := by
          rw [neg_pinf, ofNat_eq, ninf_div_fin, if_neg (by norm_num)]
          rfl
        rw [this]
        rfl
      · rw [h]
        rfl
  simp only [hpdf, nan_sub]
  rw [show Fl.exp nan = nan from rfl, show nanToNum nan = fin 0 from rfl, fin_mul_ind, fin_mul_ind]
  split_ifs <;> rfl

theorem truncnorm_scale {c : ℝ} (hc : 0 < c) (b : Backend) (x : Fl) {mu sigma hi lo : ℝ} (h : lo < hi)
    (k₁ k₂ k₃ k₄ k₅ : Bool) :
    truncnorm b ⟨fin c * x, k₁⟩ ⟨fin (c * mu), k₂⟩ ⟨fin (c * sigma), k₃⟩ ⟨fin (c * hi), k₄⟩ ⟨fin (c * lo), k₅⟩ =
      (truncnorm b ⟨x, k₁⟩ ⟨fin mu, k₂⟩ ⟨fin sigma, k₃⟩ ⟨fin hi, k₄⟩ ⟨fin lo, k₅⟩).map (fin c⁻¹ * ·) := by
  rw [truncnorm_eq, truncnorm_eq]
  have hs : (0 : Fl) < fin (c * sigma) ↔ (0 : Fl) < fin sigma := by
    rw [← fin_mul]; exact zero_lt_scale hc _
  simp only [hs]
  split_ifs
  · rfl
  · show Except.ok _ = Except.ok _
    congr 1
    by_cases hpos : 0 < sigma
    · cases x with
      | fin r =>
        rw [fin_mul, truncnormBody_eq (mul_pos hc hpos) (mul_lt_mul_of_pos_left h hc), truncnormBody_eq hpos h]
        dsimp only
        rw [fin_mul, normalised_gauss_scale hc]
      | _ =>
        have hz (y : Fl) (hy : ∀ r, y ≠ fin r) (mu sigma hi lo : ℝ) :
            truncnormBody y (fin mu) (fin sigma) (fin hi) (fin lo) = fin 0 := by
          obtain ⟨r, -, h1, h2⟩ := C04_truncnorm_total .jax y (fin mu) (fin sigma) (fin hi) (fin lo)
          rw [truncnorm_eq, if_neg (by simp)] at h1
          have h1 := Except.ok.inj h1
          simp only [pos_val] at h1
          rw [h1, h2]
          rintro ⟨h3, h4⟩
          cases y with
          | fin r => exact hy r rfl
          | pinf => exact h4
          | ninf => exact h3
          | nan => exact h4
        have hsc (y : Fl) (hy : ∀ r, y ≠ fin r) : ∀ r, fin c * y ≠ fin r := by
          intro r hr
          cases y with
          | fin r => exact hy r rfl
          | pinf => rw [scale_pinf hc] at hr; cases hr
          | ninf => rw [scale_ninf hc] at hr; cases hr
          | nan => rw [mul_nan] at hr; cases hr
        dsimp only
        rw [hz _ (hsc _ (by intro r; exact nofun)), hz _ (by intro r; exact nofun), fin_mul, mul_zero]
    · have h0 : c * sigma ≤ 0 := mul_nonpos_of_nonneg_of_nonpos hc.le (not_lt.1 hpos)
      dsimp only
      rw [truncnormBody_nonpos h0, truncnormBody_nonpos (not_lt.1 hpos), fin_mul, mul_zero]

/-! ## Functions of one mass -/

theorem scale_mul_right {c : ℝ} (x y : Fl) : x * (fin c * y) = fin c * (x * y) := by
  rw [mul_left_comm]

theorem fin_scale (c r : ℝ) : fin (c * r) = fin c * fin r := (fin_mul c r).symm

/-- **C101.** `power_law_mass`, for all floats as masses and bounds, however the hyper-parameters are passed: in a
unit of mass that is `c` times smaller, the density is `c` times smaller; exceptions are the same. -/
theorem C101_powerLawMass {c : ℝ} (hc : 0 < c) (b : Backend) (py : Bool) (mass mmin mmax : Fl) (alpha : ℝ) :
    powerLawMass b py (fin c * mass) (fin alpha) (fin c * mmin) (fin c * mmax) =
      Spec.perUnit c (powerLawMass b py mass (fin alpha) mmin mmax) := by
  rw [perUnit_eq hc]
  unfold powerLawMass
  rw [fin_neg]
  exact powerlaw_scale hc b py mass mmax mmin (-alpha) _ _ _ _

theorem break_scale {c : ℝ} (hc : 0 < c) (mmin mmax f : Fl) :
    fin c * mmin + f * (fin c * mmax - fin c * mmin) = fin c * (mmin + f * (mmax - mmin)) := by
  rw [← scale_sub hc, scale_mul_right, ← scale_add hc]

/-- **C101.** `double_power_law_primary_mass`. -/
theorem C101_doublePowerLaw {c : ℝ} (hc : 0 < c) (b : Backend) (py : Bool) (mass mmin mmax breakFraction : Fl)
    (alpha1 alpha2 : ℝ) :
    doublePowerLawPrimaryMass b py (fin c * mass) (fin alpha1) (fin alpha2) (fin c * mmin) (fin c * mmax)
        breakFraction =
      Spec.perUnit c (doublePowerLawPrimaryMass b py mass (fin alpha1) (fin alpha2) mmin mmax breakFraction) := by
  rw [perUnit_eq hc]
  unfold doublePowerLawPrimaryMass
  simp only [break_scale hc, fin_neg]
  generalize mmin + breakFraction * (mmax - mmin) = m
  simp only [pos, kw, powerlaw_scale hc, scale_lt hc, scale_le hc]
  cases powerlaw b py ⟨m, false⟩ ⟨fin (-alpha2), true⟩ ⟨mmax, true⟩ ⟨m, true⟩ with
  | error e => rfl
  | ok c2 =>
    cases powerlaw b py ⟨m, false⟩ ⟨fin (-alpha1), true⟩ ⟨m, true⟩ ⟨mmin, true⟩ with
    | error e => rfl
    | ok c1 =>
      cases powerlaw b py ⟨mass, false⟩ ⟨fin (-alpha1), true⟩ ⟨m, true⟩ ⟨mmin, true⟩ with
      | error e => rfl
      | ok lowPart =>
        cases powerlaw b py ⟨mass, false⟩ ⟨fin (-alpha2), true⟩ ⟨mmax, true⟩ ⟨m, true⟩ with
        | error e => rfl
        | ok highPart =>
          have hi : 0 < c⁻¹ := inv_pos.2 hc
          show Except.ok _ = Except.ok _
          congr 1
          beta_reduce
          rw [scale_cancel hi, mul_assoc, mul_assoc, mul_assoc (fin c⁻¹) highPart, ← scale_add hi, scale_div hi,
            ← mul_assoc]

theorem mixture_scale {c : ℝ} (hc : 0 < c) (lam p q : Fl) :
    (1 - lam) * (fin c * p) + lam * (fin c * q) = fin c * ((1 - lam) * p + lam * q) := by
  rw [scale_mul_right, scale_mul_right, scale_add hc]

/-- **C101.** `two_component_single`. -/
theorem C101_twoComponent {c : ℝ} (hc : 0 < c) (b : Backend) (py : Bool) (mass mmax lam : Fl)
    {alpha mmin mpp sigpp gmm : ℝ} (h : mmin < gmm) :
    twoComponentSingle b py (fin c * mass) (fin alpha) (fin (c * mmin)) (fin c * mmax) lam (fin (c * mpp))
        (fin (c * sigpp)) (fin (c * gmm)) =
      Spec.perUnit c
        (twoComponentSingle b py mass (fin alpha) (fin mmin) mmax lam (fin mpp) (fin sigpp) (fin gmm)) := by
  rw [perUnit_eq hc]
  unfold twoComponentSingle
  simp only [pos, kw, fin_neg, truncnorm_scale hc b mass h]
  rw [fin_scale c mmin, powerlaw_scale hc]
  cases powerlaw b py ⟨mass, false⟩ ⟨fin (-alpha), true⟩ ⟨mmax, true⟩ ⟨fin mmin, true⟩ with
  | error e => rfl
  | ok pPow =>
    cases truncnorm b ⟨mass, false⟩ ⟨fin mpp, true⟩ ⟨fin sigpp, true⟩ ⟨fin gmm, true⟩ ⟨fin mmin, true⟩ with
    | error e => rfl
    | ok pNorm => exact congrArg Except.ok (mixture_scale (inv_pos.2 hc) lam pPow pNorm)

/-- **C101.** `double_power_law_peak_primary_mass`. -/
theorem C101_doublePowerLawPeak {c : ℝ} (hc : 0 < c) (b : Backend) (py : Bool) (mass mmax breakFraction lam : Fl)
    {alpha1 alpha2 mmin mpp sigpp gmm : ℝ} (h : mmin < gmm) :
    doublePowerLawPeakPrimaryMass b py (fin c * mass) (fin alpha1) (fin alpha2) (fin (c * mmin)) (fin c * mmax)
        breakFraction lam (fin (c * mpp)) (fin (c * sigpp)) (fin (c * gmm)) =
      Spec.perUnit c
        (doublePowerLawPeakPrimaryMass b py mass (fin alpha1) (fin alpha2) (fin mmin) mmax breakFraction lam
          (fin mpp) (fin sigpp) (fin gmm)) := by
  have hd := C101_doublePowerLaw hc b py mass (fin mmin) mmax breakFraction alpha1 alpha2
  rw [perUnit_eq hc] at hd ⊢
  unfold doublePowerLawPeakPrimaryMass
  simp only [pos, kw, truncnorm_scale hc b mass h]
  rw [fin_scale c mmin, hd]
  cases doublePowerLawPrimaryMass b py mass (fin alpha1) (fin alpha2) (fin mmin) mmax breakFraction with
  | error e => rfl
  | ok pPow =>
    cases truncnorm b ⟨mass, false⟩ ⟨fin mpp, true⟩ ⟨fin sigpp, true⟩ ⟨fin gmm, true⟩ ⟨fin mmin, true⟩ with
    | error e => rfl
    | ok pNorm => exact congrArg Except.ok (mixture_scale (inv_pos.2 hc) lam pPow pNorm)

/-- **C101.** `three_component_single`. -/
theorem C101_threeComponent {c : ℝ} (hc : 0 < c) (b : Backend) (py : Bool) (mass mmax lam lam1 : Fl)
    {alpha mmin mpp1 sigpp1 mpp2 sigpp2 gmm : ℝ} (h : mmin < gmm) :
    threeComponentSingle b py (fin c * mass) (fin alpha) (fin (c * mmin)) (fin c * mmax) lam lam1 (fin (c * mpp1))
        (fin (c * sigpp1)) (fin (c * mpp2)) (fin (c * sigpp2)) (fin (c * gmm)) =
      Spec.perUnit c
        (threeComponentSingle b py mass (fin alpha) (fin mmin) mmax lam lam1 (fin mpp1) (fin sigpp1) (fin mpp2)
          (fin sigpp2) (fin gmm)) := by
  rw [perUnit_eq hc]
  unfold threeComponentSingle
  simp only [pos, kw, fin_neg, truncnorm_scale hc b mass h]
  rw [fin_scale c mmin, powerlaw_scale hc]
  cases powerlaw b py ⟨mass, false⟩ ⟨fin (-alpha), true⟩ ⟨mmax, true⟩ ⟨fin mmin, true⟩ with
  | error e => rfl
  | ok pPow =>
    cases truncnorm b ⟨mass, false⟩ ⟨fin mpp1, true⟩ ⟨fin sigpp1, true⟩ ⟨fin gmm, true⟩ ⟨fin mmin, true⟩ with
    | error e => rfl
    | ok pNorm1 =>
      cases truncnorm b ⟨mass, false⟩ ⟨fin mpp2, true⟩ ⟨fin sigpp2, true⟩ ⟨fin gmm, true⟩ ⟨fin mmin, true⟩ with
      | error e => rfl
      | ok pNorm2 =>
        have hi : 0 < c⁻¹ := inv_pos.2 hc
        show Except.ok _ = Except.ok _
        congr 1
        beta_reduce
        rw [scale_mul_right, scale_mul_right, scale_mul_right, scale_add hi, scale_add hi]

/-! ## Functions of two masses, or of a mass and a mass ratio -/

theorem massRatioFactor_scale {c : ℝ} (hc : 0 < c) (b : Backend) (q beta mmin m1 : Fl) :
    massRatioFactor b q beta (fin c * mmin) (fin c * m1) = massRatioFactor b q beta mmin m1 := by
  unfold massRatioFactor
  rw [scale_cancel hc]

/-- **C101.** `double_power_law_primary_power_law_mass_ratio`: the mass ratio has no unit. -/
theorem C101_doublePowerLawMassRatio {c : ℝ} (hc : 0 < c) (b : Backend) (py : Bool)
    (m1 q beta mmin mmax breakFraction : Fl) (alpha1 alpha2 : ℝ) :
    doublePowerLawPrimaryPowerLawMassRatio b py (fin c * m1) q (fin alpha1) (fin alpha2) beta (fin c * mmin)
        (fin c * mmax) breakFraction =
      Spec.perUnit c (doublePowerLawPrimaryPowerLawMassRatio b py m1 q (fin alpha1) (fin alpha2) beta mmin mmax
        breakFraction) := by
  have hd := C101_doublePowerLaw hc b py m1 mmin mmax breakFraction alpha1 alpha2
  rw [perUnit_eq hc] at hd ⊢
  unfold doublePowerLawPrimaryPowerLawMassRatio
  rw [hd, massRatioFactor_scale hc]
  cases doublePowerLawPrimaryMass b py m1 (fin alpha1) (fin alpha2) mmin mmax breakFraction with
  | error e => rfl
  | ok p =>
    cases massRatioFactor b q beta mmin m1 with
    | error e => rfl
    | ok r => exact congrArg Except.ok (mul_assoc _ _ _)

/-- **C101.** `two_component_primary_mass_ratio`. -/
theorem C101_twoComponentMassRatio {c : ℝ} (hc : 0 < c) (b : Backend) (py : Bool) (m1 q beta mmax lam : Fl)
    {alpha mmin mpp sigpp gmm : ℝ} (h : mmin < gmm) :
    twoComponentPrimaryMassRatio b py (fin c * m1) q (fin alpha) beta (fin (c * mmin)) (fin c * mmax) lam
        (fin (c * mpp)) (fin (c * sigpp)) (fin (c * gmm)) =
      Spec.perUnit c (twoComponentPrimaryMassRatio b py m1 q (fin alpha) beta (fin mmin) mmax lam (fin mpp)
        (fin sigpp) (fin gmm)) := by
  have hd := C101_twoComponent hc b py m1 mmax lam (alpha := alpha) (mpp := mpp) (sigpp := sigpp) h
  rw [perUnit_eq hc] at hd ⊢
  unfold twoComponentPrimaryMassRatio
  rw [hd, fin_scale c mmin, massRatioFactor_scale hc]
  cases twoComponentSingle b py m1 (fin alpha) (fin mmin) mmax lam (fin mpp) (fin sigpp) (fin gmm) with
  | error e => rfl
  | ok p =>
    cases massRatioFactor b q beta (fin mmin) m1 with
    | error e => rfl
    | ok r => exact congrArg Except.ok (mul_assoc _ _ _)

theorem twoComponentSingle_no_peak (b : Backend) (py : Bool) (mass alpha mmin mmax : Fl) :
    twoComponentSingle b py mass alpha mmin mmax (fin 0) (fin 35) (fin 1) (fin 100) =
      powerLawMass b py mass alpha mmin mmax := by
  unfold twoComponentSingle powerLawMass
  obtain ⟨r, -, hr, -⟩ := C04_truncnorm_total b mass (fin 35) (fin 1) (fin 100) mmin
  have hr' : truncnorm b (pos mass) (kw (fin 35)) (kw (fin 1)) (kw (fin 100)) (kw mmin) = .ok (fin r) := by
    rw [← hr, truncnorm_eq, truncnorm_eq, if_neg, if_neg]
    · rfl
    · simp
    · simp
  rw [hr']
  cases powerlaw b py (pos mass) (kw (-alpha)) (kw mmax) (kw mmin) with
  | error e => rfl
  | ok p =>
    show Except.ok _ = Except.ok _
    congr 1
    rw [one_eq, fin_sub, sub_zero, fin_mul, zero_mul, ← one_eq, one_mul, ← zero_eq, add_zero]

/-- **C101.** `power_law_primary_mass_ratio`, although it calls the previous function with fixed masses. -/
theorem C101_powerLawMassRatio {c : ℝ} (hc : 0 < c) (b : Backend) (py : Bool) (m1 q beta mmin mmax : Fl)
    (alpha : ℝ) :
    powerLawPrimaryMassRatio b py (fin c * m1) q (fin alpha) beta (fin c * mmin) (fin c * mmax) =
      Spec.perUnit c (powerLawPrimaryMassRatio b py m1 q (fin alpha) beta mmin mmax) := by
  have hd := C101_powerLawMass hc b py m1 mmin mmax alpha
  rw [perUnit_eq hc] at hd ⊢
  unfold powerLawPrimaryMassRatio twoComponentPrimaryMassRatio
  rw [twoComponentSingle_no_peak, twoComponentSingle_no_peak, hd, massRatioFactor_scale hc]
  cases powerLawMass b py m1 (fin alpha) mmin mmax with
  | error e => rfl
  | ok p =>
    cases massRatioFactor b q beta mmin m1 with
    | error e => rfl
    | ok r => exact congrArg Except.ok (mul_assoc _ _ _)

theorem primarySecondary_scale {c k : ℝ} (hc : 0 < c) (m1 m2 p1 p2 : Fl) :
    primarySecondaryGeneral (fin c * m1) (fin c * m2) (fin k * p1) (fin k * p2) =
      fin k * (fin k * primarySecondaryGeneral m1 m2 p1 p2) := by
  unfold primarySecondaryGeneral
  rw [scale_le hc]
  rw [mul_assoc (fin k), scale_mul_right p1]
  simp only [mul_assoc]

/-- **C101.** `power_law_primary_secondary_independent` is a density in two masses. -/
theorem C101_powerLawPrimarySecondary {c : ℝ} (hc : 0 < c) (b : Backend) (py : Bool) (m1 m2 mmin mmax : Fl)
    (alpha beta : ℝ) :
    powerLawPrimarySecondaryIndependent b py (fin c * m1) (fin c * m2) (fin alpha) (fin beta) (fin c * mmin)
        (fin c * mmax) =
      Spec.perUnit c (Spec.perUnit c
        (powerLawPrimarySecondaryIndependent b py m1 m2 (fin alpha) (fin beta) mmin mmax)) := by
  rw [perUnit_eq hc, perUnit_eq hc]
  unfold powerLawPrimarySecondaryIndependent
  simp only [pos, fin_neg, powerlaw_scale hc]
  cases powerlaw b py ⟨m1, false⟩ ⟨fin (-alpha), false⟩ ⟨mmax, false⟩ ⟨mmin, false⟩ with
  | error e => rfl
  | ok p1 =>
    cases powerlaw b py ⟨m2, false⟩ ⟨fin (-beta), false⟩ ⟨mmax, false⟩ ⟨mmin, false⟩ with
    | error e => rfl
    | ok p2 => exact congrArg Except.ok (primarySecondary_scale hc m1 m2 p1 p2)

/-- **C101.** `two_component_primary_secondary_independent`. -/
theorem C101_twoComponentPrimarySecondary {c : ℝ} (hc : 0 < c) (b : Backend) (py : Bool) (m1 m2 mmax lam : Fl)
    {alpha beta mmin mpp sigpp gmm : ℝ} (h : mmin < gmm) :
    twoComponentPrimarySecondaryIndependent b py (fin c * m1) (fin c * m2) (fin alpha) (fin beta) (fin (c * mmin))
        (fin c * mmax) lam (fin (c * mpp)) (fin (c * sigpp)) (fin (c * gmm)) =
      Spec.perUnit c (Spec.perUnit c
        (twoComponentPrimarySecondaryIndependent b py m1 m2 (fin alpha) (fin beta) (fin mmin) mmax lam (fin mpp)
          (fin sigpp) (fin gmm))) := by
  have h1 := C101_twoComponent hc b py m1 mmax lam (alpha := alpha) (mpp := mpp) (sigpp := sigpp) h
  have h2 := C101_twoComponent hc b py m2 mmax lam (alpha := beta) (mpp := mpp) (sigpp := sigpp) h
  rw [perUnit_eq hc] at h1 h2
  rw [perUnit_eq hc, perUnit_eq hc]
  unfold twoComponentPrimarySecondaryIndependent
  rw [h1, h2]
  cases twoComponentSingle b py m1 (fin alpha) (fin mmin) mmax lam (fin mpp) (fin sigpp) (fin gmm) with
  | error e => rfl
  | ok p1 =>
    cases twoComponentSingle b py m2 (fin beta) (fin mmin) mmax lam (fin mpp) (fin sigpp) (fin gmm) with
    | error e => rfl
    | ok p2 => exact congrArg Except.ok (primarySecondary_scale hc m1 m2 p1 p2)

/-- **C101.** `power_law_primary_secondary_identical` and `two_component_primary_secondary_identical`. -/
theorem C101_identical {c : ℝ} (hc : 0 < c) (b : Backend) (py : Bool) (m1 m2 mmax lam : Fl)
    {alpha mmin mpp sigpp gmm : ℝ} (h : mmin < gmm) :
    powerLawPrimarySecondaryIdentical b py (fin c * m1) (fin c * m2) (fin alpha) (fin (c * mmin)) (fin c * mmax) =
        Spec.perUnit c (Spec.perUnit c
          (powerLawPrimarySecondaryIdentical b py m1 m2 (fin alpha) (fin mmin) mmax)) ∧
      twoComponentPrimarySecondaryIdentical b py (fin c * m1) (fin c * m2) (fin alpha) (fin (c * mmin))
          (fin c * mmax) lam (fin (c * mpp)) (fin (c * sigpp)) (fin (c * gmm)) =
        Spec.perUnit c (Spec.perUnit c
          (twoComponentPrimarySecondaryIdentical b py m1 m2 (fin alpha) (fin mmin) mmax lam (fin mpp) (fin sigpp)
            (fin gmm))) := by
  rw [fin_scale c mmin]
  refine ⟨C101_powerLawPrimarySecondary hc b py m1 m2 (fin mmin) mmax alpha alpha, ?_⟩
  rw [← fin_scale c mmin]
  exact C101_twoComponentPrimarySecondary hc b py m1 m2 mmax lam h

/-- A density of 1/(2 log 4) at mass 2 in the old unit is 1/(6 log 4) at mass 6 in a unit three times smaller. -/
example : powerLawMass .numpy true (fin 3 * fin 2) (fin 1) (fin 3 * fin 1) (fin 3 * fin 4) =
    .ok (fin (1 / (2 * Real.log 4)) / fin 3) := by
  rw [C101_powerLawMass (by norm_num)]
  have := C01_powerlaw_value .numpy true true true true true (x := 2) (a := -1) (hi := 4) (lo := 1)
    (by norm_num) (by norm_num) (by norm_num) (Or.inr (Or.inr (by norm_num)))
  unfold powerLawMass
  rw [fin_neg]
  refine (congrArg (Spec.perUnit 3) this).trans ?_
  show Except.ok _ = Except.ok _
  congr 3
  rw [Spec.normalised, if_pos (by norm_num), integral_rpow_neg_one (by norm_num) (by norm_num), Real.rpow_neg_one]
  norm_num
  ring

/-- The hypotheses on the bounds of the Gaussian components. -/
example : (0 : ℝ) < 1.989 ∧ (5 : ℝ) < 100 := by norm_num

/-! ## Smoothed mass distributions -/

/-- An instance of a smoothed mass distribution in the new unit: the bounds, the grid of masses, the fixed
hyper-parameters and the masses of the stored interpolant are multiplied by `c`. -/
def Spec.instanceInUnit (c : ℝ) (s : Smoothed) : Smoothed :=
  ⟨s.primary, Spec.inUnit c s.fixed, c * s.mmin, c * s.mmax, s.m1s.map (c * ·), s.qs, s.cache,
    s.qMasses.map fun l => l.map (fin c * ·)⟩

theorem get?_inUnit (c : ℝ) (d : Dict Fl) (k : String) :
    Dict.get? (Spec.inUnit c d) k =
      (Dict.get? d k).map fun v => if k ∈ Spec.massNames then fin c * v else v := by
  induction d with
  | nil => rfl
  | cons p d ih =>
    obtain ⟨a, v⟩ := p
    show Dict.get? ((a, _) :: Spec.inUnit c d) k = _
    rw [Dict.get?_cons, Dict.get?_cons, ih]
    by_cases h : k = a
    · subst h; rw [if_pos rfl, if_pos rfl]; rfl
    · rw [if_neg h, if_neg h]

theorem keys_inUnit (c : ℝ) (d : Dict Fl) : Dict.keys (Spec.inUnit c d) = Dict.keys d := by
  unfold Dict.keys Spec.inUnit
  rw [List.map_map]
  rfl

theorem erase_inUnit (c : ℝ) (d : Dict Fl) (k : String) :
    Dict.erase (Spec.inUnit c d) k = Spec.inUnit c (Dict.erase d k) := by
  unfold Dict.erase Spec.inUnit
  rw [List.filter_map]
  rfl

theorem append_inUnit (c : ℝ) (d e : Dict Fl) :
    Spec.inUnit c d ++ Spec.inUnit c e = Spec.inUnit c (d ++ e) := by
  unfold Spec.inUnit
  rw [List.map_append]

theorem kwGet_inUnit {k : String} (hk : k ∈ Spec.massNames) (c : ℝ) (d : Dict Fl) (v : Fl) :
    Smoothed.kwGet (Spec.inUnit c d) k (fin c * v) = fin c * Smoothed.kwGet d k v := by
  unfold Smoothed.kwGet
  rw [get?_inUnit]
  cases Dict.get? d k <;> simp [hk]

theorem smoothing_scale {c : ℝ} (hc : 0 < c) (b : Backend) (mass mmin mmax deltaM : Fl) :
    smoothing b (fin c * mass) (fin c * mmin) (fin c * mmax) (fin c * deltaM) = smoothing b mass mmin mmax deltaM := by
  unfold smoothing
  simp only [← scale_sub hc, scale_cancel hc, scale_le hc, zero_lt_scale hc]

/-- A primary-mass model with these hyper-parameters is the same in all units. -/
def UnitFree (P : Primary) (c : ℝ) (b : Backend) (kwargs : Dict Fl) : Prop :=
  ∀ m, P b (Spec.inUnit c kwargs) (fin c * m) = (P b kwargs m).map (fin c⁻¹ * ·)

theorem pMRaw_scale {c : ℝ} (hc : 0 < c) {b : Backend} {s : Smoothed} {kwargs : Dict Fl}
    (h : UnitFree s.primary c b kwargs) (mmin deltaM m : Fl) :
    Smoothed.pMRaw b (Spec.instanceInUnit c s) (Spec.inUnit c kwargs) (fin c * mmin) (fin c * deltaM) (fin c * m) =
      (Smoothed.pMRaw b s kwargs mmin deltaM m).map (fin c⁻¹ * ·) := by
  unfold Smoothed.pMRaw
  show (s.primary b (Spec.inUnit c kwargs) (fin c * m) >>= fun p =>
    Except.ok (p * smoothing b (fin c * m) (fin c * mmin) (fin (c * s.mmax)) (fin c * deltaM))) = _
  rw [h m, fin_scale c s.mmax, smoothing_scale hc]
  cases s.primary b kwargs m with
  | error e => rfl
  | ok p => exact congrArg Except.ok (mul_assoc _ _ _)

theorem mapM_scaled {α β : Type} {f : α → Except PyErr Fl} {g : β → Except PyErr Fl} {u : α → β} {k : Fl → Fl}
    (h : ∀ a, g (u a) = (f a).map k) (l : List α) :
    (l.map u).mapM g = (l.mapM f).map (List.map k) := by
  induction l with
  | nil => rfl
  | cons a l ih =>
    rw [List.map_cons, List.mapM_cons, List.mapM_cons, ih, h a]
    cases f a with
    | error e => rfl
    | ok v =>
      cases l.mapM f with
      | error e => rfl
      | ok r => rfl

theorem trapz_scale {c : ℝ} (hc : 0 < c) (ys xs : List Fl) :
    Arr.trapz (ys.map (fin c⁻¹ * ·)) (xs.map (fin c * ·)) = Arr.trapz ys xs := by
  induction ys generalizing xs with
  | nil => rfl
  | cons y ys ih =>
    cases ys with
    | nil => rfl
    | cons y' ys =>
      cases xs with
      | nil => rfl
      | cons x xs =>
        cases xs with
        | nil => rfl
        | cons x' xs =>
          have := ih (x' :: xs)
          simp only [List.map_cons, Arr.trapz] at this ⊢
          rw [this, ← scale_sub hc, ← scale_add (inv_pos.2 hc), mul_mul_mul_comm, fin_mul,
            mul_inv_cancel₀ hc.ne', ← one_eq, one_mul]

theorem normPM1_scale {c : ℝ} (hc : 0 < c) {b : Backend} {s : Smoothed} {kwargs : Dict Fl}
    (h : UnitFree s.primary c b kwargs) (deltaM : Fl) :
    Smoothed.normPM1 b (Spec.instanceInUnit c s) (fin c * deltaM) (Spec.inUnit c kwargs) =
      Smoothed.normPM1 b s deltaM kwargs := by
  unfold Smoothed.normPM1
  have hm : Smoothed.kwGet (Spec.inUnit c kwargs) "mmin" (fin (Spec.instanceInUnit c s).mmin) =
      fin c * Smoothed.kwGet kwargs "mmin" (fin s.mmin) := by
    show Smoothed.kwGet _ _ (fin (c * s.mmin)) = _
    rw [fin_scale, kwGet_inUnit (by simp [Spec.massNames])]
  simp only [hm, eqf_zero_scale hc]
  generalize Smoothed.kwGet kwargs "mmin" (fin s.mmin) = mmin
  split_ifs
  · rfl
  · have hmap : (Spec.instanceInUnit c s).m1s = s.m1s.map (c * ·) := rfl
    rw [hmap, mapM_scaled (k := (fin c⁻¹ * ·)) (f := fun m => Smoothed.pMRaw b s kwargs mmin deltaM (fin m))
      (fun m => by rw [fin_scale c m]; exact pMRaw_scale hc h mmin deltaM (fin m))]
    cases s.m1s.mapM (fun m => Smoothed.pMRaw b s kwargs mmin deltaM (fin m)) with
    | error e => rfl
    | ok pm =>
      have : (s.m1s.map (c * ·)).map fin = (s.m1s.map fin).map (fin c * ·) := by
        rw [List.map_map, List.map_map]
        rfl
      show Except.ok _ = Except.ok _
      rw [this, trapz_scale hc]

theorem pM1_scale {c : ℝ} (hc : 0 < c) {b : Backend} {s : Smoothed} {kwargs : Dict Fl}
    (h : UnitFree s.primary c b (Dict.erase kwargs "delta_m")) (masses : List Fl) :
    Smoothed.pM1 b (Spec.instanceInUnit c s) (masses.map (fin c * ·)) (Spec.inUnit c kwargs) =
      (Smoothed.pM1 b s masses kwargs).map (List.map (fin c⁻¹ * ·)) := by
  unfold Smoothed.pM1
  have hm : Smoothed.kwGet (Spec.inUnit c kwargs) "mmin" (fin (Spec.instanceInUnit c s).mmin) =
      fin c * Smoothed.kwGet kwargs "mmin" (fin s.mmin) := by
    show Smoothed.kwGet _ _ (fin (c * s.mmin)) = _
    rw [fin_scale, kwGet_inUnit (by simp [Spec.massNames])]
  have hd : Smoothed.kwGet (Spec.inUnit c kwargs) "delta_m" 0 = fin c * Smoothed.kwGet kwargs "delta_m" 0 := by
    rw [← kwGet_inUnit (by simp [Spec.massNames]), zero_eq, fin_mul, mul_zero]
  simp only [hm, hd, erase_inUnit]
  generalize Smoothed.kwGet kwargs "mmin" (fin s.mmin) = mmin
  generalize Smoothed.kwGet kwargs "delta_m" 0 = deltaM
  rw [mapM_scaled (pMRaw_scale hc h mmin deltaM), normPM1_scale hc h]
  cases masses.mapM (Smoothed.pMRaw b s (Dict.erase kwargs "delta_m") mmin deltaM) with
  | error e => rfl
  | ok pm =>
    cases Smoothed.normPM1 b s deltaM (Dict.erase kwargs "delta_m") with
    | error e => rfl
    | ok norm =>
      show Except.ok _ = Except.ok _
      congr 1
      rw [List.map_map, List.map_map]
      congr 1
      funext x
      exact scale_div (inv_pos.2 hc) x norm

theorem pQRaw_scale {c : ℝ} (hc : 0 < c) (b : Backend) (beta mmin deltaM m q : Fl) :
    Smoothed.pQRaw b beta (fin c * mmin) (fin c * deltaM) (fin c * m) q = Smoothed.pQRaw b beta mmin deltaM m q := by
  unfold Smoothed.pQRaw
  rw [massRatioFactor_scale hc, mul_assoc, smoothing_scale hc]

theorem qNorms_scale {c : ℝ} (hc : 0 < c) (b : Backend) (s : Smoothed) (beta mmin deltaM : Fl) :
    Smoothed.qNorms b (Spec.instanceInUnit c s) beta (fin c * mmin) (fin c * deltaM) =
      Smoothed.qNorms b s beta mmin deltaM := by
  unfold Smoothed.qNorms
  show (s.m1s.map (c * ·)).mapM _ = _
  rw [mapM_map]
  simp only [fin_scale, pQRaw_scale hc, eqf_zero_scale hc]
  rfl

theorem interpLinear_scale {c : ℝ} (hc : 0 < c) (xs : List ℝ) (ys : List Fl) (m : Fl) :
    interpLinear (xs.map (c * ·)) ys (fin c * m) = interpLinear xs ys m := by
  cases m with
  | fin r =>
    rw [fin_mul]
    unfold interpLinear
    have hf : ((xs.map (c * ·)).filter (fun x => x ≤ c * r)).length = (xs.filter (fun x => x ≤ r)).length := by
      rw [List.filter_map, List.length_map]
      congr 2
      funext x
      simp [mul_le_mul_iff_right₀ hc]
    have hg (i : ℕ) : (xs.map (c * ·)).getD i 0 = c * xs.getD i 0 := by
      rw [List.getD_eq_getElem?_getD, List.getD_eq_getElem?_getD, List.getElem?_map]
      cases xs[i]? <;> simp
    simp only [hf, hg, List.length_map, ← mul_sub, mul_div_mul_left _ _ hc.ne']
  | pinf => rw [scale_pinf hc]; rfl
  | ninf => rw [scale_ninf hc]; rfl
  | nan => rw [mul_nan]; rfl

theorem divideByNorm_scale {c : ℝ} (hc : 0 < c) (b : Backend) (s : Smoothed) (pq : List Fl) (beta mmin deltaM : Fl) :
    Smoothed.divideByNorm b (Spec.instanceInUnit c s) pq beta (fin c * mmin) (fin c * deltaM) =
      Smoothed.divideByNorm b s pq beta mmin deltaM := by
  have : Smoothed.normPQ b (Spec.instanceInUnit c s) beta (fin c * mmin) (fin c * deltaM) =
      Smoothed.normPQ b s beta mmin deltaM := by
    unfold Smoothed.normPQ
    rw [qNorms_scale hc]
    cases Smoothed.qNorms b s beta mmin deltaM with
    | error e => rfl
    | ok norms =>
      rcases s with ⟨P, fx, m0, m1, grid, qs, cache, qm⟩
      cases qm with
      | none => rfl
      | some masses =>
        show Except.ok _ = Except.ok _
        congr 1
        rw [List.map_map]
        congr 1
        funext x
        exact interpLinear_scale hc grid norms x
  unfold Smoothed.divideByNorm
  rw [this]

theorem pQ_scale {c : ℝ} (hc : 0 < c) (b : Backend) (s : Smoothed) (data : List (Fl × Fl)) (beta mmin deltaM : Fl) :
    Smoothed.pQ b (Spec.instanceInUnit c s) (Spec.dataInUnit c data) beta (fin c * mmin) (fin c * deltaM) =
      ((Smoothed.pQ b s data beta mmin deltaM).1,
        Spec.instanceInUnit c (Smoothed.pQ b s data beta mmin deltaM).2) := by
  unfold Smoothed.pQ
  have hraw : (Spec.dataInUnit c data).mapM
      (fun d => Smoothed.pQRaw b beta (fin c * mmin) (fin c * deltaM) d.1 d.2) =
      data.mapM (fun d => Smoothed.pQRaw b beta mmin deltaM d.1 d.2) := by
    unfold Spec.dataInUnit
    rw [mapM_map]
    simp only [pQRaw_scale hc]
  have hfst : (Spec.dataInUnit c data).map Prod.fst = (data.map Prod.fst).map (fin c * ·) := by
    unfold Spec.dataInUnit
    rw [List.map_map, List.map_map]
    rfl
  have hcache (t : Smoothed) : Smoothed.cacheQNorms (Spec.instanceInUnit c t) ((Spec.dataInUnit c data).map Prod.fst) =
      Spec.instanceInUnit c (Smoothed.cacheQNorms t (data.map Prod.fst)) := by
    rw [hfst]; rfl
  have hs1 : (if (Spec.instanceInUnit c s).cache then Spec.instanceInUnit c s
      else Smoothed.cacheQNorms (Spec.instanceInUnit c s) ((Spec.dataInUnit c data).map Prod.fst)) =
      Spec.instanceInUnit c (if s.cache then s else Smoothed.cacheQNorms s (data.map Prod.fst)) := by
    rw [hcache]
    show (if s.cache then _ else _) = _
    split_ifs <;> rfl
  rw [hraw]
  cases data.mapM (fun d => Smoothed.pQRaw b beta mmin deltaM d.1 d.2) with
  | error e => rfl
  | ok pq =>
    dsimp only
    rw [hs1]
    generalize (if s.cache then s else Smoothed.cacheQNorms s (data.map Prod.fst)) = s1
    rw [divideByNorm_scale hc]
    cases Smoothed.divideByNorm b s1 pq beta mmin deltaM with
    | ok r => rfl
    | error e =>
      dsimp only
      rw [hcache, divideByNorm_scale hc]
      split_ifs <;> rfl

/-- A call in the new unit, for every state of the instance, every dataset and all hyper-parameters for which the
primary-mass model does not depend on the unit. -/
theorem smoothedCall_scale {c : ℝ} (hc : 0 < c) {b : Backend} {s : Smoothed} {kwargs : Dict Fl}
    (h : (¬ ∃ k ∈ Dict.keys (Dict.erase kwargs "beta"), k ∈ Dict.keys s.fixed) →
      UnitFree s.primary c b (Dict.erase (Dict.erase kwargs "beta" ++ s.fixed) "delta_m"))
    (data : List (Fl × Fl)) :
    Smoothed.call b (Spec.instanceInUnit c s) (Spec.dataInUnit c data) (Spec.inUnit c kwargs) =
      ((Smoothed.call b s data kwargs).1.map (List.map (fin c⁻¹ * ·)),
        Spec.instanceInUnit c (Smoothed.call b s data kwargs).2) := by
  unfold Smoothed.call
  rw [get?_inUnit]
  cases Dict.get? kwargs "beta" with
  | none => rfl
  | some beta =>
    have hb : "beta" ∉ Spec.massNames := by simp [Spec.massNames]
    simp only [Option.map_some, if_neg hb]
    rw [erase_inUnit]
    generalize hkw : Dict.erase kwargs "beta" = kw at h ⊢
    have hm : Smoothed.kwGet (Spec.inUnit c kw) "mmin" (fin (Spec.instanceInUnit c s).mmin) =
        fin c * Smoothed.kwGet kw "mmin" (fin s.mmin) := by
      show Smoothed.kwGet _ _ (fin (c * s.mmin)) = _
      rw [fin_scale, kwGet_inUnit (by simp [Spec.massNames])]
    have hM : Smoothed.kwGet (Spec.inUnit c kw) "mmax" (fin (Spec.instanceInUnit c s).mmax) =
        fin c * Smoothed.kwGet kw "mmax" (fin s.mmax) := by
      show Smoothed.kwGet _ _ (fin (c * s.mmax)) = _
      rw [fin_scale, kwGet_inUnit (by simp [Spec.massNames])]
    have hd : Smoothed.kwGet (Spec.inUnit c kw) "delta_m" 0 = fin c * Smoothed.kwGet kw "delta_m" 0 := by
      rw [← kwGet_inUnit (by simp [Spec.massNames]), zero_eq, fin_mul, mul_zero]
    have h1 : fin (Spec.instanceInUnit c s).mmin = fin c * fin s.mmin := fin_scale c s.mmin
    have h2 : fin (Spec.instanceInUnit c s).mmax = fin c * fin s.mmax := fin_scale c s.mmax
    have h3 : (Spec.instanceInUnit c s).fixed = Spec.inUnit c s.fixed := rfl
    have hfst : (Spec.dataInUnit c data).map Prod.fst = (data.map Prod.fst).map (fin c * ·) := by
      unfold Spec.dataInUnit
      rw [List.map_map, List.map_map]
      rfl
    rw [hm, hM, hd, h1, h2, h3, scale_lt hc, scale_lt hc, keys_inUnit, keys_inUnit, append_inUnit, hfst,
      pQ_scale hc]
    split_ifs with h4 h5 h6
    · rfl
    · rfl
    · rfl
    · rw [pM1_scale hc (h h6)]
      cases Smoothed.pM1 b s (data.map Prod.fst) (kw ++ s.fixed) with
      | error e => rfl
      | ok pm =>
        generalize Smoothed.pQ b s data beta (Smoothed.kwGet kw "mmin" (fin s.mmin))
          (Smoothed.kwGet kw "delta_m" 0) = r
        rcases r with ⟨_ | pq, s'⟩
        · rfl
        · show (Smoothed.broadcast b (· * ·) (pm.map (fin c⁻¹ * ·)) pq, _) = _
          congr 1
          show _ = (Smoothed.broadcast b (· * ·) pm pq).map _
          unfold Smoothed.broadcast
          rw [List.length_map]
          by_cases hl : pm.length = pq.length
          · rw [if_pos hl, if_pos hl]
            show Except.ok _ = Except.ok _
            rw [List.zipWith_map_left, List.map_zipWith]
            simp only [mul_assoc]
          · rw [if_neg hl, if_neg hl]
            rcases pm with _ | ⟨x, _ | ⟨x', pm⟩⟩ <;> rcases pq with _ | ⟨y, _ | ⟨y', pq⟩⟩ <;>
              simp [Except.map, mul_assoc, Function.comp_def]

/-! ### The models of the package -/

/-- All hyper-parameters are finite numbers, and the lower end of the mass spectrum, if given, is below `top`. -/
def Spec.Ordinary (top : ℝ) (kwargs : Dict Fl) : Prop :=
  (∀ k v, Dict.get? kwargs k = some v → ∃ r, v = fin r) ∧
    ∀ r, Dict.get? kwargs "mmin" = some (fin r) → r < top

theorem contains_inUnit (c : ℝ) (d : Dict Fl) (k : String) :
    Dict.contains (Spec.inUnit c d) k ↔ Dict.contains d k := by
  show k ∈ Dict.keys _ ↔ k ∈ Dict.keys _
  rw [keys_inUnit]

theorem bindArgs_inUnit (c : ℝ) {names : List String} {defaults kw : Dict Fl}
    (hfin : ∀ k v, Dict.get? kw k = some v → ∃ r, v = fin r)
    (hdef : ∀ n ∈ names, Dict.contains defaults n → Dict.contains kw n) :
    (bindArgs names defaults kw = .error .typeError ∧
        bindArgs names defaults (Spec.inUnit c kw) = .error .typeError) ∨
      ∃ (v : String → ℝ) (g g' : String → Fl), bindArgs names defaults kw = .ok g ∧
        bindArgs names defaults (Spec.inUnit c kw) = .ok g' ∧
        ∀ n ∈ names, Dict.get? kw n = some (fin (v n)) ∧ g n = fin (v n) ∧
          g' n = if n ∈ Spec.massNames then fin (c * v n) else fin (v n) := by
  unfold bindArgs
  simp only [keys_inUnit, contains_inUnit]
  split_ifs with h
  · exact Or.inl ⟨rfl, rfl⟩
  · right
    have hex : ∀ n ∈ names, ∃ r, Dict.get? kw n = some (fin r) := by
      intro n hn
      have hcon : Dict.contains kw n := by
        by_contra hno
        exact h (Or.inr ⟨n, hn, hno, fun hd => hno (hdef n hn hd)⟩)
      obtain ⟨v, hv⟩ := Option.isSome_iff_exists.1 ((Dict.get?_isSome_iff kw n).2 hcon)
      obtain ⟨r, hr⟩ := hfin n v hv
      exact ⟨r, by rw [hv, hr]⟩
    choose! v hv using hex
    refine ⟨v, _, _, rfl, rfl, fun n hn => ⟨hv n hn, ?_, ?_⟩⟩
    · simp [hv n hn]
    · rw [get?_inUnit, hv n hn]
      simp only [Option.map_some, Option.getD_some, fin_scale]

theorem unitFree_twoComponent {c : ℝ} (hc : 0 < c) (b : Backend) (py : Bool) {top : ℝ} {kw : Dict Fl}
    (hfin : ∀ k v, Dict.get? kw k = some v → ∃ r, v = fin r)
    (htop : Dict.get? kw "gaussian_mass_maximum" = some (fin top))
    (hmin : ∀ r, Dict.get? kw "mmin" = some (fin r) → r < top) :
    UnitFree (primTwoComponent py) c b kw := by
  intro m
  unfold primTwoComponent
  rcases bindArgs_inUnit c (names := ["alpha", "mmin", "mmax", "lam", "mpp", "sigpp", "gaussian_mass_maximum"])
    (defaults := [("gaussian_mass_maximum", fin 100)]) hfin (by
      intro n _ hn
      simp only [Dict.contains, List.map_cons, List.map_nil, List.mem_singleton] at hn
      rw [hn, ← Dict.get?_isSome_iff, htop]; rfl) with ⟨h1, h2⟩ | ⟨v, g, g', h1, h2, h3⟩
  · rw [h1, h2]; rfl
  · rw [h1, h2]
    have ht : v "gaussian_mass_maximum" = top := by
      have := (h3 "gaussian_mass_maximum" (by simp)).1
      rw [htop] at this
      exact (Fl.fin.inj (Option.some.inj this)).symm
    have hlt : v "mmin" < v "gaussian_mass_maximum" := by
      rw [ht]; exact hmin _ (h3 "mmin" (by simp)).1
    have e (n) (hn) := (h3 n hn).2
    simp only [List.mem_cons, forall_eq_or_imp, Spec.massNames, List.not_mem_nil, false_imp_iff, forall_const] at e
    simp only [String.reduceEq, or_false, or_true, false_or, if_true, if_false] at e
    obtain ⟨⟨a1, a2⟩, ⟨b1, b2⟩, ⟨c1, c2⟩, ⟨d1, d2⟩, ⟨e1, e2⟩, ⟨f1, f2⟩, ⟨g1, g2⟩, -⟩ := e
    show twoComponentSingle b py (fin c * m) (g' _) (g' _) (g' _) (g' _) (g' _) (g' _) (g' _) =
      Except.map _ (twoComponentSingle b py m (g _) (g _) (g _) (g _) (g _) (g _) (g _))
    rw [a1, a2, b1, b2, c1, c2, d1, d2, e1, e2, f1, f2, g1, g2, fin_scale c (v "mmax"),
      C101_twoComponent hc b py m _ _ hlt, perUnit_eq hc]

theorem unitFree_threeComponent {c : ℝ} (hc : 0 < c) (b : Backend) (py : Bool) {top : ℝ} {kw : Dict Fl}
    (hfin : ∀ k v, Dict.get? kw k = some v → ∃ r, v = fin r)
    (htop : Dict.get? kw "gaussian_mass_maximum" = some (fin top))
    (hmin : ∀ r, Dict.get? kw "mmin" = some (fin r) → r < top) :
    UnitFree (primThreeComponent py) c b kw := by
  intro m
  unfold primThreeComponent
  rcases bindArgs_inUnit c (names := ["alpha", "mmin", "mmax", "lam", "lam_1", "mpp_1", "sigpp_1", "mpp_2", "sigpp_2", "gaussian_mass_maximum"])
    (defaults := [("gaussian_mass_maximum", fin 100)]) hfin (by
      intro n _ hn
      simp only [Dict.contains, List.map_cons, List.map_nil, List.mem_singleton] at hn
      rw [hn, ← Dict.get?_isSome_iff, htop]; rfl) with ⟨h1, h2⟩ | ⟨v, g, g', h1, h2, h3⟩
  · rw [h1, h2]; rfl
  · rw [h1, h2]
    have ht : v "gaussian_mass_maximum" = top := by
      have := (h3 "gaussian_mass_maximum" (by simp)).1
      rw [htop] at this
      exact (Fl.fin.inj (Option.some.inj this)).symm
    have hlt : v "mmin" < v "gaussian_mass_maximum" := by
      rw [ht]; exact hmin _ (h3 "mmin" (by simp)).1
    have e (n) (hn) := (h3 n hn).2
    simp only [List.mem_cons, forall_eq_or_imp, Spec.massNames, List.not_mem_nil, false_imp_iff, forall_const] at e
    simp only [String.reduceEq, or_false, or_true, false_or, if_true, if_false] at e
    obtain ⟨⟨a1, a2⟩, ⟨b1, b2⟩, ⟨c1, c2⟩, ⟨d1, d2⟩, ⟨e1, e2⟩, ⟨f1, f2⟩, ⟨g1, g2⟩, ⟨h1, h2⟩, ⟨i1, i2⟩, ⟨j1, j2⟩, -⟩ := e
    show threeComponentSingle b py (fin c * m) (g' _) (g' _) (g' _) (g' _) (g' _) (g' _) (g' _) (g' _) (g' _) (g' _) =
      Except.map _ (threeComponentSingle b py m (g _) (g _) (g _) (g _) (g _) (g _) (g _) (g _) (g _) (g _))
    rw [a1, a2, b1, b2, c1, c2, d1, d2, e1, e2, f1, f2, g1, g2, h1, h2, i1, i2, j1, j2, fin_scale c (v "mmax"),
      C101_threeComponent hc b py m _ _ _ hlt, perUnit_eq hc]

theorem unitFree_doublePowerLaw {c : ℝ} (hc : 0 < c) (b : Backend) (py : Bool) {kw : Dict Fl}
    (hfin : ∀ k v, Dict.get? kw k = some v → ∃ r, v = fin r) :
    UnitFree (primDoublePowerLaw py) c b kw := by
  intro m
  unfold primDoublePowerLaw
  rcases bindArgs_inUnit c (names := ["alpha_1", "alpha_2", "mmin", "mmax", "break_fraction"])
    (defaults := []) hfin (by
      intro n _ hn
      simp [Dict.contains] at hn) with ⟨h1, h2⟩ | ⟨v, g, g', h1, h2, h3⟩
  · rw [h1, h2]; rfl
  · rw [h1, h2]
    have e (n) (hn) := (h3 n hn).2
    simp only [List.mem_cons, forall_eq_or_imp, Spec.massNames, List.not_mem_nil, false_imp_iff, forall_const] at e
    simp only [String.reduceEq, or_false, or_true, false_or, if_true, if_false] at e
    obtain ⟨⟨a1, a2⟩, ⟨b1, b2⟩, ⟨c1, c2⟩, ⟨d1, d2⟩, ⟨e1, e2⟩, -⟩ := e
    show doublePowerLawPrimaryMass b py (fin c * m) (g' _) (g' _) (g' _) (g' _) (g' _) =
      Except.map _ (doublePowerLawPrimaryMass b py m (g _) (g _) (g _) (g _) (g _))
    rw [a1, a2, b1, b2, c1, c2, d1, d2, e1, e2, fin_scale c (v "mmax"), fin_scale c (v "mmin"),
      C101_doublePowerLaw hc b py m, perUnit_eq hc]

theorem unitFree_doublePowerLawPeak {c : ℝ} (hc : 0 < c) (b : Backend) (py : Bool) {top : ℝ} {kw : Dict Fl}
    (hfin : ∀ k v, Dict.get? kw k = some v → ∃ r, v = fin r)
    (htop : Dict.get? kw "gaussian_mass_maximum" = some (fin top))
    (hmin : ∀ r, Dict.get? kw "mmin" = some (fin r) → r < top) :
    UnitFree (primDoublePowerLawPeak py) c b kw := by
  intro m
  unfold primDoublePowerLawPeak
  rcases bindArgs_inUnit c (names := ["alpha_1", "alpha_2", "mmin", "mmax", "break_fraction", "lam", "mpp", "sigpp", "gaussian_mass_maximum"])
    (defaults := [("gaussian_mass_maximum", fin 100)]) hfin (by
      intro n _ hn
      simp only [Dict.contains, List.map_cons, List.map_nil, List.mem_singleton] at hn
      rw [hn, ← Dict.get?_isSome_iff, htop]; rfl) with ⟨h1, h2⟩ | ⟨v, g, g', h1, h2, h3⟩
  · rw [h1, h2]; rfl
  · rw [h1, h2]
    have ht : v "gaussian_mass_maximum" = top := by
      have := (h3 "gaussian_mass_maximum" (by simp)).1
      rw [htop] at this
      exact (Fl.fin.inj (Option.some.inj this)).symm
    have hlt : v "mmin" < v "gaussian_mass_maximum" := by
      rw [ht]; exact hmin _ (h3 "mmin" (by simp)).1
    have e (n) (hn) := (h3 n hn).2
    simp only [List.mem_cons, forall_eq_or_imp, Spec.massNames, List.not_mem_nil, false_imp_iff, forall_const] at e
    simp only [String.reduceEq, or_false, or_true, false_or, if_true, if_false] at e
    obtain ⟨⟨a1, a2⟩, ⟨b1, b2⟩, ⟨c1, c2⟩, ⟨d1, d2⟩, ⟨e1, e2⟩, ⟨f1, f2⟩, ⟨g1, g2⟩, ⟨h1, h2⟩, ⟨i1, i2⟩, -⟩ := e
    show doublePowerLawPeakPrimaryMass b py (fin c * m) (g' _) (g' _) (g' _) (g' _) (g' _) (g' _) (g' _) (g' _) (g' _) =
      Except.map _ (doublePowerLawPeakPrimaryMass b py m (g _) (g _) (g _) (g _) (g _) (g _) (g _) (g _) (g _))
    rw [a1, a2, b1, b2, c1, c2, d1, d2, e1, e2, f1, f2, g1, g2, h1, h2, i1, i2, fin_scale c (v "mmax"),
      C101_doublePowerLawPeak hc b py m _ _ _ hlt, perUnit_eq hc]

/-- The constructors of the smoothed mass distributions, as functions of `mmin`, `mmax` and the sizes of the grids. -/
def Spec.smoothedClasses (py : Bool) : List (ℝ → ℝ → ℕ → ℕ → Bool → Except PyErr Smoothed) :=
  [singlePeak py, multiPeak py, brokenPowerLaw py, brokenPowerLawPeak py]

/-- A history of calls in the new unit. -/
def Spec.historyInUnit (c : ℝ) (history : List (List (Fl × Fl) × Dict Fl)) : List (List (Fl × Fl) × Dict Fl) :=
  history.map fun h => (Spec.dataInUnit c h.1, Spec.inUnit c h.2)

theorem linspaceR_scale (c a b : ℝ) (n : ℕ) :
    Arr.linspaceR (c * a) (c * b) n = (Arr.linspaceR a b n).map (c * ·) := by
  unfold Arr.linspaceR
  rw [List.map_map]
  congr 1
  funext i
  simp only [Function.comp]
  ring

theorem init_scale (c : ℝ) (P : Primary) (fixed : Dict Fl) (mmin mmax : ℝ) (nM nQ : ℕ) (cache : Bool) :
    Smoothed.init P (Spec.inUnit c fixed) (c * mmin) (c * mmax) nM nQ cache =
      (Smoothed.init P fixed mmin mmax nM nQ cache).map (Spec.instanceInUnit c) := by
  unfold Smoothed.init
  split_ifs
  · rfl
  · rw [linspaceR_scale]
    rfl

/-- What the methods never change. -/
def SameKind (py : Bool) (mmax : ℝ) (s : Smoothed) : Prop :=
  (s.primary = primTwoComponent py ∧ s.fixed = [("gaussian_mass_maximum", fin mmax)]) ∨
  (s.primary = primThreeComponent py ∧ s.fixed = [("gaussian_mass_maximum", fin mmax)]) ∨
  (s.primary = primDoublePowerLaw py ∧ s.fixed = []) ∨
  (s.primary = primDoublePowerLawPeak py ∧ s.fixed = [("gaussian_mass_maximum", fin mmax)])

theorem get?_append_of_not {d e : Dict Fl} {k : String} (h : k ∉ Dict.keys d) :
    Dict.get? (d ++ e) k = Dict.get? e k := by
  induction d with
  | nil => rfl
  | cons p d ih =>
    obtain ⟨a, v⟩ := p
    simp only [Dict.keys, List.map_cons, List.mem_cons, not_or] at h
    rw [List.cons_append, Dict.get?_cons, if_neg h.1, ih h.2]

theorem get?_append_some {d e : Dict Fl} {k : String} {v : Fl} (h : Dict.get? (d ++ e) k = some v) :
    Dict.get? d k = some v ∨ Dict.get? e k = some v := by
  induction d with
  | nil => exact Or.inr h
  | cons p d ih =>
    obtain ⟨a, w⟩ := p
    rw [List.cons_append, Dict.get?_cons] at h
    rw [Dict.get?_cons]
    split_ifs at h ⊢ with hk
    · exact Or.inl h
    · exact ih h

theorem get?_erase_some {d : Dict Fl} {k k' : String} {v : Fl} (h : Dict.get? (Dict.erase d k') k = some v) :
    Dict.get? d k = some v := by
  induction d with
  | nil => exact h
  | cons p d ih =>
    obtain ⟨a, w⟩ := p
    unfold Dict.erase at h
    rw [List.filter_cons] at h
    rw [Dict.get?_cons]
    split_ifs at h with hk
    · rw [Dict.get?_cons] at h
      split_ifs at h ⊢
      · exact h
      · exact ih h
    · simp only [ne_eq, decide_not, Bool.not_eq_eq_eq_not, Bool.not_true, decide_eq_false_iff_not, not_not] at hk
      have := ih h
      split_ifs with hka
      · subst hka
        exfalso
        have hne : Dict.get? (Dict.erase d k') k = none := by
          rw [Dict.get?_eq_none_iff]
          simp [Dict.contains, Dict.erase, hk]
        rw [show Dict.get? (Dict.erase d k') k = some v from h] at hne
        cases hne
      · exact this

theorem get?_erase_ne {d : Dict Fl} {k k' : String} (hk : k ≠ k') :
    Dict.get? (Dict.erase d k') k = Dict.get? d k := by
  induction d with
  | nil => rfl
  | cons p d ih =>
    obtain ⟨a, w⟩ := p
    unfold Dict.erase
    rw [List.filter_cons, Dict.get?_cons]
    split_ifs with h1 h2 h2
    · rw [Dict.get?_cons, if_pos h2]
    · rw [Dict.get?_cons, if_neg h2]; exact ih
    · subst h2
      simp at h1
      exact absurd h1 hk
    · exact ih

theorem unitFree_of_kind {c : ℝ} (hc : 0 < c) (b : Backend) {py : Bool} {mmax : ℝ} {s : Smoothed}
    (hs : SameKind py mmax s) {kwargs : Dict Fl} (hk : Spec.Ordinary mmax kwargs)
    (hno : ¬ ∃ k ∈ Dict.keys (Dict.erase kwargs "beta"), k ∈ Dict.keys s.fixed) :
    UnitFree s.primary c b (Dict.erase (Dict.erase kwargs "beta" ++ s.fixed) "delta_m") := by
  have peak (hf : s.fixed = [("gaussian_mass_maximum", fin mmax)]) :
      (∀ k v, Dict.get? (Dict.erase (Dict.erase kwargs "beta" ++ s.fixed) "delta_m") k = some v → ∃ r, v = fin r) ∧
      Dict.get? (Dict.erase (Dict.erase kwargs "beta" ++ s.fixed) "delta_m") "gaussian_mass_maximum" =
        some (fin mmax) ∧
      ∀ r, Dict.get? (Dict.erase (Dict.erase kwargs "beta" ++ s.fixed) "delta_m") "mmin" = some (fin r) →
        r < mmax := by
    rw [hf] at hno ⊢
    refine ⟨fun k v h => ?_, ?_, fun r h => ?_⟩
    · rcases get?_append_some (get?_erase_some h) with h | h
      · exact hk.1 k v (get?_erase_some h)
      · rw [Dict.get?_cons] at h
        split_ifs at h
        · exact ⟨mmax, (Option.some.inj h).symm⟩
        · cases h
    · rw [get?_erase_ne (by decide), get?_append_of_not]
      · rfl
      · intro hm
        exact hno ⟨_, hm, by simp [Dict.keys]⟩
    · rcases get?_append_some (get?_erase_some h) with h | h
      · exact hk.2 r (get?_erase_some h)
      · simp [Dict.get?_cons] at h
  rcases hs with ⟨hp, hf⟩ | ⟨hp, hf⟩ | ⟨hp, hf⟩ | ⟨hp, hf⟩
  · obtain ⟨h1, h2, h3⟩ := peak hf
    rw [hp]; exact unitFree_twoComponent hc b py h1 h2 h3
  · obtain ⟨h1, h2, h3⟩ := peak hf
    rw [hp]; exact unitFree_threeComponent hc b py h1 h2 h3
  · rw [hp, hf, List.append_nil]
    exact unitFree_doublePowerLaw hc b py fun k v h => hk.1 k v (get?_erase_some (get?_erase_some h))
  · obtain ⟨h1, h2, h3⟩ := peak hf
    rw [hp]; exact unitFree_doublePowerLawPeak hc b py h1 h2 h3

theorem pQ_same (b : Backend) (s : Smoothed) (data : List (Fl × Fl)) (beta mmin deltaM : Fl) :
    (Smoothed.pQ b s data beta mmin deltaM).2.primary = s.primary ∧
      (Smoothed.pQ b s data beta mmin deltaM).2.fixed = s.fixed := by
  unfold Smoothed.pQ
  cases data.mapM (fun d => Smoothed.pQRaw b beta mmin deltaM d.1 d.2) with
  | error e => exact ⟨rfl, rfl⟩
  | ok pq =>
    have h1 : (if s.cache then s else Smoothed.cacheQNorms s (data.map Prod.fst)).primary = s.primary ∧
        (if s.cache then s else Smoothed.cacheQNorms s (data.map Prod.fst)).fixed = s.fixed := by
      split_ifs <;> exact ⟨rfl, rfl⟩
    dsimp only
    generalize (if s.cache then s else Smoothed.cacheQNorms s (data.map Prod.fst)) = s1 at h1
    cases Smoothed.divideByNorm b s1 pq beta mmin deltaM with
    | ok r => exact h1
    | error e =>
      dsimp only
      split_ifs <;> exact h1

theorem call_same (b : Backend) (s : Smoothed) (data : List (Fl × Fl)) (kwargs : Dict Fl) :
    (Smoothed.call b s data kwargs).2.primary = s.primary ∧ (Smoothed.call b s data kwargs).2.fixed = s.fixed := by
  unfold Smoothed.call
  cases Dict.get? kwargs "beta" with
  | none => exact ⟨rfl, rfl⟩
  | some beta =>
    dsimp only
    split_ifs
    · exact ⟨rfl, rfl⟩
    · exact ⟨rfl, rfl⟩
    · exact ⟨rfl, rfl⟩
    · cases Smoothed.pM1 b s (data.map Prod.fst) (Dict.erase kwargs "beta" ++ s.fixed) with
      | error e => exact ⟨rfl, rfl⟩
      | ok pm =>
        have h := pQ_same b s data beta (Smoothed.kwGet (Dict.erase kwargs "beta") "mmin" (fin s.mmin))
          (Smoothed.kwGet (Dict.erase kwargs "beta") "delta_m" 0)
        generalize Smoothed.pQ b s data beta (Smoothed.kwGet (Dict.erase kwargs "beta") "mmin" (fin s.mmin))
          (Smoothed.kwGet (Dict.erase kwargs "beta") "delta_m" 0) = r at h
        rcases r with ⟨_ | pq, s'⟩ <;> exact h

theorem runCalls_scale {c : ℝ} (hc : 0 < c) (b : Backend) {py : Bool} {mmax : ℝ}
    (history : List (List (Fl × Fl) × Dict Fl)) {s : Smoothed} (hs : SameKind py mmax s)
    (hh : ∀ h ∈ history, Spec.Ordinary mmax h.2) :
    Smoothed.runCalls b (Spec.instanceInUnit c s) (Spec.historyInUnit c history) =
        Spec.instanceInUnit c (Smoothed.runCalls b s history) ∧
      SameKind py mmax (Smoothed.runCalls b s history) := by
  induction history generalizing s with
  | nil => exact ⟨rfl, hs⟩
  | cons h rest ih =>
    obtain ⟨data, kwargs⟩ := h
    have hcall := smoothedCall_scale hc (b := b) (kwargs := kwargs)
      (unitFree_of_kind hc b hs (hh (data, kwargs) List.mem_cons_self)) data
    have hs' : SameKind py mmax (Smoothed.call b s data kwargs).2 := by
      obtain ⟨h1, h2⟩ := call_same b s data kwargs
      unfold SameKind
      rw [h1, h2]
      exact hs
    have := ih hs' fun x hx => hh x (List.mem_cons_of_mem _ hx)
    show Smoothed.runCalls b (Smoothed.call b (Spec.instanceInUnit c s) (Spec.dataInUnit c data)
      (Spec.inUnit c kwargs)).2 (Spec.historyInUnit c rest) = _ ∧ _
    rw [hcall]
    exact this

/-- **C101.** The smoothed mass distributions: an instance constructed with bounds in the new unit, after any history of
calls, returns for every dataset the densities of the instance in the old unit divided by `c`, or raises the same
exception. The hyper-parameters are finite and `mmin` is below the upper end of the grid. -/
theorem C101_smoothed {c : ℝ} (hc : 0 < c) (b : Backend) (py : Bool)
    {make : ℝ → ℝ → ℕ → ℕ → Bool → Except PyErr Smoothed} (hmake : make ∈ Spec.smoothedClasses py)
    {mmin mmax : ℝ} {nM nQ : ℕ} {cache : Bool} {s : Smoothed} (hs : make mmin mmax nM nQ cache = .ok s) :
    ∃ s', make (c * mmin) (c * mmax) nM nQ cache = .ok s' ∧
      ∀ history : List (List (Fl × Fl) × Dict Fl), (∀ h ∈ history, Spec.Ordinary mmax h.2) →
      ∀ data kwargs, Spec.Ordinary mmax kwargs →
        (Smoothed.call b (Smoothed.runCalls b s' (Spec.historyInUnit c history)) (Spec.dataInUnit c data)
            (Spec.inUnit c kwargs)).1 =
          (Smoothed.call b (Smoothed.runCalls b s history) data kwargs).1.map (List.map (· / fin c)) := by
  have key : make (c * mmin) (c * mmax) nM nQ cache = .ok (Spec.instanceInUnit c s) ∧ SameKind py mmax s := by
    have hk (P : Primary) (fixed : Dict Fl) (h : Smoothed.init P fixed mmin mmax nM nQ cache = .ok s) :
        Smoothed.init P (Spec.inUnit c fixed) (c * mmin) (c * mmax) nM nQ cache = .ok (Spec.instanceInUnit c s) ∧
          s.primary = P ∧ s.fixed = fixed := by
      rw [init_scale, h]
      refine ⟨rfl, ?_⟩
      unfold Smoothed.init at h
      split_ifs at h
      rw [← Except.ok.inj h]
      exact ⟨rfl, rfl⟩
    have hg : Spec.inUnit c [("gaussian_mass_maximum", fin mmax)] = [("gaussian_mass_maximum", fin (c * mmax))] := by
      simp [Spec.inUnit, Spec.massNames]
    simp only [Spec.smoothedClasses, List.mem_cons, List.not_mem_nil, or_false] at hmake
    rcases hmake with rfl | rfl | rfl | rfl
    · obtain ⟨h1, h2, h3⟩ := hk _ _ hs
      rw [hg] at h1
      exact ⟨h1, Or.inl ⟨h2, h3⟩⟩
    · obtain ⟨h1, h2, h3⟩ := hk _ _ hs
      rw [hg] at h1
      exact ⟨h1, Or.inr (Or.inl ⟨h2, h3⟩)⟩
    · obtain ⟨h1, h2, h3⟩ := hk _ _ hs
      exact ⟨h1, Or.inr (Or.inr (Or.inl ⟨h2, h3⟩))⟩
    · obtain ⟨h1, h2, h3⟩ := hk _ _ hs
      rw [hg] at h1
      exact ⟨h1, Or.inr (Or.inr (Or.inr ⟨h2, h3⟩))⟩
  refine ⟨_, key.1, fun history hh data kwargs hkw => ?_⟩
  obtain ⟨h1, h2⟩ := runCalls_scale hc b history key.2 hh
  rw [h1, smoothedCall_scale hc (unitFree_of_kind hc b h2 hkw)]
  have hd : (fun x : Fl => x / fin c) = (fin c⁻¹ * ·) := funext fun x => div_fin_eq hc x
  rw [hd]

/-- The hypotheses are met by a usual analysis: masses in units of 1.989e30 kg expressed in units of 1e30 kg. -/
example : ∃ s, singlePeak false 2 100 1000 500 true = .ok s ∧ (0 : ℝ) < 1.989 ∧
    singlePeak false ∈ Spec.smoothedClasses false ∧
    Spec.Ordinary 100 [("alpha", fin 3.4), ("beta", fin 1), ("mmin", fin 5), ("mmax", fin 87), ("lam", fin 0.04),
      ("mpp", fin 34), ("sigpp", fin 3.6), ("delta_m", fin 4.8)] := by
  refine ⟨_, rfl, by norm_num, by simp [Spec.smoothedClasses], ?_, ?_⟩
  · intro k v h
    simp only [Dict.get?_cons, Dict.get?_nil] at h
    split_ifs at h <;> first | exact ⟨_, (Option.some.inj h).symm⟩ | cases h
  · intro r h
    simp [Dict.get?_cons] at h
    linarith

end GW
