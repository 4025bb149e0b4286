import Verif.Props.MassSingle
import Verif.Props.Truncnorm
import Verif.Props.Smoothed
import Verif.Props.Experimental

/-!
# Models that contain simpler ones reduce to them (C111)
-/

noncomputable section

open Classical

namespace GW

open Fl Spec

namespace Nested

/-! ### Mixtures with a weight of zero or one -/

theorem truncnorm_returns (b : Backend) (x mu sigma high low : Fl) (hs : b = .jax ∨ 0 < sigma) :
    ∃ r : ℝ, 0 ≤ r ∧ truncnorm b (pos x) (kw mu) (kw sigma) (kw high) (kw low) = .ok (fin r) := by
  obtain ⟨r, h0, h1, -⟩ := C04_truncnorm_total b x mu sigma high low
  refine ⟨r, h0, ?_⟩
  rw [truncnorm_eq] at h1 ⊢
  rw [if_neg (by simp)] at h1
  rw [if_neg (by
    rintro ⟨hb, -, hs'⟩
    exact hs.elim hb fun h => hs' h)]
  exact h1

theorem one_sub_zero : (1 : Fl) - fin 0 = 1 := by simp

/-- **C111**: without the peak, `two_component_single` is `power_law_mass`; for all values of the other
arguments, finite or not, and with the same exceptions. -/
theorem C111_noPeak (b : Backend) (py : Bool) (m alpha mmin mmax mpp sigpp gmm : Fl)
    (hs : b = .jax ∨ 0 < sigpp) :
    twoComponentSingle b py m alpha mmin mmax (fin 0) mpp sigpp gmm = powerLawMass b py m alpha mmin mmax := by
  obtain ⟨r, -, hr⟩ := truncnorm_returns b m mpp sigpp gmm mmin hs
  unfold twoComponentSingle powerLawMass
  cases powerlaw b py (pos m) (kw (-alpha)) (kw mmax) (kw mmin) with
  | error e => rfl
  | ok p =>
    rw [ok_bind, hr, ok_bind, one_sub_zero, Fl.one_mul, fin_mul, zero_mul]
    exact congrArg Except.ok (Fl.add_zero' p)

/-- **C111**: with the peak alone, `two_component_single` is `truncnorm`. -/
theorem C111_onlyPeak (b : Backend) (py : Bool) {m a mmin mmax : ℝ} (mpp sigpp gmm : Fl)
    (ha : b = .jax ∨ a ≠ -1) (h0 : 0 < mmin) (h : mmin < mmax) (hm : 0 < m) :
    twoComponentSingle b py (fin m) (fin a) (fin mmin) (fin mmax) (fin 1) mpp sigpp gmm =
      truncnorm b (pos (fin m)) (kw mpp) (kw sigpp) (kw gmm) (kw (fin mmin)) := by
  have e1 := C18_powerLawMass_value b py ha h0 h hm
  unfold powerLawMass at e1
  unfold twoComponentSingle
  rw [e1, ok_bind]
  cases truncnorm b (pos (fin m)) (kw mpp) (kw sigpp) (kw gmm) (kw (fin mmin)) with
  | error e => rfl
  | ok p =>
    show Except.ok _ = _
    rw [one_eq, fin_sub, fin_mul, sub_self, zero_mul]
    exact congrArg Except.ok ((Fl.zero_add _).trans (Fl.one_mul p))

/-- **C111**: if the second peak has no weight, `three_component_single` is `two_component_single` with the
first peak. -/
theorem C111_firstPeak (b : Backend) (py : Bool) (m alpha mmin mmax mpp1 sigpp1 mpp2 sigpp2 gmm : Fl) (lam : ℝ)
    (hs : b = .jax ∨ 0 < sigpp2) :
    threeComponentSingle b py m alpha mmin mmax (fin lam) (fin 1) mpp1 sigpp1 mpp2 sigpp2 gmm =
      twoComponentSingle b py m alpha mmin mmax (fin lam) mpp1 sigpp1 gmm := by
  obtain ⟨r, -, hr⟩ := truncnorm_returns b m mpp2 sigpp2 gmm mmin hs
  unfold threeComponentSingle twoComponentSingle
  cases powerlaw b py (pos m) (kw (-alpha)) (kw mmax) (kw mmin) with
  | error e => rfl
  | ok p =>
    rw [ok_bind, ok_bind, hr]
    cases truncnorm b (pos m) (kw mpp1) (kw sigpp1) (kw gmm) (kw mmin) with
    | error e => rfl
    | ok q =>
      rw [ok_bind, ok_bind, ok_bind]
      simp only [one_eq, fin_sub, fin_mul, mul_one, sub_self, mul_zero, zero_mul]
      exact congrArg Except.ok (Fl.add_zero' _)

/-- **C111**: if the first peak has no weight, `three_component_single` is `two_component_single` with the
second peak. -/
theorem C111_secondPeak (b : Backend) (py : Bool) (m alpha mmin mmax mpp1 sigpp1 mpp2 sigpp2 gmm : Fl) (lam : ℝ)
    (hs : b = .jax ∨ 0 < sigpp1) :
    threeComponentSingle b py m alpha mmin mmax (fin lam) (fin 0) mpp1 sigpp1 mpp2 sigpp2 gmm =
      twoComponentSingle b py m alpha mmin mmax (fin lam) mpp2 sigpp2 gmm := by
  obtain ⟨r, -, hr⟩ := truncnorm_returns b m mpp1 sigpp1 gmm mmin hs
  unfold threeComponentSingle twoComponentSingle
  cases powerlaw b py (pos m) (kw (-alpha)) (kw mmax) (kw mmin) with
  | error e => rfl
  | ok p =>
    rw [ok_bind, ok_bind, hr, ok_bind]
    cases truncnorm b (pos m) (kw mpp2) (kw sigpp2) (kw gmm) (kw mmin) with
    | error e => rfl
    | ok q =>
      rw [ok_bind, ok_bind]
      simp only [one_eq, fin_sub, fin_mul, mul_one, sub_zero, mul_zero, zero_mul]
      exact congrArg Except.ok (congrArg (· + _) (Fl.add_zero' _))

/-- **C111**: if both peaks are the same, `three_component_single` is `two_component_single` with that peak,
whatever the weights. -/
theorem C111_equalPeaks (b : Backend) (py : Bool) (m alpha mmin mmax mpp sigpp gmm : Fl) (lam lam1 : ℝ)
    (hs : b = .jax ∨ 0 < sigpp) (hp : ∀ p, powerlaw b py (pos m) (kw (-alpha)) (kw mmax) (kw mmin) = .ok p →
      p.isFinite) :
    threeComponentSingle b py m alpha mmin mmax (fin lam) (fin lam1) mpp sigpp mpp sigpp gmm =
      twoComponentSingle b py m alpha mmin mmax (fin lam) mpp sigpp gmm := by
  obtain ⟨r, -, hr⟩ := truncnorm_returns b m mpp sigpp gmm mmin hs
  unfold threeComponentSingle twoComponentSingle
  cases h : powerlaw b py (pos m) (kw (-alpha)) (kw mmax) (kw mmin) with
  | error e => rfl
  | ok p =>
    rw [ok_bind, ok_bind, hr, ok_bind, ok_bind, ok_bind]
    have := hp p h
    cases p with
    | fin p =>
      simp only [one_eq, fin_sub, fin_mul, fin_add]
      refine congrArg Except.ok (congrArg fin ?_)
      ring
    | pinf => simp [isFinite] at this
    | ninf => simp [isFinite] at this
    | nan => simp [isFinite] at this

/-- **C111**: without the peak, `double_power_law_peak_primary_mass` is `double_power_law_primary_mass`. -/
theorem C111_brokenNoPeak (b : Backend) (py : Bool) (m a1 a2 mmin mmax bf mpp sigpp gmm : Fl)
    (hs : b = .jax ∨ 0 < sigpp) :
    doublePowerLawPeakPrimaryMass b py m a1 a2 mmin mmax bf (fin 0) mpp sigpp gmm =
      doublePowerLawPrimaryMass b py m a1 a2 mmin mmax bf := by
  obtain ⟨r, -, hr⟩ := truncnorm_returns b m mpp sigpp gmm mmin hs
  unfold doublePowerLawPeakPrimaryMass
  cases doublePowerLawPrimaryMass b py m a1 a2 mmin mmax bf with
  | error e => rfl
  | ok p =>
    rw [ok_bind, hr, ok_bind, one_sub_zero, Fl.one_mul, fin_mul, zero_mul]
    exact congrArg Except.ok (Fl.add_zero' p)

/-! ### Equal slopes -/

theorem brokenShape_equal (a : ℝ) {mb t : ℝ} (hb : 0 < mb) (ht : 0 < t) :
    brokenShape a a mb t = t ^ (-a) / mb ^ (-a) := by
  unfold brokenShape
  rw [Real.div_rpow ht.le hb.le]
  simp

theorem normalised_scale {f g : ℝ → ℝ} {lo hi c : ℝ} (hc : c ≠ 0) (hlo : lo ≤ hi)
    (h : ∀ t, lo ≤ t → t ≤ hi → f t = g t / c) (x : ℝ) : Spec.normalised f lo hi x = Spec.normalised g lo hi x := by
  unfold Spec.normalised
  by_cases hx : lo ≤ x ∧ x ≤ hi
  · rw [if_pos hx, if_pos hx, h x hx.1 hx.2]
    rw [intervalIntegral.integral_congr (g := fun t => g t / c) (fun t ht => by
      rw [Set.uIcc_of_le hlo] at ht
      exact h t ht.1 ht.2), intervalIntegral.integral_div]
    rw [div_div_div_cancel_right₀ hc]
  · rw [if_neg hx, if_neg hx]

/-- **C111**: with equal slopes, `double_power_law_primary_mass` is `power_law_mass`, wherever the break is. -/
theorem C111_equalSlopes_partial (b : Backend) (py : Bool) {m a mmin mmax bf : ℝ}
    (ha : b = .jax ∨ a ≠ -1) (h0 : 0 < mmin) (h : mmin < mmax) (hbf0 : 0 < bf) (hbf1 : bf < 1) (hm : 0 < m) :
    doublePowerLawPrimaryMass b py (fin m) (fin a) (fin a) (fin mmin) (fin mmax) (fin bf) =
      powerLawMass b py (fin m) (fin a) (fin mmin) (fin mmax) := by
  have hb : 0 < mmin + bf * (mmax - mmin) := by nlinarith
  rw [C17_doublePowerLaw_value b py ha ha h0 h hbf0 hbf1 hm, C18_powerLawMass_value b py ha h0 h hm,
    normalised_scale (Real.rpow_pos_of_pos hb (-a)).ne' h.le fun t ht _ =>
      brokenShape_equal a hb (h0.trans_le ht)]

/-! ### A break at the edge -/

/-- `powerlaw` on an interval without length: infinite at its point, NaN elsewhere. -/
theorem powerlaw_degenerate (b : Backend) (py : Bool) {m a c : ℝ} (ha : b = .jax ∨ a ≠ -1) (hc : 0 < c)
    (hm : 0 < m) :
    ∃ v, powerlaw b py (pos (fin m)) (kw (fin (-a))) (kw (fin c)) (kw (fin c)) = .ok v ∧
      (m = c → v = pinf ∨ v = ninf) ∧ (m ≠ c → v = nan) := by
  rw [powerlaw_eq, if_neg (by
    rintro ⟨hb, h | h⟩
    · exact h.2 (by simp [kw, hc.le])
    · rcases ha with ha | ha
      · exact hb ha
      · have := h.2
        simp only [kw, one_eq, eqf_fin] at this
        exact ha (by linarith))]
  have e1 : pyDiv py (fin c) (fin c) = .ok (fin 1) := by
    simp [pyDiv, fin_div hc.ne', hc.ne']
  have e2 : pyPow py (fin c) (1 + fin (-a)) = .ok (fin (c ^ (1 + -a))) := by
    simp [pyPow, hc.ne', pow_fin_pos hc]
  obtain ⟨n, hn, hn'⟩ : ∃ n, (if eqf (fin (-a)) (-1) then 1 / Fl.log (fin 1)
      else (1 + fin (-a)) / (fin (c ^ (1 + -a)) - fin (c ^ (1 + -a)))) = n ∧ (n = pinf ∨ n = ninf) := by
    refine ⟨_, rfl, ?_⟩
    by_cases h : a = 1
    · rw [if_pos (by simp [h]), log_fin one_pos, Real.log_one, one_eq, fin_div_zero]
      left; simp [signInf]
    · rw [if_neg (by simpa using h), fin_sub, sub_self, one_eq, fin_add, fin_div_zero]
      rcases lt_or_gt_of_ne (show (1 + -a) ≠ 0 by intro h'; exact h (by linarith)) with h' | h'
      · right; simp [signInf, h', h'.not_gt]
      · left; simp [signInf, h']
  refine ⟨Fl.pow (fin m) (fin (-a)) * n * ind (fin m ≤ fin c ∧ fin c ≤ fin m), ?_, ?_, ?_⟩
  · simp only [powerlawBody, pos, kw, e1, e2]
    show Except.ok (Fl.pow (fin m) (fin (-a)) * (if eqf (fin (-a)) (-1) then _ else _) * _) = _
    rw [hn]
  · intro h
    rw [h]
    have hp := Real.rpow_pos_of_pos hc (-a)
    rw [pow_fin_pos hc]
    rcases hn' with rfl | rfl
    · left; simp [signInf, hp, ind]
    · right; simp [signInf, hp, hp.not_gt, ind]
  · intro h
    have hp := Real.rpow_pos_of_pos hm (-a)
    rw [pow_fin_pos hm]
    have : ¬ (fin m ≤ fin c ∧ fin c ≤ fin m) := by
      simp only [fin_le]
      rintro ⟨h1, h2⟩
      exact h (le_antisymm h1 h2)
    have hi : ind (fin m ≤ fin c ∧ fin c ≤ fin m) = 0 := if_neg this
    rw [hi]
    rcases hn' with rfl | rfl
    · simp [signInf, hp]
    · simp [signInf, hp, hp.not_gt]

/-- **C111, what happens**: with the break at the lower or at the upper edge, the broken power law is NaN at
every mass. -/
theorem C111_breakAtEdge_partial (b : Backend) (py : Bool) {m a1 a2 mmin mmax : ℝ}
    (ha1 : b = .jax ∨ a1 ≠ -1) (ha2 : b = .jax ∨ a2 ≠ -1) (h0 : 0 < mmin) (h : mmin < mmax) (hm : 0 < m) :
    doublePowerLawPrimaryMass b py (fin m) (fin a1) (fin a2) (fin mmin) (fin mmax) (fin 0) = .ok nan ∧
    doublePowerLawPrimaryMass b py (fin m) (fin a1) (fin a2) (fin mmin) (fin mmax) (fin 1) = .ok nan := by
  have hM : 0 < mmax := h0.trans h
  have hp : ∀ {x a lo hi : ℝ}, b = .jax ∨ a ≠ -1 → 0 < lo → lo < hi → 0 < x →
      powerlaw b py (pos (fin x)) (kw (fin (-a))) (kw (fin hi)) (kw (fin lo)) =
        .ok (fin (Spec.normalised (fun t => t ^ (-a)) lo hi x)) := fun ha h0 h hx => by
    have := C18_powerLawMass_value b py ha h0 h hx
    unfold powerLawMass at this
    rwa [fin_neg] at this
  constructor
  · unfold doublePowerLawPrimaryMass
    have e : fin mmin + fin 0 * (fin mmax - fin mmin) = fin mmin := by simp
    obtain ⟨c1, hc1, -, -⟩ := powerlaw_degenerate b py ha1 h0 h0
    obtain ⟨v, hv, hv1, hv2⟩ := powerlaw_degenerate b py ha1 h0 hm
    simp only [e, fin_neg, hp ha2 h0 h h0, hc1, hv, hp ha2 h0 h hm]
    show Except.ok _ = _
    have : v * ind (fin m < fin mmin) = nan := by
      by_cases hmm : m = mmin
      · subst hmm
        rcases hv1 rfl with rfl | rfl <;> simp [ind]
      · rw [hv2 hmm, nan_mul]
    rw [this, nan_mul, nan_add, nan_div]
  · unfold doublePowerLawPrimaryMass
    have e : fin mmin + fin 1 * (fin mmax - fin mmin) = fin mmax := by simp
    obtain ⟨c2, hc2, hc2', -⟩ := powerlaw_degenerate b py ha2 hM hM
    obtain ⟨v, hv, hv1, hv2⟩ := powerlaw_degenerate b py ha2 hM hm
    simp only [e, fin_neg, hp ha1 h0 h hM, hc2, hv, hp ha1 h0 h hm]
    show Except.ok _ = _
    refine congrArg Except.ok ?_
    by_cases hmm : m = mmax
    · subst hmm
      have hI : 0 < Spec.normalised (fun t => t ^ (-a1)) mmin m m := by
        unfold Spec.normalised
        rw [if_pos ⟨h.le, le_rfl⟩]
        exact div_pos (Real.rpow_pos_of_pos hM _) (integral_rpow_pos h0 h)
      have hq : c2 / fin (Spec.normalised (fun t => t ^ (-a1)) mmin m m) = c2 := by
        rcases hc2' rfl with rfl | rfl
        · rw [pinf_div_fin, if_neg hI.not_gt]
        · rw [ninf_div_fin, if_neg hI.not_gt]
      have hi : ind (fin m < fin m) = 0 := if_neg (by simp)
      rw [hq, hi, zero_eq, fin_mul, mul_zero]
      rcases hc2' rfl with rfl | rfl <;> simp [signInf]
    · rw [hv2 hmm]
      simp

/-- The parameters of the mass models that make sense: two positive limits, and on numpy and cupy slopes other
than -1, which are refused (C66). -/
def Sensible (b : Backend) (a mmin mmax m : ℝ) : Prop :=
  (b = .jax ∨ a ≠ -1) ∧ 0 < mmin ∧ mmin < mmax ∧ 0 < m

end Nested

open Nested in
/-- Mass models reduce to simpler ones: peaks without weight do not matter, equal slopes make one power law,
and with the break at the edge only one of the slopes matters. -/
def C111_statement : Prop :=
  ∀ (b : Backend) (py : Bool) (m a a' mmin mmax : ℝ), Sensible b a mmin mmax m → Sensible b a' mmin mmax m →
    let plain := fun a => powerLawMass b py (fin m) (fin a) (fin mmin) (fin mmax)
    let broken := fun a1 a2 bf =>
      doublePowerLawPrimaryMass b py (fin m) (fin a1) (fin a2) (fin mmin) (fin mmax) (fin bf)
    (∀ bf, 0 ≤ bf → bf ≤ 1 → broken a a bf = plain a) ∧ broken a a' 0 = plain a' ∧ broken a a' 1 = plain a ∧
    ∀ mpp sigpp gmm : ℝ, 0 < sigpp →
      twoComponentSingle b py (fin m) (fin a) (fin mmin) (fin mmax) (fin 0) (fin mpp) (fin sigpp) (fin gmm) =
        plain a

/-- **C111 fails**: with `break_fraction = 0`, the broken power law of slopes 2 and 2 is NaN. -/
theorem C111_fails : ¬ C111_statement := by
  intro h
  have hs : Nested.Sensible .numpy 2 5 50 10 := ⟨Or.inr (by norm_num), by norm_num, by norm_num, by norm_num⟩
  have h := (h .numpy false 10 2 2 5 50 hs hs).1 0 le_rfl zero_le_one
  dsimp only at h
  rw [(Nested.C111_breakAtEdge_partial .numpy false (Or.inr (by norm_num)) (Or.inr (by norm_num)) (by norm_num)
    (by norm_num) (by norm_num)).1,
    C18_powerLawMass_value .numpy false (Or.inr (by norm_num)) (by norm_num) (by norm_num) (by norm_num)] at h
  cases h

namespace Nested

/-- **Non-vacuity**: a wide second peak above the maximum of the masses, which does not matter. -/
example (b : Backend) (py : Bool) (m : Fl) :
    threeComponentSingle b py m (fin 2) (fin 5) (fin 50) (fin 0) (fin 1) (fin 35) (fin 4) (fin 70) (fin 9) (fin 100) =
      powerLawMass b py m (fin 2) (fin 5) (fin 50) := by
  rw [C111_firstPeak _ _ _ _ _ _ _ _ _ _ _ _ (Or.inr (by simp)), C111_noPeak _ _ _ _ _ _ _ _ _ (Or.inr (by simp))]

example (b : Backend) (py : Bool) :
    threeComponentSingle b py (fin 20) (fin 2) (fin 5) (fin 50) (fin 1) (fin 0) (fin 35) (fin 4) (fin 30) (fin 9)
        (fin 100) = truncnorm b (pos (fin 20)) (kw (fin 30)) (kw (fin 9)) (kw (fin 100)) (kw (fin 5)) := by
  rw [C111_secondPeak _ _ _ _ _ _ _ _ _ _ _ _ (Or.inr (by simp)),
    C111_onlyPeak b py _ _ _ (Or.inr (by norm_num)) (by norm_num) (by norm_num) (by norm_num)]

/-- **Non-vacuity of `C111_equalPeaks`**: two equal peaks with weights 0.3 and 0.7. -/
example (b : Backend) (py : Bool) :
    threeComponentSingle b py (fin 20) (fin 2) (fin 5) (fin 50) (fin 0.1) (fin 0.3) (fin 35) (fin 4) (fin 35) (fin 4)
        (fin 100) = twoComponentSingle b py (fin 20) (fin 2) (fin 5) (fin 50) (fin 0.1) (fin 35) (fin 4) (fin 100) := by
  refine C111_equalPeaks b py _ _ _ _ _ _ _ _ _ (Or.inr (by simp)) fun p hp => ?_
  have := C18_powerLawMass_value b py (m := 20) (a := 2) (mmin := 5) (mmax := 50) (Or.inr (by norm_num))
    (by norm_num) (by norm_num) (by norm_num)
  unfold powerLawMass at this
  rw [this] at hp
  rw [← Except.ok.inj hp]
  trivial

/-- **Non-vacuity** of the theorems on broken power laws. -/
example (b : Backend) (py : Bool) :
    doublePowerLawPeakPrimaryMass b py (fin 20) (fin 2) (fin 2) (fin 5) (fin 50) (fin 0.4) (fin 0) (fin 35) (fin 4)
        (fin 100) = powerLawMass b py (fin 20) (fin 2) (fin 5) (fin 50) := by
  rw [C111_brokenNoPeak _ _ _ _ _ _ _ _ _ _ _ (Or.inr (by simp)),
    C111_equalSlopes_partial b py (Or.inr (by norm_num)) (by norm_num) (by norm_num) (by norm_num) (by norm_num)
      (by norm_num)]

end Nested

end GW
