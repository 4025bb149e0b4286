import Verif.Props.RoundedTruncnorm

/-!
# C94: a correctly rounded library, and the Gaussian densities that go wrong with it
-/

noncomputable section

open Classical Set

namespace GW

open Fl Spec

/-- A correctly rounded library. -/
def roundedSpecial : SpecialLib where
  log x := toDouble (Fl.log x)
  exp x := toDouble (Fl.exp x)
  log1p x := toDouble (GW.log1p x)
  cos x := toDouble (Fl.cos x)
  ndtr x := toDouble (GW.ndtr x)
  logNdtr x := toDouble (GW.logNdtr x)
  betaln a b := toDouble (GW.betaln (fun _ _ => nan) a b)
  i0e x := toDouble (GW.i0e x)

theorem near_toDouble {r : ℝ} (h : |r| ≤ 2 ^ (1023 : ℤ)) :
    ∃ y, toDouble (fin r) = fin y ∧ IsDouble y ∧ |y - r| ≤ ur * |r| + 2 ^ (-1074 : ℤ) := by
  refine ⟨round53 r, fl64_of_le h, round53_isDouble r, (round53_error r).trans ?_⟩
  have : (2 : ℝ) ^ (-1075 : ℤ) ≤ 2 ^ (-1074 : ℤ) := two_zpow_le (by norm_num)
  linarith

theorem le_huge {r : ℝ} (h : r ≤ 2 ^ 100) : r ≤ 2 ^ (1023 : ℤ) := by
  refine h.trans ?_
  calc (2 : ℝ) ^ 100 = 2 ^ (100 : ℤ) := by norm_num
    _ ≤ _ := two_zpow_le (by norm_num)

theorem abs_log_zpow {x : ℝ} (h1 : (2 : ℝ) ^ (-1000 : ℤ) ≤ x) (h2 : x ≤ 2 ^ (1000 : ℤ)) : |Real.log x| ≤ 1000 := by
  have hs : 0 < x := lt_of_lt_of_le (by positivity) h1
  have a := Real.log_le_log (by positivity) h1
  have b := Real.log_le_log hs h2
  rw [Real.log_zpow] at a b
  have := Real.log_two_lt_d9
  push_cast at a b
  rw [abs_le]
  constructor <;> linarith

/-- `i0e(k)` is at least `1 / (8 (1 + k))` and at most 1. -/
theorem i0e_bounds {k : ℝ} (hk : 0 ≤ k) :
    1 / (8 * (1 + k)) ≤ Real.exp (-|k|) * besselI0 k ∧ Real.exp (-|k|) * besselI0 k ≤ 1 := by
  have hpi := Real.pi_pos
  have hpi3 := Real.pi_gt_three
  have hpi4 := Real.pi_lt_four
  have e : Real.exp (-|k|) * besselI0 k = (∫ t in (0 : ℝ)..Real.pi, Real.exp (k * (Real.cos t - 1))) / Real.pi := by
    unfold besselI0
    rw [abs_of_nonneg hk, ← mul_div_assoc, ← intervalIntegral.integral_const_mul]
    congr 1
    refine intervalIntegral.integral_congr fun t _ => ?_
    show Real.exp (-k) * Real.exp (k * Real.cos t) = Real.exp (k * (Real.cos t - 1))
    rw [← Real.exp_add]
    congr 1
    ring
  have hc : Continuous fun t : ℝ => Real.exp (k * (Real.cos t - 1)) := by fun_prop
  rw [e]
  constructor
  · have hw : 0 < 1 / (1 + k) := by positivity
    have hw1 : 1 / (1 + k) ≤ 1 := by rw [div_le_one (by linarith)]; linarith
    have h1 : ∫ t in (0 : ℝ)..(1 / (1 + k)), (1 / 2 : ℝ) ≤ ∫ t in (0 : ℝ)..(1 / (1 + k)), Real.exp (k * (Real.cos t - 1)) := by
      refine intervalIntegral.integral_mono_on hw.le (by simp) (hc.intervalIntegrable _ _) fun t ht => ?_
      have h2 := Real.one_sub_sq_div_two_le_cos (x := t)
      have h3 : t ^ 2 ≤ 1 / (1 + k) := by nlinarith [ht.1, ht.2]
      have h4 : k * (1 / (1 + k)) ≤ 1 := by
        rw [mul_one_div, div_le_one (by linarith)]; linarith
      have h5 := Real.add_one_le_exp (k * (Real.cos t - 1))
      nlinarith
    have h2 : ∫ t in (0 : ℝ)..(1 / (1 + k)), Real.exp (k * (Real.cos t - 1)) ≤
        ∫ t in (0 : ℝ)..Real.pi, Real.exp (k * (Real.cos t - 1)) := by
      refine intervalIntegral.integral_mono_interval le_rfl hw.le (by linarith) ?_ (hc.intervalIntegrable _ _)
      exact Filter.Eventually.of_forall fun t => (Real.exp_pos _).le
    rw [intervalIntegral.integral_const, smul_eq_mul, sub_zero] at h1
    rw [le_div_iff₀ hpi]
    have h3 : 1 / (8 * (1 + k)) = 1 / 8 * (1 / (1 + k)) := by field_simp
    rw [h3]
    nlinarith
  · rw [div_le_one hpi]
    have h1 : ∫ t in (0 : ℝ)..Real.pi, Real.exp (k * (Real.cos t - 1)) ≤ ∫ t in (0 : ℝ)..Real.pi, (1 : ℝ) := by
      refine intervalIntegral.integral_mono_on hpi.le (hc.intervalIntegrable _ _) (by simp) fun t ht => ?_
      rw [Real.exp_le_one_iff]
      have := Real.cos_le_one t
      nlinarith
    simpa using h1

theorem roundedSpecial_accurate : AccurateSpecial roundedSpecial ur where
  unit := le_rfl
  log x _ h1 h2 := by
    have hx : 0 < x := lt_of_lt_of_le (by positivity) h1
    show ∃ y, toDouble (Fl.log (fin x)) = _ ∧ _
    rw [log_fin hx]
    exact near_toDouble (le_huge ((abs_log_zpow h1 h2).trans (by norm_num)))
  exp x _ _ h := by
    have h0 : |Real.exp x| = Real.exp x := abs_of_pos (Real.exp_pos x)
    obtain ⟨y, h1, h2, h3⟩ := near_toDouble (r := Real.exp x) (by
      rw [h0, ← Real.le_log_iff_exp_le (by positivity), Real.log_zpow]
      have := Real.log_two_gt_d9
      push_cast
      linarith)
    rw [h0] at h3
    exact ⟨y, h1, h2, h3⟩
  log1p x _ h1 h2 := by
    have hx : 0 < 1 + x := lt_of_lt_of_le (by positivity) h1
    show ∃ y, toDouble (Fl.log (1 + fin x)) = _ ∧ _
    rw [one_eq, fin_add, log_fin hx]
    refine near_toDouble (le_huge ((abs_log_zpow h1 ?_).trans (by norm_num)))
    calc 1 + x ≤ 2 ^ (61 : ℤ) := by norm_num at h2 ⊢; linarith
      _ ≤ _ := two_zpow_le (by norm_num)
  cos x _ _ := near_toDouble (le_huge ((Real.abs_cos_le_one x).trans (by norm_num)))
  ndtr x _ _ := by
    have h0 : |stdNormalCDF x| = stdNormalCDF x := abs_of_pos (stdNormalCDF_pos x)
    obtain ⟨y, h1, h2, h3⟩ := near_toDouble (r := stdNormalCDF x)
      (le_huge (by rw [h0]; exact (stdNormalCDF_lt_one x).le.trans (by norm_num)))
    rw [h0] at h3
    exact ⟨y, h1, h2, h3⟩
  logNdtr x _ h := by
    show ∃ y, toDouble (GW.logNdtr (fin x)) = _ ∧ _
    rw [logNdtr_fin]
    exact near_toDouble (le_huge ((abs_logCDF_le (m := 2 ^ 30) (by norm_num) h).trans (by norm_num)))
  betaln a b _ _ ha hb _ _ h := by
    have ha0 : 0 < a := lt_of_lt_of_le (by positivity) ha
    have hb0 : 0 < b := lt_of_lt_of_le (by positivity) hb
    obtain ⟨y, h1, h2, h3⟩ := near_toDouble (le_huge (h.trans (by norm_num)))
    refine ⟨y, ?_, h2, h3.trans ?_⟩
    · show toDouble (GW.betaln (fun _ _ => nan) (fin a) (fin b)) = _
      have e : GW.betaln (fun _ _ => nan) (fin a) (fin b) = fin (Real.log (ProbabilityTheory.beta a b)) :=
        if_pos ⟨ha0, hb0⟩
      rw [e, h1]
    · have := tiny_le_ur
      linarith
  i0e k _ hk hk2 := by
    obtain ⟨b1, b2⟩ := i0e_bounds hk
    have hpos : 0 < Real.exp (-|k|) * besselI0 k := lt_of_lt_of_le (by positivity) b1
    have h0 := abs_of_pos hpos
    obtain ⟨t1, t2⟩ := rel_toDouble (x := Real.exp (-|k|) * besselI0 k)
      (by
        rw [h0]
        refine le_trans ?_ b1
        calc (2 : ℝ) ^ (-1022 : ℤ) ≤ 2 ^ (-64 : ℤ) := two_zpow_le (by norm_num)
          _ ≤ _ := by
            rw [le_div_iff₀ (by positivity)]
            norm_num at hk2 ⊢
            linarith)
      (le_huge (by rw [h0]; exact b2.trans (by norm_num)))
    refine ⟨_, t1, round53_isDouble _, ?_⟩
    unfold Rel at t2
    rwa [h0] at t2

/-- **C94.** Densities built from exponentials in double precision: for arguments that cause no overflow or
underflow of differences and quotients, and a correctly rounded library, the density that `truncnorm` returns
inside the window is right within a factor of two. The code does not satisfy this. -/
def C94_statement : Prop :=
  ∀ L, AccurateSpecial L ur → ∀ x mu sigma lo hi : ℝ, TruncnormArgs x mu sigma lo hi →
    normalised (gaussShape mu sigma) lo hi x ≤ 2 ^ (900 : ℤ) →
    ∃ p, truncnormBodyD L (fin x) (fin mu) (fin sigma) (fin hi) (fin lo) = fin p ∧
      |p - normalised (gaussShape mu sigma) lo hi x| ≤
        normalised (gaussShape mu sigma) lo hi x / 2 + 2 ^ (-1074 : ℤ)

theorem wideArgs : TruncnormArgs 0 0 (2 ^ 60) (-1) 1 where
  lt := by norm_num
  low := by norm_num
  high := by norm_num
  isDouble := ⟨isDouble_zero, isDouble_zero, ⟨1, 60, by norm_num, by norm_num, by norm_num⟩,
    ⟨-1, 0, by norm_num, by norm_num, by norm_num⟩, ⟨1, 0, by norm_num, by norm_num, by norm_num⟩⟩
  width := by
    constructor
    · exact (zpow_le_one_of_nonpos₀ (by norm_num) (by norm_num)).trans (by norm_num)
    · calc (2 : ℝ) ^ 60 = 2 ^ (60 : ℤ) := by norm_num
        _ ≤ _ := two_zpow_le (by norm_num)
  range := by
    have h1 : (2 : ℝ) ^ (-400 : ℤ) ≤ 1 := zpow_le_one_of_nonpos₀ (by norm_num) (by norm_num)
    have h2 : (1 : ℝ) ≤ 2 ^ (400 : ℤ) := one_le_zpow₀ (by norm_num) (by norm_num)
    simp only [List.mem_cons, List.not_mem_nil, or_false, forall_eq_or_imp, forall_eq, sub_zero]
    refine ⟨Or.inl trivial, Or.inr ?_, Or.inr ?_⟩
    · rw [abs_neg, abs_one]; exact ⟨h1, h2⟩
    · rw [abs_one]; exact ⟨h1, h2⟩

/-- The exact density is about 1/2. -/
theorem wide_exact : 0 ≤ normalised (gaussShape 0 (2 ^ 60)) (-1) 1 0 ∧ normalised (gaussShape 0 (2 ^ 60)) (-1) 1 0 ≤ 1 := by
  have hint : 1 ≤ ∫ t in (-1 : ℝ)..1, gaussShape 0 (2 ^ 60) t := by
    have h1 : ∫ t in (-1 : ℝ)..1, (1 / 2 : ℝ) ≤ ∫ t in (-1 : ℝ)..1, gaussShape 0 (2 ^ 60) t := by
      refine intervalIntegral.integral_mono_on (by norm_num) (by simp)
        ((gaussShape_continuous _ _).intervalIntegrable _ _) fun t ht => ?_
      unfold gaussShape
      have h2 := Real.add_one_le_exp (-(t - 0) ^ 2 / (2 * (2 ^ 60) ^ 2))
      have h3 : t ^ 2 ≤ 1 := by nlinarith [ht.1, ht.2]
      have h4 : -(1 / 2) ≤ -(t - 0) ^ 2 / (2 * (2 ^ 60) ^ 2) := by
        rw [le_div_iff₀ (by positivity)]
        norm_num
        linarith
      linarith
    rw [intervalIntegral.integral_const, smul_eq_mul] at h1
    rw [show (1 - -1 : ℝ) * (1 / 2) = 1 by norm_num] at h1
    exact h1
  have hg : gaussShape 0 (2 ^ 60) 0 = 1 := by unfold gaussShape; norm_num
  unfold normalised
  rw [if_pos ⟨by norm_num, by norm_num⟩, hg]
  constructor
  · positivity
  · rw [div_le_one (by linarith)]
    exact hint

/-- The distribution function at `-2^-60` rounds to 1/2. -/
theorem ndtr_wide : roundedSpecial.ndtr (fin (-1 / 2 ^ 60)) = fin (1 / 2) := by
  show fl64 (stdNormalCDF (-1 / 2 ^ 60)) = _
  have h0 : stdNormalCDF 0 = 1 / 2 := by
    have := stdNormalCDF_neg 0
    rw [neg_zero] at this
    linarith
  have h1 := stdNormalCDF_lipschitz (-1 / 2 ^ 60) 0
  rw [h0] at h1
  have h2 : |0 - -1 / (2 : ℝ) ^ 60| = 1 / 2 ^ 60 := by
    rw [abs_of_nonneg] <;> norm_num
  rw [h2] at h1
  have h3 : stdNormalCDF (-1 / 2 ^ 60) < 1 / 2 := by
    rw [← h0]
    exact stdNormalCDF_lt (by norm_num)
  obtain ⟨w, hw⟩ : ∃ w, w = stdNormalCDF (-1 / 2 ^ 60) := ⟨_, rfl⟩
  rw [← hw] at h1 h3 ⊢
  have h4 := (abs_le.1 h1).2
  refine fl64_small (e := -2) (n := 2 ^ 53) ?_ ?_ (by norm_num) (by linarith) (roundEven_near ?_) ?_
  · norm_num at h4 ⊢
    linarith
  · norm_num
    linarith
  · rw [show (-2 : ℤ) - 52 = -54 by norm_num]
    have e : w / 2 ^ (-54 : ℤ) - ((2 ^ 53 : ℤ) : ℝ) = -((1 / 2 - w) * 2 ^ (54 : ℤ)) := by
      norm_num
      ring
    rw [e, abs_neg, abs_of_nonneg (mul_nonneg (by linarith) (by positivity))]
    norm_num at h4 ⊢
    linarith
  · norm_num

/-- In double precision `truncnorm` returns `1.8e308` instead of 1/2. -/
theorem C94_huge : truncnormBodyD roundedSpecial (fin 0) (fin 0) (fin (2 ^ 60)) (fin 1) (fin (-1)) = fin bigR := by
  have dbl : ∀ {r : ℝ} (m k : ℤ), |m| ≤ 2 ^ 53 → -1074 ≤ k → r = m * 2 ^ k → |r| ≤ 2 ^ 100 → toDouble (fin r) = fin r := by
    intro r m k hm hk hr h
    show fl64 r = _
    rw [fl64_of_le (le_huge h), round53_of_isDouble ⟨m, k, hm, hk, hr⟩]
  have z0 : toDouble (fin 0) = fin 0 := fl64_zero
  have a1 : toDouble (fin (-1)) = fin (-1) := dbl (-1) 0 (by norm_num) (by norm_num) (by norm_num) (by norm_num)
  have b1 : toDouble (fin 1) = fin 1 := dbl 1 0 (by norm_num) (by norm_num) (by norm_num) (by norm_num)
  have a2 : toDouble (fin (-1 / 2 ^ 60)) = fin (-1 / 2 ^ 60) :=
    dbl (-1) (-60) (by norm_num) (by norm_num) (by norm_num) (by norm_num [abs_le])
  have b2 : toDouble (fin (1 / 2 ^ 60)) = fin (1 / 2 ^ 60) :=
    dbl 1 (-60) (by norm_num) (by norm_num) (by norm_num) (by norm_num [abs_le])
  have hs : (2 : ℝ) ^ 60 ≠ 0 := by positivity
  obtain ⟨c, c1, -, -, c4⟩ := const_error roundedSpecial_accurate (by rw [ur_val]; norm_num)
  obtain ⟨l, l1, l2, l3⟩ := roundedSpecial_accurate.log (2 ^ 60) wideArgs.isDouble.2.2.1
    ((two_zpow_le (by norm_num)).trans wideArgs.width.1) (wideArgs.width.2.trans (two_zpow_le (by norm_num)))
  have norm : truncLogNormD roundedSpecial (fin (-1 / 2 ^ 60)) (fin (1 / 2 ^ 60)) = ninf := by
    unfold truncLogNormD
    rw [if_neg (by rw [zero_eq, fin_le]; norm_num), if_neg (by rw [zero_eq, fin_lt]; norm_num),
      if_pos (by rw [zero_eq, fin_lt]; norm_num), fin_neg, ndtr_wide, show -(1 / (2 : ℝ) ^ 60) = -1 / 2 ^ 60 by ring, ndtr_wide,
      fin_neg, fin_sub, show (-(1 / 2) - 1 / 2 : ℝ) = -1 by norm_num, a1]
    show toDouble (Fl.log (1 + fin (-1))) = ninf
    rw [one_eq, fin_add, show (1 + -1 : ℝ) = 0 by norm_num]
    show toDouble (if (0 : ℝ) < 0 then _ else if (0 : ℝ) = 0 then ninf else nan) = _
    rw [if_neg (lt_irrefl _), if_pos rfl]
    rfl
  have hl : |l| ≤ 2500 := by
    have h1 := abs_log_zpow ((two_zpow_le (by norm_num)).trans wideArgs.width.1)
      (wideArgs.width.2.trans (two_zpow_le (by norm_num)))
    have h2 := abs_sub_abs_le_abs_sub l (Real.log (2 ^ 60))
    have h3 : ur * |Real.log (2 ^ 60)| ≤ 1 * |Real.log (2 ^ 60)| :=
      mul_le_mul_of_nonneg_right (by rw [ur_val]; norm_num) (abs_nonneg _)
    have h4 : (2 : ℝ) ^ (-1074 : ℤ) ≤ 1 := zpow_le_one_of_nonpos₀ (by norm_num) (by norm_num)
    generalize (2 : ℝ) ^ (-1074 : ℤ) = B at *
    generalize Real.log (2 ^ 60) = A at *
    linarith
  obtain ⟨i, i1, i2, i3⟩ := round_abs (x := 0 - c) (B := 4) (by rw [zero_sub, abs_neg]; exact c4) (by norm_num)
  obtain ⟨j, j1, -⟩ := round_abs (x := i - l) (B := 3000) (by
    have h1 := abs_sub_abs_le_abs_sub i (0 - c)
    rw [zero_sub, abs_neg] at h1
    rw [zero_sub] at i3
    have h2 := abs_sub i l
    have h3 : ur ≤ 1 := by rw [ur_val]; norm_num
    linarith) (by norm_num)
  unfold truncnormBodyD
  simp only [fin_sub, sub_self, sub_zero, z0, a1, b1, fin_div hs, zero_div, a2, b2, c1, l1, norm]
  have half : toDouble (-(toDouble (fin 0 * fin 0)) / 2) = fin 0 := by
    rw [fin_mul, mul_zero, z0, fin_neg, neg_zero, ofNat_eq, fin_div (by norm_num), zero_div, z0]
  rw [half, fin_sub, i1, fin_sub, j1]
  have e1 : toDouble (fin j - ninf) = pinf := rfl
  have e2 : roundedSpecial.exp pinf = pinf := rfl
  rw [e1, e2, nanToNum_pinf]
  simp [ind]

theorem C94_fails : ¬ C94_statement := by
  intro h
  obtain ⟨p, h1, h2⟩ := h roundedSpecial roundedSpecial_accurate 0 0 (2 ^ 60) (-1) 1 wideArgs
    (wide_exact.2.trans (one_le_zpow₀ (by norm_num) (by norm_num)))
  rw [C94_huge] at h1
  obtain rfl : bigR = p := by simpa using h1
  have h3 := two_pow_le_bigR
  have h4 : (8 : ℝ) ≤ 2 ^ (1023 : ℤ) := by
    calc (8 : ℝ) = 2 ^ (3 : ℤ) := by norm_num
      _ ≤ _ := two_zpow_le (by norm_num)
  have h5 : (2 : ℝ) ^ (-1074 : ℤ) ≤ 1 := zpow_le_one_of_nonpos₀ (by norm_num) (by norm_num)
  generalize (2 : ℝ) ^ (1023 : ℤ) = A at *
  generalize (2 : ℝ) ^ (-1074 : ℤ) = B at *
  have h7 := wide_exact.2
  generalize normalised (gaussShape 0 (2 ^ 60)) (-1) 1 0 = N at *
  have h6 := (abs_le.1 h2).2
  linarith

/-- **C94, outside the window.** Whatever the library, the density outside the window is exactly 0. -/
theorem C94_truncnorm_outside (L : SpecialLib) {x lo hi : ℝ} (mu sigma : Fl) (h : x < lo ∨ hi < x) :
    truncnormBodyD L (fin x) mu sigma (fin hi) (fin lo) = fin 0 := by
  have fin_of : ∀ y, ∃ r, nanToNum y = fin r := by
    intro y
    cases y
    exacts [⟨_, rfl⟩, ⟨_, rfl⟩, ⟨_, rfl⟩, ⟨_, rfl⟩]
  unfold truncnormBodyD
  simp only []
  generalize L.exp _ = y
  obtain ⟨r, hr⟩ := fin_of y
  rw [hr]
  rcases h with h | h
  · have h1 : ¬ lo ≤ x := not_le.2 h
    simp only [fin_le, h1, ind, if_false]
    by_cases h2 : x ≤ hi <;> simp [h2]
  · have h1 : ¬ x ≤ hi := not_le.2 h
    simp only [fin_le, h1, ind, if_false]
    by_cases h2 : lo ≤ x <;> simp [h2]

example : truncnormBodyD roundedSpecial (fin 2) (fin 0) (fin (2 ^ 60)) (fin 1) (fin (-1)) = fin 0 :=
  C94_truncnorm_outside _ _ _ (Or.inr (by norm_num))

theorem half_window : 1 / 10 ≤ stdNormalCDF (1 / 2) - stdNormalCDF 0 := by
  obtain ⟨c, hc, h⟩ := exists_hasDerivAt_eq_slope stdNormalCDF _ (show (0 : ℝ) < 1 / 2 by norm_num)
    (fun x _ => (Ex.hasDerivAt_stdNormalCDF x).continuousAt.continuousWithinAt)
    (fun x _ => Ex.hasDerivAt_stdNormalCDF x)
  have hs : 0 < Real.sqrt (2 * Real.pi) := Real.sqrt_pos.2 (by positivity)
  have hs3 : Real.sqrt (2 * Real.pi) ≤ 3 := by
    rw [Real.sqrt_le_left (by norm_num)]
    have := Real.pi_lt_four
    linarith
  have h1 : 3 / 4 ≤ Real.exp (-(c ^ 2 / 2)) := by
    have := Real.add_one_le_exp (-(c ^ 2 / 2))
    have h2 : c ^ 2 ≤ 1 / 4 := by nlinarith [hc.1, hc.2]
    linarith
  have h2 : 1 / 4 ≤ Real.exp (-(c ^ 2 / 2)) / Real.sqrt (2 * Real.pi) := by
    rw [le_div_iff₀ hs]
    linarith
  rw [h] at h2
  rw [le_div_iff₀ (by norm_num)] at h2
  linarith

/-- A window of at least one width around the mean holds a tenth of the probability. -/
theorem window_tenth {a b : ℝ} (ha : a ≤ 0) (hb : 0 ≤ b) (hab : 1 ≤ b - a) :
    1 / 10 ≤ stdNormalCDF b - stdNormalCDF a := by
  have mono : ∀ {x y : ℝ}, x ≤ y → stdNormalCDF x ≤ stdNormalCDF y := by
    intro x y h
    rcases h.lt_or_eq with h | h
    · exact (stdNormalCDF_lt h).le
    · rw [h]
  have h0 := half_window
  by_cases h : 1 / 2 ≤ b
  · have := mono h
    have := mono ha
    linarith
  · have h1 : a ≤ -(1 / 2) := by linarith
    have h2 := mono h1
    have h3 := mono hb
    have h4 := stdNormalCDF_neg (1 / 2)
    have h5 := stdNormalCDF_neg 0
    rw [neg_zero] at h5
    linarith

/-- **C94, usual parameters.** If the mean is inside the window, the window is between 1 and 100 widths long, the
width is between 1/1000 and 1000, and the library is correct to eight units in the last place, the relative error
inside the window is below one in a million. -/
theorem C94_usual_partial {L : SpecialLib} {δ : ℝ} (hL : AccurateSpecial L δ) (hδ : δ ≤ 8 * ur)
    {x mu sigma lo hi : ℝ} (h : TruncnormArgs x mu sigma lo hi) (hmu : lo ≤ mu ∧ mu ≤ hi)
    (hs : 1 / 1000 ≤ sigma ∧ sigma ≤ 1000) (hw : sigma ≤ hi - lo ∧ hi - lo ≤ 100 * sigma) :
    ∃ p, truncnormBodyD L (fin x) (fin mu) (fin sigma) (fin hi) (fin lo) = fin p ∧
      |p - normalised (gaussShape mu sigma) lo hi x| ≤
        1 / 1000000 * normalised (gaussShape mu sigma) lo hi x + 2 ^ (-1074 : ℤ) := by
  have hs0 : 0 < sigma := by linarith [hs.1]
  have ha : (lo - mu) / sigma ≤ 0 := div_nonpos_of_nonpos_of_nonneg (by linarith [hmu.1]) hs0.le
  have hb : 0 ≤ (hi - mu) / sigma := div_nonneg (by linarith [hmu.2]) hs0.le
  have hd : (hi - mu) / sigma - (lo - mu) / sigma = (hi - lo) / sigma := by ring
  have hd1 : 1 ≤ (hi - mu) / sigma - (lo - mu) / sigma := by
    rw [hd, le_div_iff₀ hs0]; linarith [hw.1]
  have hd2 : (hi - mu) / sigma - (lo - mu) / sigma ≤ 100 := by
    rw [hd, div_le_iff₀ hs0]; exact hw.2
  have hN := window_tenth ha hb hd1
  have hshare : 1 / 10 ≤ windowShare ((lo - mu) / sigma) ((hi - mu) / sigma) := by
    unfold windowShare
    have h1 := stdNormalCDF_lt_one ((hi - mu) / sigma)
    have h2 := stdNormalCDF_pos ((hi - mu) / sigma)
    split_ifs with c1 c2
    · rw [le_div_iff₀ h2]; nlinarith
    · exact absurd c2 (not_lt.2 ha)
    · exact hN
  have hlog : |Real.log sigma| ≤ 1000 := by
    rw [abs_le]
    have h1 := Real.one_sub_inv_le_log_of_pos hs0
    have h2 := Real.log_le_sub_one_of_pos hs0
    have h3 : sigma⁻¹ ≤ 1000 := by
      rw [inv_le_comm₀ hs0 (by norm_num)]
      norm_num
      have := hs.1
      linarith
    constructor <;> linarith [hs.2]
  have hM : max 1 (max |(lo - mu) / sigma| |(hi - mu) / sigma|) ≤ 100 := by
    refine max_le (by norm_num) (max_le ?_ ?_)
    · rw [abs_of_nonpos ha]; linarith
    · rw [abs_of_nonneg hb]; linarith
  have hK : gaussAmplification mu sigma lo hi ≤ 101000 := by
    unfold gaussAmplification
    have h1 : max 1 (max |(lo - mu) / sigma| |(hi - mu) / sigma|) ^ 2 /
        windowShare ((lo - mu) / sigma) ((hi - mu) / sigma) ≤ 100 ^ 2 / (1 / 10) := by
      gcongr
    linarith
  have hδ0 := hL.pos
  have hKδ : δ * gaussAmplification mu sigma lo hi ≤ 8 * ur * 101000 := by
    have h1 : δ * gaussAmplification mu sigma lo hi ≤ δ * 101000 := mul_le_mul_of_nonneg_left hK hδ0.le
    linarith
  have hur := ur_val
  have hex := exact_eq_exp (mu := mu) hs0 h.lt h.low h.high
  have hex0 : 0 < normalised (gaussShape mu sigma) lo hi x := by rw [hex]; exact Real.exp_pos _
  obtain ⟨p, h1, -, h2⟩ := C94_truncnorm_partial hL h (by rw [hur] at hKδ; linarith) (by
    have hle : normalised (gaussShape mu sigma) lo hi x ≤ 10000 := by
      unfold normalised
      rw [if_pos ⟨h.low, h.high⟩, integral_gaussShape hs0 h.lt.le]
      have hg : gaussShape mu sigma x ≤ 1 := by
        unfold gaussShape
        rw [Real.exp_le_one_iff]
        apply div_nonpos_of_nonpos_of_nonneg
        · nlinarith [sq_nonneg (x - mu)]
        · positivity
      have hq : 1 ≤ Real.sqrt (2 * Real.pi) := by
        apply Real.le_sqrt_of_sq_le
        have := Real.pi_gt_three
        linarith
      have hden : 1 / 10000 ≤ Real.sqrt (2 * Real.pi) * sigma *
          (stdNormalCDF ((hi - mu) / sigma) - stdNormalCDF ((lo - mu) / sigma)) := by
        have a1 : 1 / 1000 ≤ Real.sqrt (2 * Real.pi) * sigma := by nlinarith [hs.1]
        nlinarith
      rw [div_le_iff₀ (by linarith)]
      linarith
    refine hle.trans ?_
    calc (10000 : ℝ) ≤ 2 ^ (20 : ℤ) := by norm_num
      _ ≤ _ := two_zpow_le (by norm_num))
  refine ⟨p, h1, h2.trans ?_⟩
  have : 1850 * (δ * gaussAmplification mu sigma lo hi) ≤ 1 / 1000000 := by
    rw [hur] at hKδ
    linarith
  have := mul_le_mul_of_nonneg_right this hex0.le
  linarith

/-- Non-vacuity: the Gaussian peak of width 4 at 35 between 2 and 100, at 40. -/
theorem peakArgs : TruncnormArgs 40 35 4 2 100 where
  lt := by norm_num
  low := by norm_num
  high := by norm_num
  isDouble := ⟨by exact_mod_cast isDouble_int (n := 40) (by norm_num), by exact_mod_cast isDouble_int (n := 35) (by norm_num),
    by exact_mod_cast isDouble_int (n := 4) (by norm_num), by exact_mod_cast isDouble_int (n := 2) (by norm_num),
    by exact_mod_cast isDouble_int (n := 100) (by norm_num)⟩
  width := by
    constructor
    · exact (zpow_le_one_of_nonpos₀ (by norm_num) (by norm_num)).trans (by norm_num)
    · calc (4 : ℝ) = 2 ^ (2 : ℤ) := by norm_num
        _ ≤ _ := two_zpow_le (by norm_num)
  range := by
    have h1 : (2 : ℝ) ^ (-400 : ℤ) ≤ 1 := zpow_le_one_of_nonpos₀ (by norm_num) (by norm_num)
    have h2 : (128 : ℝ) ≤ 2 ^ (400 : ℤ) := by
      calc (128 : ℝ) = 2 ^ (7 : ℤ) := by norm_num
        _ ≤ _ := two_zpow_le (by norm_num)
    have ok : ∀ y : ℝ, 1 ≤ |y| → |y| ≤ 128 → y = 0 ∨ (2 : ℝ) ^ (-400 : ℤ) ≤ |y| ∧ |y| ≤ 2 ^ (400 : ℤ) :=
      fun y a b => Or.inr ⟨h1.trans a, b.trans h2⟩
    simp only [List.mem_cons, List.not_mem_nil, or_false, forall_eq_or_imp, forall_eq]
    refine ⟨ok _ ?_ ?_, ok _ ?_ ?_, ok _ ?_ ?_⟩ <;> norm_num [abs_of_pos, abs_of_neg]

example : ∃ p, truncnormBodyD roundedSpecial (fin 40) (fin 35) (fin 4) (fin 100) (fin 2) = fin p ∧
    |p - normalised (gaussShape 35 4) 2 100 40| ≤
      1 / 1000000 * normalised (gaussShape 35 4) 2 100 40 + 2 ^ (-1074 : ℤ) :=
  C94_usual_partial roundedSpecial_accurate (by rw [ur_val]; norm_num) peakArgs ⟨by norm_num, by norm_num⟩
    ⟨by norm_num, by norm_num⟩ ⟨by norm_num, by norm_num⟩

end GW
