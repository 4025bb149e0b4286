import Verif.Props.RoundedGaussian

/-!
# C94: the truncated Gaussian in double precision
-/

noncomputable section

open Classical Set

namespace GW

open Fl Spec

variable {L : SpecialLib} {δ : ℝ}

theorem exact_eq_exp {x mu sigma lo hi : ℝ} (hs : 0 < sigma) (hlt : lo < hi) (h1 : lo ≤ x) (h2 : x ≤ hi) :
    normalised (gaussShape mu sigma) lo hi x =
      Real.exp (-((x - mu) / sigma) ^ 2 / 2 - Real.log (2 * Real.pi) / 2 - Real.log sigma -
        Real.log (stdNormalCDF ((hi - mu) / sigma) - stdNormalCDF ((lo - mu) / sigma))) := by
  have hab : (lo - mu) / sigma < (hi - mu) / sigma := by gcongr
  have hlt' := stdNormalCDF_lt hab
  have h2pi : (0 : ℝ) < 2 * Real.pi := by positivity
  have hsq : 0 < Real.sqrt (2 * Real.pi) := Real.sqrt_pos.2 h2pi
  unfold normalised
  rw [integral_gaussShape hs hlt.le, if_pos ⟨h1, h2⟩, Real.exp_sub, Real.exp_sub, Real.exp_sub,
    Real.exp_log hs, Real.exp_log (by linarith), gaussShape]
  have e1 : Real.exp (Real.log (2 * Real.pi) / 2) = Real.sqrt (2 * Real.pi) := by
    rw [Real.sqrt_eq_rpow, Real.rpow_def_of_pos h2pi]; congr 1; ring
  have e2 : -((x - mu) / sigma) ^ 2 / 2 = -(x - mu) ^ 2 / (2 * sigma ^ 2) := by
    field_simp
  rw [e1, e2, div_div, div_div, mul_assoc]

theorem log_two_pow_le : Real.log ((2 : ℝ) ^ (900 : ℤ)) ≤ 630 := by
  rw [Real.log_zpow]
  have := Real.log_two_lt_d9
  push_cast
  linarith

theorem abs_log_width {s : ℝ} (h1 : (2 : ℝ) ^ (-400 : ℤ) ≤ s) (h2 : s ≤ 2 ^ (400 : ℤ)) : |Real.log s| ≤ 400 := by
  have hs : 0 < s := lt_of_lt_of_le (by positivity) h1
  have a := Real.log_le_log (by positivity) h1
  have b := Real.log_le_log hs h2
  rw [Real.log_zpow] at a b
  have := Real.log_two_lt_d9
  push_cast at a b
  rw [abs_le]
  constructor <;> linarith

set_option maxHeartbeats 1000000 in
/-- The exponent. -/
theorem exponent_error (hL : AccurateSpecial L δ) {z z' g G c sigma M R : ℝ} (hM : 1 ≤ M) (hz : |z| ≤ M)
    (rz : Rel (3 * ur) z z') (hMR : M ^ 2 ≤ R) (hg : |g - G| ≤ 850 * (δ * R)) (hG : |G| ≤ 6 * R)
    (hs1 : (2 : ℝ) ^ (-400 : ℤ) ≤ sigma) (hs2 : sigma ≤ 2 ^ (400 : ℤ)) (ds : IsDouble sigma)
    (hc : |c - Real.log (2 * Real.pi) / 2| ≤ 13 * δ) (hc4 : |c| ≤ 4)
    (hK : 2000 * (δ * (R + |Real.log sigma|)) ≤ 1) :
    ∃ e, toDouble (toDouble (toDouble (toDouble (-(toDouble (fin z' * fin z')) / 2) - fin c) - L.log (fin sigma)) - fin g)
        = fin e ∧ IsDouble e ∧ |e| ≤ 2 ^ 60 ∧
      |e - (-z ^ 2 / 2 - Real.log (2 * Real.pi) / 2 - Real.log sigma - G)| ≤ 920 * (δ * (R + |Real.log sigma|)) := by
  have hδ := hL.pos
  have hu := hL.unit
  have hur := ur_pos
  have htiny := tiny_le_ur
  have hM1 : 1 ≤ M ^ 2 := by nlinarith
  obtain ⟨m, hm⟩ : ∃ m, m = M ^ 2 := ⟨_, rfl⟩
  rw [← hm] at hMR hM1
  obtain ⟨S, hS⟩ : ∃ S, S = |Real.log sigma| := ⟨_, rfl⟩
  have hS0 : 0 ≤ S := by rw [hS]; exact abs_nonneg _
  have hS4 : S ≤ 400 := by rw [hS]; exact abs_log_width hs1 hs2
  rw [← hS] at hK ⊢
  have hR1 : 1 ≤ R := hM1.trans hMR
  -- products with the precision
  have p1 : δ * m ≤ δ * R := mul_le_mul_of_nonneg_left hMR hδ.le
  have p2 : δ ≤ δ * m := le_mul_of_one_le_right hδ.le hM1
  have p3 : ur * m ≤ δ * m := mul_le_mul_of_nonneg_right hu (by linarith)
  have p4 : ur * R ≤ δ * R := mul_le_mul_of_nonneg_right hu (by linarith)
  have p5 : ur * S ≤ δ * S := mul_le_mul_of_nonneg_right hu hS0
  have p6 : 0 ≤ δ * S := mul_nonneg hδ.le hS0
  have p7 : δ * (R + S) = δ * R + δ * S := mul_add _ _ _
  rw [p7] at hK ⊢
  have hδ2 : 1 / 2 ^ 53 ≤ δ := by
    rw [show (1 : ℝ) / 2 ^ 53 = ur by rw [ur_val]; norm_num]; exact hu
  have hRB : R ≤ 2 ^ 53 := by
    have h1 : 1 / 2 ^ 53 * R ≤ δ * R := mul_le_mul_of_nonneg_right hδ2 (by linarith)
    have h2 : R = 2 ^ 53 * (1 / 2 ^ 53 * R) := by ring
    rw [h2]
    linarith
  have hRn : R ≤ 9007199254740992 := by norm_num at hRB; exact hRB
  have hurs : ur ≤ 1 / 1000 := by rw [ur_val]; norm_num
  -- the square
  have hzz : |z' - z| ≤ 3 * ur * M := le_trans (show |z' - z| ≤ 3 * ur * |z| from rz) (mul_le_mul_of_nonneg_left hz (by linarith))
  have hsq : |z' * z' - z ^ 2| ≤ 7 * (ur * m) := by
    have h1 : z' * z' - z ^ 2 = (z' - z) * (z' - z + 2 * z) := by ring
    have h2 : |z' - z + 2 * z| ≤ 7 / 3 * M := by
      have a1 := abs_add_le (z' - z) (2 * z)
      rw [abs_mul, abs_two] at a1
      have a2 : 3 * ur * M ≤ 1 / 3 * M := mul_le_mul_of_nonneg_right (by linarith) (by linarith)
      linarith
    rw [h1, abs_mul, hm]
    calc |z' - z| * |z' - z + 2 * z| ≤ 3 * ur * M * (7 / 3 * M) := mul_le_mul hzz h2 (abs_nonneg _) (by positivity)
      _ = _ := by ring
  have hz2 : z ^ 2 ≤ m := by rw [hm, ← sq_abs]; exact pow_le_pow_left₀ (abs_nonneg z) hz 2
  have azz : |z' * z'| ≤ 2 * m := by
    have a1 := abs_sub_abs_le_abs_sub (z' * z') (z ^ 2)
    rw [abs_of_nonneg (sq_nonneg z)] at a1
    have a2 : 7 * (ur * m) ≤ m := by
      have : ur * m ≤ 1 / 1000 * m := mul_le_mul_of_nonneg_right hurs (by linarith)
      linarith
    linarith
  have big : ∀ {t : ℝ}, t ≤ 20000000000000000000000 → t ≤ 2 ^ 100 := by
    intro t ht
    norm_num
    linarith
  rw [fin_mul]
  obtain ⟨q, q1, q2, q3⟩ := round_abs azz (big (by linarith))
  rw [q1, fin_neg, ofNat_eq, fin_div (by norm_num)]
  have q4 : |q - z ^ 2| ≤ 10 * (δ * m) := by
    have := abs_sub_le q (z' * z') (z ^ 2)
    have e : ur * (2 * m + 1) = 2 * (ur * m) + ur := by ring
    linarith
  have aq : |-q / 2| ≤ 2 * m := by
    rw [abs_div, abs_neg, abs_two]
    have a1 := abs_sub_abs_le_abs_sub q (z' * z')
    have : ur * (2 * m + 1) ≤ 1 / 1000 * (2 * m + 1) := mul_le_mul_of_nonneg_right hurs (by linarith)
    linarith
  obtain ⟨h, h1, h2, h3⟩ := round_abs aq (big (by linarith))
  rw [h1, fin_sub]
  have e1 : ur * (2 * m + 1) = 2 * (ur * m) + ur := by ring
  have h4 : |h - -z ^ 2 / 2| ≤ 8 * (δ * m) := by
    have a1 := abs_sub_le h (-q / 2) (-z ^ 2 / 2)
    have a2 : |-q / 2 - -z ^ 2 / 2| = |q - z ^ 2| / 2 := by
      rw [show -q / 2 - -z ^ 2 / 2 = -((q - z ^ 2) / 2) by ring, abs_neg, abs_div, abs_two]
    linarith
  have hsm : δ * m ≤ 1 / 2000 := by linarith
  have ah : |h| ≤ 3 * m := by
    have a1 := abs_sub_abs_le_abs_sub h (-q / 2)
    linarith
  have ahc : |h - c| ≤ 7 * m := (abs_sub h c).trans (by linarith)
  obtain ⟨i, i1, i2, i3⟩ := round_abs ahc (big (by linarith))
  rw [i1]
  have e2 : ur * (7 * m + 1) = 7 * (ur * m) + ur := by ring
  have i4 : |i - (-z ^ 2 / 2 - Real.log (2 * Real.pi) / 2)| ≤ 29 * (δ * m) := by
    have a1 := abs_sub_le i (h - c) (-z ^ 2 / 2 - Real.log (2 * Real.pi) / 2)
    have a2 : |h - c - (-z ^ 2 / 2 - Real.log (2 * Real.pi) / 2)| ≤
        |h - -z ^ 2 / 2| + |c - Real.log (2 * Real.pi) / 2| := by
      rw [show h - c - (-z ^ 2 / 2 - Real.log (2 * Real.pi) / 2) =
        (h - -z ^ 2 / 2) - (c - Real.log (2 * Real.pi) / 2) by ring]
      exact abs_sub _ _
    linarith
  have ai : |i| ≤ 8 * m := by
    have a1 := abs_sub_abs_le_abs_sub i (h - c)
    linarith
  obtain ⟨l, l1, l2, l3⟩ := hL.log sigma ds (hs1.trans' (two_zpow_le (by norm_num))) (hs2.trans (two_zpow_le (by norm_num)))
  rw [← hS] at l3
  have al : |l| ≤ S + 1 := by
    have a1 := abs_sub_abs_le_abs_sub l (Real.log sigma)
    rw [← hS] at a1
    linarith
  rw [l1, fin_sub]
  have ail : |i - l| ≤ 9 * m + S := (abs_sub i l).trans (by linarith)
  obtain ⟨j, j1, j2, j3⟩ := round_abs ail (big (by linarith))
  rw [j1, fin_sub]
  have e3 : ur * (9 * m + S + 1) = 9 * (ur * m) + ur * S + ur := by ring
  have j4 : |j - (-z ^ 2 / 2 - Real.log (2 * Real.pi) / 2 - Real.log sigma)| ≤ 40 * (δ * m) + 2 * (δ * S) := by
    have a1 := abs_sub_le j (i - l) (-z ^ 2 / 2 - Real.log (2 * Real.pi) / 2 - Real.log sigma)
    have a2 : |i - l - (-z ^ 2 / 2 - Real.log (2 * Real.pi) / 2 - Real.log sigma)| ≤
        |i - (-z ^ 2 / 2 - Real.log (2 * Real.pi) / 2)| + |l - Real.log sigma| := by
      rw [show i - l - (-z ^ 2 / 2 - Real.log (2 * Real.pi) / 2 - Real.log sigma) =
        (i - (-z ^ 2 / 2 - Real.log (2 * Real.pi) / 2)) - (l - Real.log sigma) by ring]
      exact abs_sub _ _
    linarith
  have aj : |j| ≤ 10 * m + S := by
    have a1 := abs_sub_abs_le_abs_sub j (i - l)
    linarith
  have ag : |g| ≤ 7 * R := by
    have a1 := abs_sub_abs_le_abs_sub g G
    linarith
  have ajg : |j - g| ≤ 17 * R + S := (abs_sub j g).trans (by linarith)
  obtain ⟨e, f1, f2, f3⟩ := round_abs ajg (big (by linarith))
  have e4 : ur * (17 * R + S + 1) = 17 * (ur * R) + ur * S + ur := by ring
  refine ⟨e, f1, f2, ?_, ?_⟩
  · have a1 := abs_sub_abs_le_abs_sub e (j - g)
    have : |e| ≤ 1000000000000000000 := by linarith
    refine this.trans (by norm_num)
  · have a1 := abs_sub_le e (j - g) (-z ^ 2 / 2 - Real.log (2 * Real.pi) / 2 - Real.log sigma - G)
    have a2 : |j - g - (-z ^ 2 / 2 - Real.log (2 * Real.pi) / 2 - Real.log sigma - G)| ≤
        |j - (-z ^ 2 / 2 - Real.log (2 * Real.pi) / 2 - Real.log sigma)| + |g - G| := by
      rw [show j - g - (-z ^ 2 / 2 - Real.log (2 * Real.pi) / 2 - Real.log sigma - G) =
        (j - (-z ^ 2 / 2 - Real.log (2 * Real.pi) / 2 - Real.log sigma)) - (g - G) by ring]
      exact abs_sub _ _
    linarith

/-- **C94, truncated Gaussian.** Inside the window the density that `truncnorm` returns in double precision has a
relative error of at most `1850 * δ` times the amplification, up to the smallest positive number, where `δ` is the
accuracy of the library.
What is missing for C94: narrow windows, for which the amplification exceeds `1 / (2000 * δ)`. -/
theorem C94_truncnorm_partial (hL : AccurateSpecial L δ) {x mu sigma lo hi : ℝ} (h : TruncnormArgs x mu sigma lo hi)
    (hK : 2000 * (δ * gaussAmplification mu sigma lo hi) ≤ 1)
    (hbig : normalised (gaussShape mu sigma) lo hi x ≤ 2 ^ (900 : ℤ)) :
    ∃ p, truncnormBodyD L (fin x) (fin mu) (fin sigma) (fin hi) (fin lo) = fin p ∧ IsDouble p ∧
      |p - normalised (gaussShape mu sigma) lo hi x| ≤
        1850 * (δ * gaussAmplification mu sigma lo hi) * normalised (gaussShape mu sigma) lo hi x + 2 ^ (-1074 : ℤ) := by
  obtain ⟨dx, dmu, ds, dlo, dhi⟩ := h.isDouble
  obtain ⟨hs1, hs2⟩ := h.width
  have hs : 0 < sigma := lt_of_lt_of_le (by positivity) hs1
  have hδ := hL.pos
  obtain ⟨z', z1, z2, z3⟩ := scaled_error dx dmu hs1 hs2 (h.range (x - mu) (by simp))
  obtain ⟨a', a1, a2, a3⟩ := scaled_error dlo dmu hs1 hs2 (h.range (lo - mu) (by simp))
  obtain ⟨b', b1, b2, b3⟩ := scaled_error dhi dmu hs1 hs2 (h.range (hi - mu) (by simp))
  have hab : (lo - mu) / sigma < (hi - mu) / sigma := by have := h.lt; gcongr
  have haz : (lo - mu) / sigma ≤ (x - mu) / sigma := by have := h.low; gcongr
  have hzb : (x - mu) / sigma ≤ (hi - mu) / sigma := by have := h.high; gcongr
  unfold gaussAmplification at hK ⊢
  obtain ⟨M, hM⟩ : ∃ M, M = max 1 (max |(lo - mu) / sigma| |(hi - mu) / sigma|) := ⟨_, rfl⟩
  rw [← hM] at hK ⊢
  have hM1 : 1 ≤ M := by rw [hM]; exact le_max_left _ _
  have hMa : |(lo - mu) / sigma| ≤ M := by rw [hM]; exact (le_max_left _ _).trans (le_max_right _ _)
  have hMb : |(hi - mu) / sigma| ≤ M := by rw [hM]; exact (le_max_right _ _).trans (le_max_right _ _)
  have hMz : |(x - mu) / sigma| ≤ M := by
    rw [abs_le]
    have := (abs_le.1 hMa).1
    have := (abs_le.1 hMb).2
    constructor <;> linarith
  have hw0 := windowShare_pos hab
  have hw1 := windowShare_le_one (a := (lo - mu) / sigma) (b := (hi - mu) / sigma)
  obtain ⟨R, hR⟩ : ∃ R, R = M ^ 2 / windowShare ((lo - mu) / sigma) ((hi - mu) / sigma) := ⟨_, rfl⟩
  have hMR : M ^ 2 ≤ R := by
    rw [hR, le_div_iff₀ hw0]
    exact mul_le_of_le_one_right (by positivity) hw1
  have hS0 : 0 ≤ |Real.log sigma| := abs_nonneg _
  have hR1 : 1 ≤ R := by nlinarith
  have hδR : δ ≤ δ * (R + |Real.log sigma|) := le_mul_of_one_le_right hδ.le (by linarith)
  rw [← hR] at hK ⊢
  have hK' : 2000 * (δ * R) ≤ 1 := by
    have : 0 ≤ δ * |Real.log sigma| := mul_nonneg hδ.le hS0
    rw [mul_add] at hK
    linarith
  obtain ⟨g, g1, g2, g3, g4⟩ := truncLogNormD_error hL hM1 hMa hMb hab a2 b2 a3 b3 (by rw [← hR]; exact hK')
  rw [← hR] at g3 g4
  obtain ⟨c, c1, c2, c3, c4⟩ := const_error hL (by linarith)
  obtain ⟨e, e1, e2, e3, e4⟩ := exponent_error hL hM1 hMz z3 hMR g3 g4 hs1 hs2 ds c3 c4 hK
  have hex := exact_eq_exp (mu := mu) hs h.lt h.low h.high
  obtain ⟨E, hE⟩ : ∃ E, E = -((x - mu) / sigma) ^ 2 / 2 - Real.log (2 * Real.pi) / 2 - Real.log sigma -
        Real.log (stdNormalCDF ((hi - mu) / sigma) - stdNormalCDF ((lo - mu) / sigma)) := ⟨_, rfl⟩
  rw [← hE] at hex e4
  rw [hex] at hbig ⊢
  have hE630 : E ≤ 630 := by
    have := Real.log_le_log (Real.exp_pos E) hbig
    rw [Real.log_exp] at this
    exact this.trans log_two_pow_le
  have hη : 920 * (δ * (R + |Real.log sigma|)) ≤ 1 := by linarith
  obtain ⟨p, p1, p2, p3⟩ := hL.exp e e2 e3 (by have := (abs_le.1 e4).2; linarith)
  refine ⟨p, ?_, p2, ?_⟩
  · unfold truncnormBodyD
    simp only [z1, a1, b1, c1, g1, e1, p1]
    simp only [fin_le, h.low, h.high, decide_true, ind, if_true, nanToNum_fin, fin_mul, mul_one]
  · have eE := exp_error e4 hη
    have hexp := Real.exp_pos E
    have h3 : Real.exp e ≤ 3 * Real.exp E := by
      have := (abs_le.1 eE).2
      nlinarith
    have t1 := abs_sub_le p (Real.exp e) (Real.exp E)
    have t2 : δ * Real.exp e ≤ δ * (3 * Real.exp E) := mul_le_mul_of_nonneg_left h3 hδ.le
    have t3 : δ * Real.exp E ≤ δ * (R + |Real.log sigma|) * Real.exp E := mul_le_mul_of_nonneg_right hδR hexp.le
    have t4 : 0 ≤ δ * (R + |Real.log sigma|) * Real.exp E := by positivity
    linarith

end GW
