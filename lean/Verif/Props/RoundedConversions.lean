import Verif.Model.RoundedConversions
import Verif.Props.RoundedGrid
import Verif.Props.Conversions

/-!
# C118: the conversions between Beta parameters in double precision
-/

noncomputable section

open Classical

namespace GW

open Fl

namespace Spec

/-- Mean, variance and maximum of a Beta distribution on `[0, amax]`: doubles of moderate size, with a variance
below that of any distribution on `[0, amax]` with that mean. -/
structure BetaMoments (mu var amax : ℝ) : Prop where
  isDouble : IsDouble mu ∧ IsDouble var ∧ IsDouble amax
  size : ∀ x ∈ [mu, var, amax], (2 : ℝ) ^ (-100 : ℤ) ≤ x ∧ x ≤ 2 ^ (100 : ℤ)
  mean : mu < amax
  variance : var < mu * (amax - mu)

/-- The Beta parameters of given mean and variance, from the textbook:
`alpha = (mu / amax) t` and `beta = (1 - mu / amax) t` with `t = mu (amax - mu) / var - 1`. -/
def betaAlpha (mu var amax : ℝ) : ℝ := mu / amax * (mu * (amax - mu) / var - 1)

/-- See `betaAlpha`. -/
def betaBeta (mu var amax : ℝ) : ℝ := (1 - mu / amax) * (mu * (amax - mu) / var - 1)

/-- How much the conversion amplifies rounding errors: it grows without bound as the variance tends to its
upper limit. -/
def momentAmplification (mu var amax : ℝ) : ℝ := mu * amax / (mu * (amax - mu) - var)

end Spec

open Spec

/-- **C118**, in full: valid moments are converted to valid Beta parameters. -/
def C118_statement : Prop :=
  ∀ (py : Bool) (mu var amax : ℝ), BetaMoments mu var amax →
    ∃ a b, muVarMaxToAlphaBetaMaxD py (fin mu) (fin var) (fin amax) = .ok (fin a, fin b, fin amax) ∧ 0 < a ∧ 0 < b

namespace RoundedConversions

/-- A rounding step for positive numbers. -/
theorem rel_step {x y e f : ℝ} (hx : 0 < x) (h1 : (2 : ℝ) ^ (-1000 : ℤ) ≤ x) (h2 : x ≤ 2 ^ (1000 : ℤ)) (h : Rel e x y)
    (he0 : 0 ≤ e) (he : e ≤ 1 / 2) (hf : e + ur + e * ur ≤ f) :
    toDouble (fin y) = fin (round53 y) ∧ Rel f x (round53 y) ∧ 0 < y := by
  have hy := h.pos (by linarith) hx
  have r := InR.rel (show InR (-1000) 1000 x from ⟨h1, h2⟩) h he
  obtain ⟨t1, t2⟩ := rel_toDouble (x := y)
    (by rw [abs_of_pos hy]; exact (two_zpow_le (by norm_num)).trans r.1)
    (by rw [abs_of_pos hy]; exact r.2.trans (two_zpow_le (by norm_num)))
  exact ⟨t1, (h.trans t2 ur_pos.le).mono hf, hy⟩

theorem pyDivD_fin (py : Bool) {a b : ℝ} (hb : b ≠ 0) : pyDivD py (fin a) (fin b) = .ok (toDouble (fin (a / b))) := by
  have : pyDiv py (fin a) (fin b) = .ok (fin (a / b)) := by simp [pyDiv, fin_div hb, hb]
  simp only [pyDivD, this, ok_bind, pure_eq_ok]

/-- The last steps: a difference of two numbers, divided by a third. -/
theorem difference_step {X Y X' Y' v v' e κ : ℝ} (hY : 0 ≤ Y) (hlt : Y < X) (hv : 0 < v) (h1 : Rel (12 * e) X X')
    (h2 : Rel (12 * e) Y Y') (h3 : Rel (4 * ur) v v') (hue : ur ≤ e) (hκ : e * X ≤ κ * (X - Y)) (heκ : e ≤ κ)
    (hs : 128 * κ ≤ 1) (r1 : InR (-900) 900 (X - Y)) (r2 : InR (-900) 900 ((X - Y) / v)) :
    toDouble (fin (X' - Y')) = fin (round53 (X' - Y')) ∧ v' ≠ 0 ∧
    toDouble (fin (round53 (X' - Y') / v')) = fin (round53 (round53 (X' - Y') / v')) ∧
    |round53 (round53 (X' - Y') / v') - (X - Y) / v| ≤ 60 * κ * ((X - Y) / v) := by
  have hu := ur_pos
  have hu1 : ur ≤ 1 / 1000 := by rw [ur_val]; norm_num
  have hX : 0 < X := lt_of_le_of_lt hY hlt
  have hd : 0 < X - Y := by linarith
  have hκ0 : 0 ≤ κ := by linarith
  have hdiff : Rel (24 * κ) (X - Y) (X' - Y') := by
    unfold Rel at *
    rw [abs_of_pos hX] at h1
    rw [abs_of_nonneg hY] at h2
    rw [abs_of_pos hd, show X' - Y' - (X - Y) = (X' - X) - (Y' - Y) by ring]
    have h4 := abs_sub (X' - X) (Y' - Y)
    have h5 : e * Y ≤ e * X := mul_le_mul_of_nonneg_left hlt.le (by linarith)
    linarith
  have hκu : 24 * κ * ur ≤ κ := by
    have := mul_le_mul_of_nonneg_left hu1 (by linarith : 0 ≤ 24 * κ)
    linarith
  obtain ⟨t1, t2, -⟩ := rel_step (f := 26 * κ) hd ((two_zpow_le (by norm_num)).trans r1.1)
    (r1.2.trans (two_zpow_le (by norm_num))) hdiff (by linarith) (by linarith) (by linarith)
  have hq := t2.div h3 (by linarith) (by linarith) hv.ne'
  have hκu2 : 26 * κ * (2 * (4 * ur)) ≤ κ := by
    have := mul_le_mul_of_nonneg_left hu1 (by linarith : 0 ≤ 208 * κ)
    linarith
  obtain ⟨s1, s2, -⟩ := rel_step (f := 60 * κ) (div_pos hd hv) ((two_zpow_le (by norm_num)).trans r2.1)
    (r2.2.trans (two_zpow_le (by norm_num))) (hq.mono (show _ ≤ 36 * κ by linarith)) (by linarith) (by linarith)
    (by
      have := mul_le_mul_of_nonneg_left hu1 (by linarith : 0 ≤ 36 * κ)
      linarith)
  refine ⟨t1, h3.ne_zero (by linarith) hv.ne', s1, ?_⟩
  unfold Rel at s2
  rwa [abs_of_pos (div_pos hd hv)] at s2

end RoundedConversions

namespace RoundedConversions

theorem Rel.same (x : ℝ) : Rel 0 x x := by simp [Rel]

end RoundedConversions

open RoundedConversions

set_option maxHeartbeats 1000000 in
/-- **C118**, the proved part: the computed parameters have relative error at most 60 units of roundoff times the
amplification `mu amax / (mu (amax - mu) - var)`, and so are positive, if the amplification is below
`2^53 / 128`. -/
theorem C118_error_partial (py : Bool) {mu var amax : ℝ} (h : BetaMoments mu var amax)
    (hs : 128 * (ur * momentAmplification mu var amax) ≤ 1) :
    ∃ a b, muVarMaxToAlphaBetaMaxD py (fin mu) (fin var) (fin amax) = .ok (fin a, fin b, fin amax) ∧
      |a - betaAlpha mu var amax| ≤ 60 * (ur * momentAmplification mu var amax) * betaAlpha mu var amax ∧
      |b - betaBeta mu var amax| ≤ 60 * (ur * momentAmplification mu var amax) * betaBeta mu var amax ∧
      0 < a ∧ 0 < b := by
  have hu := ur_pos
  have hu1 : ur ≤ 1 / 1000 := by rw [ur_val]; norm_num
  have rmu : InR (-100) 100 mu := h.size mu (by simp)
  have rvar : InR (-100) 100 var := h.size var (by simp)
  have ramax : InR (-100) 100 amax := h.size amax (by simp)
  have hmu := rmu.pos
  have hvar := rvar.pos
  have hamax := ramax.pos
  obtain ⟨m, hm⟩ : ∃ m, m = mu / amax := ⟨_, rfl⟩
  obtain ⟨v, hv⟩ : ∃ v, v = var / (amax * amax) := ⟨_, rfl⟩
  have rm : InR (-200) 200 m := by rw [hm]; exact (rmu.div ramax).mono (by norm_num) (by norm_num)
  have rv : InR (-300) 300 v := by rw [hv]; exact (rvar.div (ramax.mul ramax)).mono (by norm_num) (by norm_num)
  have hm0 := rm.pos
  have hv0 := rv.pos
  have hm1 : m < 1 := by rw [hm, div_lt_one hamax]; exact h.mean
  have hD : v < m * (1 - m) := by
    rw [hv, hm, div_lt_iff₀ (by positivity)]
    have : mu / amax * (1 - mu / amax) * (amax * amax) = mu * (amax - mu) := by field_simp
    rw [this]
    exact h.variance
  have hK : momentAmplification mu var amax = m / (m * (1 - m) - v) := by
    have h1 : mu * (amax - mu) - var ≠ 0 := by have := h.variance; linarith
    have h2 : m * (1 - m) - v = (mu * (amax - mu) - var) / (amax * amax) := by
      rw [hm, hv]; field_simp
    rw [h2, hm, momentAmplification]
    field_simp
  have hAl : betaAlpha mu var amax = (m * m * (1 - m) - m * v) / v := by
    rw [hm, hv, betaAlpha]
    field_simp
  have hBe : betaBeta mu var amax = (m * ((1 - m) * (1 - m)) - (1 - m) * v) / v := by
    rw [hm, hv, betaBeta]
    field_simp
  rw [hK] at hs ⊢
  rw [hAl, hBe]
  obtain ⟨D, hDd⟩ : ∃ D, D = m * (1 - m) - v := ⟨_, rfl⟩
  rw [← hDd] at hs ⊢
  have hD0 : 0 < D := by rw [hDd]; linarith
  have h1m : 0 < 1 - m := by linarith
  obtain ⟨e, he⟩ : ∃ e, e = ur / (1 - m) := ⟨_, rfl⟩
  obtain ⟨κ, hκ⟩ : ∃ κ, κ = ur * (m / D) := ⟨_, rfl⟩
  rw [← hκ] at hs ⊢
  have hue : ur ≤ e := by
    rw [he, le_div_iff₀ h1m]
    nlinarith
  have heκ : e ≤ κ := by
    rw [he, hκ, ← mul_div_assoc, div_le_div_iff₀ h1m hD0]
    have : D ≤ m * (1 - m) := by rw [hDd]; linarith
    calc ur * D ≤ ur * (m * (1 - m)) := mul_le_mul_of_nonneg_left this hu.le
      _ = ur * m * (1 - m) := by ring
  have he0 : 0 < e := lt_of_lt_of_le hu hue
  have hee : e * e ≤ e / 128 := by
    have := mul_le_mul_of_nonneg_left (show e ≤ 1 / 128 by linarith) he0.le
    linarith
  have heu : e * ur ≤ e / 1000 := by
    have := mul_le_mul_of_nonneg_left hu1 he0.le
    linarith
  have huu : ur * ur ≤ ur / 1000 := by
    have := mul_le_mul_of_nonneg_left hu1 hu.le
    linarith
  -- sizes
  have e47 : (2 : ℝ) ^ (-46 : ℤ) = 128 * ur := by rw [ur_val]; norm_num
  have r1m : InR (-46) 0 (1 - m) := by
    constructor
    · rw [e47]
      have : ur / (1 - m) ≤ 1 / 128 := by rw [← he]; linarith
      rw [div_le_iff₀ h1m] at this
      linarith
    · rw [zpow_zero]; linarith
  have rD : InR (-246) 0 D := by
    constructor
    · have h1 : 128 * (ur * m) ≤ D := by
        have : ur * (m / D) ≤ 1 / 128 := by rw [← hκ]; linarith
        rw [← mul_div_assoc, div_le_iff₀ hD0] at this
        linarith
      refine le_trans ?_ h1
      calc (2 : ℝ) ^ (-246 : ℤ) = 2 ^ (-46 : ℤ) * 2 ^ (-200 : ℤ) := by rw [← zpow_add₀ (by norm_num)]; norm_num
        _ ≤ 2 ^ (-46 : ℤ) * m := mul_le_mul_of_nonneg_left rm.1 (by positivity)
        _ = 128 * (ur * m) := by rw [e47]; ring
    · rw [zpow_zero, hDd]
      nlinarith
  have rm' : InR (-200) 0 m := ⟨rm.1, by rw [zpow_zero]; linarith⟩
  have big : ∀ {a b : ℤ} {x : ℝ}, InR a b x → -1000 ≤ a → b ≤ 1000 → (2 : ℝ) ^ (-1000 : ℤ) ≤ x ∧ x ≤ 2 ^ (1000 : ℤ) :=
    fun h h1 h2 => h.mono h1 h2
  -- the steps
  obtain ⟨a1, a2, -⟩ := rel_step (f := ur) hm0 (big rm (by norm_num) (by norm_num)).1 (big rm (by norm_num) (by norm_num)).2
    (Rel.same m) le_rfl (by norm_num) (by linarith)
  obtain ⟨m', hm'⟩ : ∃ m', m' = round53 m := ⟨_, rfl⟩
  rw [← hm'] at a1 a2
  have rA := ramax.mul ramax
  obtain ⟨b1, b2, -⟩ := rel_step (f := ur) rA.pos (big rA (by norm_num) (by norm_num)).1 (big rA (by norm_num) (by norm_num)).2
    (Rel.same _) le_rfl (by norm_num) (by linarith)
  obtain ⟨A, hA⟩ : ∃ A, A = round53 (amax * amax) := ⟨_, rfl⟩
  rw [← hA] at b1 b2
  have hA0 : A ≠ 0 := b2.ne_zero (by linarith) rA.pos.ne'
  have c0 := (Rel.same var).div b2 hu.le (by linarith) rA.pos.ne'
  rw [← hv] at c0
  obtain ⟨c1, c2, -⟩ := rel_step (f := 4 * ur) hv0 (big rv (by norm_num) (by norm_num)).1 (big rv (by norm_num) (by norm_num)).2
    (c0.mono (show _ ≤ 2 * ur by linarith)) (by linarith) (by linarith) (by linarith)
  obtain ⟨v', hv'⟩ : ∃ v', v' = round53 (var / A) := ⟨_, rfl⟩
  rw [← hv'] at c1 c2
  have d0 : Rel e (1 - m) (1 - m') := by
    unfold Rel at a2 ⊢
    rw [abs_of_pos h1m, he, div_mul_cancel₀ _ h1m.ne', show 1 - m' - (1 - m) = -(m' - m) by ring, abs_neg]
    refine a2.trans ?_
    rw [abs_of_pos hm0]
    nlinarith
  obtain ⟨d1, d2, -⟩ := rel_step (f := 3 * e) h1m (big r1m (by norm_num) (by norm_num)).1 (big r1m (by norm_num) (by norm_num)).2
    d0 he0.le (by linarith) (by linarith)
  obtain ⟨c, hc⟩ : ∃ c, c = round53 (1 - m') := ⟨_, rfl⟩
  rw [← hc] at d1 d2
  have rmm := rm'.mul rm'
  obtain ⟨f1, f2, -⟩ := rel_step (f := 5 * e) rmm.pos (big rmm (by norm_num) (by norm_num)).1 (big rmm (by norm_num) (by norm_num)).2
    ((a2.mul a2 hu.le).mono (show _ ≤ 3 * ur by linarith)) (by linarith) (by linarith) (by linarith)
  obtain ⟨M, hM⟩ : ∃ M, M = round53 (m' * m') := ⟨_, rfl⟩
  rw [← hM] at f1 f2
  have rX := rmm.mul r1m
  obtain ⟨g1, g2, -⟩ := rel_step (f := 12 * e) rX.pos (big rX (by norm_num) (by norm_num)).1 (big rX (by norm_num) (by norm_num)).2
    ((f2.mul d2 (by linarith)).mono (show _ ≤ 9 * e by linarith)) (by linarith) (by linarith) (by linarith)
  have rY := rm'.mul rv
  obtain ⟨i1, i2, -⟩ := rel_step (f := 12 * e) rY.pos (big rY (by norm_num) (by norm_num)).1 (big rY (by norm_num) (by norm_num)).2
    ((a2.mul c2 (by linarith)).mono (show _ ≤ 6 * ur by linarith)) (by linarith) (by linarith) (by linarith)
  have rcc := r1m.mul r1m
  obtain ⟨j1, j2, -⟩ := rel_step (f := 9 * e) rcc.pos (big rcc (by norm_num) (by norm_num)).1 (big rcc (by norm_num) (by norm_num)).2
    ((d2.mul d2 (by linarith)).mono (show _ ≤ 7 * e by linarith)) (by linarith) (by linarith) (by linarith)
  obtain ⟨C, hC⟩ : ∃ C, C = round53 (c * c) := ⟨_, rfl⟩
  rw [← hC] at j1 j2
  have rXb := rm'.mul rcc
  obtain ⟨k1, k2, -⟩ := rel_step (f := 12 * e) rXb.pos (big rXb (by norm_num) (by norm_num)).1 (big rXb (by norm_num) (by norm_num)).2
    ((a2.mul j2 (by linarith)).mono (show _ ≤ 21 / 2 * e by linarith)) (by linarith) (by linarith) (by linarith)
  have rYb := r1m.mul rv
  obtain ⟨l1, l2, -⟩ := rel_step (f := 12 * e) rYb.pos (big rYb (by norm_num) (by norm_num)).1 (big rYb (by norm_num) (by norm_num)).2
    ((d2.mul c2 (by linarith)).mono (show _ ≤ 8 * e by linarith)) (by linarith) (by linarith) (by linarith)
  -- the differences
  have dA : m * m * (1 - m) - m * v = m * D := by rw [hDd]; ring
  have dB : m * ((1 - m) * (1 - m)) - (1 - m) * v = (1 - m) * D := by rw [hDd]; ring
  have q1 := difference_step (X := m * m * (1 - m)) (Y := m * v) (e := e) (κ := κ) rY.pos.le
    (by have := mul_pos hm0 hD0; linarith) hv0 g2 i2 c2 hue
    (by rw [dA, he, hκ]; apply le_of_eq; field_simp) heκ hs
    (by rw [dA]; exact (rm'.mul rD).mono (by norm_num) (by norm_num))
    (by rw [dA]; exact ((rm'.mul rD).div rv).mono (by norm_num) (by norm_num))
  have q2 := difference_step (X := m * ((1 - m) * (1 - m))) (Y := (1 - m) * v) (e := e) (κ := κ) rYb.pos.le
    (by have := mul_pos h1m hD0; linarith) hv0 k2 l2 c2 hue
    (by rw [dB, he, hκ]; apply le_of_eq; field_simp) heκ hs
    (by rw [dB]; exact (r1m.mul rD).mono (by norm_num) (by norm_num))
    (by rw [dB]; exact ((r1m.mul rD).div rv).mono (by norm_num) (by norm_num))
  obtain ⟨s1, hv'0, s2, s3⟩ := q1
  obtain ⟨t1, -, t2, t3⟩ := q2
  refine ⟨_, _, ?_, s3, t3, ?_, ?_⟩
  · have z1 : pyDivD py (fin mu) (fin amax) = .ok (fin m') := by rw [pyDivD_fin py hamax.ne', ← hm, a1]
    have z2 : pyDivD py (fin var) (mulD (fin amax) (fin amax)) = .ok (fin v') := by
      rw [mulD, fin_mul, b1, pyDivD_fin py hA0, c1]
    simp only [muVarMaxToAlphaBetaMaxD, z1, z2, ok_bind]
    simp only [ok_bind, one_eq, fin_sub, d1, mulD, fin_mul, f1, g1, i1, j1, k1, l1, s1, t1,
      pyDivD_fin py hv'0, s2, t2, pure_eq_ok]
  · have hp : 0 < (m * m * (1 - m) - m * v) / v := by rw [dA]; positivity
    have := (_root_.abs_le.1 s3).1
    nlinarith [mul_le_mul_of_nonneg_right (show 60 * κ ≤ 1 / 2 by linarith) hp.le]
  · have hp : 0 < (m * ((1 - m) * (1 - m)) - (1 - m) * v) / v := by rw [dB]; positivity
    have := (_root_.abs_le.1 t3).1
    nlinarith [mul_le_mul_of_nonneg_right (show 60 * κ ≤ 1 / 2 by linarith) hp.le]

namespace RoundedConversions

/-- Exact results of operations on doubles. -/
theorem toDouble_dyadic {x : ℝ} (n k : ℤ) (hn : |n| ≤ 2 ^ 53) (hk : -1074 ≤ k) (hx : x = n * 2 ^ k) (h1 : |x| ≤ 1) :
    toDouble (fin x) = fin x := by
  have h := fl64_of_le (x := x) (h1.trans (by simpa using two_zpow_le (show (0 : ℤ) ≤ 1023 by norm_num)))
  rw [round53_of_isDouble ⟨n, k, hn, hk, hx⟩] at h
  exact h

/-- Rounding a number whose binary exponent is known. -/
theorem toDouble_exponent {x : ℝ} {j n : ℤ} (h1 : (2 : ℝ) ^ j ≤ x) (h2 : x < 2 ^ (j + 1)) (hj : -1000 ≤ j) (hj2 : j ≤ 1000)
    (hr : roundEven (x / 2 ^ (j - 52)) = n) : toDouble (fin x) = fin (n * 2 ^ (j - 52)) := by
  have hx : 0 < x := lt_of_lt_of_le (by positivity) h1
  have hlog : Int.log 2 |x| = j := by
    rw [abs_of_pos hx]
    refine le_antisymm ?_ ((Int.zpow_le_iff_le_log (b := 2) (by norm_num) hx).1 (by exact_mod_cast h1))
    have := (Int.lt_zpow_iff_log_lt (b := 2) (by norm_num) hx).1 (by exact_mod_cast h2)
    omega
  have hulp : ulpExp x = j - 52 := by
    unfold ulpExp
    rw [hlog]
    exact max_eq_left (by omega)
  have h3 := fl64_of_le (x := x) (by
    rw [abs_of_pos hx]
    exact h2.le.trans (two_zpow_le (by omega)))
  rw [round53, hulp, hr] at h3
  exact h3

theorem roundEven_tie {k : ℤ} (hk : Even k) : roundEven (k + 1 / 2) = k := by
  have hf : ⌊(k : ℝ) + 1 / 2⌋ = k := by
    rw [Int.floor_eq_iff]
    constructor <;> linarith
  have hr : Int.fract ((k : ℝ) + 1 / 2) = 1 / 2 := by
    rw [Int.fract, hf]
    ring
  unfold roundEven
  rw [hr, hf, if_neg (lt_irrefl _), if_neg (lt_irrefl _), if_pos hk]

end RoundedConversions

/-- The counterexample: mean `1/2 - 2^-28` and variance `1/4 - 2^-55`, on `[0, 1]`. -/
theorem C118_zero (py : Bool) : BetaMoments (1 / 2 - 2 ^ (-28 : ℤ)) (1 / 4 - 2 ^ (-55 : ℤ)) 1 ∧
    ∃ b, muVarMaxToAlphaBetaMaxD py (fin (1 / 2 - 2 ^ (-28 : ℤ))) (fin (1 / 4 - 2 ^ (-55 : ℤ))) (fin 1) =
      .ok (fin 0, b, fin 1) := by
  have dmu : (1 / 2 - 2 ^ (-28 : ℤ) : ℝ) = ((2 ^ 27 - 1 : ℤ) : ℝ) * 2 ^ (-28 : ℤ) := by norm_num
  have dvar : (1 / 4 - 2 ^ (-55 : ℤ) : ℝ) = ((2 ^ 53 - 1 : ℤ) : ℝ) * 2 ^ (-55 : ℤ) := by norm_num
  have small : ∀ {x : ℝ}, 1 / 8 ≤ x → x ≤ 1 → (2 : ℝ) ^ (-100 : ℤ) ≤ x ∧ x ≤ 2 ^ (100 : ℤ) := by
    intro x h1 h2
    constructor
    · exact le_trans (by norm_num) h1
    · exact h2.trans (by norm_num)
  constructor
  · refine ⟨⟨⟨_, _, by norm_num, by norm_num, dmu⟩, ⟨_, _, by norm_num, by norm_num, dvar⟩,
      ⟨1, 0, by norm_num, by norm_num, by norm_num⟩⟩, ?_, by norm_num, by norm_num⟩
    intro x hx
    simp only [List.mem_cons, List.not_mem_nil, or_false] at hx
    rcases hx with rfl | rfl | rfl
    · exact small (by norm_num) (by norm_num)
    · exact small (by norm_num) (by norm_num)
    · exact small (by norm_num) (by norm_num)
  · have e0 : toDouble (fin ((1 / 2 - 2 ^ (-28 : ℤ)) / 1)) = fin (1 / 2 - 2 ^ (-28 : ℤ)) := by
      rw [div_one]
      exact toDouble_dyadic _ _ (by norm_num) (by norm_num) dmu (by norm_num [abs_le])
    have e1 : toDouble (fin (1 * 1)) = fin 1 := by
      rw [mul_one]
      exact toDouble_dyadic 1 0 (by norm_num) (by norm_num) (by norm_num) (by norm_num)
    have e2 : toDouble (fin ((1 / 4 - 2 ^ (-55 : ℤ)) / 1)) = fin (1 / 4 - 2 ^ (-55 : ℤ)) := by
      rw [div_one]
      exact toDouble_dyadic _ _ (by norm_num) (by norm_num) dvar (by norm_num [abs_le])
    have e3 : toDouble (fin (1 - (1 / 2 - 2 ^ (-28 : ℤ)))) = fin (1 / 2 + 2 ^ (-28 : ℤ)) := by
      have : (1 - (1 / 2 - 2 ^ (-28 : ℤ)) : ℝ) = 1 / 2 + 2 ^ (-28 : ℤ) := by ring
      rw [this]
      exact toDouble_dyadic (2 ^ 27 + 1) (-28) (by norm_num) (by norm_num) (by norm_num) (by norm_num [abs_le])
    have e4 : toDouble (fin ((1 / 2 - 2 ^ (-28 : ℤ)) * (1 / 2 - 2 ^ (-28 : ℤ)))) = fin (1 / 4 - 2 ^ (-28 : ℤ)) := by
      rw [toDouble_exponent (j := -3) (n := 2 ^ 53 - 2 ^ 27) (by norm_num) (by norm_num) (by norm_num) (by norm_num)]
      · norm_num
      · rw [← roundEven_tie (k := 2 ^ 53 - 2 ^ 27) (by decide)]
        congr 1
        norm_num
    have e5 : toDouble (fin ((1 / 4 - 2 ^ (-28 : ℤ)) * (1 / 2 + 2 ^ (-28 : ℤ)))) =
        fin (((2 ^ 53 - 2 ^ 26 - 1 : ℤ) : ℝ) * 2 ^ (-56 : ℤ)) := by
      have : ((1 / 4 - 2 ^ (-28 : ℤ)) * (1 / 2 + 2 ^ (-28 : ℤ)) : ℝ) =
          ((2 ^ 53 - 2 ^ 26 - 1 : ℤ) : ℝ) * 2 ^ (-56 : ℤ) := by norm_num
      rw [this]
      exact toDouble_dyadic _ _ (by norm_num) (by norm_num) rfl (by norm_num [abs_le])
    have e6 : toDouble (fin ((1 / 2 - 2 ^ (-28 : ℤ)) * (1 / 4 - 2 ^ (-55 : ℤ)))) =
        fin (((2 ^ 53 - 2 ^ 26 - 1 : ℤ) : ℝ) * 2 ^ (-56 : ℤ)) := by
      rw [toDouble_exponent (j := -4) (n := 2 ^ 53 - 2 ^ 26 - 1) (by norm_num) (by norm_num) (by norm_num) (by norm_num)]
      · norm_num
      · refine roundEven_near ?_
        norm_num [abs_lt]
    have e7 : toDouble (fin 0) = fin 0 := toDouble_dyadic 0 0 (by norm_num) (by norm_num) (by norm_num) (by norm_num)
    have hv0 : (1 / 4 - 2 ^ (-55 : ℤ) : ℝ) ≠ 0 := by norm_num
    have hdiv : ∀ x, pyDivD py x (fin (1 / 4 - 2 ^ (-55 : ℤ))) = .ok (toDouble (x / fin (1 / 4 - 2 ^ (-55 : ℤ)))) := by
      intro x
      have : pyDiv py x (fin (1 / 4 - 2 ^ (-55 : ℤ))) = .ok (x / fin (1 / 4 - 2 ^ (-55 : ℤ))) := by
        rw [pyDiv, if_neg]
        rintro ⟨-, h⟩
        exact hv0 h
      simp only [pyDivD, this, ok_bind, pure_eq_ok]
    generalize hmu : (1 / 2 - 2 ^ (-28 : ℤ) : ℝ) = mu at *
    generalize hvar : (1 / 4 - 2 ^ (-55 : ℤ) : ℝ) = var at *
    have z1 : pyDivD py (fin mu) (fin 1) = .ok (fin mu) := by rw [pyDivD_fin py one_ne_zero, e0]
    have z2 : pyDivD py (fin var) (mulD (fin 1) (fin 1)) = .ok (fin var) := by
      rw [mulD, fin_mul, e1, pyDivD_fin py one_ne_zero, e2]
    refine ⟨toDouble (toDouble (mulD (fin mu) (mulD (fin (1 / 2 + 2 ^ (-28 : ℤ))) (fin (1 / 2 + 2 ^ (-28 : ℤ)))) -
      mulD (fin (1 / 2 + 2 ^ (-28 : ℤ))) (fin var)) / fin var), ?_⟩
    · simp only [muVarMaxToAlphaBetaMaxD, z1, z2, ok_bind, hdiv, pure_eq_ok]
      rw [one_eq, fin_sub, e3]
      simp only [mulD, fin_mul, e4, e5, e6, fin_sub, sub_self, e7, fin_div hv0, zero_div]

/-- **C118** fails: valid moments can be converted to `alpha = 0`, for which there is no Beta distribution. -/
theorem C118_fails : ¬ C118_statement := by
  intro h
  obtain ⟨hm, b, hb⟩ := C118_zero true
  obtain ⟨a, b', e, ha, -⟩ := h true _ _ _ hm
  rw [hb] at e
  simp only [Except.ok.injEq, Prod.mk.injEq, fin.injEq] at e
  exact ha.ne e.1

/-- **C118**, the usual case: on `[0, 1]` with a mean between 0.05 and 0.95 and a variance below 90% of its upper
limit the computed parameters are correct to 12 digits. -/
theorem C118_usual_partial (py : Bool) {mu var : ℝ} (hd : IsDouble mu ∧ IsDouble var) (h1 : 0.05 ≤ mu) (h2 : mu ≤ 0.95)
    (h3 : (2 : ℝ) ^ (-100 : ℤ) ≤ var) (h4 : var ≤ 0.9 * (mu * (1 - mu))) :
    ∃ a b, muVarMaxToAlphaBetaMaxD py (fin mu) (fin var) (fin 1) = .ok (fin a, fin b, fin 1) ∧
      |a - betaAlpha mu var 1| ≤ 2 / 10 ^ 12 * betaAlpha mu var 1 ∧
      |b - betaBeta mu var 1| ≤ 2 / 10 ^ 12 * betaBeta mu var 1 ∧ 0 < a ∧ 0 < b := by
  have hq : 0 < mu * (1 - mu) := by nlinarith
  have hv0 : 0 < var := lt_of_lt_of_le (by positivity) h3
  have hK : momentAmplification mu var 1 ≤ 200 := by
    unfold momentAmplification
    rw [mul_one, div_le_iff₀ (by linarith)]
    nlinarith
  have hu := ur_val
  have hm : BetaMoments mu var 1 := by
    refine ⟨⟨hd.1, hd.2, ⟨1, 0, by norm_num, by norm_num, by norm_num⟩⟩, ?_, by linarith, by linarith⟩
    intro x hx
    simp only [List.mem_cons, List.not_mem_nil, or_false] at hx
    have big : (1 : ℝ) ≤ 2 ^ (100 : ℤ) := by norm_num
    have low : (2 : ℝ) ^ (-100 : ℤ) ≤ 0.05 := by norm_num
    rcases hx with rfl | rfl | rfl
    · exact ⟨low.trans h1, by linarith⟩
    · exact ⟨h3, by nlinarith⟩
    · exact ⟨low.trans (by norm_num), big⟩
  have hs : ur * momentAmplification mu var 1 ≤ ur * 200 := mul_le_mul_of_nonneg_left hK ur_pos.le
  obtain ⟨a, b, e, ha, hb, ha0, hb0⟩ := C118_error_partial py hm (by rw [hu] at hs ⊢; linarith)
  have ht : 0 < mu * (1 - mu) / var - 1 := by
    rw [sub_pos, lt_div_iff₀ hv0]
    linarith
  have p1 : 0 < betaAlpha mu var 1 := by
    unfold betaAlpha
    exact mul_pos (by rw [div_one]; linarith) ht
  have p2 : 0 < betaBeta mu var 1 := by
    unfold betaBeta
    exact mul_pos (by rw [div_one]; linarith) ht
  have hc : 60 * (ur * momentAmplification mu var 1) ≤ 2 / 10 ^ 12 := by
    rw [hu] at hs ⊢
    refine (mul_le_mul_of_nonneg_left hs (by norm_num)).trans ?_
    norm_num
  exact ⟨a, b, e, ha.trans (mul_le_mul_of_nonneg_right hc p1.le), hb.trans (mul_le_mul_of_nonneg_right hc p2.le), ha0, hb0⟩

/-- Doubles of moderate size. -/
def Spec.ModerateDouble (x : ℝ) : Prop := IsDouble x ∧ (2 : ℝ) ^ (-100 : ℤ) ≤ x ∧ x ≤ 2 ^ (100 : ℤ)

/-- **C118**, the other direction has no such limit: mean and variance are computed from Beta parameters with
relative errors at most 6 and 20 units of roundoff. -/
theorem C118_moments_partial (py : Bool) {a b m : ℝ} (ha : ModerateDouble a) (hb : ModerateDouble b)
    (hm : ModerateDouble m) :
    ∃ mu var, alphaBetaMaxToMuVarMaxD py (fin a) (fin b) (fin m) = .ok (fin mu, fin var, fin m) ∧
      |mu - m * (a / (a + b))| ≤ 6 * ur * (m * (a / (a + b))) ∧
      |var - m ^ 2 * (a * b / ((a + b) ^ 2 * (a + b + 1)))| ≤
        20 * ur * (m ^ 2 * (a * b / ((a + b) ^ 2 * (a + b + 1)))) := by
  have ra : InR (-100) 100 a := ha.2
  have rb : InR (-100) 100 b := hb.2
  have rm : InR (-100) 100 m := hm.2
  have sum101 : (2 : ℝ) ^ (101 : ℤ) = 2 * 2 ^ (100 : ℤ) := by norm_num
  have rs : InR (-100) 101 (a + b) := ⟨by linarith [ra.1, rb.pos], by rw [sum101]; linarith [ra.2, rb.2]⟩
  have rs1 : InR 0 102 (a + b + 1) := by
    refine ⟨by rw [zpow_zero]; linarith [rs.pos], ?_⟩
    have e : (2 : ℝ) ^ (102 : ℤ) = 2 * 2 ^ (101 : ℤ) := by norm_num
    have : (1 : ℝ) ≤ 2 ^ (101 : ℤ) := by norm_num
    rw [e]
    linarith [rs.2]
  obtain ⟨s, es, -, ns⟩ := RoundedGrid.InR.round (k := 0) rs (Near.refl _) (by norm_num) (by norm_num) (by norm_num)
  obtain ⟨r, er, -, nr⟩ := RoundedGrid.InR.round (ra.div rs) ((Near.refl a).div ns ra.pos.le rs.pos) (by norm_num)
    (by norm_num) (by norm_num)
  obtain ⟨mu, emu, -, nmu⟩ := RoundedGrid.InR.round ((ra.div rs).mul rm) (nr.mul (Near.refl m) (ra.div rs).pos.le rm.pos.le)
    (by norm_num) (by norm_num) (by norm_num)
  obtain ⟨p, ep, -, np⟩ := RoundedGrid.InR.round (k := 0) (ra.mul rb) (Near.refl _) (by norm_num) (by norm_num) (by norm_num)
  obtain ⟨q, eq, -, nq⟩ := RoundedGrid.InR.round (rs.mul rs) (ns.mul ns rs.pos.le rs.pos.le) (by norm_num) (by norm_num)
    (by norm_num)
  obtain ⟨t, et, -, nt⟩ := RoundedGrid.InR.round rs1 (ns.add ((Near.refl 1).mono (by norm_num) (by norm_num))) (by norm_num)
    (by norm_num) (by norm_num)
  obtain ⟨d, ed, -, nd⟩ := RoundedGrid.InR.round ((rs.mul rs).mul rs1) (nq.mul nt (rs.mul rs).pos.le rs1.pos.le) (by norm_num)
    (by norm_num) (by norm_num)
  have rD := (rs.mul rs).mul rs1
  obtain ⟨v, ev, -, nv⟩ := RoundedGrid.InR.round ((ra.mul rb).div rD) (np.div nd (ra.mul rb).pos.le rD.pos) (by norm_num)
    (by norm_num) (by norm_num)
  obtain ⟨w, ew, -, nw⟩ := RoundedGrid.InR.round (k := 0) (rm.mul rm) (Near.refl _) (by norm_num) (by norm_num) (by norm_num)
  have rv := (ra.mul rb).div rD
  obtain ⟨var, evar, -, nvar⟩ := RoundedGrid.InR.round (rv.mul (rm.mul rm)) (nv.mul nw rv.pos.le (rm.mul rm).pos.le)
    (by norm_num) (by norm_num) (by norm_num)
  have hs0 : s ≠ 0 := (ns.pos rs.pos).ne'
  have hd0 : d ≠ 0 := (nd.pos rD.pos).ne'
  refine ⟨mu, var, ?_, ?_, ?_⟩
  · simp only [alphaBetaMaxToMuVarMaxD, fin_add, es, pyDivD_fin py hs0, er, ok_bind, mulD, fin_mul, ep, eq, one_eq, et, ed,
      pyDivD_fin py hd0, ev, emu, ew, evar]
    rfl
  · have := nmu.abs_sub ((ra.div rs).mul rm).pos.le (by norm_num)
    rw [mul_comm m]
    refine this.trans (le_of_eq ?_)
    push_cast
    ring
  · have := nvar.abs_sub (rv.mul (rm.mul rm)).pos.le (by norm_num)
    have e : a * b / ((a + b) * (a + b) * (a + b + 1)) * (m * m) = m ^ 2 * (a * b / ((a + b) ^ 2 * (a + b + 1))) := by ring
    rw [e] at this
    refine this.trans (le_of_eq ?_)
    push_cast
    ring

/-- Non-vacuity: mean 1/2 and variance 1/16. -/
example (py : Bool) : ∃ a b, muVarMaxToAlphaBetaMaxD py (fin (1 / 2)) (fin (1 / 16)) (fin 1) = .ok (fin a, fin b, fin 1) ∧
    |a - 3 / 2| ≤ 3 / 10 ^ 12 ∧ 0 < b := by
  obtain ⟨a, b, e, ha, -, -, hb⟩ := C118_usual_partial py (mu := 1 / 2) (var := 1 / 16)
    ⟨⟨1, -1, by norm_num, by norm_num, by norm_num⟩, ⟨1, -4, by norm_num, by norm_num, by norm_num⟩⟩ (by norm_num)
    (by norm_num) (by norm_num) (by norm_num)
  refine ⟨a, b, e, ?_, hb⟩
  have e1 : betaAlpha (1 / 2) (1 / 16) 1 = 3 / 2 := by unfold betaAlpha; norm_num
  rw [e1] at ha
  exact ha.trans (by norm_num)

example (py : Bool) : ∃ mu var, alphaBetaMaxToMuVarMaxD py (fin 2) (fin 3) (fin 1) = .ok (fin mu, fin var, fin 1) ∧
    |mu - 2 / 5| ≤ 6 * ur * (2 / 5) := by
  have h : ∀ n : ℤ, 1 ≤ n → n ≤ 3 → ModerateDouble n := by
    intro n h1 h2
    have c1 : (1 : ℝ) ≤ n := by exact_mod_cast h1
    have c2 : (n : ℝ) ≤ 3 := by exact_mod_cast h2
    exact ⟨isDouble_int (by rw [_root_.abs_le]; constructor <;> omega), le_trans (by norm_num) c1, c2.trans (by norm_num)⟩
  obtain ⟨mu, var, e, h1, -⟩ := C118_moments_partial py (a := 2) (b := 3) (m := 1) (by exact_mod_cast h 2 (by norm_num) (by norm_num))
    (by exact_mod_cast h 3 (by norm_num) (by norm_num)) (by exact_mod_cast h 1 (by norm_num) (by norm_num))
  refine ⟨mu, var, e, ?_⟩
  have e1 : (1 : ℝ) * (2 / (2 + 3)) = 2 / 5 := by norm_num
  rwa [e1] at h1

end GW
