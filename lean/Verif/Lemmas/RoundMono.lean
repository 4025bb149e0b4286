import Verif.Lemmas.RoundError

/-!
# Rounding is monotone
-/

noncomputable section

open Classical

namespace GW

namespace Fl

theorem roundEven_mono {x y : ℝ} (h : x ≤ y) : roundEven x ≤ roundEven y := by
  by_contra hn
  push Not at hn
  have h1 := abs_le.1 (roundEven_abs_sub x)
  have h2 := abs_le.1 (roundEven_abs_sub y)
  have h3 : (roundEven y : ℝ) + 1 ≤ roundEven x := by exact_mod_cast hn
  have : x = y := by linarith [h1.2, h2.1]
  rw [this] at hn
  exact lt_irrefl _ hn

theorem roundEven_odd (x : ℝ) : roundEven (-x) = -roundEven x := by
  have hf := Int.fract_add_floor x
  have h0 := Int.fract_nonneg x
  have h1 := Int.fract_lt_one x
  by_cases hz : Int.fract x = 0
  · have e : x = ⌊x⌋ := by rw [hz, zero_add] at hf; exact hf.symm
    rw [e, ← Int.cast_neg, roundEven_int, roundEven_int]
  · have f1 : Int.fract (-x) = 1 - Int.fract x := Int.fract_neg hz
    have f2 : ⌊-x⌋ = -⌊x⌋ - 1 := by
      rw [Int.floor_eq_iff]
      have : 0 < Int.fract x := lt_of_le_of_ne h0 (Ne.symm hz)
      push_cast
      constructor <;> linarith
    unfold roundEven
    rw [f1, f2]
    rcases lt_trichotomy (Int.fract x) (1 / 2) with h | h | h
    · rw [if_neg (by linarith), if_pos (by linarith), if_pos h]
      ring
    · rw [h]
      norm_num only
      simp only [if_false]
      by_cases he : Even ⌊x⌋
      · have ho : ¬ Even (-⌊x⌋ - 1) := by
          rw [Int.not_even_iff_odd]
          exact he.neg.sub_odd odd_one
        rw [if_neg ho, if_pos he]
        ring
      · have ho : Even (-⌊x⌋ - 1) := (Int.not_even_iff_odd.1 he).neg.sub_odd odd_one
        rw [if_pos ho, if_neg he]
        ring
    · rw [if_pos (by linarith), if_neg (by linarith), if_pos h]
      ring

theorem round53_odd (x : ℝ) : round53 (-x) = -round53 x := by
  have e : ulpExp (-x) = ulpExp x := by unfold ulpExp; rw [abs_neg]
  unfold round53
  rw [e, neg_div, roundEven_odd]
  push_cast
  ring

theorem round53_nonneg {x : ℝ} (h : 0 ≤ x) : 0 ≤ round53 x := by
  unfold round53
  have := le_roundEven (x := x / 2 ^ ulpExp x) (n := 0) (by push_cast; positivity)
  have h2 : (0 : ℝ) ≤ roundEven (x / 2 ^ ulpExp x) := by exact_mod_cast this
  positivity

theorem round53_mono_nonneg {x y : ℝ} (h0 : 0 ≤ x) (h : x ≤ y) : round53 x ≤ round53 y := by
  rcases h0.eq_or_lt with rfl | hx
  · rw [round53_zero]
    exact round53_nonneg h
  have hy : 0 < y := lt_of_lt_of_le hx h
  have hlog : Int.log 2 x ≤ Int.log 2 y := Int.log_mono_right hx h
  have ex : ulpExp x = max (Int.log 2 x - 52) (-1074) := by unfold ulpExp; rw [abs_of_pos hx]
  have ey : ulpExp y = max (Int.log 2 y - 52) (-1074) := by unfold ulpExp; rw [abs_of_pos hy]
  have hle : ulpExp x ≤ ulpExp y := by rw [ex, ey]; omega
  unfold round53
  rcases hle.eq_or_lt with he | hlt
  · rw [he]
    have := roundEven_mono (div_le_div_of_nonneg_right h (show (0 : ℝ) ≤ 2 ^ ulpExp y by positivity))
    have h2 : (roundEven (x / 2 ^ ulpExp y) : ℝ) ≤ roundEven (y / 2 ^ ulpExp y) := by exact_mod_cast this
    exact mul_le_mul_of_nonneg_right h2 (by positivity)
  · set k := Int.log 2 y with hk
    have ey2 : ulpExp y = k - 52 := by omega
    have hxk : x < 2 ^ k := by
      have := (Int.lt_zpow_iff_log_lt (b := 2) (by norm_num) hx (x := k)).2 (by omega)
      exact_mod_cast this
    have hky : (2 : ℝ) ^ k ≤ y := by
      have := Int.zpow_log_le_self (b := 2) (by norm_num) hy
      exact_mod_cast this
    have a1 : (roundEven (x / 2 ^ ulpExp x) : ℝ) * 2 ^ ulpExp x ≤ 2 ^ k := by
      obtain ⟨n, hn⟩ : ∃ n : ℕ, k - ulpExp x = n := ⟨(k - ulpExp x).toNat, by omega⟩
      have e : (2 : ℝ) ^ k = ((2 ^ n : ℤ) : ℝ) * 2 ^ ulpExp x := by
        push_cast
        rw [← zpow_natCast, ← hn, ← zpow_add₀ (by norm_num)]
        congr 1
        ring
      have := roundEven_le (x := x / 2 ^ ulpExp x) (n := 2 ^ n) (by
        rw [div_le_iff₀ (by positivity), ← e]
        exact hxk.le)
      have h2 : (roundEven (x / 2 ^ ulpExp x) : ℝ) ≤ ((2 ^ n : ℤ) : ℝ) := by exact_mod_cast this
      rw [e]
      exact mul_le_mul_of_nonneg_right h2 (by positivity)
    have a2 : (2 : ℝ) ^ k ≤ (roundEven (y / 2 ^ ulpExp y) : ℝ) * 2 ^ ulpExp y := by
      have e : (2 : ℝ) ^ k = ((2 ^ 52 : ℤ) : ℝ) * 2 ^ ulpExp y := by
        rw [ey2, zpow_sub₀ (by norm_num), show (2 : ℝ) ^ (52 : ℤ) = 4503599627370496 by norm_num]
        push_cast
        ring
      have := le_roundEven (x := y / 2 ^ ulpExp y) (n := 2 ^ 52) (by
        rw [le_div_iff₀ (by positivity), ← e]
        exact hky)
      have h2 : ((2 ^ 52 : ℤ) : ℝ) ≤ (roundEven (y / 2 ^ ulpExp y) : ℝ) := by exact_mod_cast this
      rw [e]
      exact mul_le_mul_of_nonneg_right h2 (by positivity)
    exact a1.trans a2

theorem round53_mono {x y : ℝ} (h : x ≤ y) : round53 x ≤ round53 y := by
  rcases le_total 0 x with hx | hx
  · exact round53_mono_nonneg hx h
  rcases le_total 0 y with hy | hy
  · have := round53_nonneg (x := -x) (by linarith)
    rw [round53_odd] at this
    linarith [round53_nonneg hy]
  · have := round53_mono_nonneg (x := -y) (y := -x) (by linarith) (by linarith)
    rw [round53_odd, round53_odd] at this
    linarith

/-- Numbers between two doubles are rounded to numbers between them. -/
theorem round53_between {a b x : ℝ} (ha : IsDouble a) (hb : IsDouble b) (h1 : a ≤ x) (h2 : x ≤ b) :
    a ≤ round53 x ∧ round53 x ≤ b := by
  have e1 := round53_mono h1
  have e2 := round53_mono h2
  rw [round53_of_isDouble ha] at e1
  rw [round53_of_isDouble hb] at e2
  exact ⟨e1, e2⟩

/-- The nearest double, overflow included. -/
theorem toDouble_mono {x y : ℝ} (h : x ≤ y) : toDouble (fin x) ≤ toDouble (fin y) := by
  have := round53_mono h
  show fl64 x ≤ fl64 y
  have hb : 0 < bigR := bigR_pos
  unfold fl64
  split_ifs <;> simp <;> linarith

end Fl

end GW
