import Verif.Lemmas.RoundError

/-!
# Relative errors
-/

noncomputable section

open Classical

namespace GW

open Fl

/-- `y` approximates `x` with relative error at most `a`. -/
def Rel (a x y : ℝ) : Prop := |y - x| ≤ a * |x|

theorem Rel.mono {a b x y : ℝ} (h : Rel a x y) (hab : a ≤ b) : Rel b x y :=
  le_trans h (mul_le_mul_of_nonneg_right hab (abs_nonneg x))

theorem Rel.size {a x y : ℝ} (h : Rel a x y) : |y| ≤ (1 + a) * |x| := by
  have := abs_add_le (y - x) x
  rw [sub_add_cancel] at this
  unfold Rel at h
  linarith

theorem Rel.trans {a b x y z : ℝ} (h : Rel a x y) (h' : Rel b y z) (hb : 0 ≤ b) :
    Rel (a + b + a * b) x z := by
  unfold Rel at *
  have h1 : |y| ≤ (1 + a) * |x| := Rel.size h
  have h2 := mul_le_mul_of_nonneg_left h1 hb
  have h3 := abs_sub_le z y x
  linarith [show (a + b + a * b) * |x| = a * |x| + b * ((1 + a) * |x|) by ring]

theorem Rel.mul {a b x y x' y' : ℝ} (h : Rel a x y) (h' : Rel b x' y') (hb : 0 ≤ b) :
    Rel (a + b + a * b) (x * x') (y * y') := by
  have h1 : Rel a (x * x') (y * x') := by
    unfold Rel
    rw [← sub_mul, abs_mul, abs_mul, ← mul_assoc]
    exact mul_le_mul_of_nonneg_right h (abs_nonneg _)
  have h2 : Rel b (y * x') (y * y') := by
    unfold Rel
    rw [← mul_sub, abs_mul, abs_mul, mul_left_comm]
    exact mul_le_mul_of_nonneg_left h' (abs_nonneg _)
  exact h1.trans h2 hb

theorem Rel.ne_zero {a x y : ℝ} (h : Rel a x y) (ha : a < 1) (hx : x ≠ 0) : y ≠ 0 := by
  rintro rfl
  unfold Rel at h
  rw [zero_sub, abs_neg] at h
  have := abs_pos.2 hx
  nlinarith

theorem Rel.pos {a x y : ℝ} (h : Rel a x y) (ha : a < 1) (hx : 0 < x) : 0 < y := by
  unfold Rel at h
  rw [abs_of_pos hx] at h
  have := (abs_le.1 h).1
  nlinarith

theorem Rel.inv {a x y : ℝ} (h : Rel a x y) (ha : a ≤ 1 / 2) (hx : x ≠ 0) : Rel (2 * a) x⁻¹ y⁻¹ := by
  have hy : y ≠ 0 := h.ne_zero (by linarith) hx
  unfold Rel at *
  have e : y⁻¹ - x⁻¹ = -((y - x) / (y * x)) := by
    field_simp
    ring
  have hxp := abs_pos.2 hx
  have hyp := abs_pos.2 hy
  have hlow : |x| ≤ 2 * |y| := by
    have := abs_sub_le x y 0
    rw [sub_zero, sub_zero, abs_sub_comm] at this
    nlinarith
  rw [e, abs_neg, abs_div, abs_mul, abs_inv, div_le_iff₀ (by positivity)]
  have : 2 * a * |x|⁻¹ * (|y| * |x|) = 2 * a * |y| := by
    field_simp
  rw [this]
  have ha0 : 0 ≤ a := by
    by_contra hc
    push Not at hc
    have := abs_nonneg (y - x)
    nlinarith
  nlinarith

theorem Rel.div {a b x y x' y' : ℝ} (h : Rel a x y) (h' : Rel b x' y') (hb : 0 ≤ b) (hb2 : b ≤ 1 / 2)
    (hx : x' ≠ 0) : Rel (a + 2 * b + a * (2 * b)) (x / x') (y / y') := by
  rw [div_eq_mul_inv, div_eq_mul_inv]
  exact h.mul (h'.inv hb2 hx) (by linarith)

/-- Rounding a number of moderate size. -/
theorem rel_toDouble {x : ℝ} (h1 : (2 : ℝ) ^ (-1022 : ℤ) ≤ |x|) (h2 : |x| ≤ 2 ^ (1023 : ℤ)) :
    toDouble (fin x) = fin (round53 x) ∧ Rel ur x (round53 x) :=
  ⟨fl64_of_le h2, round53_normal h1⟩

end GW
