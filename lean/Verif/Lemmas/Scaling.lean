import Verif.Num.Arr
import Verif.Py

/-!
# Multiplication of floats by a positive finite constant

It commutes with all operations of the likelihoods, for all floats including infinities and NaN.
-/

noncomputable section

open Classical

namespace GW.Fl

variable {c : ℝ}

theorem scale_pinf (hc : 0 < c) : fin c * pinf = pinf := signInf_pos hc

theorem scale_ninf (hc : 0 < c) : fin c * ninf = ninf := signInf_neg (by linarith)

theorem scale_signInf (hc : 0 < c) (a : ℝ) : signInf (c * a) = signInf a := by
  rcases lt_trichotomy a 0 with h | h | h
  · rw [signInf_neg h, signInf_neg (mul_neg_of_pos_of_neg hc h)]
  · rw [h, mul_zero]
  · rw [signInf_pos h, signInf_pos (mul_pos hc h)]

theorem scale_signInf' (hc : 0 < c) (a : ℝ) : fin c * signInf a = signInf a := by
  rcases signInf_cases a with ⟨_, h⟩ | ⟨_, h⟩ | ⟨_, h⟩ <;> simp only [h]
  · exact scale_pinf hc
  · exact scale_ninf hc
  · exact mul_nan _

theorem scale_add (hc : 0 < c) (x y : Fl) : fin c * (x + y) = fin c * x + fin c * y := by
  cases x <;> cases y <;> simp [scale_pinf hc, scale_ninf hc, -fin_mul_pinf, -fin_mul_ninf, mul_add]

theorem scale_neg (hc : 0 < c) (x : Fl) : -(fin c * x) = fin c * -x := by
  cases x <;> simp [scale_pinf hc, scale_ninf hc, -fin_mul_pinf, -fin_mul_ninf]

theorem scale_sub (hc : 0 < c) (x y : Fl) : fin c * (x - y) = fin c * x - fin c * y := by
  rw [sub_eq_add_neg', sub_eq_add_neg', scale_neg hc, scale_add hc]

theorem scale_div (hc : 0 < c) (x y : Fl) : (fin c * x) / y = fin c * (x / y) := by
  cases x <;> cases y <;>
    simp only [scale_pinf hc, scale_ninf hc, nan_div, div_nan, mul_nan, fin_mul, fin_div_pinf,
      fin_div_ninf, mul_zero, pinf_div_pinf, pinf_div_ninf, ninf_div_pinf, ninf_div_ninf, fin_div_def,
      pinf_div_fin, ninf_div_fin]
  · split_ifs
    · rw [scale_signInf hc, scale_signInf' hc]
    · rw [fin_mul, mul_div_assoc]
  · split_ifs <;> simp only [scale_pinf hc, scale_ninf hc]
  · split_ifs <;> simp only [scale_pinf hc, scale_ninf hc]

theorem div_scale (hc : 0 < c) (x y : Fl) : x / (fin c * y) = fin c⁻¹ * (x / y) := by
  have hi : 0 < c⁻¹ := inv_pos.2 hc
  cases x <;> cases y <;>
    simp only [scale_pinf hc, scale_ninf hc, nan_div, div_nan, mul_nan, fin_mul, fin_div_pinf,
      fin_div_ninf, mul_zero, pinf_div_pinf, pinf_div_ninf, ninf_div_pinf, ninf_div_ninf, fin_div_def,
      pinf_div_fin, ninf_div_fin, mul_eq_zero, hc.ne', false_or, mul_neg_iff, hc, true_and,
      not_lt.2 hc.le, false_and, or_false]
  · split_ifs with h
    · rw [scale_signInf' hi]
    · rw [fin_mul, fin_inj]; field_simp
  · split_ifs <;> simp only [scale_pinf hi, scale_ninf hi]
  · split_ifs <;> simp only [scale_pinf hi, scale_ninf hi]

theorem scale_inv_scale (hc : 0 < c) (x : Fl) : fin c⁻¹ * (fin c * x) = x := by
  rw [← mul_assoc, fin_mul, inv_mul_cancel₀ hc.ne']
  exact one_mul x

theorem scale_cancel (hc : 0 < c) (x y : Fl) : (fin c * x) / (fin c * y) = x / y := by
  rw [div_scale hc, scale_div hc, scale_inv_scale hc]

theorem log_scale (hc : 0 < c) (x : Fl) : log (fin c * x) = log x + fin (Real.log c) := by
  cases x with
  | fin a =>
    rw [fin_mul]
    rcases lt_trichotomy a 0 with h | h | h
    · rw [log_fin_neg h, log_fin_neg (mul_neg_of_pos_of_neg hc h), nan_add]
    · rw [h, mul_zero, log_zero, ninf_add_fin]
    · rw [log_fin h, log_fin (mul_pos hc h), fin_add, Real.log_mul hc.ne' h.ne', _root_.add_comm]
  | pinf => rw [scale_pinf hc, log_pinf, pinf_add_fin]
  | ninf => rw [scale_ninf hc, log_ninf, nan_add]
  | nan => rw [mul_nan, log_nan, nan_add]

theorem eqf_zero_scale (hc : 0 < c) (x : Fl) : eqf (fin c * x) 0 ↔ eqf x 0 := by
  cases x with
  | fin a => simp [hc.ne']
  | pinf => rw [scale_pinf hc]
  | ninf => rw [scale_ninf hc]
  | nan => rw [mul_nan]

theorem scale_lt (hc : 0 < c) (x y : Fl) : fin c * x < fin c * y ↔ x < y := by
  cases x <;> cases y <;>
    simp [scale_pinf hc, scale_ninf hc, -fin_mul_pinf, -fin_mul_ninf, mul_lt_mul_iff_right₀ hc]

theorem scale_sq (x : Fl) : (fin c * x) ^ 2 = fin (c ^ 2) * x ^ 2 := by
  rw [mul_pow, fin_npow]

theorem fin_mul_add_fin (a k : ℝ) (x : Fl) : fin a * (x + fin k) = fin a * x + fin (a * k) := by
  cases x with
  | fin b => simp [mul_add]
  | pinf =>
    rw [pinf_add_fin, fin_mul_pinf]
    rcases signInf_cases a with ⟨_, h⟩ | ⟨_, h⟩ | ⟨_, h⟩ <;> simp [h]
  | ninf =>
    rw [ninf_add_fin, fin_mul_ninf]
    rcases signInf_cases (-a) with ⟨_, h⟩ | ⟨_, h⟩ | ⟨_, h⟩ <;> simp [h]
  | nan => simp

end GW.Fl

namespace GW

open Fl

variable {c : ℝ}

theorem sum_scale (hc : 0 < c) (l : List Fl) : (l.map (fin c * ·)).sum = fin c * l.sum := by
  induction l with
  | nil => simp
  | cons a l ih => rw [List.map_cons, List.sum_cons, List.sum_cons, ih, scale_add hc]

theorem mean_scale (hc : 0 < c) (l : List Fl) :
    Arr.mean (l.map (fin c * ·)) = fin c * Arr.mean l := by
  unfold Arr.mean
  rw [sum_scale hc, List.length_map, scale_div hc]

theorem sum_add_const (k : ℝ) (l : List Fl) :
    (l.map (· + fin k)).sum = l.sum + fin (l.length * k) := by
  induction l with
  | nil => simp
  | cons a l ih =>
    rw [List.map_cons, List.sum_cons, List.sum_cons, ih, List.length_cons]
    rw [add_add_add_comm, fin_add]
    congr 2
    push_cast
    ring

theorem pyDiv_scale_left (hc : 0 < c) (py : Bool) (a b : Fl) :
    pyDiv py (fin c * a) b = (pyDiv py a b).map (fin c * ·) := by
  unfold pyDiv
  split_ifs
  · rfl
  · rw [scale_div hc]; rfl

theorem pyDiv_scale_cancel (hc : 0 < c) (py : Bool) (a b : Fl) :
    pyDiv py (fin c * a) (fin c * b) = pyDiv py a b := by
  unfold pyDiv
  rw [eqf_zero_scale hc, scale_cancel hc]

end GW
