import Mathlib.Analysis.SpecialFunctions.Pow.Real
import Mathlib.Analysis.SpecialFunctions.Log.Basic
import Mathlib.Analysis.SpecialFunctions.Trigonometric.Basic

/-!
# Floating-point numbers with exact finite arithmetic

`Fl` models the float64 numbers the package computes with (numpy / cupy / jax).
It has the *special-value* semantics of IEEE-754 (infinities and NaN propagate
as in numpy) and exact real arithmetic on finite values.

Simplifications: no rounding (hence no overflow / underflow) and no signed
zero: `0` behaves as `+0`.
-/

noncomputable section

open Classical

namespace GW

/-- A float: a finite real number, `+inf`, `-inf` or NaN. -/
inductive Fl where
  | fin (r : ℝ)
  | pinf
  | ninf
  | nan

namespace Fl

instance : Inhabited Fl := ⟨nan⟩
instance : Zero Fl := ⟨fin 0⟩
instance : One Fl := ⟨fin 1⟩
instance : NatCast Fl := ⟨fun n => fin n⟩
instance : Coe ℝ Fl := ⟨fin⟩

/-- IEEE addition. -/
def add : Fl → Fl → Fl
  | nan, _ => nan
  | _, nan => nan
  | fin a, fin b => fin (a + b)
  | pinf, ninf => nan
  | ninf, pinf => nan
  | pinf, _ => pinf
  | _, pinf => pinf
  | ninf, _ => ninf
  | _, ninf => ninf

/-- IEEE negation. -/
def neg : Fl → Fl
  | fin a => fin (-a)
  | pinf => ninf
  | ninf => pinf
  | nan => nan

/-- Infinity with the sign of a nonzero real; NaN for zero (`0 * inf`). -/
def signInf (a : ℝ) : Fl := if 0 < a then pinf else if a < 0 then ninf else nan

/-- IEEE multiplication. -/
def mul : Fl → Fl → Fl
  | nan, _ => nan
  | _, nan => nan
  | fin a, fin b => fin (a * b)
  | fin a, pinf => signInf a
  | fin a, ninf => signInf (-a)
  | pinf, fin a => signInf a
  | ninf, fin a => signInf (-a)
  | pinf, pinf => pinf
  | ninf, ninf => pinf
  | pinf, ninf => ninf
  | ninf, pinf => ninf

/-- IEEE division (numpy flavour: division by zero gives an infinity or NaN and
no exception; a zero divisor counts as `+0`). -/
def div : Fl → Fl → Fl
  | nan, _ => nan
  | _, nan => nan
  | fin a, fin b => if b = 0 then signInf a else fin (a / b)
  | fin _, pinf => fin 0
  | fin _, ninf => fin 0
  | pinf, fin b => if b < 0 then ninf else pinf
  | ninf, fin b => if b < 0 then pinf else ninf
  | _, _ => nan

instance : Add Fl := ⟨add⟩
instance : Neg Fl := ⟨neg⟩
instance : Sub Fl := ⟨fun a b => add a (neg b)⟩
instance : Mul Fl := ⟨mul⟩
instance : Div Fl := ⟨div⟩

/-- IEEE `<`: false if an operand is NaN. -/
def lt : Fl → Fl → Prop
  | fin a, fin b => a < b
  | fin _, pinf => True
  | ninf, fin _ => True
  | ninf, pinf => True
  | _, _ => False

/-- IEEE `<=`: false if an operand is NaN. -/
def le : Fl → Fl → Prop
  | fin a, fin b => a ≤ b
  | fin _, pinf => True
  | ninf, fin _ => True
  | ninf, pinf => True
  | pinf, pinf => True
  | ninf, ninf => True
  | _, _ => False

instance : LT Fl := ⟨lt⟩
instance : LE Fl := ⟨le⟩

/-- IEEE `==`: NaN is different from everything. -/
def eqf : Fl → Fl → Prop
  | fin a, fin b => a = b
  | pinf, pinf => True
  | ninf, ninf => True
  | _, _ => False

/-- A boolean mask used as a number (`True -> 1.0`, `False -> 0.0`). -/
def ind (p : Prop) : Fl := if p then fin 1 else fin 0

/-- `exp`. -/
def exp : Fl → Fl
  | fin a => fin (Real.exp a)
  | pinf => pinf
  | ninf => fin 0
  | nan => nan

/-- `log`: `log 0 = -inf`, `log x = nan` for negative `x`. -/
def log : Fl → Fl
  | fin a => if 0 < a then fin (Real.log a) else if a = 0 then ninf else nan
  | pinf => pinf
  | ninf => nan
  | nan => nan

/-- `cos`; NaN at infinities. -/
def cos : Fl → Fl
  | fin a => fin (Real.cos a)
  | _ => nan

/-- `isnan`. -/
def isNan : Fl → Prop
  | nan => True
  | _ => False

/-- `isfinite`. -/
def isFinite : Fl → Prop
  | fin _ => True
  | _ => False

/-- Absolute value. -/
def abs : Fl → Fl
  | fin a => fin |a|
  | pinf => pinf
  | ninf => pinf
  | nan => nan

/-- Exponent is an integer. -/
def isInt (y : ℝ) : Prop := ∃ n : ℤ, (n : ℝ) = y

/-- Exponent is an odd integer. -/
def isOddInt (y : ℝ) : Prop := ∃ n : ℤ, ((2 * n + 1 : ℤ) : ℝ) = y

/-- IEEE `pow` on finite operands (`0` is `+0`). -/
def powFin (x y : ℝ) : Fl :=
  if 0 < x then fin (x ^ y)
  else if x = 0 then
    (if y = 0 then fin 1 else if 0 < y then fin 0 else pinf)
  else if isInt y then fin (x ^ y) else nan

/-- `numpy.power` / `**` on float arrays (C99 / IEEE `pow`). -/
def pow : Fl → Fl → Fl
  | fin x, fin y => powFin x y
  | nan, fin y => if y = 0 then fin 1 else nan
  | fin x, nan => if x = 1 then fin 1 else nan
  | fin x, pinf => if |x| < 1 then fin 0 else if |x| = 1 then fin 1 else pinf
  | fin x, ninf => if |x| < 1 then pinf else if |x| = 1 then fin 1 else fin 0
  | pinf, fin y => if y = 0 then fin 1 else if 0 < y then pinf else fin 0
  | ninf, fin y =>
      if y = 0 then fin 1 else if 0 < y then (if isOddInt y then ninf else pinf) else fin 0
  | pinf, pinf => pinf
  | ninf, pinf => pinf
  | pinf, ninf => fin 0
  | ninf, ninf => fin 0
  | _, _ => nan

/-- The largest finite double, `numpy.finfo(float).max`. -/
def bigR : ℝ := (2 - 2 ^ (-52 : ℤ)) * 2 ^ 1023

/-- `numpy.nan_to_num` with keyword arguments. -/
def nanToNumWith (nanv posinf neginf : Fl) : Fl → Fl
  | fin a => fin a
  | pinf => posinf
  | ninf => neginf
  | nan => nanv

/-- `numpy.nan_to_num` with default arguments. -/
def nanToNum : Fl → Fl := nanToNumWith (fin 0) (fin bigR) (fin (-bigR))

/-- The real value of a finite float; only used together with a proof of finiteness. -/
def val : Fl → ℝ
  | fin a => a
  | _ => 0

/-! ### Simplification rules -/

@[simp] theorem fin_inj {a b : ℝ} : fin a = fin b ↔ a = b := ⟨fun h => by cases h; rfl, fun h => by rw [h]⟩
theorem zero_def : (0 : Fl) = fin 0 := rfl
theorem one_def : (1 : Fl) = fin 1 := rfl
@[simp] theorem zero_eq : (0 : Fl) = fin 0 := rfl
@[simp] theorem one_eq : (1 : Fl) = fin 1 := rfl
@[simp] theorem natCast_eq (n : ℕ) : (n : Fl) = fin n := rfl
@[simp] theorem ofNat_eq (n : ℕ) [n.AtLeastTwo] : (OfNat.ofNat n : Fl) = fin (OfNat.ofNat n) := rfl
@[simp] theorem fin_add (a b : ℝ) : fin a + fin b = fin (a + b) := rfl
@[simp] theorem fin_sub (a b : ℝ) : fin a - fin b = fin (a - b) := by
  show fin (a + -b) = _; rw [sub_eq_add_neg]
@[simp] theorem fin_neg (a : ℝ) : -fin a = fin (-a) := rfl
@[simp] theorem neg_pinf : -pinf = ninf := rfl
@[simp] theorem neg_ninf : -ninf = pinf := rfl
@[simp] theorem neg_nan : -nan = nan := rfl
@[simp] theorem fin_mul (a b : ℝ) : fin a * fin b = fin (a * b) := rfl
theorem fin_div_def (a b : ℝ) : fin a / fin b = if b = 0 then signInf a else fin (a / b) := rfl
theorem fin_div {a b : ℝ} (hb : b ≠ 0) : fin a / fin b = fin (a / b) := by
  rw [fin_div_def, if_neg hb]
@[simp] theorem fin_div_zero (a : ℝ) : fin a / fin 0 = signInf a := by
  rw [fin_div_def, if_pos rfl]
@[simp] theorem nan_add (a : Fl) : nan + a = nan := by cases a <;> rfl
@[simp] theorem add_nan (a : Fl) : a + nan = nan := by cases a <;> rfl
@[simp] theorem nan_mul (a : Fl) : nan * a = nan := by cases a <;> rfl
@[simp] theorem mul_nan (a : Fl) : a * nan = nan := by cases a <;> rfl
@[simp] theorem nan_div (a : Fl) : nan / a = nan := by cases a <;> rfl
@[simp] theorem div_nan (a : Fl) : a / nan = nan := by cases a <;> rfl
@[simp] theorem nan_sub (a : Fl) : nan - a = nan := by cases a <;> rfl
@[simp] theorem sub_nan (a : Fl) : a - nan = nan := by cases a <;> rfl
@[simp] theorem fin_add_pinf (a : ℝ) : fin a + pinf = pinf := rfl
@[simp] theorem fin_add_ninf (a : ℝ) : fin a + ninf = ninf := rfl
@[simp] theorem pinf_add_fin (a : ℝ) : pinf + fin a = pinf := rfl
@[simp] theorem ninf_add_fin (a : ℝ) : ninf + fin a = ninf := rfl
@[simp] theorem fin_sub_pinf (a : ℝ) : fin a - pinf = ninf := rfl
@[simp] theorem fin_sub_ninf (a : ℝ) : fin a - ninf = pinf := rfl
@[simp] theorem pinf_sub_fin (a : ℝ) : pinf - fin a = pinf := rfl
@[simp] theorem ninf_sub_fin (a : ℝ) : ninf - fin a = ninf := rfl
@[simp] theorem pinf_add_pinf : pinf + pinf = pinf := rfl
@[simp] theorem ninf_add_ninf : ninf + ninf = ninf := rfl
@[simp] theorem pinf_add_ninf : pinf + ninf = nan := rfl
@[simp] theorem ninf_add_pinf : ninf + pinf = nan := rfl
@[simp] theorem pinf_sub_pinf : pinf - pinf = nan := rfl
@[simp] theorem ninf_sub_ninf : ninf - ninf = nan := rfl
@[simp] theorem pinf_sub_ninf : pinf - ninf = pinf := rfl
@[simp] theorem ninf_sub_pinf : ninf - pinf = ninf := rfl
@[simp] theorem fin_mul_pinf (a : ℝ) : fin a * pinf = signInf a := rfl
@[simp] theorem fin_mul_ninf (a : ℝ) : fin a * ninf = signInf (-a) := rfl
@[simp] theorem pinf_mul_fin (a : ℝ) : pinf * fin a = signInf a := rfl
@[simp] theorem ninf_mul_fin (a : ℝ) : ninf * fin a = signInf (-a) := rfl
@[simp] theorem pinf_mul_pinf : pinf * pinf = pinf := rfl
@[simp] theorem ninf_mul_ninf : ninf * ninf = pinf := rfl
@[simp] theorem pinf_mul_ninf : pinf * ninf = ninf := rfl
@[simp] theorem ninf_mul_pinf : ninf * pinf = ninf := rfl
@[simp] theorem fin_div_pinf (a : ℝ) : fin a / pinf = fin 0 := rfl
@[simp] theorem fin_div_ninf (a : ℝ) : fin a / ninf = fin 0 := rfl
@[simp] theorem pinf_div_pinf : pinf / pinf = nan := rfl
@[simp] theorem ninf_div_ninf : ninf / ninf = nan := rfl
@[simp] theorem pinf_div_ninf : pinf / ninf = nan := rfl
@[simp] theorem ninf_div_pinf : ninf / pinf = nan := rfl
theorem pinf_div_fin (b : ℝ) : pinf / fin b = if b < 0 then ninf else pinf := rfl
theorem ninf_div_fin (b : ℝ) : ninf / fin b = if b < 0 then pinf else ninf := rfl
theorem signInf_pos {a : ℝ} (h : 0 < a) : signInf a = pinf := if_pos h
theorem signInf_neg {a : ℝ} (h : a < 0) : signInf a = ninf := by
  rw [signInf, if_neg (by linarith), if_pos h]
@[simp] theorem signInf_zero : signInf 0 = nan := by simp [signInf]
@[simp] theorem signInf_one : signInf 1 = pinf := by simp [signInf]
@[simp] theorem fin_lt {a b : ℝ} : fin a < fin b ↔ a < b := Iff.rfl
@[simp] theorem fin_le {a b : ℝ} : fin a ≤ fin b ↔ a ≤ b := Iff.rfl
@[simp] theorem fin_lt_pinf {a : ℝ} : fin a < pinf := trivial
@[simp] theorem ninf_lt_fin {a : ℝ} : ninf < fin a := trivial
@[simp] theorem fin_le_pinf {a : ℝ} : fin a ≤ pinf := trivial
@[simp] theorem ninf_le_fin {a : ℝ} : ninf ≤ fin a := trivial
@[simp] theorem ninf_lt_pinf : ninf < pinf := trivial
@[simp] theorem ninf_le_pinf : ninf ≤ pinf := trivial
@[simp] theorem pinf_le_pinf : pinf ≤ pinf := trivial
@[simp] theorem ninf_le_ninf : ninf ≤ ninf := trivial
@[simp] theorem pinf_not_lt {a : Fl} : ¬ pinf < a := by cases a <;> exact id
@[simp] theorem not_lt_ninf {a : Fl} : ¬ a < ninf := by cases a <;> exact id
@[simp] theorem nan_not_lt {a : Fl} : ¬ nan < a := by cases a <;> exact id
@[simp] theorem not_lt_nan {a : Fl} : ¬ a < nan := by cases a <;> exact id
@[simp] theorem nan_not_le {a : Fl} : ¬ nan ≤ a := by cases a <;> exact id
@[simp] theorem not_le_nan {a : Fl} : ¬ a ≤ nan := by cases a <;> exact id
@[simp] theorem pinf_not_le_fin {a : ℝ} : ¬ pinf ≤ fin a := id
@[simp] theorem fin_not_le_ninf {a : ℝ} : ¬ fin a ≤ ninf := id
@[simp] theorem pinf_not_le_ninf : ¬ pinf ≤ ninf := id
@[simp] theorem eqf_fin {a b : ℝ} : eqf (fin a) (fin b) ↔ a = b := Iff.rfl
@[simp] theorem eqf_nan_left {a : Fl} : ¬ eqf nan a := by cases a <;> exact id
@[simp] theorem eqf_nan_right {a : Fl} : ¬ eqf a nan := by cases a <;> exact id
@[simp] theorem eqf_pinf_fin {a : ℝ} : ¬ eqf pinf (fin a) := id
@[simp] theorem eqf_ninf_fin {a : ℝ} : ¬ eqf ninf (fin a) := id
@[simp] theorem eqf_fin_pinf {a : ℝ} : ¬ eqf (fin a) pinf := id
@[simp] theorem eqf_fin_ninf {a : ℝ} : ¬ eqf (fin a) ninf := id
@[simp] theorem exp_fin (a : ℝ) : exp (fin a) = fin (Real.exp a) := rfl
@[simp] theorem exp_pinf : exp pinf = pinf := rfl
@[simp] theorem exp_ninf : exp ninf = fin 0 := rfl
@[simp] theorem exp_nan : exp nan = nan := rfl
theorem log_fin {a : ℝ} (h : 0 < a) : log (fin a) = fin (Real.log a) := if_pos h
@[simp] theorem log_zero : log (fin 0) = ninf := by simp [log]
theorem log_fin_neg {a : ℝ} (h : a < 0) : log (fin a) = nan := by
  simp [log, not_lt.mpr h.le, h.ne]
@[simp] theorem log_pinf : log pinf = pinf := rfl
@[simp] theorem log_ninf : log ninf = nan := rfl
@[simp] theorem log_nan : log nan = nan := rfl
@[simp] theorem cos_fin (a : ℝ) : cos (fin a) = fin (Real.cos a) := rfl
@[simp] theorem abs_fin (a : ℝ) : abs (fin a) = fin |a| := rfl
theorem pow_fin_pos {x y : ℝ} (h : 0 < x) : pow (fin x) (fin y) = fin (x ^ y) := if_pos h
theorem pow_fin (x y : ℝ) : pow (fin x) (fin y) = powFin x y := rfl
@[simp] theorem ind_true {p : Prop} (h : p) : ind p = fin 1 := if_pos h
@[simp] theorem ind_false {p : Prop} (h : ¬ p) : ind p = fin 0 := if_neg h
@[simp] theorem nanToNum_fin (a : ℝ) : nanToNum (fin a) = fin a := rfl
@[simp] theorem nanToNum_nan : nanToNum nan = fin 0 := rfl
@[simp] theorem nanToNum_pinf : nanToNum pinf = fin bigR := rfl
@[simp] theorem nanToNum_ninf : nanToNum ninf = fin (-bigR) := rfl
@[simp] theorem val_fin (a : ℝ) : val (fin a) = a := rfl
@[simp] theorem isFinite_fin (a : ℝ) : isFinite (fin a) := trivial
@[simp] theorem not_isFinite_pinf : ¬ isFinite pinf := id
@[simp] theorem not_isFinite_ninf : ¬ isFinite ninf := id
@[simp] theorem not_isFinite_nan : ¬ isFinite nan := id
@[simp] theorem isNan_nan : isNan nan := trivial
@[simp] theorem not_isNan_fin (a : ℝ) : ¬ isNan (fin a) := id
@[simp] theorem not_isNan_pinf : ¬ isNan pinf := id
@[simp] theorem not_isNan_ninf : ¬ isNan ninf := id

theorem isFinite_iff {x : Fl} : isFinite x ↔ ∃ r : ℝ, x = fin r := by
  cases x <;> simp [isFinite]

theorem ind_eq (p : Prop) [Decidable p] : ind p = fin (if p then 1 else 0) := by
  by_cases h : p <;> simp [h]

theorem bigR_pos : 0 < bigR := by
  unfold bigR
  have h : (2 : ℝ) ^ (-52 : ℤ) < 2 := by norm_num
  have h2 : (0 : ℝ) < 2 ^ 1023 := pow_pos (by norm_num) _
  exact mul_pos (by linarith) h2

theorem sub_eq_add_neg' (a b : Fl) : a - b = a + -b := rfl

theorem pinf_mul_of_pos {a : ℝ} (h : 0 < a) : pinf * fin a = pinf := signInf_pos h

theorem signInf_cases (a : ℝ) :
    (0 < a ∧ signInf a = pinf) ∨ (a < 0 ∧ signInf a = ninf) ∨ (a = 0 ∧ signInf a = nan) := by
  rcases lt_trichotomy a 0 with h | h | h
  · exact Or.inr (Or.inl ⟨h, signInf_neg h⟩)
  · exact Or.inr (Or.inr ⟨h, by rw [h, signInf_zero]⟩)
  · exact Or.inl ⟨h, signInf_pos h⟩

/-! ### Algebraic structure: addition and multiplication are commutative monoids -/

protected theorem add_comm (a b : Fl) : a + b = b + a := by
  cases a <;> cases b <;> simp [_root_.add_comm]

protected theorem add_assoc (a b c : Fl) : a + b + c = a + (b + c) := by
  cases a <;> cases b <;> cases c <;> simp [_root_.add_assoc]

protected theorem mul_comm (a b : Fl) : a * b = b * a := by
  cases a <;> cases b <;> simp [_root_.mul_comm]

private theorem assoc_aux (a b : ℝ) : signInf (a * b) = fin a * signInf b := by
  rcases lt_trichotomy a 0 with ha | ha | ha <;> rcases lt_trichotomy b 0 with hb | hb | hb
  · rw [signInf_pos (mul_pos_of_neg_of_neg ha hb), signInf_neg hb, fin_mul_ninf,
      signInf_pos (by linarith)]
  · subst hb; simp
  · rw [signInf_neg (mul_neg_of_neg_of_pos ha hb), signInf_pos hb, fin_mul_pinf, signInf_neg ha]
  · subst ha; rw [signInf_neg hb]; simp
  · subst ha; subst hb; simp
  · subst ha; rw [signInf_pos hb]; simp
  · rw [signInf_neg (mul_neg_of_pos_of_neg ha hb), signInf_neg hb, fin_mul_ninf,
      signInf_neg (by linarith)]
  · subst hb; simp
  · rw [signInf_pos (mul_pos ha hb), signInf_pos hb, fin_mul_pinf, signInf_pos ha]

private theorem neg_signInf (a : ℝ) : signInf (-a) = -signInf a := by
  rcases lt_trichotomy a 0 with ha | ha | ha
  · rw [signInf_neg ha, signInf_pos (by linarith)]; rfl
  · subst ha; simp
  · rw [signInf_pos ha, signInf_neg (by linarith)]; rfl

private theorem pinf_mul_signInf (a : ℝ) : pinf * signInf a = signInf a := by
  rcases signInf_cases a with ⟨_, h⟩ | ⟨_, h⟩ | ⟨_, h⟩ <;> simp [h]

private theorem ninf_mul_signInf (a : ℝ) : ninf * signInf a = signInf (-a) := by
  rw [neg_signInf]
  rcases signInf_cases a with ⟨_, h⟩ | ⟨_, h⟩ | ⟨_, h⟩ <;> simp [h]

protected theorem mul_assoc (a b c : Fl) : a * b * c = a * (b * c) := by
  have e := Fl.mul_comm
  cases a <;> cases b <;> cases c <;>
    simp only [nan_mul, mul_nan, fin_mul, fin_mul_pinf, fin_mul_ninf, pinf_mul_fin, ninf_mul_fin,
      pinf_mul_pinf, ninf_mul_ninf, pinf_mul_ninf, ninf_mul_pinf,
      ← assoc_aux, pinf_mul_signInf, ninf_mul_signInf, e (signInf _) (fin _), e (signInf _) pinf,
      e (signInf _) ninf, neg_neg, mul_neg]
  all_goals first | rw [_root_.mul_assoc] | rw [_root_.mul_comm]

protected theorem zero_add (a : Fl) : 0 + a = a := by cases a <;> simp
protected theorem one_mul (a : Fl) : 1 * a = a := by
  cases a <;> simp [signInf]

instance : AddCommMonoid Fl where
  add_assoc := Fl.add_assoc
  zero_add := Fl.zero_add
  add_zero a := by rw [Fl.add_comm]; exact Fl.zero_add a
  add_comm := Fl.add_comm
  nsmul := nsmulRec

instance : CommMonoid Fl where
  mul_assoc := Fl.mul_assoc
  one_mul := Fl.one_mul
  mul_one a := by rw [Fl.mul_comm]; exact Fl.one_mul a
  mul_comm := Fl.mul_comm

@[simp] theorem fin_npow (a : ℝ) (n : ℕ) : (fin a) ^ n = fin (a ^ n) := by
  induction n with
  | zero => simp
  | succ n ih => rw [pow_succ, ih, fin_mul, _root_.pow_succ]

theorem npow_two (a : Fl) : a ^ 2 = a * a := _root_.pow_two a

@[simp] theorem mul_ind_true (a : Fl) {p : Prop} (h : p) : a * ind p = a := by
  rw [ind_true h]; exact mul_one a

@[simp] theorem fin_mul_ind (a : ℝ) (p : Prop) [Decidable p] : fin a * ind p = fin (if p then a else 0) := by
  by_cases h : p <;> simp [h]

theorem ind_mul_ind (p q : Prop) : ind p * ind q = ind (p ∧ q) := by
  by_cases h : p <;> by_cases h' : q <;> simp [h, h', ind]

/-- Addition of finite lists is real addition. -/
theorem sum_fin (l : List ℝ) : (l.map fin).sum = fin l.sum := by
  induction l with
  | nil => rfl
  | cons a l ih => rw [List.map_cons, List.sum_cons, ih, List.sum_cons, fin_add]

end Fl

end GW
