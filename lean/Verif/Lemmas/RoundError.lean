import Verif.Lemmas.Round
import Verif.Model.Rounded

/-!
# Error of double-precision sums, products and quotients
-/

noncomputable section

open Classical

namespace GW

open Fl

/-- The unit roundoff of double precision. -/
def ur : ℝ := 2 ^ (-53 : ℤ)

theorem ur_pos : 0 < ur := by unfold ur; positivity

theorem ur_val : ur = 1 / 9007199254740992 := by unfold ur; norm_num

theorem one_sub_ur_pos : 0 < 1 - ur := by rw [ur_val]; norm_num

theorem one_sub_ur_le : 1 - ur ≤ 1 := by linarith [ur_pos]

/-- Rounding error of a number in the normal range. -/
theorem round53_normal {x : ℝ} (h : (2 : ℝ) ^ (-1022 : ℤ) ≤ |x|) : |round53 x - x| ≤ ur * |x| := by
  have hpos : 0 < |x| := lt_of_lt_of_le (by positivity) h
  have hlog : (-1022 : ℤ) ≤ Int.log 2 |x| := by
    rw [← Int.zpow_le_iff_le_log (by norm_num) hpos]
    exact_mod_cast h
  have hu : ulpExp x = Int.log 2 |x| - 52 := by
    unfold ulpExp
    rw [max_eq_left]
    omega
  have hk : (0 : ℝ) < 2 ^ ulpExp x := by positivity
  have e : round53 x - x = ((roundEven (x / 2 ^ ulpExp x) : ℝ) - x / 2 ^ ulpExp x) * 2 ^ ulpExp x := by
    unfold round53
    field_simp
  rw [e, abs_mul, abs_of_pos hk]
  have h1 := roundEven_abs_sub (x / 2 ^ ulpExp x)
  have h2 : (2 : ℝ) ^ Int.log 2 |x| ≤ |x| := by
    have := Int.zpow_log_le_self (b := 2) (by norm_num) hpos
    exact_mod_cast this
  calc _ ≤ 1 / 2 * (2 : ℝ) ^ ulpExp x := mul_le_mul_of_nonneg_right h1 hk.le
    _ = ur * 2 ^ Int.log 2 |x| := by
      rw [hu, zpow_sub₀ (by norm_num), ur]
      norm_num
      ring
    _ ≤ _ := mul_le_mul_of_nonneg_left h2 ur_pos.le

/-- Rounding error of any number. -/
theorem round53_error (x : ℝ) : |round53 x - x| ≤ ur * |x| + 2 ^ (-1075 : ℤ) := by
  by_cases h : (2 : ℝ) ^ (-1022 : ℤ) ≤ |x|
  · have := round53_normal h
    have h2 : (0 : ℝ) < 2 ^ (-1075 : ℤ) := by positivity
    linarith
  · push Not at h
    rcases eq_or_ne x 0 with rfl | hx
    · rw [round53_zero, sub_zero, abs_zero, mul_zero, zero_add]
      positivity
    have hu : ulpExp x = -1074 := by
      unfold ulpExp
      have hpos : 0 < |x| := abs_pos.2 hx
      have : Int.log 2 |x| < -1022 := by
        rw [← Int.lt_zpow_iff_log_lt (by norm_num) hpos]
        exact_mod_cast h
      rw [max_eq_right]
      omega
    have hk : (0 : ℝ) < 2 ^ ulpExp x := by positivity
    have e : round53 x - x =
        ((roundEven (x / 2 ^ ulpExp x) : ℝ) - x / 2 ^ ulpExp x) * 2 ^ ulpExp x := by
      unfold round53
      field_simp
    rw [e, abs_mul, abs_of_pos hk]
    have h1 := roundEven_abs_sub (x / 2 ^ ulpExp x)
    have h3 : 0 ≤ ur * |x| := mul_nonneg ur_pos.le (abs_nonneg x)
    have h4 : (1 : ℝ) / 2 * 2 ^ ulpExp x = 2 ^ (-1075 : ℤ) := by
      rw [hu, show (-1075 : ℤ) = -1074 - 1 by norm_num, zpow_sub_one₀ (by norm_num)]
      ring
    have := mul_le_mul_of_nonneg_right h1 hk.le
    linarith

theorem two_pow_le_bigR : (2 : ℝ) ^ (1023 : ℤ) * (3 / 2) ≤ bigR := by
  rw [bigR_eq, show (1023 : ℤ) = 52 + 971 by norm_num, zpow_add₀ (by norm_num)]
  have : (0 : ℝ) < 2 ^ (971 : ℤ) := by positivity
  generalize (2 : ℝ) ^ (971 : ℤ) = B at *
  have e : (2 : ℝ) ^ (52 : ℤ) = 4503599627370496 := by norm_num
  have e' : (2 : ℝ) ^ 53 = 9007199254740992 := by norm_num
  rw [e, e']
  linarith

/-- No overflow below `2^1023`. -/
theorem fl64_of_le {x : ℝ} (h : |x| ≤ 2 ^ (1023 : ℤ)) : fl64 x = fin (round53 x) := by
  have h1 := round53_error x
  have h2 := two_pow_le_bigR
  have h3 : (2 : ℝ) ^ (-1075 : ℤ) ≤ 1 := zpow_le_one_of_nonpos₀ (by norm_num) (by norm_num)
  have h4 : (4 : ℝ) ≤ 2 ^ (1023 : ℤ) := by
    calc (4 : ℝ) = 2 ^ (2 : ℤ) := by norm_num
      _ ≤ _ := zpow_le_zpow_right₀ (by norm_num) (by norm_num)
  have h5 : ur * |x| ≤ 1 / 4 * 2 ^ (1023 : ℤ) := by
    have : ur ≤ 1 / 4 := by rw [ur_val]; norm_num
    have := abs_nonneg x
    nlinarith
  have h6 := abs_le.1 h1
  have h7 := abs_le.1 h
  unfold fl64
  generalize (2 : ℝ) ^ (1023 : ℤ) = B at *
  generalize (2 : ℝ) ^ (-1075 : ℤ) = C at *
  rw [if_neg (by linarith), if_neg (by linarith)]

/-- A double is a multiple of the smallest one. -/
theorem isDouble_multiple {x : ℝ} (h : IsDouble x) : ∃ m : ℤ, x = m * 2 ^ (-1074 : ℤ) := by
  obtain ⟨m, k, -, hk, rfl⟩ := h
  obtain ⟨j, hj⟩ := Int.eq_ofNat_of_zero_le (show 0 ≤ k + 1074 by omega)
  refine ⟨m * 2 ^ j, ?_⟩
  rw [show k = (j : ℤ) + (-1074) by omega, zpow_add₀ (by norm_num), zpow_natCast]
  push_cast
  ring

/-- The rounding error of a multiple of the smallest double is relative: no underflow. -/
theorem round53_multiple {x : ℝ} (h : ∃ m : ℤ, x = m * 2 ^ (-1074 : ℤ)) :
    |round53 x - x| ≤ ur * |x| := by
  by_cases hn : (2 : ℝ) ^ (-1022 : ℤ) ≤ |x|
  · exact round53_normal hn
  push Not at hn
  obtain ⟨m, hs⟩ := h
  have hd : IsDouble x := by
    refine ⟨m, -1074, ?_, le_rfl, hs⟩
    rw [hs, abs_mul, abs_of_pos (by positivity : (0 : ℝ) < 2 ^ (-1074 : ℤ))] at hn
    have h1 : |(m : ℝ)| < 2 ^ (52 : ℤ) := by
      have e : (2 : ℝ) ^ (-1022 : ℤ) = 2 ^ (52 : ℤ) * 2 ^ (-1074 : ℤ) := by
        rw [← zpow_add₀ (by norm_num)]; norm_num
      rw [e] at hn
      exact lt_of_mul_lt_mul_right hn (by positivity)
    have h2 : ((|m| : ℤ) : ℝ) < ((2 ^ 52 : ℤ) : ℝ) := by
      rw [Int.cast_abs]
      refine h1.trans_le ?_
      norm_num
    have h3 : |m| < 2 ^ 52 := by exact_mod_cast h2
    linarith [show (2 : ℤ) ^ 52 ≤ 2 ^ 53 by norm_num]
  rw [round53_of_isDouble hd, sub_self, abs_zero]
  exact mul_nonneg ur_pos.le (abs_nonneg _)

/-- The rounding error of a sum of two doubles is relative. -/
theorem round53_add {x y : ℝ} (hx : IsDouble x) (hy : IsDouble y) :
    |round53 (x + y) - (x + y)| ≤ ur * |x + y| := by
  obtain ⟨m, hm⟩ := isDouble_multiple hx
  obtain ⟨n, hn⟩ := isDouble_multiple hy
  exact round53_multiple ⟨m + n, by rw [hm, hn]; push_cast; ring⟩

/-- The rounding error of a product with an integer is relative. -/
theorem round53_int_mul (n : ℤ) {x : ℝ} (hx : IsDouble x) :
    |round53 (n * x) - n * x| ≤ ur * |n * x| := by
  obtain ⟨m, hm⟩ := isDouble_multiple hx
  exact round53_multiple ⟨n * m, by rw [hm]; push_cast; ring⟩

/-! ## Accumulated relative errors of non-negative numbers -/

/-- `y` is `x` up to `k` roundings. -/
def Near (k : ℕ) (x y : ℝ) : Prop := x * (1 - ur) ^ k ≤ y ∧ y * (1 - ur) ^ k ≤ x

theorem omu_pow_pos (k : ℕ) : 0 < (1 - ur) ^ k := pow_pos one_sub_ur_pos k

theorem omu_pow_le_one (k : ℕ) : (1 - ur) ^ k ≤ 1 :=
  pow_le_one₀ one_sub_ur_pos.le one_sub_ur_le

theorem Near.refl (x : ℝ) : Near 0 x x := by simp [Near]

theorem Near.nonneg {k : ℕ} {x y : ℝ} (h : Near k x y) (hx : 0 ≤ x) : 0 ≤ y :=
  (mul_nonneg hx (omu_pow_pos k).le).trans h.1

theorem Near.pos {k : ℕ} {x y : ℝ} (h : Near k x y) (hx : 0 < x) : 0 < y :=
  (mul_pos hx (omu_pow_pos k)).trans_le h.1

theorem Near.mono {k l : ℕ} {x y : ℝ} (h : Near k x y) (hx : 0 ≤ x) (hkl : k ≤ l) : Near l x y := by
  have hp : (1 - ur) ^ l ≤ (1 - ur) ^ k := pow_le_pow_of_le_one one_sub_ur_pos.le one_sub_ur_le hkl
  exact ⟨(mul_le_mul_of_nonneg_left hp hx).trans h.1,
    (mul_le_mul_of_nonneg_left hp (h.nonneg hx)).trans h.2⟩

theorem Near.trans {k l : ℕ} {x y z : ℝ} (h : Near k x y) (h' : Near l y z) : Near (k + l) x z := by
  constructor
  · calc x * (1 - ur) ^ (k + l) = x * (1 - ur) ^ k * (1 - ur) ^ l := by ring
      _ ≤ y * (1 - ur) ^ l := mul_le_mul_of_nonneg_right h.1 (omu_pow_pos l).le
      _ ≤ z := h'.1
  · calc z * (1 - ur) ^ (k + l) = z * (1 - ur) ^ l * (1 - ur) ^ k := by ring
      _ ≤ y * (1 - ur) ^ k := mul_le_mul_of_nonneg_right h'.2 (omu_pow_pos k).le
      _ ≤ x := h.2

theorem near_of_error {x y : ℝ} (hx : 0 ≤ x) (h : |y - x| ≤ ur * x) : Near 1 x y := by
  have h1 := abs_le.1 h
  have h2 := one_sub_ur_pos
  have h3 := ur_pos
  constructor
  · rw [pow_one]; nlinarith
  · rw [pow_one]
    have : y * (1 - ur) ≤ (x + ur * x) * (1 - ur) :=
      mul_le_mul_of_nonneg_right (by linarith) h2.le
    nlinarith [mul_nonneg (mul_nonneg h3.le h3.le) hx]

theorem Near.add {k : ℕ} {x y x' y' : ℝ} (h : Near k x y) (h' : Near k x' y') :
    Near k (x + x') (y + y') := by
  constructor
  · rw [add_mul]; exact add_le_add h.1 h'.1
  · rw [add_mul]; exact add_le_add h.2 h'.2

theorem Near.mul {k l : ℕ} {x y x' y' : ℝ} (h : Near k x y) (h' : Near l x' y') (hx : 0 ≤ x)
    (hx' : 0 ≤ x') : Near (k + l) (x * x') (y * y') := by
  constructor
  · calc x * x' * (1 - ur) ^ (k + l) = (x * (1 - ur) ^ k) * (x' * (1 - ur) ^ l) := by ring
      _ ≤ y * y' := mul_le_mul h.1 h'.1 (mul_nonneg hx' (omu_pow_pos l).le) (h.nonneg hx)
  · calc y * y' * (1 - ur) ^ (k + l) = (y * (1 - ur) ^ k) * (y' * (1 - ur) ^ l) := by ring
      _ ≤ x * x' := mul_le_mul h.2 h'.2 (mul_nonneg (h'.nonneg hx') (omu_pow_pos l).le) hx

theorem Near.inv {k : ℕ} {x y : ℝ} (h : Near k x y) (hx : 0 < x) : Near k x⁻¹ y⁻¹ := by
  have hy := h.pos hx
  constructor
  · rw [inv_mul_le_iff₀ hx, ← div_eq_mul_inv, le_div_iff₀ hy, mul_comm]
    exact h.2
  · rw [inv_mul_le_iff₀ hy, ← div_eq_mul_inv, le_div_iff₀ hx, mul_comm]
    exact h.1

theorem Near.div {k l : ℕ} {x y x' y' : ℝ} (h : Near k x y) (h' : Near l x' y') (hx : 0 ≤ x)
    (hx' : 0 < x') : Near (k + l) (x / x') (y / y') := by
  rw [div_eq_mul_inv, div_eq_mul_inv]
  exact h.mul (h'.inv hx') hx (inv_pos.2 hx').le

theorem neg_log_omu : -Real.log (1 - ur) ≤ 2 * ur := by
  have h := Real.one_sub_inv_le_log_of_pos one_sub_ur_pos
  have h2 : (1 - ur)⁻¹ ≤ 1 + 2 * ur := by
    rw [inv_le_iff_one_le_mul₀ one_sub_ur_pos]
    have := ur_pos
    have h3 : ur ≤ 1 / 4 := by rw [ur_val]; norm_num
    nlinarith
  linarith

theorem Near.log {k : ℕ} {x y : ℝ} (h : Near k x y) (hx : 0 < x) :
    |Real.log y - Real.log x| ≤ 2 * ur * k := by
  have hy := h.pos hx
  have h1 := Real.log_le_log (mul_pos hx (omu_pow_pos k)) h.1
  have h2 := Real.log_le_log (mul_pos hy (omu_pow_pos k)) h.2
  rw [Real.log_mul hx.ne' (omu_pow_pos k).ne', Real.log_pow] at h1
  rw [Real.log_mul hy.ne' (omu_pow_pos k).ne', Real.log_pow] at h2
  have h3 : (k : ℝ) * -Real.log (1 - ur) ≤ k * (2 * ur) :=
    mul_le_mul_of_nonneg_left neg_log_omu (Nat.cast_nonneg k)
  rw [abs_le]
  constructor <;> linarith

theorem omu_pow_ge (k : ℕ) : 1 - k * ur ≤ (1 - ur) ^ k := by
  have := one_add_mul_le_pow (a := -ur) (by linarith [one_sub_ur_pos]) k
  calc 1 - k * ur = 1 + k * (-ur) := by ring
    _ ≤ (1 + -ur) ^ k := this
    _ = _ := by ring_nf

theorem omu_pow_ge_half {k : ℕ} (hk : k ≤ 2 ^ 52) : 1 / 2 ≤ (1 - ur) ^ k := by
  refine le_trans ?_ (omu_pow_ge k)
  have : (k : ℝ) ≤ 2 ^ 52 := by exact_mod_cast hk
  have : (k : ℝ) * ur ≤ 2 ^ 52 * ur := mul_le_mul_of_nonneg_right this ur_pos.le
  have : (2 : ℝ) ^ 52 * ur = 1 / 2 := by rw [ur_val]; norm_num
  linarith

theorem opu_pow_le_two {k : ℕ} (hk : k ≤ 2 ^ 52) : (1 + ur) ^ k ≤ 2 := by
  have h1 := omu_pow_ge_half hk
  have h2 : (1 + ur) ^ k * (1 - ur) ^ k ≤ 1 := by
    rw [← mul_pow]
    refine pow_le_one₀ ?_ ?_
    · nlinarith [one_sub_ur_pos, ur_pos]
    · nlinarith [ur_pos]
  have h3 : 0 < (1 + ur) ^ k := pow_pos (by linarith [ur_pos]) k
  nlinarith

/-- Absolute form of the error. -/
theorem Near.abs_sub {k : ℕ} {x y : ℝ} (h : Near k x y) (hx : 0 ≤ x) (hk : k ≤ 2 ^ 52) :
    |y - x| ≤ 2 * k * ur * x := by
  have h1 := omu_pow_ge_half hk
  have h2 := omu_pow_ge k
  have hy := h.nonneg hx
  have h3 : 0 ≤ (k : ℝ) * ur := mul_nonneg (Nat.cast_nonneg k) ur_pos.le
  rw [abs_le]
  constructor
  · have := mul_le_mul_of_nonneg_left h2 hx
    nlinarith [h.1]
  · have h4 : y ≤ 2 * x := by nlinarith [h.2]
    have := mul_le_mul_of_nonneg_left h2 hy
    nlinarith [h.2, mul_le_mul_of_nonneg_left h4 h3]

/-! ## Sums -/

/-- Adding non-negative doubles in any order. -/
theorem sumTree_near {a : ℕ → Fl} {v : ℕ → ℝ} (t : SumTree)
    (h : ∀ i ∈ t.leaves, a i = fin (v i) ∧ 0 ≤ v i ∧ IsDouble (v i)) (hd : t.depth ≤ 2 ^ 52)
    (hs : (t.leaves.map v).sum ≤ 2 ^ (1022 : ℤ)) :
    0 ≤ (t.leaves.map v).sum ∧
    ∃ s, t.sum a = fin s ∧ IsDouble s ∧ Near t.depth (t.leaves.map v).sum s := by
  induction t with
  | leaf i =>
    obtain ⟨h1, h2, h3⟩ := h i (by simp [SumTree.leaves])
    simp only [SumTree.leaves, List.map_cons, List.map_nil, List.sum_cons, List.sum_nil, add_zero]
    exact ⟨h2, v i, h1, h3, Near.refl _⟩
  | node l r ihl ihr =>
    simp only [SumTree.leaves, List.map_append, List.sum_append] at hs ⊢
    simp only [SumTree.depth] at hd ⊢
    have pos : ∀ t : SumTree, (∀ i ∈ t.leaves, 0 ≤ v i) → 0 ≤ (t.leaves.map v).sum := fun t ht =>
      List.sum_nonneg fun x hx => by
        obtain ⟨i, hi, rfl⟩ := List.mem_map.1 hx
        exact ht i hi
    have hl : ∀ i ∈ l.leaves, _ := fun i hi => h i (List.mem_append_left _ hi)
    have hr : ∀ i ∈ r.leaves, _ := fun i hi => h i (List.mem_append_right _ hi)
    have pl := pos l fun i hi => (hl i hi).2.1
    have pr := pos r fun i hi => (hr i hi).2.1
    have hml : l.depth ≤ max l.depth r.depth := le_max_left _ _
    have hmr : r.depth ≤ max l.depth r.depth := le_max_right _ _
    obtain ⟨-, s, es, ds, ns⟩ := ihl hl (by omega) (by linarith)
    obtain ⟨-, s', es', ds', ns'⟩ := ihr hr (by omega) (by linarith)
    set S := (l.leaves.map v).sum
    set S' := (r.leaves.map v).sum
    have hn := (ns.mono pl hml).add (ns'.mono pr hmr)
    have h0 : 0 ≤ s + s' := hn.nonneg (add_nonneg pl pr)
    have hle : s + s' ≤ 2 * (S + S') := by
      have h1 := omu_pow_ge_half (k := max l.depth r.depth) (by omega)
      have h2 := hn.2
      nlinarith
    have hover : |s + s'| ≤ 2 ^ (1023 : ℤ) := by
      rw [abs_of_nonneg h0]
      have : (2 : ℝ) ^ (1023 : ℤ) = 2 * 2 ^ (1022 : ℤ) := by
        rw [show (1023 : ℤ) = 1 + 1022 by norm_num, zpow_add₀ (by norm_num), zpow_one]
      rw [this]
      linarith
    refine ⟨add_nonneg pl pr, round53 (s + s'), ?_, round53_isDouble _, hn.trans ?_⟩
    · simp only [SumTree.sum, es, es', fin_add, toDouble]
      exact fl64_of_le hover
    · refine near_of_error h0 ?_
      have := round53_add ds ds'
      rwa [abs_of_nonneg h0] at this

/-- Adding doubles of any sign in any order. -/
theorem sumTree_signed {a : ℕ → Fl} {v : ℕ → ℝ} (t : SumTree)
    (h : ∀ i ∈ t.leaves, a i = fin (v i) ∧ IsDouble (v i)) (hd : t.depth ≤ 2 ^ 52)
    (hs : (t.leaves.map fun i => |v i|).sum ≤ 2 ^ (1022 : ℤ)) :
    ∃ s, t.sum a = fin s ∧ IsDouble s ∧
      |s - (t.leaves.map v).sum| ≤ ((1 + ur) ^ t.depth - 1) * (t.leaves.map fun i => |v i|).sum := by
  induction t with
  | leaf i =>
    obtain ⟨h1, h3⟩ := h i (by simp [SumTree.leaves])
    refine ⟨v i, h1, h3, ?_⟩
    simp [SumTree.leaves, SumTree.depth]
  | node l r ihl ihr =>
    simp only [SumTree.leaves, List.map_append, List.sum_append] at hs ⊢
    simp only [SumTree.depth] at hd ⊢
    have pos : ∀ t : SumTree, 0 ≤ (t.leaves.map fun i => |v i|).sum := fun t =>
      List.sum_nonneg fun x hx => by
        obtain ⟨i, hi, rfl⟩ := List.mem_map.1 hx
        exact abs_nonneg _
    have hle : ∀ t : SumTree, |(t.leaves.map v).sum| ≤ (t.leaves.map fun i => |v i|).sum := by
      intro t
      induction t.leaves with
      | nil => simp
      | cons i l ih =>
        simp only [List.map_cons, List.sum_cons]
        exact (abs_add_le _ _).trans (by linarith)
    have hl : ∀ i ∈ l.leaves, _ := fun i hi => h i (List.mem_append_left _ hi)
    have hr : ∀ i ∈ r.leaves, _ := fun i hi => h i (List.mem_append_right _ hi)
    have pl := pos l
    have pr := pos r
    have hml : l.depth ≤ max l.depth r.depth := le_max_left _ _
    have hmr : r.depth ≤ max l.depth r.depth := le_max_right _ _
    obtain ⟨s, es, ds, ns⟩ := ihl hl (by omega) (by linarith)
    obtain ⟨s', es', ds', ns'⟩ := ihr hr (by omega) (by linarith)
    have ql := hle l
    have qr := hle r
    set S := (l.leaves.map v).sum
    set S' := (r.leaves.map v).sum
    set T := (l.leaves.map fun i => |v i|).sum
    set T' := (r.leaves.map fun i => |v i|).sum
    set d := max l.depth r.depth
    have hone : 1 ≤ 1 + ur := by linarith [ur_pos]
    have e1 : |s - S| ≤ ((1 + ur) ^ d - 1) * T := ns.trans
      (mul_le_mul_of_nonneg_right (by linarith [pow_le_pow_right₀ hone hml]) pl)
    have e2 : |s' - S'| ≤ ((1 + ur) ^ d - 1) * T' := ns'.trans
      (mul_le_mul_of_nonneg_right (by linarith [pow_le_pow_right₀ hone hmr]) pr)
    have e3 : |s + s' - (S + S')| ≤ ((1 + ur) ^ d - 1) * (T + T') := by
      have : s + s' - (S + S') = (s - S) + (s' - S') := by ring
      rw [this]
      exact (abs_add_le _ _).trans (by linarith)
    have e4 : |s + s'| ≤ (1 + ur) ^ d * (T + T') := by
      have : s + s' = (s + s' - (S + S')) + (S + S') := by ring
      rw [this]
      have := abs_add_le S S'
      refine (abs_add_le _ _).trans ?_
      nlinarith
    have hover : |s + s'| ≤ 2 ^ (1023 : ℤ) := by
      have : (2 : ℝ) ^ (1023 : ℤ) = 2 * 2 ^ (1022 : ℤ) := by
        rw [show (1023 : ℤ) = 1 + 1022 by norm_num, zpow_add₀ (by norm_num), zpow_one]
      rw [this]
      refine e4.trans ?_
      exact mul_le_mul (opu_pow_le_two (by omega)) hs (by linarith) (by norm_num)
    refine ⟨round53 (s + s'), ?_, round53_isDouble _, ?_⟩
    · simp only [SumTree.sum, es, es', fin_add, toDouble]
      exact fl64_of_le hover
    · have h5 := round53_add ds ds'
      have h6 : ur * |s + s'| ≤ ur * ((1 + ur) ^ d * (T + T')) :=
        mul_le_mul_of_nonneg_left e4 ur_pos.le
      have : round53 (s + s') - (S + S') = (round53 (s + s') - (s + s')) + (s + s' - (S + S')) := by
        ring
      rw [this]
      refine (abs_add_le _ _).trans ?_
      rw [pow_succ]
      nlinarith

theorem SumTree.leaves_length_pos (t : SumTree) : 0 < t.leaves.length := by
  induction t with
  | leaf i => simp [leaves]
  | node l r ihl ihr => simp only [leaves, List.length_append]; omega

theorem SumTree.depth_lt (t : SumTree) : t.depth < t.leaves.length := by
  induction t with
  | leaf i => simp [leaves, depth]
  | node l r ihl ihr =>
    simp only [leaves, depth, List.length_append]
    have := l.leaves_length_pos
    have := r.leaves_length_pos
    omega

theorem map_getD_range (l : List ℝ) : (List.range l.length).map (fun i => l.getD i 0) = l := by
  apply List.ext_getElem
  · simp
  · intro i h1 h2
    simp [h2]

/-- `xp.sum` of non-negative doubles. -/
theorem Arith.sum_near {A : Arith} {l : List ℝ} (hA : (A.order (l.map fin)).Covers l.length)
    (h0 : ∀ x ∈ l, 0 ≤ x) (hd : ∀ x ∈ l, IsDouble x) (hn : l.length ≤ 2 ^ 52)
    (hs : l.sum ≤ 2 ^ (1022 : ℤ)) :
    ∃ s, A.sum (l.map fin) = fin s ∧ IsDouble s ∧ Near (l.length - 1) l.sum s := by
  set t := A.order (l.map fin) with ht
  have hlen : t.leaves.length = l.length := by rw [hA.length_eq, List.length_range]
  have hdepth := t.depth_lt
  have hmem : ∀ i ∈ t.leaves, i < l.length := fun i hi => List.mem_range.1 (hA.mem_iff.1 hi)
  have hsum : (t.leaves.map fun i => l.getD i 0).sum = l.sum := by
    rw [(hA.map _).sum_eq, map_getD_range]
  have key := sumTree_near (a := fun i => (l.map fin).getD i 0) (v := fun i => l.getD i 0) t
    (fun i hi => by
      have := hmem i hi
      refine ⟨?_, ?_, ?_⟩
      · simp [this]
      · simp only [List.getD_eq_getElem?_getD, List.getElem?_eq_getElem this, Option.getD_some]
        exact h0 _ (List.getElem_mem this)
      · simp only [List.getD_eq_getElem?_getD, List.getElem?_eq_getElem this, Option.getD_some]
        exact hd _ (List.getElem_mem this)) (by omega) (by rw [hsum]; exact hs)
  rw [hsum] at key
  obtain ⟨h1, s, h2, h3, h4⟩ := key
  exact ⟨s, h2, h3, h4.mono h1 (by omega)⟩

/-- `xp.sum` of doubles. -/
theorem Arith.sum_signed {A : Arith} {l : List ℝ} (hA : (A.order (l.map fin)).Covers l.length)
    (hd : ∀ x ∈ l, IsDouble x) (hn : l.length ≤ 2 ^ 52)
    (hs : (l.map fun x => |x|).sum ≤ 2 ^ (1022 : ℤ)) :
    ∃ s, A.sum (l.map fin) = fin s ∧ IsDouble s ∧
      |s - l.sum| ≤ ((1 + ur) ^ (l.length - 1) - 1) * (l.map fun x => |x|).sum := by
  set t := A.order (l.map fin) with ht
  have hlen : t.leaves.length = l.length := by rw [hA.length_eq, List.length_range]
  have hdepth := t.depth_lt
  have hmem : ∀ i ∈ t.leaves, i < l.length := fun i hi => List.mem_range.1 (hA.mem_iff.1 hi)
  have hsum : (t.leaves.map fun i => l.getD i 0).sum = l.sum := by
    rw [(hA.map _).sum_eq, map_getD_range]
  have habs : (t.leaves.map fun i => |l.getD i 0|).sum = (l.map fun x => |x|).sum := by
    rw [(hA.map _).sum_eq]
    congr 1
    conv_rhs => rw [← map_getD_range l, List.map_map]
    rfl
  have key := sumTree_signed (a := fun i => (l.map fin).getD i 0) (v := fun i => l.getD i 0) t
    (fun i hi => by
      have := hmem i hi
      refine ⟨?_, ?_⟩
      · simp [this]
      · simp only [List.getD_eq_getElem?_getD, List.getElem?_eq_getElem this, Option.getD_some]
        exact hd _ (List.getElem_mem this)) (by omega) (by rw [habs]; exact hs)
  rw [hsum, habs] at key
  obtain ⟨s, h2, h3, h4⟩ := key
  refine ⟨s, h2, h3, h4.trans (mul_le_mul_of_nonneg_right ?_ ?_)⟩
  · have : (1 + ur) ^ t.depth ≤ (1 + ur) ^ (l.length - 1) :=
      pow_le_pow_right₀ (by linarith [ur_pos]) (by omega)
    linarith
  · exact List.sum_nonneg fun x hx => by
      obtain ⟨y, -, rfl⟩ := List.mem_map.1 hx
      exact abs_nonneg y

/-- Rounding a positive number of moderate size. -/
theorem toDouble_near {x : ℝ} (h1 : (2 : ℝ) ^ (-1022 : ℤ) ≤ x) (h2 : x ≤ 2 ^ (1023 : ℤ)) :
    ∃ y, toDouble (fin x) = fin y ∧ IsDouble y ∧ Near 1 x y := by
  have h0 : 0 < x := lt_of_lt_of_le (by positivity) h1
  refine ⟨round53 x, fl64_of_le (by rwa [abs_of_pos h0]), round53_isDouble x,
    near_of_error h0.le ?_⟩
  have := round53_normal (x := x) (by rwa [abs_of_pos h0])
  rwa [abs_of_pos h0] at this

theorem opu_pow_sub_one {k : ℕ} (hk : k ≤ 2 ^ 52) : (1 + ur) ^ k - 1 ≤ 2 * k * ur := by
  have h1 := omu_pow_ge k
  have h2 : (1 + ur) ^ k * (1 - ur) ^ k ≤ 1 := by
    rw [← mul_pow]
    refine pow_le_one₀ ?_ ?_
    · nlinarith [one_sub_ur_pos, ur_pos]
    · nlinarith [ur_pos]
  have h3 := opu_pow_le_two hk
  have h4 : 0 < (1 + ur) ^ k := pow_pos (by linarith [ur_pos]) k
  have h5 : 0 ≤ (k : ℝ) * ur := mul_nonneg (Nat.cast_nonneg k) ur_pos.le
  nlinarith

end GW
