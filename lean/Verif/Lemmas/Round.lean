import Verif.Num.Round
import Mathlib.Tactic

/-!
# Facts about rounding to double precision
-/

noncomputable section

open Classical

namespace GW

namespace Fl

/-- `y` is a double, apart from the overflow threshold. -/
def IsDouble (y : ℝ) : Prop := ∃ m k : ℤ, |m| ≤ 2 ^ 53 ∧ -1074 ≤ k ∧ y = m * 2 ^ k

theorem roundEven_int (n : ℤ) : roundEven n = n := by
  unfold roundEven
  rw [if_pos (by rw [Int.fract_intCast]; norm_num), Int.floor_intCast]

theorem roundEven_abs_sub (x : ℝ) : |(roundEven x : ℝ) - x| ≤ 1 / 2 := by
  have hx := Int.floor_add_fract x
  have h0 := Int.fract_nonneg x
  have h1 := Int.fract_lt_one x
  unfold roundEven
  split_ifs with a b c
  · rw [abs_le]; constructor <;> linarith
  · rw [abs_le]; push_cast; constructor <;> linarith
  · rw [abs_le]; constructor <;> linarith
  · rw [abs_le]; push_cast; constructor <;> linarith

theorem roundEven_le {x : ℝ} {n : ℤ} (h : x ≤ n) : roundEven x ≤ n := by
  by_contra hc
  have h1 : (n : ℝ) + 1 ≤ roundEven x := by exact_mod_cast Int.not_le.1 hc
  have h2 := (abs_le.1 (roundEven_abs_sub x)).2
  linarith

theorem le_roundEven {x : ℝ} {n : ℤ} (h : n ≤ x) : n ≤ roundEven x := by
  by_contra hc
  have h1 : (roundEven x : ℝ) + 1 ≤ n := by exact_mod_cast Int.not_le.1 hc
  have h2 := (abs_le.1 (roundEven_abs_sub x)).1
  linarith

theorem roundEven_near {x : ℝ} {n : ℤ} (h : |x - n| < 1 / 2) : roundEven x = n := by
  have h1 := abs_lt.1 h
  have h2 := abs_le.1 (roundEven_abs_sub x)
  have h3 : (roundEven x : ℝ) < n + 1 := by linarith
  have h4 : (n : ℝ) - 1 < roundEven x := by linarith
  have h5 : roundEven x < n + 1 := by exact_mod_cast h3
  have h6 : n - 1 < roundEven x := by exact_mod_cast h4
  omega

theorem round53_of_int {y : ℝ} {n : ℤ} (h : y / 2 ^ ulpExp y = n) : round53 y = y := by
  unfold round53
  rw [h, roundEven_int, ← h]
  field_simp

theorem round53_zero : round53 0 = 0 := round53_of_int (n := 0) (by simp)

theorem round53_isDouble (x : ℝ) : IsDouble (round53 x) := by
  refine ⟨roundEven (x / 2 ^ ulpExp x), ulpExp x, ?_, le_max_right _ _, rfl⟩
  rcases eq_or_ne x 0 with rfl | hx
  · have := roundEven_int 0
    simp only [Int.cast_zero] at this
    simp [this]
  have hpos : 0 < |x| := abs_pos.2 hx
  have h1 : |x| < (2 : ℝ) ^ (Int.log 2 |x| + 1) := by
    have := Int.lt_zpow_succ_log_self (b := 2) (by norm_num) |x|
    exact_mod_cast this
  have hk : (0 : ℝ) < 2 ^ ulpExp x := by positivity
  have h2 : |x / 2 ^ ulpExp x| ≤ ((2 ^ 53 : ℤ) : ℝ) := by
    rw [abs_div, abs_of_pos hk, div_le_iff₀ hk]
    refine h1.le.trans ?_
    have : ((2 ^ 53 : ℤ) : ℝ) = (2 : ℝ) ^ (53 : ℤ) := by norm_num
    rw [this, ← zpow_add₀ (by norm_num : (2 : ℝ) ≠ 0)]
    refine zpow_le_zpow_right₀ (by norm_num) ?_
    have : Int.log 2 |x| - 52 ≤ ulpExp x := le_max_left _ _
    omega
  rw [abs_le] at h2 ⊢
  exact ⟨le_roundEven (by push_cast at h2 ⊢; exact h2.1), roundEven_le h2.2⟩

theorem round53_of_lt {m k : ℤ} (hm : |m| < 2 ^ 53) (hk : -1074 ≤ k) :
    round53 (m * 2 ^ k) = m * 2 ^ k := by
  rcases eq_or_ne m 0 with rfl | hm0
  · simp [round53_zero]
  have hpos : (0 : ℝ) < |(m : ℝ) * 2 ^ k| := by
    rw [abs_pos]
    have : (m : ℝ) ≠ 0 := by exact_mod_cast hm0
    positivity
  have hlog : Int.log 2 |(m : ℝ) * 2 ^ k| < k + 53 := by
    rw [← Int.lt_zpow_iff_log_lt (by norm_num) hpos]
    rw [abs_mul, abs_of_pos (by positivity : (0 : ℝ) < 2 ^ k), add_comm,
      zpow_add₀ (by norm_num)]
    have : |(m : ℝ)| < 2 ^ (53 : ℤ) := by
      have : ((|m| : ℤ) : ℝ) < ((2 ^ 53 : ℤ) : ℝ) := by exact_mod_cast hm
      rw [Int.cast_abs] at this
      refine this.trans_le ?_
      norm_num
    push_cast
    exact mul_lt_mul_of_pos_right this (by positivity)
  have hu : ulpExp ((m : ℝ) * 2 ^ k) ≤ k := by
    unfold ulpExp
    rw [max_le_iff]
    constructor <;> omega
  obtain ⟨j, hj⟩ := Int.eq_ofNat_of_zero_le (sub_nonneg.2 hu)
  refine round53_of_int (n := m * 2 ^ j) ?_
  rw [mul_div_assoc, ← zpow_sub₀ (by norm_num), hj]
  push_cast
  rfl

theorem round53_of_isDouble {y : ℝ} (h : IsDouble y) : round53 y = y := by
  obtain ⟨m, k, hm, hk, rfl⟩ := h
  rcases lt_or_eq_of_le hm with hm | hm
  · exact round53_of_lt hm hk
  · have h2 : ∃ m' : ℤ, |m'| < 2 ^ 53 ∧ m = m' * 2 := by
      rcases abs_eq (by norm_num : (0 : ℤ) ≤ 2 ^ 53) |>.1 hm with h | h
      · exact ⟨2 ^ 52, by norm_num, by rw [h]; norm_num⟩
      · exact ⟨-2 ^ 52, by norm_num, by rw [h]; norm_num⟩
    obtain ⟨m', hm', rfl⟩ := h2
    have h3 : ((m' * 2 : ℤ) : ℝ) * 2 ^ k = m' * 2 ^ (k + 1) := by
      rw [zpow_add_one₀ (by norm_num)]
      push_cast
      ring
    rw [h3]
    exact round53_of_lt hm' (by omega)

theorem bigR_eq : bigR = (2 ^ 53 - 1) * 2 ^ (971 : ℤ) := by
  unfold bigR
  have : (2 : ℝ) ^ 1023 = 2 ^ (52 : ℤ) * 2 ^ (971 : ℤ) := by
    rw [← zpow_add₀ (by norm_num), ← zpow_natCast]
    norm_num only [Nat.cast_ofNat]
  rw [this, ← mul_assoc]
  norm_num

theorem isDouble_bigR : IsDouble bigR :=
  ⟨2 ^ 53 - 1, 971, by norm_num, by norm_num, by rw [bigR_eq]; push_cast; ring⟩

theorem IsDouble.neg {y : ℝ} (h : IsDouble y) : IsDouble (-y) := by
  obtain ⟨m, k, hm, hk, rfl⟩ := h
  exact ⟨-m, k, by rwa [abs_neg], hk, by push_cast; ring⟩

theorem isDouble_zero : IsDouble 0 := ⟨0, 0, by norm_num, by norm_num, by simp⟩

theorem fl64_eq {x : ℝ} (h : |x| ≤ bigR) (hx : IsDouble x) : fl64 x = fin x := by
  unfold fl64
  rw [round53_of_isDouble hx]
  have := abs_le.1 h
  rw [if_neg (by linarith), if_neg (by linarith)]

/-- Every result of rounding is an infinity or a double in range. -/
theorem fl64_cases (x : ℝ) : fl64 x = pinf ∨ fl64 x = ninf ∨
    ∃ r, fl64 x = fin r ∧ |r| ≤ bigR ∧ IsDouble r := by
  unfold fl64
  split_ifs with a b
  · exact .inl rfl
  · exact .inr (.inl rfl)
  · exact .inr (.inr ⟨_, rfl, abs_le.2 ⟨not_lt.1 b, not_lt.1 a⟩, round53_isDouble x⟩)

theorem fl64_zero : fl64 0 = fin 0 :=
  fl64_eq (by rw [abs_zero]; exact bigR_pos.le) isDouble_zero

theorem fl64_neg_bigR : fl64 (-bigR) = fin (-bigR) :=
  fl64_eq (by rw [abs_neg, abs_of_pos bigR_pos]) isDouble_bigR.neg

/-- A special value or a double in range. -/
def IsFloat : Fl → Prop
  | fin r => |r| ≤ bigR ∧ IsDouble r
  | _ => True

theorem toDouble_isFloat (x : Fl) : IsFloat (toDouble x) := by
  cases x with
  | fin r =>
    rcases fl64_cases r with h | h | ⟨r', h, h'⟩ <;> simp only [toDouble, h, IsFloat]
    exact h'
  | _ => trivial

theorem toDouble_of_isFloat {x : Fl} (h : IsFloat x) : toDouble x = x := by
  cases x with
  | fin r => exact fl64_eq h.1 h.2
  | _ => rfl

/-- The part of `fl64_sub_bigR` without large literals: `U` is half a unit in the last place of the
largest double. -/
theorem round53_sub_bigR {l U : ℝ} (hU0 : 0 < U) (e971 : (2 : ℝ) ^ (971 : ℤ) = 2 * U)
    (e1023 : (2 : ℝ) ^ (1023 : ℤ) = 4503599627370496 * (2 * U))
    (e1024 : (2 : ℝ) ^ (1024 : ℤ) = 9007199254740992 * (2 * U))
    (hbig : bigR = 9007199254740991 * (2 * U)) (h : l < U) :
    (-U < l ∧ round53 (l - bigR) = -bigR) ∨ (l ≤ -U ∧ round53 (l - bigR) < -bigR) := by
  have hb : l - bigR < 0 := by rw [hbig]; linarith only [h, hU0]
  have habs : |l - bigR| = bigR - l := by rw [abs_of_neg hb]; ring
  have hpos : 0 < |l - bigR| := abs_pos.2 hb.ne
  have hlog1 : -(2 * U) < l → Int.log 2 |l - bigR| = 1023 := by
    intro hl
    apply le_antisymm
    · rw [← Int.lt_add_one_iff, ← Int.lt_zpow_iff_log_lt (by norm_num) hpos]
      have e : (((2 : ℕ) : ℝ)) ^ ((1023 : ℤ) + 1) = 9007199254740992 * (2 * U) := by
        rw [← e1024]; norm_num only [Nat.cast_ofNat, Int.reduceAdd]
      rw [e, habs, hbig]
      linarith only [hl]
    · rw [← Int.zpow_le_iff_le_log (by norm_num) hpos]
      have e : (((2 : ℕ) : ℝ)) ^ (1023 : ℤ) = 4503599627370496 * (2 * U) := by
        rw [← e1023]; norm_num only [Nat.cast_ofNat]
      rw [e, habs, hbig]
      linarith only [h, hU0]
  rcases lt_or_ge (-U) l with hl | hl
  · left
    refine ⟨hl, ?_⟩
    have hu : ulpExp (l - bigR) = 971 := by
      unfold ulpExp; rw [hlog1 (by linarith only [hl, hU0])]; rfl
    unfold round53
    rw [hu, roundEven_near (n := -9007199254740991)]
    · rw [e971, hbig]; push_cast; ring
    · rw [e971, hbig]
      have e : (l - 9007199254740991 * (2 * U)) / (2 * U) - ((-9007199254740991 : ℤ) : ℝ) =
          l / (2 * U) := by
        push_cast
        field_simp
        ring
      rw [e, abs_div, abs_of_pos (by positivity : 0 < 2 * U), div_lt_iff₀ (by positivity), abs_lt]
      constructor
      · linarith only [hl]
      · linarith only [h]
  · right
    refine ⟨hl, ?_⟩
    rcases lt_or_ge (-(2 * U)) l with hl2 | hl2
    · have hu : ulpExp (l - bigR) = 971 := by unfold ulpExp; rw [hlog1 hl2]; rfl
      have hq : (l - bigR) / 2 ^ (971 : ℤ) = l / (2 * U) - 9007199254740991 := by
        rw [e971, hbig]
        field_simp
      have hq1 : -1 < l / (2 * U) := by
        rw [lt_div_iff₀ (by positivity)]; linarith only [hl2]
      have hq2 : l / (2 * U) ≤ -(1 / 2) := by
        rw [div_le_iff₀ (by positivity)]; linarith only [hl]
      have hfl : ⌊(l - bigR) / (2 : ℝ) ^ (971 : ℤ)⌋ = -9007199254740992 := by
        rw [hq, Int.floor_eq_iff]
        push_cast
        constructor
        · linarith only [hq1]
        · linarith only [hq2]
      have hfr : Int.fract ((l - bigR) / (2 : ℝ) ^ (971 : ℤ)) ≤ 1 / 2 := by
        have := Int.floor_add_fract ((l - bigR) / (2 : ℝ) ^ (971 : ℤ))
        rw [hfl] at this
        push_cast at this
        rw [hq] at this ⊢
        linarith only [this, hq2]
      have hre : roundEven ((l - bigR) / (2 : ℝ) ^ (971 : ℤ)) = -9007199254740992 := by
        unfold roundEven
        rw [hfl]
        split_ifs with a b c
        · rfl
        · exact absurd hfr (not_le.2 b)
        · rfl
        · exact absurd ⟨-4503599627370496, by norm_num only⟩ c
      unfold round53
      rw [hu, hre, e971, hbig]
      push_cast
      linarith only [hU0]
    · obtain ⟨e, he⟩ : ∃ e, e = Int.log 2 |l - bigR| := ⟨_, rfl⟩
      have hlog : (1024 : ℤ) ≤ e := by
        rw [he, ← Int.zpow_le_iff_le_log (by norm_num) hpos]
        have e : (((2 : ℕ) : ℝ)) ^ (1024 : ℤ) = 9007199254740992 * (2 * U) := by
          rw [← e1024]; norm_num only [Nat.cast_ofNat]
        rw [e, habs, hbig]
        linarith only [hl2]
      have hu : ulpExp (l - bigR) = e - 52 := by
        unfold ulpExp; rw [← he]; exact max_eq_left (by omega)
      have hle : (2 : ℝ) ^ e ≤ bigR - l := by
        rw [← habs, he]
        have := Int.zpow_log_le_self (b := 2) (by norm_num) hpos
        exact_mod_cast this
      have hsplit : (2 : ℝ) ^ e = 4503599627370496 * 2 ^ (e - 52) := by
        have : (4503599627370496 : ℝ) = 2 ^ (52 : ℤ) := by norm_num
        rw [this, ← zpow_add₀ (by norm_num)]; congr 1; ring
      have hk : (0 : ℝ) < 2 ^ (e - 52) := by positivity
      have h6 : 9007199254740992 * (2 * U) ≤ 2 ^ e := by
        rw [← e1024]; exact zpow_le_zpow_right₀ (by norm_num) hlog
      have hround : roundEven ((l - bigR) / 2 ^ (e - 52)) ≤ -4503599627370496 := by
        apply roundEven_le
        rw [div_le_iff₀ hk]
        push_cast
        rw [hsplit] at hle
        linarith only [hle]
      have h5 : ((roundEven ((l - bigR) / 2 ^ (e - 52)) : ℤ) : ℝ) ≤ -4503599627370496 := by
        exact_mod_cast hround
      unfold round53
      rw [hu]
      have h7 := mul_le_mul_of_nonneg_right h5 hk.le
      refine lt_of_le_of_lt h7 ?_
      rw [hsplit] at h6
      rw [hbig]
      linarith only [h6, hU0]

/-- Subtracting the largest double from anything below `2 ^ 970` rounds to the lowest double, or
overflows. -/
theorem fl64_sub_bigR {l : ℝ} (h : l < 2 ^ (970 : ℤ)) :
    fl64 (l - bigR) = fin (-bigR) ∨ fl64 (l - bigR) = ninf := by
  have hb := bigR_pos
  have e971 : (2 : ℝ) ^ (971 : ℤ) = 2 * 2 ^ (970 : ℤ) := by
    rw [show (971 : ℤ) = 970 + 1 by norm_num, zpow_add_one₀ (by norm_num)]; ring
  have e1023 : (2 : ℝ) ^ (1023 : ℤ) = 4503599627370496 * (2 * 2 ^ (970 : ℤ)) := by
    rw [← e971, show (4503599627370496 : ℝ) = 2 ^ (52 : ℤ) by norm_num, ← zpow_add₀ (by norm_num)]
    norm_num only
  have e1024 : (2 : ℝ) ^ (1024 : ℤ) = 9007199254740992 * (2 * 2 ^ (970 : ℤ)) := by
    rw [← e971, show (9007199254740992 : ℝ) = 2 ^ (53 : ℤ) by norm_num, ← zpow_add₀ (by norm_num)]
    norm_num only
  have hbig : bigR = 9007199254740991 * (2 * 2 ^ (970 : ℤ)) := by
    rw [bigR_eq, e971]
    congr 1
    norm_num
  unfold fl64
  rcases round53_sub_bigR (by positivity) e971 e1023 e1024 hbig h with ⟨-, hr⟩ | ⟨-, hr⟩
  · left
    rw [hr, if_neg (by linarith only [hb]), if_neg (lt_irrefl _)]
  · right
    rw [if_neg (by linarith only [hb, hr]), if_pos hr]

/-- After `nan_to_num` the result is the lowest double. -/
theorem nanToNum_fl64_sub_bigR {l : ℝ} (h : l < 2 ^ (970 : ℤ)) :
    nanToNum (fl64 (l - bigR)) = fin (-bigR) := by
  rcases fl64_sub_bigR h with h | h <;> rw [h] <;> rfl

end Fl

end GW
