import Verif.Lemmas.RoundMono
import Verif.Model.RoundedSmoothing
import Verif.Props.RoundedGrid

/-!
# C119: the smoothing window in double precision
-/

noncomputable section

open Classical

namespace GW

open Fl

namespace Spec

/-- The Planck taper: nothing below 0, everything above 1, and the documented rise in between
(`f(m') = delta_m / m' + delta_m / (m' - delta_m)` for `u = m' / delta_m`). -/
def planckTaper (u : ℝ) : ℝ :=
  if u ≤ 0 then 0 else if 1 ≤ u then 1 else (Real.exp (1 / u + 1 / (u - 1)) + 1)⁻¹

/-- The documented window: the taper between `mmin` and `mmin + d`, a step at `mmax`. -/
def planckWindow (mmin mmax d m : ℝ) : ℝ :=
  if mmin ≤ m ∧ m ≤ mmax then planckTaper ((m - mmin) / d) else 0

/-- A logistic function of a library: doubles between 0 and 1, with absolute error at most `δ`. -/
def AccurateLogistic (E : Fl → Fl) (δ : ℝ) : Prop :=
  ∀ x, IsDouble x → |x| ≤ 2 ^ 30 →
    ∃ y, E (fin x) = fin y ∧ IsDouble y ∧ 0 ≤ y ∧ y ≤ 1 ∧ |y - 1 / (1 + Real.exp (-x))| ≤ δ

/-- A logistic function of a library that never decreases. -/
def MonotoneLogistic (E : Fl → Fl) : Prop :=
  ∀ x x', IsDouble x → IsDouble x' → |x| ≤ 2 ^ 30 → |x'| ≤ 2 ^ 30 → x ≤ x' → E (fin x) ≤ E (fin x')

/-- Doubles of moderate size. -/
structure WindowArgs (m mmin d : ℝ) : Prop where
  isDouble : IsDouble m ∧ IsDouble mmin ∧ IsDouble d
  mass : |m| ≤ 2 ^ (500 : ℤ)
  lower : |mmin| ≤ 2 ^ (500 : ℤ)
  width : (2 : ℝ) ^ (-500 : ℤ) ≤ d ∧ d ≤ 2 ^ (500 : ℤ)

end Spec

open Spec

namespace RoundedSmoothing

/-! ## The taper -/

/-- The logistic function of `-y`. -/
def lg (y : ℝ) : ℝ := 1 / (1 + Real.exp y)

theorem lg_sub {y z : ℝ} (h : z ≤ y) :
    0 ≤ lg z - lg y ∧ lg z - lg y ≤ (y - z) * Real.exp (-z) ∧ lg z - lg y ≤ (y - z) * Real.exp y ∧
      lg z - lg y ≤ y - z := by
  have hy := Real.exp_pos y
  have hz := Real.exp_pos z
  have h1 : Real.exp z ≤ Real.exp y := Real.exp_le_exp.2 h
  have h2 : Real.exp y - Real.exp z ≤ (y - z) * Real.exp y := by
    have := Real.add_one_le_exp (z - y)
    have e : Real.exp z = Real.exp (z - y) * Real.exp y := by rw [← Real.exp_add]; ring_nf
    rw [e]
    nlinarith
  have e : lg z - lg y = (Real.exp y - Real.exp z) / ((1 + Real.exp y) * (1 + Real.exp z)) := by
    unfold lg
    field_simp
    ring
  have hd : 0 < (1 + Real.exp y) * (1 + Real.exp z) := by positivity
  have h0 : 0 ≤ y - z := by linarith
  rw [e]
  refine ⟨div_nonneg (by linarith) hd.le, ?_, ?_, ?_⟩ <;> rw [div_le_iff₀ hd] <;> refine h2.trans ?_
  · have e1 : Real.exp (-z) * Real.exp z = 1 := by rw [← Real.exp_add]; simp
    have : Real.exp y ≤ Real.exp (-z) * ((1 + Real.exp y) * (1 + Real.exp z)) := by
      have : Real.exp (-z) * ((1 + Real.exp y) * (1 + Real.exp z)) =
          Real.exp (-z) * (1 + Real.exp y) + (Real.exp (-z) * Real.exp z) * (1 + Real.exp y) := by ring
      rw [this, e1]
      have := mul_pos (Real.exp_pos (-z)) (show 0 < 1 + Real.exp y by positivity)
      linarith
    calc (y - z) * Real.exp y ≤ (y - z) * _ := mul_le_mul_of_nonneg_left this h0
      _ = _ := by ring
  · have : Real.exp y ≤ Real.exp y * ((1 + Real.exp y) * (1 + Real.exp z)) :=
      le_mul_of_one_le_right hy.le (by nlinarith)
    calc (y - z) * Real.exp y ≤ (y - z) * _ := mul_le_mul_of_nonneg_left this h0
      _ = _ := by ring
  · exact mul_le_mul_of_nonneg_left (by nlinarith) h0

theorem lg_mem (y : ℝ) : 0 < lg y ∧ lg y < 1 := by
  have := Real.exp_pos y
  unfold lg
  refine ⟨by positivity, ?_⟩
  rw [div_lt_one (by positivity)]
  linarith

/-- The exponent of the taper. -/
def expo (s : ℝ) : ℝ := 1 / s - 1 / (1 - s)

theorem planckTaper_eq {s : ℝ} (h0 : 0 < s) (h1 : s < 1) : planckTaper s = lg (expo s) := by
  unfold planckTaper lg expo
  rw [if_neg (by linarith), if_neg (by linarith)]
  have e : 1 / s + 1 / (s - 1) = 1 / s - 1 / (1 - s) := by
    rw [show s - 1 = -(1 - s) by ring, one_div_neg_eq_neg_one_div]
    ring
  rw [e, inv_eq_one_div, add_comm]

theorem expo_symm (s : ℝ) : expo (1 - s) = -expo s := by
  unfold expo
  rw [sub_sub_cancel]
  ring

theorem lg_neg (y : ℝ) : lg (-y) = 1 - lg y := by
  unfold lg
  have := Real.exp_pos y
  rw [Real.exp_neg]
  field_simp
  ring

theorem exp_bound {t : ℝ} (ht : 2 ≤ t) : (2 * t ^ 2 + 4) * Real.exp (2 - t) ≤ 12 ∧ (t + 2) * Real.exp (2 - t) ≤ 4 := by
  have h := Real.quadratic_le_exp_of_nonneg (show 0 ≤ t - 2 by linarith)
  have e : Real.exp (2 - t) * Real.exp (t - 2) = 1 := by rw [← Real.exp_add]; simp
  have hp := Real.exp_pos (2 - t)
  constructor
  · have : 2 * t ^ 2 + 4 ≤ 12 * Real.exp (t - 2) := by nlinarith
    nlinarith
  · have : t + 2 ≤ 4 * Real.exp (t - 2) := by nlinarith
    nlinarith

/-- The taper at two points of its lower half that are close to each other. -/
theorem taper_lower {a b : ℝ} (ha : 0 < a) (hab : a ≤ b) (h2 : b ≤ 2 * a) (hb : b ≤ 1 / 2) :
    |lg (expo b) - lg (expo a)| ≤ 12 * (b - a) := by
  have hb0 : 0 < b := by linarith
  have e : expo a - expo b = (b - a) * (1 / (a * b) + 1 / ((1 - a) * (1 - b))) := by
    unfold expo
    have : 1 - a ≠ 0 := by linarith
    have : 1 - b ≠ 0 := by linarith
    field_simp
    ring
  have hab' : 1 / (a * b) ≤ 2 * (1 / b) ^ 2 := by
    rw [div_le_iff₀ (by positivity)]
    field_simp
    linarith
  have h4 : 1 / ((1 - a) * (1 - b)) ≤ 4 := by
    rw [div_le_iff₀ (by nlinarith)]
    nlinarith
  have h40 : 0 ≤ 1 / ((1 - a) * (1 - b)) := by
    have : 0 < (1 - a) * (1 - b) := mul_pos (by linarith) (by linarith)
    positivity
  have hge : 0 ≤ expo a - expo b := by
    rw [e]
    refine mul_nonneg (by linarith) (add_nonneg (by positivity) h40)
  obtain ⟨h0, h1, -, -⟩ := lg_sub (sub_nonneg.1 hge)
  rw [abs_of_nonneg h0]
  refine h1.trans ?_
  have hexp : Real.exp (-expo b) ≤ Real.exp (2 - 1 / b) := by
    apply Real.exp_le_exp.2
    unfold expo
    have : 1 / (1 - b) ≤ 2 := by rw [div_le_iff₀ (by linarith)]; linarith
    linarith
  have ht : 2 ≤ 1 / b := by rw [le_div_iff₀ hb0]; linarith
  have hB := (exp_bound ht).1
  calc (expo a - expo b) * Real.exp (-expo b)
      ≤ ((b - a) * (2 * (1 / b) ^ 2 + 4)) * Real.exp (2 - 1 / b) := by
        refine mul_le_mul ?_ hexp (Real.exp_pos _).le ?_
        · rw [e]
          exact mul_le_mul_of_nonneg_left (by linarith) (by linarith)
        · exact mul_nonneg (by linarith) (by positivity)
    _ = (b - a) * ((2 * (1 / b) ^ 2 + 4) * Real.exp (2 - 1 / b)) := by ring
    _ ≤ (b - a) * 12 := mul_le_mul_of_nonneg_left hB (by linarith)
    _ = _ := by ring

/-- The taper at two points that are close to each other. -/
theorem taper_close {a b : ℝ} (ha : 0 < a) (hab : a ≤ b) (hb : b < 1) (h2 : b ≤ 2 * a) (h3 : 1 - a ≤ 2 * (1 - b)) :
    |lg (expo b) - lg (expo a)| ≤ 16 * (b - a) := by
  have hd : 0 ≤ b - a := by linarith
  rcases le_total b (1 / 2) with h | h
  · exact (taper_lower ha hab h2 h).trans (by linarith)
  rcases le_total (1 / 2) a with h' | h'
  · have := taper_lower (a := 1 - b) (b := 1 - a) (by linarith) (by linarith) (by linarith) (by linarith)
    rw [expo_symm, expo_symm, lg_neg, lg_neg] at this
    rw [show (1 - lg (expo a)) - (1 - lg (expo b)) = lg (expo b) - lg (expo a) by ring] at this
    linarith
  · have e : expo a - expo b = (b - a) * (1 / (a * b) + 1 / ((1 - a) * (1 - b))) := by
      unfold expo
      have : 1 - a ≠ 0 := by linarith
      have : 1 - b ≠ 0 := by linarith
      have : b ≠ 0 := by linarith
      field_simp
      ring
    have p1 : 1 / (a * b) ≤ 8 := by
      rw [div_le_iff₀ (by nlinarith)]
      nlinarith
    have p2 : 1 / ((1 - a) * (1 - b)) ≤ 8 := by
      rw [div_le_iff₀ (by nlinarith)]
      nlinarith
    have p3 : 0 ≤ 1 / (a * b) := by
      have : 0 < a * b := by nlinarith
      positivity
    have p4 : 0 ≤ 1 / ((1 - a) * (1 - b)) := by
      have : 0 < (1 - a) * (1 - b) := mul_pos (by linarith) (by linarith)
      positivity
    have hge : 0 ≤ expo a - expo b := by
      rw [e]
      exact mul_nonneg hd (by linarith)
    obtain ⟨h0, -, -, h1⟩ := lg_sub (sub_nonneg.1 hge)
    rw [abs_of_nonneg h0]
    refine h1.trans ?_
    rw [e]
    calc (b - a) * _ ≤ (b - a) * 16 := mul_le_mul_of_nonneg_left (by linarith) hd
      _ = _ := by ring

theorem taper_close' {a b : ℝ} (ha : 1 / 10 ^ 7 ≤ a) (ha1 : a ≤ 1 - 1 / 10 ^ 7) (hb : 1 / 10 ^ 7 ≤ b)
    (hb1 : b ≤ 1 - 1 / 10 ^ 7) (h : |a - b| ≤ 1 / 10 ^ 7) :
    |lg (expo a) - lg (expo b)| ≤ 16 * |a - b| := by
  obtain ⟨g1, g2⟩ := abs_le.1 h
  rcases le_total a b with hab | hab
  · rw [abs_sub_comm, abs_sub_comm a b, abs_of_nonneg (by linarith : 0 ≤ b - a)]
    exact taper_close (by linarith) hab (by linarith) (by linarith) (by linarith)
  · rw [abs_of_nonneg (by linarith : 0 ≤ a - b)]
    exact taper_close (by linarith) hab (by linarith) (by linarith) (by linarith)

/-! ## Rounded operations -/

theorem toDouble_fin_le {x : ℝ} (h : |x| ≤ 2 ^ (1023 : ℤ)) :
    toDouble (fin x) = fin (round53 x) ∧ IsDouble (round53 x) :=
  ⟨fl64_of_le h, round53_isDouble x⟩

theorem le_big {x : ℝ} (h : x ≤ 2 ^ 30) : x ≤ 2 ^ (1023 : ℤ) := by
  refine h.trans ?_
  have := two_zpow_le (show (30 : ℤ) ≤ 1023 by norm_num)
  exact le_trans (by norm_num) this

theorem small_le {x : ℝ} (h : 1 / 2 ^ 30 ≤ x) : (2 : ℝ) ^ (-1022 : ℤ) ≤ x := by
  refine le_trans ?_ h
  have := two_zpow_le (show (-1022 : ℤ) ≤ -30 by norm_num)
  exact this.trans (by norm_num)

theorem isDouble_one : IsDouble (1 : ℝ) := by exact_mod_cast isDouble_int (n := 1) (by norm_num)

/-- The limits of the clipped argument. -/
def lo : ℝ := round53 1e-6
def hi : ℝ := round53 (1 - lo)

theorem lo_mem : 99 / 10 ^ 8 ≤ lo ∧ lo ≤ 101 / 10 ^ 8 := by
  have := round53_normal (x := 1e-6) (small_le (by rw [abs_of_pos (by norm_num)]; norm_num))
  rw [abs_of_pos (show (0 : ℝ) < 1e-6 by norm_num), ur_val] at this
  change |lo - _| ≤ _ at this
  obtain ⟨h1, h2⟩ := abs_le.1 this
  norm_num at h1 h2 ⊢
  constructor <;> linarith

theorem hi_mem : 1 - 102 / 10 ^ 8 ≤ hi ∧ hi ≤ 1 - 98 / 10 ^ 8 := by
  obtain ⟨l1, l2⟩ := lo_mem
  have hp : 0 < 1 - lo := by norm_num at l2; linarith
  have := round53_normal (x := 1 - lo) (small_le (by rw [abs_of_pos hp]; norm_num at l2 ⊢; linarith))
  rw [abs_of_pos hp, ur_val] at this
  change |hi - _| ≤ _ at this
  obtain ⟨h1, h2⟩ := abs_le.1 this
  norm_num at h1 h2 l1 l2 ⊢
  constructor <;> linarith

theorem lo_double : IsDouble lo := round53_isDouble _
theorem hi_double : IsDouble hi := round53_isDouble _

theorem lo_le_hi : lo ≤ hi := by
  have h1 := lo_mem.2
  have h2 := hi_mem.1
  norm_num at h1 h2
  linarith

theorem toDouble_lo : toDouble (fin 1e-6) = fin lo :=
  (toDouble_fin_le (le_big (by rw [abs_of_pos (by norm_num)]; norm_num))).1

theorem toDouble_hi : toDouble (1 - fin lo) = fin hi := by
  rw [one_eq, fin_sub]
  refine (toDouble_fin_le (le_big ?_)).1
  obtain ⟨h1, h2⟩ := lo_mem
  rw [abs_le]
  norm_num at h1 h2 ⊢
  constructor <;> linarith

/-- The clipped argument. -/
def clipR (q : ℝ) : ℝ := if q < lo then lo else if hi < q then hi else q

theorem clipR_mem (q : ℝ) : lo ≤ clipR q ∧ clipR q ≤ hi := by
  have := lo_le_hi
  unfold clipR
  split_ifs with h1 h2
  · exact ⟨le_rfl, this⟩
  · exact ⟨this, le_rfl⟩
  · exact ⟨not_lt.1 h1, not_lt.1 h2⟩

theorem clipR_double {q : ℝ} (h : IsDouble q) : IsDouble (clipR q) := by
  unfold clipR
  split_ifs
  exacts [lo_double, hi_double, h]

theorem clipR_mono {q q' : ℝ} (h : q ≤ q') : clipR q ≤ clipR q' := by
  have := lo_le_hi
  unfold clipR
  split_ifs <;> linarith

theorem clip_fin (q : ℝ) : Arr.clip (fin q) (fin lo) (fin hi) = fin (clipR q) := by
  unfold Arr.clip clipR
  simp only [fin_lt]
  split_ifs <;> rfl

/-- The rounded exponent. -/
def expoR (s : ℝ) : ℝ := round53 (round53 (1 / s) - round53 (1 / round53 (1 - s)))

theorem parts {s : ℝ} (hl : lo ≤ s) (hh : s ≤ hi) :
    (0 < s ∧ s < 1) ∧ (1 / s ≤ 2 ^ 20 ∧ 1 / (1 - s) ≤ 2 ^ 20) ∧
    Near 1 (1 / s) (round53 (1 / s)) ∧ Near 1 (1 - s) (round53 (1 - s)) ∧
    Near 2 (1 / (1 - s)) (round53 (1 / round53 (1 - s))) ∧
    (|1 / s| ≤ 2 ^ 30 ∧ |1 - s| ≤ 2 ^ 30 ∧ |1 / round53 (1 - s)| ≤ 2 ^ 30) := by
  have l1 := lo_mem.1
  have h1 := hi_mem.2
  norm_num at l1 h1
  have s0 : 0 < s := by linarith
  have s1 : 0 < 1 - s := by linarith
  have a1 : 1 / s ≤ 2 ^ 20 := by rw [div_le_iff₀ s0]; norm_num; linarith
  have a2 : 1 / (1 - s) ≤ 2 ^ 20 := by rw [div_le_iff₀ s1]; norm_num; linarith
  have a3 : 1 ≤ 1 / s := by rw [le_div_iff₀ s0]; linarith
  have hp : 0 < 1 / s := by positivity
  have n1 : Near 1 (1 / s) (round53 (1 / s)) := by
    refine near_of_error hp.le ?_
    have := round53_normal (x := 1 / s) (small_le (by rw [abs_of_pos hp]; refine le_trans ?_ a3; norm_num))
    rwa [abs_of_pos hp] at this
  have n2 : Near 1 (1 - s) (round53 (1 - s)) := by
    refine near_of_error s1.le ?_
    have := round53_normal (x := 1 - s) (small_le (by rw [abs_of_pos s1]; norm_num; linarith))
    rwa [abs_of_pos s1] at this
  have n3 := n2.inv s1
  have c0 := n2.pos s1
  have hu := ur_val
  have cle : round53 (1 - s) ≤ 2 := by
    have := n2.2
    rw [pow_one, hu] at this
    norm_num at this
    linarith
  have cge : 1 / 2 ^ 21 ≤ round53 (1 - s) := by
    have := n2.1
    rw [pow_one, hu] at this
    norm_num at this ⊢
    linarith
  have d0 : 0 < 1 / round53 (1 - s) := by positivity
  have d1 : 1 / 2 ≤ 1 / round53 (1 - s) := by
    rw [div_le_div_iff₀ (by norm_num) c0]; linarith
  have d2 : 1 / round53 (1 - s) ≤ 2 ^ 21 := by
    rw [div_le_iff₀ c0]
    norm_num at cge ⊢
    linarith
  have n4 : Near 1 (1 / round53 (1 - s)) (round53 (1 / round53 (1 - s))) := by
    refine near_of_error d0.le ?_
    have := round53_normal (x := 1 / round53 (1 - s))
      (small_le (by rw [abs_of_pos d0]; refine le_trans ?_ d1; norm_num))
    rwa [abs_of_pos d0] at this
  refine ⟨⟨s0, by linarith⟩, ⟨a1, a2⟩, n1, n2, ?_, ?_, ?_, ?_⟩
  · rw [← one_div, ← one_div] at n3
    exact n3.trans n4
  · rw [abs_of_pos hp]
    exact a1.trans (by norm_num)
  · rw [abs_of_pos s1]; norm_num; linarith
  · rw [abs_of_pos d0]
    exact d2.trans (by norm_num)

theorem expoR_error {s : ℝ} (hl : lo ≤ s) (hh : s ≤ hi) :
    |expoR s - expo s| ≤ 6 * ur * (1 / s + 1 / (1 - s)) ∧ |expoR s| ≤ 2 ^ 30 ∧
    |round53 (1 / s) - round53 (1 / round53 (1 - s))| ≤ 2 ^ 30 := by
  obtain ⟨⟨s0, s1⟩, ⟨a1, a2⟩, n1, n2, n3, -⟩ := parts hl hh
  have hA : 0 < 1 / s := by positivity
  have hD : 0 < 1 / (1 - s) := one_div_pos.2 (by linarith)
  have e1 := n1.abs_sub hA.le (by norm_num)
  have e2 := n3.abs_sub hD.le (by norm_num)
  have e3 := round53_add (round53_isDouble (1 / s)) (round53_isDouble (1 / round53 (1 - s))).neg
  rw [← sub_eq_add_neg] at e3
  have eE : expo s = 1 / s - 1 / (1 - s) := rfl
  change |expoR s - _| ≤ _ at e3
  rw [eE]
  generalize 1 / s = A at *
  generalize 1 / (1 - s) = D at *
  generalize round53 A = a at *
  generalize round53 (1 / round53 (1 - s)) = d at *
  generalize expoR s = x at *
  have hu := ur_val
  have hu0 := ur_pos
  have hule : ur ≤ 1 / 10 ^ 15 := by rw [hu]; norm_num
  have m1 : ur * A ≤ 1 / 10 ^ 15 * A := mul_le_mul_of_nonneg_right hule hA.le
  have m2 : ur * D ≤ 1 / 10 ^ 15 * D := mul_le_mul_of_nonneg_right hule hD.le
  have q1 : 0 < ur * A := by positivity
  have q2 : 0 < ur * D := by positivity
  have hab : |a - d| ≤ 11 / 10 * (A + D) := by
    obtain ⟨g1, g2⟩ := abs_le.1 e1
    obtain ⟨g3, g4⟩ := abs_le.1 e2
    push_cast at g1 g2 g3 g4
    rw [abs_le]
    norm_num at m1 m2
    constructor <;> linarith
  have hr : ur * |a - d| ≤ 11 / 10 * (ur * A + ur * D) := by
    calc ur * |a - d| ≤ ur * (11 / 10 * (A + D)) := mul_le_mul_of_nonneg_left hab hu0.le
      _ = _ := by ring
  push_cast at e1 e2
  have herr : |x - (A - D)| ≤ 6 * ur * (A + D) := by
    rw [show x - (A - D) = (x - (a - d)) + ((a - A) - (d - D)) by ring]
    refine (abs_add_le _ _).trans ?_
    have := abs_sub (a - A) (d - D)
    linarith
  refine ⟨herr, ?_, ?_⟩
  · have h1 : |A - D| ≤ 2 ^ 20 := abs_le.2 ⟨by linarith, by linarith⟩
    have h2 := abs_sub_abs_le_abs_sub x (A - D)
    norm_num at a1 a2 m1 m2 h1 ⊢
    linarith
  · refine hab.trans ?_
    norm_num at a1 a2 ⊢
    linarith

/-- The exponent as the program computes it. -/
theorem exponent_eq {s : ℝ} (hl : lo ≤ s) (hh : s ≤ hi) :
    toDouble (toDouble (1 / fin s) - toDouble (1 / toDouble (1 - fin s))) = fin (expoR s) := by
  obtain ⟨⟨s0, s1⟩, -, n1, n2, n3, b1, b2, b3⟩ := parts hl hh
  have c0 := n2.pos (by linarith)
  rw [one_eq, fin_div s0.ne', fin_sub, (toDouble_fin_le (le_big b2)).1, fin_div c0.ne',
    (toDouble_fin_le (le_big b1)).1, (toDouble_fin_le (le_big b3)).1, fin_sub,
    (toDouble_fin_le (le_big (expoR_error hl hh).2.2)).1]
  rfl

theorem expoR_anti {s s' : ℝ} (hl : lo ≤ s) (hs : s ≤ s') (hh : s' ≤ hi) : expoR s' ≤ expoR s := by
  obtain ⟨⟨s0, s1⟩, -, -, n2, -⟩ := parts hl (hs.trans hh)
  obtain ⟨⟨s0', s1'⟩, -, -, n2', -⟩ := parts (hl.trans hs) hh
  have c0 := n2.pos (by linarith)
  have c0' := n2'.pos (by linarith)
  unfold expoR
  refine round53_mono (sub_le_sub (round53_mono (one_div_le_one_div_of_le s0 hs)) (round53_mono ?_))
  exact one_div_le_one_div_of_le c0' (round53_mono (by linarith))

/-- The argument before clipping. -/
def quot (m mmin d : ℝ) : ℝ := round53 (round53 (m - mmin) / d)

theorem pow500 {x y : ℝ} (hx : |x| ≤ 2 ^ (500 : ℤ)) (hy : |y| ≤ 2 ^ (500 : ℤ)) : |x - y| ≤ 2 ^ (501 : ℤ) := by
  have e : (2 : ℝ) ^ (501 : ℤ) = 2 ^ (500 : ℤ) + 2 ^ (500 : ℤ) := by
    rw [show (501 : ℤ) = 1 + 500 by norm_num, zpow_add₀ (by norm_num), zpow_one]; ring
  rw [e]
  exact (abs_sub x y).trans (add_le_add hx hy)

theorem diff_bound {m mmin d : ℝ} (h : WindowArgs m mmin d) :
    |m - mmin| ≤ 2 ^ (501 : ℤ) ∧ |round53 (m - mmin) - (m - mmin)| ≤ ur * |m - mmin| ∧
      |round53 (m - mmin)| ≤ 2 ^ (502 : ℤ) ∧ |round53 (m - mmin) / d| ≤ 2 ^ (1002 : ℤ) := by
  have h1 := pow500 h.mass h.lower
  have h2 := round53_add h.isDouble.1 h.isDouble.2.1.neg
  rw [← sub_eq_add_neg] at h2
  have h3 : |round53 (m - mmin)| ≤ 2 ^ (502 : ℤ) := by
    have e : (2 : ℝ) ^ (502 : ℤ) = 2 * 2 ^ (501 : ℤ) := by
      rw [show (502 : ℤ) = 1 + 501 by norm_num, zpow_add₀ (by norm_num), zpow_one]
    have hu : ur ≤ 1 := by rw [ur_val]; norm_num
    have := mul_le_mul_of_nonneg_right hu (abs_nonneg (m - mmin))
    have := abs_sub_abs_le_abs_sub (round53 (m - mmin)) (m - mmin)
    rw [e]
    generalize (2 : ℝ) ^ (501 : ℤ) = B at *
    linarith
  refine ⟨h1, h2, h3, ?_⟩
  have hd : 0 < d := lt_of_lt_of_le (by positivity) h.width.1
  rw [abs_div, abs_of_pos hd, div_le_iff₀ hd]
  refine h3.trans ?_
  calc (2 : ℝ) ^ (502 : ℤ) = 2 ^ (1002 : ℤ) * 2 ^ (-500 : ℤ) := by rw [← zpow_add₀ (by norm_num)]; norm_num
    _ ≤ _ := mul_le_mul_of_nonneg_left h.width.1 (by positivity)

theorem quot_eq {m mmin d : ℝ} (h : WindowArgs m mmin d) :
    toDouble (toDouble (fin m - fin mmin) / fin d) = fin (quot m mmin d) := by
  obtain ⟨h1, -, h3, h4⟩ := diff_bound h
  have hd : 0 < d := lt_of_lt_of_le (by positivity) h.width.1
  rw [fin_sub, (toDouble_fin_le (h1.trans (two_zpow_le (by norm_num)))).1, fin_div hd.ne',
    (toDouble_fin_le (h4.trans (two_zpow_le (by norm_num)))).1]
  rfl

theorem quot_error {m mmin d : ℝ} (h : WindowArgs m mmin d) :
    |quot m mmin d - (m - mmin) / d| ≤ (2 * ur + ur ^ 2) * |(m - mmin) / d| + 2 ^ (-1075 : ℤ) := by
  obtain ⟨-, h2, -, -⟩ := diff_bound h
  have hd : 0 < d := lt_of_lt_of_le (by positivity) h.width.1
  have h3 := round53_error (round53 (m - mmin) / d)
  change |quot m mmin d - _| ≤ _ at h3
  have e1 : |round53 (m - mmin) / d - (m - mmin) / d| ≤ ur * |(m - mmin) / d| := by
    rw [← sub_div, abs_div, abs_div, abs_of_pos hd, ← mul_div_assoc]
    exact div_le_div_of_nonneg_right h2 hd.le
  have e2 := abs_sub_abs_le_abs_sub (round53 (m - mmin) / d) ((m - mmin) / d)
  have hu := ur_pos
  generalize (m - mmin) / d = x at *
  generalize round53 (m - mmin) / d = y at *
  generalize quot m mmin d = q at *
  have e3 : ur * |y| ≤ ur * (|x| + ur * |x|) := mul_le_mul_of_nonneg_left (by linarith) hu.le
  calc |q - x| = |(q - y) + (y - x)| := by congr 1; ring
    _ ≤ |q - y| + |y - x| := abs_add_le _ _
    _ ≤ _ := by nlinarith

/-- The window as the program computes it. -/
theorem smoothingD_eq {E : Fl → Fl} (b : Backend) {m mmin d : ℝ} (h : WindowArgs m mmin d) (mmax : ℝ)
    {y : ℝ} (hE : E (fin (-expoR (clipR (quot m mmin d)))) = fin y) (hy : IsDouble y) (hy0 : 0 ≤ y) (hy1 : y ≤ 1) :
    smoothingD E b (fin m) (fin mmin) (fin mmax) (fin d) = fin (if mmin ≤ m ∧ m ≤ mmax then y else 0) := by
  have hd : 0 < d := lt_of_lt_of_le (by positivity) h.width.1
  obtain ⟨c1, c2⟩ := clipR_mem (quot m mmin d)
  unfold smoothingD
  rw [if_pos (.inr hd)]
  simp only [quot_eq h, toDouble_lo, toDouble_hi, nanToNumWith, clip_fin, exponent_eq c1 c2, fin_neg, hE,
    ind_mul_ind, fin_le]
  have hb : y ≤ bigR := (hy1.trans (le_big (x := 1) (by norm_num))).trans
    ((le_mul_of_one_le_right (by positivity) (by norm_num)).trans two_pow_le_bigR)
  split_ifs with hc
  · rw [ind_true hc, mulD, fin_mul, mul_one]
    exact fl64_eq (by rwa [abs_of_nonneg hy0]) hy
  · rw [ind_false hc, mulD, fin_mul, mul_zero]
    exact fl64_eq (by rw [abs_zero]; exact bigR_pos.le) isDouble_zero

theorem exp_neg_large {y : ℝ} (h : 1000 ≤ y) : Real.exp (-y) ≤ ur := by
  have h1 : Real.exp (-y) ≤ Real.exp (-53) := Real.exp_le_exp.2 (by linarith)
  refine h1.trans ?_
  have h2 : (2 : ℝ) ≤ Real.exp 1 := by
    have := Real.add_one_le_exp (1 : ℝ)
    linarith
  have h3 : Real.exp (-53) = (Real.exp 1)⁻¹ ^ 53 := by
    rw [← Real.exp_neg, ← Real.exp_nat_mul]; norm_num
  rw [h3, ur_val]
  have h4 : (Real.exp 1)⁻¹ ≤ 1 / 2 := by
    rw [← one_div]
    exact one_div_le_one_div_of_le (by norm_num) h2
  calc (Real.exp 1)⁻¹ ^ 53 ≤ (1 / 2) ^ 53 := pow_le_pow_left₀ (by positivity) h4 _
    _ = _ := by norm_num

theorem lg_large {y : ℝ} (h : 1000 ≤ y) : lg y ≤ ur := by
  refine le_trans ?_ (exp_neg_large h)
  unfold lg
  rw [Real.exp_neg, one_div]
  exact inv_anti₀ (Real.exp_pos y) (by linarith)

theorem lg_small {y : ℝ} (h : y ≤ -1000) : 1 - lg y ≤ ur := by
  have := lg_large (y := -y) (by linarith)
  rwa [lg_neg] at this

/-- The effect of the rounded exponent. -/
theorem lg_error {s : ℝ} (hl : lo ≤ s) (hh : s ≤ hi) : |lg (expoR s) - lg (expo s)| ≤ 27 * ur := by
  obtain ⟨⟨s0, s1⟩, ⟨a1, a2⟩, -⟩ := parts hl hh
  obtain ⟨he, -, -⟩ := expoR_error hl hh
  have hu := ur_pos
  have hA : 0 < 1 / s := by positivity
  have hD : 0 < 1 / (1 - s) := one_div_pos.2 (by linarith)
  have htiny : 6 * ur * (1 / s + 1 / (1 - s)) ≤ 1 / 20 := by
    rw [ur_val]
    norm_num at a1 a2 ⊢
    linarith
  have he11 : Real.exp (1 / 20) ≤ 11 / 10 := by
    have h1 := Real.add_one_le_exp (-(1 / 20 : ℝ))
    rw [Real.exp_neg] at h1
    have h2 := Real.exp_pos (1 / 20)
    have h3 : Real.exp (1 / 20) * (Real.exp (1 / 20))⁻¹ = 1 := mul_inv_cancel₀ h2.ne'
    nlinarith
  -- a bound in terms of the distance from the nearer end
  have key : ∀ {t e x : ℝ}, 2 ≤ t → t - 2 ≤ e → |x - e| ≤ 6 * ur * (t + 2) → 6 * ur * (t + 2) ≤ 1 / 10 →
      |x - e| ≤ 1 / 20 → |lg x - lg e| ≤ 27 * ur := by
    intro t e x ht hte hx _ hx2
    have hb := (exp_bound ht).2
    obtain ⟨g1, g2⟩ := abs_le.1 hx2
    have main : ∀ z y : ℝ, z ≤ y → e - 1 / 20 ≤ z → y - z ≤ |x - e| → lg z - lg y ≤ 27 * ur := by
      intro z y hzy hz hyz
      obtain ⟨-, h1, -, -⟩ := lg_sub hzy
      refine h1.trans ?_
      have hexp : Real.exp (-z) ≤ 11 / 10 * Real.exp (2 - t) := by
        calc Real.exp (-z) ≤ Real.exp (1 / 20 + (2 - t)) := Real.exp_le_exp.2 (by linarith)
          _ = Real.exp (1 / 20) * Real.exp (2 - t) := Real.exp_add _ _
          _ ≤ _ := mul_le_mul_of_nonneg_right he11 (Real.exp_pos _).le
      calc (y - z) * Real.exp (-z) ≤ (6 * ur * (t + 2)) * (11 / 10 * Real.exp (2 - t)) :=
            mul_le_mul (hyz.trans hx) hexp (Real.exp_pos _).le (by positivity)
        _ = 66 / 10 * ur * ((t + 2) * Real.exp (2 - t)) := by ring
        _ ≤ 66 / 10 * ur * 4 := mul_le_mul_of_nonneg_left hb (by positivity)
        _ ≤ _ := by linarith
    rcases le_total x e with hxe | hxe
    · rw [abs_of_nonneg (lg_sub hxe).1]
      exact main x e hxe (by linarith) (by rw [abs_sub_comm]; exact le_abs_self _)
    · rw [abs_sub_comm, abs_of_nonneg (lg_sub hxe).1]
      exact main e x hxe (by linarith) (le_abs_self _)
  rcases le_total s (1 / 2) with h | h
  · have ht : 2 ≤ 1 / s := by rw [le_div_iff₀ s0]; linarith
    have hD2 : 1 / (1 - s) ≤ 2 := by rw [div_le_iff₀ (by linarith)]; linarith
    have hm : 6 * ur * (1 / s + 1 / (1 - s)) ≤ 6 * ur * (1 / s + 2) :=
      mul_le_mul_of_nonneg_left (by linarith) (by positivity)
    refine key ht ?_ (he.trans hm) ?_ (he.trans htiny)
    · unfold expo; linarith
    · rw [ur_val]; norm_num at a1 ⊢; linarith
  · have ht : 2 ≤ 1 / (1 - s) := by rw [le_div_iff₀ (by linarith)]; linarith
    have hD2 : 1 / s ≤ 2 := by rw [div_le_iff₀ s0]; linarith
    have hm : 6 * ur * (1 / s + 1 / (1 - s)) ≤ 6 * ur * (1 / (1 - s) + 2) :=
      mul_le_mul_of_nonneg_left (by linarith) (by positivity)
    have hx : |(-expoR s) - (-expo s)| = |expoR s - expo s| := by
      rw [show (-expoR s) - (-expo s) = -(expoR s - expo s) by ring, abs_neg]
    have := key (e := -expo s) (x := -expoR s) ht (by unfold expo; linarith) (by rw [hx]; exact he.trans hm)
      (by rw [ur_val]; norm_num at a2 ⊢; linarith) (by rw [hx]; exact he.trans htiny)
    rw [lg_neg, lg_neg] at this
    rwa [show 1 - lg (expoR s) - (1 - lg (expo s)) = -(lg (expoR s) - lg (expo s)) by ring, abs_neg] at this

theorem planckTaper_mem (u : ℝ) : 0 ≤ planckTaper u ∧ planckTaper u ≤ 1 := by
  unfold planckTaper
  split_ifs
  · norm_num
  · norm_num
  · have := Real.exp_pos (1 / u + 1 / (u - 1))
    refine ⟨by positivity, ?_⟩
    rw [inv_le_one₀ (by positivity)]
    linarith

/-- Beyond the ends of the clipped range the taper is 0 or 1 to double precision. -/
theorem taper_low {u : ℝ} (h : u ≤ 2 / 10 ^ 6) : planckTaper u ≤ ur := by
  rcases le_or_gt u 0 with h0 | h0
  · unfold planckTaper
    rw [if_pos h0]
    exact ur_pos.le
  · norm_num at h
    rw [planckTaper_eq h0 (by linarith)]
    refine lg_large ?_
    unfold expo
    have h1 : 10000 ≤ 1 / u := by rw [le_div_iff₀ h0]; linarith
    have h2 : 1 / (1 - u) ≤ 2 := by rw [div_le_iff₀ (by linarith)]; linarith
    linarith

theorem taper_high {u : ℝ} (h : 1 - 2 / 10 ^ 6 ≤ u) : 1 - planckTaper u ≤ ur := by
  rcases le_or_gt 1 u with h0 | h0
  · unfold planckTaper
    rw [if_neg (by linarith), if_pos h0]
    linarith [ur_pos]
  · norm_num at h
    rw [planckTaper_eq (by linarith) h0]
    refine lg_small ?_
    unfold expo
    have h1 : 10000 ≤ 1 / (1 - u) := by rw [le_div_iff₀ (by linarith)]; linarith
    have h2 : 1 / u ≤ 2 := by rw [div_le_iff₀ (by linarith)]; linarith
    linarith

theorem tiny1075 : (2 : ℝ) ^ (-1075 : ℤ) ≤ ur / 16 := by
  have := two_zpow_le (show (-1075 : ℤ) ≤ -57 by norm_num)
  refine this.trans ?_
  rw [ur_val]
  norm_num

/-- The taper of the computed argument, with the rounded exponent. -/
theorem taper_error {u q : ℝ} (h : |q - u| ≤ (2 * ur + ur ^ 2) * |u| + 2 ^ (-1075 : ℤ)) :
    |lg (expoR (clipR q)) - planckTaper u| ≤ 64 * ur := by
  have hu := ur_pos
  have hul : ur ≤ 1 / 10 ^ 15 := by rw [ur_val]; norm_num
  have ht := tiny1075
  obtain ⟨c1, c2⟩ := clipR_mem q
  obtain ⟨⟨s0, s1⟩, -⟩ := parts c1 c2
  have hlg := lg_error c1 c2
  have l1 := lo_mem
  have h1 := hi_mem
  have hsq : ur ^ 2 ≤ ur / 10 ^ 6 := by rw [sq]; nlinarith
  have hT := planckTaper_mem u
  obtain ⟨b1, b2⟩ := abs_le.1 h
  norm_num at l1 h1 hul hsq
  rcases le_total u (2 / 10 ^ 6) with hlow | hlow
  · have hq : q ≤ 3 / 10 ^ 6 := by
      rcases le_total u 0 with h0 | h0
      · rw [abs_of_nonpos h0] at b2
        norm_num at hlow ⊢
        nlinarith
      · rw [abs_of_nonneg h0] at b2
        norm_num at hlow ⊢
        nlinarith
    have hs : clipR q ≤ 3 / 10 ^ 6 := by
      have : clipR q ≤ clipR (3 / 10 ^ 6) := clipR_mono hq
      refine this.trans (le_of_eq ?_)
      unfold clipR
      rw [if_neg (by norm_num; linarith), if_neg (by norm_num; linarith)]
    have hx : lg (expo (clipR q)) ≤ ur := by
      have := taper_low (u := clipR q)
      refine lg_large ?_
      unfold expo
      norm_num at hs
      have h1 : 10000 ≤ 1 / clipR q := by rw [le_div_iff₀ s0]; linarith
      have h2 : 1 / (1 - clipR q) ≤ 2 := by rw [div_le_iff₀ (by linarith)]; linarith
      linarith
    have h3 := taper_low hlow
    have h4 := lg_mem (expo (clipR q))
    obtain ⟨g1, g2⟩ := abs_le.1 hlg
    rw [abs_le]
    constructor <;> linarith
  rcases le_total (1 - 2 / 10 ^ 6) u with hhigh | hhigh
  · have hu0 : 0 ≤ u := by norm_num at hhigh; linarith
    have hq : 1 - 3 / 10 ^ 6 ≤ q := by
      rw [abs_of_nonneg hu0] at b1
      norm_num at hhigh ⊢
      nlinarith
    have hs : 1 - 3 / 10 ^ 6 ≤ clipR q := by
      have : clipR (1 - 3 / 10 ^ 6) ≤ clipR q := clipR_mono hq
      refine le_trans (le_of_eq ?_) this
      unfold clipR
      rw [if_neg (by norm_num; linarith), if_neg (by norm_num; linarith)]
    have hx : 1 - lg (expo (clipR q)) ≤ ur := by
      refine lg_small ?_
      unfold expo
      norm_num at hs
      have h1 : 10000 ≤ 1 / (1 - clipR q) := by rw [le_div_iff₀ (by linarith)]; linarith
      have h2 : 1 / clipR q ≤ 2 := by rw [div_le_iff₀ s0]; linarith
      linarith
    have h3 := taper_high hhigh
    have h4 := lg_mem (expo (clipR q))
    obtain ⟨g1, g2⟩ := abs_le.1 hlg
    rw [abs_le]
    constructor <;> linarith
  · norm_num at hlow hhigh
    have hu0 : 0 < u := by linarith
    rw [abs_of_pos hu0] at h b1 b2
    have herr : |q - u| ≤ 9 / 4 * ur := by
      refine h.trans ?_
      nlinarith
    obtain ⟨d1, d2⟩ := abs_le.1 herr
    have hc : clipR q = q := by
      unfold clipR
      rw [if_neg (by linarith), if_neg (by linarith)]
    rw [hc] at hlg ⊢
    rw [planckTaper_eq hu0 (by linarith)]
    have := taper_close' (a := q) (b := u) (by norm_num; linarith) (by norm_num; linarith) (by norm_num; linarith)
      (by norm_num; linarith) (herr.trans (by norm_num; linarith))
    calc |lg (expoR q) - lg (expo u)| ≤ |lg (expoR q) - lg (expo q)| + |lg (expo q) - lg (expo u)| := by
          rw [show lg (expoR q) - lg (expo u) = (lg (expoR q) - lg (expo q)) + (lg (expo q) - lg (expo u)) by ring]
          exact abs_add_le _ _
      _ ≤ _ := by linarith

end RoundedSmoothing

open RoundedSmoothing

/-- **C119.** The smoothing window in double precision is a double between 0 and 1 whose absolute error is at most 64
units of roundoff plus the error of the library's logistic function, for every mass, every lower limit and every
width of moderate size: the documented window, which vanishes below `mmin` and is 1 above `mmin + delta_m`, although
the program clips its argument. -/
theorem C119_window {E : Fl → Fl} {δ : ℝ} (hE : AccurateLogistic E δ) (b : Backend) {m mmin d : ℝ}
    (h : WindowArgs m mmin d) (mmax : ℝ) :
    ∃ w, smoothingD E b (fin m) (fin mmin) (fin mmax) (fin d) = fin w ∧ IsDouble w ∧ 0 ≤ w ∧ w ≤ 1 ∧
      |w - planckWindow mmin mmax d m| ≤ 64 * ur + δ := by
  obtain ⟨c1, c2⟩ := clipR_mem (quot m mmin d)
  obtain ⟨-, hx, -⟩ := expoR_error c1 c2
  obtain ⟨y, e1, e2, e3, e4, e5⟩ := hE (-expoR (clipR (quot m mmin d))) (round53_isDouble _).neg (by rwa [abs_neg])
  rw [neg_neg] at e5
  change |y - lg _| ≤ δ at e5
  refine ⟨_, smoothingD_eq b h mmax e1 e2 e3 e4, ?_, ?_, ?_, ?_⟩
  · split_ifs
    exacts [e2, isDouble_zero]
  · split_ifs
    exacts [e3, le_rfl]
  · split_ifs
    exacts [e4, zero_le_one]
  · unfold planckWindow
    have hδ : 0 ≤ δ := (abs_nonneg _).trans e5
    have hu := ur_pos
    split_ifs with hc
    · have := taper_error (quot_error h)
      calc |y - planckTaper ((m - mmin) / d)|
          ≤ |y - lg (expoR (clipR (quot m mmin d)))| + |lg (expoR (clipR (quot m mmin d))) - planckTaper ((m - mmin) / d)| := by
            rw [show y - planckTaper ((m - mmin) / d) = (y - lg (expoR (clipR (quot m mmin d)))) +
              (lg (expoR (clipR (quot m mmin d))) - planckTaper ((m - mmin) / d)) by ring]
            exact abs_add_le _ _
        _ ≤ _ := by linarith
    · rw [sub_zero, abs_zero]
      positivity

/-- **C119.** The window in double precision never decreases with the mass between the limits. -/
theorem C119_monotone {E : Fl → Fl} {δ : ℝ} (hE : AccurateLogistic E δ) (hM : MonotoneLogistic E) (b : Backend)
    {m m' mmin mmax d : ℝ} (h : WindowArgs m mmin d) (h' : WindowArgs m' mmin d) (h1 : mmin ≤ m) (h2 : m ≤ m')
    (h3 : m' ≤ mmax) :
    smoothingD E b (fin m) (fin mmin) (fin mmax) (fin d) ≤ smoothingD E b (fin m') (fin mmin) (fin mmax) (fin d) := by
  obtain ⟨c1, c2⟩ := clipR_mem (quot m mmin d)
  obtain ⟨-, hx, -⟩ := expoR_error c1 c2
  obtain ⟨c1', c2'⟩ := clipR_mem (quot m' mmin d)
  obtain ⟨-, hx', -⟩ := expoR_error c1' c2'
  obtain ⟨y, e1, e2, e3, e4, -⟩ := hE (-expoR (clipR (quot m mmin d))) (round53_isDouble _).neg (by rwa [abs_neg])
  obtain ⟨y', e1', e2', e3', e4', -⟩ := hE (-expoR (clipR (quot m' mmin d))) (round53_isDouble _).neg (by rwa [abs_neg])
  rw [smoothingD_eq b h mmax e1 e2 e3 e4, smoothingD_eq b h' mmax e1' e2' e3' e4', if_pos ⟨h1, h2.trans h3⟩,
    if_pos ⟨h1.trans h2, h3⟩, ← e1, ← e1']
  have hd : 0 < d := lt_of_lt_of_le (by positivity) h.width.1
  refine hM _ _ (round53_isDouble _).neg (round53_isDouble _).neg (by rwa [abs_neg]) (by rwa [abs_neg])
    (neg_le_neg (expoR_anti c1 (clipR_mono ?_) c2'))
  unfold quot
  exact round53_mono (div_le_div_of_nonneg_right (round53_mono (by linarith)) hd.le)

end GW
