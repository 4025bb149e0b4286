import Verif.Props.RoundedSpecial
import Verif.Props.BetaDist
import Verif.Props.UtilsMisc

/-!
# C94: the Beta and von Mises distributions in double precision
-/

noncomputable section

open Classical Set

namespace GW

open Fl Spec

namespace Spec

/-- How much `beta_dist` amplifies rounding errors. -/
def betaAmplification (x alpha beta scale : ℝ) : ℝ :=
  (1 + alpha) * (1 + |Real.log x|) + (1 + beta) * (1 + |Real.log (scale - x)|) +
    (1 + alpha + beta) * (1 + |Real.log scale|) + |Real.log (ProbabilityTheory.beta alpha beta)|

/-- Arguments of `beta_dist` that are doubles, with a point inside the range and not within `2^-900` of its ends. -/
structure BetaArgs (x alpha beta scale : ℝ) : Prop where
  isDouble : IsDouble x ∧ IsDouble alpha ∧ IsDouble beta ∧ IsDouble scale
  low : (2 : ℝ) ^ (-900 : ℤ) ≤ x
  high : (2 : ℝ) ^ (-900 : ℤ) ≤ scale - x
  scale_le : scale ≤ 2 ^ (900 : ℤ)
  alpha : (2 : ℝ) ^ (-30 : ℤ) ≤ alpha ∧ alpha ≤ 2 ^ 30
  beta : (2 : ℝ) ^ (-30 : ℤ) ≤ beta ∧ beta ≤ 2 ^ 30

end Spec

theorem round_sub {x x' y y' B C E F : ℝ} (hx : |x' - x| ≤ E) (hy : |y' - y| ≤ F) (bx : |x| ≤ B) (by' : |y| ≤ C)
    (h : B + C + E + F ≤ 2 ^ 100) :
    ∃ z, toDouble (fin x' - fin y') = fin z ∧ IsDouble z ∧ |z - (x - y)| ≤ E + F + ur * (B + C + E + F + 1) := by
  have h1 : |x' - y' - (x - y)| ≤ E + F := by
    rw [show x' - y' - (x - y) = (x' - x) - (y' - y) by ring]
    exact (abs_sub _ _).trans (by linarith)
  have h2 : |x' - y'| ≤ B + C + E + F := by
    have a1 := abs_sub_abs_le_abs_sub (x' - y') (x - y)
    have a2 := abs_sub x y
    linarith
  obtain ⟨z, z1, z2, z3⟩ := round_abs h2 h
  refine ⟨z, by rw [fin_sub, z1], z2, ?_⟩
  have := abs_sub_le z (x' - y') (x - y)
  linarith

theorem round_mul {x x' y y' B C E F : ℝ} (hx : |x' - x| ≤ E) (hy : |y' - y| ≤ F) (bx : |x| ≤ B) (by' : |y| ≤ C)
    (h : B * C + E * C + B * F + E * F ≤ 2 ^ 100) :
    ∃ z, toDouble (fin x' * fin y') = fin z ∧ IsDouble z ∧
      |z - x * y| ≤ E * C + B * F + E * F + ur * (B * C + E * C + B * F + E * F + 1) := by
  have hE : 0 ≤ E := (abs_nonneg _).trans hx
  have hF : 0 ≤ F := (abs_nonneg _).trans hy
  have hB : 0 ≤ B := (abs_nonneg _).trans bx
  have hC : 0 ≤ C := (abs_nonneg _).trans by'
  have h1 : |x' * y' - x * y| ≤ E * C + B * F + E * F := by
    rw [show x' * y' - x * y = (x' - x) * y + x * (y' - y) + (x' - x) * (y' - y) by ring]
    have a1 : |(x' - x) * y| ≤ E * C := by rw [abs_mul]; exact mul_le_mul hx by' (abs_nonneg _) hE
    have a2 : |x * (y' - y)| ≤ B * F := by rw [abs_mul]; exact mul_le_mul bx hy (abs_nonneg _) hB
    have a3 : |(x' - x) * (y' - y)| ≤ E * F := by rw [abs_mul]; exact mul_le_mul hx hy (abs_nonneg _) hE
    have a4 := abs_add_le ((x' - x) * y + x * (y' - y)) ((x' - x) * (y' - y))
    have a5 := abs_add_le ((x' - x) * y) (x * (y' - y))
    linarith
  have h2 : |x' * y'| ≤ B * C + E * C + B * F + E * F := by
    have a1 := abs_sub_abs_le_abs_sub (x' * y') (x * y)
    have a2 : |x * y| ≤ B * C := by rw [abs_mul]; exact mul_le_mul bx by' (abs_nonneg _) hB
    linarith
  obtain ⟨z, z1, z2, z3⟩ := round_abs h2 h
  refine ⟨z, by rw [fin_mul, z1], z2, ?_⟩
  have := abs_sub_le z (x' * y') (x * y)
  linarith

/-- A factor times a logarithm. -/
theorem term_error {δ w w' l l' W : ℝ} (hu : ur ≤ δ) (hW1 : 1 ≤ W) (hw : |w' - w| ≤ 4 * (δ * W)) (bw : |w| ≤ W)
    (hl : |l' - l| ≤ 4 * (δ * (1 + |l|))) (hK : 100 * (δ * (W * (1 + |l|))) ≤ 1) :
    ∃ z, toDouble (fin w' * fin l') = fin z ∧ IsDouble z ∧ |z - w * l| ≤ 12 * (δ * (W * (1 + |l|))) ∧
      |w * l| ≤ W * (1 + |l|) := by
  have hur := ur_pos
  have hδ : 0 < δ := by linarith
  obtain ⟨A, hA⟩ : ∃ A, A = 1 + |l| := ⟨_, rfl⟩
  have hA1 : 1 ≤ A := by rw [hA]; linarith [abs_nonneg l]
  rw [← hA] at hl hK ⊢
  have hlA : |l| ≤ A := by rw [hA]; linarith
  obtain ⟨P, hP⟩ : ∃ P, P = W * A := ⟨_, rfl⟩
  have hP1 : 1 ≤ P := by rw [hP]; nlinarith
  have hδP : δ ≤ δ * P := le_mul_of_one_le_right hδ.le hP1
  have hPB : P ≤ 2 ^ 53 := by
    have hδ2 : 1 / 2 ^ 53 ≤ δ := by
      rw [show (1 : ℝ) / 2 ^ 53 = ur by rw [ur_val]; norm_num]; exact hu
    have h1 : 1 / 2 ^ 53 * P ≤ δ * P := mul_le_mul_of_nonneg_right hδ2 (by linarith)
    have h2 : P = 2 ^ 53 * (1 / 2 ^ 53 * P) := by ring
    rw [h2]
    rw [← hP] at hK
    linarith
  rw [← hP] at hK ⊢
  have e1 : 4 * (δ * W) * A = 4 * (δ * P) := by rw [hP]; ring
  have e2 : W * (4 * (δ * A)) = 4 * (δ * P) := by rw [hP]; ring
  have e3 : 4 * (δ * W) * (4 * (δ * A)) = 16 * δ * (δ * P) := by rw [hP]; ring
  have e4 : 16 * δ * (δ * P) ≤ 1 * (δ * P) := mul_le_mul_of_nonneg_right (by linarith) (by linarith)
  obtain ⟨z, z1, z2, z3⟩ := round_mul hw hl bw hlA (by
    rw [e1, e2, e3, ← hP]
    norm_num at hPB ⊢
    linarith)
  rw [e1, e2, e3, ← hP] at z3
  refine ⟨z, z1, z2, ?_, ?_⟩
  · have h1 : ur * (P + 4 * (δ * P) + 4 * (δ * P) + 16 * δ * (δ * P) + 1) ≤ δ * (3 * P) :=
      mul_le_mul hu (by linarith) (by positivity) hδ.le
    linarith
  · rw [abs_mul, hP]
    exact mul_le_mul bw hlA (abs_nonneg _) (by linarith)

theorem beta_exact_eq_exp {x a b scale : ℝ} (ha : 0 < a) (hb : 0 < b) (hx : 0 < x) (hxs : x < scale) :
    normalised (fun t => t ^ (a - 1) * (scale - t) ^ (b - 1)) 0 scale x =
      Real.exp ((a - 1) * Real.log x + (b - 1) * Real.log (scale - x) - Real.log (ProbabilityTheory.beta a b) -
        (a + b - 1) * Real.log scale) := by
  have hs : 0 < scale := hx.trans hxs
  have hd : 0 < scale - x := by linarith
  have hB := ProbabilityTheory.beta_pos ha hb
  show normalised (betaShape a b scale) 0 scale x = _
  unfold normalised
  rw [if_pos ⟨hx.le, hxs.le⟩, integral_betaShape ha hb hs, Real.exp_sub, Real.exp_sub, Real.exp_add,
    Real.exp_log hB, betaShape, Real.rpow_def_of_pos hx, Real.rpow_def_of_pos hd,
    Real.rpow_def_of_pos hs, div_div]
  congr 1
  · rw [mul_comm (a - 1), mul_comm (b - 1)]
  · rw [mul_comm (Real.log scale)]; ring

variable {L : SpecialLib} {δ : ℝ}

/-- `a - 1`. -/
theorem factor_error (hu : ur ≤ δ) {a : ℝ} (ha0 : 0 < a) (ha : a ≤ 2 ^ 30) :
    ∃ a', toDouble (fin a - 1) = fin a' ∧ |a' - (a - 1)| ≤ 4 * (δ * (1 + a)) ∧ |a - 1| ≤ 1 + a := by
  have hur := ur_pos
  have hδ : 0 < δ := by linarith
  have self : ∀ t : ℝ, |t - t| ≤ 0 := fun t => by simp
  obtain ⟨a', a1, -, a3⟩ := round_sub (self a) (self 1) (abs_of_pos ha0).le (abs_one).le (by norm_num at ha ⊢; linarith)
  refine ⟨a', a1, ?_, (abs_sub a 1).trans (by rw [abs_of_pos ha0, abs_one]; linarith)⟩
  have h1 : ur * (a + 1 + 0 + 0 + 1) ≤ δ * (a + 1 + 0 + 0 + 1) := mul_le_mul_of_nonneg_right hu (by linarith)
  have h2 : 0 ≤ δ * a := by positivity
  linarith

/-- `a + b - 1`. -/
theorem sum_factor_error (hu : ur ≤ δ) (hδs : δ ≤ 1 / 300) {a b : ℝ} (ha0 : 0 < a) (hb0 : 0 < b) (ha : a ≤ 2 ^ 30)
    (hb : b ≤ 2 ^ 30) :
    ∃ w', toDouble (toDouble (fin a + fin b) - 1) = fin w' ∧ |w' - (a + b - 1)| ≤ 4 * (δ * (1 + a + b)) ∧
      |a + b - 1| ≤ 1 + a + b := by
  have hur := ur_pos
  have hδ : 0 < δ := by linarith
  have ha' : a ≤ 1073741824 := by norm_num at ha; exact ha
  have hb' : b ≤ 1073741824 := by norm_num at hb; exact hb
  have self : ∀ t : ℝ, |t - t| ≤ 0 := fun t => by simp
  have small : ∀ {t : ℝ}, t ≤ 100000000000000000000000 → t ≤ 2 ^ 100 := by
    intro t ht
    norm_num
    linarith
  have hab : |a + b| ≤ a + b := (abs_of_pos (by linarith)).le
  have h1 : ur * (a + b + 1) ≤ δ * (a + b + 1) := mul_le_mul_of_nonneg_right hu (by linarith)
  have h1' : δ * (a + b + 1) ≤ 1 / 300 * (a + b + 1) := mul_le_mul_of_nonneg_right hδs (by linarith)
  obtain ⟨s', s1, s2, s3⟩ := round_abs hab (small (by linarith))
  obtain ⟨w', w1, w2, w3⟩ := round_sub (E := ur * (a + b + 1)) s3 (self 1) hab (abs_one).le (small (by linarith))
  refine ⟨w', by rw [fin_add, s1]; exact w1, ?_, (abs_sub (a + b) 1).trans (by rw [abs_of_pos (by linarith), abs_one]; linarith)⟩
  have h2 : ur * (ur * (a + b + 1)) ≤ 1 / 300 * (δ * (a + b + 1)) :=
    mul_le_mul (by linarith) h1 (by positivity) (by norm_num)
  have h3 : 0 ≤ δ * (a + b + 1) := by positivity
  have e : ur * (a + b + 1 + ur * (a + b + 1) + 0 + 1) = ur * (a + b + 1) + ur * (ur * (a + b + 1)) + ur := by ring
  have e' : a + b + 1 + ur * (a + b + 1) + 0 + 1 = a + b + 1 + ur * (a + b + 1) + 0 + 1 := rfl
  rw [e] at w3
  have e2 : δ * (1 + a + b) = δ * (a + b + 1) := by ring
  have h4 : δ ≤ δ * (a + b + 1) := le_mul_of_one_le_right hδ.le (by linarith)
  rw [e2]
  linarith

/-- The logarithm of an argument. -/
theorem log_arg_error (hL : AccurateSpecial L δ) {x : ℝ} (dx : IsDouble x) (h1 : (2 : ℝ) ^ (-900 : ℤ) ≤ x)
    (h2 : x ≤ 2 ^ (900 : ℤ)) : ∃ y, L.log (fin x) = fin y ∧ |y - Real.log x| ≤ 4 * (δ * (1 + |Real.log x|)) := by
  have hδ := hL.pos
  have hu := hL.unit
  have htiny := tiny_le_ur
  obtain ⟨y, y1, y2, y3⟩ := hL.log x dx ((two_zpow_le (by norm_num)).trans h1) (h2.trans (two_zpow_le (by norm_num)))
  refine ⟨y, y1, ?_⟩
  have : 0 ≤ δ * |Real.log x| := by positivity
  linarith

/-- The logarithm of a difference of arguments. -/
theorem log_diff_error (hL : AccurateSpecial L δ) (hδs : δ ≤ 1 / 300) {x s : ℝ} (dx : IsDouble x) (ds : IsDouble s)
    (h1 : (2 : ℝ) ^ (-900 : ℤ) ≤ s - x) (h2 : s - x ≤ 2 ^ (900 : ℤ)) :
    ∃ y, L.log (toDouble (fin s - fin x)) = fin y ∧ |y - Real.log (s - x)| ≤ 4 * (δ * (1 + |Real.log (s - x)|)) := by
  have hδ := hL.pos
  have hu := hL.unit
  have hur := ur_pos
  have htiny := tiny_le_ur
  have hd0 : 0 < s - x := lt_of_lt_of_le (by positivity) h1
  have t1 : toDouble (fin (s - x)) = fin (round53 (s - x)) :=
    fl64_of_le (by rw [abs_of_pos hd0]; exact h2.trans (two_zpow_le (by norm_num)))
  have t2 : |round53 (s - x) - (s - x)| ≤ ur * (s - x) := by
    have := round53_add ds dx.neg
    rw [← sub_eq_add_neg, abs_of_pos hd0] at this
    exact this
  have hurs : ur ≤ 1 / 1000 := by rw [ur_val]; norm_num
  obtain ⟨rpos, rlog⟩ := log_error hd0 t2 (by linarith)
  obtain ⟨r, hr⟩ : ∃ r, r = round53 (s - x) := ⟨_, rfl⟩
  have dr : IsDouble r := by rw [hr]; exact round53_isDouble _
  rw [← hr] at t1 t2 rpos rlog
  have rb : 1 / 2 * (s - x) ≤ r ∧ r ≤ 2 * (s - x) := by
    obtain ⟨c1, c2⟩ := abs_le.1 t2
    constructor <;> nlinarith
  have r1 : (2 : ℝ) ^ (-1000 : ℤ) ≤ r := by
    refine le_trans ?_ rb.1
    have e : (2 : ℝ) ^ (-1000 : ℤ) ≤ 1 / 2 * 2 ^ (-900 : ℤ) := by
      have e2 : (1 : ℝ) / 2 * 2 ^ (-900 : ℤ) = 2 ^ (-901 : ℤ) := by
        rw [show (-901 : ℤ) = -1 + -900 by norm_num, zpow_add₀ (by norm_num)]; norm_num
      rw [e2]
      exact two_zpow_le (by norm_num)
    exact e.trans (mul_le_mul_of_nonneg_left h1 (by norm_num))
  have r2 : r ≤ 2 ^ (1000 : ℤ) := by
    refine rb.2.trans ?_
    have e2 : (2 : ℝ) * 2 ^ (900 : ℤ) = 2 ^ (901 : ℤ) := by
      rw [show (901 : ℤ) = 1 + 900 by norm_num, zpow_add₀ (by norm_num), zpow_one]
    exact (mul_le_mul_of_nonneg_left h2 (by norm_num)).trans (by rw [e2]; exact two_zpow_le (by norm_num))
  obtain ⟨u, u1, u2, u3⟩ := hL.log r dr r1 r2
  refine ⟨u, by rw [fin_sub, t1, u1], ?_⟩
  generalize Real.log (s - x) = ld at *
  have c1 := abs_sub_le u (Real.log r) ld
  have c2 := abs_sub_abs_le_abs_sub (Real.log r) ld
  have c3 : δ * |Real.log r| ≤ δ * (|ld| + 2 * ur) := mul_le_mul_of_nonneg_left (by linarith) hδ.le
  have c4 : δ * (2 * ur) ≤ 1 * ur := by nlinarith
  have c5 : 0 ≤ δ * |ld| := by positivity
  linarith

/-- The exponent of `beta_dist`. -/
theorem beta_exponent_error (hu : ur ≤ δ) {F G H B f g i n P Q R K : ℝ} (hP1 : 1 ≤ P) (hQ1 : 1 ≤ Q) (hR1 : 1 ≤ R)
    (hKd : K = P + Q + R + |B|) (hK : 100 * (δ * K) ≤ 1)
    (f3 : |f - F| ≤ 12 * (δ * P)) (f4 : |F| ≤ P) (g3 : |g - G| ≤ 12 * (δ * Q)) (g4 : |G| ≤ Q)
    (i3 : |i - H| ≤ 12 * (δ * R)) (i4 : |H| ≤ R) (n3 : |n - B| ≤ δ * (1 + |B|)) :
    ∃ e, toDouble (toDouble (toDouble (fin f + fin g) - fin n) - fin i) = fin e ∧ IsDouble e ∧ |e| ≤ 2 ^ 60 ∧
      |e - (F + G - B - H)| ≤ 33 * (δ * K) := by
  have hur := ur_pos
  have hδ : 0 < δ := by linarith
  have hB0 : 0 ≤ |B| := abs_nonneg _
  have hKB : K ≤ 2 ^ 53 := by
    have hδ2 : 1 / 2 ^ 53 ≤ δ := by
      rw [show (1 : ℝ) / 2 ^ 53 = ur by rw [ur_val]; norm_num]; exact hu
    have h1 : 1 / 2 ^ 53 * K ≤ δ * K := mul_le_mul_of_nonneg_right hδ2 (by linarith)
    have h2 : K = 2 ^ 53 * (1 / 2 ^ 53 * K) := by ring
    rw [h2]
    linarith
  have hKn : K ≤ 9007199254740992 := by norm_num at hKB; exact hKB
  have small : ∀ {t : ℝ}, t ≤ 100000000000000000000000 → t ≤ 2 ^ 100 := by
    intro t ht
    norm_num
    linarith
  have cmp : ∀ {t : ℝ}, t ≤ K → δ * t ≤ δ * K := fun h => mul_le_mul_of_nonneg_left h hδ.le
  have kP := cmp (show P ≤ K by linarith)
  have kQ := cmp (show Q ≤ K by linarith)
  have kR := cmp (show R ≤ K by linarith)
  have kPQ := cmp (show P + Q ≤ K by linarith)
  have kB := cmp (show 1 + |B| ≤ K by linarith)
  have g3' : |-g - -G| ≤ 12 * (δ * Q) := by
    rw [show -g - -G = -(g - G) by ring, abs_neg]; exact g3
  have g4' : |-G| ≤ Q := by rw [abs_neg]; exact g4
  obtain ⟨m, m1, m2, m3⟩ := round_sub f3 g3' f4 g4' (small (by linarith))
  have m1' : toDouble (fin f + fin g) = fin m := by
    rw [← m1, fin_add, fin_sub, sub_neg_eq_add]
  rw [sub_neg_eq_add] at m3
  have m4 : |m - (F + G)| ≤ 14 * (δ * (P + Q)) := by
    have c1 : ur * (P + Q + 12 * (δ * P) + 12 * (δ * Q) + 1) ≤ δ * (2 * (P + Q)) :=
      mul_le_mul hu (by linarith) (by positivity) hδ.le
    have e : δ * (P + Q) = δ * P + δ * Q := mul_add _ _ _
    linarith
  have m5 : |F + G| ≤ P + Q := (abs_add_le _ _).trans (by linarith)
  obtain ⟨o, o1, o2, o3⟩ := round_sub m4 n3 m5 le_rfl (small (by linarith))
  have o4 : |o - (F + G - B)| ≤ 18 * (δ * K) := by
    have c1 : ur * (P + Q + |B| + 14 * (δ * (P + Q)) + δ * (1 + |B|) + 1) ≤ δ * (2 * K) :=
      mul_le_mul hu (by linarith) (by positivity) hδ.le
    linarith
  have o5 : |F + G - B| ≤ K := (abs_sub _ _).trans (by linarith)
  obtain ⟨e, e1, e2, e3⟩ := round_sub o4 i3 o5 i4 (small (by linarith))
  have e4 : |e - (F + G - B - H)| ≤ 33 * (δ * K) := by
    have c1 : ur * (K + R + 18 * (δ * K) + 12 * (δ * R) + 1) ≤ δ * (3 * K) := by
      have hK0 : 0 < K := by linarith
      exact mul_le_mul hu (by linarith) (by positivity) hδ.le
    linarith
  refine ⟨e, by rw [m1', o1, e1], e2, ?_, e4⟩
  have aE : |F + G - B - H| ≤ 2 * K := (abs_sub _ _).trans (by linarith)
  have c1 := abs_sub_abs_le_abs_sub e (F + G - B - H)
  have : |e| ≤ 20000000000000000 := by linarith
  exact this.trans (by norm_num)

/-- **C94, Beta distribution.** Inside the range the density that `beta_dist` returns in double precision has a
relative error of at most `70 * δ` times the amplification, up to the smallest positive number, where `δ` is the
accuracy of the library. -/
theorem C94_betaDist (hL : AccurateSpecial L δ) {x a b scale : ℝ} (h : BetaArgs x a b scale)
    (hK : 100 * (δ * betaAmplification x a b scale) ≤ 1)
    (hbig : normalised (fun t => t ^ (a - 1) * (scale - t) ^ (b - 1)) 0 scale x ≤ 2 ^ (900 : ℤ)) :
    ∃ p, betaDistBodyD L (fin x) (fin a) (fin b) (fin scale) = fin p ∧ IsDouble p ∧
      |p - normalised (fun t => t ^ (a - 1) * (scale - t) ^ (b - 1)) 0 scale x| ≤
        70 * (δ * betaAmplification x a b scale) *
          normalised (fun t => t ^ (a - 1) * (scale - t) ^ (b - 1)) 0 scale x + 2 ^ (-1074 : ℤ) := by
  obtain ⟨dx, da, db, ds⟩ := h.isDouble
  have hx0 : 0 < x := lt_of_lt_of_le (by positivity) h.low
  have hd0 : 0 < scale - x := lt_of_lt_of_le (by positivity) h.high
  have ha0 : 0 < a := lt_of_lt_of_le (by positivity) h.alpha.1
  have hb0 : 0 < b := lt_of_lt_of_le (by positivity) h.beta.1
  have hδ := hL.pos
  have hu := hL.unit
  have hur := ur_pos
  have htiny := tiny_le_ur
  have hex := beta_exact_eq_exp ha0 hb0 hx0 (by linarith : x < scale)
  unfold betaAmplification at hK ⊢
  rw [hex] at hbig ⊢
  have one : ∀ {w t : ℝ}, 1 ≤ w → 1 ≤ w * (1 + |t|) := by
    intro w t hw
    nlinarith [abs_nonneg t]
  have hP1 : 1 ≤ (1 + a) * (1 + |Real.log x|) := one (by linarith)
  have hQ1 : 1 ≤ (1 + b) * (1 + |Real.log (scale - x)|) := one (by linarith)
  have hR1 : 1 ≤ (1 + a + b) * (1 + |Real.log scale|) := one (by linarith)
  have hB0 : 0 ≤ |Real.log (ProbabilityTheory.beta a b)| := abs_nonneg _
  obtain ⟨K, hKd⟩ : ∃ K, K = (1 + a) * (1 + |Real.log x|) + (1 + b) * (1 + |Real.log (scale - x)|) +
    (1 + a + b) * (1 + |Real.log scale|) + |Real.log (ProbabilityTheory.beta a b)| := ⟨_, rfl⟩
  rw [← hKd] at hK ⊢
  have hK1 : 3 ≤ K := by linarith
  have hδK : 3 * δ ≤ δ * K := by nlinarith
  have hδs : δ ≤ 1 / 300 := by linarith
  have cmp : ∀ {t : ℝ}, t ≤ K → 100 * (δ * t) ≤ 1 := fun h => by
    have := mul_le_mul_of_nonneg_left h hδ.le
    linarith
  have hKB : K ≤ 2 ^ 53 := by
    have hδ2 : 1 / 2 ^ 53 ≤ δ := by
      rw [show (1 : ℝ) / 2 ^ 53 = ur by rw [ur_val]; norm_num]; exact hu
    have h1 : 1 / 2 ^ 53 * K ≤ δ * K := mul_le_mul_of_nonneg_right hδ2 (by linarith)
    have h2 : K = 2 ^ 53 * (1 / 2 ^ 53 * K) := by ring
    rw [h2]
    linarith
  have hxs : x ≤ 2 ^ (900 : ℤ) := le_trans (by linarith) h.scale_le
  have hds : scale - x ≤ 2 ^ (900 : ℤ) := le_trans (by linarith) h.scale_le
  have hss : (2 : ℝ) ^ (-900 : ℤ) ≤ scale := h.low.trans (by linarith)
  obtain ⟨a', a1, a2, a3⟩ := factor_error hu ha0 h.alpha.2
  obtain ⟨b', b1, b2, b3⟩ := factor_error hu hb0 h.beta.2
  obtain ⟨w', w1, w2, w3⟩ := sum_factor_error hu hδs ha0 hb0 h.alpha.2 h.beta.2
  obtain ⟨y, y1, y2⟩ := log_arg_error hL dx h.low hxs
  obtain ⟨v, v1, v2⟩ := log_arg_error hL ds hss h.scale_le
  obtain ⟨u, u1, u2⟩ := log_diff_error hL hδs dx ds h.high hds
  obtain ⟨f, f1, -, f3, f4⟩ := term_error hu (by linarith : 1 ≤ 1 + a) a2 a3 y2 (cmp (by linarith))
  obtain ⟨g, g1, -, g3, g4⟩ := term_error hu (by linarith : 1 ≤ 1 + b) b2 b3 u2 (cmp (by linarith))
  obtain ⟨i, i1, -, i3, i4⟩ := term_error hu (by linarith : 1 ≤ 1 + a + b) w2 w3 v2 (cmp (by linarith))
  obtain ⟨n, n1, -, n3⟩ := hL.betaln a b da db h.alpha.1 h.beta.1 h.alpha.2 h.beta.2
    (le_trans (by linarith) (show (2 : ℝ) ^ 53 ≤ 2 ^ 90 by norm_num))
  obtain ⟨e, e1, e2, e3, e4⟩ := beta_exponent_error hu hP1 hQ1 hR1 hKd hK f3 f4 g3 g4 i3 i4 n3
  obtain ⟨E, hE⟩ : ∃ E, E = (a - 1) * Real.log x + (b - 1) * Real.log (scale - x) -
    Real.log (ProbabilityTheory.beta a b) - (a + b - 1) * Real.log scale := ⟨_, rfl⟩
  rw [← hE] at e4 hbig ⊢
  have hE630 : E ≤ 630 := by
    have := Real.log_le_log (Real.exp_pos E) hbig
    rw [Real.log_exp] at this
    exact this.trans log_two_pow_le
  have hη : 33 * (δ * K) ≤ 1 := by linarith
  obtain ⟨p, p1, p2, p3⟩ := hL.exp e e2 e3 (by have := (abs_le.1 e4).2; linarith)
  refine ⟨p, ?_, p2, ?_⟩
  · have hle : x ≤ scale := by linarith
    unfold betaDistBodyD
    simp only [a1, b1, y1, u1, f1, g1, n1, w1, v1, i1, e1, p1]
    simp only [zero_eq, fin_le, hx0.le, hle, ind, if_true, nanToNum_fin, fin_mul, mul_one]
  · have eE := exp_error e4 hη
    have hexp := Real.exp_pos E
    have h3 : Real.exp e ≤ 3 * Real.exp E := by
      have := (abs_le.1 eE).2
      nlinarith
    have q1 := abs_sub_le p (Real.exp e) (Real.exp E)
    have q2 : δ * Real.exp e ≤ δ * (3 * Real.exp E) := mul_le_mul_of_nonneg_left h3 hδ.le
    have q3 : 3 * δ * Real.exp E ≤ δ * K * Real.exp E := mul_le_mul_of_nonneg_right hδK hexp.le
    have q4 : 0 ≤ δ * K * Real.exp E := by positivity
    linarith

/-- **C94, Beta distribution, outside the range.** Whatever the library, the density is exactly 0. -/
theorem C94_betaDist_outside (L : SpecialLib) {x scale : ℝ} (a b : Fl) (h : x < 0 ∨ scale < x) :
    betaDistBodyD L (fin x) a b (fin scale) = fin 0 := by
  have fin_of : ∀ y, ∃ r, nanToNum y = fin r := by
    intro y
    cases y
    exacts [⟨_, rfl⟩, ⟨_, rfl⟩, ⟨_, rfl⟩, ⟨_, rfl⟩]
  unfold betaDistBodyD
  simp only []
  generalize L.exp _ = y
  obtain ⟨r, hr⟩ := fin_of y
  rw [hr]
  rcases h with h | h
  · have h1 : ¬ 0 ≤ x := not_le.2 h
    simp only [zero_eq, fin_le, h1, ind, if_false]
    by_cases h2 : x ≤ scale <;> simp [h2]
  · have h1 : ¬ x ≤ scale := not_le.2 h
    simp only [zero_eq, fin_le, h1, ind, if_false]
    by_cases h2 : 0 ≤ x <;> simp [h2]

example : betaDistBodyD roundedSpecial (fin 2) (fin 3) (fin 5) (fin 1) = fin 0 :=
  C94_betaDist_outside _ _ _ (Or.inr (by norm_num))

/-- `beta(2, 2) = 1 / 6`. -/
theorem log_beta_two : |Real.log (ProbabilityTheory.beta 2 2)| ≤ 6 := by
  have h : ProbabilityTheory.beta 2 2 = 1 / 6 := by
    unfold ProbabilityTheory.beta
    have g2 : Real.Gamma 2 = 1 := Real.Gamma_two
    have g4 : Real.Gamma (2 + 2) = 6 := by
      have := Real.Gamma_nat_eq_factorial 3
      norm_num [Nat.factorial] at this ⊢
    rw [g2, g4]
    norm_num
  rw [h]
  exact (abs_log_le_inv (by norm_num) (by norm_num)).trans (by norm_num)

/-- Non-vacuity: spin magnitude 1/2 with both shape parameters 2. -/
theorem halfBetaArgs : BetaArgs (1 / 2) 2 2 1 where
  isDouble := ⟨⟨1, -1, by norm_num, by norm_num, by norm_num⟩, by exact_mod_cast isDouble_int (n := 2) (by norm_num),
    by exact_mod_cast isDouble_int (n := 2) (by norm_num), by exact_mod_cast isDouble_int (n := 1) (by norm_num)⟩
  low := by
    calc (2 : ℝ) ^ (-900 : ℤ) ≤ 2 ^ (-1 : ℤ) := two_zpow_le (by norm_num)
      _ = _ := by norm_num
  high := by
    calc (2 : ℝ) ^ (-900 : ℤ) ≤ 2 ^ (-1 : ℤ) := two_zpow_le (by norm_num)
      _ = _ := by norm_num
  scale_le := one_le_zpow₀ (by norm_num) (by norm_num)
  alpha := ⟨by norm_num, by norm_num⟩
  beta := ⟨by norm_num, by norm_num⟩

example : ∃ p, betaDistBodyD roundedSpecial (fin (1 / 2)) (fin 2) (fin 2) (fin 1) = fin p ∧
    |p - normalised (fun t : ℝ => t ^ ((2 : ℝ) - 1) * (1 - t) ^ ((2 : ℝ) - 1)) 0 1 (1 / 2)| ≤
      1 / 1000000000000 * normalised (fun t : ℝ => t ^ ((2 : ℝ) - 1) * (1 - t) ^ ((2 : ℝ) - 1)) 0 1 (1 / 2) +
        2 ^ (-1074 : ℤ) := by
  have hl : |Real.log (1 / 2)| ≤ 2 := (abs_log_le_inv (by norm_num) (by norm_num)).trans (by norm_num)
  have hA : betaAmplification (1 / 2) 2 2 1 ≤ 29 := by
    unfold betaAmplification
    rw [show (1 : ℝ) - 1 / 2 = 1 / 2 by norm_num, Real.log_one, abs_zero]
    have := log_beta_two
    linarith
  have hA' : ur * betaAmplification (1 / 2) 2 2 1 ≤ ur * 29 := mul_le_mul_of_nonneg_left hA ur_pos.le
  have hex := beta_exact_eq_exp (a := 2) (b := 2) (x := 1 / 2) (scale := 1) (by norm_num) (by norm_num) (by norm_num) (by norm_num)
  have hpos : 0 < normalised (fun t : ℝ => t ^ ((2 : ℝ) - 1) * (1 - t) ^ ((2 : ℝ) - 1)) 0 1 (1 / 2) := by
    rw [hex]; exact Real.exp_pos _
  obtain ⟨p, h1, -, h2⟩ := C94_betaDist roundedSpecial_accurate halfBetaArgs (by rw [ur_val] at hA' ⊢; linarith) (by
    rw [hex, ← Real.le_log_iff_exp_le (by positivity), Real.log_zpow, Real.log_one]
    have h3 := abs_le.1 hl
    have h4 := abs_le.1 log_beta_two
    rw [show (1 : ℝ) - 1 / 2 = 1 / 2 by norm_num]
    have := Real.log_two_gt_d9
    push_cast
    linarith)
  refine ⟨p, h1, h2.trans ?_⟩
  have : 70 * (ur * betaAmplification (1 / 2) 2 2 1) ≤ 1 / 1000000000000 := by rw [ur_val] at hA' ⊢; linarith
  have := mul_le_mul_of_nonneg_right this hpos.le
  linarith

/-- `2 * pi` in double precision. -/
theorem twoPi_error : ∃ r, toDouble (2 * toDouble (fin Real.pi)) = fin r ∧ Rel (3 * ur) (2 * Real.pi) r := by
  have hur := ur_pos
  have hpi3 := Real.pi_gt_three
  have hpi4 := Real.pi_lt_four
  have hpos := Real.pi_pos
  have lo : (2 : ℝ) ^ (-1022 : ℤ) ≤ 1 := zpow_le_one_of_nonpos₀ (by norm_num) (by norm_num)
  have up : (16 : ℝ) ≤ 2 ^ (1023 : ℤ) := by
    calc (16 : ℝ) = 2 ^ (4 : ℤ) := by norm_num
      _ ≤ _ := two_zpow_le (by norm_num)
  have hurs : ur ≤ 1 / 1000 := by rw [ur_val]; norm_num
  obtain ⟨t1, t2⟩ := rel_toDouble (x := Real.pi) (by rw [abs_of_pos hpos]; exact lo.trans (by linarith))
    (by rw [abs_of_pos hpos]; exact le_trans (by linarith) up)
  obtain ⟨q, hq⟩ : ∃ q, q = round53 Real.pi := ⟨_, rfl⟩
  rw [← hq] at t1 t2
  have q1 : |q - Real.pi| ≤ ur * Real.pi := by
    have := t2
    unfold Rel at this
    rwa [abs_of_pos hpos] at this
  have hq0 : 2 ≤ q ∧ q ≤ 5 := by
    obtain ⟨h1, h2⟩ := abs_le.1 q1
    constructor <;> nlinarith
  obtain ⟨t3, t4⟩ := rel_toDouble (x := 2 * q) (by rw [abs_of_pos (by linarith)]; exact lo.trans (by linarith))
    (by rw [abs_of_pos (by linarith)]; exact le_trans (by linarith) up)
  refine ⟨round53 (2 * q), by rw [t1, ofNat_eq, fin_mul, t3], ?_⟩
  have h1 : Rel ur (2 * Real.pi) (2 * q) := by
    unfold Rel
    rw [← mul_sub, abs_mul, abs_mul, abs_of_pos hpos]
    nlinarith [abs_nonneg (2 : ℝ)]
  exact (h1.trans t4 hur.le).mono (b := 3 * ur) (by nlinarith)

/-- The exponent of `von_mises`. -/
theorem vonMises_exponent_error (hL : AccurateSpecial L δ) {x mu k : ℝ} (dx : IsDouble x) (dmu : IsDouble mu)
    (hk : 0 ≤ k) (hd : |x - mu| ≤ 2 ^ 29) (hK : 100 * (δ * ((1 + k) * (1 + |x - mu|))) ≤ 1) :
    ∃ e, toDouble (fin k * toDouble (L.cos (toDouble (fin x - fin mu)) - 1)) = fin e ∧ IsDouble e ∧ |e| ≤ 2 ^ 60 ∧
      |e - k * (Real.cos (x - mu) - 1)| ≤ 10 * (δ * ((1 + k) * (1 + |x - mu|))) := by
  have hδ := hL.pos
  have hu := hL.unit
  have hur := ur_pos
  have htiny := tiny_le_ur
  obtain ⟨D, hD⟩ : ∃ D, D = 1 + |x - mu| := ⟨_, rfl⟩
  have hD1 : 1 ≤ D := by rw [hD]; linarith [abs_nonneg (x - mu)]
  rw [← hD] at hK ⊢
  obtain ⟨A, hA⟩ : ∃ A, A = (1 + k) * D := ⟨_, rfl⟩
  rw [← hA] at hK ⊢
  have hA1 : 1 ≤ A := by rw [hA]; nlinarith
  have hkA : k * D ≤ A := by rw [hA]; nlinarith
  have hk1 : k ≤ A := by rw [hA]; nlinarith
  have hDA : D ≤ A := by rw [hA]; nlinarith
  have hAB : A ≤ 2 ^ 53 := by
    have hδ2 : 1 / 2 ^ 53 ≤ δ := by
      rw [show (1 : ℝ) / 2 ^ 53 = ur by rw [ur_val]; norm_num]; exact hu
    have h1 : 1 / 2 ^ 53 * A ≤ δ * A := mul_le_mul_of_nonneg_right hδ2 (by linarith)
    have h2 : A = 2 ^ 53 * (1 / 2 ^ 53 * A) := by ring
    rw [h2]
    linarith
  have hAn : A ≤ 9007199254740992 := by norm_num at hAB; exact hAB
  have small : ∀ {t : ℝ}, t ≤ 100000000000000000000000 → t ≤ 2 ^ 100 := by
    intro t ht
    norm_num
    linarith
  have hδA : δ * D ≤ δ * A := mul_le_mul_of_nonneg_left hDA hδ.le
  have hδD : δ ≤ δ * D := le_mul_of_one_le_right hδ.le hD1
  -- the difference
  have t1 : toDouble (fin (x - mu)) = fin (round53 (x - mu)) := fl64_of_le (le_huge (hd.trans (by norm_num)))
  have t2 : |round53 (x - mu) - (x - mu)| ≤ ur * |x - mu| := by
    have := round53_add dx dmu.neg
    rwa [← sub_eq_add_neg] at this
  obtain ⟨d, hdd⟩ : ∃ d, d = round53 (x - mu) := ⟨_, rfl⟩
  have dd : IsDouble d := by rw [hdd]; exact round53_isDouble _
  rw [← hdd] at t1 t2
  have ad : |d| ≤ 2 ^ 30 := by
    have h1 := abs_sub_abs_le_abs_sub d (x - mu)
    have h2 : ur * |x - mu| ≤ 1 * |x - mu| := mul_le_mul_of_nonneg_right (by rw [ur_val]; norm_num) (abs_nonneg _)
    norm_num at hd ⊢
    linarith
  obtain ⟨c, c1, c2, c3⟩ := hL.cos d dd ad
  have c4 : |c - Real.cos (x - mu)| ≤ 2 * (δ * D) := by
    have h1 := abs_sub_le c (Real.cos d) (Real.cos (x - mu))
    have h2 : |Real.cos d - Real.cos (x - mu)| ≤ |d - (x - mu)| := Real.abs_cos_sub_cos_le _ _
    have h3 : δ * |Real.cos d| ≤ δ * 1 := mul_le_mul_of_nonneg_left (Real.abs_cos_le_one d) hδ.le
    have h4 : ur * |x - mu| ≤ δ * |x - mu| := mul_le_mul_of_nonneg_right hu (abs_nonneg _)
    have h5 : δ * D = δ + δ * |x - mu| := by rw [hD]; ring
    have h6 : 0 ≤ δ * |x - mu| := by positivity
    linarith
  have self : ∀ t : ℝ, |t - t| ≤ 0 := fun t => by simp
  obtain ⟨t, s1, s2, s3⟩ := round_sub c4 (self 1) (Real.abs_cos_le_one _) (abs_one).le (small (by linarith))
  have s4 : |t - (Real.cos (x - mu) - 1)| ≤ 6 * (δ * D) := by
    have h1 : ur * (1 + 1 + 2 * (δ * D) + 0 + 1) ≤ δ * 4 := mul_le_mul hu (by linarith) (by positivity) hδ.le
    linarith
  have hc2 : |Real.cos (x - mu) - 1| ≤ 2 := by
    refine (abs_sub _ _).trans ?_
    have := Real.abs_cos_le_one (x - mu)
    rw [abs_one]
    linarith
  have e0 : k * (6 * (δ * D)) ≤ 6 * (δ * A) := by
    have := mul_le_mul_of_nonneg_left hkA hδ.le
    linarith
  have e0' : 0 ≤ k * (6 * (δ * D)) := by positivity
  obtain ⟨e, e1, e2, e3⟩ := round_mul (self k) s4 (abs_of_nonneg hk).le hc2 (small (by linarith))
  simp only [zero_mul, add_zero, zero_add] at e3
  have e4 : |e - k * (Real.cos (x - mu) - 1)| ≤ 10 * (δ * A) := by
    have h1 : ur * (k * 2 + k * (6 * (δ * D)) + 1) ≤ δ * (4 * A) :=
      mul_le_mul hu (by linarith) (by positivity) hδ.le
    linarith
  refine ⟨e, ?_, e2, ?_, e4⟩
  · have s1' : toDouble (fin c - 1) = fin t := s1
    rw [fin_sub, t1, c1, s1', e1]
  · have h1 := abs_sub_abs_le_abs_sub e (k * (Real.cos (x - mu) - 1))
    have h2 : |k * (Real.cos (x - mu) - 1)| ≤ k * 2 := by
      rw [abs_mul, abs_of_nonneg hk]
      exact mul_le_mul_of_nonneg_left hc2 hk
    have : |e| ≤ 20000000000000000 := by linarith
    exact this.trans (by norm_num)

set_option maxHeartbeats 1000000 in
/-- **C94, von Mises distribution.** The density that `von_mises` returns in double precision has a relative error
of at most `62 * δ * (1 + kappa) * (1 + |x - mu|)`, up to a few of the smallest positive numbers, where `δ` is the
accuracy of the library. -/
theorem C94_vonMises (hL : AccurateSpecial L δ) {x mu k : ℝ} (dx : IsDouble x) (dmu : IsDouble mu) (dk : IsDouble k)
    (hk : 0 ≤ k) (hd : |x - mu| ≤ 2 ^ 29) (hK : 100 * (δ * ((1 + k) * (1 + |x - mu|))) ≤ 1) :
    ∃ p, vonMisesD L (fin x) (fin mu) (fin k) = fin p ∧ IsDouble p ∧
      |p - Real.exp (k * Real.cos (x - mu)) / (2 * Real.pi * besselI0 k)| ≤
        62 * (δ * ((1 + k) * (1 + |x - mu|))) * (Real.exp (k * Real.cos (x - mu)) / (2 * Real.pi * besselI0 k)) +
          6 * (1 + k) * 2 ^ (-1074 : ℤ) := by
  obtain ⟨e, e1, e2, e3, e4⟩ := vonMises_exponent_error hL dx dmu hk hd hK
  have hδ := hL.pos
  have hu := hL.unit
  have hur := ur_pos
  obtain ⟨A, hA⟩ : ∃ A, A = (1 + k) * (1 + |x - mu|) := ⟨_, rfl⟩
  rw [← hA] at hK e4 ⊢
  have hD0 := abs_nonneg (x - mu)
  have hA1 : 1 ≤ A := by rw [hA]; nlinarith
  have hk1 : 1 + k ≤ A := by rw [hA]; nlinarith
  have hδA : δ ≤ δ * A := le_mul_of_one_le_right hδ.le hA1
  have hAB : A ≤ 2 ^ 53 := by
    have hδ2 : 1 / 2 ^ 53 ≤ δ := by
      rw [show (1 : ℝ) / 2 ^ 53 = ur by rw [ur_val]; norm_num]; exact hu
    have h1 : 1 / 2 ^ 53 * A ≤ δ * A := mul_le_mul_of_nonneg_right hδ2 (by linarith)
    have h2 : A = 2 ^ 53 * (1 / 2 ^ 53 * A) := by ring
    rw [h2]
    linarith
  have hAn : A ≤ 9007199254740992 := by norm_num at hAB; exact hAB
  have hpi3 := Real.pi_gt_three
  have hpi4 := Real.pi_lt_four
  have hpos := Real.pi_pos
  -- the exponential
  obtain ⟨E, hE⟩ : ∃ E, E = k * (Real.cos (x - mu) - 1) := ⟨_, rfl⟩
  rw [← hE] at e4
  have hE0 : E ≤ 0 := by
    rw [hE]
    have := Real.cos_le_one (x - mu)
    nlinarith
  obtain ⟨q, q1, q2, q3⟩ := hL.exp e e2 e3 (by have := (abs_le.1 e4).2; linarith)
  have eE := exp_error e4 (by linarith)
  have hexp := Real.exp_pos E
  have hexp1 : Real.exp E ≤ 1 := Real.exp_le_one_iff.2 hE0
  obtain ⟨τ, hτ⟩ : ∃ τ, τ = (2 : ℝ) ^ (-1074 : ℤ) := ⟨_, rfl⟩
  have hτ0 : 0 < τ := by rw [hτ]; positivity
  have hτu : τ ≤ ur := by rw [hτ]; exact tiny_le_ur
  rw [← hτ] at q3 ⊢
  have q4 : |q - Real.exp E| ≤ 23 * (δ * A) * Real.exp E + τ := by
    have h3 : Real.exp e ≤ 3 * Real.exp E := by
      have := (abs_le.1 eE).2
      nlinarith
    have r1 := abs_sub_le q (Real.exp e) (Real.exp E)
    have r2 : δ * Real.exp e ≤ δ * (3 * Real.exp E) := mul_le_mul_of_nonneg_left h3 hδ.le
    have r3 : δ * Real.exp E ≤ δ * A * Real.exp E := mul_le_mul_of_nonneg_right hδA hexp.le
    linarith
  -- the denominator
  obtain ⟨b1, b2⟩ := i0e_bounds hk
  obtain ⟨I, hI⟩ : ∃ I, I = Real.exp (-|k|) * besselI0 k := ⟨_, rfl⟩
  have hI0 : 0 < I := by rw [hI]; exact lt_of_lt_of_le (by positivity) b1
  obtain ⟨j, j1, -, j3⟩ := hL.i0e k dk hk (by
    have : k ≤ 9007199254740992 := by linarith
    exact this.trans (by norm_num))
  rw [← hI] at b1 b2 j3
  have j4 : Rel δ I j := by unfold Rel; rwa [abs_of_pos hI0]
  obtain ⟨r, r1, r2⟩ := twoPi_error
  have hδs : δ ≤ 1 / 100 := by linarith
  have m1 := (r2.mul j4 hδ.le).mono (b := 5 * δ) (by nlinarith)
  obtain ⟨N, hN⟩ : ∃ N, N = 2 * Real.pi * I := ⟨_, rfl⟩
  rw [← hN] at m1
  have hN0 : 0 < N := by rw [hN]; positivity
  have hNi : 1 / N ≤ 2 * (1 + k) := by
    rw [div_le_iff₀ hN0, hN]
    have h1 : 1 ≤ 8 * (1 + k) * I := by
      rw [div_le_iff₀ (by positivity)] at b1
      linarith
    have h2 : 8 * (1 + k) * I ≤ 2 * (1 + k) * (2 * Real.pi * I) := by
      have : 0 < (1 + k) * I := by positivity
      nlinarith
    linarith
  have hN8 : N ≤ 8 := by rw [hN]; nlinarith
  have hNl : 1 / 2 ^ 54 ≤ N := by
    have h1 : 1 ≤ 2 * (1 + k) * N := by rw [div_le_iff₀ hN0] at hNi; exact hNi
    have h2 : (1 + k) * N ≤ 2 ^ 53 * N := mul_le_mul_of_nonneg_right (hk1.trans hAB) hN0.le
    rw [div_le_iff₀ (by positivity)]
    have e : N * 2 ^ 54 = 2 * (2 ^ 53 * N) := by ring
    rw [e]
    linarith
  have mm : |r * j - N| ≤ 5 * δ * N := by
    have := m1
    unfold Rel at this
    rwa [abs_of_pos hN0] at this
  have hrj : 1 / 2 * N ≤ r * j ∧ r * j ≤ 2 * N := by
    obtain ⟨h1, h2⟩ := abs_le.1 mm
    constructor <;> nlinarith
  have hrj0 : 0 < r * j := by linarith [hrj.1]
  obtain ⟨n1, n2⟩ := rel_toDouble (x := r * j)
    (by
      rw [abs_of_pos hrj0]
      refine le_trans ?_ hrj.1
      calc (2 : ℝ) ^ (-1022 : ℤ) ≤ 2 ^ (-55 : ℤ) := two_zpow_le (by norm_num)
        _ = 1 / 2 * (1 / 2 ^ 54) := by norm_num
        _ ≤ _ := mul_le_mul_of_nonneg_left hNl (by norm_num))
    (by
      rw [abs_of_pos hrj0]
      have : r * j ≤ 16 := by linarith [hrj.2]
      exact le_huge (this.trans (by norm_num)))
  obtain ⟨n, hn⟩ : ∃ n, n = round53 (r * j) := ⟨_, rfl⟩
  rw [← hn] at n1 n2
  have n3 := (m1.trans n2 hur.le).mono (b := 7 * δ) (by nlinarith)
  have n0 : 0 < n := n3.pos (by linarith) hN0
  have n4 := n3.inv (by linarith) hN0.ne'
  unfold Rel at n4
  rw [abs_of_pos (inv_pos.2 hN0)] at n4
  have n5 : n⁻¹ ≤ 2 * N⁻¹ := by
    have := (abs_le.1 n4).2
    have h2 : 0 < N⁻¹ := inv_pos.2 hN0
    nlinarith
  -- the quotient
  obtain ⟨X, hX⟩ : ∃ X, X = Real.exp E / N := ⟨_, rfl⟩
  have hXe : Real.exp (k * Real.cos (x - mu)) / (2 * Real.pi * besselI0 k) = X := by
    rw [hX, hN, hI, hE, abs_of_nonneg hk]
    have hB := (besselI0_pos k).ne'
    have : Real.exp (k * (Real.cos (x - mu) - 1)) = Real.exp (k * Real.cos (x - mu)) * Real.exp (-k) := by
      rw [← Real.exp_add]; congr 1; ring
    rw [this]
    have := (Real.exp_pos (-k)).ne'
    field_simp
  rw [hXe]
  have hX0 : 0 < X := by rw [hX]; positivity
  have v1 : |q / n - X| ≤ 60 * (δ * A) * X + 4 * (1 + k) * τ := by
    have h1 : q / n - X = (q - Real.exp E) * n⁻¹ + Real.exp E * (n⁻¹ - N⁻¹) := by
      rw [hX, div_eq_mul_inv, div_eq_mul_inv]; ring
    have hNi' : N⁻¹ ≤ 2 * (1 + k) := by rw [← one_div]; exact hNi
    have h2 : |(q - Real.exp E) * n⁻¹| ≤ (23 * (δ * A) * Real.exp E + τ) * (2 * N⁻¹) := by
      rw [abs_mul, abs_of_pos (inv_pos.2 n0)]
      exact mul_le_mul q4 n5 (inv_pos.2 n0).le (by positivity)
    have h3 : |Real.exp E * (n⁻¹ - N⁻¹)| ≤ Real.exp E * (2 * (7 * δ) * N⁻¹) := by
      rw [abs_mul, abs_of_pos hexp]
      exact mul_le_mul_of_nonneg_left n4 hexp.le
    have hXi : X = Real.exp E * N⁻¹ := by rw [hX, div_eq_mul_inv]
    have h4 : (23 * (δ * A) * Real.exp E + τ) * (2 * N⁻¹) = 46 * (δ * A) * X + 2 * τ * N⁻¹ := by rw [hXi]; ring
    have h5 : Real.exp E * (2 * (7 * δ) * N⁻¹) = 14 * δ * X := by rw [hXi]; ring
    have h6 : 2 * τ * N⁻¹ ≤ 2 * τ * (2 * (1 + k)) := mul_le_mul_of_nonneg_left hNi' (by positivity)
    have h7 : δ * X ≤ δ * A * X := mul_le_mul_of_nonneg_right hδA hX0.le
    rw [h1]
    have := abs_add_le ((q - Real.exp E) * n⁻¹) (Real.exp E * (n⁻¹ - N⁻¹))
    linarith
  have kτ : ur * (4 * (1 + k) * τ) ≤ τ := by
    have h1 : ur * (4 * (1 + k)) ≤ 1 := by
      have h2 : ur * (1 + k) ≤ δ * A := mul_le_mul hu hk1 (by linarith) hδ.le
      linarith
    calc _ = ur * (4 * (1 + k)) * τ := by ring
      _ ≤ 1 * τ := mul_le_mul_of_nonneg_right h1 hτ0.le
      _ = τ := one_mul _
  have v2 : |q / n| ≤ 2 * X + 4 * (1 + k) * τ := by
    have h1 := abs_sub_abs_le_abs_sub (q / n) X
    rw [abs_of_pos hX0] at h1
    have h2 : 60 * (δ * A) * X ≤ 1 * X := mul_le_mul_of_nonneg_right (by linarith) hX0.le
    linarith
  have hXb : X ≤ 2 * A := by
    rw [hX, div_eq_mul_inv, ← one_div]
    have : Real.exp E * (1 / N) ≤ 1 * (2 * (1 + k)) := mul_le_mul hexp1 hNi (by positivity) (by norm_num)
    linarith
  have hτ1 : (1 + k) * τ ≤ A * 1 := by
    refine mul_le_mul hk1 (hτu.trans (by rw [ur_val]; norm_num)) hτ0.le (by linarith)
  obtain ⟨p, p1, p2, p3⟩ := near_toDouble (r := q / n) (le_huge (by
    have : |q / n| ≤ 100000000000000000000 := by linarith
    exact this.trans (by norm_num)))
  rw [← hτ] at p3
  refine ⟨p, ?_, p2, ?_⟩
  · unfold vonMisesD
    rw [e1, q1, r1, j1, fin_mul, n1, fin_div n0.ne', p1]
  · have h1 := abs_sub_le p (q / n) X
    have h2 : ur * |q / n| ≤ ur * (2 * X + 4 * (1 + k) * τ) := mul_le_mul_of_nonneg_left v2 hur.le
    have h3 : ur * X ≤ δ * A * X := mul_le_mul_of_nonneg_right (by linarith) hX0.le
    have h4 : 0 ≤ k * τ := by positivity
    linarith

/-- Non-vacuity: `kappa = 10`, one radian from the centre. -/
example : ∃ p, vonMisesD roundedSpecial (fin 1) (fin 0) (fin 10) = fin p ∧
    |p - Real.exp (10 * Real.cos 1) / (2 * Real.pi * besselI0 10)| ≤
      62 * (ur * 22) * (Real.exp (10 * Real.cos 1) / (2 * Real.pi * besselI0 10)) + 66 * 2 ^ (-1074 : ℤ) := by
  obtain ⟨p, h1, -, h2⟩ := C94_vonMises roundedSpecial_accurate (x := 1) (mu := 0) (k := 10)
    (by exact_mod_cast isDouble_int (n := 1) (by norm_num)) isDouble_zero
    (by exact_mod_cast isDouble_int (n := 10) (by norm_num)) (by norm_num) (by norm_num)
    (by rw [ur_val]; norm_num)
  refine ⟨p, h1, ?_⟩
  rw [sub_zero, abs_one, show ((1 : ℝ) + 10) * (1 + 1) = 22 by norm_num, show (6 : ℝ) * (1 + 10) = 66 by norm_num] at h2
  exact h2

end GW
