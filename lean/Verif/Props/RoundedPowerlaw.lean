import Verif.Lemmas.RelError
import Verif.Model.RoundedDensities
import Verif.Props.Rounding
import Verif.Props.Powerlaw
import Mathlib.Analysis.Convex.SpecificFunctions.Basic

/-!
# C90: the power law in double precision
-/

noncomputable section

open Classical

namespace GW

open Fl

namespace Spec

/-- An accurate library: powers and logarithms of doubles are correct to one unit in the last place. -/
structure AccurateMath (L : MathLib) : Prop where
  pow : ∀ x y, 0 < x → IsDouble x → IsDouble y → (2 : ℝ) ^ (-1000 : ℤ) ≤ x ^ y → x ^ y ≤ 2 ^ (1000 : ℤ) →
    ∃ r, L.pow (fin x) (fin y) = fin r ∧ IsDouble r ∧ |r - x ^ y| ≤ 2 * ur * x ^ y
  log : ∀ x, (2 : ℝ) ^ (-1000 : ℤ) ≤ x → x ≤ 2 ^ (1000 : ℤ) → IsDouble x →
    ∃ y, L.log (fin x) = fin y ∧ IsDouble y ∧ |y - Real.log x| ≤ 2 * ur * |Real.log x|

/-- How much the power law amplifies rounding errors: it grows without bound as the spectral index tends
to -1 or the limits to each other. -/
def amplification (a lo hi : ℝ) : ℝ :=
  if a = -1 then 1 + 1 / Real.log (hi / lo)
  else (1 + |1 + a| * (|Real.log hi| + |Real.log lo|)) * (1 + 1 / (|1 + a| * Real.log (hi / lo)))

/-- Arguments of the power law that are doubles and cause no overflow or underflow. -/
structure PowerlawArgs (x a lo hi : ℝ) : Prop where
  pos : 0 < lo
  lt : lo < hi
  low : lo ≤ x
  high : x ≤ hi
  isDouble : IsDouble x ∧ IsDouble a ∧ IsDouble lo ∧ IsDouble hi
  index : |a| ≤ 2 ^ 20
  range : ∀ y ∈ [lo, hi, x ^ a, lo ^ (1 + a), hi ^ (1 + a)],
    (2 : ℝ) ^ (-400 : ℤ) ≤ y ∧ y ≤ 2 ^ (400 : ℤ)

end Spec

open Spec

theorem InR.rel {a b : ℤ} {x y e : ℝ} (h : InR a b x) (hr : Rel e x y) (he : e ≤ 1 / 2) :
    InR (a - 1) (b + 1) y := by
  have hx := h.pos
  have e1 : (2 : ℝ) ^ a = 2 * 2 ^ (a - 1) := by
    rw [show a = 1 + (a - 1) by ring, zpow_add₀ (by norm_num), zpow_one]; ring_nf
  have e2 : (2 : ℝ) ^ (b + 1) = 2 * 2 ^ b := by
    rw [add_comm, zpow_add₀ (by norm_num), zpow_one]
  have hr' := _root_.abs_le.1 (hr.mono he)
  rw [abs_of_pos hx] at hr'
  obtain ⟨h3, h4⟩ := h
  constructor <;> linarith [hr'.1, hr'.2]

/-- The difference of two numbers known with relative error `e`. -/
theorem difference_error {A B A' B' t e : ℝ} (hB : 0 < B) (ht : 0 < t) (hA : A = B * Real.exp t)
    (h1 : Rel e A A') (h2 : Rel e B B') (he : 0 ≤ e) :
    A ≤ (1 + 1 / t) * (A - B) ∧ Rel (2 * e * (1 + 1 / t)) (A - B) (A' - B') := by
  have h3 := Real.add_one_le_exp t
  have hBA : B * (1 + t) ≤ A := by
    rw [hA]
    exact mul_le_mul_of_nonneg_left (by linarith) hB.le
  have hlt : B < A := by nlinarith
  have hA0 : 0 < A := hB.trans hlt
  have key : A ≤ (1 + 1 / t) * (A - B) := by
    have : (1 + 1 / t) * (A - B) = ((A - B) * (1 + t)) / t := by field_simp; ring
    rw [this, le_div_iff₀ ht]
    linarith
  refine ⟨key, ?_⟩
  unfold Rel at *
  rw [abs_of_pos hA0] at h1
  rw [abs_of_pos hB] at h2
  rw [abs_of_pos (by linarith : 0 < A - B)]
  have e1 : A' - B' - (A - B) = (A' - A) + -(B' - B) := by ring
  have h4 := abs_add_le (A' - A) (-(B' - B))
  rw [abs_neg] at h4
  rw [e1]
  have h5 : e * B ≤ e * A := mul_le_mul_of_nonneg_left hlt.le he
  have h6 : e * A ≤ e * ((1 + 1 / t) * (A - B)) := mul_le_mul_of_nonneg_left key he
  linarith [show 2 * e * (1 + 1 / t) * (A - B) = 2 * (e * ((1 + 1 / t) * (A - B))) by ring]

/-- A power whose exponent has a relative error. -/
theorem pow_error {y b b' u : ℝ} (hy : 0 < y) (hb : Rel u b b') (hs : u * (|b| * |Real.log y|) ≤ 1) :
    Rel (2 * u * (|b| * |Real.log y|)) (y ^ b) (y ^ b') := by
  have e1 : y ^ b' = y ^ b * Real.exp (Real.log y * (b' - b)) := by
    rw [Real.rpow_def_of_pos hy, Real.rpow_def_of_pos hy, ← Real.exp_add]
    ring_nf
  have h1 : |Real.log y * (b' - b)| ≤ u * (|b| * |Real.log y|) := by
    rw [abs_mul]
    have := mul_le_mul_of_nonneg_left hb (abs_nonneg (Real.log y))
    linarith [show |Real.log y| * (u * |b|) = u * (|b| * |Real.log y|) by ring]
  have h2 := Real.abs_exp_sub_one_le (h1.trans hs)
  unfold Rel
  rw [e1, show y ^ b * Real.exp (Real.log y * (b' - b)) - y ^ b =
    (Real.exp (Real.log y * (b' - b)) - 1) * y ^ b by ring, abs_mul]
  refine mul_le_mul_of_nonneg_right (h2.trans ?_) (abs_nonneg _)
  linarith

/-- One power of the normalisation. -/
theorem pow_index {L : MathLib} (hL : AccurateMath L) {y b b' m : ℝ} (hy : 0 < y) (hd : IsDouble y)
    (hb : Rel ur b b') (hd' : IsDouble b') (hr : InR (-400) 400 (y ^ b))
    (hm : 1 + |b| * |Real.log y| ≤ m) (hm2 : 64 * ur * m ≤ 1) :
    ∃ r, L.pow (fin y) (fin b') = fin r ∧ IsDouble r ∧ Rel (3 * ur * m) (y ^ b) r ∧ |r| ≤ 2 ^ (402 : ℤ) := by
  have hu := ur_pos
  have hs0 : 0 ≤ |b| * |Real.log y| := by positivity
  have hs : ur * (|b| * |Real.log y|) ≤ ur * m := mul_le_mul_of_nonneg_left (by linarith) hu.le
  have h1 := pow_error hy hb (by linarith)
  have hr2 := hr.rel h1 (by linarith)
  obtain ⟨r, e1, d, h2⟩ := hL.pow y b' hy hd hd' ((two_zpow_le (by norm_num)).trans hr2.1)
    (hr2.2.trans (two_zpow_le (by norm_num)))
  have h3 : Rel (2 * ur) (y ^ b') r := by
    unfold Rel
    rwa [abs_of_pos hr2.pos]
  have hu1 : ur ≤ 1 / 64 := by rw [ur_val]; norm_num
  have h4 : Rel (3 * ur * m) (y ^ b) r := by
    refine (h1.trans h3 (by linarith)).mono ?_
    have h5 : 2 * ur * (|b| * |Real.log y|) * (2 * ur) ≤ 2 * (ur * m) * (1 / 32) :=
      mul_le_mul (by linarith) (by linarith) (by linarith) (by linarith [mul_nonneg hu.le hs0])
    have h6 : 2 * ur * (|b| * |Real.log y|) + 2 * ur = 2 * (ur * (1 + |b| * |Real.log y|)) := by ring
    have h7 : ur * (1 + |b| * |Real.log y|) ≤ ur * m := mul_le_mul_of_nonneg_left hm hu.le
    have h8 : 0 ≤ ur * m := by linarith [mul_nonneg hu.le (by linarith : 0 ≤ 1 + |b| * |Real.log y|)]
    linarith
  refine ⟨r, e1, d, h4, ?_⟩
  have := (hr.rel h4 (by linarith))
  rw [abs_of_pos this.pos]
  exact this.2.trans (two_zpow_le (by norm_num))

/-- The product of power and normalisation. -/
theorem finish_powerlaw {L : MathLib} (hL : AccurateMath L) {x a n0 n' e : ℝ} (hx : 0 < x)
    (hd : IsDouble x) (hda : IsDouble a) (hr : InR (-400) 400 (x ^ a)) (hn0 : InR (-500) 500 n0)
    (hn : Rel (20 * e) n0 n') (hue : ur ≤ e) (he : 64 * e ≤ 1) :
    ∃ p, toDouble (L.pow (fin x) (fin a) * fin n') = fin p ∧ |p - x ^ a * n0| ≤ 25 * e * (x ^ a * n0) := by
  have hu := ur_pos
  obtain ⟨r, e1, d, h2⟩ := hL.pow x a hx hd hda ((two_zpow_le (by norm_num)).trans hr.1)
    (hr.2.trans (two_zpow_le (by norm_num)))
  have h3 : Rel (2 * ur) (x ^ a) r := by
    unfold Rel
    rwa [abs_of_pos hr.pos]
  have hu1 : ur ≤ 1 / 1000 := by rw [ur_val]; norm_num
  have h4 : Rel (23 * e) (x ^ a * n0) (r * n') := by
    refine (h3.mul hn (by linarith)).mono ?_
    have : 2 * ur * (20 * e) ≤ 1 / 500 * (20 * e) := mul_le_mul_of_nonneg_right (by linarith) (by linarith)
    linarith
  have hR := (hr.mul hn0)
  have hR2 := hR.rel h4 (by linarith)
  obtain ⟨t1, t2⟩ := rel_toDouble (x := r * n')
    (by rw [abs_of_pos hR2.pos]; exact (two_zpow_le (by norm_num)).trans hR2.1)
    (by rw [abs_of_pos hR2.pos]; exact hR2.2.trans (two_zpow_le (by norm_num)))
  refine ⟨round53 (r * n'), ?_, ?_⟩
  · rw [e1, fin_mul]
    exact t1
  · have h5 : Rel (25 * e) (x ^ a * n0) (round53 (r * n')) := by
      refine (h4.trans t2 hu.le).mono ?_
      have : 23 * e * ur ≤ 23 * e * (1 / 1000) := mul_le_mul_of_nonneg_left hu1 (by linarith)
      linarith
    unfold Rel at h5
    rwa [abs_of_pos hR.pos] at h5

theorem pyPowD_fin {L : MathLib} {py : Bool} {a b r : ℝ} (ha : 0 < a) (h : L.pow (fin a) (fin b) = fin r) :
    pyPowD L py (fin a) (fin b) = .ok (fin r) := by
  unfold pyPowD
  rw [if_neg (by rintro ⟨-, h1, -⟩; exact ha.ne' (by simpa using h1)), h,
    if_neg (by rintro ⟨-, h1, -⟩; cases h1)]

theorem one_div_le_amplification {a lo hi : ℝ} (h : 1 < hi / lo) :
    1 ≤ amplification a lo hi := by
  have hl := Real.log_pos h
  unfold amplification
  split_ifs with ha
  · have : 0 < 1 / Real.log (hi / lo) := by positivity
    linarith
  · have h1 : 1 ≤ 1 + |1 + a| * (|Real.log hi| + |Real.log lo|) := by
      have : 0 ≤ |1 + a| * (|Real.log hi| + |Real.log lo|) := by positivity
      linarith
    have h2 : 1 ≤ 1 + 1 / (|1 + a| * Real.log (hi / lo)) := by
      have : 0 ≤ 1 / (|1 + a| * Real.log (hi / lo)) := by positivity
      linarith
    nlinarith

/-- **C90, what holds.** In double precision, with a library correct to one unit in the last place, the
power law differs from the normalised density by a relative error of at most `25 * 2^-53` times the
amplification, provided that this is not too large. -/
theorem C90_error_partial {L : MathLib} (hL : AccurateMath L) (py : Bool) {x a lo hi : ℝ}
    (h : PowerlawArgs x a lo hi) (hk : 64 * ur * amplification a lo hi ≤ 1) :
    ∃ p, powerlawBodyD L py (fin x) (fin a) (fin hi) (fin lo) = .ok (fin p) ∧
      |p - normalised (fun t => t ^ a) lo hi x| ≤
        25 * ur * amplification a lo hi * normalised (fun t => t ^ a) lo hi x := by
  obtain ⟨h0, hlt, hlx, hxh, ⟨dx, da, dlo, dhi⟩, hidx, hrange⟩ := h
  have r1 : InR (-400) 400 lo := hrange lo (by simp)
  have r2 : InR (-400) 400 hi := hrange hi (by simp)
  have r3 : InR (-400) 400 (x ^ a) := hrange _ (by simp)
  have r4 : InR (-400) 400 (lo ^ (1 + a)) := hrange _ (by simp)
  have r5 : InR (-400) 400 (hi ^ (1 + a)) := hrange _ (by simp)
  have hhi := h0.trans hlt
  have hx := lt_of_lt_of_le h0 hlx
  have hu := ur_pos
  have hu1 : ur ≤ 1 / 1000 := by rw [ur_val]; norm_num
  have hr : 1 < hi / lo := (one_lt_div h0).2 hlt
  have hl := Real.log_pos hr
  set κ := amplification a lo hi with hκ
  have hκ1 : 1 ≤ κ := one_div_le_amplification hr
  have hue : ur ≤ ur * κ := le_mul_of_one_le_right hu.le hκ1
  have hk' : 64 * (ur * κ) ≤ 1 := by linarith
  have hκ2 : κ ≤ 2 ^ (47 : ℤ) := by
    have : κ = (64 * ur * κ) / (64 * ur) := by field_simp
    rw [this, div_le_iff₀ (by linarith)]
    refine hk.trans ?_
    rw [ur_val]; norm_num
  -- the ratio
  have rr := r2.div r1
  obtain ⟨t1, t2⟩ := rel_toDouble (x := hi / lo)
    (by rw [abs_of_pos rr.pos]; exact (two_zpow_le (by norm_num)).trans rr.1)
    (by rw [abs_of_pos rr.pos]; exact rr.2.trans (two_zpow_le (by norm_num)))
  have e1 : pyDiv py (fin hi) (fin lo) = .ok (fin (hi / lo)) := by
    simp [pyDiv, fin_div h0.ne', h0.ne']
  -- the index
  have hidx2 : |1 + a| ≤ 2 ^ 21 := by
    have := abs_add_le 1 a
    rw [abs_one] at this
    have : (1 : ℝ) + 2 ^ 20 ≤ 2 ^ 21 := by norm_num
    linarith
  have t3 : toDouble (1 + fin a) = fin (round53 (1 + a)) := by
    rw [one_eq, fin_add]
    refine fl64_of_le (hidx2.trans ?_)
    calc (2 : ℝ) ^ 21 = 2 ^ (21 : ℤ) := by norm_num
      _ ≤ _ := two_zpow_le (by norm_num)
  have hb : Rel ur (1 + a) (round53 (1 + a)) :=
    round53_add (x := 1) ⟨1, 0, by norm_num, by norm_num, by norm_num⟩ da
  have hnorm : normalised (fun t => t ^ a) lo hi x = x ^ a * (∫ t in lo..hi, t ^ a)⁻¹ := by
    unfold normalised
    rw [if_pos ⟨hlx, hxh⟩, div_eq_mul_inv]
  have hind : ind (fin x ≤ fin hi ∧ fin lo ≤ fin x) = 1 := by
    rw [ind, if_pos ⟨by simpa using hxh, by simpa using hlx⟩, one_eq]
  -- reduce to the normalisation
  suffices hmain : ∃ ph pl n', pyPowD L py (fin hi) (fin (round53 (1 + a))) = .ok ph ∧
      pyPowD L py (fin lo) (fin (round53 (1 + a))) = .ok pl ∧
      (if eqf (fin a) (-1) then toDouble (1 / L.log (fin (round53 (hi / lo))))
        else toDouble (fin (round53 (1 + a)) / toDouble (ph - pl))) = fin n' ∧
      InR (-500) 500 (∫ t in lo..hi, t ^ a)⁻¹ ∧ Rel (20 * (ur * κ)) (∫ t in lo..hi, t ^ a)⁻¹ n' by
    obtain ⟨ph, pl, n', g1, g2, g3, g4, g5⟩ := hmain
    obtain ⟨p, g6, g7⟩ := finish_powerlaw hL hx dx da r3 g4 g5 hue hk'
    refine ⟨p, ?_, ?_⟩
    · unfold powerlawBodyD
      simp only [e1, ok_bind, t1, t3, g1, g2, pure_eq_ok, g3, g6, hind]
      rw [mul_one]
    · rw [hnorm]
      calc |p - _| ≤ 25 * (ur * κ) * _ := g7
        _ = _ := by ring
  by_cases ha : a = -1
  · -- spectral index -1
    have hκe : κ = 1 + 1 / Real.log (hi / lo) := by rw [hκ, amplification, if_pos ha]
    have hb0 : round53 (1 + a) = 0 := by rw [ha]; norm_num [round53_zero]
    have d0 : IsDouble 0 := isDouble_zero
    obtain ⟨ph, p1, -, -⟩ := hL.pow hi 0 hhi dhi d0 (by
      rw [Real.rpow_zero]
      calc (2 : ℝ) ^ (-1000 : ℤ) ≤ 2 ^ (0 : ℤ) := two_zpow_le (by norm_num)
        _ = 1 := by norm_num) (by
      rw [Real.rpow_zero]
      calc (1 : ℝ) = 2 ^ (0 : ℤ) := by norm_num
        _ ≤ _ := two_zpow_le (by norm_num))
    obtain ⟨pl, p2, -, -⟩ := hL.pow lo 0 h0 dlo d0 (by
      rw [Real.rpow_zero]
      calc (2 : ℝ) ^ (-1000 : ℤ) ≤ 2 ^ (0 : ℤ) := two_zpow_le (by norm_num)
        _ = 1 := by norm_num) (by
      rw [Real.rpow_zero]
      calc (1 : ℝ) = 2 ^ (0 : ℤ) := by norm_num
        _ ≤ _ := two_zpow_le (by norm_num))
    have rr2 := rr.rel t2 (by linarith)
    have hnear : Near 1 (hi / lo) (round53 (hi / lo)) := by
      refine near_of_error rr.pos.le ?_
      have := t2
      unfold Rel at this
      rwa [abs_of_pos rr.pos] at this
    obtain ⟨lg, p3, p4, p5⟩ := hL.log (round53 (hi / lo)) ((two_zpow_le (by norm_num)).trans rr2.1)
      (rr2.2.trans (two_zpow_le (by norm_num))) (round53_isDouble _)
    have hlog := hnear.log rr.pos
    set l := Real.log (hi / lo) with hldef
    set l' := Real.log (round53 (hi / lo)) with hl'
    have q1 : Rel (3 * (ur * κ)) l lg := by
      unfold Rel
      have a1 : |l'| ≤ l + 2 * ur := by
        have := abs_add_le (l' - l) l
        rw [sub_add_cancel, abs_of_pos hl] at this
        push_cast at hlog
        linarith
      have a2 := abs_sub_le lg l' l
      have a3 : 2 * ur * |l'| ≤ 2 * ur * (l + 2 * ur) := mul_le_mul_of_nonneg_left a1 (by linarith)
      have a4 : 3 * (ur * κ) * |l| = 3 * ur * l + 3 * ur := by
        rw [abs_of_pos hl, hκe]; field_simp
      have a5 : 2 * ur * (2 * ur) ≤ 2 * ur * (1 / 500) := mul_le_mul_of_nonneg_left (by linarith) (by linarith)
      have a6 : 0 < ur * l := mul_pos hu hl
      push_cast at hlog
      rw [a4]
      linarith
    have q2 := q1.inv (by linarith) hl.ne'
    have rl : InR (-47) 10 l := by
      constructor
      · have : 1 / l ≤ 2 ^ (47 : ℤ) := by linarith
        rw [div_le_iff₀ hl] at this
        rw [zpow_neg, inv_le_iff_one_le_mul₀ (by positivity)]
        linarith
      · have := abs_log_le ((two_zpow_le (show (-999 : ℤ) ≤ -400 - 400 by norm_num)).trans rr.1)
          (rr.2.trans (two_zpow_le (by norm_num)))
        rw [abs_of_pos hl] at this
        refine this.trans ?_
        norm_num
    have rli := rl.inv
    have rlg := rli.rel q2 (by linarith)
    obtain ⟨s1, s2⟩ := rel_toDouble (x := lg⁻¹)
      (by rw [abs_of_pos rlg.pos]; exact (two_zpow_le (by norm_num)).trans rlg.1)
      (by rw [abs_of_pos rlg.pos]; exact rlg.2.trans (two_zpow_le (by norm_num)))
    have hI : (∫ t in lo..hi, t ^ a)⁻¹ = l⁻¹ := by
      rw [ha, integral_rpow_neg_one h0 hlt.le]
    refine ⟨fin ph, fin pl, round53 lg⁻¹, ?_, ?_, ?_, ?_, ?_⟩
    · rw [hb0]; exact pyPowD_fin hhi p1
    · rw [hb0]; exact pyPowD_fin h0 p2
    · rw [if_pos (by rw [ha]; simp), p3, one_eq,
        fin_div (fun hz => rlg.pos.ne' (by rw [hz, inv_zero])), one_div, s1]
    · rw [hI]; exact rli.mono (by norm_num) (by norm_num)
    · rw [hI]
      refine (q2.trans s2 hu.le).mono ?_
      have : 2 * (3 * (ur * κ)) * ur ≤ 2 * (3 * (ur * κ)) * (1 / 1000) :=
        mul_le_mul_of_nonneg_left hu1 (by linarith)
      linarith
  · -- any other spectral index
    set m := 1 + |1 + a| * (|Real.log hi| + |Real.log lo|) with hm
    set b := 1 + a with hbdef
    have hb0 : b ≠ 0 := fun hz => ha (by linarith)
    have hbp := abs_pos.2 hb0
    set t := |b| * Real.log (hi / lo) with htdef
    have ht : 0 < t := mul_pos hbp hl
    have hκe : κ = m * (1 + 1 / t) := by rw [hκ, amplification, if_neg ha]
    have hm1 : 1 ≤ m := by
      have : 0 ≤ |b| * (|Real.log hi| + |Real.log lo|) := by positivity
      linarith
    have ht1 : 1 ≤ 1 + 1 / t := by
      have : 0 < 1 / t := by positivity
      linarith
    have hmκ : m ≤ κ := by rw [hκe]; exact le_mul_of_one_le_right (by linarith) ht1
    have htκ : 1 + 1 / t ≤ κ := by rw [hκe]; exact le_mul_of_one_le_left (by linarith) hm1
    have hm64 : 64 * ur * m ≤ 1 := by
      have : 64 * ur * m ≤ 64 * ur * κ := mul_le_mul_of_nonneg_left hmκ (by linarith)
      linarith
    obtain ⟨ph, p1, d1, p3, p4⟩ := pow_index hL (m := m) hhi dhi hb (round53_isDouble _) r5
      (by
        rw [hm, mul_add]
        have : 0 ≤ |b| * |Real.log lo| := by positivity
        linarith) hm64
    obtain ⟨pl, q1, d2, q3, q4⟩ := pow_index hL (m := m) h0 dlo hb (round53_isDouble _) r4
      (by
        rw [hm, mul_add]
        have : 0 ≤ |b| * |Real.log hi| := by positivity
        linarith) hm64
    have hlog : Real.log (hi / lo) = Real.log hi - Real.log lo := Real.log_div hhi.ne' h0.ne'
    have h3u : 0 ≤ 3 * ur * m := by positivity
    -- the difference of the two powers
    have hdiff : (2 : ℝ) ^ (-400 : ℤ) ≤ κ * |hi ^ b - lo ^ b| ∧
        Rel (6 * (ur * κ)) (hi ^ b - lo ^ b) (ph - pl) ∧ 0 < b / (hi ^ b - lo ^ b) := by
      have h6 : 2 * (3 * ur * m) * (1 + 1 / t) = 6 * (ur * κ) := by rw [hκe]; ring
      rcases lt_or_gt_of_ne hb0 with hneg | hpos
      · have hA : lo ^ b = hi ^ b * Real.exp t := by
          rw [Real.rpow_def_of_pos h0, Real.rpow_def_of_pos hhi, ← Real.exp_add, htdef, hlog,
            abs_of_neg hneg]
          ring_nf
        obtain ⟨k1, k2⟩ := difference_error r5.pos ht hA q3 p3 h3u
        rw [h6] at k2
        have hd : 0 < lo ^ b - hi ^ b := by
          have : 0 < (1 + 1 / t) * (lo ^ b - hi ^ b) := lt_of_lt_of_le r4.pos k1
          exact (pos_iff_pos_of_mul_pos this).1 (by linarith)
        refine ⟨?_, ?_, ?_⟩
        · rw [abs_sub_comm, abs_of_pos hd]
          refine (r4.1.trans k1).trans ?_
          exact mul_le_mul_of_nonneg_right htκ hd.le
        · unfold Rel at *
          rw [abs_sub_comm (hi ^ b) (lo ^ b),
            show ph - pl - (hi ^ b - lo ^ b) = -(pl - ph - (lo ^ b - hi ^ b)) by ring, abs_neg]
          exact k2
        · exact div_pos_of_neg_of_neg hneg (by linarith)
      · have hA : hi ^ b = lo ^ b * Real.exp t := by
          rw [Real.rpow_def_of_pos h0, Real.rpow_def_of_pos hhi, ← Real.exp_add, htdef, hlog,
            abs_of_pos hpos]
          ring_nf
        obtain ⟨k1, k2⟩ := difference_error r4.pos ht hA p3 q3 h3u
        rw [h6] at k2
        have hd : 0 < hi ^ b - lo ^ b := by
          have : 0 < (1 + 1 / t) * (hi ^ b - lo ^ b) := lt_of_lt_of_le r5.pos k1
          exact (pos_iff_pos_of_mul_pos this).1 (by linarith)
        refine ⟨?_, k2, div_pos hpos hd⟩
        rw [abs_of_pos hd]
        refine (r5.1.trans k1).trans ?_
        exact mul_le_mul_of_nonneg_right htκ hd.le
    obtain ⟨k0, k1, k2⟩ := hdiff
    set D0 := hi ^ b - lo ^ b with hD0
    have hover : |ph - pl| ≤ 2 ^ (1023 : ℤ) := by
      have a1 := abs_sub ph pl
      have a2 : (2 : ℝ) ^ (403 : ℤ) = 2 * 2 ^ (402 : ℤ) := by
        rw [show (403 : ℤ) = 1 + 402 by norm_num, zpow_add₀ (by norm_num), zpow_one]
      have a3 := two_zpow_le (show (403 : ℤ) ≤ 1023 by norm_num)
      generalize (2 : ℝ) ^ (403 : ℤ) = B at *
      generalize (2 : ℝ) ^ (402 : ℤ) = C at *
      generalize (2 : ℝ) ^ (1023 : ℤ) = D at *
      linarith only [a1, a2, a3, p4, q4]
    have k3 : Rel (8 * (ur * κ)) D0 (round53 (ph - pl)) := by
      have : Rel ur (ph - pl) (round53 (ph - pl)) := by
        have := round53_add d1 d2.neg
        rwa [← sub_eq_add_neg] at this
      refine (k1.trans this hu.le).mono ?_
      have : 6 * (ur * κ) * ur ≤ 6 * (ur * κ) * (1 / 1000) := mul_le_mul_of_nonneg_left hu1 (by linarith)
      linarith
    have hD0ne : D0 ≠ 0 := by
      intro hz
      rw [hz, div_zero] at k2
      exact lt_irrefl _ k2
    have k4 : Rel (18 * (ur * κ)) (b / D0) (round53 b / round53 (ph - pl)) := by
      refine (hb.div k3 (by linarith) (by linarith) hD0ne).mono ?_
      have : ur * (2 * (8 * (ur * κ))) ≤ 1 / 1000 * (2 * (8 * (ur * κ))) :=
        mul_le_mul_of_nonneg_right hu1 (by linarith)
      linarith
    -- sizes
    have rb : InR (-53) 21 |b| := by
      constructor
      · have := isDouble_ne_one (x := -a) da.neg (fun hz => ha (by linarith))
        rw [show -a - 1 = -b by rw [hbdef]; ring, abs_neg] at this
        exact this
      · refine hidx2.trans ?_
        norm_num
    have rD : InR (-447) 401 |D0| := by
      constructor
      · have : (2 : ℝ) ^ (-447 : ℤ) = 2 ^ (-400 : ℤ) / 2 ^ (47 : ℤ) := by
          rw [← zpow_sub₀ (by norm_num)]; norm_num
        rw [this, div_le_iff₀ (by positivity), mul_comm]
        exact k0.trans (mul_le_mul_of_nonneg_right hκ2 (abs_nonneg _))
      · have a1 := abs_sub (hi ^ b) (lo ^ b)
        rw [abs_of_pos r4.pos, abs_of_pos r5.pos] at a1
        have a2 : (2 : ℝ) ^ (401 : ℤ) = 2 * 2 ^ (400 : ℤ) := by
          rw [show (401 : ℤ) = 1 + 400 by norm_num, zpow_add₀ (by norm_num), zpow_one]
        rw [a2]
        linarith [r4.2, r5.2]
    have rn : InR (-500) 500 (b / D0) := by
      rw [← abs_of_pos k2, abs_div]
      exact (rb.div rD).mono (by norm_num) (by norm_num)
    have rn2 := rn.rel k4 (by linarith)
    obtain ⟨s1, s2⟩ := rel_toDouble (x := round53 b / round53 (ph - pl))
      (by rw [abs_of_pos rn2.pos]; exact (two_zpow_le (by norm_num)).trans rn2.1)
      (by rw [abs_of_pos rn2.pos]; exact rn2.2.trans (two_zpow_le (by norm_num)))
    have hI : (∫ t in lo..hi, t ^ a)⁻¹ = b / D0 := by
      rw [integral_rpow_of_ne h0 hlt.le ha, inv_div]
    refine ⟨fin ph, fin pl, round53 (round53 b / round53 (ph - pl)), pyPowD_fin hhi p1,
      pyPowD_fin h0 q1, ?_, ?_, ?_⟩
    · rw [if_neg (by simpa using ha), fin_sub]
      rw [show toDouble (fin (ph - pl)) = fin (round53 (ph - pl)) from fl64_of_le hover,
        fin_div (k3.ne_zero (by linarith) hD0ne), s1]
    · rw [hI]; exact rn
    · rw [hI]
      refine (k4.trans s2 hu.le).mono ?_
      have : 18 * (ur * κ) * ur ≤ 18 * (ur * κ) * (1 / 1000) := mul_le_mul_of_nonneg_left hu1 (by linarith)
      linarith

/-- A correctly rounded library. -/
def roundedMath : MathLib where
  pow a b := toDouble (Fl.pow a b)
  log := fun
    | fin x => fl64 (Real.log x)
    | x => x

theorem roundedMath_accurate : AccurateMath roundedMath where
  pow x y hx _ _ h1 h2 := by
    have hp : 0 < x ^ y := lt_of_lt_of_le (by positivity) h1
    obtain ⟨t1, t2⟩ := rel_toDouble (x := x ^ y)
      (by rw [abs_of_pos hp]; exact (two_zpow_le (by norm_num)).trans h1)
      (by rw [abs_of_pos hp]; exact h2.trans (two_zpow_le (by norm_num)))
    refine ⟨round53 (x ^ y), ?_, round53_isDouble _, ?_⟩
    · show toDouble (Fl.pow (fin x) (fin y)) = _
      rw [pow_fin_pos hx, t1]
    · unfold Rel at t2
      rw [abs_of_pos hp] at t2
      have := mul_pos ur_pos hp
      linarith
  log := (sequential_accurate).log

theorem isDouble_int {n : ℤ} (h : |n| ≤ 2 ^ 53) : IsDouble n := ⟨n, 0, h, by norm_num, by simp⟩

theorem fl64_int {x : ℝ} {n : ℤ} (hx : x = n) (h : |n| ≤ 2 ^ 53) : fl64 x = fin x := by
  rw [hx, fl64_of_le, round53_of_isDouble (isDouble_int h)]
  have h1 : |(n : ℝ)| ≤ 2 ^ (53 : ℤ) := by exact_mod_cast h
  exact h1.trans (two_zpow_le (by norm_num))

/-- **C90.** The power law in double precision: for arguments that cause no overflow or underflow, and a
library correct to one unit in the last place, the returned density is within one percent of the
normalised one. The code does not satisfy this. -/
def C90_statement : Prop :=
  ∀ (L : MathLib), AccurateMath L → ∀ (py : Bool) (x a lo hi : ℝ), PowerlawArgs x a lo hi →
    ∃ p, powerlawBodyD L py (fin x) (fin a) (fin hi) (fin lo) = .ok (fin p) ∧
      |p - normalised (fun t => t ^ a) lo hi x| ≤ normalised (fun t => t ^ a) lo hi x / 100

/-- The distance of -1 from the next double. -/
def tiny : ℝ := 2 ^ (-53 : ℤ)

theorem tiny_pos : 0 < tiny := by unfold tiny; positivity

theorem tiny_le : tiny ≤ 1 / 100 := by unfold tiny; norm_num

/-- The double next to -1. -/
def nearMinusOne : ℝ := -1 + 2 ^ (-53 : ℤ)

theorem nearMinusOne_isDouble : IsDouble nearMinusOne :=
  ⟨-(2 ^ 53 - 1), -53, by norm_num, by norm_num, by unfold nearMinusOne; norm_num⟩

/-- `2` to the power `2^-53` lies closer to 1 than to the next double. -/
theorem two_pow_small : 1 ≤ (2 : ℝ) ^ tiny ∧
    (2 : ℝ) ^ tiny < 1 + tiny := by
  have hd0 : 0 < tiny := tiny_pos
  have hd1 := tiny_le
  refine ⟨Real.one_le_rpow (by norm_num) hd0.le, ?_⟩
  -- `2^d < 1 + d` for exponents `d` between 0 and 1
  have h := rpow_one_add_lt_one_add_mul_self (s := 1) (p := tiny) (by norm_num) (by norm_num) hd0
    (by linarith)
  rw [one_add_one_eq_two, mul_one] at h
  exact h

theorem pow_near : roundedMath.pow (fin 2) (fin tiny) = fin 1 := by
  show toDouble (Fl.pow (fin 2) (fin tiny)) = _
  rw [pow_fin_pos (by norm_num)]
  obtain ⟨h1, h2⟩ := two_pow_small
  refine fl64_small (e := 0) (n := 2 ^ 52) (by simpa using h1) ?_ (by norm_num) ?_ ?_ ?_
  · refine h2.trans ?_
    have := tiny_le
    norm_num
    linarith
  · have := tiny_le
    linarith
  · refine roundEven_near ?_
    rw [show ((0 : ℤ) - 52) = -52 by norm_num]
    have e : (2 : ℝ) ^ tiny / 2 ^ (-52 : ℤ) - ((2 ^ 52 : ℤ) : ℝ) =
        ((2 : ℝ) ^ tiny - 1) * 2 ^ (52 : ℤ) := by
      generalize (2 : ℝ) ^ tiny = z
      norm_num
      ring
    rw [e, abs_of_nonneg (by
      apply mul_nonneg
      · linarith
      · positivity)]
    have h3 : (2 : ℝ) ^ tiny - 1 < tiny := by linarith
    calc _ < tiny * 2 ^ (52 : ℤ) := mul_lt_mul_of_pos_right h3 (by positivity)
      _ = 1 / 2 := by unfold tiny; norm_num
  · norm_num

theorem one_powD (y : ℝ) : roundedMath.pow (fin 1) (fin y) = fin 1 := by
  show toDouble (Fl.pow (fin 1) (fin y)) = _
  rw [pow_fin_pos (by norm_num), Real.one_rpow]
  exact fl64_int (n := 1) (by norm_num) (by norm_num)

theorem nearArgs : PowerlawArgs 1 nearMinusOne 1 2 where
  pos := by norm_num
  lt := by norm_num
  low := le_rfl
  high := by norm_num
  isDouble := ⟨by exact_mod_cast isDouble_int (n := 1) (by norm_num), nearMinusOne_isDouble,
    by exact_mod_cast isDouble_int (n := 1) (by norm_num),
    by exact_mod_cast isDouble_int (n := 2) (by norm_num)⟩
  index := by unfold nearMinusOne; norm_num [abs_le]
  range := by
    have e : 1 + nearMinusOne = tiny := by unfold nearMinusOne tiny; ring
    obtain ⟨h1, h2⟩ := two_pow_small
    rw [e]
    have g : ∀ y : ℝ, 1 ≤ y → y ≤ 2 → (2 : ℝ) ^ (-400 : ℤ) ≤ y ∧ y ≤ 2 ^ (400 : ℤ) := by
      intro y h1 h2
      constructor
      · refine le_trans ?_ h1
        calc (2 : ℝ) ^ (-400 : ℤ) ≤ 2 ^ (0 : ℤ) := two_zpow_le (by norm_num)
          _ = 1 := by norm_num
      · refine h2.trans ?_
        calc (2 : ℝ) = 2 ^ (1 : ℤ) := by norm_num
          _ ≤ _ := two_zpow_le (by norm_num)
    simp only [List.forall_mem_cons, Real.one_rpow]
    refine ⟨g 1 le_rfl (by norm_num), g 2 (by norm_num) le_rfl, g 1 le_rfl (by norm_num),
      g 1 le_rfl (by norm_num), g _ h1 (by linarith [tiny_le]), by simp⟩

/-- **C90, infinite density.** With correctly rounded powers, at the double next to -1 the difference of
the two powers rounds to zero, and the density is infinite where the true one is about 1.44. -/
theorem C90_infinite (py : Bool) :
    powerlawBodyD roundedMath py (fin 1) (fin nearMinusOne) (fin 2) (fin 1) = .ok pinf := by
  have e : 1 + nearMinusOne = tiny := by unfold nearMinusOne tiny; ring
  have e1 : pyDiv py (fin 2) (fin 1) = .ok (fin 2) := by simp [pyDiv, fin_div]
  have e2 : toDouble (1 + fin nearMinusOne) = fin tiny := by
    rw [one_eq, fin_add, e]
    exact fl64_exact (m := 1) (k := -53) (by norm_num) (by norm_num)
      (by unfold tiny; norm_num) (by unfold tiny; norm_num)
  have e3 := pyPowD_fin (py := py) (by norm_num) pow_near
  have e4 := pyPowD_fin (py := py) (by norm_num) (one_powD tiny)
  have e5 : ¬ eqf (fin nearMinusOne) (-1) := by
    simp only [one_eq, fin_neg, eqf_fin]
    unfold nearMinusOne
    norm_num
  have e6 : toDouble (fin 1 - fin 1) = fin 0 := by
    rw [fin_sub, sub_self]
    exact fl64_zero
  unfold powerlawBodyD
  simp only [e1, ok_bind, e2, e3, e4, if_neg e5, e6, one_powD, pure_eq_ok]
  rw [fin_div_zero, signInf_pos tiny_pos]
  have e7 : ind (fin 1 ≤ fin 2 ∧ fin 1 ≤ fin (1 : ℝ)) = fin 1 := by
    rw [ind, if_pos ⟨by simp, by simp⟩]
  rw [e7]
  have e8 : toDouble pinf = pinf := rfl
  rw [e8, fin_mul_pinf, signInf_pos (by norm_num), e8, pinf_mul_of_pos (by norm_num)]

theorem C90_fails : ¬ C90_statement := by
  intro h
  obtain ⟨p, h1, -⟩ := h roundedMath roundedMath_accurate false 1 nearMinusOne 1 2 nearArgs
  rw [C90_infinite] at h1
  cases h1

/-- **C90, usual parameters.** For a spectral index of size at most 20 that is -1 or at least `2^-10` away
from it, a lower limit of at least 1 and an upper limit between twice the lower one and 256, the relative
error is below `10^-8`. -/
theorem C90_usual_partial {L : MathLib} (hL : AccurateMath L) (py : Bool) {x a lo hi : ℝ}
    (hd : IsDouble x ∧ IsDouble a ∧ IsDouble lo ∧ IsDouble hi) (ha : |a| ≤ 20)
    (ha1 : a = -1 ∨ 1 / 1024 ≤ |1 + a|) (hlo : 1 ≤ lo) (hhi : 2 * lo ≤ hi) (hhi2 : hi ≤ 256)
    (hx1 : lo ≤ x) (hx2 : x ≤ hi) :
    ∃ p, powerlawBodyD L py (fin x) (fin a) (fin hi) (fin lo) = .ok (fin p) ∧
      |p - normalised (fun t => t ^ a) lo hi x| ≤ 1 / 10 ^ 8 * normalised (fun t => t ^ a) lo hi x := by
  have h2 : Real.log 2 ≤ 1 := (Real.log_le_sub_one_of_pos (by norm_num)).trans (by norm_num)
  have h2' : 1 / 2 ≤ Real.log 2 := by
    have := Real.one_sub_inv_le_log_of_pos (show (0 : ℝ) < 2 by norm_num)
    norm_num at this ⊢
    linarith
  have hlog : ∀ y : ℝ, 1 ≤ y → y ≤ 256 → 0 ≤ Real.log y ∧ Real.log y ≤ 8 := by
    intro y h1 h2
    refine ⟨Real.log_nonneg h1, ?_⟩
    have := Real.log_le_log (by linarith) h2
    rw [show (256 : ℝ) = 2 ^ 8 by norm_num, Real.log_pow] at this
    push_cast at this
    linarith
  have hb : |1 + a| ≤ 21 := by
    have := abs_add_le 1 a
    rw [abs_one] at this
    linarith
  have hpow : ∀ y b : ℝ, 1 ≤ y → y ≤ 256 → |b| ≤ 21 →
      (2 : ℝ) ^ (-400 : ℤ) ≤ y ^ b ∧ y ^ b ≤ 2 ^ (400 : ℤ) := by
    intro y b h1 h2 h3
    have hy : 0 < y := by linarith
    obtain ⟨g1, g2⟩ := hlog y h1 h2
    obtain ⟨b1, b2⟩ := _root_.abs_le.1 h3
    have g3 : Real.log y * b ≤ 200 := by nlinarith
    have g4 : -200 ≤ Real.log y * b := by nlinarith
    rw [Real.rpow_def_of_pos hy]
    have e : ∀ k : ℤ, (2 : ℝ) ^ k = Real.exp (k * Real.log 2) := by
      intro k
      rw [← Real.log_zpow, Real.exp_log (by positivity)]
    rw [e, e]
    constructor <;> apply Real.exp_le_exp.2 <;> push_cast <;> linarith
  have hlo0 : 0 < lo := by linarith
  have hlt : lo < hi := by linarith
  have hargs : PowerlawArgs x a lo hi := by
    refine ⟨hlo0, hlt, hx1, hx2, hd, ha.trans (by norm_num), ?_⟩
    have one : ∀ y : ℝ, 1 ≤ y → y ≤ 256 → (2 : ℝ) ^ (-400 : ℤ) ≤ y ∧ y ≤ 2 ^ (400 : ℤ) := by
      intro y h1 h2
      have := hpow y 1 h1 h2 (by norm_num)
      rwa [Real.rpow_one] at this
    simp only [List.forall_mem_cons]
    exact ⟨one lo hlo (by linarith), one hi (by linarith) hhi2,
      hpow x a (by linarith) (by linarith) (by linarith),
      hpow lo _ hlo (by linarith) hb, hpow hi _ (by linarith) hhi2 hb, by simp⟩
  have hl : 1 / 2 ≤ Real.log (hi / lo) := by
    refine h2'.trans (Real.log_le_log (by norm_num) ?_)
    rw [le_div_iff₀ hlo0]
    exact hhi
  have hk : amplification a lo hi ≤ 337 * 2049 := by
    unfold amplification
    split_ifs with h
    · have : 1 / Real.log (hi / lo) ≤ 2 := by
        rw [div_le_iff₀ (by linarith)]; linarith
      linarith
    · have ha2 := ha1.resolve_left h
      obtain ⟨g1, g2⟩ := hlog hi (by linarith) hhi2
      obtain ⟨g3, g4⟩ := hlog lo hlo (by linarith)
      rw [abs_of_nonneg g1, abs_of_nonneg g3]
      have k1 : |1 + a| * (Real.log hi + Real.log lo) ≤ 21 * 16 :=
        mul_le_mul hb (by linarith) (by linarith) (by norm_num)
      have k2 : 1 / (|1 + a| * Real.log (hi / lo)) ≤ 2048 := by
        have : 1 / 1024 * (1 / 2) ≤ |1 + a| * Real.log (hi / lo) :=
          mul_le_mul ha2 hl (by norm_num) (by positivity)
        rw [div_le_iff₀ (by linarith)]
        linarith
      refine mul_le_mul (by linarith) (by linarith) ?_ (by norm_num)
      have : 0 ≤ 1 / (|1 + a| * Real.log (hi / lo)) := by positivity
      linarith
  have hu := ur_pos
  obtain ⟨p, p1, p2⟩ := C90_error_partial hL py hargs (by
    have := mul_le_mul_of_nonneg_left hk (by linarith : 0 ≤ 64 * ur)
    refine this.trans ?_
    rw [ur_val]; norm_num)
  refine ⟨p, p1, p2.trans ?_⟩
  refine mul_le_mul_of_nonneg_right ?_ ?_
  · refine (mul_le_mul_of_nonneg_left hk (by linarith)).trans ?_
    rw [ur_val]; norm_num
  · unfold normalised
    rw [if_pos ⟨hx1, hx2⟩]
    exact div_nonneg (Real.rpow_nonneg (by linarith) _) (integral_rpow_pos hlo0 hlt).le

/-- The usual primary masses: index -2.5 between 5 and 80, evaluated at 30. -/
example (py : Bool) : ∃ p, powerlawBodyD roundedMath py (fin 30) (fin (-2.5)) (fin 80) (fin 5) = .ok (fin p) ∧
    |p - normalised (fun t => t ^ (-2.5 : ℝ)) 5 80 30| ≤
      1 / 10 ^ 8 * normalised (fun t => t ^ (-2.5 : ℝ)) 5 80 30 :=
  C90_usual_partial roundedMath_accurate py
    ⟨by exact_mod_cast isDouble_int (n := 30) (by norm_num),
      ⟨-5, -1, by norm_num, by norm_num, by norm_num⟩,
      by exact_mod_cast isDouble_int (n := 5) (by norm_num),
      by exact_mod_cast isDouble_int (n := 80) (by norm_num)⟩
    (by norm_num [abs_le]) (.inr (by norm_num [abs_of_neg])) (by norm_num) (by norm_num) (by norm_num)
    (by norm_num) (by norm_num)

/-- The counterexample is within the range of the arguments; only its amplification is too large. -/
example : PowerlawArgs 1 nearMinusOne 1 2 := nearArgs

theorem fl64_overflow {x : ℝ} (h : (2 : ℝ) ^ (1024 : ℤ) ≤ x) : fl64 x = pinf := by
  have hx : 0 < x := lt_of_lt_of_le (by positivity) h
  have hlog : 1024 ≤ Int.log 2 |x| := by
    rw [abs_of_pos hx]
    exact (Int.zpow_le_iff_le_log (b := 2) (by norm_num) hx).1 (by exact_mod_cast h)
  have hulp : ulpExp x = Int.log 2 |x| - 52 := by
    unfold ulpExp
    exact max_eq_left (by omega)
  have hle : (2 : ℝ) ^ Int.log 2 |x| ≤ x := by
    have := Int.zpow_log_le_self (b := 2) (r := |x|) (by norm_num) (by rwa [abs_of_pos hx])
    rw [abs_of_pos hx] at this ⊢
    exact_mod_cast this
  have hr : (2 : ℝ) ^ (1024 : ℤ) ≤ round53 x := by
    unfold round53
    rw [hulp]
    have e52 : ((2 ^ 52 : ℤ) : ℝ) * 2 ^ (Int.log 2 |x| - 52) = 2 ^ Int.log 2 |x| := by
      have : ((2 ^ 52 : ℤ) : ℝ) = 2 ^ (52 : ℤ) := by norm_num
      rw [this, ← zpow_add₀ (by norm_num)]
      congr 1
      ring
    have h1 : ((2 ^ 52 : ℤ) : ℝ) ≤ x / 2 ^ (Int.log 2 |x| - 52) := by
      rw [le_div_iff₀ (by positivity)]
      refine le_trans (le_of_eq ?_) hle
      exact e52
    have h2 : ((2 ^ 52 : ℤ) : ℝ) ≤ (roundEven (x / 2 ^ (Int.log 2 |x| - 52)) : ℝ) := by
      exact_mod_cast le_roundEven h1
    calc (2 : ℝ) ^ (1024 : ℤ) ≤ 2 ^ Int.log 2 |x| := two_zpow_le hlog
      _ = ((2 ^ 52 : ℤ) : ℝ) * 2 ^ (Int.log 2 |x| - 52) := by
        exact e52.symm
      _ ≤ _ := mul_le_mul_of_nonneg_right h2 (by positivity)
  have hbig : bigR < (2 : ℝ) ^ (1024 : ℤ) := by
    rw [bigR_eq, show (1024 : ℤ) = 53 + 971 by norm_num, zpow_add₀ (by norm_num)]
    apply mul_lt_mul_of_pos_right _ (by positivity)
    norm_num
  unfold fl64
  rw [if_pos (lt_of_lt_of_le hbig hr)]

theorem pow_overflow {y : ℝ} (h : 171 ≤ y) : roundedMath.pow (fin 100) (fin y) = pinf := by
  show toDouble (Fl.pow (fin 100) (fin y)) = _
  rw [pow_fin_pos (by norm_num)]
  refine fl64_overflow ?_
  calc (2 : ℝ) ^ (1024 : ℤ) ≤ 2 ^ (1026 : ℤ) := two_zpow_le (by norm_num)
    _ = (64 : ℝ) ^ (171 : ℝ) := by
      rw [show (64 : ℝ) = 2 ^ (6 : ℝ) by norm_num, ← Real.rpow_mul (by norm_num), ← Real.rpow_intCast]
      norm_num
    _ ≤ 100 ^ (171 : ℝ) := Real.rpow_le_rpow (by norm_num) (by norm_num) (by norm_num)
    _ ≤ _ := Real.rpow_le_rpow_of_exponent_le (by norm_num) h

/-- **C90, overflow.** Where the powers overflow, numpy returns NaN for a density of about 2, and Python
floats raise `OverflowError`: with index 200 between 1 and 100, at 100. -/
theorem C90_overflow :
    powerlawBodyD roundedMath false (fin 100) (fin 200) (fin 100) (fin 1) = .ok nan ∧
    powerlawBodyD roundedMath true (fin 100) (fin 200) (fin 100) (fin 1) = .error .overflowError := by
  have e1 : ∀ py, pyDiv py (fin 100) (fin 1) = .ok (fin 100) := by intro py; simp [pyDiv, fin_div]
  have e2 : toDouble (1 + fin 200) = fin 201 := by
    rw [one_eq, fin_add, show (1 + 200 : ℝ) = 201 by norm_num]
    exact fl64_int (n := 201) (by norm_num) (by norm_num)
  have e3 := pow_overflow (y := 201) (by norm_num)
  have e4 := pow_overflow (y := 200) (by norm_num)
  have e5 : ¬ eqf (fin 200) (-1) := by
    simp only [one_eq, fin_neg, eqf_fin]
    norm_num
  have e6 : pyPowD roundedMath false (fin 100) (fin 201) = .ok pinf := by
    unfold pyPowD
    rw [if_neg (by rintro ⟨h, -⟩; cases h), if_neg (by rintro ⟨h, -⟩; cases h), e3]
  have e7 : pyPowD roundedMath true (fin 100) (fin 201) = .error .overflowError := by
    unfold pyPowD
    rw [if_neg (by rintro ⟨-, h1, -⟩; rw [zero_eq, eqf_fin] at h1; norm_num at h1), if_pos ⟨rfl, e3, by simp, by simp, by simp⟩]
  have e8 : pyPowD roundedMath false (fin 1) (fin 201) = .ok (fin 1) :=
    pyPowD_fin (by norm_num) (one_powD _)
  have e9 : toDouble (fin 0) = fin 0 := fl64_zero
  constructor
  · unfold powerlawBodyD
    simp only [e1, ok_bind, e2, e6, e8, if_neg e5, e4, pure_eq_ok]
    have : toDouble (pinf - fin 1) = pinf := rfl
    rw [this, fin_div_pinf, e9]
    have : pinf * fin 0 = nan := by simp [pinf_mul_fin]
    rw [this]
    rfl
  · unfold powerlawBodyD
    simp only [e1, ok_bind, e2, e7]
    rfl

end GW
