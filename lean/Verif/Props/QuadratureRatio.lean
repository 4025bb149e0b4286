import Verif.Props.Quadrature

/-!
# C85: the smoothed mass models in the limit of fine grids

The mass-ratio density and the whole model.
-/

noncomputable section

open Classical Set Filter Topology MeasureTheory

namespace GW

open Fl Spec

/-! ### Linear interpolation between grid points -/

theorem filter_le_count {xs : List ℝ} (hs : xs.Pairwise (· < ·)) (m : ℝ) {j : ℕ}
    (hj : j < xs.length) : xs[j] ≤ m ↔ j < (xs.filter (fun x => x ≤ m)).length := by
  induction xs generalizing j with
  | nil => simp at hj
  | cons x xs ih =>
    obtain ⟨h1, h2⟩ := List.pairwise_cons.1 hs
    by_cases hx : x ≤ m
    · rw [List.filter_cons_of_pos (by simpa using hx), List.length_cons]
      cases j with
      | zero => simp [hx]
      | succ j =>
        have hj' : j < xs.length := by simpa using hj
        rw [List.getElem_cons_succ, ih h2 hj']
        omega
    · have hnil : (x :: xs).filter (fun y => decide (y ≤ m)) = [] := by
        rw [List.filter_eq_nil_iff]
        intro y hy
        rcases List.mem_cons.1 hy with rfl | hy
        · simpa using hx
        · have := h1 y hy
          simp only [decide_eq_true_eq, not_le] at hx ⊢
          linarith
      rw [hnil]
      simp only [List.length_nil, Nat.not_lt_zero, iff_false, not_le]
      cases j with
      | zero => simpa using hx
      | succ j =>
        have hj' : j < xs.length := by simpa using hj
        rw [List.getElem_cons_succ]
        have := h1 _ (List.getElem_mem hj')
        simp only [not_le] at hx
        linarith

/-- On a regular grid the interpolant is a convex combination of the values at two grid points
that enclose the point and are one cell apart. -/
theorem interpLinear_cell {a b : ℝ} (hab : a < b) {n : ℕ} (hn : 2 ≤ n) {m : ℝ} (hm : m ∈ Icc a b) :
    ∃ x0 ∈ Arr.linspaceR a b n, ∃ x1 ∈ Arr.linspaceR a b n, ∃ t : ℝ, 0 ≤ t ∧ t ≤ 1 ∧
      x0 ≤ m ∧ m ≤ x1 ∧ x1 - x0 = (b - a) / ((n : ℝ) - 1) ∧ ∀ f : ℝ → Fl,
      interpLinear (Arr.linspaceR a b n) ((Arr.linspaceR a b n).map f) (fin m) =
        f x0 + fin t * (f x1 - f x0) := by
  have h1 : (0 : ℝ) < (n : ℝ) - 1 := by
    have : (2 : ℝ) ≤ n := by exact_mod_cast hn
    linarith
  set xs := Arr.linspaceR a b n with hxs
  have hlen : xs.length = n := linspaceR_length a b n
  have hs : xs.Pairwise (· < ·) := linspaceR_sorted hab hn
  set k := (xs.filter (fun x => x ≤ m)).length with hk
  set i := min (k - 1) (xs.length - 2) with hi
  have hi0 : i < xs.length := by omega
  have hi1 : i + 1 < xs.length := by omega
  have hkle : k ≤ xs.length := List.length_filter_le _ _
  have hk1 : 1 ≤ k := by
    have := (filter_le_count hs m (j := 0) (by omega)).1 (by
      rw [linspaceR_getElem]; simpa using hm.1)
    omega
  have hdx : xs[i + 1] - xs[i] = (b - a) / ((n : ℝ) - 1) := by
    simp only [hxs]
    rw [linspaceR_getElem, linspaceR_getElem]
    push_cast
    ring
  have hlo : xs[i] ≤ m := (filter_le_count hs m hi0).2 (by omega)
  have hhi : m ≤ xs[i + 1] := by
    by_cases hc : k - 1 ≤ xs.length - 2
    · have : ¬ xs[i + 1] ≤ m := by rw [filter_le_count hs m hi1]; omega
      linarith
    · have e : i + 1 = n - 1 := by omega
      have : xs[i + 1] = b := by
        simp only [hxs]
        rw [linspaceR_getElem, e, Nat.cast_sub (by omega), Nat.cast_one, mul_div_assoc,
          div_self h1.ne']
        ring
      rw [this]; exact hm.2
  have hpos : 0 < xs[i + 1] - xs[i] := by
    rw [hdx]; exact div_pos (by linarith) h1
  refine ⟨xs[i], List.getElem_mem hi0, xs[i + 1], List.getElem_mem hi1,
    (m - xs[i]) / (xs[i + 1] - xs[i]), div_nonneg (by linarith) hpos.le,
    (div_le_one hpos).2 (by linarith), hlo, hhi, hdx, fun f => ?_⟩
  have hget : ∀ j (hj : j < xs.length), xs.getD j 0 = xs[j] := fun j hj =>
    List.getD_eq_getElem (l := xs) (d := 0) hj
  have hgetY : ∀ j (hj : j < xs.length), (xs.map f).getD j nan = f xs[j] := fun j hj => by
    rw [List.getD_eq_getElem (l := xs.map f) (d := nan) (by simpa using hj)]
    simp
  simp only [interpLinear]
  rw [← hk, ← hi, hget i hi0, hget (i + 1) hi1, hgetY i hi0, hgetY (i + 1) hi1]

theorem interpLinear_between {a b : ℝ} (hab : a < b) {n : ℕ} (hn : 2 ≤ n) (f : ℝ → Fl) {m : ℝ}
    (hm : m ∈ Icc a b) :
    ∃ x0 ∈ Arr.linspaceR a b n, ∃ x1 ∈ Arr.linspaceR a b n, ∃ t : ℝ, 0 ≤ t ∧ t ≤ 1 ∧
      x0 ≤ m ∧ m ≤ x1 ∧ x1 - x0 = (b - a) / ((n : ℝ) - 1) ∧
      interpLinear (Arr.linspaceR a b n) ((Arr.linspaceR a b n).map f) (fin m) =
        f x0 + fin t * (f x1 - f x0) := by
  obtain ⟨x0, h0, x1, h1, t, ht0, ht1, hl, hu, hd, h⟩ := interpLinear_cell hab hn hm
  exact ⟨x0, h0, x1, h1, t, ht0, ht1, hl, hu, hd, h f⟩

/-! ### The mass-ratio norm -/

/-- The unnormalised mass-ratio density at primary mass `m`: power law times window. -/
def ratioShape (beta lo d m t : ℝ) : ℝ := t ^ beta * taper ((m * t - lo) / d)

/-- The exact mass-ratio norm, `∫_lo^m x^beta w(x) dx / ∫_lo^m x^beta dx`. -/
def ratioNorm (beta lo d m : ℝ) : ℝ :=
  (∫ x in lo..m, x ^ beta * taper ((x - lo) / d)) / ∫ x in lo..m, x ^ beta

/-- The window as a function of the mass ratio, without the upper limit. -/
def ratioWindow (lo d m q : ℝ) : ℝ := if lo / m ≤ q then taper ((m * q - lo) / d) else 0

theorem ratioWindow_mono (lo : ℝ) {d m : ℝ} (hd : 0 < d) (hm : 0 < m) :
    Monotone (ratioWindow lo d m) := by
  intro x y h
  unfold ratioWindow
  split_ifs with h1 h2 h2
  · exact taper_mono (by gcongr)
  · exact absurd (h1.trans h) h2
  · exact (taper_pos _).le
  · exact le_rfl

theorem ratioWindow_mem (lo d m q : ℝ) : 0 ≤ ratioWindow lo d m q ∧ ratioWindow lo d m q ≤ 1 := by
  unfold ratioWindow
  split_ifs
  · exact ⟨(taper_pos _).le, (taper_lt_one _).le⟩
  · exact ⟨le_rfl, zero_le_one⟩

theorem bv_ratio (beta lo : ℝ) {d m : ℝ} (hd : 0 < d) (hm : 0 < m) :
    BoundedVariationOn (fun q => q ^ beta * ratioWindow lo d m q) (Icc 0.001 1) :=
  (bv_rpow beta (by norm_num)).mul (bv_monotone ((ratioWindow_mono lo hd hm).monotoneOn _))

theorem eVariationOn_monotone_le {f : ℝ → ℝ} {a b : ℝ} (hab : a ≤ b) (hf : MonotoneOn f (Icc a b)) :
    eVariationOn f (Icc a b) ≤ ENNReal.ofReal (f b - f a) := by
  have := (hf.eVariationOn_eq (left_mem_Icc.2 hab) (right_mem_Icc.2 hab)).le
  rwa [inter_self] at this

/-- A bound on the variation that does not depend on the mass. -/
theorem ratio_variation_le (beta lo : ℝ) {d m : ℝ} (hd : 0 < d) (hm : 0 < m) :
    variation (fun q => q ^ beta * ratioWindow lo d m q) 0.001 1 ≤ 2 * (1 + 0.001 ^ beta) := by
  set K : ℝ := 1 + 0.001 ^ beta with hK
  have hc : (0 : ℝ) < 0.001 ^ beta := Real.rpow_pos_of_pos (by norm_num) _
  have hK0 : 0 ≤ K := by positivity
  have h01 : (0.001 : ℝ) ≤ 1 := by norm_num
  have hpow : ∀ q ∈ Icc (0.001 : ℝ) 1, q ^ beta ≤ K := by
    intro q hq
    have hq0 : 0 < q := lt_of_lt_of_le (by norm_num) hq.1
    rcases le_or_gt 0 beta with hb | hb
    · have := Real.rpow_le_one hq0.le hq.2 hb
      linarith
    · have := Real.rpow_le_rpow_of_nonpos (by norm_num) hq.1 hb.le
      linarith
  have hv1 : eVariationOn (fun q : ℝ => q ^ beta) (Icc 0.001 1) ≤ ENNReal.ofReal K := by
    rcases le_or_gt 0 beta with hb | hb
    · refine (eVariationOn_monotone_le h01 fun x hx y hy h =>
        Real.rpow_le_rpow (le_trans (by norm_num) hx.1) h hb).trans (ENNReal.ofReal_le_ofReal ?_)
      rw [Real.one_rpow]; linarith
    · have hanti : MonotoneOn (fun q : ℝ => -(q ^ beta)) (Icc 0.001 1) := fun x hx y hy h =>
        neg_le_neg (Real.rpow_le_rpow_of_nonpos (lt_of_lt_of_le (by norm_num) hx.1) h hb.le)
      have h2 := eVariationOn_monotone_le h01 hanti
      have e : eVariationOn (fun q : ℝ => q ^ beta) (Icc 0.001 1) =
          eVariationOn (fun q : ℝ => -(q ^ beta)) (Icc 0.001 1) := by
        unfold eVariationOn
        simp only [edist_neg_neg]
      rw [e]
      refine h2.trans (ENNReal.ofReal_le_ofReal ?_)
      rw [Real.one_rpow]; linarith
  have hv2 : eVariationOn (ratioWindow lo d m) (Icc 0.001 1) ≤ ENNReal.ofReal 1 := by
    refine (eVariationOn_monotone_le h01 ((ratioWindow_mono lo hd hm).monotoneOn _)).trans
      (ENNReal.ofReal_le_ofReal ?_)
    have h1 := (ratioWindow_mem lo d m 1).2
    have h2 := (ratioWindow_mem lo d m 0.001).1
    linarith
  have key := eVariation_mul_le (f := fun q : ℝ => q ^ beta) (g := ratioWindow lo d m)
    (C := ENNReal.ofReal K) (D := ENNReal.ofReal 1) (s := Icc 0.001 1)
    (fun q hq => by
      rw [Real.enorm_eq_ofReal (Real.rpow_nonneg (le_trans (by norm_num) hq.1) _)]
      exact ENNReal.ofReal_le_ofReal (hpow q hq))
    (fun q _ => by
      rw [Real.enorm_eq_ofReal (ratioWindow_mem lo d m q).1]
      exact ENNReal.ofReal_le_ofReal (ratioWindow_mem lo d m q).2)
  have h3 : eVariationOn (fun q => q ^ beta * ratioWindow lo d m q) (Icc 0.001 1) ≤
      ENNReal.ofReal (2 * K) := by
    refine key.trans ?_
    clear_value K
    rw [show 2 * K = K * 1 + 1 * K by ring, ENNReal.ofReal_add (by positivity) (by positivity),
      ENNReal.ofReal_mul hK0, ENNReal.ofReal_mul zero_le_one]
    gcongr
  unfold variation
  exact ENNReal.toReal_le_of_le_ofReal (by positivity) h3

theorem taper_continuous : Continuous taper := by
  have hc : Continuous clampUnit := by
    have : clampUnit = fun u => max 1e-6 (min u (1 - 1e-6)) := by
      funext u
      unfold clampUnit
      split_ifs with h1 h2
      · rw [max_eq_left]; exact (min_le_left _ _).trans h1.le
      · rw [min_eq_right h2.le, max_eq_right]; norm_num
      · rw [min_eq_left (not_lt.1 h2), max_eq_right (not_lt.1 h1)]
    rw [this]
    fun_prop
  unfold taper
  refine continuous_const.div (continuous_const.add (Real.continuous_exp.comp
    ((continuous_const.div hc fun u => ?_).sub (continuous_const.div (continuous_const.sub hc)
      fun u => ?_)))) fun u => by positivity
  · have := (clampUnit_mem u).1
    have : (0 : ℝ) < clampUnit u := lt_of_lt_of_le (by norm_num) this
    exact this.ne'
  · have := (clampUnit_mem u).2
    have : (0 : ℝ) < 1 - clampUnit u := by
      have h : (0 : ℝ) < 1e-6 := by norm_num
      linarith
    exact this.ne'

theorem shape_intervalIntegrable (beta : ℝ) (g : ℝ → ℝ) (hg : Continuous g) {a b : ℝ} (ha : 0 < a)
    (hab : a ≤ b) : IntervalIntegrable (fun x => x ^ beta * g x) volume a b := by
  apply ContinuousOn.intervalIntegrable
  rw [uIcc_of_le hab]
  intro t ht
  exact ((Real.continuousAt_rpow_const t beta (Or.inl (by linarith [ht.1] : t ≠ 0))).mul
    hg.continuousAt).continuousWithinAt

theorem shape_integral_pos (beta : ℝ) (g : ℝ → ℝ) (hg : Continuous g) (hg0 : ∀ x, 0 < g x) {a b : ℝ}
    (ha : 0 < a) (hab : a < b) : 0 < ∫ x in a..b, x ^ beta * g x :=
  intervalIntegral.intervalIntegral_pos_of_pos_on (shape_intervalIntegrable beta g hg ha hab.le)
    (fun x hx => mul_pos (Real.rpow_pos_of_pos (by linarith [hx.1]) _) (hg0 x)) hab

/-- Changing variables from the mass ratio to the secondary mass. -/
theorem integral_ratio_subst (beta : ℝ) (g : ℝ → ℝ) {lo m : ℝ} (h0 : 0 < lo) (hm : lo < m) :
    ∫ t in lo / m..1, t ^ beta * g (m * t) = m ^ (-beta) * m⁻¹ * ∫ x in lo..m, x ^ beta * g x := by
  have hm0 : 0 < m := h0.trans hm
  have key := intervalIntegral.integral_comp_mul_left (a := lo / m) (b := 1)
    (fun x => x ^ beta * g x) hm0.ne'
  rw [mul_div_cancel₀ _ hm0.ne', mul_one, smul_eq_mul] at key
  have hl1 : lo / m ≤ 1 := (div_le_one hm0).2 hm.le
  have e : ∫ t in lo / m..1, t ^ beta * g (m * t) =
      ∫ t in lo / m..1, m ^ (-beta) * ((m * t) ^ beta * g (m * t)) := by
    apply intervalIntegral.integral_congr
    intro t ht
    rw [uIcc_of_le hl1] at ht
    have ht0 : 0 < t := lt_of_lt_of_le (by positivity) ht.1
    simp only
    rw [Real.mul_rpow hm0.le ht0.le, Real.rpow_neg hm0.le]
    have : m ^ beta ≠ 0 := (Real.rpow_pos_of_pos hm0 _).ne'
    field_simp
  rw [e, intervalIntegral.integral_const_mul, key]
  ring

/-- The integral of the unnormalised mass-ratio density of the code over the mass-ratio grid. -/
theorem integral_ratioWindow (beta : ℝ) {lo d m : ℝ} (h0 : 0 < lo) (hm : lo < m)
    (hq : 0.001 * m ≤ lo) :
    ∫ q in (0.001 : ℝ)..1, q ^ beta * ratioWindow lo d m q =
      ∫ t in lo / m..1, ratioShape beta lo d m t := by
  have hm0 : 0 < m := h0.trans hm
  have hl0 : (0.001 : ℝ) ≤ lo / m := by rw [le_div_iff₀ hm0]; exact hq
  have hl1 : lo / m ≤ 1 := (div_le_one hm0).2 hm.le
  have e1 : ∫ q in (0.001 : ℝ)..lo / m, q ^ beta * ratioWindow lo d m q = 0 := by
    rw [intervalIntegral.integral_congr_ae (g := fun _ => (0 : ℝ))]
    · simp
    · have : ∀ᵐ t : ℝ, t ≠ lo / m := by simp [ae_iff, measure_singleton]
      filter_upwards [this] with t htn ht
      rw [uIoc_of_le hl0] at ht
      unfold ratioWindow
      rw [if_neg (fun h => htn (le_antisymm ht.2 h)), mul_zero]
  have e2 : ∫ q in lo / m..1, q ^ beta * ratioWindow lo d m q =
      ∫ t in lo / m..1, ratioShape beta lo d m t := by
    apply intervalIntegral.integral_congr
    intro t ht
    rw [uIcc_of_le hl1] at ht
    simp only [ratioShape, ratioWindow]
    rw [if_pos ht.1]
  have hshape : IntervalIntegrable (fun q => q ^ beta * ratioWindow lo d m q) volume (lo / m) 1 := by
    have := shape_intervalIntegrable beta (fun t => taper ((m * t - lo) / d))
      (taper_continuous.comp (by fun_prop)) (lt_of_lt_of_le (by norm_num) hl0) hl1
    refine this.congr ?_
    intro t ht
    rw [uIoc_of_le hl1] at ht
    simp only [ratioWindow]
    rw [if_pos ht.1.le]
  have hzero : IntervalIntegrable (fun q => q ^ beta * ratioWindow lo d m q) volume 0.001 (lo / m) := by
    refine (intervalIntegrable_const (c := (0 : ℝ))).congr_ae ?_
    rw [Filter.EventuallyEq, ae_restrict_iff' measurableSet_uIoc]
    have : ∀ᵐ t : ℝ, t ≠ lo / m := by simp [ae_iff, measure_singleton]
    filter_upwards [this] with t htn ht
    rw [uIoc_of_le hl0] at ht
    unfold ratioWindow
    rw [if_neg (fun h => htn (le_antisymm ht.2 h)), mul_zero]
  rw [← intervalIntegral.integral_add_adjacent_intervals hzero hshape, e1, e2, zero_add]

/-- The trapezoid mass-ratio norm the code computes at mass `m` with `n` grid points. -/
def gridNorm (beta lo d m : ℝ) (n : ℕ) : ℝ :=
  Arr.trapzR ((Arr.linspaceR 0.001 1 n).map fun q =>
    normalised (fun t => t ^ beta) (lo / m) 1 q * window lo m d (m * q)) (Arr.linspaceR 0.001 1 n)

theorem gridNorm_eq (beta : ℝ) {lo d m : ℝ} (h0 : 0 < lo) (hm : lo < m) {n : ℕ} (hn : 2 ≤ n) :
    gridNorm beta lo d m n = Arr.trapzR ((Arr.linspaceR 0.001 1 n).map fun q =>
      q ^ beta * ratioWindow lo d m q) (Arr.linspaceR 0.001 1 n) / ∫ t in lo / m..1, t ^ beta := by
  have hm0 : 0 < m := h0.trans hm
  have := Arr.trapzR_map_div (∫ t in lo / m..1, t ^ beta)
    ((Arr.linspaceR 0.001 1 n).map fun q => q ^ beta * ratioWindow lo d m q)
    (Arr.linspaceR 0.001 1 n)
  rw [List.map_map] at this
  rw [← this]
  unfold gridNorm
  congr 1
  apply List.map_congr_left
  intro q hq
  obtain ⟨h1, h2⟩ := linspaceR_mem (by norm_num) hn hq
  simp only [Function.comp_apply, normalised, window, ratioWindow]
  have hiff : lo / m ≤ q ↔ lo ≤ m * q := by rw [div_le_iff₀ hm0, mul_comm]
  have hle : m * q ≤ m := by nlinarith
  by_cases hc : lo / m ≤ q
  · rw [if_pos ⟨hc, h2⟩, if_pos ⟨hiff.1 hc, hle⟩, if_pos hc]
    ring
  · rw [if_neg (fun h => hc h.1), if_neg hc]
    simp

/-- The error of the trapezoid mass-ratio norm. -/
theorem gridNorm_error (beta : ℝ) {lo d m : ℝ} (hd : 0 < d) (h0 : 0 < lo) (hm : lo < m)
    (hq : 0.001 * m ≤ lo) {n : ℕ} (hn : 2 ≤ n) :
    |ratioNorm beta lo d m - gridNorm beta lo d m n| ≤
      1 / (2 * ((n : ℝ) - 1)) * (2 * (1 + 0.001 ^ beta)) / ∫ t in lo / m..1, t ^ beta := by
  have hm0 : 0 < m := h0.trans hm
  have h1 : (0 : ℝ) < (n : ℝ) - 1 := by
    have : (2 : ℝ) ≤ n := by exact_mod_cast hn
    linarith
  have hl1 : lo / m < 1 := (div_lt_one hm0).2 hm
  have hB : 0 < ∫ t in lo / m..1, t ^ beta := integral_rpow_pos (by positivity) hl1
  have hR : ratioNorm beta lo d m = (∫ q in (0.001 : ℝ)..1, q ^ beta * ratioWindow lo d m q) /
      ∫ t in lo / m..1, t ^ beta := by
    rw [integral_ratioWindow beta h0 hm hq]
    have e1 := integral_ratio_subst beta (fun x => taper ((x - lo) / d)) h0 hm
    have e2 := integral_ratio_subst beta (fun _ => 1) h0 hm
    simp only [mul_one] at e2
    unfold ratioNorm ratioShape
    rw [e1, e2]
    have hc : m ^ (-beta) * m⁻¹ ≠ 0 := by
      have := Real.rpow_pos_of_pos hm0 (-beta)
      positivity
    rw [mul_div_mul_left _ _ hc]
  rw [hR, gridNorm_eq beta h0 hm hn, ← sub_div, abs_div, abs_of_pos hB]
  apply div_le_div_of_nonneg_right _ hB.le
  refine (trapzR_error (by norm_num) hn (bv_ratio beta lo hd hm0)).trans ?_
  apply mul_le_mul _ (ratio_variation_le beta lo hd hm0) (variation_nonneg _ _ _) (by positivity)
  gcongr
  norm_num

theorem ratioNorm_pos (beta : ℝ) {lo m : ℝ} (d : ℝ) (h0 : 0 < lo) (hm : lo < m) :
    0 < ratioNorm beta lo d m :=
  div_pos (shape_integral_pos beta _ (taper_continuous.comp (by fun_prop)) (fun _ => taper_pos _)
    h0 hm) (integral_rpow_pos h0 hm)

theorem ratioNorm_continuousAt (beta : ℝ) {lo m : ℝ} (d : ℝ) (h0 : 0 < lo) (hm : lo < m) :
    ContinuousAt (ratioNorm beta lo d) m := by
  have hmem : uIcc lo (m + 1) ∈ 𝓝 m := by
    rw [uIcc_of_le (by linarith)]
    exact Icc_mem_nhds hm (by linarith)
  refine ContinuousAt.div ?_ ?_ (integral_rpow_pos h0 hm).ne'
  · exact (intervalIntegral.continuousOn_primitive_interval'
      (shape_intervalIntegrable beta (fun x => taper ((x - lo) / d))
        (taper_continuous.comp (by fun_prop)) h0 (by linarith : lo ≤ m + 1))
      left_mem_uIcc).continuousAt hmem
  · exact (intervalIntegral.continuousOn_primitive_interval'
      (rpow_intervalIntegrable h0 (by linarith : lo ≤ m + 1)) left_mem_uIcc).continuousAt hmem

theorem cell_tendsto (c : ℝ) : Tendsto (fun n : ℕ => c / ((n : ℝ) - 1)) atTop (𝓝 0) := by
  have h1 : Tendsto (fun n : ℕ => (n : ℝ) - 1) atTop atTop :=
    tendsto_atTop_add_const_right _ (-1 : ℝ) tendsto_natCast_atTop_atTop
  exact h1.const_div_atTop c

/-- A family of interpolants on finer and finer grids whose values approach a continuous function. -/
theorem interp_tendsto {a b m : ℝ} (hab : a < b) (hm : m ∈ Icc a b) {R : ℝ → ℝ}
    (hR : ContinuousAt R m) {T : ℝ → ℕ → ℝ} {r : ℝ} (hr : 0 < r) {e : ℕ → ℝ}
    (he : Tendsto e atTop (𝓝 0))
    (hT : ∀ x ∈ Icc a b, |x - m| < r → ∀ n, 2 ≤ n → |R x - T x n| ≤ e n)
    {y : ℕ × ℕ → ℝ}
    (hy : ∀ nM nQ, 2 ≤ nM → 2 ≤ nQ → ∃ x0 ∈ Arr.linspaceR a b nM, ∃ x1 ∈ Arr.linspaceR a b nM,
      ∃ t : ℝ, 0 ≤ t ∧ t ≤ 1 ∧ x0 ≤ m ∧ m ≤ x1 ∧ x1 - x0 = (b - a) / ((nM : ℝ) - 1) ∧
        (|x0 - m| < r → |x1 - m| < r → y (nM, nQ) = T x0 nQ + t * (T x1 nQ - T x0 nQ))) :
    Tendsto y atTop (𝓝 (R m)) := by
  rw [← prod_atTop_atTop_eq, Metric.tendsto_nhds]
  intro ε hε
  obtain ⟨δ, hδ, hcont⟩ := Metric.continuousAt_iff.1 hR (ε / 2) (by linarith)
  have h1 : ∀ᶠ nM : ℕ in atTop, 2 ≤ nM ∧ (b - a) / ((nM : ℝ) - 1) < min r δ :=
    (eventually_ge_atTop 2).and ((cell_tendsto (b - a)).eventually_lt_const (lt_min hr hδ))
  have h2 : ∀ᶠ nQ : ℕ in atTop, 2 ≤ nQ ∧ e nQ < ε / 2 :=
    (eventually_ge_atTop 2).and (he.eventually_lt_const (by linarith))
  filter_upwards [h1.prod_mk h2] with ⟨nM, nQ⟩ ⟨⟨hM, hc⟩, ⟨hQ, heq⟩⟩
  obtain ⟨x0, hx0, x1, hx1, t, ht0, ht1, hl, hu, hdx, hval⟩ := hy nM nQ hM hQ
  have hcr := lt_of_lt_of_le hc (min_le_left _ _)
  have hcd := lt_of_lt_of_le hc (min_le_right _ _)
  have a0 : |x0 - m| ≤ (b - a) / ((nM : ℝ) - 1) := by rw [abs_le]; constructor <;> linarith
  have a1 : |x1 - m| ≤ (b - a) / ((nM : ℝ) - 1) := by rw [abs_le]; constructor <;> linarith
  have bound : ∀ x ∈ Arr.linspaceR a b nM, |x - m| ≤ (b - a) / ((nM : ℝ) - 1) →
      |T x nQ - R m| < ε := by
    intro x hx hxm
    have e1 := hT x (linspaceR_mem hab.le hM hx) (by linarith) nQ hQ
    have e2 := hcont (x := x) (by rw [Real.dist_eq]; linarith)
    rw [Real.dist_eq] at e2
    calc |T x nQ - R m| = |(R x - R m) - (R x - T x nQ)| := by congr 1; ring
      _ ≤ |R x - R m| + |R x - T x nQ| := abs_sub _ _
      _ < ε := by linarith
  have b0 := bound x0 hx0 a0
  have b1 := bound x1 hx1 a1
  rw [hval (by linarith) (by linarith), Real.dist_eq]
  refine lt_of_le_of_lt ?_ (max_lt b0 b1)
  obtain ⟨u0, u1⟩ := abs_le.1 (le_max_left |T x0 nQ - R m| |T x1 nQ - R m|)
  obtain ⟨v0, v1⟩ := abs_le.1 (le_max_right |T x0 nQ - R m| |T x1 nQ - R m|)
  generalize max |T x0 nQ - R m| |T x1 nQ - R m| = M at *
  have ht1' : 0 ≤ 1 - t := by linarith
  rw [abs_le]
  constructor
  · nlinarith [mul_nonneg ht1' (by linarith : 0 ≤ T x0 nQ - R m + M),
      mul_nonneg ht0 (by linarith : 0 ≤ T x1 nQ - R m + M)]
  · nlinarith [mul_nonneg ht1' (by linarith : 0 ≤ M - (T x0 nQ - R m)),
      mul_nonneg ht0 (by linarith : 0 ≤ M - (T x1 nQ - R m))]

/-! ### The mass-ratio density -/

theorem pQVal_eq (b : Backend) {beta lo d m q : ℝ} (hd : 0 < d) (h0 : 0 < lo) (hm : lo < m)
    (hq : 0 < q) : pQVal b (fin beta) (fin lo) (fin d) (fin m) (fin q) =
      fin (normalised (fun t => t ^ beta) (lo / m) 1 q * window lo m d (m * q)) := by
  unfold pQVal
  rw [massRatioFactor_eq b h0 (h0.trans hm) hm.ne' hq, fin_mul, smoothing_fin b _ lo m hd]
  exact fin_mul _ _

theorem qNormAt_eq_gridNorm (b : Backend) {s : Smoothed} {n : ℕ} (hn : 2 ≤ n)
    (hs : s.qs = Arr.linspaceR 0.001 1 n) {beta lo d m : ℝ} (hd : 0 < d) (h0 : 0 < lo)
    (hm : lo < m) : qNormAt b s (fin beta) (fin lo) (fin d) m = fin (gridNorm beta lo d m n) := by
  unfold qNormAt
  have e : (s.qs.map fun q => pQVal b (fin beta) (fin lo) (fin d) (fin m) (fin q)) =
      (s.qs.map fun q => normalised (fun t => t ^ beta) (lo / m) 1 q * window lo m d (m * q)).map
        fin := by
    rw [List.map_map]
    apply List.map_congr_left
    intro q hq
    have := (linspaceR_mem (by norm_num) hn (hs ▸ hq)).1
    exact pQVal_eq b hd h0 hm (lt_of_lt_of_le (by norm_num) this)
  have hd0 : ¬ eqf (fin d) 0 := by simp [hd.ne']
  rw [e, Arr.trapz_fin, nanToNum_fin, ind_true hd0, ind_false hd0, hs]
  simp [gridNorm]

/-- **C85, mass ratio, limit of fine grids.** For every smoothed mass model, every real `beta` and
`delta_m > 0`, and `mmin` inside the range of the instance and large enough for the mass-ratio
grid to reach it (`0.001 * self.mmax <= mmin`): as the numbers of grid masses and of grid mass
ratios grow, the value of `p_q` at each `(m, q)` with `mmin < m <= self.mmax` tends to the density
in `q` proportional to power law times window on `[mmin / m, 1]`, exactly normalised. -/
theorem C85_massRatio_limit (b : Backend) (primary : Primary) (fixed : Dict Fl)
    {selfMin selfMax : ℝ} {beta lo d : ℝ} (hd : 0 < d) (h0 : 0 < lo) (hlo : selfMin ≤ lo)
    (hq : 0.001 * selfMax ≤ lo) :
    ∃ p : ℕ × ℕ → ℝ → ℝ → ℝ,
      (∀ (nM nQ : ℕ) (cache : Bool) (s : Smoothed),
        Smoothed.init primary fixed selfMin selfMax nM nQ cache = .ok s →
        ∀ data : List (ℝ × ℝ),
          (Smoothed.pQ b s (data.map fun e => (fin e.1, fin e.2)) (fin beta) (fin lo) (fin d)).1 =
            .ok (data.map fun e => fin (p (nM, nQ) e.1 e.2))) ∧
      ∀ m q, lo < m → m ≤ selfMax → 0 < q → Tendsto (p · m q) atTop
        (𝓝 (normalised (fun t => t ^ beta * taper ((m * t - lo) / d)) (lo / m) 1 q)) := by
  -- the norms the code divides by
  set S : ℕ × ℕ → Smoothed := fun n => ⟨primary, fixed, selfMin, selfMax,
    Arr.linspaceR selfMin selfMax n.1, Arr.linspaceR 0.001 1 n.2, false, none⟩ with hS
  set Y : ℕ × ℕ → ℝ → Fl := fun n m => interpLinear (S n).m1s
    ((S n).m1s.map (qNormAt b (S n) (fin beta) (fin lo) (fin d))) (fin m) with hY
  set F : ℝ → ℝ → ℝ := fun m q =>
    normalised (fun t => t ^ beta) (lo / m) 1 q * window lo m d (m * q) with hF
  have hfinN : ∀ x : Fl, ∃ r : ℝ, nanToNum x = fin r := nanToNum_finite
  refine ⟨fun n m q => val (nanToNum (pQVal b (fin beta) (fin lo) (fin d) (fin m) (fin q) / Y n m)),
    ?_, ?_⟩
  · intro nM nQ cache s hs data
    obtain ⟨hM, hQ, rfl⟩ := init_inv hs
    rw [pQ_fresh b _ _ _ _ _ (Or.inr (Or.inl rfl)), List.map_map]
    congr 1
    apply List.map_congr_left
    intro e _
    simp only [Function.comp_apply]
    obtain ⟨r, hr⟩ := hfinN (pQVal b (fin beta) (fin lo) (fin d) (fin e.1) (fin e.2) / Y (nM, nQ) e.1)
    rw [hr]
    exact hr
  · intro m q hm hmax hq0
    simp only [pQVal_eq b hd h0 hm hq0]
    have hm0 : 0 < m := h0.trans hm
    have hlt : selfMin < selfMax := by linarith
    have hlim : Tendsto (fun n => val (Y n m)) atTop (𝓝 (ratioNorm beta lo d m)) := by
      refine interp_tendsto hlt ⟨by linarith, hmax⟩ (ratioNorm_continuousAt beta d h0 hm)
        (T := fun x n => gridNorm beta lo d x n) (r := (m - lo) / 2) (by linarith)
        (e := fun n : ℕ => (1 / 2 * (2 * (1 + 0.001 ^ beta)) /
          ∫ t in lo / ((m + lo) / 2)..1, t ^ beta) / ((n : ℝ) - 1)) (cell_tendsto _) ?_ ?_
      · intro x hx hxm n hn
        rw [abs_lt] at hxm
        have hx1 : (m + lo) / 2 ≤ x := by linarith [hxm.1]
        have hxlo : lo < x := by linarith
        have hx0 : 0 < x := by linarith
        have hmid : 0 < (m + lo) / 2 := by linarith
        refine (gridNorm_error beta hd h0 hxlo (by nlinarith [hx.2]) hn).trans ?_
        have h1 : (0 : ℝ) < (n : ℝ) - 1 := by
          have : (2 : ℝ) ≤ n := by exact_mod_cast hn
          linarith
        have hB : 0 < ∫ t in lo / ((m + lo) / 2)..1, t ^ beta :=
          integral_rpow_pos (by positivity) ((div_lt_one hmid).2 (by linarith))
        have hBle : ∫ t in lo / ((m + lo) / 2)..1, t ^ beta ≤ ∫ t in lo / x..1, t ^ beta := by
          have hle : lo / x ≤ lo / ((m + lo) / 2) := by gcongr
          have hle1 : lo / ((m + lo) / 2) ≤ 1 := (div_le_one hmid).2 (by linarith)
          have hpos : 0 < lo / x := by positivity
          apply intervalIntegral.integral_mono_interval hle hle1 le_rfl
          · rw [EventuallyLE, ae_restrict_iff' measurableSet_Ioc]
            exact Eventually.of_forall fun t ht => Real.rpow_nonneg (by linarith [ht.1]) _
          · exact rpow_intervalIntegrable hpos (hle.trans hle1)
        have hc : (0 : ℝ) < 0.001 ^ beta := Real.rpow_pos_of_pos (by norm_num) _
        calc 1 / (2 * ((n : ℝ) - 1)) * (2 * (1 + 0.001 ^ beta)) / ∫ t in lo / x..1, t ^ beta
            ≤ 1 / (2 * ((n : ℝ) - 1)) * (2 * (1 + 0.001 ^ beta)) /
                ∫ t in lo / ((m + lo) / 2)..1, t ^ beta :=
              div_le_div_of_nonneg_left (by positivity) hB hBle
          _ = _ := by field_simp
      · intro nM nQ hM hQ
        obtain ⟨x0, hx0, x1, hx1, t, ht0, ht1, hl, hu, hdx, hval⟩ :=
          interpLinear_between hlt hM (qNormAt b (S (nM, nQ)) (fin beta) (fin lo) (fin d))
            (m := m) ⟨by linarith, hmax⟩
        refine ⟨x0, hx0, x1, hx1, t, ht0, ht1, hl, hu, hdx, fun d0 d1 => ?_⟩
        rw [abs_lt] at d0 d1
        have e0 := qNormAt_eq_gridNorm b (s := S (nM, nQ)) hQ rfl (beta := beta) hd h0
          (show lo < x0 by linarith [d0.1])
        have e1 := qNormAt_eq_gridNorm b (s := S (nM, nQ)) hQ rfl (beta := beta) hd h0
          (show lo < x1 by linarith [d1.1])
        rw [e0, e1, fin_sub, fin_mul, fin_add] at hval
        show val (interpLinear _ _ _) = _
        rw [hval]
        rfl
    have hfinY : ∀ᶠ n in atTop, Y n m = fin (val (Y n m)) ∧ val (Y n m) ≠ 0 := by
      filter_upwards [hlim.eventually_ne (ratioNorm_pos beta d h0 hm).ne'] with n hn
      refine ⟨?_, hn⟩
      cases hc : Y n m with
      | fin r => rfl
      | pinf => rw [hc] at hn; exact absurd rfl hn
      | ninf => rw [hc] at hn; exact absurd rfl hn
      | nan => rw [hc] at hn; exact absurd rfl hn
    have hlimit : F m q / ratioNorm beta lo d m =
        normalised (fun t => t ^ beta * taper ((m * t - lo) / d)) (lo / m) 1 q := by
      have e1 := integral_ratio_subst beta (fun x => taper ((x - lo) / d)) h0 hm
      have e2 := integral_ratio_subst beta (fun _ => 1) h0 hm
      simp only [mul_one] at e2
      have hc : 0 < m ^ (-beta) * m⁻¹ := by
        have := Real.rpow_pos_of_pos hm0 (-beta)
        positivity
      have hn1 := shape_integral_pos beta (fun x => taper ((x - lo) / d))
        (taper_continuous.comp (by fun_prop)) (fun _ => taper_pos _) h0 hm
      have hn2 := integral_rpow_pos (a := beta) h0 hm
      simp only [hF, normalised, window, ratioNorm]
      rw [e1, e2]
      have hiff : lo / m ≤ q ↔ lo ≤ m * q := by rw [div_le_iff₀ hm0, mul_comm]
      by_cases hcq : lo / m ≤ q ∧ q ≤ 1
      · rw [if_pos hcq, if_pos ⟨hiff.1 hcq.1, by nlinarith [hcq.2]⟩, if_pos hcq]
        field_simp
      · rw [if_neg hcq, if_neg hcq]
        simp
    rw [← hlimit]
    refine (tendsto_const_nhds.div hlim (ratioNorm_pos beta d h0 hm).ne').congr' ?_
    filter_upwards [hfinY] with n hn
    rw [hn.1, fin_div hn.2, nanToNum_fin]
    rfl

end GW
