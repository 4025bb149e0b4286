import Verif.Props.SmoothedErrors
import Verif.Props.ContinuitySmoothed

/-!
# C164: the smoothed model with one peak as a model of both masses: every parameter is determined and found
-/

noncomputable section

open MeasureTheory ProbabilityTheory Filter Topology Set

namespace GW

open Fl Spec TruePopulation Posterior GaussianErrors

/-! ## Specification -/

/-- The parameters a user passes to the smoothed model with one peak. -/
def Spec.peakCall (a beta lo hi lam mu s d : ℝ) : Dict Fl :=
  [("alpha", fin a), ("beta", fin beta), ("mmin", fin lo), ("mmax", fin hi), ("lam", fin lam), ("mpp", fin mu),
    ("sigpp", fin s), ("delta_m", fin d)]

/-! ## Lemmas -/

namespace SmoothedJoint

open Identifiable Peak SmoothedPeak

variable {a beta lo hi lam mu s g d a' beta' lo' hi' lam' mu' s' g' d' X D c c' : ℝ}

/-- The mass ratio given the primary mass, before it is normalised. -/
def shape (beta lo d m q : ℝ) : ℝ := Spec.normalised (fun t => t ^ beta) (lo / m) 1 q * window lo m d (m * q)

theorem shape_eq {m q : ℝ} (h0 : 0 < lo) (hm : lo < m) (h1 : lo / m < q) (h2 : q < 1) :
    shape beta lo d m q = q ^ beta / (∫ t in lo / m..1, t ^ beta) * taper ((m * q - lo) / d) := by
  have hm0 := h0.trans hm
  have h3 : lo < m * q := by rw [mul_comm]; exact (div_lt_iff₀ hm0).1 h1
  unfold shape Spec.normalised
  rw [if_pos ⟨h1.le, h2.le⟩, window_eq h3.le (by nlinarith)]

theorem shape_pos {m q : ℝ} (h0 : 0 < lo) (hm : lo < m) (h1 : lo / m < q) (h2 : q < 1) : 0 < shape beta lo d m q := by
  have hm0 := h0.trans hm
  have hl : 0 < lo / m := div_pos h0 hm0
  rw [shape_eq h0 hm h1 h2]
  exact mul_pos (div_pos (Real.rpow_pos_of_pos (hl.trans h1) _) (integral_rpow_pos hl ((div_lt_one hm0).2 hm))) (taper_pos _)

theorem shape_nonneg {m q : ℝ} (h0 : 0 < lo) (hm : 0 < m) : 0 ≤ shape beta lo d m q :=
  mul_nonneg (normalised_rpow_nonneg (by positivity) _ _) (window_nonneg _ _ _ _)

theorem shape_le {m q : ℝ} (h0 : 0 < lo) (hm : 0 < m) :
    shape beta lo d m q ≤ Spec.normalised (fun t => t ^ beta) (lo / m) 1 q := by
  refine mul_le_of_le_one_right (normalised_rpow_nonneg (by positivity) _ _) ?_
  unfold window
  split_ifs
  · exact (taper_lt_one _).le
  · exact zero_le_one

/-- The joint density, up to a constant. -/
def pairDensity (a beta lo hi lam mu s g d X : ℝ) (n : ℝ → ℝ) (m q : ℝ) : ℝ :=
  if lo < m then val a lo hi lam mu s g m * window lo X d m * (shape beta lo d m q / n m) else 0

variable {n n' : ℝ → ℝ}

theorem joint_pos {m q : ℝ} (h0 : 0 < lo) (h : lo < hi) (hX : hi ≤ X) (hg : X ≤ g) (l0 : 0 < lam) (l1 : lam < 1)
    (hn : ∀ m, lo < m → m ≤ X → 0 < n m) (h1 : lo < m) (h2 : m < hi) (q1 : lo / m < q) (q2 : q < 1) :
    0 < pairDensity a beta lo hi lam mu s g d X n m q := by
  unfold pairDensity
  rw [if_pos h1, window_eq h1.le (h2.le.trans hX)]
  exact mul_pos (mul_pos (val_pos h0 h (h.trans_le (hX.trans hg)) l0 l1 h1 h2 (h2.trans_le (hX.trans hg))) (taper_pos _))
    (div_pos (shape_pos h0 h1 q1 q2) (hn m h1 (h2.le.trans hX)))

theorem joint_lo (h0 : 0 < lo) (h : lo < hi) (hX : hi ≤ X) (hg : X ≤ g) (l0 : 0 < lam) (l1 : lam < 1) (hc : 0 < c)
    (hn : ∀ m, lo < m → m ≤ X → 0 < n m)
    (hae : ∀ᵐ m : ℝ, ∀ᵐ q : ℝ, 0 < m → m ≤ X → 0 < q → q ≤ 1 → c * pairDensity a beta lo hi lam mu s g d X n m q =
      c' * pairDensity a' beta' lo' hi' lam' mu' s' g' d' X n' m q) : lo' ≤ lo := by
  by_contra hnn
  have hnn := not_le.1 hnn
  obtain ⟨m, hm, hp⟩ := exists_point hae (lt_min hnn h)
  have h1 := hm.2.trans_le (min_le_left _ _)
  have h2 := hm.2.trans_le (min_le_right _ _)
  have hm0 := h0.trans hm.1
  obtain ⟨q, hq, e⟩ := exists_point hp ((div_lt_one hm0).2 hm.1)
  have e := e hm0 (h2.le.trans hX) ((div_pos h0 hm0).trans hq.1) hq.2.le
  have z : pairDensity a' beta' lo' hi' lam' mu' s' g' d' X n' m q = 0 := by
    unfold pairDensity
    rw [if_neg (not_lt.2 h1.le)]
  rw [z, mul_zero] at e
  exact (mul_pos hc (joint_pos h0 h hX hg l0 l1 hn hm.1 h2 hq.1 hq.2)).ne' e

theorem width_le {m : ℝ} (h0 : 0 < lo) (hd : 0 < d) (hm : lo + d < m)
    (hae : ∀ᵐ q : ℝ, q ∈ Ioo (lo / m) 1 → taper ((m * q - lo) / d) = taper ((m * q - lo) / d')) : d' ≤ d := by
  by_contra hn
  have hn := not_le.1 hn
  have hm0 : 0 < m := by linarith
  obtain ⟨q, hq, hp⟩ := exists_point hae (div_lt_div_of_pos_right (show lo + d / 4 < lo + d / 2 by linarith) hm0)
  have q1 : lo + d / 4 < m * q := by rw [mul_comm]; exact (div_lt_iff₀ hm0).1 hq.1
  have q2 : m * q < lo + d / 2 := by rw [mul_comm]; exact (lt_div_iff₀ hm0).1 hq.2
  have e := hp ⟨(div_lt_div_of_pos_right (by linarith) hm0).trans hq.1, by
    refine hq.2.trans_le ((div_le_one hm0).2 (by linarith))⟩
  refine (taper_strict ?_ ?_ ?_).ne' e
  · exact div_lt_div_of_pos_left (by linarith) hd hn
  · rw [lt_div_iff₀ hd]
    norm_num
    linarith
  · rw [div_lt_iff₀ hd]
    norm_num
    linarith

set_option maxHeartbeats 1000000 in
/-- All parameters, even if only the ratios of the densities are known. -/
theorem joint_determined (h0 : 0 < lo) (h : lo + D < hi) (l0 : 0 < lam) (l1 : lam < 1) (hs : 0 < s)
    (hd : 0 < d) (hdD : d ≤ D) (h0' : 0 < lo') (h' : lo' + D < hi') (l0' : 0 < lam') (l1' : lam' < 1)
    (hs' : 0 < s') (hd' : 0 < d') (hdD' : d' ≤ D) (hX : hi ≤ X) (hX' : hi' ≤ X) (hc : 0 < c) (hc' : 0 < c')
    (hn : ∀ m, lo < m → m ≤ X → 0 < n m) (hn' : ∀ m, lo' < m → m ≤ X → 0 < n' m)
    (hnn : beta = beta' → lo = lo' → d = d' → ∀ m, lo < m → m ≤ X → n m = n' m)
    (hae : ∀ᵐ z : ℝ × ℝ, 0 < z.1 → z.1 ≤ X → 0 < z.2 → z.2 ≤ 1 → c * pairDensity a beta lo hi lam mu s X d X n z.1 z.2 =
      c' * pairDensity a' beta' lo' hi' lam' mu' s' X d' X n' z.1 z.2) :
    a = a' ∧ beta = beta' ∧ lo = lo' ∧ hi = hi' ∧ lam = lam' ∧ mu = mu' ∧ s = s' ∧ d = d' := by
  have hD0 : 0 < D := hd.trans_le hdD
  rw [Measure.volume_eq_prod] at hae
  have sl := Measure.ae_ae_of_ae_prod hae
  have sl' : ∀ᵐ m : ℝ, ∀ᵐ q : ℝ, 0 < m → m ≤ X → 0 < q → q ≤ 1 →
      c' * pairDensity a' beta' lo' hi' lam' mu' s' X d' X n' m q = c * pairDensity a beta lo hi lam mu s X d X n m q := by
    filter_upwards [sl] with m hm
    filter_upwards [hm] with q hq h1 h2 h3 h4
    exact (hq h1 h2 h3 h4).symm
  have e1 : lo = lo' := le_antisymm (joint_lo h0' (by linarith) hX' le_rfl l0' l1' hc' hn' sl')
    (joint_lo h0 (by linarith) hX le_rfl l0 l1 hc hn sl)
  subst e1
  obtain ⟨m, hm, hmq⟩ := exists_point sl (lt_min h h')
  have m1 : lo < m := by linarith [hm.1]
  have m2 := hm.2.trans_le (min_le_left _ _)
  have m3 := hm.2.trans_le (min_le_right _ _)
  have m0 : 0 < m := h0.trans m1
  have mX := m2.le.trans hX
  have hl : 0 < lo / m := div_pos h0 m0
  have hl1 : lo / m < 1 := (div_lt_one m0).2 m1
  obtain ⟨A, hA⟩ : ∃ A, A = c * (val a lo hi lam mu s X m * window lo X d m) / n m / ∫ t in lo / m..1, t ^ beta := ⟨_, rfl⟩
  obtain ⟨A', hA'⟩ : ∃ A, A = c' * (val a' lo hi' lam' mu' s' X m * window lo X d' m) / n' m /
    ∫ t in lo / m..1, t ^ beta' := ⟨_, rfl⟩
  have wp : ∀ d : ℝ, 0 < window lo X d m := fun d => by
    rw [window_eq m1.le mX]
    exact taper_pos _
  have pA : 0 < A := hA ▸ div_pos (div_pos (mul_pos hc (mul_pos (val_pos h0 (by linarith) (by linarith) l0 l1 m1 m2
    (m2.trans_le hX)) (wp d))) (hn m m1 mX)) (integral_rpow_pos hl hl1)
  have pA' : 0 < A' := hA' ▸ div_pos (div_pos (mul_pos hc' (mul_pos (val_pos h0 (by linarith) (by linarith) l0' l1' m1 m3
    (m3.trans_le hX')) (wp d'))) (hn' m m1 mX)) (integral_rpow_pos hl hl1)
  have key : ∀ᵐ q : ℝ, q ∈ Ioo (lo / m) 1 → A * q ^ beta * taper ((m * q - lo) / d) =
      A' * q ^ beta' * taper ((m * q - lo) / d') := by
    filter_upwards [hmq] with q hq hqm
    have e := hq m0 mX (hl.trans hqm.1) hqm.2.le
    unfold pairDensity at e
    rw [if_pos m1, if_pos m1, shape_eq h0 m1 hqm.1 hqm.2, shape_eq h0 m1 hqm.1 hqm.2] at e
    rw [hA, hA']
    linear_combination e
  have r1 : (lo + D) / m < 1 := (div_lt_one m0).2 hm.1
  have r0 : lo / m < (lo + D) / m := div_lt_div_of_pos_right (by linarith) m0
  have plat : ∀ d : ℝ, 0 < d → d ≤ D → ∀ q, (lo + D) / m < q → taper ((m * q - lo) / d) = taper 1 := by
    intro d hd hdD q hq
    apply taper_one
    rw [le_div_iff₀ hd]
    have : lo + D < m * q := by rw [mul_comm]; exact (div_lt_iff₀ m0).1 hq
    linarith
  have cont : ∀ (B e : ℝ), ContinuousOn (fun q : ℝ => B * q ^ e) (Ioo ((lo + D) / m) 1) := fun B e q hq =>
    (continuousAt_const.mul (Real.continuousAt_rpow_const q e (Or.inl ((hl.trans r0).trans hq.1).ne'))).continuousWithinAt
  have all : ∀ q ∈ Ioo ((lo + D) / m) 1, A * q ^ beta = A' * q ^ beta' := eq_of_ae (cont A beta) (cont A' beta') (by
    filter_upwards [key] with q hq hqm
    have e := hq ⟨r0.trans hqm.1, hqm.2⟩
    rw [plat d hd hdD q hqm.1, plat d' hd' hdD' q hqm.1] at e
    exact mul_right_cancel₀ (taper_pos 1).ne' e)
  have e2 : beta = beta' := slope (hl.trans r0).le r1 (div_pos pA' pA) fun q hq => by
    rw [div_mul_eq_mul_div, eq_div_iff pA.ne', mul_comm]
    exact all q hq
  subst e2
  obtain ⟨q, hq1, hq2⟩ := exists_between r1
  have eA : A = A' := mul_right_cancel₀ (Real.rpow_pos_of_pos ((hl.trans r0).trans hq1) beta).ne' (all q ⟨hq1, hq2⟩)
  have tap : ∀ᵐ q : ℝ, q ∈ Ioo (lo / m) 1 → taper ((m * q - lo) / d) = taper ((m * q - lo) / d') := by
    filter_upwards [key] with q hq hqm
    have e := hq hqm
    rw [← eA] at e
    exact mul_left_cancel₀ (mul_pos pA (Real.rpow_pos_of_pos (hl.trans hqm.1) _)).ne' e
  have e3 : d = d' := le_antisymm
    (width_le h0 hd' (by linarith [hm.1]) (tap.mono fun q hq hh => (hq hh).symm)) (width_le h0 hd (by linarith [hm.1]) tap)
  subst e3
  have fin : ∀ᵐ x : ℝ, 0 < x → c * (val a lo hi lam mu s X x * window lo X d x) =
      c' * (val a' lo hi' lam' mu' s' X x * window lo X d x) := by
    filter_upwards [sl, Measure.ae_ne volume lo] with x hx hne hx0
    by_cases hin : lo < x ∧ x ≤ X
    · obtain ⟨q, hq, e⟩ := exists_point hx ((div_lt_one hx0).2 hin.1)
      have e := e hx0 hin.2 ((div_pos h0 hx0).trans hq.1) hq.2.le
      unfold pairDensity at e
      rw [if_pos hin.1, if_pos hin.1, ← hnn rfl rfl rfl x hin.1 hin.2, ← mul_assoc c, ← mul_assoc c'] at e
      exact mul_right_cancel₀ (div_pos (shape_pos h0 hin.1 hq.1 hq.2) (hn x hin.1 hin.2)).ne' e
    · have hw : window lo X d x = 0 := by
        unfold window
        rw [if_neg fun hh => hin ⟨lt_of_le_of_ne hh.1 hne.symm, hh.2⟩]
      rw [hw, mul_zero, mul_zero, mul_zero, mul_zero]
  obtain ⟨f1, f2, f3, f4, f5, f6, f7, -⟩ := smoothed_determined h0 h (h.trans_le hX) l0 l1 hs hd hdD h0' h'
    (h'.trans_le hX') l0' l1' hs' hd' hdD' hX hX' le_rfl le_rfl hc hc' fin
  exact ⟨f1, rfl, rfl, f3, f4, f5, f6, rfl⟩

/-! ### The norm of the mass ratio -/

theorem list_lower (l : List ℝ) (P : ℝ → Prop) (f : ℝ → ℝ) (h : ∀ x ∈ l, P x → 0 < f x) :
    ∃ e, 0 < e ∧ ∀ x ∈ l, P x → e ≤ f x := by
  induction l with
  | nil => exact ⟨1, one_pos, fun x hx => absurd hx List.not_mem_nil⟩
  | cons y l ih =>
    obtain ⟨e, he, hl⟩ := ih fun x hx => h x (List.mem_cons_of_mem _ hx)
    by_cases hy : P y
    · refine ⟨min e (f y), lt_min he (h y List.mem_cons_self hy), fun x hx hP => ?_⟩
      rcases List.mem_cons.1 hx with rfl | hx
      · exact min_le_right _ _
      · exact (min_le_left _ _).trans (hl x hx hP)
    · refine ⟨e, he, fun x hx hP => ?_⟩
      rcases List.mem_cons.1 hx with rfl | hx
      · exact absurd hP hy
      · exact hl x hx hP

/-- The two grid masses around a mass, and the weights of the linear interpolation. -/
theorem cell {a b : ℝ} (hab : a < b) {n : ℕ} (hn : 2 ≤ n) {m : ℝ} (hm : m ∈ Icc a b) :
    ∃ x0 ∈ Arr.linspaceR a b n, ∃ x1 ∈ Arr.linspaceR a b n, x0 ≤ m ∧ m ≤ x1 ∧ x1 - x0 = (b - a) / ((n : ℝ) - 1) ∧
      ∀ f : ℝ → Fl, interpLinear (Arr.linspaceR a b n) ((Arr.linspaceR a b n).map f) (fin m) =
        f x0 + fin ((m - x0) / (x1 - x0)) * (f x1 - f x0) := by
  have h1 : (0 : ℝ) < (n : ℝ) - 1 := by
    have : (2 : ℝ) ≤ n := by exact_mod_cast hn
    linarith
  set xs := Arr.linspaceR a b n with hxs
  have hlen : xs.length = n := linspaceR_length a b n
  have hs : xs.Pairwise (· < ·) := linspaceR_sorted hab hn
  set k := (xs.filter (fun x => x ≤ m)).length with hk
  set i := min (k - 1) (xs.length - 2) with hi
  have hi0 : i < xs.length := by omega
  have hi1 : i + 1 < xs.length := by omega
  have hkle : k ≤ xs.length := List.length_filter_le _ _
  have hk1 : 1 ≤ k := by
    have := (filter_le_count hs m (j := 0) (by omega)).1 (by
      rw [linspaceR_getElem]; simpa using hm.1)
    omega
  have hdx : xs[i + 1] - xs[i] = (b - a) / ((n : ℝ) - 1) := by
    simp only [hxs]
    rw [linspaceR_getElem, linspaceR_getElem]
    push_cast
    ring
  have hlo : xs[i] ≤ m := (filter_le_count hs m hi0).2 (by omega)
  have hhi : m ≤ xs[i + 1] := by
    by_cases hc : k - 1 ≤ xs.length - 2
    · have : ¬ xs[i + 1] ≤ m := by rw [filter_le_count hs m hi1]; omega
      linarith
    · have e : i + 1 = n - 1 := by omega
      have : xs[i + 1] = b := by
        simp only [hxs]
        rw [linspaceR_getElem, e, Nat.cast_sub (by omega), Nat.cast_one, mul_div_assoc,
          div_self h1.ne']
        ring
      rw [this]; exact hm.2
  refine ⟨xs[i], List.getElem_mem hi0, xs[i + 1], List.getElem_mem hi1, hlo, hhi, hdx, fun f => ?_⟩
  have hget : ∀ j (hj : j < xs.length), xs.getD j 0 = xs[j] := fun j hj =>
    List.getD_eq_getElem (l := xs) (d := 0) hj
  have hgetY : ∀ j (hj : j < xs.length), (xs.map f).getD j nan = f xs[j] := fun j hj => by
    rw [List.getD_eq_getElem (l := xs.map f) (d := nan) (by simpa using hj)]
    simp
  simp only [interpLinear]
  rw [← hk, ← hi, hget i hi0, hget (i + 1) hi1, hgetY i hi0, hgetY (i + 1) hi1]

theorem pQVal_ne (b : Backend) {m q : ℝ} (hd : 0 < d) (h0 : 0 < lo) (hm : 0 < m) (hne : m ≠ lo)
    (hq : 0 < q) : pQVal b (fin beta) (fin lo) (fin d) (fin m) (fin q) = fin (shape beta lo d m q) := by
  unfold pQVal
  rw [massRatioFactor_eq b h0 hm hne hq, fin_mul, smoothing_fin b _ lo m hd]
  exact fin_mul _ _

theorem qNormAt_ne (b : Backend) {sm : Smoothed} {nQ : ℕ} (hn : 2 ≤ nQ)
    (hs : sm.qs = Arr.linspaceR 0.001 1 nQ) {m : ℝ} (hd : 0 < d) (h0 : 0 < lo)
    (hm : 0 < m) (hne : m ≠ lo) : qNormAt b sm (fin beta) (fin lo) (fin d) m = fin (gridNorm beta lo d m nQ) := by
  unfold qNormAt
  have e : (sm.qs.map fun q => pQVal b (fin beta) (fin lo) (fin d) (fin m) (fin q)) =
      (sm.qs.map fun q => shape beta lo d m q).map fin := by
    rw [List.map_map]
    apply List.map_congr_left
    intro q hq
    have := (linspaceR_mem (by norm_num) hn (hs ▸ hq)).1
    exact pQVal_ne b hd h0 hm hne (lt_of_lt_of_le (by norm_num) this)
  have hd0 : ¬ eqf (fin d) 0 := by simp [hd.ne']
  rw [e, Arr.trapz_fin, nanToNum_fin, ind_true hd0, ind_false hd0, hs]
  simp [gridNorm, shape]

theorem gridNorm_below {m : ℝ} (hm : 0 < m) (h : m < lo) (nQ : ℕ) : gridNorm beta lo d m nQ = 0 := by
  unfold gridNorm
  have e : ((Arr.linspaceR 0.001 1 nQ).map fun q => Spec.normalised (fun t => t ^ beta) (lo / m) 1 q *
      window lo m d (m * q)) = ((Arr.linspaceR 0.001 1 nQ).map fun _ => (0 : ℝ)).map (· * 0) := by
    rw [List.map_map]
    apply List.map_congr_left
    intro q hq
    have : 1 < lo / m := (one_lt_div hm).2 h
    unfold Spec.normalised
    rw [if_neg fun hh => absurd (hh.1.trans hh.2) (not_le.2 this)]
    simp
  rw [e, Arr.trapzR_map_mul, mul_zero]

/-- The norm of the mass ratio is bounded below above the smallest mass. -/
theorem norm_lower (b : Backend) {sm : Smoothed} {selfMin selfMax : ℝ} {nM nQ : ℕ} (hM : 2 ≤ nM) (hQ : 2 ≤ nQ)
    (hself : 0 < selfMin) (hlt : selfMin < selfMax) (hlo : selfMin ≤ lo)
    (hm1 : sm.m1s = Arr.linspaceR selfMin selfMax nM) (hqs : sm.qs = Arr.linspaceR 0.001 1 nQ) (hd : 0 < d)
    (hgrid : lo ∉ sm.m1s) (beta : ℝ) : ∃ κ, 0 < κ ∧ ∀ m, lo < m → m ≤ selfMax → ∃ r, κ ≤ r ∧
      interpLinear sm.m1s (sm.m1s.map (qNormAt b sm (fin beta) (fin lo) (fin d))) (fin m) = fin r := by
  have h0 : 0 < lo := hself.trans_le hlo
  have hw : 0 < (selfMax - selfMin) / ((nM : ℝ) - 1) := by
    have : (2 : ℝ) ≤ nM := by exact_mod_cast hM
    exact div_pos (by linarith) (by linarith)
  obtain ⟨w, hwe⟩ : ∃ w, w = (selfMax - selfMin) / ((nM : ℝ) - 1) := ⟨_, rfl⟩
  rw [← hwe] at hw
  obtain ⟨e, he, hle⟩ := list_lower sm.m1s (fun x => lo < x) (fun x => gridNorm beta lo d x nQ)
    fun x _ hx => gridNorm_pos beta d h0 hx hQ
  obtain ⟨δ, hδ, hld⟩ := list_lower sm.m1s (fun x => x < lo) (fun x => lo - x) fun x _ hx => sub_pos.2 hx
  refine ⟨min e (δ / w * e), lt_min he (mul_pos (div_pos hδ hw) he), fun m hm hmX => ?_⟩
  obtain ⟨x0, hx0, x1, hx1, l, u, hdx, hval⟩ := cell hlt hM (m := m) ⟨by linarith, hmX⟩
  rw [← hm1] at hx0 hx1 hval
  rw [← hwe] at hdx
  have p0 : 0 < x0 := hself.trans_le (linspaceR_mem hlt.le hM (hm1 ▸ hx0)).1
  have g1 := hle x1 hx1 (hm.trans_le u)
  have n0 : x0 ≠ lo := fun hh => hgrid (hh ▸ hx0)
  rw [hval, qNormAt_ne b hQ hqs hd h0 p0 n0, qNormAt_ne b hQ hqs hd h0 ((h0.trans hm).trans_le u)
    (hm.trans_le u).ne', fin_sub, fin_mul, fin_add]
  refine ⟨_, ?_, rfl⟩
  rw [hdx]
  rcases lt_or_gt_of_ne n0 with hx | hx
  · rw [gridNorm_below p0 hx, sub_zero, zero_add]
    refine (min_le_right _ _).trans (mul_le_mul (div_le_div_of_nonneg_right ?_ hw.le) g1 he.le
      (div_nonneg (by linarith) hw.le))
    have := hld x0 hx0 hx
    linarith
  · have g0 := hle x0 hx0 hx
    refine (min_le_left _ _).trans ?_
    have t0 : 0 ≤ (m - x0) / w := div_nonneg (by linarith) hw.le
    have t1 : (m - x0) / w ≤ 1 := (div_le_one hw).2 (by linarith)
    nlinarith [mul_nonneg t0 (sub_nonneg.2 g1), mul_nonneg (sub_nonneg.2 t1) (sub_nonneg.2 g0)]

/-- The norm that the mass ratio at a primary mass is divided by. -/
def normAt (b : Backend) (sm : Smoothed) (beta lo d m : ℝ) : ℝ :=
  Fl.val (interpLinear sm.m1s (sm.m1s.map (qNormAt b sm (fin beta) (fin lo) (fin d))) (fin m))

theorem normAt_measurable (b : Backend) {sm : Smoothed} (h2 : 2 ≤ sm.m1s.length) (beta lo d : ℝ) :
    Measurable (normAt b sm beta lo d) := by
  choose f hf using fun m => qNormAt_finite b sm (fin beta) (fin lo) (fin d) m
  set xs := sm.m1s with hxs
  obtain ⟨i, hi⟩ : ∃ i : ℝ → ℕ, i = fun m => min ((xs.filter (fun x => x ≤ m)).length - 1) (xs.length - 2) := ⟨_, rfl⟩
  have hmono : Monotone i := by
    intro m m' h
    rw [hi]
    have : (xs.filter (fun x => x ≤ m)).length ≤ (xs.filter (fun x => x ≤ m')).length :=
      (List.monotone_filter_right xs fun x hx => by
        simp only [decide_eq_true_eq] at hx ⊢
        exact hx.trans h).length_le
    simp only
    omega
  have hm := hmono.measurable
  have hi1 : ∀ m, i m + 1 < xs.length := fun m => by
    rw [hi]
    simp only
    omega
  obtain ⟨y, hy⟩ : ∃ y : ℕ → ℝ, y = fun j => f (xs.getD j 0) := ⟨_, rfl⟩
  have gy : ∀ j, j < xs.length → (xs.map (qNormAt b sm (fin beta) (fin lo) (fin d))).getD j nan = fin (y j) := fun j hj => by
    rw [List.getD_eq_getElem (l := xs.map (qNormAt b sm (fin beta) (fin lo) (fin d))) (d := nan) (by simpa using hj),
      List.getElem_map, hf, hy]
    simp only
    rw [List.getD_eq_getElem (l := xs) (d := 0) hj]
  have e : normAt b sm beta lo d = fun m => y (i m) + (m - (fun j => xs.getD j 0) (i m)) /
      (fun j => xs.getD (j + 1) 0 - xs.getD j 0) (i m) * (fun j => y (j + 1) - y j) (i m) := by
    funext m
    unfold normAt
    rw [← hxs]
    simp only [interpLinear]
    have him : min ((xs.filter (fun x => x ≤ m)).length - 1) (xs.length - 2) = i m := by rw [hi]
    rw [him, gy _ (by have := hi1 m; omega), gy _ (hi1 m), fin_sub, fin_mul, fin_add]
    rfl
  rw [e]
  have c : ∀ u : ℕ → ℝ, Measurable fun m => u (i m) := fun u => measurable_from_top.comp hm
  exact (c y).add (((measurable_id.sub (c fun j => xs.getD j 0)).div (c fun j => xs.getD (j + 1) 0 - xs.getD j 0)).mul
    (c fun j => y (j + 1) - y j))

theorem integral_rpow_measurable (beta : ℝ) : Measurable fun u : ℝ => ∫ t in u..1, t ^ beta := by
  have m1 : Measurable fun z : ℝ × ℝ => if z.1 < z.2 ∧ z.2 ≤ 1 then z.2 ^ beta else 0 :=
    Measurable.ite ((measurableSet_lt measurable_fst measurable_snd).inter (measurableSet_le measurable_snd measurable_const))
      (measurable_snd.pow_const _) measurable_const
  have m2 : Measurable fun z : ℝ × ℝ => if 1 < z.2 ∧ z.2 ≤ z.1 then z.2 ^ beta else 0 :=
    Measurable.ite ((measurableSet_lt measurable_const measurable_snd).inter (measurableSet_le measurable_snd measurable_fst))
      (measurable_snd.pow_const _) measurable_const
  have e : (fun u : ℝ => ∫ t in u..1, t ^ beta) = fun u => (∫ t, if u < t ∧ t ≤ 1 then t ^ beta else 0) -
      ∫ t, if 1 < t ∧ t ≤ u then t ^ beta else 0 := by
    funext u
    unfold intervalIntegral
    rw [← integral_indicator measurableSet_Ioc, ← integral_indicator measurableSet_Ioc]
    simp only [Set.indicator_apply, Set.mem_Ioc]
  rw [e]
  exact (m1.stronglyMeasurable.integral_prod_right').measurable.sub (m2.stronglyMeasurable.integral_prod_right').measurable

/-- The values of the model. -/
theorem call_value (b : Backend) (py : Bool) {selfMin selfMax : ℝ} {nM nQ : ℕ} {cache : Bool} {sm : Smoothed}
    (hsm : singlePeak py selfMin selfMax nM nQ cache = .ok sm) (hself : 0 < selfMin) (hlt : selfMin < selfMax)
    (ha : b = .jax ∨ a ≠ -1) (hlo : selfMin ≤ lo) (h : lo < hi) (hX : hi ≤ selfMax) (l0 : 0 < lam) (l1 : lam < 1)
    (hs : 0 < s) (hd : 0 < d) (hnode : ∃ m ∈ sm.m1s, lo < m ∧ m < hi) (hgrid : lo ∉ sm.m1s) (beta mu : ℝ) :
    ∃ N κ, 0 < N ∧ 0 < κ ∧ (∀ m, lo < m → m ≤ selfMax → κ ≤ normAt b sm beta lo d m) ∧
      ∀ m q, 0 < m → m ≤ selfMax → m ≠ lo → 0 < q →
        (Smoothed.call b sm [(fin m, fin q)] (peakCall a beta lo hi lam mu s d)).1 =
          .ok [fin (pairDensity a beta lo hi lam mu s selfMax d selfMax (normAt b sm beta lo d) m q / N)] := by
  have h0 : 0 < lo := hself.trans_le hlo
  obtain ⟨N, hN, e1⟩ := peak_pM1 (mu := mu) b py hsm hself hlt ha h0 h hX l0 l1 hs hd hnode
  obtain ⟨hM, hQ, hsme⟩ := init_inv hsm
  have hm1 : sm.m1s = Arr.linspaceR selfMin selfMax nM := by rw [hsme]
  have hqs : sm.qs = Arr.linspaceR 0.001 1 nQ := by rw [hsme]
  have hmin : sm.mmin = selfMin := by rw [hsme]
  have hmax : sm.mmax = selfMax := by rw [hsme]
  have hfix : sm.fixed = [("gaussian_mass_maximum", fin selfMax)] := by rw [hsme]
  have hqm : sm.qMasses = none := by rw [hsme]
  obtain ⟨κ, hκ, hlow⟩ := norm_lower b hM hQ hself hlt hlo hm1 hqs hd hgrid beta
  have hnorm : ∀ m, lo < m → m ≤ selfMax → κ ≤ normAt b sm beta lo d m ∧
      interpLinear sm.m1s (sm.m1s.map (qNormAt b sm (fin beta) (fin lo) (fin d))) (fin m) =
        fin (normAt b sm beta lo d m) := fun m h1 h2 => by
    obtain ⟨r, hr, e⟩ := hlow m h1 h2
    unfold normAt
    rw [e]
    exact ⟨hr, rfl⟩
  refine ⟨N, κ, hN, hκ, fun m h1 h2 => (hnorm m h1 h2).1, fun m q hm hmX hne hq => ?_⟩
  have kb : Dict.get? (peakCall a beta lo hi lam mu s d) "beta" = some (fin beta) := by
    simp [peakCall, Dict.get?_cons]
  have k1 : ∀ x, Smoothed.kwGet (Dict.erase (peakCall a beta lo hi lam mu s d) "beta") "mmin" x = fin lo := fun x => by
    simp [Smoothed.kwGet, peakCall, Dict.get?_cons, Dict.get?_erase]
  have k2 : ∀ x, Smoothed.kwGet (Dict.erase (peakCall a beta lo hi lam mu s d) "beta") "mmax" x = fin hi := fun x => by
    simp [Smoothed.kwGet, peakCall, Dict.get?_cons, Dict.get?_erase]
  have k3 : ∀ x, Smoothed.kwGet (Dict.erase (peakCall a beta lo hi lam mu s d) "beta") "delta_m" x = fin d := fun x => by
    simp [Smoothed.kwGet, peakCall, Dict.get?_cons, Dict.get?_erase]
  have k4 : Dict.erase (peakCall a beta lo hi lam mu s d) "beta" ++ sm.fixed = peakKwargs a lo hi lam mu s d selfMax := by
    rw [hfix]
    simp [peakCall, peakKwargs, Dict.erase]
  have e2 := pQ_fresh b sm [(fin m, fin q)] (fin beta) (fin lo) (fin d) (Or.inr (Or.inl hqm))
  unfold Smoothed.call
  rw [kb]
  simp only
  rw [k1, k2, k3, if_neg (fun hh => by have := hh.2; rw [hmin] at this; simp only [fin_lt] at this; linarith),
    if_neg (fun hh => by have := hh.2; rw [hmax] at this; simp only [fin_lt] at this; linarith), if_neg ?_, k4]
  · rw [show ([(fin m, fin q)] : List (Fl × Fl)).map Prod.fst = [fin m] from rfl, e1 m hm]
    simp only
    rcases hp : Smoothed.pQ b sm [(fin m, fin q)] (fin beta) (fin lo) (fin d) with ⟨r, s'⟩
    rw [hp] at e2
    simp only at e2
    subst e2
    simp only [List.map_cons, List.map_nil]
    rw [broadcast_same b _ (by simp), List.zipWith_cons_cons, List.zipWith_nil_left]
    rcases lt_or_gt_of_ne hne with hlt' | hgt
    · obtain ⟨r, hr⟩ := nanToNum_finite (pQVal b (fin beta) (fin lo) (fin d) (fin m) (fin q) /
        interpLinear sm.m1s (sm.m1s.map (qNormAt b sm (fin beta) (fin lo) (fin d))) (fin m))
      rw [hr, fin_mul]
      unfold pairDensity
      rw [if_neg (not_lt.2 hlt'.le), val_below hlt']
      simp
    · obtain ⟨hk, hi'⟩ := hnorm m hgt hmX
      rw [hi', pQVal_ne b hd h0 hm hne hq, fin_div (hκ.trans_le hk).ne', nanToNum_fin, fin_mul]
      unfold pairDensity
      rw [if_pos hgt]
      congr 3
      ring
  · rintro ⟨k, hk, hk'⟩
    rw [hfix] at hk'
    simp [Dict.keys, peakCall, Dict.erase] at hk hk'
    subst hk'
    simp at hk

end SmoothedJoint

open SmoothedJoint

/-! ## The property -/

/-- **C164.** The joint density of primary mass and mass ratio of the smoothed model with one peak determines all eight
parameters. -/
theorem C164_determined (b : Backend) (py : Bool) {selfMin selfMax : ℝ} {nM nQ : ℕ} {cache : Bool} {sm : Smoothed}
    {a beta lo hi lam mu s d a' beta' lo' hi' lam' mu' s' d' D : ℝ}
    (hsm : singlePeak py selfMin selfMax nM nQ cache = .ok sm) (hself : 0 < selfMin) (hlt : selfMin < selfMax)
    (ha : b = .jax ∨ a ≠ -1) (hlo : selfMin ≤ lo) (h : lo + D < hi) (hX : hi ≤ selfMax) (l0 : 0 < lam) (l1 : lam < 1)
    (hs : 0 < s) (hd : 0 < d) (hdD : d ≤ D) (hnode : ∃ m ∈ sm.m1s, lo < m ∧ m < hi) (hgrid : lo ∉ sm.m1s)
    (ha' : b = .jax ∨ a' ≠ -1) (hlo' : selfMin ≤ lo') (h' : lo' + D < hi') (hX' : hi' ≤ selfMax) (l0' : 0 < lam')
    (l1' : lam' < 1) (hs' : 0 < s') (hd' : 0 < d') (hdD' : d' ≤ D) (hnode' : ∃ m ∈ sm.m1s, lo' < m ∧ m < hi')
    (hgrid' : lo' ∉ sm.m1s)
    (hsame : ∀ᵐ x : ℝ × ℝ, 0 < x.1 → x.1 ≤ selfMax → 0 < x.2 → x.2 ≤ 1 →
      (Smoothed.call b sm [(fin x.1, fin x.2)] (peakCall a beta lo hi lam mu s d)).1 =
        (Smoothed.call b sm [(fin x.1, fin x.2)] (peakCall a' beta' lo' hi' lam' mu' s' d')).1) :
    a = a' ∧ beta = beta' ∧ lo = lo' ∧ hi = hi' ∧ lam = lam' ∧ mu = mu' ∧ s = s' ∧ d = d' := by
  have line : ∀ c : ℝ, ∀ᵐ x : ℝ × ℝ, x.1 ≠ c := fun c => by
    rw [Measure.volume_eq_prod]
    exact Measure.quasiMeasurePreserving_fst.ae (Measure.ae_ne volume c)
  obtain ⟨N, κ, hN, hκ, hn, e⟩ := call_value b py hsm hself hlt ha hlo (by linarith) hX l0 l1 hs hd hnode hgrid beta mu
  obtain ⟨N', κ', hN', hκ', hn', e'⟩ := call_value b py hsm hself hlt ha' hlo' (by linarith) hX' l0' l1' hs' hd' hnode'
    hgrid' beta' mu'
  refine joint_determined (c := 1 / N) (c' := 1 / N') (hself.trans_le hlo) h l0 l1 hs hd hdD (hself.trans_le hlo') h' l0'
    l1' hs' hd' hdD' hX hX' (by positivity) (by positivity) (fun m h1 h2 => hκ.trans_le (hn m h1 h2))
    (fun m h1 h2 => hκ'.trans_le (hn' m h1 h2)) (fun e1 e2 e3 m _ _ => by rw [e1, e2, e3]) ?_
  filter_upwards [hsame, line lo, line lo'] with x hx n1 n2 h1 h2 h3 h4
  have := hx h1 h2 h3 h4
  rw [e _ _ h1 h2 n1 h3, e' _ _ h1 h2 n2 h3] at this
  have := Fl.fin.inj (List.cons.inj (Except.ok.inj this)).1
  rw [one_div_mul_eq_div, one_div_mul_eq_div]
  exact this

/-- **C164.** All eight parameters are found from noisy primary masses and mass ratios of detected sources. -/
theorem C164_recovers {J : Type} [Fintype J] {p : J → ℝ × ℝ → ℝ} {j₀ : J} (b : Backend) (py : Bool) {selfMin selfMax : ℝ}
    {nM nQ : ℕ} {cache : Bool} {sm : Smoothed} {a beta lo hi lam mu s d : J → ℝ} {D : ℝ} {v₁ v₂ : NNReal}
    {Det : Set (ℝ × ℝ)}
    (hsm : singlePeak py selfMin selfMax nM nQ cache = .ok sm) (hself : 0 < selfMin) (hlt : selfMin < selfMax)
    (ha : ∀ j, b = .jax ∨ a j ≠ -1) (hlo : ∀ j, selfMin ≤ lo j) (h : ∀ j, lo j + D < hi j) (hX : ∀ j, hi j ≤ selfMax)
    (l0 : ∀ j, 0 < lam j) (l1 : ∀ j, lam j < 1) (hs : ∀ j, 0 < s j) (hd : ∀ j, 0 < d j) (hdD : ∀ j, d j ≤ D)
    (hnode : ∀ j, ∃ m ∈ sm.m1s, lo j < m ∧ m < hi j) (hgrid : ∀ j, lo j ∉ sm.m1s)
    (hinj : ∀ j, j ≠ j₀ → (a j, beta j, lo j, hi j, lam j, mu j, s j, d j) ≠
      (a j₀, beta j₀, lo j₀, hi j₀, lam j₀, mu j₀, s j₀, d j₀))
    (hp : ∀ j m q, 0 < m → m ≤ selfMax → m ≠ lo j → 0 < q → q ≤ 1 → (Smoothed.call b sm [(fin m, fin q)]
      (peakCall (a j) (beta j) (lo j) (hi j) (lam j) (mu j) (s j) (d j))).1 = .ok [fin (p j (m, q))])
    (hm : ∀ j, Measurable (p j)) (hv₁ : v₁ ≠ 0) (hv₂ : v₂ ≠ 0) (hDet : MeasurableSet Det) :
    Recovers (volume.restrict (Ioc 0 selfMax ×ˢ Ioc 0 1)) volume (gaussianErrors2 v₁ v₂) Det p j₀ := by
  have line : ∀ c : ℝ, ∀ᵐ x : ℝ × ℝ, x.1 ≠ c := fun c => by
    rw [Measure.volume_eq_prod]
    exact Measure.quasiMeasurePreserving_fst.ae (Measure.ae_ne volume c)
  have h0 : ∀ j, 0 < lo j := fun j => hself.trans_le (hlo j)
  have lh : ∀ j, lo j < hi j := fun j => by linarith [h j, hd j, hdD j]
  have lg : ∀ j, lo j < selfMax := fun j => (lh j).trans_le (hX j)
  choose N κ hN hκ hn e using fun j => call_value b py hsm hself hlt (ha j) (hlo j) (lh j) (hX j) (l0 j) (l1 j) (hs j)
    (hd j) (hnode j) (hgrid j) (beta j) (mu j)
  set V : Set (ℝ × ℝ) := Ioc 0 selfMax ×ˢ Ioc 0 1 with hV
  have hVm : MeasurableSet V := measurableSet_Ioc.prod measurableSet_Ioc
  have pe : ∀ j, ∀ x ∈ V, x.1 ≠ lo j → p j x = pairDensity (a j) (beta j) (lo j) (hi j) (lam j) (mu j) (s j) selfMax (d j) selfMax
      (normAt b sm (beta j) (lo j) (d j)) x.1 x.2 / N j := fun j x hx hne =>
    Fl.fin.inj (List.cons.inj (Except.ok.inj ((hp j x.1 x.2 hx.1.1 hx.1.2 hne hx.2.1 hx.2.2).symm.trans
      (e j x.1 x.2 hx.1.1 hx.1.2 hne hx.2.1)))).1
  have vn : ∀ j m, 0 ≤ Peak.val (a j) (lo j) (hi j) (lam j) (mu j) (s j) selfMax m := fun j =>
    (twoComponent_isPdf (a := a j) (mpp := mu j) (sigpp := s j) (h0 j) (lh j) (lg j) (l0 j).le (l1 j).le).nonneg
  have jn : ∀ j, ∀ x ∈ V, 0 ≤ pairDensity (a j) (beta j) (lo j) (hi j) (lam j) (mu j) (s j) selfMax (d j) selfMax
      (normAt b sm (beta j) (lo j) (d j)) x.1 x.2 := fun j x hx => by
    unfold pairDensity
    split_ifs with hl
    · exact mul_nonneg (mul_nonneg (vn j _) (window_nonneg _ _ _ _)) (div_nonneg (shape_nonneg (h0 j) hx.1.1)
        ((hκ j).le.trans (hn j _ hl hx.1.2)))
    · exact le_rfl
  have pn : ∀ j, ∀ᵐ x ∂volume.restrict V, 0 ≤ p j x := fun j => by
    filter_upwards [ae_restrict_mem hVm, ae_restrict_of_ae (line (lo j))] with x hx hl
    rw [pe j x hx hl]
    exact div_nonneg (jn j x hx) (hN j).le
  have pi : ∀ j, IntegrableOn (p j) V := fun j => by
    have model := C19_twoComponentPrimaryMassRatio (beta := beta j) (mpp := mu j) b py (ha j) (h0 j) (lh j) (lg j) (hs j)
      (l0 j).le (l1 j).le
    obtain ⟨g, eg, -, gi, -⟩ := model.joint
    have ge : ∀ x : ℝ × ℝ, 0 < x.1 → x.1 ≠ lo j → 0 < x.2 → g x = Peak.val (a j) (lo j) (hi j) (lam j) (mu j) (s j) selfMax
        x.1 * Spec.normalised (fun t => t ^ beta j) (lo j / x.1) 1 x.2 := fun x h1 h2 h3 => by
      obtain ⟨r, er, eR⟩ := model.factor x.1 x.2 h1 h2 h3
      have e1 := Fl.fin.inj (Except.ok.inj ((eg x ⟨h1, h2, h3⟩).symm.trans eR))
      have e2 := Fl.fin.inj (Except.ok.inj (er.symm.trans
        (C18_twoComponentSingle_value b py (ha j) (h0 j) (lh j) (lg j) (hs j) h1)))
      rw [e1, e2]
      rfl
    have hVU : (V ∩ {x : ℝ × ℝ | 0 < x.1 ∧ x.1 ≠ lo j ∧ 0 < x.2} : Set (ℝ × ℝ)) =ᵐ[volume] V := by
      filter_upwards [line (lo j)] with x hx
      exact propext ⟨fun h => h.1, fun h => ⟨h, h.1.1, hx, h.2.1⟩⟩
    have gV : IntegrableOn g V := (gi.mono_set inter_subset_right).congr_set_ae hVU.symm
    refine Integrable.mono' (gV.div_const (N j * κ j)) (hm j).aestronglyMeasurable ?_
    filter_upwards [ae_restrict_mem hVm, ae_restrict_of_ae (line (lo j)), pn j] with x hx hl h1
    rw [Real.norm_of_nonneg h1, pe j x hx hl, ge x hx.1.1 hl hx.2.1, mul_comm (N j), ← div_div]
    refine div_le_div_of_nonneg_right ?_ (hN j).le
    unfold pairDensity
    split_ifs with hgt
    · rw [mul_div_assoc]
      have w1 : window (lo j) selfMax (d j) x.1 ≤ 1 := by
        unfold window
        split_ifs
        · exact (taper_lt_one _).le
        · exact zero_le_one
      have sn := shape_nonneg (beta := beta j) (d := d j) (q := x.2) (h0 j) hx.1.1
      refine mul_le_mul (mul_le_of_le_one_right (vn j _) w1) ?_ (div_nonneg sn ((hκ j).le.trans (hn j _ hgt hx.1.2)))
        (vn j _)
      exact div_le_div₀ (normalised_rpow_nonneg (div_pos (h0 j) hx.1.1) _ _) (shape_le (h0 j) hx.1.1) (hκ j)
        (hn j _ hgt hx.1.2)
    · exact div_nonneg (mul_nonneg (vn j _) (normalised_rpow_nonneg (div_pos (h0 j) hx.1.1) _ _)) (hκ j).le
  have pp : ∀ j, 0 < ∫ x in V, p j x := fun j => by
    rw [setIntegral_pos_iff_support_of_nonneg_ae (pn j) (pi j)]
    obtain ⟨m, m1, m2⟩ := exists_between (lh j)
    have mp : 0 < m := (h0 j).trans m1
    refine lt_of_lt_of_le ?_ (measure_mono (s := Ioo m (hi j) ×ˢ Ioo (lo j / m) 1) fun x hx => ?_)
    · rw [Measure.volume_eq_prod, Measure.prod_prod, Real.volume_Ioo, Real.volume_Ioo]
      exact ENNReal.mul_pos (ENNReal.ofReal_pos.2 (sub_pos.2 m2)).ne'
        (ENNReal.ofReal_pos.2 (sub_pos.2 ((div_lt_one mp).2 m1))).ne'
    · obtain ⟨⟨x1, x2⟩, y1, y2⟩ := hx
      have xp : 0 < x.1 := mp.trans x1
      have hxV : x ∈ V := ⟨⟨xp, x2.le.trans (hX j)⟩, (div_pos (h0 j) mp).trans y1, y2.le⟩
      refine ⟨?_, hxV⟩
      rw [Function.mem_support, pe j x hxV (m1.trans x1).ne']
      exact (div_pos (joint_pos (h0 j) (lh j) (hX j) le_rfl (l0 j) (l1 j)
        (fun m h1 h2 => (hκ j).trans_le (hn j m h1 h2)) (m1.trans x1) x2
        ((div_lt_div_of_pos_left (h0 j) mp x1).trans y1) y2) (hN j)).ne'
  have hKM : ∀ x ∈ Ioc 0 selfMax, |x| ≤ max selfMax 1 := fun x hx => by
    rw [abs_of_pos hx.1]; exact hx.2.trans (le_max_left _ _)
  have hK1 : ∀ x ∈ Ioc (0 : ℝ) 1, |x| ≤ max selfMax 1 := fun x hx => by
    rw [abs_of_pos hx.1]; exact hx.2.trans (le_max_right _ _)
  refine C161_recovers (SeveralErrors.resolves_two hv₁ hv₂ measurableSet_Ioc measurableSet_Ioc hKM hK1
    (zero_le_one.trans (le_max_right _ _))) hDet (fun j => ⟨hm j, pn j, pi j, pp j⟩) fun j hj k hk hae => hinj j hj ?_
  have pN := hN j
  have pN0 := hN j₀
  obtain ⟨e1, e2, e3, e4, e5, e6, e7, e8⟩ := joint_determined (a := a j) (mu := mu j) (a' := a j₀) (mu' := mu j₀)
    (c := 1 / N j) (c' := k / N j₀) (h0 j) (h j) (l0 j) (l1 j) (hs j) (hd j) (hdD j) (h0 j₀) (h j₀) (l0 j₀) (l1 j₀) (hs j₀)
    (hd j₀) (hdD j₀) (hX j) (hX j₀) (by positivity) (by positivity) (fun m h1 h2 => (hκ j).trans_le (hn j m h1 h2))
    (fun m h1 h2 => (hκ j₀).trans_le (hn j₀ m h1 h2))
    (fun (e1 : beta j = beta j₀) (e2 : lo j = lo j₀) (e3 : d j = d j₀) m _ _ => by rw [e1, e2, e3]) (by
      filter_upwards [(ae_restrict_iff' hVm).1 hae, line (lo j), line (lo j₀)] with x hx n1 n2 q1 q2 q3 q4
      have hxV : x ∈ V := ⟨⟨q1, q2⟩, q3, q4⟩
      have := hx hxV
      rw [pe j x hxV n1, pe j₀ x hxV n2] at this
      linear_combination this)
  rw [e1, e2, e3, e4, e5, e6, e7, e8]

/-! ## Non-vacuity -/

/-- Candidates for the index of the mass ratios and the range of the smoothing, with the defaults of the class for the
grids. -/
example (py cache : Bool) {v₁ v₂ : NNReal} {Det : Set (ℝ × ℝ)} (hv₁ : v₁ ≠ 0) (hv₂ : v₂ ≠ 0) (hD : MeasurableSet Det) :
    ∃ (sm : Smoothed) (p : Bool × Bool → ℝ × ℝ → ℝ),
    singlePeak py 2 100 1000 500 cache = .ok sm ∧ (∀ j, Measurable (p j)) ∧
    (∀ j m q, 0 < m → m ≤ 100 → m ≠ 5 → 0 < q → q ≤ 1 → (Smoothed.call .numpy sm [(fin m, fin q)]
      (peakCall 3.5 (if j.2 then 1.1 else 2) 5 85 0.04 35 4 (if j.1 then 4.8 else 5))).1 = .ok [fin (p j (m, q))]) ∧
    Recovers (volume.restrict (Ioc 0 100 ×ˢ Ioc 0 1)) volume (gaussianErrors2 v₁ v₂) Det p (true, true) := by
  obtain ⟨d, hde⟩ : ∃ a : Bool × Bool → ℝ, a = fun j => if j.1 then 4.8 else 5 := ⟨_, rfl⟩
  obtain ⟨be, hbe⟩ : ∃ a : Bool × Bool → ℝ, a = fun j => if j.2 then 1.1 else 2 := ⟨_, rfl⟩
  have d0 : ∀ j, 0 < d j := fun j => by rcases j with ⟨_ | _, _⟩ <;> norm_num [hde]
  have d1 : ∀ j, d j ≤ 5 := fun j => by rcases j with ⟨_ | _, _⟩ <;> norm_num [hde]
  obtain ⟨sm, hsm⟩ : ∃ sm, singlePeak py 2 100 1000 500 cache = .ok sm :=
    ⟨_, init_ok (primTwoComponent py) [("gaussian_mass_maximum", fin 100)] 2 100 (nM := 1000) (nQ := 500) cache
      (by norm_num) (by norm_num)⟩
  have hms := SmoothedPeak.grid_eq hsm
  have hlen : 2 ≤ sm.m1s.length := by rw [hms, linspaceR_length]; norm_num
  have hnode : ∃ m ∈ sm.m1s, (5 : ℝ) < m ∧ m < 85 := by
    rw [hms]
    unfold Arr.linspaceR
    exact ⟨_, List.mem_map.2 ⟨100, List.mem_range.2 (by norm_num), rfl⟩, by norm_num, by norm_num⟩
  have hgrid : (5 : ℝ) ∉ sm.m1s := by
    rw [hms]
    unfold Arr.linspaceR
    intro hh
    obtain ⟨i, -, hi⟩ := List.mem_map.1 hh
    have h2 : (98 : ℝ) * i = 2997 := by
      norm_num at hi
      linarith
    have h3 : 98 * i = 2997 := by exact_mod_cast h2
    omega
  choose N κ hN hκ hn e using fun j => call_value (a := 3.5) (lo := 5) (hi := 85) (lam := 0.04) (s := 4) .numpy py hsm
    (by norm_num) (by norm_num) (Or.inr (by norm_num)) (by norm_num) (by norm_num) (by norm_num) (by norm_num)
    (by norm_num) (by norm_num) (d0 j) hnode hgrid (be j) 35
  have hm : ∀ j, Measurable fun x : ℝ × ℝ => pairDensity 3.5 (be j) 5 85 0.04 35 4 100 (d j) 100
      (normAt .numpy sm (be j) 5 (d j)) x.1 x.2 / N j := fun j => by
    refine Measurable.div_const ?_ _
    unfold pairDensity
    refine Measurable.ite (measurableSet_lt measurable_const measurable_fst) (Measurable.mul (Measurable.mul ?_ ?_)
      (Measurable.div ?_ ((normAt_measurable .numpy hlen _ _ _).comp measurable_fst))) measurable_const
    · have : Measurable (Peak.val 3.5 5 85 0.04 35 4 100) := by
        unfold Peak.val Spec.normalised
        exact (measurable_const.mul (Measurable.ite measurableSet_Icc ((measurable_id.pow_const _).div_const _)
          measurable_const)).add (measurable_const.mul (Measurable.ite measurableSet_Icc
            ((gaussShape_continuous 35 4).measurable.div_const _) measurable_const))
      exact this.comp measurable_fst
    · have : Measurable (window 5 100 (d j)) := by
        unfold window
        exact Measurable.ite measurableSet_Icc
          (taper_continuous.measurable.comp ((measurable_id.sub_const _).div_const _)) measurable_const
      exact this.comp measurable_fst
    · unfold shape
      refine Measurable.mul ?_ ?_
      · unfold Spec.normalised
        refine Measurable.ite ((measurableSet_le (measurable_const.div measurable_fst) measurable_snd).inter
          (measurableSet_le measurable_snd measurable_const)) ((measurable_snd.pow_const _).div ?_) measurable_const
        exact (integral_rpow_measurable (be j)).comp (measurable_const.div measurable_fst)
      · unfold window
        exact Measurable.ite ((measurableSet_le measurable_const (measurable_fst.mul measurable_snd)).inter
          (measurableSet_le (measurable_fst.mul measurable_snd) measurable_fst))
          (taper_continuous.measurable.comp (((measurable_fst.mul measurable_snd).sub_const _).div_const _))
          measurable_const
  refine ⟨sm, _, hsm, hm, fun j m q h1 h2 h3 h4 _ => by rw [← e j m q h1 h2 h3 h4, hde, hbe],
    C164_recovers (beta := be) (d := d) .numpy py (D := 5)
    (a := fun _ => 3.5) (lo := fun _ => 5) (hi := fun _ => 85) (lam := fun _ => 0.04) (mu := fun _ => 35) (s := fun _ => 4)
    hsm (by norm_num) (by norm_num) (fun _ => Or.inr (by norm_num)) (fun _ => by norm_num) (fun _ => by norm_num)
    (fun _ => by norm_num) (fun _ => by norm_num) (fun _ => by norm_num) (fun _ => by norm_num) d0 d1 (fun _ => hnode)
    (fun _ => hgrid) (fun j hj => ?_) (fun j m q h1 h2 h3 h4 _ => e j m q h1 h2 h3 h4) hm hv₁ hv₂ hD⟩
  rcases j with ⟨_ | _, _ | _⟩
  · norm_num [hde]
  · norm_num [hde]
  · norm_num [hbe]
  · exact absurd rfl hj

end GW
