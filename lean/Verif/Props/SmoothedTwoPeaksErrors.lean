import Verif.Props.SmoothedJointErrors
import Verif.Props.TwoPeaksErrors

/-!
# C166: the smoothed model with two peaks is determined by its population up to the names of the peaks
-/

noncomputable section

open MeasureTheory ProbabilityTheory Filter Topology Set

namespace GW

open Fl Spec TruePopulation Posterior GaussianErrors

/-! ## Specification -/

/-- The parameters of the primary mass, with the upper end of the peaks that the model adds. -/
def Spec.twoPeakKwargs (a lo hi lam lam1 mu1 s1 mu2 s2 d g : ℝ) : Dict Fl :=
  [("alpha", fin a), ("mmin", fin lo), ("mmax", fin hi), ("lam", fin lam), ("lam_1", fin lam1), ("mpp_1", fin mu1),
    ("sigpp_1", fin s1), ("mpp_2", fin mu2), ("sigpp_2", fin s2), ("delta_m", fin d), ("gaussian_mass_maximum", fin g)]

/-- The parameters a user passes to the smoothed model with two peaks. -/
def Spec.twoPeakCall (a beta lo hi lam lam1 mu1 s1 mu2 s2 d : ℝ) : Dict Fl :=
  [("alpha", fin a), ("beta", fin beta), ("mmin", fin lo), ("mmax", fin hi), ("lam", fin lam), ("lam_1", fin lam1),
    ("mpp_1", fin mu1), ("sigpp_1", fin s1), ("mpp_2", fin mu2), ("sigpp_2", fin s2), ("delta_m", fin d)]

/-! ## Lemmas -/

namespace SmoothedTwoPeaks

open Identifiable Peak SmoothedPeak SmoothedJoint TwoPeaks

theorem primary_three (py : Bool) (b : Backend) (a lo hi lam lam1 mu1 s1 mu2 s2 d g : ℝ) (m : Fl) :
    primThreeComponent py b (Dict.erase (twoPeakKwargs a lo hi lam lam1 mu1 s1 mu2 s2 d g) "delta_m") m =
      threeComponentSingle b py m (fin a) (fin lo) (fin hi) (fin lam) (fin lam1) (fin mu1) (fin s1) (fin mu2) (fin s2)
        (fin g) := by
  have e : Dict.erase (twoPeakKwargs a lo hi lam lam1 mu1 s1 mu2 s2 d g) "delta_m" = [("alpha", fin a), ("mmin", fin lo),
      ("mmax", fin hi), ("lam", fin lam), ("lam_1", fin lam1), ("mpp_1", fin mu1), ("sigpp_1", fin s1), ("mpp_2", fin mu2),
      ("sigpp_2", fin s2), ("gaussian_mass_maximum", fin g)] := by
    simp [Dict.erase, twoPeakKwargs]
  rw [e]
  unfold primThreeComponent bindArgs
  rw [if_neg (by simp [Dict.keys, Dict.contains])]
  rfl

/-! ### The primary mass -/

variable {a beta lo hi lam lam1 mu1 s1 mu2 s2 d a' beta' lo' hi' lam' lam1' mu1' s1' mu2' s2' d' X D c c' : ℝ}

theorem two_lo (h0 : 0 < lo) (h : lo < hi) (l0 : 0 < lam) (l1 : lam < 1) (k0 : 0 < lam1) (k1 : lam1 < 1) (hX : hi ≤ X)
    (hc : 0 < c) (hae : ∀ᵐ x : ℝ, 0 < x → c * (density a lo hi lam lam1 mu1 s1 mu2 s2 X x * window lo X d x) =
      c' * (density a' lo' hi' lam' lam1' mu1' s1' mu2' s2' X x * window lo' X d' x)) : lo' ≤ lo := by
  by_contra hn
  have hn := not_le.1 hn
  obtain ⟨x, hx, hp⟩ := exists_point hae (lt_min hn h)
  have h1 := hx.2.trans_le (min_le_left _ _)
  have h2 := hx.2.trans_le (min_le_right _ _)
  have e := hp (h0.trans hx.1)
  rw [density_below h1, zero_mul, mul_zero, window_eq hx.1.le (h2.le.trans hX)] at e
  exact (mul_pos hc (mul_pos (density_pos h0 h (h.trans_le hX) l0 l1 k0 k1 hx.1 h2 (h2.trans_le hX))
    (taper_pos _))).ne' e

theorem scaled_fractions {Z Z1 Z2 : ℝ} (hZ : 0 < Z) (hZ1 : 0 < Z1) (hZ2 : 0 < Z2) (hc' : 0 < c') (l0' : 0 < lam')
    (h : c * ((1 - lam) / Z) = c' * ((1 - lam') / Z)) (h1 : c * (lam * lam1 / Z1) = c' * (lam' * lam1' / Z1))
    (h2 : c * (lam * (1 - lam1) / Z2) = c' * (lam' * (1 - lam1') / Z2)) : lam = lam' ∧ lam1 = lam1' := by
  rw [← mul_div_assoc, ← mul_div_assoc] at h h1 h2
  have e := (div_left_inj' hZ.ne').1 h
  have e1 := (div_left_inj' hZ1.ne').1 h1
  have e2 := (div_left_inj' hZ2.ne').1 h2
  have ec : c = c' := by linarith
  subst ec
  have el : lam = lam' := mul_left_cancel₀ hc'.ne' (by linarith)
  subst el
  exact ⟨rfl, mul_left_cancel₀ l0'.ne' (mul_left_cancel₀ hc'.ne' e1)⟩

set_option maxHeartbeats 1000000 in
/-- All parameters up to the names of the peaks, even if only the ratios of the densities are known. -/
theorem two_determined (h0 : 0 < lo) (h : lo + D < hi) (l0 : 0 < lam) (l1 : lam < 1) (k0 : 0 < lam1) (k1 : lam1 < 1)
    (hs1 : 0 < s1) (hs2 : 0 < s2) (hne : (mu1, s1) ≠ (mu2, s2)) (hd : 0 < d) (hdD : d ≤ D) (h0' : 0 < lo')
    (h' : lo' + D < hi') (l0' : 0 < lam') (l1' : lam' < 1) (k0' : 0 < lam1') (k1' : lam1' < 1) (hs1' : 0 < s1')
    (hs2' : 0 < s2') (hne' : (mu1', s1') ≠ (mu2', s2')) (hd' : 0 < d') (hdD' : d' ≤ D) (hX : hi ≤ X) (hX' : hi' ≤ X)
    (hc : 0 < c) (hc' : 0 < c')
    (hae : ∀ᵐ x : ℝ, 0 < x → c * (density a lo hi lam lam1 mu1 s1 mu2 s2 X x * window lo X d x) =
      c' * (density a' lo' hi' lam' lam1' mu1' s1' mu2' s2' X x * window lo' X d' x)) :
    a = a' ∧ lo = lo' ∧ hi = hi' ∧ lam = lam' ∧ d = d' ∧ SamePeaks lam1 mu1 s1 mu2 s2 lam1' mu1' s1' mu2' s2' := by
  have hD0 : 0 < D := hd.trans_le hdD
  have lh : lo < hi := by linarith
  have lg : lo < X := by linarith
  have lh' : lo' < hi' := by linarith
  have hae' := hae.mono fun x hx h => (hx h).symm
  have e1 : lo = lo' := le_antisymm (two_lo h0' lh' l0' l1' k0' k1' hX' hc' hae') (two_lo h0 lh l0 l1 k0 k1 hX hc hae)
  subst e1
  have Zp : ∀ {a hi : ℝ}, lo < hi → 0 < ∫ t in lo..hi, t ^ (-a) := fun h => integral_rpow_pos h0 h
  have Zb : ∀ {mu s g : ℝ}, lo < g → 0 < ∫ t in lo..g, bell mu s t := fun h => integral_gaussShape_pos h
  obtain ⟨A, hA⟩ : ∃ A, A = c * ((1 - lam) / ∫ t in lo..hi, t ^ (-a)) := ⟨_, rfl⟩
  obtain ⟨B1, hB1⟩ : ∃ B, B = c * (lam * lam1 / ∫ t in lo..X, bell mu1 s1 t) := ⟨_, rfl⟩
  obtain ⟨B2, hB2⟩ : ∃ B, B = c * (lam * (1 - lam1) / ∫ t in lo..X, bell mu2 s2 t) := ⟨_, rfl⟩
  obtain ⟨A', hA'⟩ : ∃ A, A = c' * ((1 - lam') / ∫ t in lo..hi', t ^ (-a')) := ⟨_, rfl⟩
  obtain ⟨B1', hB1'⟩ : ∃ B, B = c' * (lam' * lam1' / ∫ t in lo..X, bell mu1' s1' t) := ⟨_, rfl⟩
  obtain ⟨B2', hB2'⟩ : ∃ B, B = c' * (lam' * (1 - lam1') / ∫ t in lo..X, bell mu2' s2' t) := ⟨_, rfl⟩
  have pA : 0 < A := hA ▸ mul_pos hc (div_pos (by linarith) (Zp lh))
  have pA' : 0 < A' := hA' ▸ mul_pos hc' (div_pos (by linarith) (Zp lh'))
  have pB1 : 0 < B1 := hB1 ▸ mul_pos hc (div_pos (mul_pos l0 k0) (Zb lg))
  have pB2 : 0 < B2 := hB2 ▸ mul_pos hc (div_pos (mul_pos l0 (by linarith)) (Zb lg))
  have key : ∀ᵐ x : ℝ, lo < x → ((if x ≤ hi then A * x ^ (-a) else 0) + if x ≤ X then pair B1 mu1 s1 B2 mu2 s2 x else 0) *
      window lo X d x = ((if x ≤ hi' then A' * x ^ (-a') else 0) + if x ≤ X then pair B1' mu1' s1' B2' mu2' s2' x else 0) *
      window lo X d' x := by
    filter_upwards [hae] with x hx hlx
    have := hx (h0.trans hlx)
    rw [density_eq hlx, density_eq hlx] at this
    rw [hA, hB1, hB2, hA', hB1', hB2']
    unfold pair at this ⊢
    split_ifs at this ⊢ <;> linear_combination this
  have hr : lo + D < min hi hi' := lt_min h h'
  obtain ⟨e2, e3, hor⟩ := pair_mixture pA pA' pB1 pB2 hs1 hs2 hs1' hs2' hne hne' (by linarith) hr (eq_of_ae
    ((rpow_continuousOn A a (by linarith)).add (pair_continuous B1 mu1 s1 B2 mu2 s2).continuousOn)
    ((rpow_continuousOn A' a' (by linarith)).add (pair_continuous B1' mu1' s1' B2' mu2' s2').continuousOn) (by
      filter_upwards [key] with x hx hxI
      have := hx (by linarith [hxI.1])
      have q1 := hxI.2.le.trans (min_le_left _ _)
      have q2 := hxI.2.le.trans (min_le_right _ _)
      rw [if_pos q1, if_pos q2, if_pos (q1.trans hX), if_pos (q1.trans hX),
        window_plateau hd (by linarith [hxI.1]) (q1.trans hX),
        window_plateau hd' (by linarith [hxI.1]) (q1.trans hX)] at this
      exact mul_right_cancel₀ (taper_pos 1).ne' this))
  subst e2
  have samePair : ∀ x, pair B1' mu1' s1' B2' mu2' s2' x = pair B1 mu1 s1 B2 mu2 s2 x := by
    rcases hor with ⟨f1, f2, f3, f4, f5, f6⟩ | ⟨f1, f2, f3, f4, f5, f6⟩ <;> intro x
    · rw [f1, f2, f3, f4, f5, f6]
    · rw [f1, f2, f3, f4, f5, f6, pair_swap]
  simp only [samePair] at key
  rw [← e3] at key
  have width : ∀ᵐ x : ℝ, x ∈ Ioo lo (lo + D) → (A * x ^ (-a) + pair B1 mu1 s1 B2 mu2 s2 x) * taper ((x - lo) / d) =
      (A * x ^ (-a) + pair B1 mu1 s1 B2 mu2 s2 x) * taper ((x - lo) / d') := by
    filter_upwards [key] with x hx hxI
    have := hx hxI.1
    rwa [if_pos (by linarith [hxI.2]), if_pos (by linarith [hxI.2]), if_pos (by linarith [hxI.2]),
      window_eq hxI.1.le (by linarith [hxI.2]), window_eq hxI.1.le (by linarith [hxI.2])] at this
  have hF : ∀ x, lo < x → 0 < A * x ^ (-a) + pair B1 mu1 s1 B2 mu2 s2 x := fun x hx =>
    add_pos (mul_pos pA (Real.rpow_pos_of_pos (h0.trans hx) _)) (pair_pos pB1 pB2 x)
  have e9 : d = d' := le_antisymm (smoothed_width hd' hdD' hF (width.mono fun x hx h => (hx h).symm))
    (smoothed_width hd hdD hF width)
  subst e9
  have key2 : ∀ᵐ x : ℝ, lo < x → ((if x ≤ hi then A * x ^ (-a) else 0) + if x ≤ X then pair B1 mu1 s1 B2 mu2 s2 x else 0) =
      ((if x ≤ hi' then A * x ^ (-a) else 0) + if x ≤ X then pair B1 mu1 s1 B2 mu2 s2 x else 0) := by
    filter_upwards [key] with x hx hlx
    by_cases hxX : x ≤ X
    · have := hx hlx
      rw [window_eq hlx.le hxX] at this
      exact mul_right_cancel₀ (taper_pos _).ne' this
    · have hxX := not_le.1 hxX
      rw [if_neg (by linarith), if_neg (by linarith), if_neg (by linarith)]
  obtain ⟨e7, -⟩ := density_ends h0 lh lh' lg lg pA pB1 pB2 hs1 hs2 key2
  subst e7
  rw [hA, hA'] at e3
  rcases hor with ⟨f1, f2, f3, f4, f5, f6⟩ | ⟨f1, f2, f3, f4, f5, f6⟩
  · subst f2 f3 f5 f6
    rw [hB1, hB1'] at f1
    rw [hB2, hB2'] at f4
    obtain ⟨g1, g2⟩ := scaled_fractions (Zp lh) (Zb lg) (Zb lg) hc' l0' e3 f1 f4
    exact ⟨rfl, rfl, rfl, g1, rfl, Or.inl ⟨g2, rfl, rfl, rfl, rfl⟩⟩
  · subst f2 f3 f5 f6
    rw [hB1, hB2'] at f1
    rw [hB2, hB1'] at f4
    obtain ⟨g1, g2⟩ := scaled_fractions (lam1' := 1 - lam1') (Zp lh) (Zb lg) (Zb lg) hc' l0' e3 f1
      (by rw [sub_sub_cancel]; exact f4)
    exact ⟨rfl, rfl, rfl, g1, rfl, Or.inr ⟨g2, rfl, rfl, rfl, rfl⟩⟩

/-! ### Any smoothed primary mass with mass ratios -/

/-- The joint density of a primary mass with density `F`, smoothed, and a smoothed mass ratio. -/
def pairOf (F : ℝ → ℝ) (beta lo d X : ℝ) (n : ℝ → ℝ) (m q : ℝ) : ℝ :=
  if lo < m then F m * window lo X d m * (shape beta lo d m q / n m) else 0

variable {F F' n n' : ℝ → ℝ}

theorem pairOf_pos {m q : ℝ} (h0 : 0 < lo) (hX : hi ≤ X) (hF : ∀ m, lo < m → m < hi → 0 < F m)
    (hn : ∀ m, lo < m → m ≤ X → 0 < n m) (h1 : lo < m) (h2 : m < hi) (q1 : lo / m < q) (q2 : q < 1) :
    0 < pairOf F beta lo d X n m q := by
  unfold pairOf
  rw [if_pos h1, window_eq h1.le (h2.le.trans hX)]
  exact mul_pos (mul_pos (hF m h1 h2) (taper_pos _)) (div_pos (shape_pos h0 h1 q1 q2) (hn m h1 (h2.le.trans hX)))

theorem pairOf_lo (h0 : 0 < lo) (h : lo < hi) (hX : hi ≤ X) (hF : ∀ m, lo < m → m < hi → 0 < F m) (hc : 0 < c)
    (hn : ∀ m, lo < m → m ≤ X → 0 < n m)
    (hae : ∀ᵐ m : ℝ, ∀ᵐ q : ℝ, 0 < m → m ≤ X → 0 < q → q ≤ 1 → c * pairOf F beta lo d X n m q =
      c' * pairOf F' beta' lo' d' X n' m q) : lo' ≤ lo := by
  by_contra hnn
  have hnn := not_le.1 hnn
  obtain ⟨m, hm, hp⟩ := exists_point hae (lt_min hnn h)
  have h1 := hm.2.trans_le (min_le_left _ _)
  have h2 := hm.2.trans_le (min_le_right _ _)
  have hm0 := h0.trans hm.1
  obtain ⟨q, hq, e⟩ := exists_point hp ((div_lt_one hm0).2 hm.1)
  have e := e hm0 (h2.le.trans hX) ((div_pos h0 hm0).trans hq.1) hq.2.le
  have z : pairOf F' beta' lo' d' X n' m q = 0 := by
    unfold pairOf
    rw [if_neg (not_lt.2 h1.le)]
  rw [z, mul_zero] at e
  exact (mul_pos hc (pairOf_pos h0 hX hF hn hm.1 h2 hq.1 hq.2)).ne' e

set_option maxHeartbeats 1000000 in
/-- The mass ratios give their index, the lower limit and the range of the smoothing, and leave the primary mass. -/
theorem pairOf_determined (h0 : 0 < lo) (h : lo + D < hi) (hF : ∀ m, lo < m → m < hi → 0 < F m)
    (hd : 0 < d) (hdD : d ≤ D) (h0' : 0 < lo') (h' : lo' + D < hi') (hF' : ∀ m, lo' < m → m < hi' → 0 < F' m)
    (hd' : 0 < d') (hdD' : d' ≤ D) (hX : hi ≤ X) (hX' : hi' ≤ X) (hc : 0 < c) (hc' : 0 < c')
    (hn : ∀ m, lo < m → m ≤ X → 0 < n m) (hn' : ∀ m, lo' < m → m ≤ X → 0 < n' m)
    (hnn : beta = beta' → lo = lo' → d = d' → ∀ m, lo < m → m ≤ X → n m = n' m)
    (hae : ∀ᵐ z : ℝ × ℝ, 0 < z.1 → z.1 ≤ X → 0 < z.2 → z.2 ≤ 1 → c * pairOf F beta lo d X n z.1 z.2 =
      c' * pairOf F' beta' lo' d' X n' z.1 z.2) :
    beta = beta' ∧ lo = lo' ∧ d = d' ∧
      ∀ᵐ x : ℝ, 0 < x → c * (F x * window lo X d x) = c' * (F' x * window lo' X d' x) := by
  have hD0 : 0 < D := hd.trans_le hdD
  rw [Measure.volume_eq_prod] at hae
  have sl := Measure.ae_ae_of_ae_prod hae
  have sl' : ∀ᵐ m : ℝ, ∀ᵐ q : ℝ, 0 < m → m ≤ X → 0 < q → q ≤ 1 →
      c' * pairOf F' beta' lo' d' X n' m q = c * pairOf F beta lo d X n m q := by
    filter_upwards [sl] with m hm
    filter_upwards [hm] with q hq h1 h2 h3 h4
    exact (hq h1 h2 h3 h4).symm
  have e1 : lo = lo' := le_antisymm (pairOf_lo h0' (by linarith) hX' hF' hc' hn' sl')
    (pairOf_lo h0 (by linarith) hX hF hc hn sl)
  subst e1
  obtain ⟨m, hm, hmq⟩ := exists_point sl (lt_min h h')
  have m1 : lo < m := by linarith [hm.1]
  have m2 := hm.2.trans_le (min_le_left _ _)
  have m3 := hm.2.trans_le (min_le_right _ _)
  have m0 : 0 < m := h0.trans m1
  have mX := m2.le.trans hX
  have hl : 0 < lo / m := div_pos h0 m0
  have hl1 : lo / m < 1 := (div_lt_one m0).2 m1
  obtain ⟨A, hA⟩ : ∃ A, A = c * (F m * window lo X d m) / n m / ∫ t in lo / m..1, t ^ beta := ⟨_, rfl⟩
  obtain ⟨A', hA'⟩ : ∃ A, A = c' * (F' m * window lo X d' m) / n' m / ∫ t in lo / m..1, t ^ beta' := ⟨_, rfl⟩
  have wp : ∀ d : ℝ, 0 < window lo X d m := fun d => by
    rw [window_eq m1.le mX]
    exact taper_pos _
  have pA : 0 < A := hA ▸ div_pos (div_pos (mul_pos hc (mul_pos (hF m m1 m2) (wp d))) (hn m m1 mX))
    (integral_rpow_pos hl hl1)
  have pA' : 0 < A' := hA' ▸ div_pos (div_pos (mul_pos hc' (mul_pos (hF' m m1 m3) (wp d'))) (hn' m m1 mX))
    (integral_rpow_pos hl hl1)
  have key : ∀ᵐ q : ℝ, q ∈ Ioo (lo / m) 1 → A * q ^ beta * taper ((m * q - lo) / d) =
      A' * q ^ beta' * taper ((m * q - lo) / d') := by
    filter_upwards [hmq] with q hq hqm
    have e := hq m0 mX (hl.trans hqm.1) hqm.2.le
    unfold pairOf at e
    rw [if_pos m1, if_pos m1, shape_eq h0 m1 hqm.1 hqm.2, shape_eq h0 m1 hqm.1 hqm.2] at e
    rw [hA, hA']
    linear_combination e
  have r1 : (lo + D) / m < 1 := (div_lt_one m0).2 hm.1
  have r0 : lo / m < (lo + D) / m := div_lt_div_of_pos_right (by linarith) m0
  have plat : ∀ d : ℝ, 0 < d → d ≤ D → ∀ q, (lo + D) / m < q → taper ((m * q - lo) / d) = taper 1 := by
    intro d hd hdD q hq
    apply taper_one
    rw [le_div_iff₀ hd]
    have : lo + D < m * q := by rw [mul_comm]; exact (div_lt_iff₀ m0).1 hq
    linarith
  have cont : ∀ (B e : ℝ), ContinuousOn (fun q : ℝ => B * q ^ e) (Ioo ((lo + D) / m) 1) := fun B e q hq =>
    (continuousAt_const.mul (Real.continuousAt_rpow_const q e (Or.inl ((hl.trans r0).trans hq.1).ne'))).continuousWithinAt
  have all : ∀ q ∈ Ioo ((lo + D) / m) 1, A * q ^ beta = A' * q ^ beta' := eq_of_ae (cont A beta) (cont A' beta') (by
    filter_upwards [key] with q hq hqm
    have e := hq ⟨r0.trans hqm.1, hqm.2⟩
    rw [plat d hd hdD q hqm.1, plat d' hd' hdD' q hqm.1] at e
    exact mul_right_cancel₀ (taper_pos 1).ne' e)
  have e2 : beta = beta' := slope (hl.trans r0).le r1 (div_pos pA' pA) fun q hq => by
    rw [div_mul_eq_mul_div, eq_div_iff pA.ne', mul_comm]
    exact all q hq
  subst e2
  obtain ⟨q, hq1, hq2⟩ := exists_between r1
  have eA : A = A' := mul_right_cancel₀ (Real.rpow_pos_of_pos ((hl.trans r0).trans hq1) beta).ne' (all q ⟨hq1, hq2⟩)
  have tap : ∀ᵐ q : ℝ, q ∈ Ioo (lo / m) 1 → taper ((m * q - lo) / d) = taper ((m * q - lo) / d') := by
    filter_upwards [key] with q hq hqm
    have e := hq hqm
    rw [← eA] at e
    exact mul_left_cancel₀ (mul_pos pA (Real.rpow_pos_of_pos (hl.trans hqm.1) _)).ne' e
  have e3 : d = d' := le_antisymm
    (width_le h0 hd' (by linarith [hm.1]) (tap.mono fun q hq hh => (hq hh).symm)) (width_le h0 hd (by linarith [hm.1]) tap)
  subst e3
  refine ⟨rfl, rfl, rfl, ?_⟩
  filter_upwards [sl, Measure.ae_ne volume lo] with x hx hne hx0
  by_cases hin : lo < x ∧ x ≤ X
  · obtain ⟨q, hq, e⟩ := exists_point hx ((div_lt_one hx0).2 hin.1)
    have e := e hx0 hin.2 ((div_pos h0 hx0).trans hq.1) hq.2.le
    unfold pairOf at e
    rw [if_pos hin.1, if_pos hin.1, ← hnn rfl rfl rfl x hin.1 hin.2, ← mul_assoc c, ← mul_assoc c'] at e
    exact mul_right_cancel₀ (div_pos (shape_pos h0 hin.1 hq.1 hq.2) (hn x hin.1 hin.2)).ne' e
  · have hw : window lo X d x = 0 := by
      unfold window
      rw [if_neg fun hh => hin ⟨lt_of_le_of_ne hh.1 hne.symm, hh.2⟩]
    rw [hw, mul_zero, mul_zero, mul_zero, mul_zero]

theorem line (c : ℝ) : ∀ᵐ x : ℝ × ℝ, x.1 ≠ c := by
  rw [Measure.volume_eq_prod]
  exact Measure.quasiMeasurePreserving_fst.ae (Measure.ae_ne volume c)

/-- The joint density as a population. -/
theorem pairOf_population {p : ℝ × ℝ → ℝ} (b : Backend) {F n : ℝ → ℝ} {beta lo hi d N κ H : ℝ} (h0 : 0 < lo) (lh : lo < hi)
    (hX : hi ≤ X) (hpdf : IsPdf F lo H) (hF : ∀ m, lo < m → m < hi → 0 < F m) (hN : 0 < N) (hκ : 0 < κ)
    (hn : ∀ m, lo < m → m ≤ X → κ ≤ n m)
    (pe : ∀ x ∈ Ioc 0 X ×ˢ Ioc 0 1, x.1 ≠ lo → p x = pairOf F beta lo d X n x.1 x.2 / N)
    (hm : Measurable p) : SomePopulation (volume.restrict (Ioc 0 X ×ˢ Ioc 0 1)) p := by
  set V : Set (ℝ × ℝ) := Ioc 0 X ×ˢ Ioc 0 1 with hV
  have hVm : MeasurableSet V := measurableSet_Ioc.prod measurableSet_Ioc
  have vn : ∀ m, 0 ≤ F m := hpdf.nonneg
  have jn : ∀ x ∈ V, 0 ≤ pairOf F beta lo d X n x.1 x.2 := fun x hx => by
    unfold pairOf
    split_ifs with hl
    · exact mul_nonneg (mul_nonneg (vn _) (window_nonneg _ _ _ _)) (div_nonneg (shape_nonneg h0 hx.1.1)
        (hκ.le.trans (hn _ hl hx.1.2)))
    · exact le_rfl
  have pn : ∀ᵐ x ∂volume.restrict V, 0 ≤ p x := by
    filter_upwards [ae_restrict_mem hVm, ae_restrict_of_ae (line lo)] with x hx hl
    rw [pe x hx hl]
    exact div_nonneg (jn x hx) hN.le
  have pi : IntegrableOn p V := by
    have model := isMassRatioModel_of (P := fun m => .ok (fin (F m))) (R := fun m q => do
      let pM1 ← Except.ok (fin (F m))
      let pQ ← massRatioFactor b (fin q) (fin beta) (fin lo) (fin m)
      return pM1 * pQ) b h0 hpdf (fun _ _ => rfl) fun _ _ => rfl
    obtain ⟨g, eg, -, gi, -⟩ := model.joint
    have ge : ∀ x : ℝ × ℝ, 0 < x.1 → x.1 ≠ lo → 0 < x.2 → g x = F x.1 *
        Spec.normalised (fun t => t ^ beta) (lo / x.1) 1 x.2 := fun x h1 h2 h3 => by
      obtain ⟨r, er, eR⟩ := model.factor x.1 x.2 h1 h2 h3
      have e1 := Fl.fin.inj (Except.ok.inj ((eg x ⟨h1, h2, h3⟩).symm.trans eR))
      have e2 := Fl.fin.inj (Except.ok.inj er)
      rw [e1, e2]
    have hVU : (V ∩ {x : ℝ × ℝ | 0 < x.1 ∧ x.1 ≠ lo ∧ 0 < x.2} : Set (ℝ × ℝ)) =ᵐ[volume] V := by
      filter_upwards [line lo] with x hx
      exact propext ⟨fun h => h.1, fun h => ⟨h, h.1.1, hx, h.2.1⟩⟩
    have gV : IntegrableOn g V := (gi.mono_set inter_subset_right).congr_set_ae hVU.symm
    refine Integrable.mono' (gV.div_const (N * κ)) hm.aestronglyMeasurable ?_
    filter_upwards [ae_restrict_mem hVm, ae_restrict_of_ae (line lo), pn] with x hx hl h1
    rw [Real.norm_of_nonneg h1, pe x hx hl, ge x hx.1.1 hl hx.2.1, mul_comm N, ← div_div]
    refine div_le_div_of_nonneg_right ?_ hN.le
    unfold pairOf
    split_ifs with hgt
    · rw [mul_div_assoc]
      have w1 : window lo X d x.1 ≤ 1 := by
        unfold window
        split_ifs
        · exact (taper_lt_one _).le
        · exact zero_le_one
      have sn := shape_nonneg (beta := beta) (d := d) (q := x.2) h0 hx.1.1
      refine mul_le_mul (mul_le_of_le_one_right (vn _) w1) ?_ (div_nonneg sn (hκ.le.trans (hn _ hgt hx.1.2)))
        (vn _)
      exact div_le_div₀ (normalised_rpow_nonneg (div_pos h0 hx.1.1) _ _) (shape_le h0 hx.1.1) hκ
        (hn _ hgt hx.1.2)
    · exact div_nonneg (mul_nonneg (vn _) (normalised_rpow_nonneg (div_pos h0 hx.1.1) _ _)) hκ.le
  have pp : 0 < ∫ x in V, p x := by
    rw [setIntegral_pos_iff_support_of_nonneg_ae pn pi]
    obtain ⟨m, m1, m2⟩ := exists_between lh
    have mp : 0 < m := h0.trans m1
    refine lt_of_lt_of_le ?_ (measure_mono (s := Ioo m hi ×ˢ Ioo (lo / m) 1) fun x hx => ?_)
    · rw [Measure.volume_eq_prod, Measure.prod_prod, Real.volume_Ioo, Real.volume_Ioo]
      exact ENNReal.mul_pos (ENNReal.ofReal_pos.2 (sub_pos.2 m2)).ne'
        (ENNReal.ofReal_pos.2 (sub_pos.2 ((div_lt_one mp).2 m1))).ne'
    · obtain ⟨⟨x1, x2⟩, y1, y2⟩ := hx
      have xp : 0 < x.1 := mp.trans x1
      have hxV : x ∈ V := ⟨⟨xp, x2.le.trans hX⟩, (div_pos h0 mp).trans y1, y2.le⟩
      refine ⟨?_, hxV⟩
      rw [Function.mem_support, pe x hxV (m1.trans x1).ne']
      exact (div_pos (pairOf_pos h0 hX hF (fun m h1 h2 => (hκ).trans_le (hn m h1 h2)) (m1.trans x1) x2
        ((div_lt_div_of_pos_left h0 mp x1).trans y1) y2) hN).ne'
  exact ⟨hm, pn, pi, pp⟩

/-- Recovery for any smoothed primary mass with mass ratios. -/
theorem pairOf_recovers {J : Type} [Fintype J] {p : J → ℝ × ℝ → ℝ} {j₀ : J} (b : Backend) {v₁ v₂ : NNReal}
    {Det : Set (ℝ × ℝ)} {F n : J → ℝ → ℝ} {beta lo hi d N κ H : J → ℝ} (h0 : ∀ j, 0 < lo j) (lh : ∀ j, lo j < hi j)
    (hX : ∀ j, hi j ≤ X) (hpdf : ∀ j, IsPdf (F j) (lo j) (H j)) (hF : ∀ j m, lo j < m → m < hi j → 0 < F j m)
    (hN : ∀ j, 0 < N j) (hκ : ∀ j, 0 < κ j) (hn : ∀ j m, lo j < m → m ≤ X → κ j ≤ n j m)
    (pe : ∀ j, ∀ x ∈ Ioc 0 X ×ˢ Ioc 0 1, x.1 ≠ lo j →
      p j x = pairOf (F j) (beta j) (lo j) (d j) X (n j) x.1 x.2 / N j)
    (hm : ∀ j, Measurable (p j)) (hv₁ : v₁ ≠ 0) (hv₂ : v₂ ≠ 0) (hDet : MeasurableSet Det)
    (hdiff : ∀ j, j ≠ j₀ → ∀ k, 0 < k → ¬ ∀ᵐ x : ℝ × ℝ, 0 < x.1 → x.1 ≤ X → 0 < x.2 → x.2 ≤ 1 →
      1 / N j * pairOf (F j) (beta j) (lo j) (d j) X (n j) x.1 x.2 =
        k / N j₀ * pairOf (F j₀) (beta j₀) (lo j₀) (d j₀) X (n j₀) x.1 x.2) :
    Recovers (volume.restrict (Ioc 0 X ×ˢ Ioc 0 1)) volume (gaussianErrors2 v₁ v₂) Det p j₀ := by
  set V : Set (ℝ × ℝ) := Ioc 0 X ×ˢ Ioc 0 1 with hV
  have hVm : MeasurableSet V := measurableSet_Ioc.prod measurableSet_Ioc
  have hKM : ∀ x ∈ Ioc 0 X, |x| ≤ max X 1 := fun x hx => by
    rw [abs_of_pos hx.1]; exact hx.2.trans (le_max_left _ _)
  have hK1 : ∀ x ∈ Ioc (0 : ℝ) 1, |x| ≤ max X 1 := fun x hx => by
    rw [abs_of_pos hx.1]; exact hx.2.trans (le_max_right _ _)
  refine C161_recovers (SeveralErrors.resolves_two hv₁ hv₂ measurableSet_Ioc measurableSet_Ioc hKM hK1
    (zero_le_one.trans (le_max_right _ _))) hDet (fun j => pairOf_population b (h0 j) (lh j) (hX j) (hpdf j) (hF j)
      (hN j) (hκ j) (hn j) (pe j) (hm j)) fun j hj k hk hae =>
      hdiff j hj k hk ?_
  filter_upwards [(ae_restrict_iff' hVm).1 hae, line (lo j), line (lo j₀)] with x hx n1 n2 q1 q2 q3 q4
  have hxV : x ∈ V := ⟨⟨q1, q2⟩, q3, q4⟩
  have := hx hxV
  rw [pe j x hxV n1, pe j₀ x hxV n2] at this
  linear_combination this

/-! ### Values of the model -/

theorem density_nonneg (h0 : 0 < lo) (h : lo < hi) (hg : lo < X) (l0 : 0 < lam) (l1 : lam < 1) (k0 : 0 < lam1)
    (k1 : lam1 < 1) (m : ℝ) : 0 ≤ density a lo hi lam lam1 mu1 s1 mu2 s2 X m :=
  (threeComponent_isPdf (a := a) (mpp1 := mu1) (sigpp1 := s1) (mpp2 := mu2) (sigpp2 := s2) h0 h hg l0.le l1.le k0.le
    k1.le).nonneg m

theorem multi_grid {py : Bool} {selfMin selfMax : ℝ} {nM nQ : ℕ} {cache : Bool} {sm : Smoothed}
    (hsm : multiPeak py selfMin selfMax nM nQ cache = .ok sm) : sm.m1s = Arr.linspaceR selfMin selfMax nM := by
  obtain ⟨hM, hQ, rfl⟩ := init_inv hsm
  rfl

/-- The values of `p_m1`. -/
theorem multi_pM1 (b : Backend) (py : Bool) {selfMin selfMax : ℝ} {nM nQ : ℕ} {cache : Bool} {sm : Smoothed}
    (hsm : multiPeak py selfMin selfMax nM nQ cache = .ok sm) (hself : 0 < selfMin) (hlt : selfMin < selfMax)
    (ha : b = .jax ∨ a ≠ -1) (h0 : 0 < lo) (h : lo < hi) (hX : hi ≤ selfMax) (l0 : 0 < lam) (l1 : lam < 1) (k0 : 0 < lam1)
    (k1 : lam1 < 1) (hs1 : 0 < s1) (hs2 : 0 < s2) (hd : 0 < d) (hnode : ∃ m ∈ sm.m1s, lo < m ∧ m < hi) :
    ∃ N, 0 < N ∧ ∀ m : ℝ, 0 < m →
      Smoothed.pM1 b sm [fin m] (twoPeakKwargs a lo hi lam lam1 mu1 s1 mu2 s2 d selfMax) =
      .ok [fin (density a lo hi lam lam1 mu1 s1 mu2 s2 selfMax m * window lo selfMax d m / N)] := by
  obtain ⟨hM, hQ, rfl⟩ := init_inv hsm
  have hg : lo < selfMax := h.trans_le hX
  have hgrid : ∀ m ∈ Arr.linspaceR selfMin selfMax nM, 0 < m := fun m hm =>
    hself.trans_le (linspaceR_mem hlt.le hM hm).1
  obtain ⟨f, hf⟩ : ∃ f : ℝ → ℝ, f = fun m => density a lo hi lam lam1 mu1 s1 mu2 s2 selfMax m * window lo selfMax d m :=
    ⟨_, rfl⟩
  have hraw : ∀ m : ℝ, 0 < m → Smoothed.pMRaw b ⟨primThreeComponent py, [("gaussian_mass_maximum", fin selfMax)], selfMin,
      selfMax, Arr.linspaceR selfMin selfMax nM, Arr.linspaceR 0.001 1 nQ, cache, none⟩
      (Dict.erase (twoPeakKwargs a lo hi lam lam1 mu1 s1 mu2 s2 d selfMax) "delta_m") (fin lo) (fin d) (fin m) =
        .ok (fin (f m)) := by
    intro m hm
    unfold Smoothed.pMRaw
    simp only [primary_three, C18_threeComponentSingle_value b py ha h0 h hg hs1 hs2 hm, smoothing_fin b m lo selfMax hd]
    rw [hf]
    rfl
  obtain ⟨N, hN⟩ : ∃ N, N = Arr.trapzR ((Arr.linspaceR selfMin selfMax nM).map f) (Arr.linspaceR selfMin selfMax nM) :=
    ⟨_, rfl⟩
  have hNpos : 0 < N := by
    rw [hN]
    refine trapzR_pos_of_exists (by simp) (by rw [linspaceR_length]; exact hM) ?_ (linspaceR_sorted hlt hM) ?_
    · intro y hy
      obtain ⟨m, hm, rfl⟩ := List.mem_map.1 hy
      rw [hf]
      exact mul_nonneg (density_nonneg h0 h hg l0 l1 k0 k1 m) (window_nonneg _ _ _ _)
    · obtain ⟨m, hm, h1, h2⟩ := hnode
      refine ⟨_, List.mem_map.2 ⟨m, hm, rfl⟩, ?_⟩
      rw [hf]
      simp only
      rw [window_eq h1.le (h2.le.trans hX)]
      exact mul_pos (density_pos h0 h hg l0 l1 k0 k1 h1 h2 (h2.trans_le hX)) (taper_pos _)
  refine ⟨N, hNpos, fun m hm => ?_⟩
  have hT : Arr.trapz ((Arr.linspaceR selfMin selfMax nM).map fun m => fin (f m))
      ((Arr.linspaceR selfMin selfMax nM).map fin) = fin N := by
    rw [hN, ← Arr.trapz_fin, List.map_map]; rfl
  have q1 : Smoothed.kwGet (twoPeakKwargs a lo hi lam lam1 mu1 s1 mu2 s2 d selfMax) "mmin" (fin selfMin) = fin lo := by
    simp [Smoothed.kwGet, twoPeakKwargs, Dict.get?_cons]
  have q2 : Smoothed.kwGet (twoPeakKwargs a lo hi lam lam1 mu1 s1 mu2 s2 d selfMax) "delta_m" 0 = fin d := by
    simp [Smoothed.kwGet, twoPeakKwargs, Dict.get?_cons]
  have q3 : Smoothed.kwGet (Dict.erase (twoPeakKwargs a lo hi lam lam1 mu1 s1 mu2 s2 d selfMax) "delta_m") "mmin"
      (fin selfMin) = fin lo := by
    rw [← q1]
    unfold Smoothed.kwGet
    rw [Dict.get?_erase, if_neg (by decide)]
  have hd0 : ¬ eqf (fin d) 0 := by simp [hd.ne']
  unfold Smoothed.pM1 Smoothed.normPM1
  simp only [q1, q2, q3]
  rw [mapM_ok (g := fun m => fin (f m)) fun m hm => hraw m (hgrid m hm)]
  rw [if_neg fun h => hd0 h.2]
  simp only [List.mapM_cons, List.mapM_nil, hraw m hm]
  show Except.ok _ = _
  rw [hT, nanToNum_fin, ind_true hd0, ind_false hd0]
  simp [fin_div hNpos.ne', hf]

/-- The values of the model. -/
theorem multi_value (b : Backend) (py : Bool) {selfMin selfMax : ℝ} {nM nQ : ℕ} {cache : Bool} {sm : Smoothed}
    (hsm : multiPeak py selfMin selfMax nM nQ cache = .ok sm) (hself : 0 < selfMin) (hlt : selfMin < selfMax)
    (ha : b = .jax ∨ a ≠ -1) (hlo : selfMin ≤ lo) (h : lo < hi) (hX : hi ≤ selfMax) (l0 : 0 < lam) (l1 : lam < 1)
    (k0 : 0 < lam1) (k1 : lam1 < 1) (hs1 : 0 < s1) (hs2 : 0 < s2) (hd : 0 < d) (hnode : ∃ m ∈ sm.m1s, lo < m ∧ m < hi)
    (hgrid : lo ∉ sm.m1s) (beta mu1 mu2 : ℝ) :
    ∃ N κ, 0 < N ∧ 0 < κ ∧ (∀ m, lo < m → m ≤ selfMax → κ ≤ normAt b sm beta lo d m) ∧
      ∀ m q, 0 < m → m ≤ selfMax → m ≠ lo → 0 < q →
        (Smoothed.call b sm [(fin m, fin q)] (twoPeakCall a beta lo hi lam lam1 mu1 s1 mu2 s2 d)).1 =
          .ok [fin (pairOf (density a lo hi lam lam1 mu1 s1 mu2 s2 selfMax) beta lo d selfMax (normAt b sm beta lo d) m q /
            N)] := by
  have h0 : 0 < lo := hself.trans_le hlo
  obtain ⟨N, hN, e1⟩ := multi_pM1 (mu1 := mu1) (mu2 := mu2) b py hsm hself hlt ha h0 h hX l0 l1 k0 k1 hs1 hs2 hd hnode
  obtain ⟨hM, hQ, hsme⟩ := init_inv hsm
  have hm1 : sm.m1s = Arr.linspaceR selfMin selfMax nM := by rw [hsme]
  have hqs : sm.qs = Arr.linspaceR 0.001 1 nQ := by rw [hsme]
  have hmin : sm.mmin = selfMin := by rw [hsme]
  have hmax : sm.mmax = selfMax := by rw [hsme]
  have hfix : sm.fixed = [("gaussian_mass_maximum", fin selfMax)] := by rw [hsme]
  have hqm : sm.qMasses = none := by rw [hsme]
  obtain ⟨κ, hκ, hlow⟩ := norm_lower b hM hQ hself hlt hlo hm1 hqs hd hgrid beta
  have hnorm : ∀ m, lo < m → m ≤ selfMax → κ ≤ normAt b sm beta lo d m ∧
      interpLinear sm.m1s (sm.m1s.map (qNormAt b sm (fin beta) (fin lo) (fin d))) (fin m) =
        fin (normAt b sm beta lo d m) := fun m h1 h2 => by
    obtain ⟨r, hr, e⟩ := hlow m h1 h2
    unfold normAt
    rw [e]
    exact ⟨hr, rfl⟩
  refine ⟨N, κ, hN, hκ, fun m h1 h2 => (hnorm m h1 h2).1, fun m q hm hmX hne hq => ?_⟩
  obtain ⟨kw, hkw⟩ : ∃ kw, kw = twoPeakCall a beta lo hi lam lam1 mu1 s1 mu2 s2 d := ⟨_, rfl⟩
  have kb : Dict.get? kw "beta" = some (fin beta) := by
    simp [hkw, twoPeakCall, Dict.get?_cons]
  have q1 : ∀ x, Smoothed.kwGet (Dict.erase kw "beta") "mmin" x = fin lo := fun x => by
    simp [hkw, Smoothed.kwGet, twoPeakCall, Dict.get?_cons, Dict.get?_erase]
  have q2 : ∀ x, Smoothed.kwGet (Dict.erase kw "beta") "mmax" x = fin hi := fun x => by
    simp [hkw, Smoothed.kwGet, twoPeakCall, Dict.get?_cons, Dict.get?_erase]
  have q3 : ∀ x, Smoothed.kwGet (Dict.erase kw "beta") "delta_m" x = fin d := fun x => by
    simp [hkw, Smoothed.kwGet, twoPeakCall, Dict.get?_cons, Dict.get?_erase]
  have q4 : Dict.erase kw "beta" ++ sm.fixed = twoPeakKwargs a lo hi lam lam1 mu1 s1 mu2 s2 d selfMax := by
    rw [hfix, hkw]
    simp [twoPeakCall, twoPeakKwargs, Dict.erase]
  have e2 := pQ_fresh b sm [(fin m, fin q)] (fin beta) (fin lo) (fin d) (Or.inr (Or.inl hqm))
  rw [← hkw]
  unfold Smoothed.call
  rw [kb]
  simp only
  rw [q1, q2, q3, if_neg (fun hh => by have := hh.2; rw [hmin] at this; simp only [fin_lt] at this; linarith),
    if_neg (fun hh => by have := hh.2; rw [hmax] at this; simp only [fin_lt] at this; linarith), if_neg ?_, q4]
  · rw [show ([(fin m, fin q)] : List (Fl × Fl)).map Prod.fst = [fin m] from rfl, e1 m hm]
    simp only
    rcases hp : Smoothed.pQ b sm [(fin m, fin q)] (fin beta) (fin lo) (fin d) with ⟨r, s'⟩
    rw [hp] at e2
    simp only at e2
    subst e2
    simp only [List.map_cons, List.map_nil]
    rw [broadcast_same b _ (by simp), List.zipWith_cons_cons, List.zipWith_nil_left]
    rcases lt_or_gt_of_ne hne with hlt' | hgt
    · obtain ⟨r, hr⟩ := nanToNum_finite (pQVal b (fin beta) (fin lo) (fin d) (fin m) (fin q) /
        interpLinear sm.m1s (sm.m1s.map (qNormAt b sm (fin beta) (fin lo) (fin d))) (fin m))
      rw [hr, fin_mul]
      unfold pairOf
      rw [if_neg (not_lt.2 hlt'.le), density_below hlt']
      simp
    · obtain ⟨hk, hi'⟩ := hnorm m hgt hmX
      rw [hi', pQVal_ne b hd h0 hm hne hq, fin_div (hκ.trans_le hk).ne', nanToNum_fin, fin_mul]
      unfold pairOf
      rw [if_pos hgt]
      congr 3
      ring
  · rintro ⟨k, hk, hk'⟩
    rw [hfix] at hk'
    rw [hkw] at hk
    simp [Dict.keys, twoPeakCall, Dict.erase] at hk hk'
    subst hk'
    simp at hk

end SmoothedTwoPeaks

open SmoothedTwoPeaks SmoothedJoint

/-! ## The property -/

/-- **C166.** The joint density of primary mass and mass ratio of the smoothed model with two peaks determines all eleven
parameters up to the names of the peaks. -/
theorem C166_determined (b : Backend) (py : Bool) {selfMin selfMax : ℝ} {nM nQ : ℕ} {cache : Bool} {sm : Smoothed}
    {a beta lo hi lam lam1 mu1 s1 mu2 s2 d a' beta' lo' hi' lam' lam1' mu1' s1' mu2' s2' d' D : ℝ}
    (hsm : multiPeak py selfMin selfMax nM nQ cache = .ok sm) (hself : 0 < selfMin) (hlt : selfMin < selfMax)
    (ha : b = .jax ∨ a ≠ -1) (hlo : selfMin ≤ lo) (h : lo + D < hi) (hX : hi ≤ selfMax) (l0 : 0 < lam) (l1 : lam < 1)
    (k0 : 0 < lam1) (k1 : lam1 < 1) (hs1 : 0 < s1) (hs2 : 0 < s2) (hne : (mu1, s1) ≠ (mu2, s2)) (hd : 0 < d) (hdD : d ≤ D)
    (hnode : ∃ m ∈ sm.m1s, lo < m ∧ m < hi) (hgrid : lo ∉ sm.m1s)
    (ha' : b = .jax ∨ a' ≠ -1) (hlo' : selfMin ≤ lo') (h' : lo' + D < hi') (hX' : hi' ≤ selfMax) (l0' : 0 < lam')
    (l1' : lam' < 1) (k0' : 0 < lam1') (k1' : lam1' < 1) (hs1' : 0 < s1') (hs2' : 0 < s2')
    (hne' : (mu1', s1') ≠ (mu2', s2')) (hd' : 0 < d') (hdD' : d' ≤ D) (hnode' : ∃ m ∈ sm.m1s, lo' < m ∧ m < hi')
    (hgrid' : lo' ∉ sm.m1s)
    (hsame : ∀ᵐ x : ℝ × ℝ, 0 < x.1 → x.1 ≤ selfMax → 0 < x.2 → x.2 ≤ 1 →
      (Smoothed.call b sm [(fin x.1, fin x.2)] (twoPeakCall a beta lo hi lam lam1 mu1 s1 mu2 s2 d)).1 =
        (Smoothed.call b sm [(fin x.1, fin x.2)] (twoPeakCall a' beta' lo' hi' lam' lam1' mu1' s1' mu2' s2' d')).1) :
    a = a' ∧ beta = beta' ∧ lo = lo' ∧ hi = hi' ∧ lam = lam' ∧ d = d' ∧
      SamePeaks lam1 mu1 s1 mu2 s2 lam1' mu1' s1' mu2' s2' := by
  have h0 := hself.trans_le hlo
  have h0' := hself.trans_le hlo'
  have lh : lo < hi := by linarith
  have lh' : lo' < hi' := by linarith
  obtain ⟨N, κ, hN, hκ, hn, e⟩ := multi_value b py hsm hself hlt ha hlo lh hX l0 l1 k0 k1 hs1 hs2 hd hnode hgrid
    beta mu1 mu2
  obtain ⟨N', κ', hN', hκ', hn', e'⟩ := multi_value b py hsm hself hlt ha' hlo' lh' hX' l0' l1' k0' k1' hs1' hs2'
    hd' hnode' hgrid' beta' mu1' mu2'
  obtain ⟨e1, e2, e3, hprim⟩ := pairOf_determined (c := 1 / N) (c' := 1 / N') h0 h
    (fun m h1 h2 => TwoPeaks.density_pos h0 lh (lh.trans_le hX) l0 l1 k0 k1 h1 h2 (h2.trans_le hX)) hd hdD h0' h'
    (fun m h1 h2 => TwoPeaks.density_pos h0' lh' (lh'.trans_le hX') l0' l1' k0' k1' h1 h2 (h2.trans_le hX')) hd' hdD' hX
    hX' (by positivity) (by positivity) (fun m h1 h2 => hκ.trans_le (hn m h1 h2))
    (fun m h1 h2 => hκ'.trans_le (hn' m h1 h2)) (fun (e1 : beta = beta') (e2 : lo = lo') (e3 : d = d') m _ _ => by
      rw [e1, e2, e3]) (by
      filter_upwards [hsame, line lo, line lo'] with x hx n1 n2 h1 h2 h3 h4
      have := hx h1 h2 h3 h4
      rw [e _ _ h1 h2 n1 h3, e' _ _ h1 h2 n2 h3] at this
      have := Fl.fin.inj (List.cons.inj (Except.ok.inj this)).1
      rw [one_div_mul_eq_div, one_div_mul_eq_div]
      exact this)
  obtain ⟨f1, f2, f3, f4, f5, f6⟩ := two_determined h0 h l0 l1 k0 k1 hs1 hs2 hne hd hdD h0' h' l0' l1' k0' k1' hs1' hs2'
    hne' hd' hdD' hX hX' (by positivity) (by positivity) hprim
  exact ⟨f1, e1, f2, f3, f4, f5, f6⟩

/-- **C166.** The density `p_m1` alone determines all parameters of the primary mass and the range of the smoothing, up to
the names of the peaks. -/
theorem C166_primary (b : Backend) (py : Bool) {selfMin selfMax : ℝ} {nM nQ : ℕ} {cache : Bool} {sm : Smoothed}
    {a lo hi lam lam1 mu1 s1 mu2 s2 d a' lo' hi' lam' lam1' mu1' s1' mu2' s2' d' D : ℝ}
    (hsm : multiPeak py selfMin selfMax nM nQ cache = .ok sm) (hself : 0 < selfMin) (hlt : selfMin < selfMax)
    (ha : b = .jax ∨ a ≠ -1) (h0 : 0 < lo) (h : lo + D < hi) (hX : hi ≤ selfMax) (l0 : 0 < lam) (l1 : lam < 1)
    (k0 : 0 < lam1) (k1 : lam1 < 1) (hs1 : 0 < s1) (hs2 : 0 < s2) (hne : (mu1, s1) ≠ (mu2, s2)) (hd : 0 < d) (hdD : d ≤ D)
    (hnode : ∃ m ∈ sm.m1s, lo < m ∧ m < hi)
    (ha' : b = .jax ∨ a' ≠ -1) (h0' : 0 < lo') (h' : lo' + D < hi') (hX' : hi' ≤ selfMax) (l0' : 0 < lam')
    (l1' : lam' < 1) (k0' : 0 < lam1') (k1' : lam1' < 1) (hs1' : 0 < s1') (hs2' : 0 < s2')
    (hne' : (mu1', s1') ≠ (mu2', s2')) (hd' : 0 < d') (hdD' : d' ≤ D) (hnode' : ∃ m ∈ sm.m1s, lo' < m ∧ m < hi')
    (hsame : ∀ᵐ m : ℝ, 0 < m → Smoothed.pM1 b sm [fin m] (twoPeakKwargs a lo hi lam lam1 mu1 s1 mu2 s2 d selfMax) =
      Smoothed.pM1 b sm [fin m] (twoPeakKwargs a' lo' hi' lam' lam1' mu1' s1' mu2' s2' d' selfMax)) :
    a = a' ∧ lo = lo' ∧ hi = hi' ∧ lam = lam' ∧ d = d' ∧ SamePeaks lam1 mu1 s1 mu2 s2 lam1' mu1' s1' mu2' s2' := by
  obtain ⟨N, hN, e⟩ := multi_pM1 (mu1 := mu1) (mu2 := mu2) b py hsm hself hlt ha h0 (by linarith) hX l0 l1 k0 k1 hs1 hs2 hd
    hnode
  obtain ⟨N', hN', e'⟩ := multi_pM1 (mu1 := mu1') (mu2 := mu2') b py hsm hself hlt ha' h0' (by linarith) hX' l0' l1' k0'
    k1' hs1' hs2' hd' hnode'
  refine two_determined (c := 1 / N) (c' := 1 / N') h0 h l0 l1 k0 k1 hs1 hs2 hne hd hdD h0' h' l0' l1' k0' k1' hs1' hs2'
    hne' hd' hdD' hX hX' (by positivity) (by positivity) ?_
  filter_upwards [hsame] with m hm hm0
  have := hm hm0
  rw [e m hm0, e' m hm0] at this
  have := Fl.fin.inj (List.cons.inj (Except.ok.inj this)).1
  rw [one_div_mul_eq_div, one_div_mul_eq_div]
  exact this

/-- **C166.** If the first peak is that with the smaller mean, all eleven parameters are found from noisy primary masses
and mass ratios of detected sources. -/
theorem C166_recovers {J : Type} [Fintype J] {p : J → ℝ × ℝ → ℝ} {j₀ : J} (b : Backend) (py : Bool) {selfMin selfMax : ℝ}
    {nM nQ : ℕ} {cache : Bool} {sm : Smoothed} {a beta lo hi lam lam1 mu1 s1 mu2 s2 d : J → ℝ} {D : ℝ} {v₁ v₂ : NNReal}
    {Det : Set (ℝ × ℝ)}
    (hsm : multiPeak py selfMin selfMax nM nQ cache = .ok sm) (hself : 0 < selfMin) (hlt : selfMin < selfMax)
    (ha : ∀ j, b = .jax ∨ a j ≠ -1) (hlo : ∀ j, selfMin ≤ lo j) (h : ∀ j, lo j + D < hi j) (hX : ∀ j, hi j ≤ selfMax)
    (l0 : ∀ j, 0 < lam j) (l1 : ∀ j, lam j < 1) (k0 : ∀ j, 0 < lam1 j) (k1 : ∀ j, lam1 j < 1) (hs1 : ∀ j, 0 < s1 j)
    (hs2 : ∀ j, 0 < s2 j) (hmu : ∀ j, mu1 j < mu2 j) (hd : ∀ j, 0 < d j) (hdD : ∀ j, d j ≤ D)
    (hnode : ∀ j, ∃ m ∈ sm.m1s, lo j < m ∧ m < hi j) (hgrid : ∀ j, lo j ∉ sm.m1s)
    (hinj : ∀ j, j ≠ j₀ → (a j, beta j, lo j, hi j, lam j, lam1 j, mu1 j, s1 j, mu2 j, s2 j, d j) ≠
      (a j₀, beta j₀, lo j₀, hi j₀, lam j₀, lam1 j₀, mu1 j₀, s1 j₀, mu2 j₀, s2 j₀, d j₀))
    (hp : ∀ j m q, 0 < m → m ≤ selfMax → m ≠ lo j → 0 < q → q ≤ 1 → (Smoothed.call b sm [(fin m, fin q)]
      (twoPeakCall (a j) (beta j) (lo j) (hi j) (lam j) (lam1 j) (mu1 j) (s1 j) (mu2 j) (s2 j) (d j))).1 =
        .ok [fin (p j (m, q))])
    (hm : ∀ j, Measurable (p j)) (hv₁ : v₁ ≠ 0) (hv₂ : v₂ ≠ 0) (hDet : MeasurableSet Det) :
    Recovers (volume.restrict (Ioc 0 selfMax ×ˢ Ioc 0 1)) volume (gaussianErrors2 v₁ v₂) Det p j₀ := by
  have h0 : ∀ j, 0 < lo j := fun j => hself.trans_le (hlo j)
  have lh : ∀ j, lo j < hi j := fun j => by linarith [h j, hd j, hdD j]
  have lg : ∀ j, lo j < selfMax := fun j => (lh j).trans_le (hX j)
  have dis : ∀ j, (mu1 j, s1 j) ≠ (mu2 j, s2 j) := fun j hj => (hmu j).ne (Prod.ext_iff.1 hj).1
  choose N κ hN hκ hn e using fun j => multi_value b py hsm hself hlt (ha j) (hlo j) (lh j) (hX j) (l0 j) (l1 j) (k0 j)
    (k1 j) (hs1 j) (hs2 j) (hd j) (hnode j) (hgrid j) (beta j) (mu1 j) (mu2 j)
  have hF : ∀ j m, lo j < m → m < hi j → 0 < TwoPeaks.density (a j) (lo j) (hi j) (lam j) (lam1 j) (mu1 j) (s1 j) (mu2 j)
      (s2 j) selfMax m := fun j m h1 h2 =>
    TwoPeaks.density_pos (h0 j) (lh j) (lg j) (l0 j) (l1 j) (k0 j) (k1 j) h1 h2 (h2.trans_le (hX j))
  refine pairOf_recovers b h0 lh hX (fun j => threeComponent_isPdf (a := a j) (mpp1 := mu1 j) (sigpp1 := s1 j)
    (mpp2 := mu2 j) (sigpp2 := s2 j) (h0 j) (lh j) (lg j) (l0 j).le (l1 j).le (k0 j).le (k1 j).le) hF hN hκ hn
    (fun j x hx hne => Fl.fin.inj (List.cons.inj (Except.ok.inj ((hp j x.1 x.2 hx.1.1 hx.1.2 hne hx.2.1
      hx.2.2).symm.trans (e j x.1 x.2 hx.1.1 hx.1.2 hne hx.2.1)))).1) hm hv₁ hv₂ hDet fun j hj k hk hae => hinj j hj ?_
  have pN := hN j
  have pN0 := hN j₀
  obtain ⟨e1, e2, e3, hprim⟩ := pairOf_determined (c := 1 / N j) (c' := k / N j₀) (h0 j) (h j) (hF j) (hd j) (hdD j)
    (h0 j₀) (h j₀) (hF j₀) (hd j₀) (hdD j₀) (hX j) (hX j₀) (by positivity) (by positivity)
    (fun m h1 h2 => (hκ j).trans_le (hn j m h1 h2)) (fun m h1 h2 => (hκ j₀).trans_le (hn j₀ m h1 h2))
    (fun (e1 : beta j = beta j₀) (e2 : lo j = lo j₀) (e3 : d j = d j₀) m _ _ => by rw [e1, e2, e3]) hae
  obtain ⟨f1, f2, f3, f4, f5, ⟨g1, g2, g3, g4, g5⟩ | ⟨_, g2, _, g4, _⟩⟩ := two_determined (h0 j) (h j) (l0 j) (l1 j) (k0 j)
    (k1 j) (hs1 j) (hs2 j) (dis j) (hd j) (hdD j) (h0 j₀) (h j₀) (l0 j₀) (l1 j₀) (k0 j₀) (k1 j₀) (hs1 j₀) (hs2 j₀) (dis j₀)
    (hd j₀) (hdD j₀) (hX j) (hX j₀) (by positivity) (by positivity) hprim
  · rw [f1, e1, f2, f3, f4, f5, g1, g2, g3, g4, g5]
  · exact absurd (hmu j) (by rw [g2, g4]; exact (hmu j₀).le.not_gt)

/-! ## Non-vacuity -/

/-- Candidates for the fraction in the first peak and the range of the smoothing, with the defaults of the class for the
grids. -/
example (py cache : Bool) {v₁ v₂ : NNReal} {Det : Set (ℝ × ℝ)} (hv₁ : v₁ ≠ 0) (hv₂ : v₂ ≠ 0) (hD : MeasurableSet Det) :
    ∃ (sm : Smoothed) (p : Bool × Bool → ℝ × ℝ → ℝ),
    multiPeak py 2 100 1000 500 cache = .ok sm ∧ (∀ j, Measurable (p j)) ∧
    (∀ j m q, 0 < m → m ≤ 100 → m ≠ 5 → 0 < q → q ≤ 1 → (Smoothed.call .numpy sm [(fin m, fin q)]
      (twoPeakCall 3.5 1.1 5 85 0.1 (if j.2 then 0.5 else 0.25) 10 2 35 4 (if j.1 then 4.8 else 5))).1 =
        .ok [fin (p j (m, q))]) ∧
    Recovers (volume.restrict (Ioc 0 100 ×ˢ Ioc 0 1)) volume (gaussianErrors2 v₁ v₂) Det p (true, true) := by
  obtain ⟨d, hde⟩ : ∃ a : Bool × Bool → ℝ, a = fun j => if j.1 then 4.8 else 5 := ⟨_, rfl⟩
  obtain ⟨k, hk⟩ : ∃ a : Bool × Bool → ℝ, a = fun j => if j.2 then 0.5 else 0.25 := ⟨_, rfl⟩
  have d0 : ∀ j, 0 < d j := fun j => by rcases j with ⟨_ | _, _⟩ <;> norm_num [hde]
  have d1 : ∀ j, d j ≤ 5 := fun j => by rcases j with ⟨_ | _, _⟩ <;> norm_num [hde]
  have k0 : ∀ j, 0 < k j := fun j => by rcases j with ⟨_, _ | _⟩ <;> norm_num [hk]
  have k1 : ∀ j, k j < 1 := fun j => by rcases j with ⟨_, _ | _⟩ <;> norm_num [hk]
  obtain ⟨sm, hsm⟩ : ∃ sm, multiPeak py 2 100 1000 500 cache = .ok sm :=
    ⟨_, init_ok (primThreeComponent py) [("gaussian_mass_maximum", fin 100)] 2 100 (nM := 1000) (nQ := 500) cache
      (by norm_num) (by norm_num)⟩
  have hms := multi_grid hsm
  have hlen : 2 ≤ sm.m1s.length := by rw [hms, linspaceR_length]; norm_num
  have hnode : ∃ m ∈ sm.m1s, (5 : ℝ) < m ∧ m < 85 := by
    rw [hms]
    unfold Arr.linspaceR
    exact ⟨_, List.mem_map.2 ⟨100, List.mem_range.2 (by norm_num), rfl⟩, by norm_num, by norm_num⟩
  have hgrid : (5 : ℝ) ∉ sm.m1s := by
    rw [hms]
    unfold Arr.linspaceR
    intro hh
    obtain ⟨i, -, hi⟩ := List.mem_map.1 hh
    have h2 : (98 : ℝ) * i = 2997 := by
      norm_num at hi
      linarith
    have h3 : 98 * i = 2997 := by exact_mod_cast h2
    omega
  choose N κ hN hκ hn e using fun j => multi_value (a := 3.5) (lo := 5) (hi := 85) (lam := 0.1) (s1 := 2) (s2 := 4) .numpy
    py hsm (by norm_num) (by norm_num) (Or.inr (by norm_num)) (by norm_num) (by norm_num) (by norm_num) (by norm_num)
    (by norm_num) (k0 j) (k1 j) (by norm_num) (by norm_num) (d0 j) hnode hgrid 1.1 10 35
  have hm : ∀ j, Measurable fun x : ℝ × ℝ => pairOf (TwoPeaks.density 3.5 5 85 0.1 (k j) 10 2 35 4 100) 1.1 5 (d j) 100
      (normAt .numpy sm 1.1 5 (d j)) x.1 x.2 / N j := fun j => by
    refine Measurable.div_const ?_ _
    unfold pairOf
    refine Measurable.ite (measurableSet_lt measurable_const measurable_fst) (Measurable.mul (Measurable.mul
      ((TwoPeaks.density_measurable _ _ _ _ _ _ _ _ _ _).comp measurable_fst) ?_)
      (Measurable.div ?_ ((normAt_measurable .numpy hlen _ _ _).comp measurable_fst))) measurable_const
    · have : Measurable (window 5 100 (d j)) := by
        unfold window
        exact Measurable.ite measurableSet_Icc
          (taper_continuous.measurable.comp ((measurable_id.sub_const _).div_const _)) measurable_const
      exact this.comp measurable_fst
    · unfold shape
      refine Measurable.mul ?_ ?_
      · unfold Spec.normalised
        refine Measurable.ite ((measurableSet_le (measurable_const.div measurable_fst) measurable_snd).inter
          (measurableSet_le measurable_snd measurable_const)) ((measurable_snd.pow_const _).div ?_) measurable_const
        exact (integral_rpow_measurable 1.1).comp (measurable_const.div measurable_fst)
      · unfold window
        exact Measurable.ite ((measurableSet_le measurable_const (measurable_fst.mul measurable_snd)).inter
          (measurableSet_le (measurable_fst.mul measurable_snd) measurable_fst))
          (taper_continuous.measurable.comp (((measurable_fst.mul measurable_snd).sub_const _).div_const _))
          measurable_const
  refine ⟨sm, _, hsm, hm, fun j m q h1 h2 h3 h4 _ => by rw [← e j m q h1 h2 h3 h4, hde, hk],
    C166_recovers (beta := fun _ => 1.1) (d := d) (lam1 := k) .numpy py (D := 5)
    (a := fun _ => 3.5) (lo := fun _ => 5) (hi := fun _ => 85) (lam := fun _ => 0.1) (mu1 := fun _ => 10) (s1 := fun _ => 2)
    (mu2 := fun _ => 35) (s2 := fun _ => 4) hsm (by norm_num) (by norm_num) (fun _ => Or.inr (by norm_num))
    (fun _ => by norm_num) (fun _ => by norm_num) (fun _ => by norm_num) (fun _ => by norm_num) (fun _ => by norm_num) k0 k1
    (fun _ => by norm_num) (fun _ => by norm_num) (fun _ => by norm_num) d0 d1 (fun _ => hnode)
    (fun _ => hgrid) (fun j hj => ?_) (fun j m q h1 h2 h3 h4 _ => e j m q h1 h2 h3 h4) hm hv₁ hv₂ hD⟩
  rcases j with ⟨_ | _, _ | _⟩
  · norm_num [hde]
  · norm_num [hde]
  · norm_num [hk]
  · exact absurd rfl hj

end GW
