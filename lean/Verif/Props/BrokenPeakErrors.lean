import Verif.Props.SmoothedAnyErrors

/-!
# C168: the broken power law with a peak is determined by its population and found from noisy data
-/

noncomputable section

open MeasureTheory ProbabilityTheory Filter Topology Set

namespace GW

open Fl Spec TruePopulation Posterior GaussianErrors

/-! ## Specification -/

/-- The parameters a user passes to the smoothed broken power law with a peak. -/
def Spec.brokenPeakCall (a1 a2 beta lo hi bf lam mu s d : ℝ) : Dict Fl :=
  [("alpha_1", fin a1), ("alpha_2", fin a2), ("beta", fin beta), ("mmin", fin lo), ("mmax", fin hi),
    ("break_fraction", fin bf), ("lam", fin lam), ("mpp", fin mu), ("sigpp", fin s), ("delta_m", fin d)]

/-! ## Lemmas -/

namespace BrokenPeak

open Identifiable Peak SmoothedPeak SmoothedJoint SmoothedTwoPeaks SmoothedAny

/-- The density of the broken power law with a Gaussian peak. -/
def dens (a1 a2 lo hi bf lam mu s g x : ℝ) : ℝ :=
  (1 - lam) * Spec.normalised (brokenShape a1 a2 (lo + bf * (hi - lo))) lo hi x + lam * Spec.normalised (bell mu s) lo g x

variable {a1 a2 lo hi bf lam mu s g a1' a2' lo' hi' bf' lam' mu' s' g' : ℝ}

theorem dens_pos (h0 : 0 < lo) (h : lo < hi) (b0 : 0 < bf) (hg : hi ≤ g) (l0 : 0 < lam) (l1 : lam < 1) {x : ℝ} (h1 : lo < x)
    (h2 : x < hi) : 0 < dens a1 a2 lo hi bf lam mu s g x :=
  add_pos (mul_pos (by linarith) (Identifiable.normalised_pos (shape_broken h0 h b0) ⟨h1, h2⟩))
    (mul_pos l0 (Identifiable.normalised_pos (shape_gauss (h.trans_le hg)) ⟨h1, h2.trans_le hg⟩))

theorem dens_out (hg : hi ≤ g) {x : ℝ} (hx : x < lo ∨ g < x) : dens a1 a2 lo hi bf lam mu s g x = 0 := by
  unfold dens
  rw [normalised_out (hx.imp_right hg.trans_lt), normalised_out hx, mul_zero, mul_zero, add_zero]

theorem dens_lo (h0 : 0 < lo) (h : lo < hi) (b0 : 0 < bf) (hg : hi ≤ g) (l0 : 0 < lam) (l1 : lam < 1) (hg' : hi' ≤ g')
    (hae : ∀ᵐ x : ℝ, 0 < x → dens a1 a2 lo hi bf lam mu s g x = dens a1' a2' lo' hi' bf' lam' mu' s' g' x) : lo' ≤ lo := by
  by_contra hn
  obtain ⟨x, hx, hp⟩ := exists_point hae (lt_min (not_le.1 hn) h)
  have e := hp (h0.trans hx.1)
  rw [dens_out hg' (Or.inl (hx.2.trans_le (min_le_left _ _)))] at e
  exact (dens_pos h0 h b0 hg l0 l1 hx.1 (hx.2.trans_le (min_le_right _ _))).ne' e

theorem dens_g (h0 : 0 < lo) (h : lo < hi) (b0 : 0 < bf) (hg : hi ≤ g) (l0 : 0 < lam) (l1 : lam < 1) (h' : lo < hi')
    (hg' : hi' ≤ g')
    (hae : ∀ᵐ x : ℝ, 0 < x → dens a1 a2 lo hi bf lam mu s g x = dens a1' a2' lo hi' bf' lam' mu' s' g' x) : g ≤ g' := by
  by_contra hn
  obtain ⟨x, hx, hp⟩ := exists_point hae (not_le.1 hn)
  have hlx : lo < x := (h'.trans_le hg').trans hx.1
  have e := hp (h0.trans hlx)
  rw [dens_out hg' (Or.inr hx.1)] at e
  have p2 : 0 < lam * Spec.normalised (bell mu s) lo g x := mul_pos l0 (Identifiable.normalised_pos (shape_gauss (h.trans_le hg))
    ⟨hlx, hx.2⟩)
  have p1 : 0 ≤ (1 - lam) * Spec.normalised (brokenShape a1 a2 (lo + bf * (hi - lo))) lo hi x :=
    mul_nonneg (by linarith) ((isPdf_broken a1 a2 h0 (by nlinarith [mul_pos b0 (sub_pos.2 h)]) h).nonneg x)
  unfold dens at e
  linarith

/-- The density below the break, with its coefficients. -/
theorem dens_eq (h0 : 0 < lo) (hg : hi ≤ g) {x : ℝ} (h1 : lo < x) (hb : x < lo + bf * (hi - lo))
    (hm : lo + bf * (hi - lo) < hi) : dens a1 a2 lo hi bf lam mu s g x =
      (1 - lam) / ((lo + bf * (hi - lo)) ^ (-a1) * ∫ t in lo..hi, brokenShape a1 a2 (lo + bf * (hi - lo)) t) * x ^ (-a1) +
        lam / (∫ t in lo..g, bell mu s t) * bell mu s x := by
  have hx0 := h0.trans h1
  have e : brokenShape a1 a2 (lo + bf * (hi - lo)) x = x ^ (-a1) / (lo + bf * (hi - lo)) ^ (-a1) := by
    rw [← Real.div_rpow hx0.le (hx0.trans hb).le]
    unfold brokenShape
    rw [if_pos hb]
  unfold dens Spec.normalised
  rw [if_pos ⟨h1.le, (hb.trans hm).le⟩, if_pos ⟨h1.le, (hb.trans hm).le.trans hg⟩, e, div_div]
  ring

/-- The peak, its fraction and the lower limit are determined; without the peak the broken power laws are the same. -/
theorem peak_determined (h0 : 0 < lo) (h : lo < hi) (b0 : 0 < bf) (b1 : bf < 1) (hg : hi ≤ g) (l0 : 0 < lam) (l1 : lam < 1)
    (hs : 0 < s) (h0' : 0 < lo') (h' : lo' < hi') (b0' : 0 < bf') (b1' : bf' < 1) (hg' : hi' ≤ g') (l0' : 0 < lam')
    (l1' : lam' < 1) (hs' : 0 < s')
    (hae : ∀ᵐ x : ℝ, 0 < x → dens a1 a2 lo hi bf lam mu s g x = dens a1' a2' lo' hi' bf' lam' mu' s' g' x) :
    lam = lam' ∧ mu = mu' ∧ s = s' ∧ g = g' ∧ ∀ᵐ x : ℝ, 0 < x →
      Spec.normalised (brokenShape a1 a2 (lo + bf * (hi - lo))) lo hi x =
        Spec.normalised (brokenShape a1' a2' (lo' + bf' * (hi' - lo'))) lo' hi' x := by
  have hae' := hae.mono fun x hx h => (hx h).symm
  have e1 : lo = lo' := le_antisymm (dens_lo h0' h' b0' hg' l0' l1' hg hae') (dens_lo h0 h b0 hg l0 l1 hg' hae)
  subst e1
  have e2 : g = g' := le_antisymm (dens_g h0 h b0 hg l0 l1 h' hg' hae) (dens_g h0 h' b0' hg' l0' l1' h hg hae')
  subst e2
  have m1 : lo < lo + bf * (hi - lo) := by nlinarith
  have m2 : lo + bf * (hi - lo) < hi := by nlinarith
  have m1' : lo < lo + bf' * (hi' - lo) := by nlinarith
  have m2' : lo + bf' * (hi' - lo) < hi' := by nlinarith
  have Zs : ∀ {a1 a2 hi mb : ℝ}, lo < hi → lo < mb → 0 < mb ^ (-a1) * ∫ t in lo..hi, brokenShape a1 a2 mb t :=
    fun h hm => mul_pos (Real.rpow_pos_of_pos (h0.trans hm) _) (integral_brokenShape_pos _ _ h0 (h0.trans hm) h)
  have Zb : ∀ {mu s : ℝ}, 0 < ∫ t in lo..g, bell mu s t := integral_gaussShape_pos (h.trans_le hg)
  have n1 : 0 < 1 - lam := by linarith
  have n1' : 0 < 1 - lam' := by linarith
  obtain ⟨e3, e4, e5, e6, e7⟩ := mixture (div_pos n1 (Zs (a1 := a1) (a2 := a2) h m1)) (div_pos l0 Zb)
    (div_pos n1' (Zs (a1 := a1') (a2 := a2') h' m1')) (div_pos l0' Zb) hs hs' h0.le (lt_min m1 m1') (eq_of_ae
    ((rpow_continuousOn _ a1 h0.le).add ((bell_continuous mu s).const_smul (lam / ∫ t in lo..g, bell mu s t)).continuousOn)
    ((rpow_continuousOn _ a1' h0.le).add
      ((bell_continuous mu' s').const_smul (lam' / ∫ t in lo..g, bell mu' s' t)).continuousOn) (by
      filter_upwards [hae] with x hx hxI
      have := hx (h0.trans hxI.1)
      rwa [dens_eq h0 hg hxI.1 (hxI.2.trans_le (min_le_left _ _)) m2,
        dens_eq h0 hg' hxI.1 (hxI.2.trans_le (min_le_right _ _)) m2'] at this))
  subst e5 e6
  have e8 : lam = lam' := (div_left_inj' Zb.ne').1 e7
  subst e8
  refine ⟨rfl, rfl, rfl, rfl, ?_⟩
  filter_upwards [hae] with x hx hx0
  have := hx hx0
  unfold dens at this
  exact mul_left_cancel₀ (by linarith : (1 - lam) ≠ 0) (add_right_cancel this)

/-- All nine parameters, with the break unless the indices are equal. -/
theorem all_determined (b : Backend) (ha1 : b = .jax ∨ a1 ≠ -1) (ha2 : b = .jax ∨ a2 ≠ -1) (ha1' : b = .jax ∨ a1' ≠ -1)
    (ha2' : b = .jax ∨ a2' ≠ -1) (h0 : 0 < lo) (h : lo < hi) (b0 : 0 < bf) (b1 : bf < 1) (hg : hi ≤ g) (l0 : 0 < lam)
    (l1 : lam < 1) (hs : 0 < s) (h0' : 0 < lo') (h' : lo' < hi') (b0' : 0 < bf') (b1' : bf' < 1) (hg' : hi' ≤ g')
    (l0' : 0 < lam') (l1' : lam' < 1) (hs' : 0 < s')
    (hae : ∀ᵐ x : ℝ, 0 < x → dens a1 a2 lo hi bf lam mu s g x = dens a1' a2' lo' hi' bf' lam' mu' s' g' x) :
    a1 = a1' ∧ a2 = a2' ∧ lo = lo' ∧ hi = hi' ∧ lam = lam' ∧ mu = mu' ∧ s = s' ∧ g = g' ∧ (a1 ≠ a2 → bf = bf') := by
  obtain ⟨e1, e2, e3, e4, hB⟩ := peak_determined h0 h b0 b1 hg l0 l1 hs h0' h' b0' b1' hg' l0' l1' hs' hae
  obtain ⟨f1, f2, f3, f4, f5⟩ := C156_broken b false h0 h h0' h' b0 b1 b0' b1' ha1 ha2 ha1' ha2' (by
    filter_upwards [hB] with x hx hx0
    rw [C17_doublePowerLaw_value b false ha1 ha2 h0 h b0 b1 hx0,
      C17_doublePowerLaw_value b false ha1' ha2' h0' h' b0' b1' hx0, hx hx0])
  exact ⟨f1, f2, f3, f4, e1, e2, e3, e4, f5⟩

/-- The keyword arguments of the smoothed broken power law with a peak fit. -/
theorem fits {b : Backend} {selfMin selfMax : ℝ} {nM nQ : ℕ} {cache : Bool} {sm : Smoothed} (py : Bool) {beta d : ℝ}
    (hsm : brokenPowerLawPeak py selfMin selfMax nM nQ cache = .ok sm) (hself : 0 < selfMin)
    (ha1 : b = .jax ∨ a1 ≠ -1) (ha2 : b = .jax ∨ a2 ≠ -1) (hlo : selfMin ≤ lo) (h : lo < hi) (hX : hi ≤ selfMax)
    (b0 : 0 < bf) (b1 : bf < 1) (l0 : 0 < lam) (l1 : lam < 1) (hs : 0 < s) (hd : 0 < d)
    (hnode : ∃ m ∈ sm.m1s, lo < m ∧ m < hi) (hgrid : lo ∉ sm.m1s) :
    SmoothedFits b sm (brokenPeakCall a1 a2 beta lo hi bf lam mu s d) (dens a1 a2 lo hi bf lam mu s selfMax) beta lo hi
      d := by
  have hsme := (init_inv hsm).2.2
  have hmin : sm.mmin = selfMin := by rw [hsme]
  have hmax : sm.mmax = selfMax := by rw [hsme]
  have hfix : sm.fixed = [("gaussian_mass_maximum", fin selfMax)] := by rw [hsme]
  have hprim : sm.primary = primDoublePowerLawPeak py := by rw [hsme]
  have h0 : 0 < lo := hself.trans_le hlo
  have pdf := doublePowerLawPeak_isPdf (a1 := a1) (a2 := a2) (mpp := mu) (sigpp := s) h0 h b0 (h.trans_le hX) l0.le l1.le
  rw [max_eq_right hX] at pdf
  refine ⟨by simp [brokenPeakCall, Dict.get?_cons], by simp [brokenPeakCall, Dict.get?_cons],
    by simp [brokenPeakCall, Dict.get?_cons], ?_, fun k hk => ?_, fun m hm => ?_, pdf.nonneg, hmax ▸ pdf.supp, pdf.int,
    pdf.one, fun m h1 h2 => dens_pos h0 h b0 hX l0 l1 h1 h2, hmin ▸ hlo, h, hmax ▸ hX, hd, hnode, hgrid⟩
  · rw [hmax]
    simp [Smoothed.kwGet, brokenPeakCall, Dict.get?_cons]
    exact hX
  · rw [hfix]
    simp only [brokenPeakCall, Dict.keys, List.map_cons, List.map_nil, List.mem_cons, List.not_mem_nil, or_false] at hk ⊢
    rcases hk with rfl | rfl | rfl | rfl | rfl | rfl | rfl | rfl | rfl | rfl <;> decide
  · have ek : Dict.erase (Dict.erase (brokenPeakCall a1 a2 beta lo hi bf lam mu s d) "beta" ++ sm.fixed) "delta_m" =
        [("alpha_1", fin a1), ("alpha_2", fin a2), ("mmin", fin lo), ("mmax", fin hi), ("break_fraction", fin bf),
          ("lam", fin lam), ("mpp", fin mu), ("sigpp", fin s), ("gaussian_mass_maximum", fin selfMax)] := by
      rw [hfix]
      simp [Dict.erase, brokenPeakCall]
    rw [ek, hprim]
    refine Eq.trans ?_ (C18_doublePowerLawPeak_value b py ha1 ha2 h0 h b0 b1 (h.trans_le hX) hs hm)
    unfold primDoublePowerLawPeak bindArgs
    rw [if_neg (by simp [Dict.keys, Dict.contains])]
    rfl

end BrokenPeak

open BrokenPeak SmoothedAny SmoothedTwoPeaks SmoothedJoint

/-! ## The property -/

variable {b : Backend} {selfMin selfMax : ℝ} {nM nQ : ℕ} {cache : Bool} {sm : Smoothed} {v v₁ v₂ : NNReal}

/-- **C168.** The population determines all nine parameters of the broken power law with a Gaussian peak if both parts are
present, except that the break is free if the two indices are equal. -/
theorem C168_determined (b : Backend) (py : Bool)
    {a1 a2 lo hi bf lam mu s g a1' a2' lo' hi' bf' lam' mu' s' g' : ℝ}
    (ha1 : b = .jax ∨ a1 ≠ -1) (ha2 : b = .jax ∨ a2 ≠ -1) (h0 : 0 < lo) (h : lo < hi) (b0 : 0 < bf) (b1 : bf < 1)
    (hg : hi ≤ g) (l0 : 0 < lam) (l1 : lam < 1) (hs : 0 < s)
    (ha1' : b = .jax ∨ a1' ≠ -1) (ha2' : b = .jax ∨ a2' ≠ -1) (h0' : 0 < lo') (h' : lo' < hi') (b0' : 0 < bf')
    (b1' : bf' < 1) (hg' : hi' ≤ g') (l0' : 0 < lam') (l1' : lam' < 1) (hs' : 0 < s')
    (hsame : SamePopulation (Ioi 0)
      (fun m => doublePowerLawPeakPrimaryMass b py (fin m) (fin a1) (fin a2) (fin lo) (fin hi) (fin bf) (fin lam) (fin mu)
        (fin s) (fin g))
      (fun m => doublePowerLawPeakPrimaryMass b py (fin m) (fin a1') (fin a2') (fin lo') (fin hi') (fin bf') (fin lam')
        (fin mu') (fin s') (fin g'))) :
    a1 = a1' ∧ a2 = a2' ∧ lo = lo' ∧ hi = hi' ∧ lam = lam' ∧ mu = mu' ∧ s = s' ∧ g = g' ∧ (a1 ≠ a2 → bf = bf') := by
  refine all_determined b ha1 ha2 ha1' ha2' h0 h b0 b1 hg l0 l1 hs h0' h' b0' b1' hg' l0' l1' hs' ?_
  filter_upwards [hsame] with x hx hx0
  have e := hx hx0
  rw [C18_doublePowerLawPeak_value b py ha1 ha2 h0 h b0 b1 (h.trans_le hg) hs hx0,
    C18_doublePowerLawPeak_value b py ha1' ha2' h0' h' b0' b1' (h'.trans_le hg') hs' hx0] at e
  exact Fl.fin.inj (Except.ok.inj e)

/-- **C168.** All nine parameters are found from noisy masses of detected sources. -/
theorem C168_recovers {J : Type} [Fintype J] {p : J → ℝ → ℝ} {j₀ : J} (b : Backend) (py : Bool) {Det : Set ℝ}
    {a1 a2 lo hi bf lam mu s g : J → ℝ} (ha1 : ∀ j, b = .jax ∨ a1 j ≠ -1) (ha2 : ∀ j, b = .jax ∨ a2 j ≠ -1)
    (h0 : ∀ j, 0 < lo j) (h : ∀ j, lo j < hi j) (b0 : ∀ j, 0 < bf j) (b1 : ∀ j, bf j < 1) (hg : ∀ j, hi j ≤ g j)
    (l0 : ∀ j, 0 < lam j) (l1 : ∀ j, lam j < 1) (hs : ∀ j, 0 < s j) (hne : a1 j₀ ≠ a2 j₀)
    (hinj : ∀ j, j ≠ j₀ → (a1 j, a2 j, lo j, hi j, bf j, lam j, mu j, s j, g j) ≠
      (a1 j₀, a2 j₀, lo j₀, hi j₀, bf j₀, lam j₀, mu j₀, s j₀, g j₀))
    (hp : ∀ j m, 0 < m → doublePowerLawPeakPrimaryMass b py (fin m) (fin (a1 j)) (fin (a2 j)) (fin (lo j)) (fin (hi j))
      (fin (bf j)) (fin (lam j)) (fin (mu j)) (fin (s j)) (fin (g j)) = .ok (fin (p j m)))
    (hm : ∀ j, Measurable (p j)) (hv : v ≠ 0) (hD : MeasurableSet Det) :
    Recovers (volume.restrict (Ioi 0)) volume (gaussianErrors v) Det p j₀ := by
  have dens := fun j => C18_doublePowerLawPeak_isDensity (mpp := mu j) b py (ha1 j) (ha2 j) (h0 j) (h j) (b0 j) (b1 j)
    ((h j).trans_le (hg j)) (hs j) (l0 j).le (l1 j).le
  refine C159_recovers (K := allBelow fun j => max (hi j) (g j)) hv measurableSet_Ioi hD (fun j => (dens j).1) hp hm
    (fun j x hx hK => (dens j).2 x hx (Or.inr ?_)) fun j hj hs' => hinj j hj ?_
  · rw [abs_of_pos hx] at hK
    exact (le_allBelow (fun j => max (hi j) (g j)) j).trans_lt hK
  · obtain ⟨e1, e2, e3, e4, e5, e6, e7, e8, e9⟩ := C168_determined b py (ha1 j) (ha2 j) (h0 j) (h j) (b0 j) (b1 j) (hg j)
      (l0 j) (l1 j) (hs j) (ha1 j₀) (ha2 j₀) (h0 j₀) (h j₀) (b0 j₀) (b1 j₀) (hg j₀) (l0 j₀) (l1 j₀) (hs j₀)
      (samePopulation_symm hs')
    rw [e1, e2, e3, e4, e5, e6, e7, e8, e9 (by rw [e1, e2]; exact hne)]

/-- **C168.** The joint density of the smoothed broken power law with a peak determines all ten parameters, except that the
break is free if the two indices are equal. -/
theorem C168_smoothed (py : Bool)
    {a1 a2 beta lo hi bf lam mu s d a1' a2' beta' lo' hi' bf' lam' mu' s' d' D : ℝ}
    (hsm : brokenPowerLawPeak py selfMin selfMax nM nQ cache = .ok sm) (hself : 0 < selfMin) (hlt : selfMin < selfMax)
    (ha1 : b = .jax ∨ a1 ≠ -1) (ha2 : b = .jax ∨ a2 ≠ -1) (hlo : selfMin ≤ lo) (h : lo + D < hi) (hX : hi ≤ selfMax)
    (b0 : 0 < bf) (b1 : bf < 1) (l0 : 0 < lam) (l1 : lam < 1) (hs : 0 < s) (hd : 0 < d) (hdD : d ≤ D)
    (hnode : ∃ m ∈ sm.m1s, lo < m ∧ m < hi) (hgrid : lo ∉ sm.m1s)
    (ha1' : b = .jax ∨ a1' ≠ -1) (ha2' : b = .jax ∨ a2' ≠ -1) (hlo' : selfMin ≤ lo') (h' : lo' + D < hi')
    (hX' : hi' ≤ selfMax) (b0' : 0 < bf') (b1' : bf' < 1) (l0' : 0 < lam') (l1' : lam' < 1) (hs' : 0 < s') (hd' : 0 < d')
    (hdD' : d' ≤ D) (hnode' : ∃ m ∈ sm.m1s, lo' < m ∧ m < hi') (hgrid' : lo' ∉ sm.m1s)
    (hsame : ∀ᵐ x : ℝ × ℝ, 0 < x.1 → x.1 ≤ selfMax → 0 < x.2 → x.2 ≤ 1 →
      (Smoothed.call b sm [(fin x.1, fin x.2)] (brokenPeakCall a1 a2 beta lo hi bf lam mu s d)).1 =
        (Smoothed.call b sm [(fin x.1, fin x.2)] (brokenPeakCall a1' a2' beta' lo' hi' bf' lam' mu' s' d')).1) :
    a1 = a1' ∧ a2 = a2' ∧ beta = beta' ∧ lo = lo' ∧ hi = hi' ∧ lam = lam' ∧ mu = mu' ∧ s = s' ∧ d = d' ∧
      (a1 ≠ a2 → bf = bf') := by
  have lh : lo < hi := by linarith
  have lh' : lo' < hi' := by linarith
  obtain ⟨e1, e2, e3, hF⟩ := C167_transfer hsm hself hlt
    (fits py hsm hself ha1 ha2 hlo lh hX b0 b1 l0 l1 hs hd hnode hgrid)
    (fits py hsm hself ha1' ha2' hlo' lh' hX' b0' b1' l0' l1' hs' hd' hnode' hgrid') h hdD h' hdD' hsame
  obtain ⟨f1, f2, f3, f4, f5, f6, f7, -, f9⟩ := all_determined b ha1 ha2 ha1' ha2' (hself.trans_le hlo) lh b0 b1 hX l0 l1 hs
    (hself.trans_le hlo') lh' b0' b1' hX' l0' l1' hs' (hF.mono fun x hx _ => hx)
  exact ⟨f1, f2, e1, f3, f4, f5, f6, f7, e3, f9⟩

/-- **C168.** All ten parameters of the smoothed broken power law with a peak are found from noisy primary masses and mass
ratios of detected sources. -/
theorem C168_smoothed_recovers {J : Type} [Fintype J] {p : J → ℝ × ℝ → ℝ} {j₀ : J} (py : Bool)
    {a1 a2 beta lo hi bf lam mu s d : J → ℝ} {D : ℝ} {Det : Set (ℝ × ℝ)}
    (hsm : brokenPowerLawPeak py selfMin selfMax nM nQ cache = .ok sm) (hself : 0 < selfMin) (hlt : selfMin < selfMax)
    (ha1 : ∀ j, b = .jax ∨ a1 j ≠ -1) (ha2 : ∀ j, b = .jax ∨ a2 j ≠ -1) (hlo : ∀ j, selfMin ≤ lo j)
    (h : ∀ j, lo j + D < hi j) (hX : ∀ j, hi j ≤ selfMax) (b0 : ∀ j, 0 < bf j) (b1 : ∀ j, bf j < 1)
    (l0 : ∀ j, 0 < lam j) (l1 : ∀ j, lam j < 1) (hs : ∀ j, 0 < s j) (hd : ∀ j, 0 < d j)
    (hdD : ∀ j, d j ≤ D) (hnode : ∀ j, ∃ m ∈ sm.m1s, lo j < m ∧ m < hi j) (hgrid : ∀ j, lo j ∉ sm.m1s)
    (hne : a1 j₀ ≠ a2 j₀)
    (hinj : ∀ j, j ≠ j₀ → (a1 j, a2 j, beta j, lo j, hi j, bf j, lam j, mu j, s j, d j) ≠
      (a1 j₀, a2 j₀, beta j₀, lo j₀, hi j₀, bf j₀, lam j₀, mu j₀, s j₀, d j₀))
    (hp : ∀ j m q, 0 < m → m ≤ selfMax → m ≠ lo j → 0 < q → q ≤ 1 → (Smoothed.call b sm [(fin m, fin q)]
      (brokenPeakCall (a1 j) (a2 j) (beta j) (lo j) (hi j) (bf j) (lam j) (mu j) (s j) (d j))).1 = .ok [fin (p j (m, q))])
    (hm : ∀ j, Measurable (p j)) (hv₁ : v₁ ≠ 0) (hv₂ : v₂ ≠ 0) (hDet : MeasurableSet Det) :
    Recovers (volume.restrict (Ioc 0 selfMax ×ˢ Ioc 0 1)) volume (gaussianErrors2 v₁ v₂) Det p j₀ := by
  have lh : ∀ j, lo j < hi j := fun j => by linarith [h j, hd j, hdD j]
  have h0 : ∀ j, 0 < lo j := fun j => hself.trans_le (hlo j)
  refine C167_recovers hsm hself hlt (fun j => fits py hsm hself (ha1 j) (ha2 j) (hlo j) (lh j) (hX j) (b0 j) (b1 j)
    (l0 j) (l1 j) (hs j) (hd j) (hnode j) (hgrid j)) h hdD (fun j hj hall => hinj j hj ?_) hp hm hv₁ hv₂ hDet
  obtain ⟨e1, e2, e3, hF⟩ := hall
  obtain ⟨f1, f2, f3, f4, f5, f6, f7, -, f9⟩ := all_determined b (ha1 j) (ha2 j) (ha1 j₀) (ha2 j₀) (h0 j) (lh j) (b0 j)
    (b1 j) (hX j) (l0 j) (l1 j) (hs j) (h0 j₀) (lh j₀) (b0 j₀) (b1 j₀) (hX j₀) (l0 j₀) (l1 j₀) (hs j₀)
    (hF.mono fun x hx _ => hx)
  rw [f1, f2, e1, f3, f4, f5, f6, f7, e3, f9 (by rw [f1, f2]; exact hne)]

/-! ## Non-vacuity -/

theorem BrokenPeak.broken_measurable (a1 a2 mb lo hi : ℝ) :
    Measurable (Spec.normalised (brokenShape a1 a2 mb) lo hi) := by
  unfold Spec.normalised brokenShape
  exact Measurable.ite measurableSet_Icc (Measurable.div_const (Measurable.ite measurableSet_Iio
    ((measurable_id.div_const _).pow_const _) ((measurable_id.div_const _).pow_const _)) _) measurable_const

theorem BrokenPeak.dens_measurable (a1 a2 lo hi bf lam mu s g : ℝ) : Measurable (dens a1 a2 lo hi bf lam mu s g) := by
  refine ((broken_measurable _ _ _ _ _).const_mul _).add (Measurable.const_mul ?_ _)
  unfold Spec.normalised
  exact Measurable.ite measurableSet_Icc ((Peak.bell_continuous mu s).measurable.div_const _) measurable_const

/-- Candidates for the fraction in the peak and for the break, from masses alone. -/
example (hv : v ≠ 0) {Det : Set ℝ} (hD : MeasurableSet Det) : ∃ p : Bool × Bool → ℝ → ℝ, (∀ j, Measurable (p j)) ∧
    (∀ j m, 0 < m → doublePowerLawPeakPrimaryMass .numpy true (fin m) (fin 1.6) (fin 5.6) (fin 5) (fin 85)
      (fin (if j.2 then 0.4 else 0.5)) (fin (if j.1 then 0.1 else 0.2)) (fin 34) (fin 4) (fin 100) = .ok (fin (p j m))) ∧
    Recovers (volume.restrict (Ioi 0)) volume (gaussianErrors v) Det p (true, true) := by
  obtain ⟨l, hl⟩ : ∃ a : Bool × Bool → ℝ, a = fun j => if j.1 then 0.1 else 0.2 := ⟨_, rfl⟩
  obtain ⟨k, hk⟩ : ∃ a : Bool × Bool → ℝ, a = fun j => if j.2 then 0.4 else 0.5 := ⟨_, rfl⟩
  have d0 : ∀ j, 0 < l j := fun j => by rcases j with ⟨_ | _, _⟩ <;> norm_num [hl]
  have d1 : ∀ j, l j < 1 := fun j => by rcases j with ⟨_ | _, _⟩ <;> norm_num [hl]
  have k0 : ∀ j, 0 < k j := fun j => by rcases j with ⟨_, _ | _⟩ <;> norm_num [hk]
  have k1 : ∀ j, k j < 1 := fun j => by rcases j with ⟨_, _ | _⟩ <;> norm_num [hk]
  have hp := fun (j : Bool × Bool) (m : ℝ) (hm : 0 < m) => C18_doublePowerLawPeak_value (a1 := 1.6) (a2 := 5.6) (mmin := 5)
    (mmax := 85) (gmm := 100) (mpp := 34) (sigpp := 4) (lam := l j) .numpy true (Or.inr (by norm_num))
    (Or.inr (by norm_num)) (by norm_num) (by norm_num) (k0 j) (k1 j) (by norm_num) (by norm_num) hm
  have hm := fun j => dens_measurable 1.6 5.6 5 85 (k j) (l j) 34 4 100
  refine ⟨fun j => dens 1.6 5.6 5 85 (k j) (l j) 34 4 100, hm, fun j m h => by
    have := hp j m h
    rw [hl, hk] at this ⊢
    exact this, C168_recovers (a1 := fun _ => 1.6) (a2 := fun _ => 5.6) (lo := fun _ => 5)
    (hi := fun _ => 85) (bf := k) (lam := l) (mu := fun _ => 34) (s := fun _ => 4) (g := fun _ => 100) .numpy true
    (fun _ => Or.inr (by norm_num)) (fun _ => Or.inr (by norm_num)) (fun _ => by norm_num) (fun _ => by norm_num) k0 k1
    (fun _ => by norm_num) d0 d1 (fun _ => by norm_num) (by norm_num) (fun j hj => ?_) hp hm hv hD⟩
  rcases j with ⟨_ | _, _ | _⟩
  · norm_num [hl]
  · norm_num [hl]
  · norm_num [hk]
  · exact absurd rfl hj

/-- Two parameter sets of the smoothed model with the defaults of the class for the grids. -/
example (py cache : Bool) {lam d : ℝ} (l0 : 0 < lam) (l1 : lam < 1) (hd : 0 < d) (hd5 : d ≤ 5) : ∃ sm : Smoothed,
    brokenPowerLawPeak py 2 100 1000 500 cache = .ok sm ∧
    ((∀ᵐ x : ℝ × ℝ, 0 < x.1 → x.1 ≤ 100 → 0 < x.2 → x.2 ≤ 1 →
      (Smoothed.call .numpy sm [(fin x.1, fin x.2)] (brokenPeakCall 1.6 5.6 1.1 5 85 0.4 0.1 34 4 4.8)).1 =
        (Smoothed.call .numpy sm [(fin x.1, fin x.2)] (brokenPeakCall 1.6 5.6 1.1 5 85 0.4 lam 34 4 d)).1) ↔
      lam = 0.1 ∧ d = 4.8) := by
  obtain ⟨sm, hsm⟩ : ∃ sm, brokenPowerLawPeak py 2 100 1000 500 cache = .ok sm :=
    ⟨_, init_ok (primDoublePowerLawPeak py) [("gaussian_mass_maximum", fin 100)] 2 100 (nM := 1000) (nQ := 500) cache
      (by norm_num) (by norm_num)⟩
  have hms : sm.m1s = Arr.linspaceR 2 100 1000 := by
    have := (init_inv hsm).2.2
    rw [this]
  have hnode : ∃ m ∈ sm.m1s, (5 : ℝ) < m ∧ m < 85 := by
    rw [hms]
    unfold Arr.linspaceR
    exact ⟨_, List.mem_map.2 ⟨100, List.mem_range.2 (by norm_num), rfl⟩, by norm_num, by norm_num⟩
  have hgrid : (5 : ℝ) ∉ sm.m1s := by
    rw [hms]
    unfold Arr.linspaceR
    intro hh
    obtain ⟨i, -, hi⟩ := List.mem_map.1 hh
    have h2 : (98 : ℝ) * i = 2997 := by
      norm_num at hi
      linarith
    have h3 : 98 * i = 2997 := by exact_mod_cast h2
    omega
  refine ⟨sm, hsm, fun hs => ?_, fun hh => by rw [hh.1, hh.2]; exact ae_of_all _ fun _ _ _ _ _ => rfl⟩
  obtain ⟨-, -, -, -, -, e1, -, -, e2, -⟩ := C168_smoothed (D := 5) py hsm (by norm_num) (by norm_num)
    (Or.inr (by norm_num)) (Or.inr (by norm_num)) (by norm_num) (by norm_num) (by norm_num) (by norm_num) (by norm_num)
    (by norm_num) (by norm_num) (by norm_num) (by norm_num) (by norm_num) hnode hgrid
    (Or.inr (by norm_num)) (Or.inr (by norm_num)) (by norm_num) (by norm_num) (by norm_num) (by norm_num) (by norm_num)
    l0 l1 (by norm_num) hd hd5 hnode hgrid hs
  exact ⟨e1.symm, e2.symm⟩

end GW
