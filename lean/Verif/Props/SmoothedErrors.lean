import Verif.Props.PeakErrors
import Verif.Props.SmoothedLimit

/-!
# C163: the smoothed model with one peak: every parameter of the primary mass is determined and found
-/

noncomputable section

open MeasureTheory ProbabilityTheory Filter Topology Set

namespace GW

open Fl Spec TruePopulation Posterior GaussianErrors

/-! ## Specification -/

/-- The parameters of the primary mass, with the upper end of the peak that the model adds. -/
def Spec.peakKwargs (a lo hi lam mu s d g : ℝ) : Dict Fl :=
  [("alpha", fin a), ("mmin", fin lo), ("mmax", fin hi), ("lam", fin lam), ("mpp", fin mu), ("sigpp", fin s),
    ("delta_m", fin d), ("gaussian_mass_maximum", fin g)]

/-! ## Lemmas -/

namespace SmoothedPeak

open Identifiable Peak

theorem primary_eq (py : Bool) (b : Backend) (a lo hi lam mu s d g : ℝ) (m : Fl) :
    primTwoComponent py b (Dict.erase (peakKwargs a lo hi lam mu s d g) "delta_m") m =
      twoComponentSingle b py m (fin a) (fin lo) (fin hi) (fin lam) (fin mu) (fin s) (fin g) := by
  have e : Dict.erase (peakKwargs a lo hi lam mu s d g) "delta_m" = [("alpha", fin a), ("mmin", fin lo), ("mmax", fin hi),
      ("lam", fin lam), ("mpp", fin mu), ("sigpp", fin s), ("gaussian_mass_maximum", fin g)] := by
    simp [Dict.erase, peakKwargs]
  rw [e]
  unfold primTwoComponent bindArgs
  rw [if_neg (by simp [Dict.keys, Dict.contains, Dict.get?_cons])]
  rfl

theorem taper_strict {u w : ℝ} (h : w < u) (h1 : 1e-6 < u) (h2 : u < 1 - 1e-6) : taper w < taper u := by
  obtain ⟨a1, a2⟩ := clampUnit_mem w
  have hu : clampUnit u = u := by
    unfold clampUnit
    rw [if_neg (not_lt.2 h1.le), if_neg (not_lt.2 h2.le)]
  have hc : clampUnit w < u := by
    unfold clampUnit
    split_ifs <;> linarith
  unfold taper
  rw [hu]
  have w0 : 0 < clampUnit w := by norm_num at a1; linarith
  have u1 : 0 < 1 - u := by norm_num at h2; linarith
  apply one_div_lt_one_div_of_lt (by positivity)
  have e1 : 1 / u < 1 / clampUnit w := one_div_lt_one_div_of_lt w0 hc
  have e2 : 1 / (1 - clampUnit w) < 1 / (1 - u) := one_div_lt_one_div_of_lt u1 (by linarith)
  have := Real.exp_lt_exp.2 (show 1 / u - 1 / (1 - u) < 1 / clampUnit w - 1 / (1 - clampUnit w) by linarith)
  linarith

theorem taper_one {u : ℝ} (h : 1 ≤ u) : taper u = taper 1 := by
  have hc : ∀ x : ℝ, 1 ≤ x → clampUnit x = 1 - 1e-6 := by
    intro x hx
    unfold clampUnit
    rw [if_neg (by norm_num; linarith), if_pos (by norm_num; linarith)]
  unfold taper
  rw [hc u h, hc 1 le_rfl]

variable {a lo hi lam mu s g d a' lo' hi' lam' mu' s' g' d' X D c c' : ℝ}

theorem window_eq {x : ℝ} (h1 : lo ≤ x) (h2 : x ≤ X) : window lo X d x = taper ((x - lo) / d) := by
  unfold window
  rw [if_pos ⟨h1, h2⟩]

theorem window_plateau {x : ℝ} (hd : 0 < d) (h1 : lo + d ≤ x) (h2 : x ≤ X) : window lo X d x = taper 1 := by
  rw [window_eq (by linarith) h2, taper_one]
  rw [le_div_iff₀ hd]
  linarith

theorem smoothed_lo (h0 : 0 < lo) (h : lo < hi) (hg : lo < g) (l0 : 0 < lam) (l1 : lam < 1) (hX : hi ≤ X) (hc : 0 < c)
    (hae : ∀ᵐ x : ℝ, 0 < x → c * (val a lo hi lam mu s g x * window lo X d x) =
      c' * (val a' lo' hi' lam' mu' s' g' x * window lo' X d' x)) : lo' ≤ lo := by
  by_contra hn
  have hn := not_le.1 hn
  obtain ⟨x, hx, hp⟩ := exists_point hae (lt_min hn (lt_min h hg))
  have h1 := hx.2.trans_le (min_le_left _ _)
  have h2 := hx.2.trans_le ((min_le_right _ _).trans (min_le_left _ _))
  have h3 := hx.2.trans_le ((min_le_right _ _).trans (min_le_right _ _))
  have e := hp (h0.trans hx.1)
  rw [val_below h1, zero_mul, mul_zero, window_eq hx.1.le (h2.le.trans hX)] at e
  exact (mul_pos hc (mul_pos (val_pos h0 h hg l0 l1 hx.1 h2 h3) (taper_pos _))).ne' e

theorem smoothed_width {F : ℝ → ℝ} (hd : 0 < d) (hD : d ≤ D) (hF : ∀ x, lo < x → 0 < F x)
    (hae : ∀ᵐ x : ℝ, x ∈ Ioo lo (lo + D) → F x * taper ((x - lo) / d) = F x * taper ((x - lo) / d')) : d' ≤ d := by
  by_contra hn
  have hn := not_le.1 hn
  obtain ⟨x, hx, hp⟩ := exists_point hae (show lo + d / 4 < lo + d / 2 by linarith)
  have hx0 : lo < x := by linarith [hx.1]
  have e := mul_left_cancel₀ (hF x hx0).ne' (hp ⟨hx0, by linarith [hx.2]⟩)
  refine (taper_strict ?_ ?_ ?_).ne' e
  · exact div_lt_div_of_pos_left (by linarith) hd hn
  · rw [lt_div_iff₀ hd]
    have := hx.1
    norm_num
    linarith
  · rw [div_lt_iff₀ hd]
    have := hx.2
    norm_num
    linarith

/-- All eight parameters, even if only the ratios of the densities are known. -/
theorem smoothed_determined (h0 : 0 < lo) (h : lo + D < hi) (hg : lo + D < g) (l0 : 0 < lam) (l1 : lam < 1) (hs : 0 < s)
    (hd : 0 < d) (hdD : d ≤ D) (h0' : 0 < lo') (h' : lo' + D < hi') (hg' : lo' + D < g') (l0' : 0 < lam') (l1' : lam' < 1)
    (hs' : 0 < s') (hd' : 0 < d') (hdD' : d' ≤ D) (hX : hi ≤ X) (hX' : hi' ≤ X) (hgX : g ≤ X) (hgX' : g' ≤ X)
    (hc : 0 < c) (hc' : 0 < c')
    (hae : ∀ᵐ x : ℝ, 0 < x → c * (val a lo hi lam mu s g x * window lo X d x) =
      c' * (val a' lo' hi' lam' mu' s' g' x * window lo' X d' x)) :
    a = a' ∧ lo = lo' ∧ hi = hi' ∧ lam = lam' ∧ mu = mu' ∧ s = s' ∧ d = d' ∧ g = g' := by
  have hD0 : 0 < D := hd.trans_le hdD
  have lh : lo < hi := by linarith
  have lg : lo < g := by linarith
  have lh' : lo' < hi' := by linarith
  have lg' : lo' < g' := by linarith
  have hae' := hae.mono fun x hx h => (hx h).symm
  have e1 : lo = lo' := le_antisymm (smoothed_lo h0' lh' lg' l0' l1' hX' hc' hae') (smoothed_lo h0 lh lg l0 l1 hX hc hae)
  subst e1
  have Zp : ∀ {a hi : ℝ}, lo < hi → 0 < ∫ t in lo..hi, t ^ (-a) := fun h => integral_rpow_pos h0 h
  have Zb : ∀ {mu s g : ℝ}, lo < g → 0 < ∫ t in lo..g, bell mu s t := fun h => integral_gaussShape_pos h
  obtain ⟨A, hA⟩ : ∃ A, A = c * ((1 - lam) / ∫ t in lo..hi, t ^ (-a)) := ⟨_, rfl⟩
  obtain ⟨B, hB⟩ : ∃ B, B = c * (lam / ∫ t in lo..g, bell mu s t) := ⟨_, rfl⟩
  obtain ⟨A', hA'⟩ : ∃ A, A = c' * ((1 - lam') / ∫ t in lo..hi', t ^ (-a')) := ⟨_, rfl⟩
  obtain ⟨B', hB'⟩ : ∃ B, B = c' * (lam' / ∫ t in lo..g', bell mu' s' t) := ⟨_, rfl⟩
  have pA : 0 < A := hA ▸ mul_pos hc (div_pos (by linarith) (Zp lh))
  have pA' : 0 < A' := hA' ▸ mul_pos hc' (div_pos (by linarith) (Zp lh'))
  have pB : 0 < B := hB ▸ mul_pos hc (div_pos l0 (Zb lg))
  have pB' : 0 < B' := hB' ▸ mul_pos hc' (div_pos l0' (Zb lg'))
  have key : ∀ᵐ x : ℝ, lo < x → ((if x ≤ hi then A * x ^ (-a) else 0) + if x ≤ g then B * bell mu s x else 0) *
      window lo X d x = ((if x ≤ hi' then A' * x ^ (-a') else 0) + if x ≤ g' then B' * bell mu' s' x else 0) *
      window lo X d' x := by
    filter_upwards [hae] with x hx hlx
    have := hx (h0.trans hlx)
    rw [val_eq hlx, val_eq hlx] at this
    rw [hA, hB, hA', hB']
    split_ifs at this ⊢ <;> linear_combination this
  have hr : lo + D < min (min hi g) (min hi' g') := lt_min (lt_min h hg) (lt_min h' hg')
  obtain ⟨e2, e3, e4, e5, e6⟩ := mixture pA pB pA' pB' hs hs' (by linarith) hr (eq_of_ae
    ((rpow_continuousOn A a (by linarith)).add ((bell_continuous mu s).const_smul B).continuousOn)
    ((rpow_continuousOn A' a' (by linarith)).add ((bell_continuous mu' s').const_smul B').continuousOn) (by
      filter_upwards [key] with x hx hxI
      have := hx (by linarith [hxI.1])
      have k1 := hxI.2.le.trans (min_le_left _ _)
      have k2 := hxI.2.le.trans (min_le_right _ _)
      rw [if_pos (k1.trans (min_le_left _ _)), if_pos (k1.trans (min_le_right _ _)),
        if_pos (k2.trans (min_le_left _ _)), if_pos (k2.trans (min_le_right _ _)),
        window_plateau hd (by linarith [hxI.1]) ((k1.trans (min_le_left _ _)).trans hX),
        window_plateau hd' (by linarith [hxI.1]) ((k1.trans (min_le_left _ _)).trans hX)] at this
      exact mul_right_cancel₀ (taper_pos 1).ne' this))
  subst e2 e4 e5
  rw [← e3, ← e6] at key
  have width : ∀ᵐ x : ℝ, x ∈ Ioo lo (lo + D) → (A * x ^ (-a) + B * bell mu s x) * taper ((x - lo) / d) =
      (A * x ^ (-a) + B * bell mu s x) * taper ((x - lo) / d') := by
    filter_upwards [key] with x hx hxI
    have := hx hxI.1
    rwa [if_pos (by linarith [hxI.2]), if_pos (by linarith [hxI.2]), if_pos (by linarith [hxI.2]),
      if_pos (by linarith [hxI.2]), window_eq hxI.1.le (by linarith [hxI.2]),
      window_eq hxI.1.le (by linarith [hxI.2])] at this
  have hF : ∀ x, lo < x → 0 < A * x ^ (-a) + B * bell mu s x := fun x hx =>
    add_pos (mul_pos pA (Real.rpow_pos_of_pos (h0.trans hx) _)) (mul_pos pB (Real.exp_pos _))
  have e9 : d = d' := le_antisymm (smoothed_width hd' hdD' hF (width.mono fun x hx h => (hx h).symm))
    (smoothed_width hd hdD hF width)
  subst e9
  have key2 : ∀ᵐ x : ℝ, lo < x → ((if x ≤ hi then A * x ^ (-a) else 0) + if x ≤ g then B * bell mu s x else 0) =
      ((if x ≤ hi' then A * x ^ (-a) else 0) + if x ≤ g' then B * bell mu s x else 0) := by
    filter_upwards [key] with x hx hlx
    by_cases hxX : x ≤ X
    · have := hx hlx
      rw [window_eq hlx.le hxX] at this
      exact mul_right_cancel₀ (taper_pos _).ne' this
    · have hxX := not_le.1 hxX
      rw [if_neg (by linarith), if_neg (by linarith), if_neg (by linarith), if_neg (by linarith)]
  have key2' := key2.mono fun x hx h => (hx h).symm
  have e7 : hi = hi' := le_antisymm (peak_hi h0 lh' pA pB hs key2) (peak_hi h0 lh pA pB hs key2')
  subst e7
  have e8 : g = g' := le_antisymm (peak_g lg' pB key2) (peak_g lg pB key2')
  subst e8
  refine ⟨rfl, rfl, rfl, ?_, rfl, rfl, rfl, rfl⟩
  rw [hA, hA'] at e3
  rw [hB, hB'] at e6
  have z1 := Zp (a := a) lh
  have z2 := Zb (mu := mu) (s := s) lg
  set Z1 := ∫ t in lo..hi, t ^ (-a)
  set Z2 := ∫ t in lo..g, bell mu s t
  clear_value Z1 Z2
  field_simp at e3 e6
  have : c = c' := by linarith
  rw [this] at e6
  exact mul_left_cancel₀ hc'.ne' e6

/-- The masses of the grid. -/
theorem grid_eq {py : Bool} {selfMin selfMax : ℝ} {nM nQ : ℕ} {cache : Bool} {sm : Smoothed}
    (hsm : singlePeak py selfMin selfMax nM nQ cache = .ok sm) : sm.m1s = Arr.linspaceR selfMin selfMax nM := by
  obtain ⟨hM, hQ, rfl⟩ := init_inv hsm
  rfl

/-- The values of `p_m1`. -/
theorem peak_pM1 (b : Backend) (py : Bool) {selfMin selfMax : ℝ} {nM nQ : ℕ} {cache : Bool} {sm : Smoothed}
    (hsm : singlePeak py selfMin selfMax nM nQ cache = .ok sm) (hself : 0 < selfMin) (hlt : selfMin < selfMax)
    (ha : b = .jax ∨ a ≠ -1) (h0 : 0 < lo) (h : lo < hi) (hX : hi ≤ selfMax) (l0 : 0 < lam) (l1 : lam < 1) (hs : 0 < s)
    (hd : 0 < d) (hnode : ∃ m ∈ sm.m1s, lo < m ∧ m < hi) :
    ∃ N, 0 < N ∧ ∀ m : ℝ, 0 < m → Smoothed.pM1 b sm [fin m] (peakKwargs a lo hi lam mu s d selfMax) =
      .ok [fin (val a lo hi lam mu s selfMax m * window lo selfMax d m / N)] := by
  obtain ⟨hM, hQ, rfl⟩ := init_inv hsm
  have hg : lo < selfMax := h.trans_le hX
  have hgrid : ∀ m ∈ Arr.linspaceR selfMin selfMax nM, 0 < m := by
    intro m hm
    obtain ⟨i, hi, rfl⟩ := List.mem_map.1 hm
    have h1 : (0 : ℝ) < (nM : ℝ) - 1 := by
      have : (2 : ℝ) ≤ nM := by exact_mod_cast hM
      linarith
    have : 0 ≤ (selfMax - selfMin) * (i : ℝ) / ((nM : ℝ) - 1) :=
      div_nonneg (mul_nonneg (by linarith) (Nat.cast_nonneg i)) h1.le
    linarith
  have hv0 : ∀ m, 0 ≤ val a lo hi lam mu s selfMax m := fun m =>
    add_nonneg (mul_nonneg (by linarith) ((isPdf_powerlaw (-a) h0 h).nonneg m))
      (mul_nonneg l0.le ((isPdf_bell mu s hg).nonneg m))
  have hraw : ∀ m : ℝ, 0 < m → Smoothed.pMRaw b ⟨primTwoComponent py, [("gaussian_mass_maximum", fin selfMax)], selfMin,
      selfMax, Arr.linspaceR selfMin selfMax nM, Arr.linspaceR 0.001 1 nQ, cache, none⟩
      (Dict.erase (peakKwargs a lo hi lam mu s d selfMax) "delta_m") (fin lo) (fin d) (fin m) =
        .ok (fin (val a lo hi lam mu s selfMax m * window lo selfMax d m)) := by
    intro m hm
    unfold Smoothed.pMRaw
    simp only [primary_eq, C18_twoComponentSingle_value b py ha h0 h hg hs hm, smoothing_fin b m lo selfMax hd]
    rfl
  refine ⟨Arr.trapzR ((Arr.linspaceR selfMin selfMax nM).map fun m => val a lo hi lam mu s selfMax m *
    window lo selfMax d m) (Arr.linspaceR selfMin selfMax nM), ?_, fun m hm => ?_⟩
  · refine trapzR_pos_of_exists (by simp) (by rw [linspaceR_length]; exact hM) ?_ (linspaceR_sorted hlt hM) ?_
    · intro y hy
      obtain ⟨m, hm, rfl⟩ := List.mem_map.1 hy
      exact mul_nonneg (hv0 m) (window_nonneg _ _ _ _)
    · obtain ⟨m, hm, h1, h2⟩ := hnode
      refine ⟨_, List.mem_map.2 ⟨m, hm, rfl⟩, mul_pos (val_pos h0 h hg l0 l1 h1 h2 (h2.trans_le hX)) ?_⟩
      rw [window_eq h1.le (h2.le.trans hX)]
      exact taper_pos _
  · set N := Arr.trapzR ((Arr.linspaceR selfMin selfMax nM).map fun m => val a lo hi lam mu s selfMax m *
      window lo selfMax d m) (Arr.linspaceR selfMin selfMax nM) with hN
    have hNpos : 0 < N := by
      refine trapzR_pos_of_exists (by simp) (by rw [linspaceR_length]; exact hM) ?_ (linspaceR_sorted hlt hM) ?_
      · intro y hy
        obtain ⟨m, hm, rfl⟩ := List.mem_map.1 hy
        exact mul_nonneg (hv0 m) (window_nonneg _ _ _ _)
      · obtain ⟨m, hm, h1, h2⟩ := hnode
        refine ⟨_, List.mem_map.2 ⟨m, hm, rfl⟩, mul_pos (val_pos h0 h hg l0 l1 h1 h2 (h2.trans_le hX)) ?_⟩
        rw [window_eq h1.le (h2.le.trans hX)]
        exact taper_pos _
    have hT : Arr.trapz ((Arr.linspaceR selfMin selfMax nM).map fun m => fin (val a lo hi lam mu s selfMax m *
        window lo selfMax d m)) ((Arr.linspaceR selfMin selfMax nM).map fin) = fin N := by
      rw [hN, ← Arr.trapz_fin, List.map_map]; rfl
    have k1 : Smoothed.kwGet (peakKwargs a lo hi lam mu s d selfMax) "mmin" (fin selfMin) = fin lo := by
      simp [Smoothed.kwGet, peakKwargs, Dict.get?_cons]
    have k2 : Smoothed.kwGet (peakKwargs a lo hi lam mu s d selfMax) "delta_m" 0 = fin d := by
      simp [Smoothed.kwGet, peakKwargs, Dict.get?_cons]
    have k3 : Smoothed.kwGet (Dict.erase (peakKwargs a lo hi lam mu s d selfMax) "delta_m") "mmin" (fin selfMin) =
        fin lo := by
      rw [← k1]
      unfold Smoothed.kwGet
      rw [Dict.get?_erase, if_neg (by decide)]
    have hd0 : ¬ eqf (fin d) 0 := by simp [hd.ne']
    unfold Smoothed.pM1 Smoothed.normPM1
    simp only [k1, k2, k3]
    rw [mapM_ok (g := fun m => fin (val a lo hi lam mu s selfMax m * window lo selfMax d m))
      fun m hm => hraw m (hgrid m hm)]
    rw [if_neg fun h => hd0 h.2]
    simp only [List.mapM_cons, List.mapM_nil, hraw m hm]
    show Except.ok _ = _
    rw [hT, nanToNum_fin, ind_true hd0, ind_false hd0]
    simp [fin_div hNpos.ne']

end SmoothedPeak

open SmoothedPeak

/-! ## The property -/

variable {v : NNReal} {Det : Set ℝ}

/-- **C163.** The density `p_m1` of the smoothed model with one peak determines the index, both limits, the fraction in
the peak, its mean and width, and the range of the smoothing. -/
theorem C163_determined (b : Backend) (py : Bool) {selfMin selfMax : ℝ} {nM nQ : ℕ} {cache : Bool} {sm : Smoothed}
    {a lo hi lam mu s d a' lo' hi' lam' mu' s' d' D : ℝ}
    (hsm : singlePeak py selfMin selfMax nM nQ cache = .ok sm) (hself : 0 < selfMin) (hlt : selfMin < selfMax)
    (ha : b = .jax ∨ a ≠ -1) (h0 : 0 < lo) (h : lo + D < hi) (hX : hi ≤ selfMax) (l0 : 0 < lam) (l1 : lam < 1)
    (hs : 0 < s) (hd : 0 < d) (hdD : d ≤ D) (hnode : ∃ m ∈ sm.m1s, lo < m ∧ m < hi)
    (ha' : b = .jax ∨ a' ≠ -1) (h0' : 0 < lo') (h' : lo' + D < hi') (hX' : hi' ≤ selfMax) (l0' : 0 < lam')
    (l1' : lam' < 1) (hs' : 0 < s') (hd' : 0 < d') (hdD' : d' ≤ D) (hnode' : ∃ m ∈ sm.m1s, lo' < m ∧ m < hi')
    (hsame : ∀ᵐ m : ℝ, 0 < m → Smoothed.pM1 b sm [fin m] (peakKwargs a lo hi lam mu s d selfMax) =
      Smoothed.pM1 b sm [fin m] (peakKwargs a' lo' hi' lam' mu' s' d' selfMax)) :
    a = a' ∧ lo = lo' ∧ hi = hi' ∧ lam = lam' ∧ mu = mu' ∧ s = s' ∧ d = d' := by
  obtain ⟨N, hN, e⟩ := peak_pM1 (mu := mu) b py hsm hself hlt ha h0 (by linarith) hX l0 l1 hs hd hnode
  obtain ⟨N', hN', e'⟩ := peak_pM1 (mu := mu') b py hsm hself hlt ha' h0' (by linarith) hX' l0' l1' hs' hd' hnode'
  obtain ⟨e1, e2, e3, e4, e5, e6, e7, -⟩ := smoothed_determined (c := 1 / N) (c' := 1 / N') h0 h (h.trans_le hX) l0 l1 hs
    hd hdD h0' h' (h'.trans_le hX') l0' l1' hs' hd' hdD' hX hX' le_rfl le_rfl (by positivity) (by positivity) (by
      filter_upwards [hsame] with m hm hm0
      have := hm hm0
      rw [e m hm0, e' m hm0] at this
      have := Fl.fin.inj (List.cons.inj (Except.ok.inj this)).1
      rw [one_div_mul_eq_div, one_div_mul_eq_div]
      exact this)
  exact ⟨e1, e2, e3, e4, e5, e6, e7⟩

/-- **C163.** All these parameters are found from noisy masses of detected sources. -/
theorem C163_recovers {J : Type} [Fintype J] {p : J → ℝ → ℝ} {j₀ : J} (b : Backend) (py : Bool) {selfMin selfMax : ℝ}
    {nM nQ : ℕ} {cache : Bool} {sm : Smoothed} {a lo hi lam mu s d : J → ℝ} {D : ℝ}
    (hsm : singlePeak py selfMin selfMax nM nQ cache = .ok sm) (hself : 0 < selfMin) (hlt : selfMin < selfMax)
    (ha : ∀ j, b = .jax ∨ a j ≠ -1) (h0 : ∀ j, 0 < lo j) (h : ∀ j, lo j + D < hi j) (hX : ∀ j, hi j ≤ selfMax)
    (l0 : ∀ j, 0 < lam j) (l1 : ∀ j, lam j < 1) (hs : ∀ j, 0 < s j) (hd : ∀ j, 0 < d j) (hdD : ∀ j, d j ≤ D)
    (hnode : ∀ j, ∃ m ∈ sm.m1s, lo j < m ∧ m < hi j)
    (hinj : ∀ j, j ≠ j₀ → (a j, lo j, hi j, lam j, mu j, s j, d j) ≠ (a j₀, lo j₀, hi j₀, lam j₀, mu j₀, s j₀, d j₀))
    (hp : ∀ j m, 0 < m → Smoothed.pM1 b sm [fin m] (peakKwargs (a j) (lo j) (hi j) (lam j) (mu j) (s j) (d j) selfMax) =
      .ok [fin (p j m)])
    (hm : ∀ j, Measurable (p j)) (hv : v ≠ 0) (hDet : MeasurableSet Det) :
    Recovers (volume.restrict (Ioi 0)) volume (gaussianErrors v) Det p j₀ := by
  have lh : ∀ j, lo j < hi j := fun j => by linarith [h j, hd j, hdD j]
  have lg : ∀ j, lo j < selfMax := fun j => (lh j).trans_le (hX j)
  choose N hN e using fun j => peak_pM1 (mu := mu j) b py hsm hself hlt (ha j) (h0 j) (lh j) (hX j) (l0 j) (l1 j)
    (hs j) (hd j) (hnode j)
  have pe : ∀ j m, 0 < m → p j m = Peak.val (a j) (lo j) (hi j) (lam j) (mu j) (s j) selfMax m *
      window (lo j) selfMax (d j) m / N j := fun j m hm0 =>
    Fl.fin.inj (List.cons.inj (Except.ok.inj ((hp j m hm0).symm.trans (e j m hm0)))).1
  have hpdf := fun j => twoComponent_isPdf (a := a j) (mpp := mu j) (sigpp := s j) (h0 j) (lh j) (lg j) (l0 j).le (l1 j).le
  have vn : ∀ j m, 0 ≤ Peak.val (a j) (lo j) (hi j) (lam j) (mu j) (s j) selfMax m := fun j => (hpdf j).nonneg
  have pn : ∀ j, ∀ m ∈ Ioi (0 : ℝ), 0 ≤ p j m := fun j m hm0 => by
    rw [pe j m hm0]
    exact div_nonneg (mul_nonneg (vn j m) (window_nonneg _ _ _ _)) (hN j).le
  have w1 : ∀ j m, window (lo j) selfMax (d j) m ≤ 1 := fun j m => by
    unfold window
    split_ifs
    · exact (taper_lt_one _).le
    · exact zero_le_one
  have pi : ∀ j, IntegrableOn (p j) (Ioi 0) := fun j => by
    refine Integrable.mono' (((hpdf j).int.div_const (N j)).integrableOn (s := Ioi 0)) (hm j).aestronglyMeasurable ?_
    refine (ae_restrict_iff' measurableSet_Ioi).2 (ae_of_all _ fun m hm0 => ?_)
    rw [Real.norm_of_nonneg (pn j m hm0), pe j m hm0]
    exact div_le_div_of_nonneg_right (mul_le_of_le_one_right (vn j m) (w1 j m)) (hN j).le
  have pp : ∀ j, 0 < ∫ x in Ioi 0, p j x := fun j => by
    rw [setIntegral_pos_iff_support_of_nonneg_ae
      ((ae_restrict_iff' measurableSet_Ioi).2 (ae_of_all _ (pn j))) (pi j)]
    refine lt_of_lt_of_le ?_ (measure_mono (s := Ioo (lo j) (hi j)) fun x hx => ⟨?_, (h0 j).trans hx.1⟩)
    · rw [Real.volume_Ioo]
      exact ENNReal.ofReal_pos.2 (sub_pos.2 (lh j))
    · rw [Function.mem_support, pe j x ((h0 j).trans hx.1), window_eq hx.1.le (hx.2.le.trans (hX j))]
      exact (div_pos (mul_pos (Peak.val_pos (h0 j) (lh j) (lg j) (l0 j) (l1 j) hx.1 hx.2 (hx.2.trans_le (hX j)))
        (taper_pos _)) (hN j)).ne'
  refine RedshiftErrors.recovers_bounded (K := selfMax) hv measurableSet_Ioi hDet (hself.trans hlt).le
    (fun j => ⟨hm j, pn j, pi j, pp j, fun x hx hK => ?_⟩) fun j hj k hk hae => hinj j hj ?_
  · have hx0 : 0 < x := hx
    rw [abs_of_pos hx0] at hK
    rw [pe j x hx0]
    unfold window
    rw [if_neg fun hh => absurd hh.2 (not_le.2 hK), mul_zero, zero_div]
  · have pN := hN j
    have pN0 := hN j₀
    obtain ⟨e1, e2, e3, e4, e5, e6, e7, -⟩ := smoothed_determined (a := a j) (mu := mu j) (a' := a j₀) (mu' := mu j₀)
      (c := 1 / N j) (c' := k / N j₀) (h0 j) (h j)
      ((h j).trans_le (hX j)) (l0 j) (l1 j) (hs j) (hd j) (hdD j) (h0 j₀) (h j₀) ((h j₀).trans_le (hX j₀)) (l0 j₀) (l1 j₀)
      (hs j₀) (hd j₀) (hdD j₀) (hX j) (hX j₀) le_rfl le_rfl (by positivity) (by positivity) (by
        filter_upwards [(ae_restrict_iff' measurableSet_Ioi).1 hae] with m hm1 hm0
        have := hm1 hm0
        rw [pe j m hm0, pe j₀ m hm0] at this
        linear_combination this)
    rw [e1, e2, e3, e4, e5, e6, e7]

/-! ## Non-vacuity -/

/-- Candidates for the range of the smoothing and the mean of the peak, with the defaults of the class for the grids. -/
example (py cache : Bool) (hv : v ≠ 0) (hD : MeasurableSet Det) : ∃ (sm : Smoothed) (p : Bool × Bool → ℝ → ℝ),
    singlePeak py 2 100 1000 500 cache = .ok sm ∧ (∀ j, Measurable (p j)) ∧
    (∀ j m, 0 < m → Smoothed.pM1 .numpy sm [fin m] (peakKwargs 3.5 5 85 0.04 (if j.2 then 35 else 30) 4
      (if j.1 then 4.8 else 5) 100) = .ok [fin (p j m)]) ∧
    Recovers (volume.restrict (Ioi 0)) volume (gaussianErrors v) Det p (true, true) := by
  obtain ⟨d, hde⟩ : ∃ a : Bool × Bool → ℝ, a = fun j => if j.1 then 4.8 else 5 := ⟨_, rfl⟩
  obtain ⟨mu, hmu⟩ : ∃ a : Bool × Bool → ℝ, a = fun j => if j.2 then 35 else 30 := ⟨_, rfl⟩
  have d0 : ∀ j, 0 < d j := fun j => by rcases j with ⟨_ | _, _⟩ <;> norm_num [hde]
  have d1 : ∀ j, d j ≤ 5 := fun j => by rcases j with ⟨_ | _, _⟩ <;> norm_num [hde]
  obtain ⟨sm, hsm⟩ : ∃ sm, singlePeak py 2 100 1000 500 cache = .ok sm :=
    ⟨_, init_ok (primTwoComponent py) [("gaussian_mass_maximum", fin 100)] 2 100 (nM := 1000) (nQ := 500) cache
      (by norm_num) (by norm_num)⟩
  have hms := grid_eq hsm
  have hnode : ∃ m ∈ sm.m1s, (5 : ℝ) < m ∧ m < 85 := by
    rw [hms]
    unfold Arr.linspaceR
    exact ⟨_, List.mem_map.2 ⟨100, List.mem_range.2 (by norm_num), rfl⟩, by norm_num, by norm_num⟩
  choose N hN e using fun j => peak_pM1 (a := 3.5) (lo := 5) (hi := 85) (lam := 0.04) (s := 4) (mu := mu j) .numpy py hsm
    (by norm_num) (by norm_num) (Or.inr (by norm_num)) (by norm_num) (by norm_num) (by norm_num) (by norm_num)
    (by norm_num) (by norm_num) (d0 j) hnode
  have hm : ∀ j, Measurable fun m => Peak.val 3.5 5 85 0.04 (mu j) 4 100 m * window 5 100 (d j) m / N j := fun j => by
    refine Measurable.div_const (Measurable.mul ?_ ?_) _
    · unfold Peak.val Spec.normalised
      exact (measurable_const.mul (Measurable.ite measurableSet_Icc ((measurable_id.pow_const _).div_const _)
        measurable_const)).add (measurable_const.mul (Measurable.ite measurableSet_Icc
          ((gaussShape_continuous (mu j) 4).measurable.div_const _) measurable_const))
    · unfold window
      exact Measurable.ite measurableSet_Icc
        (taper_continuous.measurable.comp ((measurable_id.sub_const _).div_const _)) measurable_const
  refine ⟨_, _, hsm, hm, fun j m hm0 => by rw [← e j m hm0, hde, hmu], C163_recovers .numpy py (D := 5)
    (a := fun _ => 3.5) (lo := fun _ => 5) (hi := fun _ => 85) (lam := fun _ => 0.04) (s := fun _ => 4) hsm
    (by norm_num) (by norm_num) (fun _ => Or.inr (by norm_num)) (fun _ => by norm_num) (fun _ => by norm_num)
    (fun _ => by norm_num) (fun _ => by norm_num) (fun _ => by norm_num) (fun _ => by norm_num) d0 d1 (fun _ => hnode)
    (fun j hj => ?_) e hm hv hD⟩
  rcases j with ⟨_ | _, _ | _⟩
  · norm_num [hde]
  · norm_num [hde]
  · norm_num [hmu]
  · exact absurd rfl hj

end GW
