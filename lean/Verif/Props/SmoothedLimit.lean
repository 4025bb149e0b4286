import Verif.Props.QuadratureRatio

/-!
# C85: the four smoothed mass models in the limit of fine grids
-/

noncomputable section

open Classical Set Filter Topology MeasureTheory

namespace GW

open Fl Spec

/-- The density a smoothed mass model documents: the primary density `f` times the window,
normalised over the mass range of the instance, times the mass-ratio power law times the window,
normalised over the allowed mass ratios. -/
def Spec.smoothedDensity (f : ℝ → ℝ) (selfMin selfMax lo d beta m q : ℝ) : ℝ :=
  f m * window lo selfMax d m / (∫ t in selfMin..selfMax, f t * window lo selfMax d t) *
    normalised (fun t => t ^ beta * taper ((m * t - lo) / d)) (lo / m) 1 q

/-- The model called `make` (a constructor taking the sizes of the two grids), called with
`kwargs`, tends to the density `g` as both grids are refined: at all data, inside the mass
range or outside but not exactly at its lower limit `lo`, the values are eventually numbers, and they
tend to those of `g`. -/
def Spec.TendsToDensity (b : Backend) (make : ℕ → ℕ → Except PyErr Smoothed) (kwargs : Dict Fl)
    (lo : ℝ) (g : ℝ → ℝ → ℝ) : Prop :=
  ∃ p : ℕ × ℕ → ℝ → ℝ → ℝ,
    (∀ᶠ n in atTop, ∃ s, make n.1 n.2 = .ok s ∧
      ∀ data : List (ℝ × ℝ), (∀ e ∈ data, 0 < e.1 ∧ e.1 ≠ lo ∧ 0 < e.2) →
        (Smoothed.call b s (data.map fun e => (fin e.1, fin e.2)) kwargs).1 =
          .ok (data.map fun e => fin (p n e.1 e.2))) ∧
    ∀ m q, 0 < m → m ≠ lo → 0 < q → Tendsto (p · m q) atTop (𝓝 (g m q))

/-- Any smoothed model. -/
theorem call_limit (b : Backend) (primary : Primary) (fixed : Dict Fl) (cache : Bool)
    {selfMin selfMax : ℝ} {kwargs : Dict Fl} {beta lo hi d : ℝ}
    (hbeta : Dict.get? kwargs "beta" = some (fin beta))
    (hmin : Dict.get? kwargs "mmin" = some (fin lo))
    (hmax : Dict.get? kwargs "mmax" = some (fin hi))
    (hdm : Dict.get? kwargs "delta_m" = some (fin d)) (hd : 0 < d) (h0 : 0 < lo)
    (hself : 0 < selfMin) (hlo : selfMin ≤ lo) (hhi : hi ≤ selfMax) (hlt : selfMin < selfMax)
    (hq : 0.001 * selfMax ≤ lo)
    (hdup : ∀ k ∈ Dict.keys fixed, k ∉ Dict.keys kwargs) (f : ℝ → ℝ)
    (hf : ∀ m, 0 < m →
      primary b (Dict.erase (Dict.erase kwargs "beta" ++ fixed) "delta_m") (fin m) =
        .ok (fin (f m)))
    (hbv : BoundedVariationOn f (Icc selfMin selfMax))
    (hI : ∫ t in selfMin..selfMax, f t * window lo selfMax d t ≠ 0) :
    TendsToDensity b (fun nM nQ => Smoothed.init primary fixed selfMin selfMax nM nQ cache) kwargs
      lo (smoothedDensity f selfMin selfMax lo d beta) := by
  have hkw : ∀ k v dflt, k ≠ "beta" → Dict.get? kwargs k = some v →
      Smoothed.kwGet (Dict.erase kwargs "beta") k dflt = v := by
    intro k v dflt hk hv
    unfold Smoothed.kwGet
    rw [Dict.get?_erase, if_neg hk, hv]; rfl
  have hkw' : ∀ k v dflt, k ≠ "beta" → Dict.get? kwargs k = some v →
      Smoothed.kwGet (Dict.erase kwargs "beta" ++ fixed) k dflt = v := by
    intro k v dflt hk hv
    unfold Smoothed.kwGet
    rw [Dict.get?_append, Dict.get?_erase, if_neg hk, hv]; rfl
  obtain ⟨p1, hp1, hz, hl1⟩ := C85_primary_limit b primary fixed hlt (Dict.erase kwargs "beta" ++ fixed)
    (hkw' _ _ _ (by decide) hdm) hd (hkw' _ _ _ (by decide) hmin) f
    (fun m hm => hf m (hself.trans_le hm.1)) hbv hI
  obtain ⟨p2, hp2, hl2⟩ := C85_massRatio_limit b primary fixed (beta := beta) hd h0 hlo hq
  refine ⟨fun n m q => p1 n.1 m * p2 n m q, ?_, ?_⟩
  · rw [← prod_atTop_atTop_eq]
    have hM : ∀ᶠ n : ℕ × ℕ in atTop ×ˢ atTop, 2 ≤ n.1 ∧ 2 ≤ n.2 :=
      (eventually_ge_atTop 2).prod_mk (eventually_ge_atTop 2)
    filter_upwards [hM, hp1.prod_inl atTop] with n hn hp1n
    refine ⟨_, init_ok primary fixed selfMin selfMax cache hn.1 hn.2, fun data hdata => ?_⟩
    have hs := init_ok primary fixed selfMin selfMax cache hn.1 hn.2
    have e1 := hp1n n.2 cache _ hs (data.map Prod.fst) (by
      intro m hm
      obtain ⟨e, he, rfl⟩ := List.mem_map.1 hm
      exact hf e.1 (hdata e he).1)
    have e2 := hp2 n.1 n.2 cache _ hs data
    simp only [List.map_map] at e1
    unfold Smoothed.call
    rw [hbeta]
    simp only
    rw [hkw _ _ _ (by decide) hmin, hkw _ _ _ (by decide) hmax, hkw _ _ _ (by decide) hdm,
      if_neg (fun h => by have := h.2; simp only [fin_lt] at this; linarith),
      if_neg (fun h => by have := h.2; simp only [fin_lt] at this; linarith), if_neg ?_]
    · have e1' : Smoothed.pM1 b ⟨primary, fixed, selfMin, selfMax,
          Arr.linspaceR selfMin selfMax n.1, Arr.linspaceR 0.001 1 n.2, cache, none⟩
          ((data.map fun e => (fin e.1, fin e.2)).map Prod.fst)
          (Dict.erase kwargs "beta" ++ fixed) = .ok (data.map fun e => fin (p1 n.1 e.1)) := by
        rw [List.map_map]; exact e1
      rw [e1']
      simp only
      rcases hQ : Smoothed.pQ b ⟨primary, fixed, selfMin, selfMax,
          Arr.linspaceR selfMin selfMax n.1, Arr.linspaceR 0.001 1 n.2, cache, none⟩
          (data.map fun e => (fin e.1, fin e.2)) (fin beta) (fin lo) (fin d) with ⟨r, s'⟩
      rw [hQ] at e2
      simp only at e2
      subst e2
      rw [hQ]
      simp only
      rw [broadcast_same b _ (by simp), List.zipWith_map, List.zipWith_self]
      simp only [fin_mul]
    · rintro ⟨k, hk, hk'⟩
      rw [Dict.keys_erase] at hk
      exact hdup k hk' (List.mem_filter.1 hk).1
  · intro m q h1 h2 h3
    have := (hl1 m).comp (tendsto_fst (f := (atTop : Filter ℕ)) (g := (atTop : Filter ℕ)))
    rw [prod_atTop_atTop_eq] at this
    by_cases hin : lo < m ∧ m ≤ selfMax
    · exact this.mul (hl2 m q hin.1 hin.2 h3)
    · have hw : window lo selfMax d m = 0 := by
        unfold window
        rw [if_neg fun h => hin ⟨lt_of_le_of_ne h.1 (Ne.symm h2), h.2⟩]
      have h0' : ∀ n, p1 n m = 0 := fun n => by rw [hz n m, hw, mul_zero, zero_div]
      simp only [h0', zero_mul, smoothedDensity, hw, mul_zero, zero_div]
      exact tendsto_const_nhds

/-! ### Bounded variation of the primary models -/

theorem bv_normalised {f : ℝ → ℝ} {a b : ℝ} (lo hi : ℝ) (hf : BoundedVariationOn f (Icc a b)) :
    BoundedVariationOn (normalised f lo hi) (Icc a b) :=
  bv_restrict lo hi (bv_div_const _ hf)

theorem bv_bell (mu sigma a b : ℝ) : BoundedVariationOn (bell mu sigma) (Icc a b) := by
  have hs : 0 ≤ 2 * sigma ^ 2 := by positivity
  have h1 : BoundedVariationOn (fun x => bell mu sigma (min x mu)) (Icc a b) := by
    refine bv_monotone fun x _ y _ h => Real.exp_le_exp.2 ?_
    apply div_le_div_of_nonneg_right _ hs
    have e1 : min x mu ≤ min y mu := min_le_min_right mu h
    have e2 := min_le_right y mu
    nlinarith
  have h2 : BoundedVariationOn (fun x => bell mu sigma (max x mu)) (Icc a b) := by
    refine bv_antitone fun x _ y _ h => Real.exp_le_exp.2 ?_
    apply div_le_div_of_nonneg_right _ hs
    have e1 : max x mu ≤ max y mu := max_le_max_right mu h
    have e2 := le_max_right x mu
    nlinarith
  refine bv_congr (h1.mul h2) fun x _ => ?_
  have hmu : bell mu sigma mu = 1 := by simp [bell]
  simp only [Pi.mul_apply]
  rcases le_total x mu with h | h
  · rw [min_eq_left h, max_eq_right h, hmu, mul_one]
  · rw [min_eq_right h, max_eq_left h, hmu, one_mul]

theorem bv_broken (a1 a2 : ℝ) {mb a b : ℝ} (hb : 0 < mb) (ha : 0 < a) :
    BoundedVariationOn (brokenShape a1 a2 mb) (Icc a b) := by
  have key : ∀ (g : ℝ → ℝ) (c : ℝ), Monotone g → (∀ x ∈ Icc a b, 0 < g x) →
      BoundedVariationOn (fun x => g x ^ c) (Icc a b) := by
    intro g c hg hg0
    rcases le_or_gt 0 c with hc | hc
    · exact bv_monotone fun x hx y hy h => Real.rpow_le_rpow (hg0 x hx).le (hg h) hc
    · exact bv_antitone fun x hx y hy h => Real.rpow_le_rpow_of_nonpos (hg0 x hx) (hg h) hc.le
  have h1 := key (fun x => min x mb / mb) (-a1)
    (fun x y h => div_le_div_of_nonneg_right (min_le_min_right mb h) hb.le)
    (fun x hx => div_pos (lt_min (by linarith [hx.1]) hb) hb)
  have h2 := key (fun x => max x mb / mb) (-a2)
    (fun x y h => div_le_div_of_nonneg_right (max_le_max_right mb h) hb.le)
    (fun x hx => div_pos (lt_max_of_lt_right hb) hb)
  refine bv_congr (h1.mul h2) fun x _ => ?_
  simp only [Pi.mul_apply, brokenShape]
  split_ifs with h
  · rw [min_eq_left h.le, max_eq_right h.le, div_self hb.ne', Real.one_rpow, mul_one]
  · rw [min_eq_right (not_lt.1 h), max_eq_left (not_lt.1 h), div_self hb.ne', Real.one_rpow,
      one_mul]

/-- A non-negative function of bounded variation that is positive on a subinterval has a
positive integral. -/
theorem bv_integral_pos {f : ℝ → ℝ} {a b x y : ℝ} (hf : BoundedVariationOn f (Icc a b))
    (hf0 : ∀ t ∈ Icc a b, 0 ≤ f t) (hax : a ≤ x) (hxy : x < y) (hyb : y ≤ b)
    (hpos : ∀ t ∈ Ioo x y, 0 < f t) : 0 < ∫ t in a..b, f t := by
  have hab : a ≤ b := by linarith
  have hi := bv_intervalIntegrable hab hf
  have hsub : IntervalIntegrable f volume x y := by
    apply hi.mono_set
    rw [uIcc_of_le hxy.le, uIcc_of_le hab]
    exact Icc_subset_Icc hax hyb
  refine lt_of_lt_of_le (intervalIntegral.intervalIntegral_pos_of_pos_on hsub hpos hxy) ?_
  apply intervalIntegral.integral_mono_interval hax hxy.le hyb _ hi
  rw [EventuallyLE, ae_restrict_iff' measurableSet_Ioc]
  exact Eventually.of_forall fun t ht => hf0 t ⟨ht.1.le, ht.2⟩

/-- The norm of a primary model that is non-negative, and positive inside `(lo, hi)`. -/
theorem windowed_norm_pos {f : ℝ → ℝ} {selfMin selfMax lo hi d : ℝ} (hd : 0 < d)
    (hbv : BoundedVariationOn f (Icc selfMin selfMax)) (hf0 : ∀ t, 0 ≤ f t)
    (hlo : selfMin ≤ lo) (hlt : lo < hi) (hhi : hi ≤ selfMax) (hpos : ∀ t ∈ Ioo lo hi, 0 < f t) :
    ∫ t in selfMin..selfMax, f t * window lo selfMax d t ≠ 0 := by
  refine (bv_integral_pos (hbv.mul (bv_window lo selfMax hd _ _))
    (fun t _ => mul_nonneg (hf0 t) (window_nonneg _ _ _ _)) hlo hlt hhi fun t ht => ?_).ne'
  refine mul_pos (hpos t ht) ?_
  unfold window
  rw [if_pos ⟨ht.1.le, ht.2.le.trans hhi⟩]
  exact taper_pos _

theorem normalised_pos {f : ℝ → ℝ} {lo hi x : ℝ} (hI : 0 < ∫ t in lo..hi, f t) (hx : lo ≤ x ∧ x ≤ hi)
    (hf : 0 < f x) : 0 < normalised f lo hi x := by
  simp only [normalised]
  rw [if_pos hx]
  exact div_pos hf hI

theorem mix_pos {lam u v : ℝ} (h0 : 0 ≤ lam) (h1 : lam ≤ 1) (hu : 0 < u) (hv : 0 < v) :
    0 < (1 - lam) * u + lam * v := by
  rcases h1.eq_or_lt with rfl | h
  · simpa using hv
  · have : 0 < (1 - lam) * u := mul_pos (by linarith) hu
    have : 0 ≤ lam * v := mul_nonneg h0 hv.le
    linarith

/-- **C85, `SinglePeakSmoothedMassDistribution`.** For all hyper-parameters it accepts (`mmin`, `mmax` inside the mass range of the
instance, `delta_m > 0`, mixing fractions in `[0, 1]`, positive widths; exponents other than -1
unless the backend is jax) the model tends, as its two grids are refined, to the documented density
with a power law and a Gaussian peak as primary density. -/
theorem C85_singlePeak (b : Backend) (py cache : Bool) {selfMin selfMax : ℝ} {kwargs : Dict Fl}
    {beta d alpha mmin mmax lam mpp sigpp : ℝ}
    (hkeys : ∀ k ∈ Dict.keys kwargs, k ∈ ["beta", "delta_m", "alpha", "mmin", "mmax", "lam", "mpp", "sigpp"])
    (hbeta : Dict.get? kwargs "beta" = some (fin beta))
    (h_alpha : Dict.get? kwargs "alpha" = some (fin alpha))
    (h_mmin : Dict.get? kwargs "mmin" = some (fin mmin))
    (h_mmax : Dict.get? kwargs "mmax" = some (fin mmax))
    (h_lam : Dict.get? kwargs "lam" = some (fin lam))
    (h_mpp : Dict.get? kwargs "mpp" = some (fin mpp))
    (h_sigpp : Dict.get? kwargs "sigpp" = some (fin sigpp))
    (hdm : Dict.get? kwargs "delta_m" = some (fin d)) (hd : 0 < d)
    (hself : 0 < selfMin) (hlo : selfMin ≤ mmin) (hlt : mmin < mmax) (hhi : mmax ≤ selfMax)
    (hq : 0.001 * selfMax ≤ mmin)
    (ha : b = .jax ∨ alpha ≠ -1)
    (hl0 : 0 ≤ lam) (hl1 : lam ≤ 1)
    (hs : 0 < sigpp) :
    TendsToDensity b (fun nM nQ => singlePeak py selfMin selfMax nM nQ cache) kwargs mmin
      (smoothedDensity (fun m => (1 - lam) * normalised (fun t => t ^ (-alpha)) mmin mmax m + lam * normalised (bell mpp sigpp) mmin selfMax m)
        selfMin selfMax mmin d beta) := by
  have h0 : 0 < mmin := by linarith
  have hg : mmin < selfMax := by linarith
  have hbv : BoundedVariationOn (fun m => (1 - lam) * normalised (fun t => t ^ (-alpha)) mmin mmax m + lam * normalised (bell mpp sigpp) mmin selfMax m) (Icc selfMin selfMax) :=
    bv_add (bv_const_mul (1 - lam) (bv_normalised mmin mmax (bv_rpow (-alpha) hself))) (bv_const_mul lam (bv_normalised mmin selfMax (bv_bell mpp sigpp _ _)))
  refine call_limit b (primTwoComponent py) [("gaussian_mass_maximum", fin selfMax)] cache hbeta h_mmin h_mmax hdm hd h0 hself hlo hhi
    (by linarith) hq ?_ _ ?_ hbv (windowed_norm_pos hd hbv (fun t => ?_) hlo hlt hhi fun t ht => ?_)
  · intro k hk hk'
    simp only [Dict.keys, List.map_cons, List.map_nil, List.mem_singleton] at hk
    subst hk
    exact absurd (hkeys _ hk') (by decide)
  · intro m hm0
    obtain ⟨g, hg', v1, v2⟩ := bindPrimary
      (names := ["alpha", "mmin", "mmax", "lam", "mpp", "sigpp"])
      (extra := ["gaussian_mass_maximum"]) (defaults := [("gaussian_mass_maximum", fin 100)])
      (fixed := [("gaussian_mass_maximum", fin selfMax)]) hkeys (by simp [Dict.keys]) (by decide)
      (by decide) (by simp [h_alpha, h_mmin, h_mmax, h_lam, h_mpp, h_sigpp])
      (by simp [Dict.get?_cons])
    simp only [List.cons_append, List.nil_append, List.append_nil] at hg'
    simp only [primTwoComponent, List.append_nil, hg']
    show twoComponentSingle b py (fin m) (g "alpha") (g "mmin") (g "mmax") (g "lam") (g "mpp") (g "sigpp") (g "gaussian_mass_maximum") = _
    rw [v1 _ (by decide) _ h_alpha,
      v1 _ (by decide) _ h_mmin,
      v1 _ (by decide) _ h_mmax,
      v1 _ (by decide) _ h_lam,
      v1 _ (by decide) _ h_mpp,
      v1 _ (by decide) _ h_sigpp,
      v2 "gaussian_mass_maximum" (by decide) (fin selfMax) (by simp [Dict.get?_cons])]
    exact C18_twoComponentSingle_value b py ha h0 hlt hg hs hm0
  · exact add_nonneg (mul_nonneg (by linarith) ((isPdf_powerlaw (-alpha) h0 hlt).nonneg t)) (mul_nonneg hl0 ((isPdf_bell mpp sigpp hg).nonneg t))
  · exact mix_pos hl0 hl1 (normalised_pos (integral_rpow_pos h0 hlt) ⟨ht.1.le, ht.2.le⟩
      (Real.rpow_pos_of_pos (by linarith [ht.1]) _)) (normalised_pos (integral_gaussShape_pos hg) ⟨ht.1.le, ht.2.le.trans hhi⟩
      (gaussShape_pos mpp sigpp t))

/-- **C85, `MultiPeakSmoothedMassDistribution`.** For all hyper-parameters it accepts (`mmin`, `mmax` inside the mass range of the
instance, `delta_m > 0`, mixing fractions in `[0, 1]`, positive widths; exponents other than -1
unless the backend is jax) the model tends, as its two grids are refined, to the documented density
with a power law and two Gaussian peaks as primary density. -/
theorem C85_multiPeak (b : Backend) (py cache : Bool) {selfMin selfMax : ℝ} {kwargs : Dict Fl}
    {beta d alpha mmin mmax lam lam1 mpp1 sigpp1 mpp2 sigpp2 : ℝ}
    (hkeys : ∀ k ∈ Dict.keys kwargs, k ∈ ["beta", "delta_m", "alpha", "mmin", "mmax", "lam", "lam_1", "mpp_1", "sigpp_1", "mpp_2", "sigpp_2"])
    (hbeta : Dict.get? kwargs "beta" = some (fin beta))
    (h_alpha : Dict.get? kwargs "alpha" = some (fin alpha))
    (h_mmin : Dict.get? kwargs "mmin" = some (fin mmin))
    (h_mmax : Dict.get? kwargs "mmax" = some (fin mmax))
    (h_lam : Dict.get? kwargs "lam" = some (fin lam))
    (h_lam_1 : Dict.get? kwargs "lam_1" = some (fin lam1))
    (h_mpp_1 : Dict.get? kwargs "mpp_1" = some (fin mpp1))
    (h_sigpp_1 : Dict.get? kwargs "sigpp_1" = some (fin sigpp1))
    (h_mpp_2 : Dict.get? kwargs "mpp_2" = some (fin mpp2))
    (h_sigpp_2 : Dict.get? kwargs "sigpp_2" = some (fin sigpp2))
    (hdm : Dict.get? kwargs "delta_m" = some (fin d)) (hd : 0 < d)
    (hself : 0 < selfMin) (hlo : selfMin ≤ mmin) (hlt : mmin < mmax) (hhi : mmax ≤ selfMax)
    (hq : 0.001 * selfMax ≤ mmin)
    (ha : b = .jax ∨ alpha ≠ -1)
    (hl0 : 0 ≤ lam) (hl1 : lam ≤ 1)
    (hl10 : 0 ≤ lam1) (hl11 : lam1 ≤ 1) (hs1 : 0 < sigpp1) (hs2 : 0 < sigpp2) :
    TendsToDensity b (fun nM nQ => multiPeak py selfMin selfMax nM nQ cache) kwargs mmin
      (smoothedDensity (fun m => (1 - lam) * normalised (fun t => t ^ (-alpha)) mmin mmax m +
        lam * lam1 * normalised (bell mpp1 sigpp1) mmin selfMax m +
        lam * (1 - lam1) * normalised (bell mpp2 sigpp2) mmin selfMax m)
        selfMin selfMax mmin d beta) := by
  have h0 : 0 < mmin := by linarith
  have hg : mmin < selfMax := by linarith
  have hbv : BoundedVariationOn (fun m => (1 - lam) * normalised (fun t => t ^ (-alpha)) mmin mmax m +
        lam * lam1 * normalised (bell mpp1 sigpp1) mmin selfMax m +
        lam * (1 - lam1) * normalised (bell mpp2 sigpp2) mmin selfMax m) (Icc selfMin selfMax) :=
    bv_add (bv_add (bv_const_mul (1 - lam) (bv_normalised mmin mmax (bv_rpow (-alpha) hself)))
      (bv_const_mul (lam * lam1) (bv_normalised mmin selfMax (bv_bell mpp1 sigpp1 _ _))))
      (bv_const_mul (lam * (1 - lam1)) (bv_normalised mmin selfMax (bv_bell mpp2 sigpp2 _ _)))
  refine call_limit b (primThreeComponent py) [("gaussian_mass_maximum", fin selfMax)] cache hbeta h_mmin h_mmax hdm hd h0 hself hlo hhi
    (by linarith) hq ?_ _ ?_ hbv (windowed_norm_pos hd hbv (fun t => ?_) hlo hlt hhi fun t ht => ?_)
  · intro k hk hk'
    simp only [Dict.keys, List.map_cons, List.map_nil, List.mem_singleton] at hk
    subst hk
    exact absurd (hkeys _ hk') (by decide)
  · intro m hm0
    obtain ⟨g, hg', v1, v2⟩ := bindPrimary
      (names := ["alpha", "mmin", "mmax", "lam", "lam_1", "mpp_1", "sigpp_1", "mpp_2", "sigpp_2"])
      (extra := ["gaussian_mass_maximum"]) (defaults := [("gaussian_mass_maximum", fin 100)])
      (fixed := [("gaussian_mass_maximum", fin selfMax)]) hkeys (by simp [Dict.keys]) (by decide)
      (by decide) (by simp [h_alpha, h_mmin, h_mmax, h_lam, h_lam_1, h_mpp_1, h_sigpp_1, h_mpp_2, h_sigpp_2])
      (by simp [Dict.get?_cons])
    simp only [List.cons_append, List.nil_append, List.append_nil] at hg'
    simp only [primThreeComponent, List.append_nil, hg']
    show threeComponentSingle b py (fin m) (g "alpha") (g "mmin") (g "mmax") (g "lam") (g "lam_1") (g "mpp_1") (g "sigpp_1") (g "mpp_2") (g "sigpp_2") (g "gaussian_mass_maximum") = _
    rw [v1 _ (by decide) _ h_alpha,
      v1 _ (by decide) _ h_mmin,
      v1 _ (by decide) _ h_mmax,
      v1 _ (by decide) _ h_lam,
      v1 _ (by decide) _ h_lam_1,
      v1 _ (by decide) _ h_mpp_1,
      v1 _ (by decide) _ h_sigpp_1,
      v1 _ (by decide) _ h_mpp_2,
      v1 _ (by decide) _ h_sigpp_2,
      v2 "gaussian_mass_maximum" (by decide) (fin selfMax) (by simp [Dict.get?_cons])]
    exact C18_threeComponentSingle_value b py ha h0 hlt hg hs1 hs2 hm0
  · exact add_nonneg (add_nonneg (mul_nonneg (by linarith) ((isPdf_powerlaw (-alpha) h0 hlt).nonneg t))
      (mul_nonneg (mul_nonneg hl0 hl10) ((isPdf_bell mpp1 sigpp1 hg).nonneg t)))
      (mul_nonneg (mul_nonneg hl0 (by linarith)) ((isPdf_bell mpp2 sigpp2 hg).nonneg t))
  · have e1 : 0 < normalised (fun t => t ^ (-alpha)) mmin mmax t :=
      normalised_pos (integral_rpow_pos h0 hlt) ⟨ht.1.le, ht.2.le⟩
        (Real.rpow_pos_of_pos (by linarith [ht.1]) _)
    have e2 : 0 < normalised (bell mpp1 sigpp1) mmin selfMax t :=
      normalised_pos (integral_gaussShape_pos hg) ⟨ht.1.le, ht.2.le.trans hhi⟩
        (gaussShape_pos mpp1 sigpp1 t)
    have e3 : 0 < normalised (bell mpp2 sigpp2) mmin selfMax t :=
      normalised_pos (integral_gaussShape_pos hg) ⟨ht.1.le, ht.2.le.trans hhi⟩
        (gaussShape_pos mpp2 sigpp2 t)
    refine lt_of_lt_of_eq (mix_pos hl0 hl1 e1 (mix_pos hl10 hl11 e3 e2)) ?_
    ring

/-- **C85, `BrokenPowerLawSmoothedMassDistribution`.** For all hyper-parameters it accepts (`mmin`, `mmax` inside the mass range of the
instance, `delta_m > 0`, mixing fractions in `[0, 1]`, positive widths; exponents other than -1
unless the backend is jax) the model tends, as its two grids are refined, to the documented density
with a broken power law as primary density. -/
theorem C85_brokenPowerLaw (b : Backend) (py cache : Bool) {selfMin selfMax : ℝ} {kwargs : Dict Fl}
    {beta d alpha1 alpha2 mmin mmax bf : ℝ}
    (hkeys : ∀ k ∈ Dict.keys kwargs, k ∈ ["beta", "delta_m", "alpha_1", "alpha_2", "mmin", "mmax", "break_fraction"])
    (hbeta : Dict.get? kwargs "beta" = some (fin beta))
    (h_alpha_1 : Dict.get? kwargs "alpha_1" = some (fin alpha1))
    (h_alpha_2 : Dict.get? kwargs "alpha_2" = some (fin alpha2))
    (h_mmin : Dict.get? kwargs "mmin" = some (fin mmin))
    (h_mmax : Dict.get? kwargs "mmax" = some (fin mmax))
    (h_break_fraction : Dict.get? kwargs "break_fraction" = some (fin bf))
    (hdm : Dict.get? kwargs "delta_m" = some (fin d)) (hd : 0 < d)
    (hself : 0 < selfMin) (hlo : selfMin ≤ mmin) (hlt : mmin < mmax) (hhi : mmax ≤ selfMax)
    (hq : 0.001 * selfMax ≤ mmin)
    (ha1 : b = .jax ∨ alpha1 ≠ -1) (ha2 : b = .jax ∨ alpha2 ≠ -1) (hbf0 : 0 < bf) (hbf1 : bf < 1) :
    TendsToDensity b (fun nM nQ => brokenPowerLaw py selfMin selfMax nM nQ cache) kwargs mmin
      (smoothedDensity (fun m => normalised (brokenShape alpha1 alpha2 (mmin + bf * (mmax - mmin))) mmin mmax m)
        selfMin selfMax mmin d beta) := by
  have h0 : 0 < mmin := by linarith
  have hb : 0 < mmin + bf * (mmax - mmin) := by
    have : 0 < bf * (mmax - mmin) := mul_pos hbf0 (by linarith)
    linarith
  have hbv : BoundedVariationOn (fun m => normalised (brokenShape alpha1 alpha2 (mmin + bf * (mmax - mmin))) mmin mmax m) (Icc selfMin selfMax) :=
    bv_normalised mmin mmax (bv_broken alpha1 alpha2 hb hself)
  refine call_limit b (primDoublePowerLaw py) [] cache hbeta h_mmin h_mmax hdm hd h0 hself hlo hhi
    (by linarith) hq ?_ _ ?_ hbv (windowed_norm_pos hd hbv (fun t => ?_) hlo hlt hhi fun t ht => ?_)
  · simp [Dict.keys]
  · intro m hm0
    obtain ⟨g, hg', v1, v2⟩ := bindPrimary
      (names := ["alpha_1", "alpha_2", "mmin", "mmax", "break_fraction"])
      (extra := []) (defaults := [])
      (fixed := []) hkeys (by simp [Dict.keys]) (by decide)
      (by decide) (by simp [h_alpha_1, h_alpha_2, h_mmin, h_mmax, h_break_fraction])
      (by simp [Dict.get?_cons])
    simp only [List.cons_append, List.nil_append, List.append_nil] at hg'
    simp only [primDoublePowerLaw, List.append_nil, hg']
    show doublePowerLawPrimaryMass b py (fin m) (g "alpha_1") (g "alpha_2") (g "mmin") (g "mmax") (g "break_fraction") = _
    rw [v1 _ (by decide) _ h_alpha_1,
      v1 _ (by decide) _ h_alpha_2,
      v1 _ (by decide) _ h_mmin,
      v1 _ (by decide) _ h_mmax,
      v1 _ (by decide) _ h_break_fraction]
    exact C17_doublePowerLaw_value b py ha1 ha2 h0 hlt hbf0 hbf1 hm0
  · exact (isPdf_broken alpha1 alpha2 h0 hb hlt).nonneg t
  · exact normalised_pos (integral_brokenShape_pos alpha1 alpha2 h0 hb hlt) ⟨ht.1.le, ht.2.le⟩
      (brokenShape_pos alpha1 alpha2 hb (by linarith [ht.1]))

/-- **C85, `BrokenPowerLawPeakSmoothedMassDistribution`.** For all hyper-parameters it accepts (`mmin`, `mmax` inside the mass range of the
instance, `delta_m > 0`, mixing fractions in `[0, 1]`, positive widths; exponents other than -1
unless the backend is jax) the model tends, as its two grids are refined, to the documented density
with a broken power law and a Gaussian peak as primary density. -/
theorem C85_brokenPowerLawPeak (b : Backend) (py cache : Bool) {selfMin selfMax : ℝ} {kwargs : Dict Fl}
    {beta d alpha1 alpha2 mmin mmax bf lam mpp sigpp : ℝ}
    (hkeys : ∀ k ∈ Dict.keys kwargs, k ∈ ["beta", "delta_m", "alpha_1", "alpha_2", "mmin", "mmax", "break_fraction", "lam", "mpp", "sigpp"])
    (hbeta : Dict.get? kwargs "beta" = some (fin beta))
    (h_alpha_1 : Dict.get? kwargs "alpha_1" = some (fin alpha1))
    (h_alpha_2 : Dict.get? kwargs "alpha_2" = some (fin alpha2))
    (h_mmin : Dict.get? kwargs "mmin" = some (fin mmin))
    (h_mmax : Dict.get? kwargs "mmax" = some (fin mmax))
    (h_break_fraction : Dict.get? kwargs "break_fraction" = some (fin bf))
    (h_lam : Dict.get? kwargs "lam" = some (fin lam))
    (h_mpp : Dict.get? kwargs "mpp" = some (fin mpp))
    (h_sigpp : Dict.get? kwargs "sigpp" = some (fin sigpp))
    (hdm : Dict.get? kwargs "delta_m" = some (fin d)) (hd : 0 < d)
    (hself : 0 < selfMin) (hlo : selfMin ≤ mmin) (hlt : mmin < mmax) (hhi : mmax ≤ selfMax)
    (hq : 0.001 * selfMax ≤ mmin)
    (ha1 : b = .jax ∨ alpha1 ≠ -1) (ha2 : b = .jax ∨ alpha2 ≠ -1) (hbf0 : 0 < bf) (hbf1 : bf < 1)
    (hl0 : 0 ≤ lam) (hl1 : lam ≤ 1)
    (hs : 0 < sigpp) :
    TendsToDensity b (fun nM nQ => brokenPowerLawPeak py selfMin selfMax nM nQ cache) kwargs mmin
      (smoothedDensity (fun m => (1 - lam) * normalised (brokenShape alpha1 alpha2 (mmin + bf * (mmax - mmin))) mmin mmax m +
        lam * normalised (bell mpp sigpp) mmin selfMax m)
        selfMin selfMax mmin d beta) := by
  have h0 : 0 < mmin := by linarith
  have hg : mmin < selfMax := by linarith
  have hb : 0 < mmin + bf * (mmax - mmin) := by
    have : 0 < bf * (mmax - mmin) := mul_pos hbf0 (by linarith)
    linarith
  have hbv : BoundedVariationOn (fun m => (1 - lam) * normalised (brokenShape alpha1 alpha2 (mmin + bf * (mmax - mmin))) mmin mmax m +
        lam * normalised (bell mpp sigpp) mmin selfMax m) (Icc selfMin selfMax) :=
    bv_add (bv_const_mul (1 - lam) (bv_normalised mmin mmax (bv_broken alpha1 alpha2 hb hself)))
      (bv_const_mul lam (bv_normalised mmin selfMax (bv_bell mpp sigpp _ _)))
  refine call_limit b (primDoublePowerLawPeak py) [("gaussian_mass_maximum", fin selfMax)] cache hbeta h_mmin h_mmax hdm hd h0 hself hlo hhi
    (by linarith) hq ?_ _ ?_ hbv (windowed_norm_pos hd hbv (fun t => ?_) hlo hlt hhi fun t ht => ?_)
  · intro k hk hk'
    simp only [Dict.keys, List.map_cons, List.map_nil, List.mem_singleton] at hk
    subst hk
    exact absurd (hkeys _ hk') (by decide)
  · intro m hm0
    obtain ⟨g, hg', v1, v2⟩ := bindPrimary
      (names := ["alpha_1", "alpha_2", "mmin", "mmax", "break_fraction", "lam", "mpp", "sigpp"])
      (extra := ["gaussian_mass_maximum"]) (defaults := [("gaussian_mass_maximum", fin 100)])
      (fixed := [("gaussian_mass_maximum", fin selfMax)]) hkeys (by simp [Dict.keys]) (by decide)
      (by decide) (by simp [h_alpha_1, h_alpha_2, h_mmin, h_mmax, h_break_fraction, h_lam, h_mpp, h_sigpp])
      (by simp [Dict.get?_cons])
    simp only [List.cons_append, List.nil_append, List.append_nil] at hg'
    simp only [primDoublePowerLawPeak, List.append_nil, hg']
    show doublePowerLawPeakPrimaryMass b py (fin m) (g "alpha_1") (g "alpha_2") (g "mmin") (g "mmax") (g "break_fraction") (g "lam") (g "mpp") (g "sigpp") (g "gaussian_mass_maximum") = _
    rw [v1 _ (by decide) _ h_alpha_1,
      v1 _ (by decide) _ h_alpha_2,
      v1 _ (by decide) _ h_mmin,
      v1 _ (by decide) _ h_mmax,
      v1 _ (by decide) _ h_break_fraction,
      v1 _ (by decide) _ h_lam,
      v1 _ (by decide) _ h_mpp,
      v1 _ (by decide) _ h_sigpp,
      v2 "gaussian_mass_maximum" (by decide) (fin selfMax) (by simp [Dict.get?_cons])]
    exact C18_doublePowerLawPeak_value b py ha1 ha2 h0 hlt hbf0 hbf1 hg hs hm0
  · exact add_nonneg (mul_nonneg (by linarith) ((isPdf_broken alpha1 alpha2 h0 hb hlt).nonneg t)) (mul_nonneg hl0 ((isPdf_bell mpp sigpp hg).nonneg t))
  · exact mix_pos hl0 hl1 (normalised_pos (integral_brokenShape_pos alpha1 alpha2 h0 hb hlt) ⟨ht.1.le, ht.2.le⟩
      (brokenShape_pos alpha1 alpha2 hb (by linarith [ht.1]))) (normalised_pos (integral_gaussShape_pos hg) ⟨ht.1.le, ht.2.le.trans hhi⟩
      (gaussShape_pos mpp sigpp t))

/-- Non-vacuity: GWTC-3-like hyper-parameters. -/
example : TendsToDensity .numpy (fun nM nQ => singlePeak true 2 100 nM nQ true)
    [("alpha", fin 3.5), ("beta", fin 1), ("mmin", fin 5), ("mmax", fin 85), ("lam", fin 0.04),
      ("mpp", fin 34), ("sigpp", fin 3.6), ("delta_m", fin 4.8)] 5
    (smoothedDensity (fun m => (1 - 0.04) * normalised (fun t => t ^ (-3.5 : ℝ)) 5 85 m +
      0.04 * normalised (bell 34 3.6) 5 100 m) 2 100 5 4.8 1) :=
  C85_singlePeak .numpy true true (by simp [Dict.keys]) (by simp [Dict.get?_cons])
    (by simp [Dict.get?_cons]) (by simp [Dict.get?_cons]) (by simp [Dict.get?_cons])
    (by simp [Dict.get?_cons]) (by simp [Dict.get?_cons]) (by simp [Dict.get?_cons])
    (by simp [Dict.get?_cons]) (by norm_num) (by norm_num) (by norm_num) (by norm_num)
    (by norm_num) (by norm_num) (Or.inr (by norm_num)) (by norm_num) (by norm_num) (by norm_num)

example : TendsToDensity .jax (fun nM nQ => brokenPowerLaw false 2 100 nM nQ false)
    [("alpha_1", fin (-1)), ("alpha_2", fin 5), ("beta", fin (-1)), ("mmin", fin 5), ("mmax", fin 85),
      ("break_fraction", fin 0.4), ("delta_m", fin 4.8)] 5
    (smoothedDensity (fun m => normalised (brokenShape (-1) 5 (5 + 0.4 * (85 - 5))) 5 85 m)
      2 100 5 4.8 (-1)) :=
  C85_brokenPowerLaw .jax false false (by simp [Dict.keys]) (by simp [Dict.get?_cons])
    (by simp [Dict.get?_cons]) (by simp [Dict.get?_cons]) (by simp [Dict.get?_cons])
    (by simp [Dict.get?_cons]) (by simp [Dict.get?_cons]) (by simp [Dict.get?_cons])
    (by norm_num) (by norm_num) (by norm_num) (by norm_num) (by norm_num) (by norm_num)
    (Or.inl rfl) (Or.inl rfl) (by norm_num) (by norm_num)

/-- **C85, the limit is normalised.** The density the smoothed models tend to integrates to exactly
1 over primary mass and mass ratio, for every primary density whose windowed integral does not
vanish. -/
theorem C85_limit_normalised (f : ℝ → ℝ) {selfMin selfMax lo d : ℝ} (beta : ℝ) (h0 : 0 < lo)
    (hlt : selfMin ≤ selfMax)
    (hI : ∫ t in selfMin..selfMax, f t * window lo selfMax d t ≠ 0) :
    ∫ m in selfMin..selfMax, ∫ q, smoothedDensity f selfMin selfMax lo d beta m q = 1 := by
  have key : ∀ m, m ≠ lo → ∫ q, smoothedDensity f selfMin selfMax lo d beta m q =
      f m * window lo selfMax d m / ∫ t in selfMin..selfMax, f t * window lo selfMax d t := by
    intro m hm
    unfold smoothedDensity
    rw [integral_const_mul]
    by_cases hw : lo ≤ m ∧ m ≤ selfMax
    · have hlm : lo < m := lt_of_le_of_ne hw.1 (Ne.symm hm)
      have hm0 : 0 < m := h0.trans hlm
      have h1 : lo / m < 1 := by rw [div_lt_one hm0]; exact hlm
      have h2 : 0 < lo / m := by positivity
      have hc : ContinuousOn (fun t : ℝ => t ^ beta * taper ((m * t - lo) / d)) (Icc (lo / m) 1) :=
        (continuousOn_id.rpow_const fun t ht => .inl (h2.trans_le ht.1).ne').mul
          (taper_continuous.comp (by fun_prop)).continuousOn
      have hpos : ∀ t ∈ Icc (lo / m) 1, 0 < t ^ beta * taper ((m * t - lo) / d) := fun t ht =>
        mul_pos (Real.rpow_pos_of_pos (h2.trans_le ht.1) _) (taper_pos _)
      have hii : IntervalIntegrable (fun t : ℝ => t ^ beta * taper ((m * t - lo) / d)) volume (lo / m) 1 :=
        (hc.mono (by rw [uIcc_of_le h1.le])).intervalIntegrable
      rw [(isPdf_normalised h1.le (fun t ht => (hpos t ht).le) hii
        (intervalIntegral.intervalIntegral_pos_of_pos_on hii
          (fun t ht => hpos t (Ioo_subset_Icc_self ht)) h1).ne').one, mul_one]
    · unfold window; rw [if_neg hw]; simp
  have hae : ∀ᵐ m : ℝ, m ≠ lo := by
    simp [ae_iff, measure_singleton]
  rw [intervalIntegral.integral_congr_ae (g := fun m => f m * window lo selfMax d m /
    ∫ t in selfMin..selfMax, f t * window lo selfMax d t)
    (hae.mono fun m hm _ => key m hm), intervalIntegral.integral_div, div_self hI]

/-- Non-vacuity: a constant primary density on `[2, 100]`. -/
example : ∫ t in (2 : ℝ)..100, (fun _ => (1 : ℝ)) t * window 5 100 3 t ≠ 0 := by
  exact windowed_norm_pos (hi := 100) (by norm_num) (bv_const 1 _) (fun _ => zero_le_one) (by norm_num)
    (by norm_num) (by norm_num) fun _ _ => one_pos

end GW
