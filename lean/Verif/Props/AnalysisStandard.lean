import Verif.Props.AnalysisLimit

/-!
# C105: the analysis of the example notebooks

Power law and peak in primary mass with smoothing, power law in mass ratio, Beta distribution of spin magnitudes,
mixture of isotropic and aligned spins, power law in redshift.
-/

noncomputable section

open Classical Set Filter Topology MeasureTheory

namespace GW

open Fl Spec

/-- The hyper-parameters of the mass model. -/
def Spec.peakNames : List String := ["alpha", "mmin", "mmax", "lam", "mpp", "sigpp", "beta", "delta_m"]

/-- All hyper-parameters. -/
def Spec.populationNames : List String :=
  peakNames ++ ["amax", "alpha_chi", "beta_chi", "xi_spin", "sigma_spin", "mu_spin", "lamb"]

/-- The values of the hyper-parameters for which the population is defined, for instances whose masses range from
`selfMin` to `selfMax`. -/
structure Spec.Admissible (b : Backend) (selfMin selfMax : ℝ) (p : String → ℝ) : Prop where
  alpha : b = .jax ∨ p "alpha" ≠ -1
  start : 0 < selfMin
  mmin : selfMin ≤ p "mmin"
  mmax : p "mmin" < p "mmax"
  stop : p "mmax" ≤ selfMax
  grid : 0.001 * selfMax ≤ p "mmin"
  delta : 0 < p "delta_m"
  lam0 : 0 ≤ p "lam"
  lam1 : p "lam" ≤ 1
  sigpp : 0 < p "sigpp"
  amax : 0 < p "amax"
  alphaChi : 0 < p "alpha_chi"
  betaChi : 0 < p "beta_chi"
  sigmaSpin : 0 < p "sigma_spin"

/-- The primary mass density before smoothing: power law and peak. -/
def Spec.primaryDensity (selfMax : ℝ) (p : String → ℝ) (m : ℝ) : ℝ :=
  (1 - p "lam") * normalised (fun t => t ^ (-p "alpha")) (p "mmin") (p "mmax") m +
    p "lam" * normalised (bell (p "mpp") (p "sigpp")) (p "mmin") selfMax m

/-- The density of the population. -/
def Spec.standardDensity (selfMin selfMax : ℝ) (p : String → ℝ) (pz : ℝ → ℝ) : Source → ℝ :=
  populationDensity
    (smoothedDensity (primaryDensity selfMax p) selfMin selfMax (p "mmin") (p "delta_m") (p "beta"))
    (p "amax") (p "alpha_chi") (p "beta_chi") (p "xi_spin") (p "sigma_spin") (p "mu_spin") pz

/-- A sample that is not exactly at the boundary of the support of one of the models. -/
structure Spec.Regular (p : String → ℝ) (x : Source) : Prop where
  mass : GoodMass (p "mmin") x
  a1 : x.1.1.2.1 ≠ 0 ∧ x.1.1.2.1 ≠ p "amax"
  a2 : x.1.1.2.2 ≠ 0 ∧ x.1.1.2.2 ≠ p "amax"
  redshift : 0 ≤ x.2

namespace Analysis

/-- The value of the magnitude model, inside the support and outside. -/
theorem magnitude_value (junk : Fl → Fl → Fl) (b : Backend) {d : Dict Fl} {a1 a2 : ℝ}
    (h1 : d.get? "a_1" = some (fin a1)) (h2 : d.get? "a_2" = some (fin a2)) {al be A : ℝ} (ha : 0 < al) (hb : 0 < be)
    (hA : 0 < A) (k1 : a1 ≠ 0 ∧ a1 ≠ A) (k2 : a2 ≠ 0 ∧ a2 ≠ A) :
    iidSpinMagnitudeBeta junk b d (fin A) (fin al) (fin be) =
      .ok (fin (Spec.normalised (fun t => t ^ (al - 1) * (A - t) ^ (be - 1)) 0 A a1 *
        Spec.normalised (fun t => t ^ (al - 1) * (A - t) ^ (be - 1)) 0 A a2)) := by
  rw [(C28_iid ..).1]
  by_cases hin : (0 < a1 ∧ a1 < A) ∧ 0 < a2 ∧ a2 < A
  · exact C28_value junk b h1 h2 ha ha hb hb hin.1.1 hin.1.2 hin.2.1 hin.2.2
  · have hout : ¬ ((0 ≤ a1 ∧ a1 ≤ A) ∧ 0 ≤ a2 ∧ a2 ≤ A) := by
      rintro ⟨⟨e1, e2⟩, e3, e4⟩
      exact hin ⟨⟨lt_of_le_of_ne e1 (Ne.symm k1.1), lt_of_le_of_ne e2 k1.2⟩,
        lt_of_le_of_ne e3 (Ne.symm k2.1), lt_of_le_of_ne e4 k2.2⟩
    rw [C28_outside junk b h1 h2 _ _ _ _ (show (0 : Fl) < fin A from hA) (show (0 : Fl) < fin A from hA) (by
      rintro ⟨e1, e2, e3, e4⟩
      exact hout ⟨⟨e1, e2⟩, e3, e4⟩)]
    congr 2
    simp only [Spec.normalised]
    by_cases g1 : 0 ≤ a1 ∧ a1 ≤ A
    · rw [if_neg (fun g2 : 0 ≤ a2 ∧ a2 ≤ A => hout ⟨g1, g2⟩), mul_zero]
    · rw [if_neg g1, zero_mul]

/-- **C105, the standard analysis.** `SinglePeakSmoothedMassDistribution` (one instance for the posterior samples and
one for the injections), `iid_spin_magnitude_beta`, `iid_spin_orientation_gaussian_isotropic` and `PowerLawRedshift`
in `Model` objects, with a `HyperparameterLikelihood` and a `ResamplingVT`. For all admissible hyper-parameters, all
numbers of events, samples and injections, and all regular samples, an evaluation of the likelihood returns, after
any history of evaluations, numbers that tend to

`sum_i ln (1/k sum_j p(x_ij) / pi_ij) - n ln (1/T sum_j p(y_j) / q_j)`

and its documented variance as the mass grids are refined. Here `p` is the documented population density, with a
redshift density proportional to `(1 + z)^(lamb - 1) dV_c/dz` that is normalised up to the resolution of the redshift
grid. -/
theorem C105_standard (junk : Fl → Fl → Fl) (b : Backend) (py cache cacheM : Bool)
    {same : Dict Fl → Dict Fl → Prop} (hsame : ∀ θ θ', same θ θ' → θ = θ')
    {available : Dict CosmoEntry} {zMax : ℝ} {name : String} {c : Cosmology} {z : Redshift}
    (hz : Redshift.powerLaw available zMax name = .ok z) (hzm : 1e-6 < zMax)
    (hcos : available.get? name = some (.fixed c)) (hn : name ≠ "FlatLambdaCDM" ∧ name ≠ "FlatwCDM")
    {vol : ℝ → ℝ} (hv : ∀ z, 0 ≤ z → c.diffComovingVolume (fin z) = fin (vol z)) (v_pos : ∀ z, 0 < z → 0 < vol z)
    (v_zero : 0 ≤ vol 0) (hbv : BoundedVariationOn vol (Icc 1e-6 zMax))
    {selfMin selfMax : ℝ} {p : String → ℝ} (hp : Admissible b selfMin selfMax p)
    {L : Likelihood} {V : ResamplingVT} {k n I : ℕ} {π q : List ℕ → ℝ} {T : ℝ} (hset : Setup L V k n I π q T)
    {θ φ : Dict Fl} (hconv : L.conversion θ = .ok φ)
    (hφ : ∀ key ∈ populationNames, φ.get? key = some (fin (p key))) {x y : List ℕ → Source}
    (hx : ∀ i ∈ NArr.indices [k, n], Regular p (x i)) (hy : ∀ i ∈ NArr.indices [I], Regular p (y i)) :
    ∃ Z : ℝ, 0 < Z ∧ ∃ pz : ℝ → ℝ,
      (∀ z, pz z = if z ≤ zMax then (1 + z) ^ p "lamb" / (1 + z) * (4 * Real.pi * vol z) / Z else 0) ∧
      |(∫ z in (1e-6)..zMax, pz z) - 1| ≤ (zMax - 1e-6) / 4998 * variation pz 1e-6 zMax ∧
      ∀ dens, dens = standardDensity selfMin selfMax p pz →
        GoodWeights k (eventTable k n fun i => dens (x i) / π i) →
        0 < (detectionEstimate I T fun i => dens (y i) / q i) →
        PassesCheck V (detectionEstimate I T fun i => dens (y i) / q i) (detectionVariance I T fun i => dens (y i) / q i) →
        ∃ l v : ℕ × ℕ → ℝ,
          (∀ᶠ N in atTop, ∃ s, singlePeak py selfMin selfMax N.1 N.2 cacheM = .ok s ∧
            ∀ hist : List (Dict Fl),
              (((twoInstances L V k n I x y cache peakNames
                [spinMagnitudeFn junk b, spinOrientationFn b, redshiftFn z] s).run b same hist).evaluate b same θ).1 =
                .ok (fin (l N), fin (v N))) ∧
          Tendsto l atTop (𝓝 (lnLikelihood (eventTable k n fun i => dens (x i) / π i)
            (detectionEstimate I T fun i => dens (y i) / q i))) ∧
          Tendsto v atTop (𝓝 (lnLikelihoodVariance (eventTable k n fun i => dens (x i) / π i)
            (detectionEstimate I T fun i => dens (y i) / q i) (detectionVariance I T fun i => dens (y i) / q i))) := by
  obtain ⟨hrate, hzmax⟩ := rateAt_powerLaw hz hcos hv v_pos v_zero (p "lamb")
  obtain ⟨Z, hZ, hprob, -, -⟩ := C31_probability hrate (by rw [hzmax]; exact hzm)
  rw [hzmax] at hprob
  obtain ⟨pr, hpr, -, -, herr⟩ := C85_powerLaw hz hzm hcos hv v_pos v_zero hbv (p "lamb")
  set pz : ℝ → ℝ := fun z => if z ≤ zMax then (1 + z) ^ p "lamb" / (1 + z) * (4 * Real.pi * vol z) / Z else 0 with hpz
  have hpz' : ∀ (d : Dict Fl) (t : ℝ), 0 ≤ t → d.get? "redshift" = some (fin t) →
      z.probability d [("lamb", fin (p "lamb"))] = .ok (fin (pz t)) := hprob
  have heq : ∀ t, 0 ≤ t → pr t = pz t := by
    intro t ht
    have h1 := hpr [("redshift", fin t)] t ht (by simp [Dict.get?_cons])
    have h2 := hpz' [("redshift", fin t)] t ht (by simp [Dict.get?_cons])
    rw [h1] at h2
    exact Fl.fin.inj (Except.ok.inj h2)
  refine ⟨Z, hZ, pz, fun _ => rfl, ?_, ?_⟩
  · have e1 : ∫ t in (1e-6)..zMax, pr t = ∫ t in (1e-6)..zMax, pz t := by
      apply intervalIntegral.integral_congr
      intro t ht
      rw [uIcc_of_le hzm.le] at ht
      exact heq t (le_trans (by norm_num) ht.1)
    have e2 : variation pr 1e-6 zMax = variation pz 1e-6 zMax := by
      unfold variation
      congr 1
      exact eVariationOn.eq_of_eqOn fun t ht => heq t (le_trans (by norm_num) ht.1)
    rw [← e1, ← e2]
    exact herr
  · intro dens hd hgood hdet hc
    have sel : ∀ names : List String, (∀ k ∈ names, k ∈ populationNames) →
        bySignature names φ = .ok (names.map fun k => (k, fin (p k))) :=
      fun names hn => bySignature_ok (fun k => fin (p k)) fun k hk => hφ k (hn k hk)
    have hnames : z.variableNames.1 = ["lamb"] := by
      unfold Redshift.powerLaw Redshift.init CosmoMixin.init at hz
      simp only [Dict.get, hcos, ok_bind, pure_eq_ok] at hz
      rw [← Except.ok.inj hz]
      simp [Redshift.variableNames, hn.1, hn.2]
    have hT := C85_singlePeak b py cacheM (selfMin := selfMin) (selfMax := selfMax)
      (kwargs := peakNames.map fun k => (k, fin (p k))) (beta := p "beta") (d := p "delta_m") (alpha := p "alpha")
      (mmin := p "mmin") (mmax := p "mmax") (lam := p "lam") (mpp := p "mpp") (sigpp := p "sigpp")
      (by simp [peakNames, Dict.keys]) (by simp [peakNames, Dict.get?_cons]) (by simp [peakNames, Dict.get?_cons])
      (by simp [peakNames, Dict.get?_cons]) (by simp [peakNames, Dict.get?_cons]) (by simp [peakNames, Dict.get?_cons])
      (by simp [peakNames, Dict.get?_cons]) (by simp [peakNames, Dict.get?_cons]) (by simp [peakNames, Dict.get?_cons])
      hp.delta hp.start hp.mmin hp.mmax hp.stop hp.grid hp.alpha hp.lam0 hp.lam1 hp.sigpp
    have hpoint : ∀ w : Source, Regular p w →
        (∀ t, t = (["amax", "alpha_chi", "beta_chi"].map fun k => (k, fin (p k))) →
          (spinMagnitudeFn junk b).call w.row t = .ok (fin
            (Spec.normalised (fun t => t ^ (p "alpha_chi" - 1) * (p "amax" - t) ^ (p "beta_chi" - 1)) 0 (p "amax") w.1.1.2.1 *
             Spec.normalised (fun t => t ^ (p "alpha_chi" - 1) * (p "amax" - t) ^ (p "beta_chi" - 1)) 0 (p "amax")
              w.1.1.2.2))) ∧
        (∀ t, t = (["xi_spin", "sigma_spin", "mu_spin"].map fun k => (k, fin (p k))) →
          (spinOrientationFn b).call w.row t = .ok (fin ((1 - p "xi_spin") / 4 + p "xi_spin" *
            (Spec.normalised (fun t => Real.exp (-(t - p "mu_spin") ^ 2 / (2 * p "sigma_spin" ^ 2))) (-1) 1 w.1.2.1 *
             Spec.normalised (fun t => Real.exp (-(t - p "mu_spin") ^ 2 / (2 * p "sigma_spin" ^ 2))) (-1) 1 w.1.2.2)))) ∧
        (redshiftFn z).call w.row [("lamb", fin (p "lamb"))] = .ok (fin (pz w.2)) := by
      intro w hw
      refine ⟨?_, ?_, ?_⟩
      · rintro t rfl
        have := magnitude_value junk b (d := w.row) (a1 := w.1.1.2.1) (a2 := w.1.1.2.2)
          (by simp [Source.row, Dict.get?_cons]) (by simp [Source.row, Dict.get?_cons]) hp.alphaChi hp.betaChi hp.amax
          hw.a1 hw.a2
        rw [← this]
        simp [spinMagnitudeFn, Dict.get, Dict.get?_cons, ok_bind]
      · rintro t rfl
        have := C27_value b (d := w.row) (z1 := w.1.2.1) (z2 := w.1.2.2) (by simp [Source.row, Dict.get?_cons])
          (by simp [Source.row, Dict.get?_cons]) (p "xi_spin") (p "mu_spin") (p "mu_spin") hp.sigmaSpin hp.sigmaSpin
        rw [← this]
        simp [spinOrientationFn, Dict.get, Dict.get?_cons, ok_bind]
        rfl
      · exact hpz' _ _ hw.redshift (by simp [Source.row, Dict.get?_cons])
    refine C105_limit b hsame hset hconv cache (sel peakNames (by simp [populationNames, peakNames])) hT
      (fs := [spinMagnitudeFn junk b, spinOrientationFn b, redshiftFn z])
      (hs := [fun w => Spec.normalised (fun t => t ^ (p "alpha_chi" - 1) * (p "amax" - t) ^ (p "beta_chi" - 1)) 0 (p "amax")
          w.1.1.2.1 * Spec.normalised (fun t => t ^ (p "alpha_chi" - 1) * (p "amax" - t) ^ (p "beta_chi" - 1)) 0 (p "amax")
          w.1.1.2.2,
        fun w => (1 - p "xi_spin") / 4 + p "xi_spin" *
          (Spec.normalised (fun t => Real.exp (-(t - p "mu_spin") ^ 2 / (2 * p "sigma_spin" ^ 2))) (-1) 1 w.1.2.1 *
           Spec.normalised (fun t => Real.exp (-(t - p "mu_spin") ^ 2 / (2 * p "sigma_spin" ^ 2))) (-1) 1 w.1.2.2),
        fun w => pz w.2]) ?_ (fun i hi => (hx i hi).mass) (fun i hi => (hy i hi).mass) ?_ hgood hdet hc
    · refine .cons ⟨_, sel _ (by simp [populationNames, peakNames]), fun i hi => (hpoint _ (hx i hi)).1 _ rfl,
        fun i hi => (hpoint _ (hy i hi)).1 _ rfl⟩ (.cons ⟨_, sel _ (by simp [populationNames, peakNames]),
        fun i hi => (hpoint _ (hx i hi)).2.1 _ rfl, fun i hi => (hpoint _ (hy i hi)).2.1 _ rfl⟩ (.cons
        ⟨[("lamb", fin (p "lamb"))], ?_, fun i hi => (hpoint _ (hx i hi)).2.2, fun i hi => (hpoint _ (hy i hi)).2.2⟩
        .nil))
      show bySignature z.variableNames.1 φ = _
      rw [hnames]
      exact sel ["lamb"] (by simp [populationNames, peakNames])
    · intro w
      rw [hd]
      simp only [standardDensity, populationDensity, List.map_cons, List.map_nil, List.prod_cons, List.prod_nil,
        mul_one]
      unfold primaryDensity
      ring

/-! ## Samples inside the support -/

theorem beta_density_pos {a b A t : ℝ} (ha : 0 < a) (hb : 0 < b) (h0 : 0 < t) (h1 : t < A) :
    0 < Spec.normalised (fun t => t ^ (a - 1) * (A - t) ^ (b - 1)) 0 A t := by
  have hA : 0 < A := h0.trans h1
  refine normalised_pos (f := fun t => t ^ (a - 1) * (A - t) ^ (b - 1)) ?_ ⟨h0.le, h1.le⟩
    (mul_pos (Real.rpow_pos_of_pos h0 _) (Real.rpow_pos_of_pos (by linarith) _))
  have := integral_betaShape ha hb hA
  unfold betaShape at this
  rw [this]
  exact mul_pos (Real.rpow_pos_of_pos hA _) (ProbabilityTheory.beta_pos ha hb)

/-- The density is positive at a source inside the support of all the models. -/
theorem standardDensity_pos {b : Backend} {selfMin selfMax : ℝ} {p : String → ℝ} (hp : Admissible b selfMin selfMax p)
    (hxi : 0 ≤ p "xi_spin" ∧ p "xi_spin" ≤ 1) {pz : ℝ → ℝ} {m q a1 a2 c1 c2 z : ℝ} (hm : p "mmin" < m)
    (hm' : m ≤ p "mmax") (hq : p "mmin" ≤ m * q) (hq1 : q ≤ 1) (ha1 : 0 < a1 ∧ a1 < p "amax")
    (ha2 : 0 < a2 ∧ a2 < p "amax") (hc1 : -1 ≤ c1 ∧ c1 ≤ 1) (hc2 : -1 ≤ c2 ∧ c2 ≤ 1) (hz : 0 < pz z) :
    0 < standardDensity selfMin selfMax p pz ((((m, q), (a1, a2)), (c1, c2)), z) := by
  obtain ⟨_, k1, k2, k3, k4, k5, k6, k7, k8, k9, k10, k11, k12, k13⟩ := hp
  have h0 : 0 < p "mmin" := lt_of_lt_of_le k1 k2
  have hm0 : 0 < m := h0.trans hm
  have hprim : ∀ t, p "mmin" ≤ t → t ≤ p "mmax" → 0 < primaryDensity selfMax p t := fun t h1 h2 =>
    mix_pos k7 k8 (normalised_pos (integral_rpow_pos h0 k3) ⟨h1, h2⟩ (Real.rpow_pos_of_pos (by linarith) _))
      (normalised_pos (integral_gaussShape_pos (by linarith)) ⟨h1, h2.trans k4⟩ (gaussShape_pos _ _ t))
  have hprim0 : ∀ t, 0 ≤ primaryDensity selfMax p t := fun t =>
    add_nonneg (mul_nonneg (by linarith) ((isPdf_powerlaw _ h0 k3).nonneg t))
      (mul_nonneg k7 ((isPdf_bell _ _ (by linarith)).nonneg t))
  have hbv : BoundedVariationOn (primaryDensity selfMax p) (Icc selfMin selfMax) :=
    bv_add (bv_const_mul _ (bv_normalised _ _ (bv_rpow _ k1))) (bv_const_mul _ (bv_normalised _ _ (bv_bell _ _ _ _)))
  have hnorm : 0 < ∫ t in selfMin..selfMax, primaryDensity selfMax p t * window (p "mmin") selfMax (p "delta_m") t :=
    lt_of_le_of_ne (intervalIntegral.integral_nonneg (by linarith) fun t _ =>
      mul_nonneg (hprim0 t) (window_nonneg _ _ _ _))
      (windowed_norm_pos k6 hbv hprim0 k2 k3 k4 fun t ht => hprim t ht.1.le ht.2.le).symm
  have hmass : 0 < smoothedDensity (primaryDensity selfMax p) selfMin selfMax (p "mmin") (p "delta_m") (p "beta") m q := by
    unfold smoothedDensity
    have hl : p "mmin" / m < 1 := (div_lt_one hm0).2 hm
    have hlq : p "mmin" / m ≤ q := by rw [div_le_iff₀ hm0]; linarith
    refine mul_pos (div_pos (mul_pos (hprim m hm.le hm') ?_) hnorm) (normalised_pos ?_ ⟨hlq, hq1⟩ ?_)
    · unfold window
      rw [if_pos ⟨hm.le, hm'.trans k4⟩]
      exact taper_pos _
    · exact shape_integral_pos (p "beta") (fun t => taper ((m * t - p "mmin") / p "delta_m"))
        (taper_continuous.comp (by fun_prop)) (fun t => taper_pos _) (div_pos h0 hm0) hl
    · exact mul_pos (Real.rpow_pos_of_pos (lt_of_lt_of_le (div_pos h0 hm0) hlq) _) (taper_pos _)
  unfold standardDensity populationDensity
  refine mul_pos (mul_pos (mul_pos hmass (mul_pos (beta_density_pos k11 k12 ha1.1 ha1.2)
    (beta_density_pos k11 k12 ha2.1 ha2.2))) ?_) hz
  have g : ∀ c, -1 ≤ c ∧ c ≤ 1 →
      0 < Spec.normalised (fun t => Real.exp (-(t - p "mu_spin") ^ 2 / (2 * p "sigma_spin" ^ 2))) (-1) 1 c :=
    fun c hc => normalised_pos (integral_gaussShape_pos (by norm_num)) hc (gaussShape_pos _ _ c)
  have := mix_pos hxi.1 hxi.2 (show (0 : ℝ) < 1 / 4 by norm_num) (mul_pos (g c1 hc1) (g c2 hc2))
  simpa only [mul_one_div] using this

theorem goodWeights_of_pos {k n : ℕ} (hk : 0 < k) {f : List ℕ → ℝ} (hf : ∀ i ∈ NArr.indices [k, n], 0 < f i) :
    GoodWeights k (eventTable k n f) := by
  intro w hw
  unfold eventTable at hw
  obtain ⟨e, he, rfl⟩ := List.mem_map.1 hw
  refine ⟨by simp, ?_⟩
  unfold Spec.mean
  refine div_pos (List.sum_pos _ ?_ ?_) (by simp [hk])
  · intro t ht
    obtain ⟨j, hj, rfl⟩ := List.mem_map.1 ht
    exact hf _ (mem_indices_two (List.mem_range.1 hj) (List.mem_range.1 he))
  · simp [hk.ne']

theorem efficiency_pos {I : ℕ} (hI : 0 < I) {T : ℝ} (hT : 0 < T) {f : List ℕ → ℝ}
    (hf : ∀ i ∈ NArr.indices [I], 0 < f i) : 0 < detectionEstimate I T f := by
  unfold detectionEstimate injectionList
  refine div_pos (List.sum_pos _ ?_ ?_) hT
  · intro t ht
    obtain ⟨j, hj, rfl⟩ := List.mem_map.1 ht
    exact hf _ (mem_indices_one (List.mem_range.1 hj))
  · simp [hI.ne']

/-- Non-vacuity: two events with three samples each, five found injections out of a thousand, over the toy cosmology,
with the hyper-parameters of the examples, on every backend and after every history. -/
example (junk : Fl → Fl → Fl) (b : Backend) (py cache cacheM : Bool) (L₀ : Likelihood) (V₀ : ResamplingVT) :
    ∃ (L : Likelihood) (V : ResamplingVT) (z : Redshift) (x : List ℕ → Source) (θ : Dict Fl) (l v : ℕ × ℕ → ℝ)
      (l₀ v₀ : ℝ),
      (∀ᶠ N in atTop, ∃ s, singlePeak py 2 100 N.1 N.2 cacheM = .ok s ∧ ∀ hist : List (Dict Fl),
        (((twoInstances L V 3 2 5 x x cache peakNames
          [spinMagnitudeFn junk b, spinOrientationFn b, redshiftFn z] s).run b (· = ·) hist).evaluate b (· = ·) θ).1 =
          .ok (fin (l N), fin (v N))) ∧
      Tendsto l atTop (𝓝 l₀) ∧ Tendsto v atTop (𝓝 v₀) := by
  obtain ⟨s, hs⟩ : ∃ s, Redshift.powerLaw [("Planck15", .fixed toyCosmology)] 2.3 "Planck15" = .ok s := by
    unfold Redshift.powerLaw Redshift.init CosmoMixin.init
    simp only [Dict.get, Dict.get?_cons, if_pos, ok_bind, pure_eq_ok]
    exact ⟨_, rfl⟩
  let p : String → ℝ := fun k =>
    if k = "mmin" then 5 else if k = "mmax" then 88 else if k = "delta_m" then 4.8 else
    if k = "alpha" then 3.4 else if k = "sigpp" then 5.7 else if k = "lam" then 0.04 else
    if k = "mpp" then 33.5 else if k = "xi_spin" then 0.7 else if k = "lamb" then 2.7 else 1
  have hp : Admissible b 2 100 p := by
    constructor
    · exact .inr (by simp [p]; norm_num)
    all_goals simp [p]
    all_goals norm_num
  let x : List ℕ → Source := fun i => ((((30 + (i.sum : ℝ) / 10, 0.8), (0.3, 0.6)), (0.2, -0.4)), 0.5)
  let θ : Dict Fl := populationNames.map fun k => (k, fin (p k))
  have hreg : ∀ i, Regular p (x i) := by
    intro i
    have : (0 : ℝ) ≤ (i.sum : ℝ) := by positivity
    refine ⟨⟨?_, ?_, ?_⟩, ⟨?_, ?_⟩, ⟨?_, ?_⟩, ?_⟩
    · show (0 : ℝ) < 30 + (i.sum : ℝ) / 10
      positivity
    · show 30 + (i.sum : ℝ) / 10 ≠ p "mmin"
      have : p "mmin" = 5 := by simp [p]
      rw [this]
      apply ne_of_gt
      linarith
    all_goals simp [x, p]
    all_goals norm_num
  let L : Likelihood :=
    { L₀ with
      cls := .hyper
      nPosteriors := 2
      samplesPerPosterior := 3
      samplingPrior := some (matFin (eventTable 3 2 fun _ => 1))
      conversion := .ok }
  let V : ResamplingVT :=
    { V₀ with
      data := [("prior", .arr ((injectionList 5 fun _ => 1).map fin))]
      totalInjections := (true, fin 1000)
      marginalizeUncertainty := false
      enforceConvergence := false }
  have hset : Setup L V 3 2 5 (fun _ => 1) (fun _ => 1) 1000 :=
    ⟨rfl, rfl, rfl, rfl, fun _ _ => one_ne_zero, rfl, fun _ _ => one_ne_zero, rfl, by norm_num, rfl⟩
  obtain ⟨Z, hZ, pz, hpz, -, h⟩ := C105_standard junk b py cache cacheM (same := (· = ·)) (fun _ _ h => h) hs
    (by norm_num) (c := toyCosmology) (by simp [Dict.get?_cons]) ⟨by decide, by decide⟩ (vol := fun z => z * z)
    (by intro z _; simp [toyCosmology]) (fun z hz => by positivity) (by simp)
    (bv_monotone fun x hx y hy h => mul_self_le_mul_self (le_trans (by norm_num) hx.1) h) hp hset
    (θ := θ) (φ := θ) rfl (by
      intro k hk
      simp only [populationNames, peakNames, List.cons_append, List.nil_append, List.mem_cons, List.not_mem_nil,
        or_false] at hk
      rcases hk with rfl | rfl | rfl | rfl | rfl | rfl | rfl | rfl | rfl | rfl | rfl | rfl | rfl | rfl | rfl <;>
        simp [θ, populationNames, peakNames, Dict.get?_cons]) (x := x) (y := x) (fun i _ => hreg i)
    (fun i _ => hreg i)
  have hpos : ∀ i : List ℕ, i.sum ≤ 100 → 0 < standardDensity 2 100 p pz (x i) := by
    intro i hi
    have h0 : (0 : ℝ) ≤ (i.sum : ℝ) := by positivity
    have h1 : ((i.sum : ℕ) : ℝ) ≤ 100 := by exact_mod_cast hi
    have e1 : p "mmin" = 5 := by simp [p]
    have e2 : p "mmax" = 88 := by simp [p]
    have e3 : p "amax" = 1 := by simp [p]
    refine standardDensity_pos hp ⟨by simp [p]; norm_num, by simp [p]; norm_num⟩ ?_ ?_ ?_ ?_ ?_ ?_ ?_ ?_ ?_
    · rw [e1]; linarith
    · rw [e2]; linarith
    · rw [e1]; nlinarith
    · norm_num
    · rw [e3]; norm_num
    · rw [e3]; norm_num
    · norm_num
    · norm_num
    · rw [hpz, if_pos (by norm_num)]
      positivity
  have hw : ∀ i ∈ NArr.indices [3, 2], 0 < standardDensity 2 100 p pz (x i) / 1 := by
    intro i hi
    rw [div_one]
    apply hpos
    fin_cases hi <;> decide
  have hv : ∀ i ∈ NArr.indices [5], 0 < standardDensity 2 100 p pz (x i) / 1 := by
    intro i hi
    rw [div_one]
    apply hpos
    fin_cases hi <;> decide
  obtain ⟨l, v, h1, h2, h3⟩ := h _ rfl (goodWeights_of_pos (by norm_num) hw)
    (efficiency_pos (by norm_num) (by norm_num) hv) (.inl rfl)
  exact ⟨L, V, s, x, θ, l, v, _, _, h1, h2, h3⟩

end Analysis

end GW
