import Verif.Props.TruePopulation
import Mathlib.Probability.Distributions.Poisson.Basic

/-!
# C144: the true rate and population have the largest mean log-likelihood of `RateLikelihood`
-/

noncomputable section

open MeasureTheory ProbabilityTheory Filter Topology Classical

namespace GW

open Fl Spec TruePopulation

variable {S T Ω : Type} [MeasurableSpace S] [MeasurableSpace T] [MeasurableSpace Ω]
variable {P : Measure Ω} {ν : Measure S} {η : Measure T} {like : T → S → ℝ} {Det : Set T}
variable {p p₀ p₁ : S → ℝ} {R R₀ R₁ : ℝ}

/-! ## Specification -/

/-- The exact Poisson log-likelihood of a population of `R` sources on average, given the data of `n` detected events
with evidences `Z`. -/
def Spec.catalogueLnRate (ν : Measure S) (η : Measure T) (like : T → S → ℝ) (Det : Set T) {n : ℕ}
    (data : Fin n → T) (Z : Fin n → ℝ) (p : S → ℝ) (R : ℝ) : ℝ :=
  ∑ i, Real.log (dataDensity ν like p (data i) / Z i) + n * Real.log R - R * detectedFraction ν η like Det p

/-- A random number of detected events of a population of `R` sources on average: the mean number of detected events is
`R` times the detected fraction. The number does not depend on the data of the single events. -/
structure Spec.DetectedNumber (P : Measure Ω) (ν : Measure S) (η : Measure T) (like : T → S → ℝ) (Det : Set T)
    (p : S → ℝ) (R : ℝ) (d : ℕ → Ω → T) (n : Ω → ℕ) : Prop where
  measurable : Measurable n
  integrable : Integrable (fun ω => (n ω : ℝ)) P
  mean : ∫ ω, (n ω : ℝ) ∂P = R * detectedFraction ν η like Det p
  indep : ∀ i, n ⟂ᵢ[P] d i

/-- An analysis with `RateLikelihood` for the parameters `θ`, which describe the population `p` and the rate `R`. -/
structure Spec.RateAnalysis {n : ℕ} (P : Measure Ω) (ν : Measure S) (η : Measure T) (like : T → S → ℝ)
    (Det : Set T) (data : Fin n → T) (q : S → ℝ) (X : ℕ → Ω → S × T) (vt : ℕ → Ω → ResamplingVT)
    (prior : Fin n → S → ℝ) (Z : Fin n → ℝ) (Y : Fin n → ℕ → Ω → S) (L : ℕ → ℕ → Ω → Likelihood) (p : S → ℝ)
    (R : ℝ) (θ φ : Dict Fl) : Prop where
  cls : ∀ K N ω, (L K N ω).cls = .rate
  rate : φ.get? "rate" = some (fin R)
  analysis : Analysis P ν η like Det data q X vt prior Z Y (fun K N ω => { L K N ω with cls := .hyper }) p θ φ

/-! ## Lemmas -/

namespace TrueRate

/-- `RateLikelihood` in terms of `HyperparameterLikelihood`. -/
theorem rate_of_hyper {lik : Likelihood} (hcls : lik.cls = .rate) {θ φ : Dict Fl} {l v : ℝ}
    (h : { lik with cls := .hyper }.lnLikelihoodAndVariance θ = .ok (fin l, fin v))
    (hconv : lik.conversion θ = .ok φ) {r : SelResult} {m w : ℝ} (hs : lik.selection.call φ = .ok r)
    (hrep : reports r m w) (hm : 0 < m) (hR : 0 < R) (hrate : φ.get? "rate" = some (fin R)) :
    ∃ v' : ℝ, lik.lnLikelihoodAndVariance θ = .ok
      (fin (l + lik.nPosteriors * Real.log m + lik.nPosteriors * Real.log R - R * m), fin v') := by
  have fin_of_add : ∀ {A : Fl} {c x : ℝ}, A + fin c = fin x → ∃ a, A = fin a ∧ a + c = x := by
    intro A c x hx
    cases A with
    | fin a => exact ⟨a, rfl, by rw [fin_add] at hx; exact Fl.fin.inj hx⟩
    | pinf => cases hx
    | ninf => cases hx
    | nan => cases hx
  obtain ⟨py, hsel⟩ := selection_fin (self := lik) hs hrep
  have hsel' : Likelihood.selectionWithUncertainty { lik with cls := .hyper } φ = .ok (py, fin m, fin w) := hsel
  have hper : Likelihood.perEvent { lik with cls := .hyper } φ = lik.perEvent φ := rfl
  unfold Likelihood.lnLikelihoodAndVariance Likelihood.lnLikelihoodAndVarianceBase Likelihood.selectionFactor
    Likelihood.selectionFactorHyper at h
  simp only [hconv, ok_bind, hper] at h
  cases hev : lik.perEvent φ with
  | error e => rw [hev] at h; cases h
  | ok events =>
    have hm2 : m ^ 2 ≠ 0 := pow_ne_zero 2 hm.ne'
    simp only [hev, ok_bind, hsel', pure_eq_ok, log_fin hm, natCast_eq, fin_neg, fin_mul, fin_npow, toNumber, ite_self,
      id, fin_div hm2] at h
    obtain ⟨h1, h2⟩ := Prod.mk.inj (Except.ok.inj h)
    obtain ⟨a, ha, ha'⟩ := fin_of_add h1
    obtain ⟨b, hb, hb'⟩ := fin_of_add h2
    refine ⟨b + R * m * w / m ^ 2, ?_⟩
    unfold Likelihood.lnLikelihoodAndVariance Likelihood.lnLikelihoodAndVarianceBase
      Likelihood.selectionFactor Likelihood.selectionFactorRate
    simp only [hconv, ok_bind, hev, hcls, hsel, pure_eq_ok, log_fin hR, natCast_eq, fin_neg,
      fin_mul, fin_npow, fin_add, toNumber, ite_self, id, Dict.get, hrate, pyDiv, zero_eq, eqf_fin, ha, hb]
    rw [if_neg (by rintro ⟨-, h⟩; exact hm2 h), fin_div hm2]
    simp only [ok_bind, fin_add]
    rw [← ha']
    congr 3
    · ring
    · ring


/-- Wald's identity. -/
theorem wald [IsProbabilityMeasure P] {n : Ω → ℕ} {X : ℕ → Ω → ℝ} (hn : Measurable n)
    (hi : Integrable (fun ω => (n ω : ℝ)) P) (hX : ∀ i, Integrable (X i) P) {c c' : ℝ}
    (hc : ∀ i, ∫ ω, X i ω ∂P = c) (hc' : ∀ i, ∫ ω, ‖X i ω‖ ∂P = c') (hind : ∀ i, n ⟂ᵢ[P] X i) :
    Integrable (fun ω => ∑ i ∈ Finset.range (n ω), X i ω) P ∧
    ∫ ω, ∑ i ∈ Finset.range (n ω), X i ω ∂P = (∫ ω, (n ω : ℝ) ∂P) * c := by
  set I : ℕ → Ω → ℝ := fun i ω => if i < n ω then 1 else 0 with hI
  have hφ : ∀ i : ℕ, Measurable fun k : ℕ => if i < k then (1 : ℝ) else 0 := fun i => measurable_of_countable _
  have hIm : ∀ i, Measurable (I i) := fun i => (hφ i).comp hn
  have hIi : ∀ i, Integrable (I i) P := fun i =>
    (integrable_const (1 : ℝ)).mono' (hIm i).aestronglyMeasurable (ae_of_all _ fun ω => by
      simp only [hI]; split_ifs <;> simp)
  have hIind : ∀ i, I i ⟂ᵢ[P] X i := fun i => (hind i).comp (hφ i) measurable_id
  have hFi : ∀ i, Integrable (fun ω => I i ω * X i ω) P := fun i => (hIind i).integrable_mul (hIi i) (hX i)
  -- the number as a sum
  have hsumI : ∀ ω, HasSum (fun i => I i ω) (n ω : ℝ) := by
    intro ω
    have : HasSum (fun i => I i ω) (∑ i ∈ Finset.range (n ω), I i ω) := hasSum_sum_of_ne_finset_zero (s := Finset.range (n ω)) (fun i hi => by
      simp only [Finset.mem_range] at hi
      simp [hI, hi])
    have e : ∑ i ∈ Finset.range (n ω), I i ω = n ω := by
      rw [Finset.sum_congr rfl fun i hi => (by simp [hI, Finset.mem_range.1 hi] : I i ω = 1)]
      simp
    rwa [e] at this
  have hsumF : ∀ ω, HasSum (fun i => I i ω * X i ω) (∑ i ∈ Finset.range (n ω), X i ω) := by
    intro ω
    have : HasSum (fun i => I i ω * X i ω) (∑ i ∈ Finset.range (n ω), I i ω * X i ω) :=
      hasSum_sum_of_ne_finset_zero (s := Finset.range (n ω)) (fun i hi => by
      simp only [Finset.mem_range] at hi
      simp [hI, hi])
    rwa [Finset.sum_congr rfl fun i hi => (by simp [hI, Finset.mem_range.1 hi] : I i ω * X i ω = X i ω)] at this
  have hI0 : ∀ i ω, 0 ≤ I i ω := fun i ω => by simp only [hI]; split_ifs <;> norm_num
  have hS : HasSum (fun i => ∫ ω, I i ω ∂P) (∫ ω, (n ω : ℝ) ∂P) := by
    have hs : Summable fun i => ∫ ω, I i ω ∂P := by
      refine summable_of_sum_range_le (c := ∫ ω, (n ω : ℝ) ∂P) (fun i => integral_nonneg (hI0 i)) fun m => ?_
      rw [← integral_finsetSum _ fun i _ => hIi i]
      refine integral_mono (integrable_finsetSum _ fun i _ => hIi i) hi fun ω => ?_
      exact sum_le_hasSum _ (fun i _ => hI0 i ω) (hsumI ω)
    have := hasSum_integral_of_summable_integral_norm (F := I) (μ := P) hIi
      (hs.congr fun i => integral_congr_ae (ae_of_all _ fun ω => by
        simp only [Real.norm_eq_abs, abs_of_nonneg (hI0 i ω)]))
    simpa only [(hsumI _).tsum_eq] using this
  have hN : ∀ i, ∫ ω, ‖I i ω * X i ω‖ ∂P = (∫ ω, I i ω ∂P) * c' := by
    intro i
    have h1 : I i ⟂ᵢ[P] fun ω => ‖X i ω‖ := (hIind i).comp measurable_id measurable_norm
    rw [← hc' i, ← h1.integral_fun_mul_eq_mul_integral (hIi i).aestronglyMeasurable (hX i).norm.aestronglyMeasurable]
    refine integral_congr_ae (ae_of_all _ fun ω => ?_)
    simp only [norm_mul, Real.norm_eq_abs, abs_of_nonneg (hI0 i ω)]
  have hsum : Summable fun i => ∫ ω, ‖I i ω * X i ω‖ ∂P := by
    simp only [hN]
    exact hS.summable.mul_right _
  constructor
  · have hm : AEStronglyMeasurable (fun ω => ∑ i ∈ Finset.range (n ω), X i ω) P :=
      aestronglyMeasurable_of_tendsto_ae atTop
        (fun m => (integrable_finsetSum (Finset.range m) fun i _ => hFi i).aestronglyMeasurable)
        (ae_of_all _ fun ω => (hsumF ω).tendsto_sum_nat)
    refine ⟨hm, ?_⟩
    have h1 : ∀ ω, ‖∑ i ∈ Finset.range (n ω), X i ω‖ₑ ≤ ∑' i, ‖I i ω * X i ω‖ₑ := by
      intro ω
      rw [Finset.sum_congr rfl fun i hi => (by simp [hI, Finset.mem_range.1 hi] : X i ω = I i ω * X i ω)]
      exact (enorm_sum_le _ _).trans (ENNReal.sum_le_tsum _)
    refine lt_of_le_of_lt (lintegral_mono h1) ?_
    rw [lintegral_tsum fun i => (hFi i).aestronglyMeasurable.enorm]
    have h2 : ∀ i, ∫⁻ ω, ‖I i ω * X i ω‖ₑ ∂P = ENNReal.ofReal (∫ ω, ‖I i ω * X i ω‖ ∂P) := fun i =>
      (ofReal_integral_norm_eq_lintegral_enorm (hFi i)).symm
    simp only [h2]
    exact hsum.tsum_ofReal_lt_top
  · have h1 := hasSum_integral_of_summable_integral_norm (F := fun i ω => I i ω * X i ω) (μ := P) hFi hsum
    simp only [(hsumF _).tsum_eq] at h1
    have h2 : ∀ i, ∫ ω, I i ω * X i ω ∂P = (∫ ω, I i ω ∂P) * c := fun i => by
      rw [(hIind i).integral_fun_mul_eq_mul_integral (hIi i).aestronglyMeasurable (hX i).aestronglyMeasurable, hc]
    simp only [h2] at h1
    exact h1.unique (hS.mul_right c)

/-- The logarithm of the ratio of the likelihoods, event by event. -/
theorem difference_rate [SFinite ν] [SFinite η] (hs : Survey like Det) (h₀ : Population ν η like Det p₀)
    (h₁ : Population ν η like Det p₁) (hD : η Det ≠ 0) (hR₀ : 0 < R₀) (hR₁ : 0 < R₁) {n : ℕ} (data : Fin n → T)
    (hdata : ∀ i, data i ∈ Det) (Z : Fin n → ℝ) (hZ : ∀ i, 0 < Z i) :
    catalogueLnRate ν η like Det data Z p₁ R₁ - catalogueLnRate ν η like Det data Z p₀ R₀ =
      ∑ i, (gain ν η like Det p₀ p₁ (data i) + Real.log ((R₁ * detectedFraction ν η like Det p₁) /
        (R₀ * detectedFraction ν η like Det p₀))) -
      (R₁ * detectedFraction ν η like Det p₁ - R₀ * detectedFraction ν η like Det p₀) := by
  have f0 := fraction_pos hs h₀ hD
  have f1 := fraction_pos hs h₁ hD
  have h := difference hs h₀ h₁ hD data hdata Z hZ
  rw [Finset.sum_add_distrib, ← h, Finset.sum_const, Finset.card_univ, Fintype.card_fin, nsmul_eq_mul,
    Real.log_div (mul_pos hR₁ f1).ne' (mul_pos hR₀ f0).ne', Real.log_mul hR₁.ne' f1.ne',
    Real.log_mul hR₀.ne' f0.ne']
  unfold catalogueLnRate catalogueLnLikelihood
  ring

end TrueRate

open TrueRate

/-! ## The property -/

variable [SFinite ν] [SFinite η]

/-- **C144.** The mean over catalogues with a random number of events of the log-likelihood of a rate and a population
minus that of the true ones is not positive. It is negative if the data of detected events differ or if the mean number
of detected events differs. -/
theorem C144_average [IsProbabilityMeasure P] (hs : Survey like Det) (h₀ : Population ν η like Det p₀)
    (h₁ : Population ν η like Det p₁) (hc : Comparable ν η like Det p₀ p₁) {d : ℕ → Ω → T}
    (hd : DetectedEvents P ν η like Det p₀ d) (hR₀ : 0 < R₀) (hR₁ : 0 < R₁) {n : Ω → ℕ}
    (hn : DetectedNumber P ν η like Det p₀ R₀ d n) {Z : ℕ → Ω → ℝ} (hZ : ∀ i ω, 0 < Z i ω) :
    let excess : Ω → ℝ := fun ω =>
      catalogueLnRate ν η like Det (fun i : Fin (n ω) => d i ω) (fun i => Z i ω) p₁ R₁ -
        catalogueLnRate ν η like Det (fun i : Fin (n ω) => d i ω) (fun i => Z i ω) p₀ R₀
    Integrable excess P ∧ ∫ ω, excess ω ∂P ≤ 0 ∧
    (¬ SameData ν η like Det p₀ p₁ ∨
        R₁ * detectedFraction ν η like Det p₁ ≠ R₀ * detectedFraction ν η like Det p₀ →
      ∫ ω, excess ω ∂P < 0) := by
  intro excess
  have hD := detectable_of_events hd
  have f0 := fraction_pos hs h₀ hD
  have f1 := fraction_pos hs h₁ hD
  have hm := gain_measurable hs h₀ h₁
  set m0 := R₀ * detectedFraction ν η like Det p₀ with hm0
  set m1 := R₁ * detectedFraction ν η like Det p₁ with hm1
  have p0 : 0 < m0 := mul_pos hR₀ f0
  have p1 : 0 < m1 := mul_pos hR₁ f1
  set X : ℕ → Ω → ℝ := fun i ω => gain ν η like Det p₀ p₁ (d i ω) + Real.log (m1 / m0) with hX
  have e : (fun ω => ∑ i ∈ Finset.range (n ω), X i ω - (m1 - m0)) =ᵐ[P] excess := by
    filter_upwards [events_mem hs hd] with ω hω
    have := difference_rate hs h₀ h₁ hD hR₀ hR₁ (fun i : Fin (n ω) => d i ω) (fun i => hω i) (fun i => Z i ω)
      fun i => hZ i ω
    rw [Fin.sum_univ_eq_sum_range fun i => gain ν η like Det p₀ p₁ (d i ω) + Real.log (m1 / m0)] at this
    exact this.symm
  have hg := fun i => gain_mean hs h₀ h₁ hc hd i
  have hid : ∀ i, IdentDistrib (X i) (X 0) P P := by
    intro i
    have : IdentDistrib (d i) (d 0) P P :=
      ⟨(hd.measurable i).aemeasurable, (hd.measurable 0).aemeasurable, by rw [hd.law i, hd.law 0]⟩
    exact this.comp (hm.add_const _)
  have hXi : ∀ i, Integrable (X i) P := fun i => (hg i).1.add (integrable_const _)
  have hw := wald hn.measurable hn.integrable hXi (fun i => (hid i).integral_eq) (fun i => (hid i).norm.integral_eq)
    (fun i => (hn.indep i).comp measurable_id (hm.add_const _))
  have hX0 : ∫ ω, X 0 ω ∂P = (∫ ω, gain ν η like Det p₀ p₁ (d 0 ω) ∂P) + Real.log (m1 / m0) := by
    rw [hX, integral_add (hg 0).1 (integrable_const _)]
    simp
  have hval : ∫ ω, excess ω ∂P =
      m0 * (∫ ω, gain ν η like Det p₀ p₁ (d 0 ω) ∂P) - m0 * (m1 / m0 - 1 - Real.log (m1 / m0)) := by
    rw [← integral_congr_ae e, integral_sub hw.1 (integrable_const _), hw.2, hX0, hn.mean, ← hm0]
    simp
    field_simp
    ring
  have hq : 0 < m1 / m0 := div_pos p1 p0
  have hlog : 0 ≤ m0 * (m1 / m0 - 1 - Real.log (m1 / m0)) :=
    mul_nonneg p0.le (by linarith [Real.log_le_sub_one_of_pos hq])
  have hG : m0 * (∫ ω, gain ν η like Det p₀ p₁ (d 0 ω) ∂P) ≤ 0 :=
    mul_nonpos_of_nonneg_of_nonpos p0.le (hg 0).2.1
  refine ⟨(hw.1.sub (integrable_const _)).congr e, by rw [hval]; linarith, ?_⟩
  rintro (h | h)
  · have := mul_neg_of_pos_of_neg p0 ((hg 0).2.2 h)
    rw [hval]
    linarith
  · have hne : m1 / m0 ≠ 1 := fun h' => h ((div_eq_one_iff_eq p0.ne').1 h')
    have := mul_pos p0 (show 0 < m1 / m0 - 1 - Real.log (m1 / m0) by linarith [Real.log_lt_sub_one_of_pos hq hne])
    rw [hval]
    linarith

/-- With the package: the log-likelihood of `RateLikelihood` converges to the exact one as the numbers of samples and
injections grow. -/
theorem C144_limit {Ω' : Type} [MeasurableSpace Ω'] {P' : Measure Ω'} [IsProbabilityMeasure P']
    (hs : Survey like Det) (hp : Population ν η like Det p) (hD : η Det ≠ 0) {n : ℕ} {data : Fin n → T}
    (hdata : ∀ i, data i ∈ Det) {q : S → ℝ} {X : ℕ → Ω' → S × T} {vt : ℕ → Ω' → ResamplingVT}
    {prior : Fin n → S → ℝ} {Z : Fin n → ℝ} {Y : Fin n → ℕ → Ω' → S} {L : ℕ → ℕ → Ω' → Likelihood}
    {θ φ : Dict Fl} (hR : 0 < R) (h : RateAnalysis P' ν η like Det data q X vt prior Z Y L p R θ φ) :
    ∀ᵐ ω ∂P', ∃ l v : ℕ × ℕ → ℝ,
      (∀ᶠ KN in atTop ×ˢ atTop, (L KN.1 KN.2 ω).lnLikelihoodAndVariance θ =
        .ok (fin (l KN), fin (v KN))) ∧
      Tendsto l (atTop ×ˢ atTop) (𝓝 (catalogueLnRate ν η like Det data Z p R)) := by
  have hF := campaign_fraction hs hp
  have hpos := fraction_pos hs hp hD
  have hsel := C82_selection h.analysis.campaign h.analysis.indep h.analysis.finite (by rw [hF]; exact hpos)
    h.analysis.built h.analysis.mode
  rw [hF] at hsel
  filter_upwards [C142_limit hs hp hD hdata h.analysis, hsel] with ω ⟨l, v, e, t, _⟩ ⟨m, w, es, tm, _⟩
  have hm : ∀ᶠ N in atTop, 0 < m N := tm.eventually (lt_mem_nhds hpos)
  have key : ∀ᶠ KN in atTop ×ˢ atTop, ∃ v' : ℝ, (L KN.1 KN.2 ω).lnLikelihoodAndVariance θ = .ok
      (fin (l KN + n * Real.log (m KN.2) + n * Real.log R - R * m KN.2), fin v') := by
    filter_upwards [e, (es.and hm).prod_inr (atTop (α := ℕ))] with KN h1 ⟨⟨r, h2, h3⟩, h4⟩
    have hn : (L KN.1 KN.2 ω).nPosteriors = n := (h.analysis.likelihood KN.1 KN.2 ω).events
    have := rate_of_hyper (h.cls _ _ _) h1 (h.analysis.conversion KN.1 KN.2 ω)
      (by rw [← h2]; exact congrArg (fun s : SelectionFn => s.call φ) (h.analysis.selection KN.1 KN.2 ω)) h3 h4 hR h.rate
    rwa [hn] at this
  have hv : ∃ v' : ℕ × ℕ → ℝ, ∀ᶠ KN in atTop ×ˢ atTop, (L KN.1 KN.2 ω).lnLikelihoodAndVariance θ = .ok
      (fin (l KN + n * Real.log (m KN.2) + n * Real.log R - R * m KN.2), fin (v' KN)) := by
    refine ⟨fun KN => if h : ∃ v' : ℝ, (L KN.1 KN.2 ω).lnLikelihoodAndVariance θ = .ok
      (fin (l KN + n * Real.log (m KN.2) + n * Real.log R - R * m KN.2), fin v') then h.choose else 0, ?_⟩
    filter_upwards [key] with KN h
    rw [dif_pos h]
    exact h.choose_spec
  obtain ⟨v', hv'⟩ := hv
  refine ⟨_, v', hv', ?_⟩
  have tm' := tm.comp (tendsto_snd (f := atTop (α := ℕ)) (g := atTop (α := ℕ)))
  have tl := (Real.continuousAt_log hpos.ne').tendsto.comp tm'
  have := ((t.add (tl.const_mul (n : ℝ))).add_const (n * Real.log R)).sub (tm'.const_mul R)
  have e : catalogueLnRate ν η like Det data Z p R = catalogueLnLikelihood ν η like Det data Z p +
      n * Real.log (detectedFraction ν η like Det p) + n * Real.log R - R * detectedFraction ν η like Det p := by
    unfold catalogueLnRate catalogueLnLikelihood
    ring
  rw [e]
  exact this

/-- The log-likelihood of the true rate and population exceeds that of other ones by any number, from some exposure
on. -/
theorem excess_atTop [IsProbabilityMeasure P] (hs : Survey like Det) (h₀ : Population ν η like Det p₀)
    (h₁ : Population ν η like Det p₁) (hc : Comparable ν η like Det p₀ p₁) {d : ℕ → Ω → T}
    (hd : DetectedEvents P ν η like Det p₀ d) (hR₀ : 0 < R₀) (hR₁ : 0 < R₁) {t : ℕ → ℝ} (ht : Tendsto t atTop atTop)
    {n : ℕ → Ω → ℕ} (hn : ∀ᵐ ω ∂P, Tendsto (fun k => n k ω / t k) atTop (𝓝 (R₀ * detectedFraction ν η like Det p₀)))
    (hne : ¬ SameData ν η like Det p₀ p₁ ∨
      R₁ * detectedFraction ν η like Det p₁ ≠ R₀ * detectedFraction ν η like Det p₀) :
    ∀ᵐ ω ∂P, ∀ B : ℝ, ∀ᶠ k in atTop, ∀ Z : Fin (n k ω) → ℝ, (∀ i, 0 < Z i) →
      catalogueLnRate ν η like Det (fun i => d i ω) Z p₁ (R₁ * t k) + B <
        catalogueLnRate ν η like Det (fun i => d i ω) Z p₀ (R₀ * t k) := by
  have hD := detectable_of_events hd
  have f0 := fraction_pos hs h₀ hD
  have f1 := fraction_pos hs h₁ hD
  have hm := gain_measurable hs h₀ h₁
  set F0 := detectedFraction ν η like Det p₀ with hF0
  set F1 := detectedFraction ν η like Det p₁ with hF1
  set m0 := R₀ * F0 with hm0
  set m1 := R₁ * F1 with hm1
  have q0 : 0 < m0 := mul_pos hR₀ f0
  have q1 : 0 < m1 := mul_pos hR₁ f1
  have hq : 0 < m1 / m0 := div_pos q1 q0
  set X : ℕ → Ω → ℝ := fun i ω => gain ν η like Det p₀ p₁ (d i ω) + Real.log (m1 / m0) with hX
  have hid : ∀ i, IdentDistrib (X i) (X 0) P P := by
    intro i
    have : IdentDistrib (d i) (d 0) P P :=
      ⟨(hd.measurable i).aemeasurable, (hd.measurable 0).aemeasurable, by rw [hd.law i, hd.law 0]⟩
    exact this.comp (hm.add_const _)
  have hg := gain_mean hs h₀ h₁ hc hd 0
  have hX0 : ∫ ω, X 0 ω ∂P = (∫ ω, gain ν η like Det p₀ p₁ (d 0 ω) ∂P) + Real.log (m1 / m0) := by
    rw [hX, integral_add hg.1 (integrable_const _)]
    simp
  have l := strong_law_ae_real X (hg.1.add (integrable_const _))
    (fun i j hij => (hd.indep hij).comp (hm.add_const _) (hm.add_const _)) hid
  rw [hX0] at l
  set G := ∫ ω, gain ν η like Det p₀ p₁ (d 0 ω) ∂P with hG
  have hneg : m0 * (G + Real.log (m1 / m0)) - (m1 - m0) < 0 := by
    have e : m0 * (G + Real.log (m1 / m0)) - (m1 - m0) = m0 * G - m0 * (m1 / m0 - 1 - Real.log (m1 / m0)) := by
      field_simp
      ring
    rw [e]
    have a1 := mul_nonpos_of_nonneg_of_nonpos q0.le hg.2.1
    have a2 : 0 ≤ m0 * (m1 / m0 - 1 - Real.log (m1 / m0)) :=
      mul_nonneg q0.le (by linarith [Real.log_le_sub_one_of_pos hq])
    rcases hne with h | h
    · have := mul_neg_of_pos_of_neg q0 (hg.2.2 h)
      linarith
    · have hne : m1 / m0 ≠ 1 := fun h' => h ((div_eq_one_iff_eq q0.ne').1 h')
      have := mul_pos q0 (show 0 < m1 / m0 - 1 - Real.log (m1 / m0) by
        linarith [Real.log_lt_sub_one_of_pos hq hne])
      linarith
  filter_upwards [l, events_mem hs hd, hn] with ω k hmem hnω B
  have hninf : Tendsto (fun k => n k ω) atTop atTop := by
    have h1 : Tendsto (fun k => n k ω / t k * t k) atTop atTop := hnω.pos_mul_atTop q0 ht
    have h2 : Tendsto (fun k => (n k ω : ℝ)) atTop atTop := by
      refine h1.congr' ?_
      filter_upwards [ht.eventually_gt_atTop 0] with k hk
      exact div_mul_cancel₀ _ hk.ne'
    exact tendsto_natCast_atTop_iff.1 h2
  have h3 := (hnω.mul (k.comp hninf)).sub_const (m1 - m0)
  set D := m0 * (G + Real.log (m1 / m0)) - (m1 - m0) with hDef
  filter_upwards [h3.eventually (gt_mem_nhds (show D < D / 2 by linarith)), ht.eventually_gt_atTop 0,
    ht.eventually_gt_atTop (B / (-(D / 2))), hninf.eventually_ge_atTop 1] with j hj htj hBj hnj Z hZ
  have hdiff := difference_rate hs h₀ h₁ hD (mul_pos hR₀ htj) (mul_pos hR₁ htj) (fun i : Fin (n j ω) => d i ω)
    (fun i => hmem i) Z hZ
  have e1 : R₁ * t j * F1 / (R₀ * t j * F0) = m1 / m0 := by
    rw [hm0, hm1]
    field_simp
  have e2 : R₁ * t j * F1 - R₀ * t j * F0 = t j * (m1 - m0) := by
    rw [hm0, hm1]
    ring
  rw [← hF0, ← hF1, e1, e2,
    Fin.sum_univ_eq_sum_range fun i => gain ν η like Det p₀ p₁ (d i ω) + Real.log (m1 / m0)] at hdiff
  have hn0 : (n j ω : ℝ) ≠ 0 := by
    have : 0 < n j ω := hnj
    positivity
  have e3 : t j * ((n j ω : ℝ) / t j * ((∑ i ∈ Finset.range (n j ω), X i ω) / (n j ω : ℝ)) - (m1 - m0)) =
      ∑ i ∈ Finset.range (n j ω), X i ω - t j * (m1 - m0) := by
    field_simp
  have h4 := mul_lt_mul_of_pos_left hj htj
  simp only [Function.comp] at h4
  rw [e3] at h4
  have h5 : B < t j * (-(D / 2)) := (div_lt_iff₀ (by linarith)).1 hBj
  linarith

/-- **C144** for the exact likelihood: observations of exposures `t 0, t 1, ...` that grow without bound, the number of
detected events per exposure tending to its mean. Almost surely, from some exposure on, the true rate and population have
the larger likelihood, unless the other ones have the same data of detected events and the same mean number of them. -/
theorem C144_exact [IsProbabilityMeasure P] (hs : Survey like Det) (h₀ : Population ν η like Det p₀)
    (h₁ : Population ν η like Det p₁) (hc : Comparable ν η like Det p₀ p₁) {d : ℕ → Ω → T}
    (hd : DetectedEvents P ν η like Det p₀ d) (hR₀ : 0 < R₀) (hR₁ : 0 < R₁) {t : ℕ → ℝ} (ht : Tendsto t atTop atTop)
    {n : ℕ → Ω → ℕ} (hn : ∀ᵐ ω ∂P, Tendsto (fun k => n k ω / t k) atTop (𝓝 (R₀ * detectedFraction ν η like Det p₀)))
    (hne : ¬ SameData ν η like Det p₀ p₁ ∨
      R₁ * detectedFraction ν η like Det p₁ ≠ R₀ * detectedFraction ν η like Det p₀) :
    ∀ᵐ ω ∂P, ∀ᶠ k in atTop, ∀ Z : Fin (n k ω) → ℝ, (∀ i, 0 < Z i) →
      catalogueLnRate ν η like Det (fun i => d i ω) Z p₁ (R₁ * t k) <
        catalogueLnRate ν η like Det (fun i => d i ω) Z p₀ (R₀ * t k) := by
  filter_upwards [excess_atTop hs h₀ h₁ hc hd hR₀ hR₁ ht hn hne] with ω h
  filter_upwards [h 0] with k hk Z hZ
  simpa using hk Z hZ

/-- **C144.** The same with the package: from some exposure on, if the number of posterior samples and the number of
injections are large enough, `RateLikelihood` gives the parameters of the true rate and population the larger
log-likelihood. -/
theorem C144_true_rate [IsProbabilityMeasure P] (hs : Survey like Det) (h₀ : Population ν η like Det p₀)
    (h₁ : Population ν η like Det p₁) (hc : Comparable ν η like Det p₀ p₁) {d : ℕ → Ω → T}
    (hd : DetectedEvents P ν η like Det p₀ d) (hR₀ : 0 < R₀) (hR₁ : 0 < R₁) {t : ℕ → ℝ} (ht : Tendsto t atTop atTop)
    {n : ℕ → Ω → ℕ} (hn : ∀ᵐ ω ∂P, Tendsto (fun k => n k ω / t k) atTop (𝓝 (R₀ * detectedFraction ν η like Det p₀)))
    (hne : ¬ SameData ν η like Det p₀ p₁ ∨
      R₁ * detectedFraction ν η like Det p₁ ≠ R₀ * detectedFraction ν η like Det p₀) :
    ∀ᵐ ω ∂P, ∀ᶠ k in atTop, ∀ (Ω' : Type) (_ : MeasurableSpace Ω') (P' : Measure Ω')
      (_ : IsProbabilityMeasure P') (q : S → ℝ) (X : ℕ → Ω' → S × T) (vt : ℕ → Ω' → ResamplingVT)
      (prior : Fin (n k ω) → S → ℝ) (Z : Fin (n k ω) → ℝ) (Y : Fin (n k ω) → ℕ → Ω' → S)
      (L : ℕ → ℕ → Ω' → Likelihood) (θ₀ θ₁ φ₀ φ₁ : Dict Fl),
      RateAnalysis P' ν η like Det (fun i => d i ω) q X vt prior Z Y L p₀ (R₀ * t k) θ₀ φ₀ →
      RateAnalysis P' ν η like Det (fun i => d i ω) q X vt prior Z Y L p₁ (R₁ * t k) θ₁ φ₁ →
      ∀ᵐ ω' ∂P', ∀ᶠ KN in atTop ×ˢ atTop, ∃ l₀ v₀ l₁ v₁ : ℝ,
        (L KN.1 KN.2 ω').lnLikelihoodAndVariance θ₀ = .ok (fin l₀, fin v₀) ∧
        (L KN.1 KN.2 ω').lnLikelihoodAndVariance θ₁ = .ok (fin l₁, fin v₁) ∧ l₁ < l₀ := by
  have hD := detectable_of_events hd
  filter_upwards [C144_exact hs h₀ h₁ hc hd hR₀ hR₁ ht hn hne, events_mem hs hd] with ω hω hmem
  filter_upwards [hω, ht.eventually_gt_atTop 0] with k hk htk Ω' mΩ' P' hP' q X vt prior Z Y L θ₀ θ₁ φ₀ φ₁ a₀ a₁
  have hlt := hk Z fun i => (a₀.analysis.samples i).evidence_pos
  filter_upwards [C144_limit hs h₀ hD (fun i => hmem i) (mul_pos hR₀ htk) a₀,
    C144_limit hs h₁ hD (fun i => hmem i) (mul_pos hR₁ htk) a₁] with ω' ⟨l₀, v₀, e₀, t₀⟩ ⟨l₁, v₁, e₁, t₁⟩
  filter_upwards [e₀, e₁, t₁.eventually_lt t₀ hlt] with KN k₀ k₁ k
  exact ⟨_, _, _, _, k₀, k₁, k⟩

/-! ## The hypotheses hold for the test survey -/

namespace TrueRate

theorem poisson_mean (r : NNReal) : Integrable (fun k : ℕ => (k : ℝ)) (poissonMeasure r) ∧
    ∫ k : ℕ, (k : ℝ) ∂poissonMeasure r = r := by
  have h : HasSum (fun k : ℕ => Real.exp (-r) * (r : ℝ) ^ k / (k.factorial : ℝ) * (k : ℝ)) r := by
    refine (hasSum_nat_add_iff' 1).1 ?_
    have := (hasSum_one_poissonMeasure r).mul_left (r : ℝ)
    simp only [mul_one] at this
    simp only [Finset.range_one, Finset.sum_singleton, Nat.cast_zero, mul_zero, sub_zero]
    refine this.congr_fun ?_
    intro k
    rw [Nat.factorial_succ]
    have : (k.factorial : ℝ) ≠ 0 := by positivity
    push_cast
    field_simp
    ring
  have hi : Integrable (fun k : ℕ => (k : ℝ)) (poissonMeasure r) := by
    rw [integrable_poissonMeasure_iff]
    simpa using h.summable
  exact ⟨hi, by rw [integral_poissonMeasure]; simpa using h.tsum_eq⟩

/-- Observations of the test survey: the number of detected events is Poisson distributed in each unit of exposure. -/
theorem coin_observation {R : ℝ} (hR : 0 < R) : ∃ (Ω : Type) (_ : MeasurableSpace Ω) (P : Measure Ω)
    (_ : IsProbabilityMeasure P) (d : ℕ → Ω → Fin 3) (c : ℕ → Ω → ℕ),
    DetectedEvents P Measure.count Measure.count coinLike coinDet coinTrue d ∧
    (∀ k, DetectedNumber P Measure.count Measure.count coinLike coinDet coinTrue R d (c k)) ∧
    ∀ᵐ ω ∂P, Tendsto (fun k : ℕ => ((∑ j ∈ Finset.range k, c j ω : ℕ) : ℝ) / (k : ℝ)) atTop
      (𝓝 (R * detectedFraction Measure.count Measure.count coinLike coinDet coinTrue)) := by
  set F := detectedFraction Measure.count Measure.count coinLike coinDet coinTrue with hF
  have hF0 : 0 < F := by
    rw [hF, coin_fraction]
    norm_num [coinTrue]
  have hd := coin_data
  set r : NNReal := ⟨R * F, (mul_pos hR hF0).le⟩ with hr
  let μ : ℕ ⊕ ℕ → Measure (Fin 3 × ℕ) := fun i => match i with
    | .inl _ => coinData.prod (Measure.dirac 0)
    | .inr _ => (Measure.dirac 0).prod (poissonMeasure r)
  have hμ : ∀ i, IsProbabilityMeasure (μ i) := fun i => match i with
    | .inl _ => inferInstanceAs (IsProbabilityMeasure (coinData.prod _))
    | .inr _ => inferInstanceAs (IsProbabilityMeasure ((Measure.dirac 0).prod (poissonMeasure r)))
  obtain ⟨Ω, mΩ, P, W, hm, hl, hi, hP⟩ := exists_hasLaw_indepFun (fun _ => Fin 3 × ℕ) μ
  set d : ℕ → Ω → Fin 3 := fun i ω => (W (.inl i) ω).1 with hd'
  set c : ℕ → Ω → ℕ := fun i ω => (W (.inr i) ω).2 with hc'
  have ld : ∀ i, P.map (d i) = coinData := by
    intro i
    rw [show d i = Prod.fst ∘ W (.inl i) from rfl, ← Measure.map_map measurable_fst (hm _), (hl (.inl i)).map_eq]
    simp only [μ]
    rw [Measure.map_fst_prod]
    simp
  have lc : ∀ i, P.map (c i) = poissonMeasure r := by
    intro i
    rw [show c i = Prod.snd ∘ W (.inr i) from rfl, ← Measure.map_map measurable_snd (hm _), (hl (.inr i)).map_eq]
    simp only [μ]
    rw [Measure.map_snd_prod]
    simp
  have mc : ∀ i, Measurable (c i) := fun i => measurable_snd.comp (hm _)
  have hint : ∀ i, Integrable (fun ω => (c i ω : ℝ)) P := by
    intro i
    have := (poisson_mean r).1
    rw [← lc i] at this
    exact this.comp_measurable (mc i)
  have hmean : ∀ i, ∫ ω, (c i ω : ℝ) ∂P = R * F := by
    intro i
    have := (poisson_mean r).2
    rw [← lc i, integral_map (mc i).aemeasurable (measurable_of_countable _).aestronglyMeasurable] at this
    rw [this, hr]
    rfl
  refine ⟨Ω, mΩ, P, hP, d, c, ⟨fun i => measurable_fst.comp (hm _), ld, fun i j hij => ?_⟩,
    fun k => ⟨mc k, hint k, hmean k, fun i => ?_⟩, ?_⟩
  · exact (hi.indepFun (i := .inl i) (j := .inl j) fun h => hij (Sum.inl.inj h)).comp measurable_fst measurable_fst
  · exact (hi.indepFun (i := .inr k) (j := .inl i) fun h => by cases h).comp measurable_snd measurable_fst
  · have hcast : Measurable fun k : ℕ => (k : ℝ) := measurable_of_countable _
    have l := strong_law_ae_real (fun i ω => (c i ω : ℝ)) (hint 0)
      (fun i j hij => ((hi.indepFun (i := .inr i) (j := .inr j) fun h => hij (Sum.inr.inj h)).comp
        measurable_snd measurable_snd).comp hcast hcast)
      (fun i => IdentDistrib.comp ⟨(mc i).aemeasurable, (mc 0).aemeasurable, by rw [lc i, lc 0]⟩ hcast)
    rw [hmean 0] at l
    filter_upwards [l] with ω h
    simpa only [Nat.cast_sum] using h

end TrueRate

/-- A Poisson distributed number of events with the data of the test survey: the hypotheses of `C144_average`, and
those of `C144_exact` for the exposures 0, 1, 2, ... -/
example : ∃ (Ω : Type) (_ : MeasurableSpace Ω) (P : Measure Ω) (_ : IsProbabilityMeasure P) (d : ℕ → Ω → Fin 3)
    (c n : ℕ → Ω → ℕ) (t : ℕ → ℝ), Survey coinLike coinDet ∧
    Population Measure.count Measure.count coinLike coinDet coinTrue ∧
    Population Measure.count Measure.count coinLike coinDet coinOther ∧
    Comparable Measure.count Measure.count coinLike coinDet coinTrue coinOther ∧
    ¬ SameData Measure.count Measure.count coinLike coinDet coinTrue coinOther ∧
    DetectedEvents P Measure.count Measure.count coinLike coinDet coinTrue d ∧
    (∀ k, DetectedNumber P Measure.count Measure.count coinLike coinDet coinTrue 7 d (c k)) ∧
    Tendsto t atTop atTop ∧ ∀ᵐ ω ∂P, Tendsto (fun k => n k ω / t k) atTop
      (𝓝 (7 * detectedFraction Measure.count Measure.count coinLike coinDet coinTrue)) := by
  obtain ⟨Ω, mΩ, P, hP, d, c, h1, h2, h3⟩ := coin_observation (R := 7) (by norm_num)
  exact ⟨Ω, mΩ, P, hP, d, c, _, _, coin_survey, coin_population fun x => by norm_num [coinTrue],
    coin_population fun x => by unfold coinOther; split_ifs <;> norm_num, .of_finite, coin_differ, h1, h2,
    tendsto_natCast_atTop_atTop, h3⟩

/-- For any detected data an analysis with `RateLikelihood` exists, for two rates and populations at once. -/
example (planck15 : Cosmology) {n : ℕ} (data : Fin n → Fin 3) : ∃ (Ω' : Type) (_ : MeasurableSpace Ω')
    (P' : Measure Ω') (_ : IsProbabilityMeasure P') (X : ℕ → Ω' → Bool × Fin 3) (vt : ℕ → Ω' → ResamplingVT)
    (Z : Fin n → ℝ) (Y : Fin n → ℕ → Ω' → Bool) (L : ℕ → ℕ → Ω' → Likelihood),
    RateAnalysis P' Measure.count Measure.count coinLike coinDet data (fun _ => 1 / 2) X vt (fun _ _ => 1) Z Y L
      coinTrue 7 [("rate", fin 7)] [("rate", fin 7)] ∧
    RateAnalysis P' Measure.count Measure.count coinLike coinDet data (fun _ => 1 / 2) X vt (fun _ _ => 1) Z Y L
      coinOther 9 [("rate", fin 9)] [("rate", fin 9)] := by
  obtain ⟨Ω, mΩ, P, hP, X, vt, Z, Y, L, main⟩ := coin_analysis planck15 data
    fun φ => if φ = [("rate", fin 7)] then coinTrue else coinOther
  have e : (fun K N ω => { ({ L K N ω with cls := .rate } : Likelihood) with cls := .hyper }) = L := by
    funext K N ω
    have h := ((main []).likelihood K N ω).1
    cases hL : L K N ω
    rw [hL] at h
    simp_all
  refine ⟨Ω, mΩ, P, hP, X, vt, Z, Y, fun K N ω => { L K N ω with cls := .rate },
    ⟨fun _ _ _ => rfl, rfl, ?_⟩, ⟨fun _ _ _ => rfl, rfl, ?_⟩⟩
  · have := main [("rate", fin 7)]
    rw [if_pos rfl] at this
    rwa [e]
  · have := main [("rate", fin 9)]
    rw [if_neg (by simp)] at this
    rwa [e]

end GW
