import Verif.Props.Consistency
import Mathlib.MeasureTheory.Integral.Prod

/-!
# C142: with enough events the true population has a larger likelihood than any other
-/

noncomputable section

open MeasureTheory ProbabilityTheory Filter Topology Classical

namespace GW

open Fl Spec

variable {S T Ω : Type} [MeasurableSpace S] [MeasurableSpace T] [MeasurableSpace Ω]
variable {P : Measure Ω} {ν : Measure S} {η : Measure T} {like : T → S → ℝ} {Det : Set T}
variable {p p₀ p₁ : S → ℝ}

/-! ## Specification -/

/-- A survey: a source with parameters `x` gives data `d` with density `like d x`, and a source is detected
if its data are in `Det`. -/
structure Spec.Survey (like : T → S → ℝ) (Det : Set T) : Prop where
  measurable_like : Measurable fun z : S × T => like z.2 z.1
  like_nonneg : ∀ d x, 0 ≤ like d x
  measurable_Det : MeasurableSet Det

/-- The probability that a source with parameters `x` is detected. -/
def Spec.detectable (η : Measure T) (like : T → S → ℝ) (Det : Set T) (x : S) : ℝ := ∫ d in Det, like d x ∂η

/-- The fraction of the sources of a population that is detected. -/
def Spec.detectedFraction (ν : Measure S) (η : Measure T) (like : T → S → ℝ) (Det : Set T) (p : S → ℝ) : ℝ :=
  ∫ x, p x * detectable η like Det x ∂ν

/-- The density of the data of a source of a population. -/
def Spec.dataDensity (ν : Measure S) (like : T → S → ℝ) (p : S → ℝ) (d : T) : ℝ := ∫ x, like d x * p x ∂ν

/-- A population that may give any detectable data. It need not be normalised. -/
structure Spec.Population (ν : Measure S) (η : Measure T) (like : T → S → ℝ) (Det : Set T) (p : S → ℝ) :
    Prop where
  measurable : Measurable p
  integrable : Integrable (fun z : S × T => like z.2 z.1 * p z.1) (ν.prod (η.restrict Det))
  pos : ∀ d ∈ Det, 0 < dataDensity ν like p d

/-- The data of independent detected sources of a population. -/
structure Spec.DetectedEvents (P : Measure Ω) (ν : Measure S) (η : Measure T) (like : T → S → ℝ) (Det : Set T)
    (p : S → ℝ) (d : ℕ → Ω → T) : Prop where
  measurable : ∀ i, Measurable (d i)
  law : ∀ i, P.map (d i) = (η.restrict Det).withDensity fun t =>
    ENNReal.ofReal (dataDensity ν like p t / detectedFraction ν η like Det p)
  indep : Pairwise fun i j => d i ⟂ᵢ[P] d j

/-- The two populations cannot be told apart by the data of detected sources. -/
def Spec.SameData (ν : Measure S) (η : Measure T) (like : T → S → ℝ) (Det : Set T) (p₀ p₁ : S → ℝ) : Prop :=
  ∀ᵐ d ∂η.restrict Det, dataDensity ν like p₁ d / detectedFraction ν η like Det p₁ =
    dataDensity ν like p₀ d / detectedFraction ν η like Det p₀

/-- The populations are not infinitely different. -/
def Spec.Comparable (ν : Measure S) (η : Measure T) (like : T → S → ℝ) (Det : Set T) (p₀ p₁ : S → ℝ) : Prop :=
  Integrable (fun d => dataDensity ν like p₀ d * Real.log (dataDensity ν like p₁ d / dataDensity ν like p₀ d))
    (η.restrict Det)

/-- The exact log-likelihood of a population given the data of `n` detected events with evidences `Z`. -/
def Spec.catalogueLnLikelihood (ν : Measure S) (η : Measure T) (like : T → S → ℝ) (Det : Set T) {n : ℕ}
    (data : Fin n → T) (Z : Fin n → ℝ) (p : S → ℝ) : ℝ :=
  ∑ i, Real.log (dataDensity ν like p (data i) / Z i) - n * Real.log (detectedFraction ν η like Det p)

/-- Sources together with their data. -/
def Spec.joint (ν : Measure S) (η : Measure T) (like : T → S → ℝ) : Measure (S × T) :=
  (ν.prod η).withDensity fun z => ENNReal.ofReal (like z.2 z.1)

/-- An analysis of the events with data `data` with the package, for the parameters `θ` which describe the
population `p`. The injections `X 0, X 1, ...` have a density `q`, their data are those of a source with their
parameters, and they are found as sources are. The samples `Y i 0, Y i 1, ...` are drawn from the posterior
of event `i`. -/
structure Spec.Analysis {n : ℕ} (P : Measure Ω) (ν : Measure S) (η : Measure T) (like : T → S → ℝ) (Det : Set T)
    (data : Fin n → T) (q : S → ℝ) (X : ℕ → Ω → S × T) (vt : ℕ → Ω → ResamplingVT) (prior : Fin n → S → ℝ)
    (Z : Fin n → ℝ) (Y : Fin n → ℕ → Ω → S) (L : ℕ → ℕ → Ω → Likelihood) (p : S → ℝ) (θ φ : Dict Fl) :
    Prop where
  campaign : Campaign P (joint ν η like) (fun z => p z.1) (fun z => q z.1) (Set.univ ×ˢ Det) X
  indep : Pairwise fun i j => X i ⟂ᵢ[P] X j
  finite : IntegrableOn (fun z => p z.1 ^ 2 / q z.1) (Set.univ ×ˢ Det) (joint ν η like)
  built : ∀ N ≥ 1, ∀ ω, BuiltFrom (vt N ω) φ (fun z => p z.1) (fun z => q z.1) (Set.univ ×ˢ Det)
    (firstN X N ω)
  mode : Mode vt ((∫ z in Set.univ ×ˢ Det, p z.1 ^ 2 / q z.1 ∂joint ν η like) -
    (∫ z in Set.univ ×ˢ Det, p z.1 ∂joint ν η like) ^ 2)
  samples : ∀ i, EventSamples P ν p (prior i) (like (data i)) (Z i) (Y i)
  likelihood : ∀ K N ω, LikelihoodOf (L K N ω) φ p prior Y K ω
  conversion : ∀ K N ω, (L K N ω).conversion θ = .ok φ
  selection : ∀ K N ω, (L K N ω).selection = (vt N ω).asSelection

/-! ## Lemmas -/

namespace TruePopulation

theorem measurable_density [SFinite ν] (hs : Survey like Det) (hp : Measurable p) :
    Measurable (dataDensity ν like p) := by
  have h : Measurable fun z : S × T => like z.2 z.1 * p z.1 := hs.measurable_like.mul (hp.comp measurable_fst)
  exact (h.stronglyMeasurable.integral_prod_left').measurable

theorem fraction_eq [SFinite ν] [SFinite η] (hp : Population ν η like Det p) :
    detectedFraction ν η like Det p = ∫ d in Det, dataDensity ν like p d ∂η := by
  unfold detectedFraction dataDensity detectable
  rw [← integral_integral_swap (f := fun x d => like d x * p x) hp.integrable]
  refine integral_congr_ae (ae_of_all _ fun x => ?_)
  simp only
  rw [integral_mul_const, mul_comm]

theorem integrable_density [SFinite ν] [SFinite η] (hp : Population ν η like Det p) :
    IntegrableOn (dataDensity ν like p) Det η :=
  hp.integrable.integral_prod_right

theorem fraction_pos [SFinite ν] [SFinite η] (hs : Survey like Det) (hp : Population ν η like Det p)
    (h : η Det ≠ 0) : 0 < detectedFraction ν η like Det p := by
  rw [fraction_eq hp, setIntegral_pos_iff_support_of_nonneg_ae]
  · refine lt_of_lt_of_le (pos_iff_ne_zero.2 h) (measure_mono fun d hd => ⟨(hp.pos d hd).ne', hd⟩)
  · exact (ae_restrict_iff' hs.measurable_Det).2 (ae_of_all _ fun d hd => (hp.pos d hd).le)
  · exact integrable_density hp

theorem campaign_fraction [SFinite ν] [SFinite η] (hs : Survey like Det) (hp : Population ν η like Det p) :
    ∫ z in Set.univ ×ˢ Det, p z.1 ∂joint ν η like = detectedFraction ν η like Det p := by
  rw [fraction_eq hp, joint, restrict_withDensity (MeasurableSet.univ.prod hs.measurable_Det),
    ← Measure.prod_restrict, Measure.restrict_univ,
    integral_withDensity_eq_integral_toReal_smul hs.measurable_like.ennreal_ofReal
      (ae_of_all _ fun _ => ENNReal.ofReal_lt_top)]
  simp only [ENNReal.toReal_ofReal (hs.like_nonneg _ _), smul_eq_mul]
  rw [integral_prod_symm _ hp.integrable]
  rfl

/-- Gibbs' inequality. -/
theorem gibbs {μ : Measure T} {f g : T → ℝ} (hf : Integrable f μ) (hg : Integrable g μ)
    (hfp : ∀ᵐ d ∂μ, 0 < f d) (hgp : ∀ᵐ d ∂μ, 0 < g d) (h1 : ∫ d, f d ∂μ = ∫ d, g d ∂μ)
    (hi : Integrable (fun d => f d * Real.log (g d / f d)) μ) :
    ∫ d, f d * Real.log (g d / f d) ∂μ ≤ 0 ∧
    (¬ (∀ᵐ d ∂μ, g d = f d) → ∫ d, f d * Real.log (g d / f d) ∂μ < 0) := by
  have key : ∀ a b : ℝ, 0 < a → 0 < b → 0 ≤ b - a - a * Real.log (b / a) ∧
      (b - a - a * Real.log (b / a) = 0 → b = a) := by
    intro a b ha hb
    have hq : 0 < b / a := div_pos hb ha
    have e : b - a - a * Real.log (b / a) = a * (b / a - 1 - Real.log (b / a)) := by
      field_simp
    constructor
    · rw [e]
      have := Real.log_le_sub_one_of_pos hq
      exact mul_nonneg ha.le (by linarith)
    · intro h0
      by_contra hne
      have hne' : b / a ≠ 1 := fun h => hne ((div_eq_one_iff_eq ha.ne').1 h)
      have := Real.log_lt_sub_one_of_pos hq hne'
      rw [e] at h0
      have := mul_pos ha (show 0 < b / a - 1 - Real.log (b / a) by linarith)
      linarith
  have hG : Integrable (fun d => g d - f d - f d * Real.log (g d / f d)) μ := (hg.sub hf).sub hi
  have hnn : 0 ≤ᵐ[μ] fun d => g d - f d - f d * Real.log (g d / f d) := by
    filter_upwards [hfp, hgp] with d h h'
    exact (key _ _ h h').1
  have e : ∫ d, (g d - f d - f d * Real.log (g d / f d)) ∂μ = -∫ d, f d * Real.log (g d / f d) ∂μ := by
    have a : ∫ d, (g d - f d) ∂μ = 0 := by rw [integral_sub hg hf, h1, sub_self]
    have hgf : Integrable (fun d => g d - f d) μ := hg.sub hf
    rw [integral_sub hgf hi, a, zero_sub]
  have h0 := integral_nonneg_of_ae hnn
  rw [e] at h0
  refine ⟨by linarith, fun hne => lt_of_le_of_ne (by linarith) fun hz => hne ?_⟩
  rw [hz, neg_zero] at e
  have := (integral_eq_zero_iff_of_nonneg_ae hnn hG).1 e
  filter_upwards [this, hfp, hgp] with d hd h h'
  exact (key _ _ h h').2 hd

section

variable [SFinite ν] [SFinite η]

/-- The logarithm of the ratio of the densities of the data of a detected event. -/
def gain (ν : Measure S) (η : Measure T) (like : T → S → ℝ) (Det : Set T) (p₀ p₁ : S → ℝ) (d : T) : ℝ :=
  Real.log ((dataDensity ν like p₁ d / detectedFraction ν η like Det p₁) /
    (dataDensity ν like p₀ d / detectedFraction ν η like Det p₀))

omit [SFinite ν] [SFinite η] in
theorem detectable_of_events [IsProbabilityMeasure P] {d : ℕ → Ω → T}
    (h : DetectedEvents P ν η like Det p d) : η Det ≠ 0 := by
  intro h0
  have : P.map (d 0) = 0 := by
    rw [h.law 0, Measure.restrict_eq_zero.2 h0]
    simp
  have hp : IsProbabilityMeasure (P.map (d 0)) := Measure.isProbabilityMeasure_map (h.measurable 0).aemeasurable
  have h1 := hp.measure_univ
  rw [this] at h1
  exact zero_ne_one h1

omit [SFinite ν] [SFinite η] in
theorem events_mem (hs : Survey like Det) {d : ℕ → Ω → T} (h : DetectedEvents P ν η like Det p d) :
    ∀ᵐ ω ∂P, ∀ i, d i ω ∈ Det := by
  refine ae_all_iff.2 fun i => ?_
  have hm : MeasurableSet {t | t ∈ Det} := hs.measurable_Det
  rw [← ae_map_iff (p := fun t => t ∈ Det) (h.measurable i).aemeasurable hm, h.law i]
  exact (withDensity_absolutelyContinuous _ _).ae_le (ae_restrict_mem hs.measurable_Det)

theorem difference (hs : Survey like Det) (h₀ : Population ν η like Det p₀) (h₁ : Population ν η like Det p₁)
    (hD : η Det ≠ 0) {n : ℕ} (data : Fin n → T) (hdata : ∀ i, data i ∈ Det) (Z : Fin n → ℝ)
    (hZ : ∀ i, 0 < Z i) :
    catalogueLnLikelihood ν η like Det data Z p₁ - catalogueLnLikelihood ν η like Det data Z p₀ =
      ∑ i, gain ν η like Det p₀ p₁ (data i) := by
  have f0 := fraction_pos hs h₀ hD
  have f1 := fraction_pos hs h₁ hD
  have hg : ∀ i, gain ν η like Det p₀ p₁ (data i) =
      (Real.log (dataDensity ν like p₁ (data i) / Z i) - Real.log (detectedFraction ν η like Det p₁)) -
      (Real.log (dataDensity ν like p₀ (data i) / Z i) - Real.log (detectedFraction ν η like Det p₀)) := by
    intro i
    have a0 := h₀.pos _ (hdata i)
    have a1 := h₁.pos _ (hdata i)
    unfold gain
    rw [Real.log_div (by positivity) (by positivity), Real.log_div a1.ne' f1.ne', Real.log_div a0.ne' f0.ne',
      Real.log_div a1.ne' (hZ i).ne', Real.log_div a0.ne' (hZ i).ne']
    ring
  unfold catalogueLnLikelihood
  simp only [hg, Finset.sum_sub_distrib, Finset.sum_const, Finset.card_univ, Fintype.card_fin, nsmul_eq_mul]

omit [SFinite η] in
theorem gain_measurable (hs : Survey like Det) (h₀ : Population ν η like Det p₀)
    (h₁ : Population ν η like Det p₁) : Measurable (gain ν η like Det p₀ p₁) :=
  Real.measurable_log.comp (((measurable_density hs h₁.measurable).div_const _).div
    ((measurable_density hs h₀.measurable).div_const _))

/-- The expected gain of an event is negative. -/
theorem gain_mean [IsProbabilityMeasure P] (hs : Survey like Det) (h₀ : Population ν η like Det p₀)
    (h₁ : Population ν η like Det p₁) (hc : Comparable ν η like Det p₀ p₁) {d : ℕ → Ω → T}
    (hd : DetectedEvents P ν η like Det p₀ d) (i : ℕ) :
    Integrable (fun ω => gain ν η like Det p₀ p₁ (d i ω)) P ∧
    ∫ ω, gain ν η like Det p₀ p₁ (d i ω) ∂P ≤ 0 ∧
    (¬ SameData ν η like Det p₀ p₁ → ∫ ω, gain ν η like Det p₀ p₁ (d i ω) ∂P < 0) := by
  have hD := detectable_of_events hd
  have f0 := fraction_pos hs h₀ hD
  have f1 := fraction_pos hs h₁ hD
  set F0 := detectedFraction ν η like Det p₀ with hF0
  set F1 := detectedFraction ν η like Det p₁ with hF1
  have hm := gain_measurable hs h₀ h₁
  have hdm : Measurable fun t => ENNReal.ofReal (dataDensity ν like p₀ t / F0) :=
    ((measurable_density hs h₀.measurable).div_const _).ennreal_ofReal
  have hlt : ∀ᵐ t ∂η.restrict Det, ENNReal.ofReal (dataDensity ν like p₀ t / F0) < ⊤ :=
    ae_of_all _ fun _ => ENNReal.ofReal_lt_top
  have hp0 : ∀ᵐ t ∂η.restrict Det, 0 < dataDensity ν like p₀ t :=
    (ae_restrict_iff' hs.measurable_Det).2 (ae_of_all _ h₀.pos)
  have hp1 : ∀ᵐ t ∂η.restrict Det, 0 < dataDensity ν like p₁ t :=
    (ae_restrict_iff' hs.measurable_Det).2 (ae_of_all _ h₁.pos)
  have i0 : Integrable (fun t => dataDensity ν like p₀ t / F0) (η.restrict Det) :=
    (integrable_density h₀).div_const _
  have i1 : Integrable (fun t => dataDensity ν like p₁ t / F1) (η.restrict Det) :=
    (integrable_density h₁).div_const _
  have e0 : ∫ t in Det, dataDensity ν like p₀ t / F0 ∂η = 1 := by
    rw [integral_div, ← fraction_eq h₀, ← hF0, div_self f0.ne']
  have e1 : ∫ t in Det, dataDensity ν like p₁ t / F1 ∂η = 1 := by
    rw [integral_div, ← fraction_eq h₁, ← hF1, div_self f1.ne']
  have hsm : ∀ᵐ t ∂η.restrict Det, (ENNReal.ofReal (dataDensity ν like p₀ t / F0)).toReal •
      gain ν η like Det p₀ p₁ t = dataDensity ν like p₀ t / F0 * Real.log
        ((dataDensity ν like p₁ t / F1) / (dataDensity ν like p₀ t / F0)) := by
    filter_upwards [hp0] with t ht
    rw [ENNReal.toReal_ofReal (by positivity), smul_eq_mul]
    rfl
  have hii : Integrable (fun t => dataDensity ν like p₀ t / F0 * Real.log
        ((dataDensity ν like p₁ t / F1) / (dataDensity ν like p₀ t / F0))) (η.restrict Det) := by
    have : Integrable (fun t => (1 / F0) * (dataDensity ν like p₀ t *
        Real.log (dataDensity ν like p₁ t / dataDensity ν like p₀ t)) +
        (Real.log F0 - Real.log F1) * (dataDensity ν like p₀ t / F0)) (η.restrict Det) :=
      (hc.const_mul _).add (i0.const_mul _)
    refine this.congr ?_
    filter_upwards [hp0, hp1] with t h0 h1
    rw [Real.log_div (div_pos h1 f1).ne' (div_pos h0 f0).ne', Real.log_div h1.ne' f1.ne',
      Real.log_div h0.ne' f0.ne', Real.log_div h1.ne' h0.ne']
    ring
  have hint : Integrable (gain ν η like Det p₀ p₁) (P.map (d i)) := by
    rw [hd.law i, integrable_withDensity_iff_integrable_smul' hdm hlt]
    exact hii.congr (hsm.mono fun t h => h.symm)
  have hval : ∫ ω, gain ν η like Det p₀ p₁ (d i ω) ∂P = ∫ t in Det, dataDensity ν like p₀ t / F0 * Real.log
        ((dataDensity ν like p₁ t / F1) / (dataDensity ν like p₀ t / F0)) ∂η := by
    rw [← integral_map (hd.measurable i).aemeasurable hm.aestronglyMeasurable, hd.law i,
      integral_withDensity_eq_integral_toReal_smul hdm hlt]
    exact integral_congr_ae hsm
  have hG := gibbs i0 i1 (hp0.mono fun t h => div_pos h f0) (hp1.mono fun t h => div_pos h f1)
    (by rw [e0, e1]) hii
  refine ⟨hint.comp_measurable (hd.measurable i), ?_, ?_⟩
  · rw [hval]; exact hG.1
  · rw [hval]; exact hG.2

end

end TruePopulation

open TruePopulation

/-! ## The property -/

variable [SFinite ν] [SFinite η]

/-- **C142** on average: for catalogues of any size, the mean of the log-likelihood of a population minus that
of the true population is not positive, and negative if their detected data differ. -/
theorem C142_average [IsProbabilityMeasure P] (hs : Survey like Det) (h₀ : Population ν η like Det p₀)
    (h₁ : Population ν η like Det p₁) (hc : Comparable ν η like Det p₀ p₁) {d : ℕ → Ω → T}
    (hd : DetectedEvents P ν η like Det p₀ d) {n : ℕ} {Z : Fin n → Ω → ℝ} (hZ : ∀ i ω, 0 < Z i ω) :
    Integrable (fun ω =>
      catalogueLnLikelihood ν η like Det (fun i => d i ω) (fun i => Z i ω) p₁ -
        catalogueLnLikelihood ν η like Det (fun i => d i ω) (fun i => Z i ω) p₀) P ∧
    ∫ ω, (catalogueLnLikelihood ν η like Det (fun i => d i ω) (fun i => Z i ω) p₁ -
      catalogueLnLikelihood ν η like Det (fun i => d i ω) (fun i => Z i ω) p₀) ∂P ≤ 0 ∧
    (¬ SameData ν η like Det p₀ p₁ → 1 ≤ n →
      ∫ ω, (catalogueLnLikelihood ν η like Det (fun i => d i ω) (fun i => Z i ω) p₁ -
        catalogueLnLikelihood ν η like Det (fun i => d i ω) (fun i => Z i ω) p₀) ∂P < 0) := by
  have hD := detectable_of_events hd
  have e : (fun ω => ∑ i : Fin n, gain ν η like Det p₀ p₁ (d i ω)) =ᵐ[P] fun ω =>
      catalogueLnLikelihood ν η like Det (fun i => d i ω) (fun i => Z i ω) p₁ -
      catalogueLnLikelihood ν η like Det (fun i => d i ω) (fun i => Z i ω) p₀ := by
    filter_upwards [events_mem hs hd] with ω hω
    exact (difference hs h₀ h₁ hD _ (fun i => hω i) _ fun i => hZ i ω).symm
  have hg := fun i : Fin n => gain_mean hs h₀ h₁ hc hd i
  rw [← integral_congr_ae e, integral_finsetSum _ fun i _ => (hg i).1]
  refine ⟨(integrable_finsetSum _ fun i _ => (hg i).1).congr e, Finset.sum_nonpos fun i _ => (hg i).2.1,
    fun hne hn => ?_⟩
  exact Finset.sum_neg (fun i _ => (hg i).2.2 hne) ⟨⟨0, hn⟩, Finset.mem_univ _⟩

/-- **C142** for the exact likelihood: almost surely, from some number of detected events on, the true population
has the larger likelihood. -/
theorem C142_exact [IsProbabilityMeasure P] (hs : Survey like Det) (h₀ : Population ν η like Det p₀)
    (h₁ : Population ν η like Det p₁) (hc : Comparable ν η like Det p₀ p₁)
    (hne : ¬ SameData ν η like Det p₀ p₁) {d : ℕ → Ω → T} (hd : DetectedEvents P ν η like Det p₀ d) :
    ∀ᵐ ω ∂P, ∃ n₀, ∀ n ≥ n₀, ∀ Z : Fin n → ℝ, (∀ i, 0 < Z i) →
      catalogueLnLikelihood ν η like Det (fun i => d i ω) Z p₁ <
        catalogueLnLikelihood ν η like Det (fun i => d i ω) Z p₀ := by
  have hD := detectable_of_events hd
  have hm := gain_measurable hs h₀ h₁
  have hid : ∀ i, IdentDistrib (fun ω => gain ν η like Det p₀ p₁ (d i ω))
      (fun ω => gain ν η like Det p₀ p₁ (d 0 ω)) P P := by
    intro i
    have : IdentDistrib (d i) (d 0) P P :=
      ⟨(hd.measurable i).aemeasurable, (hd.measurable 0).aemeasurable, by rw [hd.law i, hd.law 0]⟩
    exact this.comp hm
  have hg := gain_mean hs h₀ h₁ hc hd 0
  have l := strong_law_ae_real (fun i ω => gain ν η like Det p₀ p₁ (d i ω)) hg.1
    (fun i j hij => (hd.indep hij).comp hm hm) hid
  filter_upwards [l, events_mem hs hd] with ω k hmem
  obtain ⟨n₀, hn₀⟩ := eventually_atTop.1 (k.eventually (gt_mem_nhds (hg.2.2 hne)))
  refine ⟨max n₀ 1, fun n hn Z hZ => ?_⟩
  have h1 := hn₀ n (le_trans (le_max_left _ _) hn)
  have hn1 : (0 : ℝ) < n := by
    have : 1 ≤ n := le_trans (le_max_right _ _) hn
    exact_mod_cast this
  have h2 : ∑ i ∈ Finset.range n, gain ν η like Det p₀ p₁ (d i ω) < 0 := by
    by_contra h
    exact absurd h1 (not_lt.2 (div_nonneg (not_lt.1 h) hn1.le))
  have h3 := difference hs h₀ h₁ hD (fun i : Fin n => d i ω) (fun i => hmem i) Z hZ
  rw [Fin.sum_univ_eq_sum_range fun i => gain ν η like Det p₀ p₁ (d i ω)] at h3
  linarith

/-- With the package: the log-likelihood converges to the exact one. -/
theorem C142_limit {Ω' : Type} [MeasurableSpace Ω'] {P' : Measure Ω'} [IsProbabilityMeasure P']
    (hs : Survey like Det) (hp : Population ν η like Det p) (hD : η Det ≠ 0) {n : ℕ} {data : Fin n → T}
    (hdata : ∀ i, data i ∈ Det) {q : S → ℝ} {X : ℕ → Ω' → S × T} {vt : ℕ → Ω' → ResamplingVT}
    {prior : Fin n → S → ℝ} {Z : Fin n → ℝ} {Y : Fin n → ℕ → Ω' → S} {L : ℕ → ℕ → Ω' → Likelihood}
    {θ φ : Dict Fl} (h : Analysis P' ν η like Det data q X vt prior Z Y L p θ φ) :
    ∀ᵐ ω ∂P', ∃ l v : ℕ × ℕ → ℝ,
      (∀ᶠ KN in atTop ×ˢ atTop, (L KN.1 KN.2 ω).lnLikelihoodAndVariance θ =
        .ok (fin (l KN), fin (v KN))) ∧
      Tendsto l (atTop ×ˢ atTop) (𝓝 (catalogueLnLikelihood ν η like Det data Z p)) ∧
      Tendsto v (atTop ×ˢ atTop) (𝓝 0) := by
  have hF := campaign_fraction hs hp
  have hpos := fraction_pos hs hp hD
  have hsel := C82_selection h.campaign h.indep h.finite (by rw [hF]; exact hpos) h.built h.mode
  rw [hF] at hsel
  exact likelihood_converges (sel := fun N ω => (vt N ω).asSelection) hpos hsel h.samples
    (fun i => hp.pos _ (hdata i)) h.likelihood h.conversion h.selection

/-- **C142.** Events are detected from the population with parameters `θ₀`, and `θ₁` are the parameters of a
population whose detected data differ. Almost surely there is a number of events from which on, if the number of
posterior samples and the number of injections are large enough, the package gives `θ₀` a larger log-likelihood than
`θ₁`. -/
theorem C142_true_population [IsProbabilityMeasure P] (hs : Survey like Det)
    (h₀ : Population ν η like Det p₀) (h₁ : Population ν η like Det p₁)
    (hc : Comparable ν η like Det p₀ p₁) (hne : ¬ SameData ν η like Det p₀ p₁) {d : ℕ → Ω → T}
    (hd : DetectedEvents P ν η like Det p₀ d) :
    ∀ᵐ ω ∂P, ∃ n₀, ∀ n ≥ n₀, ∀ (Ω' : Type) (_ : MeasurableSpace Ω') (P' : Measure Ω')
      (_ : IsProbabilityMeasure P') (q : S → ℝ) (X : ℕ → Ω' → S × T) (vt : ℕ → Ω' → ResamplingVT)
      (prior : Fin n → S → ℝ) (Z : Fin n → ℝ) (Y : Fin n → ℕ → Ω' → S) (L : ℕ → ℕ → Ω' → Likelihood)
      (θ₀ θ₁ φ₀ φ₁ : Dict Fl),
      Analysis P' ν η like Det (fun i => d i ω) q X vt prior Z Y L p₀ θ₀ φ₀ →
      Analysis P' ν η like Det (fun i => d i ω) q X vt prior Z Y L p₁ θ₁ φ₁ →
      ∀ᵐ ω' ∂P', ∀ᶠ KN in atTop ×ˢ atTop, ∃ l₀ v₀ l₁ v₁ : ℝ,
        (L KN.1 KN.2 ω').lnLikelihoodAndVariance θ₀ = .ok (fin l₀, fin v₀) ∧
        (L KN.1 KN.2 ω').lnLikelihoodAndVariance θ₁ = .ok (fin l₁, fin v₁) ∧ l₁ < l₀ := by
  have hD := detectable_of_events hd
  filter_upwards [C142_exact hs h₀ h₁ hc hne hd, events_mem hs hd] with ω ⟨n₀, hn₀⟩ hmem
  refine ⟨n₀, fun n hn Ω' mΩ' P' hP' q X vt prior Z Y L θ₀ θ₁ φ₀ φ₁ a₀ a₁ => ?_⟩
  have hlt := hn₀ n hn Z fun i => (a₀.samples i).evidence_pos
  filter_upwards [C142_limit hs h₀ hD (fun i => hmem i) a₀,
    C142_limit hs h₁ hD (fun i => hmem i) a₁] with ω' ⟨l₀, v₀, e₀, t₀, _⟩ ⟨l₁, v₁, e₁, t₁, _⟩
  filter_upwards [e₀, e₁, t₁.eventually_lt t₀ hlt] with KN k₀ k₁ k
  exact ⟨_, _, _, _, k₀, k₁, k⟩

/-! ## Non-vacuity -/

namespace TruePopulation

/-- Test survey: two kinds of sources; the data are `0` (not detected) or a noisy statement of the kind. -/
def coinLike (d : Fin 3) (x : Bool) : ℝ :=
  if d = 0 then (if x then 1 / 4 else 1 / 2) else if d = 1 then (if x then 1 / 2 else 1 / 4) else 1 / 4

def coinDet : Set (Fin 3) := {1, 2}

def coinTrue : Bool → ℝ := fun _ => 1 / 2

def coinOther : Bool → ℝ := fun x => if x then 3 / 4 else 1 / 4

theorem coin_like_pos (d : Fin 3) (x : Bool) : 0 < coinLike d x := by
  unfold coinLike
  split_ifs <;> norm_num

theorem coin_two (x : Bool) : coinLike 2 x = 1 / 4 := by
  unfold coinLike
  rw [if_neg (by decide), if_neg (by decide)]

theorem coin_survey : Survey coinLike coinDet :=
  ⟨measurable_of_finite _, fun d x => (coin_like_pos d x).le, (Set.toFinite _).measurableSet⟩

theorem coin_density (p : Bool → ℝ) (d : Fin 3) :
    dataDensity Measure.count coinLike p d = coinLike d true * p true + coinLike d false * p false := by
  unfold dataDensity
  rw [integral_count]
  simp

theorem coin_integral (f : Fin 3 → ℝ) : ∫ d in coinDet, f d ∂Measure.count = f 1 + f 2 := by
  rw [← integral_indicator (Set.toFinite _).measurableSet, integral_count, Fin.sum_univ_three]
  simp [coinDet, Set.indicator]

theorem coin_fraction (p : Bool → ℝ) :
    detectedFraction Measure.count Measure.count coinLike coinDet p = p true * (3 / 4) + p false * (1 / 2) := by
  unfold detectedFraction detectable
  rw [integral_count]
  simp only [coin_integral]
  simp [coinLike]
  ring

theorem coin_population {p : Bool → ℝ} (hp : ∀ x, 0 < p x) :
    Population Measure.count Measure.count coinLike coinDet p := by
  refine ⟨measurable_of_finite _, .of_finite, fun d _ => ?_⟩
  rw [coin_density]
  have := hp true
  have := hp false
  have := coin_like_pos d true
  have := coin_like_pos d false
  positivity

theorem coin_differ : ¬ SameData Measure.count Measure.count coinLike coinDet coinTrue coinOther := by
  intro h
  have h1 := (ae_restrict_iff' (Set.toFinite _).measurableSet).1 h
  rw [Measure.ae_count_iff] at h1
  have := h1 1 (by simp [coinDet])
  simp only [coin_density, coin_fraction] at this
  norm_num [coinLike, coinTrue, coinOther] at this

/-- The law of the data of detected events. -/
def coinData : Measure (Fin 3) := (Measure.count.restrict coinDet).withDensity fun t =>
  ENNReal.ofReal (dataDensity Measure.count coinLike coinTrue t /
    detectedFraction Measure.count Measure.count coinLike coinDet coinTrue)

theorem coin_data : IsProbabilityMeasure coinData := by
  refine ⟨?_⟩
  rw [coinData, withDensity_apply _ MeasurableSet.univ, Measure.restrict_univ,
    ← ofReal_integral_eq_lintegral_ofReal .of_finite]
  · rw [coin_integral]
    simp only [coin_density, coin_fraction]
    simp only [coin_two]
    norm_num [coinLike, coinTrue]
  · refine ae_of_all _ fun d => ?_
    simp only [coin_density, coin_fraction, coinTrue, Pi.zero_apply]
    have := coin_like_pos d true
    have := coin_like_pos d false
    positivity

/-- The hypotheses hold for the detected events of the test survey. -/
example : ∃ (Ω : Type) (_ : MeasurableSpace Ω) (P : Measure Ω) (_ : IsProbabilityMeasure P)
    (d : ℕ → Ω → Fin 3), DetectedEvents P Measure.count Measure.count coinLike coinDet coinTrue d ∧
    Comparable Measure.count Measure.count coinLike coinDet coinTrue coinOther ∧
    ¬ SameData Measure.count Measure.count coinLike coinDet coinTrue coinOther ∧
    Population Measure.count Measure.count coinLike coinDet coinTrue ∧
    Population Measure.count Measure.count coinLike coinDet coinOther := by
  have hp := coin_data
  obtain ⟨Ω, mΩ, P, d, hm, hl, hi, hP⟩ := exists_iid ℕ coinData
  exact ⟨Ω, mΩ, P, hP, d, ⟨hm, fun i => (hl i).map_eq, fun i j hij => hi.indepFun hij⟩, .of_finite,
    coin_differ, coin_population fun x => by norm_num [coinTrue],
    coin_population fun x => by unfold coinOther; split_ifs <;> norm_num⟩

/-- For any detected data an analysis with the package exists, for all populations at once. -/
theorem coin_analysis (planck15 : Cosmology) {n : ℕ} (data : Fin n → Fin 3) (pop : Dict Fl → Bool → ℝ) :
    ∃ (Ω' : Type) (_ : MeasurableSpace Ω')
    (P' : Measure Ω') (_ : IsProbabilityMeasure P') (X : ℕ → Ω' → Bool × Fin 3) (vt : ℕ → Ω' → ResamplingVT)
    (Z : Fin n → ℝ) (Y : Fin n → ℕ → Ω' → Bool) (L : ℕ → ℕ → Ω' → Likelihood),
    ∀ φ, Analysis P' Measure.count Measure.count coinLike coinDet data (fun _ => 1 / 2) X vt (fun _ _ => 1) Z Y L
      (pop φ) φ φ := by
  set Z : Fin n → ℝ := fun i => coinLike (data i) true + coinLike (data i) false with hZ
  have hZ0 : ∀ i, 0 < Z i := fun i => add_pos (coin_like_pos _ _) (coin_like_pos _ _)
  let μX : Measure (Bool × Fin 3) := (joint Measure.count Measure.count coinLike).withDensity
    fun _ => ENNReal.ofReal (1 / 2)
  let μY : Fin n → Measure Bool := fun i => Measure.count.withDensity
    fun x => ENNReal.ofReal (coinLike (data i) x * 1 / Z i)
  let μ : ℕ ⊕ Fin n × ℕ → Measure (Bool × Fin 3) := fun i => match i with
    | .inl _ => μX
    | .inr j => (μY j.1).prod (Measure.dirac 0)
  have pX : IsProbabilityMeasure μX := by
    refine ⟨?_⟩
    simp only [μX, joint]
    rw [withDensity_apply _ MeasurableSet.univ, Measure.restrict_univ, lintegral_const,
      withDensity_apply _ MeasurableSet.univ, Measure.restrict_univ,
      ← ofReal_integral_eq_lintegral_ofReal .of_finite (ae_of_all _ fun z => (coin_like_pos _ _).le),
      integral_prod _ .of_finite, ← ENNReal.ofReal_mul (by norm_num)]
    simp only [integral_count, Fin.sum_univ_three, Fintype.sum_bool, coin_two]
    norm_num [coinLike]
  have pY : ∀ i, IsProbabilityMeasure (μY i) := by
    intro i
    refine ⟨?_⟩
    simp only [μY]
    rw [withDensity_apply _ MeasurableSet.univ, Measure.restrict_univ,
      ← ofReal_integral_eq_lintegral_ofReal .of_finite (ae_of_all _ fun z =>
        div_nonneg (mul_nonneg (coin_like_pos _ _).le zero_le_one) (hZ0 i).le), integral_count]
    simp only [Fintype.sum_bool, mul_one]
    rw [← add_div, div_self (hZ0 i).ne', ENNReal.ofReal_one]
  have hμ : ∀ i, IsProbabilityMeasure (μ i) := fun i => match i with
    | .inl _ => pX
    | .inr j => by have := pY j.1; exact inferInstanceAs (IsProbabilityMeasure ((μY j.1).prod _))
  obtain ⟨Ω, mΩ, P, W, hm, hl, hi, hP⟩ := exists_hasLaw_indepFun (fun _ => Bool × Fin 3) μ
  set X : ℕ → Ω → Bool × Fin 3 := fun i => W (.inl i) with hX
  set Y : Fin n → ℕ → Ω → Bool := fun i k ω => (W (.inr (i, k)) ω).1 with hY
  have lX : ∀ i, P.map (X i) = μX := fun i => (hl (.inl i)).map_eq
  have lY : ∀ i k, P.map (Y i k) = μY i := by
    intro i k
    have := pY i
    have h := (hl (.inr (i, k))).map_eq
    rw [show Y i k = Prod.fst ∘ W (.inr (i, k)) from rfl, ← Measure.map_map measurable_fst (hm _), h]
    simp only [μ]
    rw [Measure.map_fst_prod]
    simp
  have iX : Pairwise fun i j => X i ⟂ᵢ[P] X j := fun i j hij =>
    hi.indepFun fun h => hij (Sum.inl.inj h)
  have iY : ∀ i, Pairwise fun k l => Y i k ⟂ᵢ[P] Y i l := fun i k l hkl =>
    (hi.indepFun (i := .inr (i, k)) (j := .inr (i, l)) fun h => hkl (by simpa using h)).comp
      measurable_fst measurable_fst
  have hvt : ∀ xs : List (Bool × Fin 3), ∃ vt : ResamplingVT,
      (∀ φ, BuiltFrom vt φ (fun z => pop φ z.1) (fun _ => 1 / 2) (Set.univ ×ˢ coinDet) xs) ∧
      vt.marginalizeUncertainty = false ∧ vt.enforceConvergence = false := by
    intro xs
    have hinit : ∃ r, ResamplingVT.init .numpy planck15
        ⟨[], fun _ φ => .ok ((found (Set.univ ×ˢ coinDet) xs).map fun z => fin (pop φ z.1))⟩
        [("prior", .arr ((found (Set.univ ×ˢ coinDet) xs).map fun _ => fin (1 / 2))),
          ("total_generated", .num true (fin xs.length))] pinf false false = .ok r ∧
        r.1.marginalizeUncertainty = false ∧ r.1.enforceConvergence = false := by
      refine ⟨_, rfl, rfl, rfl⟩
    obtain ⟨⟨vt, d⟩, h, h1, h2⟩ := hinit
    refine ⟨vt, fun φ => ⟨_, _, _, _, _, _, _, _, h, rfl, ?_, true, ?_⟩, h1, h2⟩
    · simp [Dict.get?_cons]
    · simp [Dict.get?_cons]
  choose vt hvt using fun (N : ℕ) (ω : Ω) => hvt (firstN X N ω)
  let L : ℕ → ℕ → Ω → Likelihood := fun K N ω =>
    { cls := .hyper, backend := .numpy, data := []
      hyperPrior := ⟨[], fun _ φ =>
        .ok (matFin ((List.finRange n).map fun i => (firstN (Y i) K ω).map (pop φ)))⟩
      samplingPrior := some (matFin ((List.finRange n).map fun i => (firstN (Y i) K ω).map fun _ => 1))
      totalNoiseEvidence := 0, conversion := fun θ => .ok θ, selection := (vt N ω).asSelection
      nPosteriors := n, samplesPerPosterior := K, maximumUncertainty := pinf, maxVariance := pinf }
  have hJ : IsFiniteMeasure (joint Measure.count Measure.count coinLike) :=
    isFiniteMeasure_withDensity_ofReal (Integrable.of_finite (f := fun z : Bool × Fin 3 => coinLike z.2 z.1)).2
  exact ⟨Ω, mΩ, P, hP, X, vt, Z, Y, L, fun φ =>
    { campaign := ⟨measurable_of_finite _, measurable_const, MeasurableSet.univ.prod coin_survey.measurable_Det,
        fun _ _ => by norm_num, fun i => hm _, lX, Integrable.integrableOn .of_finite⟩
      indep := iX
      finite := Integrable.integrableOn .of_finite
      built := fun N _ ω => (hvt N ω).1 φ
      mode := .inl fun N ω => (hvt N ω).2
      samples := fun i => ⟨measurable_of_finite _, measurable_const, measurable_of_finite _, fun _ => one_pos,
        fun x => (coin_like_pos _ x).le, hZ0 i, fun k => measurable_fst.comp (hm _), lY i, iY i, .of_finite,
        .of_finite⟩
      likelihood := fun K N ω => ⟨rfl, rfl, rfl, rfl, rfl⟩
      conversion := fun _ _ _ => rfl
      selection := fun _ _ _ => rfl }⟩

/-- An analysis of the true and the other population. -/
example (planck15 : Cosmology) {n : ℕ} (data : Fin n → Fin 3) : ∃ (Ω' : Type) (_ : MeasurableSpace Ω')
    (P' : Measure Ω') (_ : IsProbabilityMeasure P') (X : ℕ → Ω' → Bool × Fin 3) (vt : ℕ → Ω' → ResamplingVT)
    (Z : Fin n → ℝ) (Y : Fin n → ℕ → Ω' → Bool) (L : ℕ → ℕ → Ω' → Likelihood),
    Analysis P' Measure.count Measure.count coinLike coinDet data (fun _ => 1 / 2) X vt (fun _ _ => 1) Z Y L
      coinTrue [("a", fin 0)] [("a", fin 0)] ∧
    Analysis P' Measure.count Measure.count coinLike coinDet data (fun _ => 1 / 2) X vt (fun _ _ => 1) Z Y L
      coinOther [("a", fin 1)] [("a", fin 1)] := by
  obtain ⟨Ω, mΩ, P, hP, X, vt, Z, Y, L, main⟩ := coin_analysis planck15 data
    fun φ => if φ = [("a", fin 0)] then coinTrue else coinOther
  refine ⟨Ω, mΩ, P, hP, X, vt, Z, Y, L, ?_, ?_⟩
  · have := main [("a", fin 0)]
    rwa [if_pos rfl] at this
  · have := main [("a", fin 1)]
    rwa [if_neg (by simp)] at this

/-- Test: without the selection function a wrong population is preferred, even for the exact likelihood. Sources of
kind `true` are detected more often; all data show the kind of the source. -/
example : ∃ (like : Bool → Bool → ℝ) (Det : Set Bool) (p₀ p₁ : Bool → ℝ), Survey like Det ∧
    Population Measure.count Measure.count like Det p₀ ∧ Population Measure.count Measure.count like Det p₁ ∧
    ∑ x, p₀ x = 1 ∧ ∑ x, p₁ x = 1 ∧
    ∀ d ∈ Det, Real.log (dataDensity Measure.count like p₀ d) < Real.log (dataDensity Measure.count like p₁ d) := by
  have hd : ∀ (p : Bool → ℝ) (d : Bool), dataDensity Measure.count (fun d x => if d = x then (1 : ℝ) else 0) p d =
      p d := by
    intro p d
    unfold dataDensity
    rw [integral_count]
    cases d <;> simp
  have hp : ∀ a : ℝ, 0 < a → Population Measure.count Measure.count (fun d x => if d = x then (1 : ℝ) else 0) {true}
      fun x => if x then a else 1 - a := by
    intro a ha
    refine ⟨measurable_of_finite _, .of_finite, fun d hd' => ?_⟩
    rw [hd, Set.mem_singleton_iff.1 hd']
    simpa using ha
  refine ⟨fun d x => if d = x then 1 else 0, {true}, fun x => if x then 1 / 2 else 1 - 1 / 2,
    fun x => if x then 3 / 4 else 1 - 3 / 4, ⟨measurable_of_finite _, fun d x => by split_ifs <;> norm_num,
      (Set.toFinite _).measurableSet⟩, hp _ (by norm_num), hp _ (by norm_num), by norm_num, by norm_num, ?_⟩
  intro d h
  rw [hd, hd, Set.mem_singleton_iff.1 h]
  exact Real.log_lt_log (by norm_num) (by norm_num)

end TruePopulation

end GW
