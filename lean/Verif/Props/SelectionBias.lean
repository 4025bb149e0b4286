import Verif.Props.Consistency

/-!
# C136: the error of the selection function makes the likelihood too large on average

The injections are random, the events are given. `ResamplingVT` estimates the found fraction without bias
(C81); the likelihood divides by a power of the estimate.
-/

noncomputable section

open MeasureTheory ProbabilityTheory Classical

namespace GW

open Fl Spec

/-! ## Specification -/

/-- A likelihood for given events, with the importance weights `W` of their samples, that takes its selection
function from `N` random injections: `vt` is constructed from the first `N` of the random injections `X`, in the
mode that neither marginalises nor checks convergence; whatever the draw, some found injection has a positive
population density. -/
structure Spec.GivenEvents {S Ω : Type} [MeasurableSpace S] [MeasurableSpace Ω] (P : Measure Ω) (ν : Measure S)
    (p q : S → ℝ) (D : Set S) (X : ℕ → Ω → S) (N : ℕ) (vt : Ω → ResamplingVT) (L : Likelihood) (θ φ : Dict Fl)
    (W : List (List ℝ)) : Prop where
  campaign : Campaign P ν p q D X
  nonneg : ∀ x ∈ D, 0 ≤ p x
  some_found : ∀ ω, ∃ i < N, X i ω ∈ D ∧ 0 < p (X i ω)
  built : ∀ ω, BuiltFrom (vt ω) φ p q D (firstN X N ω)
  mode : ∀ ω, (vt ω).marginalizeUncertainty = false ∧ (vt ω).enforceConvergence = false
  cls : L.cls = .hyper
  conversion : L.conversion θ = .ok φ
  events : ∃ prior, ∃ dens : List (List ℝ), dens.length = L.nPosteriors ∧
    L.hyperPrior.prob L.data φ = .ok (matFin dens) ∧ L.samplingPrior = prior.map matFin ∧
    (∀ Q ∈ prior, Q.map List.length = dens.map List.length ∧ ∀ q ∈ Q, ∀ x ∈ q, x ≠ 0) ∧
    W = importance dens prior
  good : GoodWeights L.samplesPerPosterior W
  some_event : W ≠ []

/-- The likelihood of the given samples with the true found fraction. -/
def Spec.likelihoodGiven (W : List (List ℝ)) (pdet : ℝ) : ℝ := (W.map mean).prod / pdet ^ W.length

/-- `ℓ` are the log likelihoods that the code returns for the injections drawn. -/
def Spec.LogLikelihoods {Ω : Type} (L : Likelihood) (vt : Ω → ResamplingVT) (θ : Dict Fl) (ℓ : Ω → ℝ) : Prop :=
  ∀ ω, ∃ v, { L with selection := (vt ω).asSelection }.lnLikelihoodAndVariance θ = .ok (fin (ℓ ω), v)

/-- **C136** as a user might state it: on average over the injections, the likelihood is the one with the true
found fraction. -/
def C136_statement : Prop :=
  ∀ (S Ω : Type) (_ : MeasurableSpace S) (_ : MeasurableSpace Ω) (P : Measure Ω) (ν : Measure S)
    (p q : S → ℝ) (D : Set S) (X : ℕ → Ω → S) (N : ℕ) (vt : Ω → ResamplingVT) (L : Likelihood) (θ φ : Dict Fl)
    (W : List (List ℝ)) (ℓ : Ω → ℝ), IsProbabilityMeasure P → GivenEvents P ν p q D X N vt L θ φ W →
    LogLikelihoods L vt θ ℓ → Integrable (fun ω => Real.exp (ℓ ω)) P →
    ∫ ω, Real.exp (ℓ ω) ∂P = likelihoodGiven W (∫ x in D, p x ∂ν)

/-! ## Lemmas -/

namespace SelectionBias

variable {S Ω : Type} [MeasurableSpace S] [MeasurableSpace Ω] {P : Measure Ω} {ν : Measure S}
  {p q : S → ℝ} {D : Set S} {X : ℕ → Ω → S} {N : ℕ} {vt : Ω → ResamplingVT} {L : Likelihood} {θ φ : Dict Fl}
  {W : List (List ℝ)}

/-- The estimated found fraction. -/
def estimate (p q : S → ℝ) (D : Set S) (X : ℕ → Ω → S) (N : ℕ) (ω : Ω) : ℝ :=
  (∑ i ∈ Finset.range N, injectionWeight p q D (X i ω)) / N

theorem size (h : GivenEvents P ν p q D X N vt L θ φ W) (ω : Ω) : 1 ≤ N := by
  obtain ⟨i, hi, -⟩ := h.some_found ω
  omega

theorem estimate_pos (h : GivenEvents P ν p q D X N vt L θ φ W) (ω : Ω) : 0 < estimate p q D X N ω := by
  obtain ⟨i, hi, hD, hp⟩ := h.some_found ω
  refine div_pos (Finset.sum_pos' (fun j _ => ?_) ⟨i, Finset.mem_range.2 hi, ?_⟩)
    (by exact_mod_cast size h ω)
  · unfold injectionWeight
    by_cases hx : X j ω ∈ D
    · rw [Set.indicator_of_mem hx]
      exact div_nonneg (h.nonneg _ hx) (h.campaign.pos _ hx).le
    · rw [Set.indicator_of_notMem hx]
  · unfold injectionWeight
    rw [Set.indicator_of_mem hD]
    exact div_pos hp (h.campaign.pos _ hD)

theorem estimate_integrable (h : GivenEvents P ν p q D X N vt L θ φ W) :
    Integrable (estimate p q D X N) P :=
  (integrable_finsetSum _ fun i _ => h.campaign.integrable_weight i).div_const _

theorem estimate_mean [IsProbabilityMeasure P] (h : GivenEvents P ν p q D X N vt L θ φ W) :
    ∫ ω, estimate p q D X N ω ∂P = ∫ x in D, p x ∂ν := by
  have hne : Nonempty Ω := by
    by_contra hc
    have := measure_univ (μ := P)
    rw [Set.univ_eq_empty_iff.2 (not_nonempty_iff.1 hc)] at this
    simp at this
  have hN0 : (N : ℝ) ≠ 0 := by
    have := size h hne.some
    positivity
  unfold estimate
  rw [integral_div, integral_finsetSum _ fun i _ => h.campaign.integrable_weight i]
  simp only [h.campaign.integral_weight, Finset.sum_const, Finset.card_range, nsmul_eq_mul]
  field_simp

theorem efficiency (h : GivenEvents P ν p q D X N vt L θ φ W) (ω : Ω) :
    ∃ v : ℝ, (vt ω).detectionEfficiency φ = .ok (fin (estimate p q D X N ω), fin v) := by
  have hN := size h ω
  have hne : firstN X N ω ≠ [] := by
    unfold firstN
    simp
    omega
  have heff := built_efficiency (h.built ω) h.campaign.pos hne
  have hm : ((firstN X N ω).map (injectionWeight p q D)).sum / (firstN X N ω).length =
      estimate p q D X N ω := by
    simp only [firstN, List.map_map, Function.comp_def, sum_list_range, List.length_map, List.length_range]
    rfl
  rw [hm] at heff
  exact ⟨_, heff⟩

theorem value (h : GivenEvents P ν p q D X N vt L θ φ W) (ω : Ω) :
    ∃ v, { L with selection := (vt ω).asSelection }.lnLikelihoodAndVariance θ =
      .ok (fin (lnLikelihood W (estimate p q D X N ω)), v) := by
  obtain ⟨v, heff⟩ := efficiency h ω
  have hcall := (C41_partial (vt ω) φ _ _ (h.mode ω).1 heff).1 (h.mode ω).2
  obtain ⟨prior, dens, hlen, hp, hprior, hshape, hW⟩ := h.events
  have hest := C44_estimator (self := { L with selection := (vt ω).asSelection }) h.cls h.conversion hlen hp hprior
    hshape (hW ▸ h.good) (r := .pair (decide ((vt ω).backend ≠ .jax)) (fin (estimate p q D X N ω)) (fin v))
    (by
      show (vt ω).asSelection.call φ = _
      unfold ResamplingVT.asSelection
      simp only [hcall, ok_bind, pure_eq_ok]) (.inl ⟨_, rfl⟩) (estimate_pos h ω)
  rw [← hW] at hest
  exact ⟨_, hest⟩

theorem logLikelihoods_eq (h : GivenEvents P ν p q D X N vt L θ φ W) {ℓ : Ω → ℝ}
    (hl : LogLikelihoods L vt θ ℓ) (ω : Ω) : ℓ ω = lnLikelihood W (estimate p q D X N ω) := by
  obtain ⟨v, hv⟩ := value h ω
  obtain ⟨v', hv'⟩ := hl ω
  have := hv'.symm.trans hv
  simp only [Except.ok.injEq, Prod.mk.injEq, fin_inj] at this
  exact this.1

theorem means_pos (hg : GoodWeights N W) : 0 < (W.map mean).prod := by
  refine List.prod_pos fun m hm => ?_
  obtain ⟨w, hw, rfl⟩ := List.mem_map.1 hm
  exact (hg w hw).2

theorem exp_lnLikelihood (hg : GoodWeights N W) {x : ℝ} (hx : 0 < x) :
    Real.exp (lnLikelihood W x) = likelihoodGiven W x := by
  unfold lnLikelihood likelihoodGiven
  rw [Real.exp_sub, ← Real.log_pow, Real.exp_log (by positivity), Real.exp_list_sum, List.map_map]
  congr 2
  refine List.map_congr_left fun w hw => ?_
  exact Real.exp_log (hg w hw).2

theorem log_likelihoodGiven (hg : GoodWeights N W) {x : ℝ} (hx : 0 < x) :
    Real.log (likelihoodGiven W x) = lnLikelihood W x := by
  rw [← exp_lnLikelihood hg hx, Real.log_exp]

/-- The tangent of the power. -/
theorem tangent_pow {a x : ℝ} (ha : 0 < a) (hx : 0 < x) {n : ℕ} (hn : 1 ≤ n) :
    1 - n * (x / a - 1) ≤ (a / x) ^ n ∧ (1 - n * (x / a - 1) = (a / x) ^ n → x = a) := by
  have h1 : 1 + (n : ℝ) * (a / x - 1) ≤ (a / x) ^ n := by
    have := one_add_mul_le_pow (a := a / x - 1) (by
      have : 0 < a / x := by positivity
      linarith) n
    rwa [add_sub_cancel] at this
  have hn0 : (1 : ℝ) ≤ n := by exact_mod_cast hn
  have h2 : a / x - 1 - (1 - x / a) = (x - a) ^ 2 / (a * x) := by
    field_simp
    ring
  have h3 : 0 ≤ (x - a) ^ 2 / (a * x) := by positivity
  constructor
  · nlinarith
  · intro he
    by_contra hne
    have h4 : 0 < (x - a) ^ 2 / (a * x) := by
      have : 0 < (x - a) ^ 2 := by
        have := sub_ne_zero.2 hne
        positivity
      positivity
    nlinarith

/-- Integrals of a function above another one. -/
theorem integral_above {f g m : Ω → ℝ} {a : ℝ} (hf : Integrable f P) (hg : Integrable g P)
    (hle : ∀ ω, g ω ≤ f ω) (heq : ∀ ω, g ω = f ω ↔ m ω = a) :
    ∫ ω, g ω ∂P ≤ ∫ ω, f ω ∂P ∧ (∫ ω, f ω ∂P = ∫ ω, g ω ∂P ↔ ∀ᵐ ω ∂P, m ω = a) := by
  refine ⟨integral_mono hg hf hle, ?_⟩
  have h0 := integral_eq_zero_iff_of_nonneg (μ := P) (f := fun ω => f ω - g ω)
    (fun ω => sub_nonneg.2 (hle ω)) (hf.sub hg)
  rw [integral_sub hf hg, sub_eq_zero] at h0
  rw [h0]
  constructor
  · intro h
    filter_upwards [h] with ω hω
    exact (heq ω).1 (sub_eq_zero.1 hω).symm
  · intro h
    filter_upwards [h] with ω hω
    exact sub_eq_zero.2 ((heq ω).2 hω).symm

end SelectionBias

open SelectionBias

section

variable {S Ω : Type} [MeasurableSpace S] [MeasurableSpace Ω] {P : Measure Ω} {ν : Measure S}
  {p q : S → ℝ} {D : Set S} {X : ℕ → Ω → S} {N : ℕ} {vt : Ω → ResamplingVT} {L : Likelihood} {θ φ : Dict Fl}
  {W : List (List ℝ)}

theorem SelectionBias.fraction_pos [IsProbabilityMeasure P] (h : GivenEvents P ν p q D X N vt L θ φ W) :
    0 < ∫ x in D, p x ∂ν := by
  rw [← estimate_mean h]
  refine (integral_pos_iff_support_of_nonneg (fun ω => (estimate_pos h ω).le) (estimate_integrable h)).2 ?_
  have : Function.support (estimate p q D X N) = Set.univ :=
    Set.eq_univ_of_forall fun ω => (estimate_pos h ω).ne'
  rw [this]
  simp

theorem SelectionBias.tangent_integral [IsProbabilityMeasure P] (h : GivenEvents P ν p q D X N vt L θ φ W) (c : ℝ) :
    Integrable (fun ω => 1 - c * (estimate p q D X N ω / (∫ x in D, p x ∂ν) - 1)) P ∧
    ∫ ω, (1 - c * (estimate p q D X N ω / (∫ x in D, p x ∂ν) - 1)) ∂P = 1 := by
  set a := ∫ x in D, p x ∂ν with ha
  have ha0 : 0 < a := fraction_pos h
  have i1 : Integrable (fun ω => c / a * estimate p q D X N ω) P := (estimate_integrable h).const_mul _
  have e : ∀ ω, 1 - c * (estimate p q D X N ω / a - 1) = (1 + c) - c / a * estimate p q D X N ω := fun ω => by
    ring
  simp only [e]
  refine ⟨(integrable_const _).sub i1, ?_⟩
  rw [integral_sub (integrable_const _) i1, integral_const_mul, estimate_mean h, ← ha]
  simp only [integral_const, probReal_univ, one_smul]
  field_simp
  ring

/-- **C136.** The likelihood is evaluated for every draw, and its mean over the draws of the injections is at least the
likelihood with the true found fraction, with equality only if the estimated fraction is the true one almost
surely. -/
theorem C136_likelihood_partial [IsProbabilityMeasure P] (h : GivenEvents P ν p q D X N vt L θ φ W) :
    ∃ ℓ, LogLikelihoods L vt θ ℓ ∧ (Integrable (fun ω => Real.exp (ℓ ω)) P →
      likelihoodGiven W (∫ x in D, p x ∂ν) ≤ ∫ ω, Real.exp (ℓ ω) ∂P ∧
      (∫ ω, Real.exp (ℓ ω) ∂P = likelihoodGiven W (∫ x in D, p x ∂ν) ↔
        ∀ᵐ ω ∂P, ∃ v, (vt ω).detectionEfficiency φ = .ok (fin (∫ x in D, p x ∂ν), v))) := by
  refine ⟨_, value h, fun hi => ?_⟩
  set a := ∫ x in D, p x ∂ν with ha
  have ha0 : 0 < a := fraction_pos h
  set n := W.length with hn
  have hn1 : 1 ≤ n := List.length_pos_iff.2 h.some_event
  have hE := means_pos h.good
  have hval : ∀ ω, Real.exp (lnLikelihood W (estimate p q D X N ω)) =
      likelihoodGiven W a * (a / estimate p q D X N ω) ^ n := by
    intro ω
    rw [exp_lnLikelihood h.good (estimate_pos h ω)]
    have := estimate_pos h ω
    unfold likelihoodGiven
    rw [div_pow, ← hn]
    field_simp
  have hL0 : 0 < likelihoodGiven W a := div_pos hE (by positivity)
  obtain ⟨hgi1, hint1⟩ := tangent_integral h n
  rw [← ha] at hgi1 hint1
  have hgi := hgi1.const_mul (likelihoodGiven W a)
  have hint : ∫ ω, likelihoodGiven W a * (1 - n * (estimate p q D X N ω / a - 1)) ∂P = likelihoodGiven W a := by
    rw [integral_const_mul, hint1, mul_one]
  have := integral_above (P := P) (m := estimate p q D X N) (a := a) hi hgi
    (fun ω => by
      rw [hval]
      exact mul_le_mul_of_nonneg_left (tangent_pow ha0 (estimate_pos h ω) hn1).1 hL0.le)
    (fun ω => by
      rw [hval]
      constructor
      · intro he
        exact (tangent_pow ha0 (estimate_pos h ω) hn1).2 (mul_left_cancel₀ hL0.ne' he)
      · intro he
        rw [he, div_self ha0.ne']
        simp)
  rw [hint] at this
  refine ⟨this.1, this.2.trans ⟨fun h' => ?_, fun h' => ?_⟩⟩
  · filter_upwards [h'] with ω hω
    obtain ⟨v, hv⟩ := efficiency h ω
    exact ⟨v, by rw [hv, hω]⟩
  · filter_upwards [h'] with ω hω
    obtain ⟨v, hv⟩ := efficiency h ω
    obtain ⟨v', hv'⟩ := hω
    have := hv.symm.trans hv'
    simp only [Except.ok.injEq, Prod.mk.injEq, fin_inj] at this
    exact this.1

/-- **C136.** The mean over the draws of the injections of the log likelihood is at least the log likelihood with the
true found fraction too, with equality only if the estimated fraction is the true one almost surely. -/
theorem C136_logLikelihood_partial [IsProbabilityMeasure P] (h : GivenEvents P ν p q D X N vt L θ φ W) :
    ∃ ℓ, LogLikelihoods L vt θ ℓ ∧ (Integrable ℓ P →
      Real.log (likelihoodGiven W (∫ x in D, p x ∂ν)) ≤ ∫ ω, ℓ ω ∂P ∧
      (∫ ω, ℓ ω ∂P = Real.log (likelihoodGiven W (∫ x in D, p x ∂ν)) ↔
        ∀ᵐ ω ∂P, ∃ v, (vt ω).detectionEfficiency φ = .ok (fin (∫ x in D, p x ∂ν), v))) := by
  refine ⟨_, value h, fun hi => ?_⟩
  set a := ∫ x in D, p x ∂ν with ha
  have ha0 : 0 < a := fraction_pos h
  set n := W.length with hn
  have hn1 : (0 : ℝ) < n := by exact_mod_cast List.length_pos_iff.2 h.some_event
  rw [log_likelihoodGiven h.good ha0]
  have hval : ∀ ω, lnLikelihood W (estimate p q D X N ω) =
      lnLikelihood W a - n * Real.log (estimate p q D X N ω / a) := by
    intro ω
    unfold lnLikelihood
    rw [Real.log_div (estimate_pos h ω).ne' ha0.ne', ← hn]
    ring
  obtain ⟨hgi1, hint1⟩ := tangent_integral h n
  rw [← ha] at hgi1 hint1
  have hgi := hgi1.add (integrable_const (lnLikelihood W a - 1))
  have hint : ∫ ω, (1 - n * (estimate p q D X N ω / a - 1) + (lnLikelihood W a - 1)) ∂P = lnLikelihood W a := by
    rw [integral_add hgi1 (integrable_const _), hint1]
    simp
  have := integral_above (P := P) (m := estimate p q D X N) (a := a)
    (g := fun ω => 1 - n * (estimate p q D X N ω / a - 1) + (lnLikelihood W a - 1)) hi hgi
    (fun ω => by
      rw [hval]
      have := Real.log_le_sub_one_of_pos (div_pos (estimate_pos h ω) ha0)
      nlinarith)
    (fun ω => by
      rw [hval]
      constructor
      · intro he
        by_contra hne
        have := Real.log_lt_sub_one_of_pos (div_pos (estimate_pos h ω) ha0) (by
          rwa [Ne, div_eq_one_iff_eq ha0.ne'])
        nlinarith
      · intro he
        rw [he, div_self ha0.ne']
        simp)
  rw [hint] at this
  refine ⟨this.1, this.2.trans ⟨fun h' => ?_, fun h' => ?_⟩⟩
  · filter_upwards [h'] with ω hω
    obtain ⟨v, hv⟩ := efficiency h ω
    exact ⟨v, by rw [hv, hω]⟩
  · filter_upwards [h'] with ω hω
    obtain ⟨v, hv⟩ := efficiency h ω
    obtain ⟨v', hv'⟩ := hω
    have := hv.symm.trans hv'
    simp only [Except.ok.injEq, Prod.mk.injEq, fin_inj] at this
    exact this.1

end

/-! ## A concrete case -/

namespace SelectionBias

/-- One injection that has one of two values with the same probability. -/
def coin : Measure Bool := Measure.count.withDensity fun _ => ENNReal.ofReal (1 / 2)

/-- A population in which one value is three times as frequent. -/
def coinPop (b : Bool) : ℝ := if b then 3 / 4 else 1 / 4

theorem coin_integral (f : Bool → ℝ) : ∫ b, f b ∂coin = (f true + f false) / 2 := by
  unfold coin
  rw [integral_withDensity_eq_integral_toReal_smul measurable_const
    (ae_of_all _ fun _ => ENNReal.ofReal_lt_top), integral_count]
  simp
  ring

instance : IsProbabilityMeasure coin := by
  constructor
  unfold coin
  rw [withDensity_apply _ MeasurableSet.univ]
  simp only [Measure.restrict_univ, lintegral_const, Measure.count_univ]
  rw [ENat.card_eq_coe_fintype_card]
  simp
  exact ENNReal.inv_mul_cancel (by norm_num) (by norm_num)

theorem coin_fraction : ∫ b in Set.univ, coinPop b ∂Measure.count = 1 := by
  rw [Measure.restrict_univ, integral_count]
  norm_num [coinPop]

/-- A likelihood with one event and this injection. -/
theorem coin_given (planck15 : Cosmology) : ∃ vt, GivenEvents coin Measure.count coinPop (fun _ => 1 / 2) Set.univ
    (fun _ => id) 1 vt (flatEvent .hyper (.bare true (fin 1)) pinf) [] [] [[1, 1]] := by
  choose vt hvt using fun ω : Bool =>
    exists_built planck15 [] coinPop (fun _ => 1 / 2) Set.univ (firstN (fun _ => id) 1 ω) false false (fin 1)
  have hp : ∀ b, 0 < coinPop b := by
    intro b
    cases b <;> norm_num [coinPop]
  refine ⟨vt, ⟨⟨measurable_of_finite _, measurable_const, MeasurableSet.univ, fun _ _ => by norm_num, fun _ => measurable_id,
    fun _ => ?_, Integrable.of_finite⟩, fun b _ => (hp b).le, fun ω => ⟨0, one_pos, trivial, hp _⟩, fun ω => (hvt ω).1,
    fun ω => ⟨(hvt ω).2.1, (hvt ω).2.2.1⟩, rfl, rfl, ⟨none, [[1, 1]], rfl, rfl, rfl, by simp, rfl⟩, flatGood,
    by simp⟩⟩
  rw [Measure.map_id]
  rfl

/-- The mean of the likelihood is 4/3 instead of 1. -/
theorem coin_mean {vt : Bool → ResamplingVT} {L : Likelihood} {θ φ : Dict Fl}
    (h : GivenEvents coin Measure.count coinPop (fun _ => 1 / 2) Set.univ (fun _ => id) 1 vt L θ φ [[1, 1]])
    {ℓ : Bool → ℝ} (hl : LogLikelihoods L vt θ ℓ) : ∫ b, Real.exp (ℓ b) ∂coin = 4 / 3 := by
  have e : ∀ b, Real.exp (ℓ b) = 1 / (2 * coinPop b) := by
    intro b
    rw [logLikelihoods_eq h hl b, exp_lnLikelihood (N := 2) flatGood (estimate_pos h b)]
    simp [likelihoodGiven, Spec.mean, estimate, injectionWeight]
    ring
  simp only [e]
  rw [coin_integral]
  norm_num [coinPop]

end SelectionBias

/-- **C136** fails: with one injection the mean of the likelihood can be a third too large. -/
theorem C136_fails : ¬ C136_statement := by
  intro H
  obtain ⟨vt, h⟩ := coin_given ⟨id, id, id, id⟩
  have hl := value h
  have := H _ _ _ _ _ _ _ _ _ _ _ _ _ _ _ _ _ inferInstance h hl Integrable.of_finite
  rw [coin_mean h hl, coin_fraction] at this
  norm_num [likelihoodGiven, Spec.mean] at this

example (planck15 : Cosmology) := (coin_given planck15).imp fun _ h => C136_likelihood_partial h

example (planck15 : Cosmology) := (coin_given planck15).imp fun _ h => C136_logLikelihood_partial h

end GW
