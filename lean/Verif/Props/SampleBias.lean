import Verif.Props.RateBias

/-!
# C139: the mean of the likelihood over the posterior samples

The posterior samples are random too. Within an event they may depend on each other, as those of a Markov chain do;
different events are sampled independently.
-/

noncomputable section

open MeasureTheory ProbabilityTheory Classical

namespace GW

open Fl Spec SelectionBias

/-! ## Specification -/

/-- The posterior samples `Y i 0, Y i 1, ...` of `n` events: every one of those of event `i` has the posterior density
`like i * prior i / Z i`. The samples of one event may depend on each other, those of different events are
independent. The population density is `p`, and the first `K` samples of each event, which are used, include one with a
positive population density. -/
structure Spec.PosteriorDraws {S Ω : Type} [MeasurableSpace S] [MeasurableSpace Ω] (P : Measure Ω) (ν : Measure S)
    {n : ℕ} (p : S → ℝ) (prior like : Fin n → S → ℝ) (Z : Fin n → ℝ) (Y : Fin n → ℕ → Ω → S) (K : ℕ) : Prop where
  measurable_p : Measurable p
  measurable_prior : ∀ i, Measurable (prior i)
  measurable_like : ∀ i, Measurable (like i)
  p_nonneg : ∀ x, 0 ≤ p x
  prior_pos : ∀ i x, 0 < prior i x
  like_nonneg : ∀ i x, 0 ≤ like i x
  evidence_pos : ∀ i, 0 < Z i
  measurable_Y : ∀ i k, Measurable (Y i k)
  law : ∀ i k, P.map (Y i k) = ν.withDensity fun x => ENNReal.ofReal (like i x * prior i x / Z i)
  indep : iIndepFun (fun i ω k => Y i k ω) P
  integrable : ∀ i, Integrable (fun x => like i x * p x) ν
  some_weight : ∀ i ω, ∃ k < K, 0 < p (Y i k ω)

/-- A likelihood object that holds these samples; of class `cls`, and with a selection function that reports the found
fraction `s`. -/
structure Spec.HoldsSamples {S Ω : Type} {n : ℕ} (cls : LikelihoodClass) (L : Likelihood) (θ φ : Dict Fl) (p : S → ℝ)
    (prior : Fin n → S → ℝ) (Y : Fin n → ℕ → Ω → S) (K : ℕ) (ω : Ω) (s : ℝ) : Prop where
  cls_eq : L.cls = cls
  events : L.nPosteriors = n
  samples : L.samplesPerPosterior = K
  conversion : L.conversion θ = .ok φ
  density : L.hyperPrior.prob L.data φ =
    .ok (matFin ((List.finRange n).map fun i => (firstN (Y i) K ω).map p))
  sampling : L.samplingPrior =
    some (matFin ((List.finRange n).map fun i => (firstN (Y i) K ω).map (prior i)))
  selection : ∃ r v, L.selection.call φ = .ok r ∧ reports r s v

/-- The evidence of event `i` with the population as the prior, relative to the one of the sampling prior. -/
def Spec.bayesFactor {S : Type} [MeasurableSpace S] (ν : Measure S) {n : ℕ} (p : S → ℝ) (like : Fin n → S → ℝ)
    (Z : Fin n → ℝ) (i : Fin n) : ℝ := (∫ x, like i x * p x ∂ν) / Z i

/-- The average weight of the samples of an event. -/
def Spec.eventAverage {S Ω : Type} {n : ℕ} (p : S → ℝ) (prior : Fin n → S → ℝ) (Y : Fin n → ℕ → Ω → S) (K : ℕ)
    (i : Fin n) (ω : Ω) : ℝ := (∑ k ∈ Finset.range K, p (Y i k ω) / prior i (Y i k ω)) / K

/-- The values of `ln_likelihood_and_variance`. -/
def Spec.Values {Ω : Type} (L : Ω → Likelihood) (θ : Dict Fl) (ℓ : Ω → ℝ) : Prop :=
  ∀ ω, ∃ v, (L ω).lnLikelihoodAndVariance θ = .ok (fin (ℓ ω), v)

/-! ## Lemmas -/

namespace SampleBias

variable {S Ω : Type} [MeasurableSpace S] [MeasurableSpace Ω] {P : Measure Ω} {ν : Measure S} {n : ℕ}
  {p : S → ℝ} {prior like : Fin n → S → ℝ} {Z : Fin n → ℝ} {Y : Fin n → ℕ → Ω → S} {K : ℕ}
  {θ φ : Dict Fl} {s : ℝ}

theorem average_pos (h : PosteriorDraws P ν p prior like Z Y K) (i : Fin n) (ω : Ω) :
    0 < eventAverage p prior Y K i ω := by
  obtain ⟨k, hk, hp⟩ := h.some_weight i ω
  refine div_pos (Finset.sum_pos' (fun j _ => div_nonneg (h.p_nonneg _) (h.prior_pos _ _).le)
    ⟨k, Finset.mem_range.2 hk, div_pos hp (h.prior_pos _ _)⟩) ?_
  have : 0 < K := by omega
  exact_mod_cast this

theorem weight_integral (h : PosteriorDraws P ν p prior like Z Y K) (i : Fin n) (k : ℕ) :
    Integrable (fun ω => p (Y i k ω) / prior i (Y i k ω)) P ∧
    ∫ ω, p (Y i k ω) / prior i (Y i k ω) ∂P = bayesFactor ν p like Z i := by
  have hd : Measurable fun x => ENNReal.ofReal (like i x * prior i x / Z i) :=
    (((h.measurable_like i).mul (h.measurable_prior i)).div_const _).ennreal_ofReal
  have hf : ∀ᵐ x ∂ν, ENNReal.ofReal (like i x * prior i x / Z i) < ⊤ :=
    ae_of_all _ fun _ => ENNReal.ofReal_lt_top
  have m1 : Measurable fun x => p x / prior i x := h.measurable_p.div (h.measurable_prior i)
  have f1 : ∀ x, (ENNReal.ofReal (like i x * prior i x / Z i)).toReal • (p x / prior i x) =
      like i x * p x / Z i := by
    intro x
    have := (h.prior_pos i x).ne'
    have hZ := (h.evidence_pos i).ne'
    rw [ENNReal.toReal_ofReal (div_nonneg (mul_nonneg (h.like_nonneg i x) (h.prior_pos i x).le)
      (h.evidence_pos i).le), smul_eq_mul]
    field_simp
  constructor
  · have : Integrable (fun x => p x / prior i x) (P.map (Y i k)) := by
      rw [h.law i k, integrable_withDensity_iff_integrable_smul' hd hf]
      simp_rw [f1]
      exact (h.integrable i).div_const _
    exact this.comp_measurable (h.measurable_Y i k)
  · rw [← integral_map (f := fun x => p x / prior i x) (h.measurable_Y i k).aemeasurable m1.aestronglyMeasurable,
      h.law i k, integral_withDensity_eq_integral_toReal_smul hd hf]
    simp_rw [f1, integral_div]
    rfl

theorem average_integrable (h : PosteriorDraws P ν p prior like Z Y K) (i : Fin n) :
    Integrable (eventAverage p prior Y K i) P :=
  (integrable_finsetSum _ fun k _ => (weight_integral h i k).1).div_const _

theorem samples_pos [IsProbabilityMeasure P] (h : PosteriorDraws P ν p prior like Z Y K) (i : Fin n) : 1 ≤ K := by
  have hne : Nonempty Ω := nonempty_of_isProbabilityMeasure P
  obtain ⟨k, hk, -⟩ := h.some_weight i hne.some
  omega

theorem average_mean [IsProbabilityMeasure P] (h : PosteriorDraws P ν p prior like Z Y K) (i : Fin n) :
    ∫ ω, eventAverage p prior Y K i ω ∂P = bayesFactor ν p like Z i := by
  have hK : (K : ℝ) ≠ 0 := by
    have := samples_pos h i
    positivity
  unfold eventAverage
  rw [integral_div, integral_finsetSum _ fun k _ => (weight_integral h i k).1]
  simp only [(weight_integral h i _).2, Finset.sum_const, Finset.card_range, nsmul_eq_mul]
  field_simp

theorem bayesFactor_pos [IsProbabilityMeasure P] (h : PosteriorDraws P ν p prior like Z Y K) (i : Fin n) :
    0 < bayesFactor ν p like Z i := by
  rw [← average_mean h i]
  refine (integral_pos_iff_support_of_nonneg (fun ω => (average_pos h i ω).le) (average_integrable h i)).2 ?_
  have : Function.support (eventAverage p prior Y K i) = Set.univ :=
    Set.eq_univ_of_forall fun ω => (average_pos h i ω).ne'
  rw [this]
  simp

/-- The average weight as a function of all samples of the event. -/
def averageOf (p pr : S → ℝ) (K : ℕ) (y : ℕ → S) : ℝ := (∑ k ∈ Finset.range K, p (y k) / pr (y k)) / K

theorem averageOf_measurable {pr : S → ℝ} (hp : Measurable p) (hpr : Measurable pr) :
    Measurable (averageOf p pr K) := by
  refine Measurable.div_const (Finset.measurable_fun_sum _ fun k _ => ?_) _
  exact (hp.comp (measurable_pi_apply k)).div (hpr.comp (measurable_pi_apply k))

theorem averages_indep (h : PosteriorDraws P ν p prior like Z Y K) :
    iIndepFun (fun i => eventAverage p prior Y K i) P :=
  h.indep.comp (fun i => averageOf p (prior i) K) fun i => averageOf_measurable h.measurable_p (h.measurable_prior i)

/-- The weights of the samples. -/
def weightRows (p : S → ℝ) (prior : Fin n → S → ℝ) (Y : Fin n → ℕ → Ω → S) (K : ℕ) (ω : Ω) : List (List ℝ) :=
  (List.finRange n).map fun i => (firstN (Y i) K ω).map fun x => p x / prior i x

omit [MeasurableSpace S] [MeasurableSpace Ω] in
theorem mean_row (i : Fin n) (ω : Ω) :
    mean ((firstN (Y i) K ω).map fun x => p x / prior i x) = eventAverage p prior Y K i ω := by
  simp only [mean, firstN, List.map_map, Function.comp_def, sum_list_range, List.length_map, List.length_range,
    eventAverage]

theorem rows_good (h : PosteriorDraws P ν p prior like Z Y K) (ω : Ω) : GoodWeights K (weightRows p prior Y K ω) := by
  intro x hx
  obtain ⟨i, -, rfl⟩ := List.mem_map.1 hx
  refine ⟨by simp [firstN], ?_⟩
  rw [mean_row]
  exact average_pos h i ω

omit [MeasurableSpace S] [MeasurableSpace Ω] in
theorem rows_length (ω : Ω) : (weightRows p prior Y K ω).length = n := by
  simp [weightRows]

omit [MeasurableSpace S] [MeasurableSpace Ω] in
theorem rows_sum (ω : Ω) : ((weightRows p prior Y K ω).map lnBayesFactor).sum =
    ∑ i, Real.log (eventAverage p prior Y K i ω) := by
  unfold weightRows
  simp only [List.map_map, Function.comp_def, lnBayesFactor, mean_row]
  rw [← List.ofFn_eq_map, List.sum_ofFn]

theorem shape (h : PosteriorDraws P ν p prior like Z Y K) (ω : Ω) :
    ∀ Q ∈ some ((List.finRange n).map fun i => (firstN (Y i) K ω).map (prior i)),
      Q.map List.length = ((List.finRange n).map fun i => (firstN (Y i) K ω).map p).map List.length ∧
        ∀ q ∈ Q, ∀ x ∈ q, x ≠ 0 := by
  intro Q hQ
  cases hQ
  refine ⟨by simp [List.map_map, Function.comp_def], ?_⟩
  intro qr hq x hx
  obtain ⟨i, -, rfl⟩ := List.mem_map.1 hq
  obtain ⟨y, -, rfl⟩ := List.mem_map.1 hx
  exact (h.prior_pos i y).ne'

theorem hyper_value (h : PosteriorDraws P ν p prior like Z Y K) {L : Likelihood} {ω : Ω}
    (hL : HoldsSamples .hyper L θ φ p prior Y K ω s) (hs : 0 < s) :
    ∃ v, L.lnLikelihoodAndVariance θ =
      .ok (fin (∑ i, Real.log (eventAverage p prior Y K i ω) - n * Real.log s), v) := by
  obtain ⟨r, v, hr, hrep⟩ := hL.selection
  have hrows : importance _ _ = weightRows p prior Y K ω := importance_rows p prior fun i => firstN (Y i) K ω
  have := C44_estimator hL.cls_eq hL.conversion (by rw [hL.events]; simp) hL.density
    (prior := some ((List.finRange n).map fun i => (firstN (Y i) K ω).map (prior i))) hL.sampling (shape h ω)
    (by rw [hrows, hL.samples]; exact rows_good h ω) hr hrep hs
  rw [hrows] at this
  unfold lnLikelihood at this
  rw [rows_sum, rows_length] at this
  exact ⟨_, this⟩

theorem rate_value (h : PosteriorDraws P ν p prior like Z Y K) {L : Likelihood} {ω : Ω}
    (hL : HoldsSamples .rate L θ φ p prior Y K ω s) (hs : 0 < s) {R : ℝ} (hR : 0 < R)
    (hrate : φ.get? "rate" = some (fin R)) :
    ∃ v, L.lnLikelihoodAndVariance θ =
      .ok (fin (∑ i, Real.log (eventAverage p prior Y K i ω) + (n * Real.log R - R * s)), v) := by
  obtain ⟨r, v, hr, hrep⟩ := hL.selection
  have hrows : importance _ _ = weightRows p prior Y K ω := importance_rows p prior fun i => firstN (Y i) K ω
  have := C49_value hL.cls_eq hL.conversion (by rw [hL.events]; simp) hL.density
    (prior := some ((List.finRange n).map fun i => (firstN (Y i) K ω).map (prior i))) hL.sampling (shape h ω)
    (by rw [hrows, hL.samples]; exact rows_good h ω) hr hrep hs hR hrate
  rw [hrows] at this
  unfold lnRateLikelihood at this
  rw [rows_sum, rows_length, add_sub_assoc] at this
  exact ⟨_, this⟩

theorem exp_sum_log (h : PosteriorDraws P ν p prior like Z Y K) (ω : Ω) :
    Real.exp (∑ i, Real.log (eventAverage p prior Y K i ω)) = ∏ i, eventAverage p prior Y K i ω := by
  rw [Real.exp_sum]
  exact Finset.prod_congr rfl fun i _ => Real.exp_log (average_pos h i ω)

theorem prod_integrable [IsProbabilityMeasure P] (h : PosteriorDraws P ν p prior like Z Y K) :
    Integrable (fun ω => ∏ i, eventAverage p prior Y K i ω) P := by
  have hm : ∀ i, Measurable (eventAverage p prior Y K i) := fun i =>
    (averageOf_measurable h.measurable_p (h.measurable_prior i)).comp
      (measurable_pi_iff.2 fun k => h.measurable_Y i k)
  have key : ∀ s : Finset (Fin n), Integrable (fun ω => ∏ i ∈ s, eventAverage p prior Y K i ω) P := by
    intro s
    induction s using Finset.induction_on with
    | empty => simp
    | insert a s ha ih =>
      have hi : (∏ i ∈ s, eventAverage p prior Y K i) ⟂ᵢ[P] eventAverage p prior Y K a :=
        (averages_indep h).indepFun_finsetProd_of_notMem hm ha
      have e : (∏ i ∈ s, eventAverage p prior Y K i) = fun ω => ∏ i ∈ s, eventAverage p prior Y K i ω := by
        ext ω
        simp
      rw [e] at hi
      have := hi.symm.integrable_mul (average_integrable h a) ih
      simp only [Finset.prod_insert ha]
      exact this
  exact key Finset.univ

theorem prod_mean [IsProbabilityMeasure P] (h : PosteriorDraws P ν p prior like Z Y K) :
    ∫ ω, ∏ i, eventAverage p prior Y K i ω ∂P = ∏ i, bayesFactor ν p like Z i := by
  rw [(averages_indep h).integral_fun_prod_eq_prod_integral fun i => (average_integrable h i).aestronglyMeasurable]
  exact Finset.prod_congr rfl fun i _ => average_mean h i

/-- The mean of the sum of the logarithms is below the sum of the logarithms of the means. -/
theorem sum_log_mean [IsProbabilityMeasure P] (h : PosteriorDraws P ν p prior like Z Y K) (c : ℝ)
    (hi : Integrable (fun ω => ∑ i, Real.log (eventAverage p prior Y K i ω) + c) P) :
    ∫ ω, (∑ i, Real.log (eventAverage p prior Y K i ω) + c) ∂P ≤ ∑ i, Real.log (bayesFactor ν p like Z i) + c ∧
    (∫ ω, (∑ i, Real.log (eventAverage p prior Y K i ω) + c) ∂P = ∑ i, Real.log (bayesFactor ν p like Z i) + c ↔
      ∀ᵐ ω ∂P, ∀ i, eventAverage p prior Y K i ω = bayesFactor ν p like Z i) := by
  set B := bayesFactor ν p like Z with hB
  have hB0 : ∀ i, 0 < B i := bayesFactor_pos h
  set g : Ω → ℝ := fun ω => ∑ i, (Real.log (B i) + (eventAverage p prior Y K i ω / B i - 1)) + c with hg
  have hgi1 : ∀ i, Integrable (fun ω => Real.log (B i) + (eventAverage p prior Y K i ω / B i - 1)) P := fun i =>
    (integrable_const _).add (((average_integrable h i).div_const _).sub (integrable_const _))
  have hgi : Integrable g P := (integrable_finsetSum _ fun i _ => hgi1 i).add (integrable_const c)
  have hgm : ∫ ω, g ω ∂P = ∑ i, Real.log (B i) + c := by
    rw [hg, integral_add (integrable_finsetSum _ fun i _ => hgi1 i) (integrable_const c),
      integral_finsetSum _ fun i _ => hgi1 i]
    congr 1
    · refine Finset.sum_congr rfl fun i _ => ?_
      have e : ∀ ω, Real.log (B i) + (eventAverage p prior Y K i ω / B i - 1) =
          (Real.log (B i) - 1) + eventAverage p prior Y K i ω / B i := fun ω => by ring
      simp only [e]
      rw [integral_add (integrable_const _) ((average_integrable h i).div_const _), integral_div, average_mean h i,
        ← hB, div_self (hB0 i).ne']
      simp
    · simp
  have hterm : ∀ i ω, Real.log (eventAverage p prior Y K i ω) ≤
      Real.log (B i) + (eventAverage p prior Y K i ω / B i - 1) := by
    intro i ω
    have := Real.log_le_sub_one_of_pos (div_pos (average_pos h i ω) (hB0 i))
    rw [Real.log_div (average_pos h i ω).ne' (hB0 i).ne'] at this
    linarith
  have hle : ∀ ω, ∑ i, Real.log (eventAverage p prior Y K i ω) + c ≤ g ω := fun ω => by
    have := Finset.sum_le_sum fun (i : Fin n) (_ : i ∈ Finset.univ) => hterm i ω
    rw [hg]
    linarith
  have heq : ∀ ω, ∑ i, Real.log (eventAverage p prior Y K i ω) + c = g ω ↔
      ∀ i, eventAverage p prior Y K i ω = B i := by
    intro ω
    rw [hg]
    constructor
    · intro he i
      have he' := add_right_cancel he
      have := (Finset.sum_eq_sum_iff_of_le fun (i : Fin n) (_ : i ∈ Finset.univ) => hterm i ω).1 he' i
        (Finset.mem_univ i)
      by_contra hne
      have hlt := Real.log_lt_sub_one_of_pos (div_pos (average_pos h i ω) (hB0 i)) (by
        rwa [Ne, div_eq_one_iff_eq (hB0 i).ne'])
      rw [Real.log_div (average_pos h i ω).ne' (hB0 i).ne'] at hlt
      linarith
    · intro he
      simp only [he]
      congr 1
      refine Finset.sum_congr rfl fun i _ => ?_
      rw [div_self (hB0 i).ne']
      ring
  rw [← hgm]
  refine ⟨integral_mono hi hgi hle, ?_⟩
  have h0 := integral_eq_zero_iff_of_nonneg (μ := P)
    (f := fun ω => g ω - (∑ i, Real.log (eventAverage p prior Y K i ω) + c))
    (fun ω => sub_nonneg.2 (hle ω)) (hgi.sub hi)
  rw [integral_sub hgi hi, sub_eq_zero] at h0
  rw [eq_comm, h0]
  constructor
  · intro h'
    filter_upwards [h'] with ω hω
    exact (heq ω).1 (sub_eq_zero.1 hω).symm
  · intro h'
    filter_upwards [h'] with ω hω
    exact sub_eq_zero.2 ((heq ω).2 hω).symm

end SampleBias

open SampleBias

section

variable {S Ω : Type} [MeasurableSpace S] [MeasurableSpace Ω] {P : Measure Ω} {ν : Measure S} {n : ℕ}
  {p : S → ℝ} {prior like : Fin n → S → ℝ} {Z : Fin n → ℝ} {Y : Fin n → ℕ → Ω → S} {K : ℕ}
  {θ φ : Dict Fl} {s : ℝ} {L : Ω → Likelihood}

/-- **C139.** For a given selection function, the mean over the posterior samples of the likelihood is the exact
likelihood, for every number of samples and however the samples of an event depend on each other; the mean of the log
likelihood is not above the exact one, and equals it only if the averages of all events are exact almost surely. -/
theorem C139_unbiased [IsProbabilityMeasure P] (h : PosteriorDraws P ν p prior like Z Y K) (hs : 0 < s)
    (hL : ∀ ω, HoldsSamples .hyper (L ω) θ φ p prior Y K ω s) :
    ∃ ℓ, Values L θ ℓ ∧ Integrable (fun ω => Real.exp (ℓ ω)) P ∧
      ∫ ω, Real.exp (ℓ ω) ∂P = (∏ i, bayesFactor ν p like Z i) / s ^ n ∧
      (Integrable ℓ P →
        ∫ ω, ℓ ω ∂P ≤ Real.log ((∏ i, bayesFactor ν p like Z i) / s ^ n) ∧
        (∫ ω, ℓ ω ∂P = Real.log ((∏ i, bayesFactor ν p like Z i) / s ^ n) ↔
          ∀ᵐ ω ∂P, ∀ i, eventAverage p prior Y K i ω = bayesFactor ν p like Z i)) := by
  have hexp : ∀ ω, Real.exp (∑ i, Real.log (eventAverage p prior Y K i ω) - n * Real.log s) =
      (∏ i, eventAverage p prior Y K i ω) / s ^ n := by
    intro ω
    rw [Real.exp_sub, exp_sum_log h, ← Real.log_pow, Real.exp_log (by positivity)]
  refine ⟨_, fun ω => hyper_value h (hL ω) hs, ?_, ?_, fun hi => ?_⟩
  · simp only [hexp]
    exact (SampleBias.prod_integrable h).div_const _
  · simp only [hexp]
    rw [integral_div, prod_mean h]
  · rw [Real.log_div (Finset.prod_ne_zero_iff.2 fun i _ => (bayesFactor_pos h i).ne') (by positivity),
      Real.log_prod fun i _ => (bayesFactor_pos h i).ne', Real.log_pow]
    simp only [sub_eq_add_neg] at hi ⊢
    exact sum_log_mean h _ hi

/-- **C139.** The same for the likelihood with a rate. -/
theorem C139_rate [IsProbabilityMeasure P] (h : PosteriorDraws P ν p prior like Z Y K) (hs : 0 < s)
    (hL : ∀ ω, HoldsSamples .rate (L ω) θ φ p prior Y K ω s) {R : ℝ} (hR : 0 < R)
    (hrate : φ.get? "rate" = some (fin R)) :
    ∃ ℓ, Values L θ ℓ ∧ Integrable (fun ω => Real.exp (ℓ ω)) P ∧
      ∫ ω, Real.exp (ℓ ω) ∂P = (∏ i, bayesFactor ν p like Z i) * (R ^ n * Real.exp (-(R * s))) ∧
      (Integrable ℓ P →
        ∫ ω, ℓ ω ∂P ≤ Real.log ((∏ i, bayesFactor ν p like Z i) * (R ^ n * Real.exp (-(R * s)))) ∧
        (∫ ω, ℓ ω ∂P = Real.log ((∏ i, bayesFactor ν p like Z i) * (R ^ n * Real.exp (-(R * s)))) ↔
          ∀ᵐ ω ∂P, ∀ i, eventAverage p prior Y K i ω = bayesFactor ν p like Z i)) := by
  have hexp : ∀ ω, Real.exp (∑ i, Real.log (eventAverage p prior Y K i ω) + (n * Real.log R - R * s)) =
      (∏ i, eventAverage p prior Y K i ω) * (R ^ n * Real.exp (-(R * s))) := by
    intro ω
    rw [Real.exp_add, exp_sum_log h, sub_eq_add_neg, Real.exp_add, ← Real.log_pow, Real.exp_log (by positivity)]
  refine ⟨_, fun ω => SampleBias.rate_value h (hL ω) hs hR hrate, ?_, ?_, fun hi => ?_⟩
  · simp only [hexp]
    exact (SampleBias.prod_integrable h).mul_const _
  · simp only [hexp]
    rw [integral_mul_const, prod_mean h]
  · rw [Real.log_mul (Finset.prod_ne_zero_iff.2 fun i _ => (bayesFactor_pos h i).ne') (by positivity),
      Real.log_prod fun i _ => (bayesFactor_pos h i).ne', Real.log_mul (by positivity) (Real.exp_ne_zero _),
      Real.log_pow, Real.log_exp, ← sub_eq_add_neg]
    exact sum_log_mean h _ hi

/-- Random injections, as in C136: `vt` is constructed from the first `N` of them, in the mode that neither marginalises
nor checks convergence; whatever the draw, some found injection has a positive population density. -/
structure Spec.RandomInjections (P : Measure Ω) (ν : Measure S) (p q : S → ℝ) (D : Set S) (X : ℕ → Ω → S) (N : ℕ)
    (vt : Ω → ResamplingVT) (φ : Dict Fl) : Prop where
  campaign : Campaign P ν p q D X
  some_found : ∀ ω, ∃ i < N, X i ω ∈ D ∧ 0 < p (X i ω)
  built : ∀ ω, BuiltFrom (vt ω) φ p q D (firstN X N ω)
  mode : ∀ ω, (vt ω).marginalizeUncertainty = false ∧ (vt ω).enforceConvergence = false

variable {q : S → ℝ} {D : Set S} {X : ℕ → Ω → S} {N : ℕ} {vt : Ω → ResamplingVT}

theorem SampleBias.given (hX : RandomInjections P ν p q D X N vt φ) (hp : ∀ x, 0 ≤ p x) :
    GivenEvents P ν p q D X N vt (flatEvent .hyper (.bare true (fin 1)) pinf) φ φ [[1, 1]] :=
  ⟨hX.campaign, fun x _ => hp x, hX.some_found, hX.built, hX.mode, rfl, rfl, ⟨none, [[1, 1]], rfl, rfl, rfl, by simp, rfl⟩,
    flatGood, by simp⟩

/-- **C139.** If the injections are random too and independent of the posterior samples, the posterior samples do not
contribute to the error of the mean of the likelihood: it is the product of the exact evidence ratios times the mean of
the inverse power of the estimated found fraction, and so (C136) at least the exact likelihood. -/
theorem C139_joint [IsProbabilityMeasure P] (h : PosteriorDraws P ν p prior like Z Y K)
    (hX : RandomInjections P ν p q D X N vt φ) (hind : (fun ω i k => Y i k ω) ⟂ᵢ[P] (fun ω k => X k ω))
    (hL : ∀ ω s v, (vt ω).detectionEfficiency φ = .ok (fin s, v) → HoldsSamples .hyper (L ω) θ φ p prior Y K ω s) :
    ∃ ℓ e : Ω → ℝ, Values L θ ℓ ∧ (∀ ω, ∃ v, (vt ω).detectionEfficiency φ = .ok (fin (e ω), v)) ∧
      (Integrable (fun ω => (e ω ^ n)⁻¹) P → Integrable (fun ω => Real.exp (ℓ ω)) P ∧
        ∫ ω, Real.exp (ℓ ω) ∂P = (∏ i, bayesFactor ν p like Z i) * ∫ ω, (e ω ^ n)⁻¹ ∂P ∧
        (∏ i, bayesFactor ν p like Z i) / (∫ x in D, p x ∂ν) ^ n ≤ ∫ ω, Real.exp (ℓ ω) ∂P) := by
  have hg := given hX h.p_nonneg
  set e := estimate p q D X N with he
  have he0 : ∀ ω, 0 < e ω := estimate_pos hg
  have hval : ∀ ω, ∃ v, (L ω).lnLikelihoodAndVariance θ =
      .ok (fin (∑ i, Real.log (eventAverage p prior Y K i ω) - n * Real.log (e ω)), v) := by
    intro ω
    obtain ⟨v, hv⟩ := efficiency hg ω
    exact hyper_value h (hL ω _ _ hv) (he0 ω)
  have hexp : ∀ ω, Real.exp (∑ i, Real.log (eventAverage p prior Y K i ω) - n * Real.log (e ω)) =
      (∏ i, eventAverage p prior Y K i ω) * (e ω ^ n)⁻¹ := by
    intro ω
    have := he0 ω
    rw [Real.exp_sub, exp_sum_log h, ← Real.log_pow, Real.exp_log (by positivity), div_eq_mul_inv]
  refine ⟨_, e, hval, fun ω => ?_, fun hi => ?_⟩
  · obtain ⟨v, hv⟩ := efficiency hg ω
    exact ⟨_, hv⟩
  · simp only [hexp]
    have m1 : Measurable fun y : Fin n → ℕ → S => ∏ i, averageOf p (prior i) K (y i) :=
      Finset.measurable_fun_prod _ fun i _ =>
        (averageOf_measurable h.measurable_p (h.measurable_prior i)).comp (measurable_pi_apply i)
    have mw : Measurable (injectionWeight p q D) :=
      (hX.campaign.measurable_p.div hX.campaign.measurable_q).indicator hX.campaign.measurable_D
    have m2 : Measurable fun x : ℕ → S => (((∑ i ∈ Finset.range N, injectionWeight p q D (x i)) / N) ^ n)⁻¹ :=
      (((Finset.measurable_fun_sum _ fun i _ => mw.comp (measurable_pi_apply i)).div_const _).pow_const n).inv
    have hi2 : (fun ω => ∏ i, eventAverage p prior Y K i ω) ⟂ᵢ[P] (fun ω => (e ω ^ n)⁻¹) := hind.comp m1 m2
    have hmean := hi2.integral_fun_mul_eq_mul_integral (SampleBias.prod_integrable h).aestronglyMeasurable
      hi.aestronglyMeasurable
    rw [prod_mean h] at hmean
    refine ⟨hi2.integrable_mul (SampleBias.prod_integrable h) hi, hmean, ?_⟩
    rw [hmean, div_eq_mul_inv]
    refine mul_le_mul_of_nonneg_left ?_ (Finset.prod_nonneg fun i _ => (bayesFactor_pos h i).le)
    set a := ∫ x in D, p x ∂ν with ha
    have ha0 : 0 < a := fraction_pos hg
    obtain ⟨t1, t2⟩ := tangent_integral hg n
    have t3 := integral_mono (t1.const_mul (a ^ n)⁻¹) hi (fun ω => ?_)
    · rw [integral_const_mul, t2, mul_one] at t3
      exact t3
    · rcases Nat.eq_zero_or_pos n with h0 | h0
      · simp [h0]
      · have := (tangent_pow ha0 (he0 ω) h0).1
        have h2 : (e ω ^ n)⁻¹ = (a ^ n)⁻¹ * (a / e ω) ^ n := by
          have := he0 ω
          rw [div_pow]
          field_simp
        show (a ^ n)⁻¹ * (1 - n * (e ω / a - 1)) ≤ (e ω ^ n)⁻¹
        rw [h2]
        exact mul_le_mul_of_nonneg_left this (by positivity)

end

/-! ## Concrete cases -/

namespace SampleBias

/-- A likelihood object with given samples. -/
def holding {n : ℕ} {S Ω : Type} (cls : LikelihoodClass) (p : S → ℝ) (prior : Fin n → S → ℝ) (Y : Fin n → ℕ → Ω → S)
    (K : ℕ) (sel : SelectionFn) (ω : Ω) : Likelihood :=
  { cls := cls, backend := .numpy, data := []
    hyperPrior := ⟨[], fun _ _ => .ok (matFin ((List.finRange n).map fun i => (firstN (Y i) K ω).map p))⟩
    samplingPrior := some (matFin ((List.finRange n).map fun i => (firstN (Y i) K ω).map (prior i)))
    totalNoiseEvidence := 0, conversion := fun θ => .ok θ, selection := sel
    nPosteriors := n, samplesPerPosterior := K, maximumUncertainty := pinf, maxVariance := pinf }

theorem coinPop_pos (b : Bool) : 0 < coinPop b := by
  cases b <;> norm_num [coinPop]

/-- Two events, each with three copies of one random sample. -/
theorem two_events : ∃ (Ω : Type) (_ : MeasurableSpace Ω) (P : Measure Ω) (_ : IsProbabilityMeasure P)
    (Y : Fin 2 → ℕ → Ω → Bool), PosteriorDraws P Measure.count coinPop (fun _ _ => 1 / 2) (fun _ _ => 1) (fun _ => 1)
      Y 3 := by
  obtain ⟨Ω, mΩ, P, X, hXm, hXl, hXi, hP⟩ := exists_iid (Fin 2) coin
  refine ⟨Ω, mΩ, P, hP, fun i _ => X i, ⟨measurable_of_finite _, fun _ => measurable_const, fun _ => measurable_const,
    fun b => (coinPop_pos b).le, fun _ _ => by norm_num, fun _ _ => by norm_num, fun _ => one_pos,
    fun i _ => hXm i, fun i _ => ?_, ?_, fun _ => Integrable.of_finite, fun i ω => ⟨0, by norm_num, coinPop_pos _⟩⟩⟩
  · rw [(hXl i).map_eq]
    simp [coin]
  · exact hXi.comp (fun _ x _ => x) fun _ => measurable_pi_iff.2 fun _ => measurable_id

end SampleBias

example : ∃ (Ω : Type) (_ : MeasurableSpace Ω) (P : Measure Ω) (L : Ω → Likelihood) (ℓ : Ω → ℝ),
    IsProbabilityMeasure P ∧ Values L [] ℓ ∧ ∫ ω, Real.exp (ℓ ω) ∂P = (∏ i,
      bayesFactor Measure.count coinPop (fun (_ : Fin 2) _ => 1) (fun _ => 1) i) / (1 / 3) ^ 2 := by
  obtain ⟨Ω, mΩ, P, hP, Y, h⟩ := two_events
  obtain ⟨ℓ, h1, -, h3, -⟩ := C139_unbiased (L := holding .hyper coinPop (fun _ _ => 1 / 2) Y 3
    ⟨fun _ => .ok (.bare true (fin (1 / 3))), none⟩) (θ := []) (φ := []) (s := 1 / 3) h (by norm_num)
    fun ω => ⟨rfl, rfl, rfl, rfl, rfl, rfl, _, _, rfl, .inr ⟨⟨_, rfl⟩, rfl⟩⟩
  exact ⟨Ω, mΩ, P, _, ℓ, hP, h1, h3⟩

example : ∃ (Ω : Type) (_ : MeasurableSpace Ω) (P : Measure Ω) (L : Ω → Likelihood) (ℓ : Ω → ℝ),
    IsProbabilityMeasure P ∧ Values L [("rate", fin 5)] ℓ ∧ ∫ ω, Real.exp (ℓ ω) ∂P = (∏ i,
      bayesFactor Measure.count coinPop (fun (_ : Fin 2) _ => 1) (fun _ => 1) i) *
        (5 ^ 2 * Real.exp (-(5 * (1 / 3)))) := by
  obtain ⟨Ω, mΩ, P, hP, Y, h⟩ := two_events
  obtain ⟨ℓ, h1, -, h3, -⟩ := C139_rate (L := holding .rate coinPop (fun _ _ => 1 / 2) Y 3
    ⟨fun _ => .ok (.bare true (fin (1 / 3))), none⟩) (θ := [("rate", fin 5)]) (φ := [("rate", fin 5)]) (s := 1 / 3) h
    (by norm_num) (fun ω => ⟨rfl, rfl, rfl, rfl, rfl, rfl, _, _, rfl, .inr ⟨⟨_, rfl⟩, rfl⟩⟩) (R := 5) (by norm_num)
    (by simp [Dict.get?_cons])
  exact ⟨Ω, mΩ, P, _, ℓ, hP, h1, h3⟩

/-- One event with three copies of one random sample, and one random injection. -/
example (planck15 : Cosmology) : ∃ (L : Bool × Bool → Likelihood) (ℓ : Bool × Bool → ℝ), Values L [] ℓ ∧
    Integrable (fun ω => Real.exp (ℓ ω)) (coin.prod coin) := by
  choose vt hvt using fun ω : Bool × Bool =>
    exists_built planck15 [] coinPop (fun _ => 1 / 2) Set.univ (firstN (fun (_ : ℕ) (ω : Bool × Bool) => ω.2) 1 ω) false false (fin 1)
  have law1 : (coin.prod coin).map Prod.fst = Measure.count.withDensity fun _ => ENNReal.ofReal (1 / 2) := by
    rw [Measure.map_fst_prod, measure_univ, one_smul]
    rfl
  have law2 : (coin.prod coin).map Prod.snd = Measure.count.withDensity fun _ => ENNReal.ofReal (1 / 2) := by
    rw [Measure.map_snd_prod, measure_univ, one_smul]
    rfl
  have h : PosteriorDraws (coin.prod coin) Measure.count coinPop (fun (_ : Fin 1) _ => 1 / 2) (fun _ _ => 1)
      (fun _ => 1) (fun _ _ ω => ω.1) 3 :=
    ⟨measurable_of_finite _, fun _ => measurable_const, fun _ => measurable_const,
      fun b => (coinPop_pos b).le, fun _ _ => by norm_num, fun _ _ => by norm_num, fun _ => one_pos,
      fun _ _ => measurable_fst, fun _ _ => by simpa using law1, iIndepFun.of_subsingleton,
      fun _ => Integrable.of_finite, fun i ω => ⟨0, by norm_num, coinPop_pos _⟩⟩
  have hX : RandomInjections (coin.prod coin) Measure.count coinPop (fun _ => 1 / 2) Set.univ (fun _ ω => ω.2) 1 vt
      [] :=
    ⟨⟨measurable_of_finite _, measurable_const, MeasurableSet.univ, fun _ _ => by norm_num, fun _ => measurable_snd,
      fun _ => law2, Integrable.of_finite⟩, fun ω => ⟨0, one_pos, trivial, coinPop_pos _⟩, fun ω => (hvt ω).1,
      fun ω => ⟨(hvt ω).2.1, (hvt ω).2.2.1⟩⟩
  have hind : (fun (ω : Bool × Bool) (_ : Fin 1) (_ : ℕ) => ω.1) ⟂ᵢ[coin.prod coin] (fun ω (_ : ℕ) => ω.2) :=
    indepFun_prod (X := fun (x : Bool) (_ : Fin 1) (_ : ℕ) => x) (Y := fun (x : Bool) (_ : ℕ) => x)
      (measurable_pi_iff.2 fun _ => measurable_pi_iff.2 fun _ => measurable_id)
      (measurable_pi_iff.2 fun _ => measurable_id)
  obtain ⟨ℓ, e, h1, -, h3⟩ := C139_joint (L := fun ω => holding .hyper coinPop (fun (_ : Fin 1) _ => 1 / 2)
    (fun _ _ ω => ω.1) 3 (vt ω).asSelection ω) (θ := []) h hX hind
    (fun ω s v hv => ⟨rfl, rfl, rfl, rfl, rfl, rfl, by
      obtain ⟨v', hv'⟩ := efficiency (given hX h.p_nonneg) ω
      have := hv.symm.trans hv'
      simp only [Except.ok.injEq, Prod.mk.injEq, fin_inj] at this
      have hc := (C41_partial (vt ω) [] _ _ (hX.mode ω).1 hv).1 (hX.mode ω).2
      refine ⟨.pair (decide ((vt ω).backend ≠ .jax)) (fin s) (fin v'), v', ?_, .inl ⟨_, rfl⟩⟩
      show (vt ω).asSelection.call [] = _
      unfold ResamplingVT.asSelection
      simp only [hc, ok_bind, pure_eq_ok, this.2]⟩)
  exact ⟨_, ℓ, h1, (h3 Integrable.of_finite).1⟩

end GW
