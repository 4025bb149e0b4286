import Verif.Props.MonteCarlo
import Verif.Model.Experimental
import Mathlib.Probability.HasLawExists
import Mathlib.Analysis.SpecialFunctions.Integrals.Basic

/-!
# C82: with more samples and injections the likelihood converges to the exact one
-/

noncomputable section

open MeasureTheory ProbabilityTheory Filter Topology Classical

namespace GW

open Fl Spec

variable {S Ω : Type} [MeasurableSpace S] [MeasurableSpace Ω]
variable {P : Measure Ω} {ν : Measure S} {p q : S → ℝ} {D : Set S} {X : ℕ → Ω → S}

/-! ## The selection function -/

/-- Estimate and variance converge almost surely, for independent injections. -/
theorem efficiency_converges [IsProbabilityMeasure P] (h : Campaign P ν p q D X)
    (hind : Pairwise fun i j => X i ⟂ᵢ[P] X j) (h2 : IntegrableOn (fun x => p x ^ 2 / q x) D ν)
    {θ : Dict Fl} {vt : ℕ → Ω → ResamplingVT}
    (hvt : ∀ N ≥ 1, ∀ ω, BuiltFrom (vt N ω) θ p q D (firstN X N ω)) :
    ∀ᵐ ω ∂P, ∃ mu var : ℕ → ℝ,
      (∀ N ≥ 1, (vt N ω).detectionEfficiency θ = .ok (fin (mu N), fin (var N))) ∧
      Tendsto mu atTop (𝓝 (∫ x in D, p x ∂ν)) ∧
      Tendsto (fun N => N * var N) atTop
        (𝓝 ((∫ x in D, p x ^ 2 / q x ∂ν) - (∫ x in D, p x ∂ν) ^ 2)) := by
  have l1 := strong_law_ae_real (fun i ω => injectionWeight p q D (X i ω)) (h.integrable_weight 0)
    (fun i j hij => (hind hij).comp h.measurable_weight h.measurable_weight)
    (h.identDistrib h.measurable_weight)
  have hm2 : Measurable fun x => injectionWeight p q D x ^ 2 := h.measurable_weight.pow_const 2
  have l2 := strong_law_ae_real (fun i ω => injectionWeight p q D (X i ω) ^ 2)
    ((h.memLp_weight h2 0).integrable_sq) (fun i j hij => (hind hij).comp hm2 hm2)
    (h.identDistrib hm2)
  have e2 : ∫ ω, injectionWeight p q D (X 0 ω) ^ 2 ∂P = ∫ x in D, p x ^ 2 / q x ∂ν := by
    rw [← integral_map (h.measurable_X 0).aemeasurable hm2.aestronglyMeasurable, h.law 0,
      integral_withDensity_eq_integral_toReal_smul h.measurable_q.ennreal_ofReal
        (ae_of_all _ fun _ => ENNReal.ofReal_lt_top)]
    simp_rw [h.weight_sq_mul]
    rw [integral_indicator h.measurable_D]
  filter_upwards [l1, l2] with ω k1 k2
  rw [h.integral_weight] at k1
  rw [e2] at k2
  refine ⟨fun N => (∑ i ∈ Finset.range N, injectionWeight p q D (X i ω)) / N,
    fun N => (∑ i ∈ Finset.range N, injectionWeight p q D (X i ω) ^ 2) / (N : ℝ) ^ 2 -
      ((∑ i ∈ Finset.range N, injectionWeight p q D (X i ω)) / N) ^ 2 / N, ?_, k1, ?_⟩
  · intro N hN
    have hne : firstN X N ω ≠ [] := by
      unfold firstN
      simp
      omega
    rw [built_efficiency (hvt N hN ω) h.pos hne]
    simp only [firstN, List.map_map, Function.comp_def, sum_list_range, List.length_map,
      List.length_range]
  · refine (k2.sub (k1.pow 2)).congr' ?_
    filter_upwards [eventually_ge_atTop 1] with N hN
    have : (N : ℝ) ≠ 0 := by positivity
    field_simp

/-- The ways to use `ResamplingVT` in which it can converge: plain, with the convergence check for a finite
number of events, or with marginalisation over the uncertainty for a finite number of events and weights that
are not all equal. -/
def Spec.Mode (vt : ℕ → Ω → ResamplingVT) (variance : ℝ) : Prop :=
  (∀ N ω, (vt N ω).marginalizeUncertainty = false ∧ (vt N ω).enforceConvergence = false) ∨
  (∃ n : ℝ, ∀ N ω, (vt N ω).marginalizeUncertainty = false ∧ (vt N ω).enforceConvergence = true ∧
    (vt N ω).nEvents = fin n) ∨
  (0 < variance ∧ ∃ n : ℝ, 0 ≤ n ∧ ∀ N ω, (vt N ω).marginalizeUncertainty = true ∧
    (vt N ω).nEvents = fin n)

/-- **C82** for the selection function: what it reports converges almost surely to the fraction of the population
that is found, with a variance that tends to zero. -/
theorem C82_selection [IsProbabilityMeasure P] (h : Campaign P ν p q D X)
    (hind : Pairwise fun i j => X i ⟂ᵢ[P] X j) (h2 : IntegrableOn (fun x => p x ^ 2 / q x) D ν)
    (hpos : 0 < ∫ x in D, p x ∂ν) {θ : Dict Fl} {vt : ℕ → Ω → ResamplingVT}
    (hvt : ∀ N ≥ 1, ∀ ω, BuiltFrom (vt N ω) θ p q D (firstN X N ω))
    (hmode : Mode vt ((∫ x in D, p x ^ 2 / q x ∂ν) - (∫ x in D, p x ∂ν) ^ 2)) :
    ∀ᵐ ω ∂P, ∃ m v : ℕ → ℝ,
      (∀ᶠ N in atTop, ∃ r, (vt N ω).asSelection.call θ = .ok r ∧ reports r (m N) (v N)) ∧
      Tendsto m atTop (𝓝 (∫ x in D, p x ∂ν)) ∧ Tendsto v atTop (𝓝 0) := by
  filter_upwards [efficiency_converges h hind h2 hvt] with ω ⟨mu, var, he, k1, k2⟩
  have kv : Tendsto var atTop (𝓝 0) := by
    have h0 : Tendsto (fun N : ℕ => (1 : ℝ) / N) atTop (𝓝 0) := tendsto_one_div_atTop_nhds_zero_nat
    have := h0.mul k2
    rw [zero_mul] at this
    refine this.congr' ?_
    filter_upwards [eventually_ge_atTop 1] with N hN
    have : (N : ℝ) ≠ 0 := by positivity
    field_simp
  have hconv : ∀ n : ℝ, ∀ᶠ N in atTop, 4 * n * var N < mu N ^ 2 := by
    intro n
    have a1 : Tendsto (fun N => 4 * n * var N) atTop (𝓝 0) := by
      simpa using kv.const_mul (4 * n)
    exact a1.eventually_lt (k1.pow 2) (by positivity)
  have hmupos : ∀ᶠ N in atTop, 0 < mu N := k1.eventually (lt_mem_nhds hpos)
  rcases hmode with hm | ⟨n, hm⟩ | ⟨hV, n, hn, hm⟩
  · refine ⟨mu, var, ?_, k1, kv⟩
    filter_upwards [eventually_ge_atTop 1] with N hN
    have hc := (C41_partial (vt N ω) θ _ _ (hm N ω).1 (he N hN)).1 (hm N ω).2
    refine ⟨.pair (decide ((vt N ω).backend ≠ .jax)) (fin (mu N)) (fin (var N)), ?_, .inl ⟨_, rfl⟩⟩
    unfold ResamplingVT.asSelection
    simp only [hc, ok_bind, pure_eq_ok]
  · refine ⟨mu, var, ?_, k1, kv⟩
    filter_upwards [eventually_ge_atTop 1, hconv n] with N hN hN2
    have hc := (C41_partial (vt N ω) θ _ _ (hm N ω).1 (he N hN)).2.1 (hm N ω).2.1 (by
      rw [(hm N ω).2.2, show (4 : Fl) = fin 4 from rfl, fin_mul, fin_mul, fin_npow]
      simpa using hN2)
    refine ⟨.pair (decide ((vt N ω).backend ≠ .jax)) (fin (mu N)) (fin (var N)), ?_, .inl ⟨_, rfl⟩⟩
    unfold ResamplingVT.asSelection
    simp only [hc, ok_bind, pure_eq_ok]
  · refine ⟨fun N => mu N * Real.exp (-((3 + n) / 2 * (var N / mu N ^ 2))), fun _ => 0, ?_, ?_,
      tendsto_const_nhds⟩
    · have hvpos : ∀ᶠ N in atTop, 0 < N * var N := k2.eventually (lt_mem_nhds hV)
      filter_upwards [eventually_ge_atTop 1, hconv n, hmupos, hvpos] with N hN hN2 hN3 hN4
      have hv : 0 < var N := by
        have : (0 : ℝ) < N := by positivity
        exact (mul_pos_iff_of_pos_left this).1 hN4
      have hc := (C43_factor_partial (hm N ω).1 (hm N ω).2 hn hN3 (.inl hv) (he N hN)).1
      rw [if_pos hN2] at hc
      refine ⟨.bare (decide ((vt N ω).backend ≠ .jax))
        (fin (mu N * Real.exp (-((3 + n) / 2 * (var N / mu N ^ 2))))), ?_, .inr ⟨⟨_, rfl⟩, rfl⟩⟩
      unfold ResamplingVT.asSelection
      simp only [hc, ok_bind, pure_eq_ok]
    · have a1 : Tendsto (fun N => var N / mu N ^ 2) atTop (𝓝 0) := by
        have := kv.div (k1.pow 2) (by positivity)
        rw [zero_div] at this
        exact this
      have a2 := (Real.continuous_exp.tendsto _).comp ((a1.const_mul ((3 + n) / 2)).neg)
      have a3 := k1.mul a2
      simpa using a3

/-! ## The events -/

/-- The posterior samples `Y 0, Y 1, ...` of an event with likelihood function `like`, sampling prior `prior`
and evidence `Z`: independent draws from the posterior density `like * prior / Z`. The population density is `p`. -/
structure Spec.EventSamples (P : Measure Ω) (ν : Measure S) (p prior like : S → ℝ) (Z : ℝ)
    (Y : ℕ → Ω → S) : Prop where
  measurable_p : Measurable p
  measurable_prior : Measurable prior
  measurable_like : Measurable like
  prior_pos : ∀ x, 0 < prior x
  like_nonneg : ∀ x, 0 ≤ like x
  evidence_pos : 0 < Z
  measurable_Y : ∀ k, Measurable (Y k)
  law : ∀ k, P.map (Y k) = ν.withDensity fun x => ENNReal.ofReal (like x * prior x / Z)
  indep : Pairwise fun i j => Y i ⟂ᵢ[P] Y j
  integrable : Integrable (fun x => like x * p x) ν
  integrable_sq : Integrable (fun x => like x * p x ^ 2 / prior x) ν

theorem event_converges [IsProbabilityMeasure P] {p prior like : S → ℝ} {Z : ℝ} {Y : ℕ → Ω → S}
    (h : EventSamples P ν p prior like Z Y) :
    ∀ᵐ ω ∂P,
      Tendsto (fun K => mean ((firstN Y K ω).map fun x => p x / prior x)) atTop
        (𝓝 ((∫ x, like x * p x ∂ν) / Z)) ∧
      Tendsto (fun K => mean (((firstN Y K ω).map fun x => p x / prior x).map (· ^ 2))) atTop
        (𝓝 ((∫ x, like x * p x ^ 2 / prior x ∂ν) / Z)) := by
  have hd : Measurable fun x => ENNReal.ofReal (like x * prior x / Z) :=
    ((h.measurable_like.mul h.measurable_prior).div_const Z).ennreal_ofReal
  have hf : ∀ᵐ x ∂ν, ENNReal.ofReal (like x * prior x / Z) < ⊤ :=
    ae_of_all _ fun _ => ENNReal.ofReal_lt_top
  have hnn : ∀ x, (ENNReal.ofReal (like x * prior x / Z)).toReal = like x * prior x / Z := fun x =>
    ENNReal.toReal_ofReal (div_nonneg (mul_nonneg (h.like_nonneg x) (h.prior_pos x).le)
      h.evidence_pos.le)
  have hZ := h.evidence_pos.ne'
  have m1 : Measurable fun x => p x / prior x := h.measurable_p.div h.measurable_prior
  have m2 : Measurable fun x => (p x / prior x) ^ 2 := m1.pow_const 2
  have f1 : ∀ x, (ENNReal.ofReal (like x * prior x / Z)).toReal • (p x / prior x) =
      like x * p x / Z := by
    intro x
    have := (h.prior_pos x).ne'
    rw [hnn, smul_eq_mul]
    field_simp
  have f2 : ∀ x, (ENNReal.ofReal (like x * prior x / Z)).toReal • (p x / prior x) ^ 2 =
      like x * p x ^ 2 / prior x / Z := by
    intro x
    have := (h.prior_pos x).ne'
    rw [hnn, smul_eq_mul]
    field_simp
  have hid : ∀ {f : S → ℝ}, Measurable f → ∀ i,
      IdentDistrib (fun ω => f (Y i ω)) (fun ω => f (Y 0 ω)) P P := by
    intro f hf i
    have : IdentDistrib (Y i) (Y 0) P P :=
      ⟨(h.measurable_Y i).aemeasurable, (h.measurable_Y 0).aemeasurable, by rw [h.law i, h.law 0]⟩
    exact this.comp hf
  have hint : ∀ {f : S → ℝ}, Measurable f →
      Integrable (fun x => (ENNReal.ofReal (like x * prior x / Z)).toReal • f x) ν →
      Integrable (fun ω => f (Y 0 ω)) P := by
    intro f hfm hfi
    have : Integrable f (P.map (Y 0)) := by
      rw [h.law 0, integrable_withDensity_iff_integrable_smul' hd hf]
      exact hfi
    exact this.comp_measurable (h.measurable_Y 0)
  have hval : ∀ {f : S → ℝ}, Measurable f → ∫ ω, f (Y 0 ω) ∂P =
      ∫ x, (ENNReal.ofReal (like x * prior x / Z)).toReal • f x ∂ν := by
    intro f hfm
    rw [← integral_map (h.measurable_Y 0).aemeasurable hfm.aestronglyMeasurable, h.law 0,
      integral_withDensity_eq_integral_toReal_smul hd hf]
  have l1 := strong_law_ae_real (fun i ω => p (Y i ω) / prior (Y i ω))
    (hint m1 (by simp_rw [f1]; exact h.integrable.div_const Z))
    (fun i j hij => (h.indep hij).comp m1 m1) (hid m1)
  have l2 := strong_law_ae_real (fun i ω => (p (Y i ω) / prior (Y i ω)) ^ 2)
    (hint m2 (by simp_rw [f2]; exact h.integrable_sq.div_const Z))
    (fun i j hij => (h.indep hij).comp m2 m2) (hid m2)
  rw [hval m1] at l1
  rw [hval m2] at l2
  simp_rw [f1, integral_div] at l1
  simp_rw [f2, integral_div] at l2
  filter_upwards [l1, l2] with ω k1 k2
  constructor
  · refine k1.congr fun K => ?_
    simp only [mean, firstN, List.map_map, Function.comp_def, sum_list_range, List.length_map,
      List.length_range]
  · refine k2.congr fun K => ?_
    simp only [mean, firstN, List.map_map, Function.comp_def, sum_list_range, List.length_map,
      List.length_range]

/-! ## The likelihood -/

/-- A likelihood for `n` events with `K` samples each, `Y i` being the samples of event `i`. -/
structure Spec.LikelihoodOf {n : ℕ} (L : Likelihood) (φ : Dict Fl) (p : S → ℝ)
    (prior : Fin n → S → ℝ) (Y : Fin n → ℕ → Ω → S) (K : ℕ) (ω : Ω) : Prop where
  cls : L.cls = .hyper
  events : L.nPosteriors = n
  samples : L.samplesPerPosterior = K
  density : L.hyperPrior.prob L.data φ =
    .ok (matFin ((List.finRange n).map fun i => (firstN (Y i) K ω).map p))
  sampling : L.samplingPrior =
    some (matFin ((List.finRange n).map fun i => (firstN (Y i) K ω).map (prior i)))

/-- The exact log-likelihood of `n` events given a population with density `p`: the sum of the log evidence
ratios minus `n` times the log of the found fraction. -/
def Spec.exactLnLikelihood (ν : Measure S) {n : ℕ} (p : S → ℝ) (like : Fin n → S → ℝ) (Z : Fin n → ℝ)
    (D : Set S) : ℝ :=
  ∑ i, Real.log ((∫ x, like i x * p x ∂ν) / Z i) - n * Real.log (∫ x in D, p x ∂ν)

omit [MeasurableSpace S] in
theorem importance_rows {n : ℕ} (p : S → ℝ) (prior : Fin n → S → ℝ) (xs : Fin n → List S) :
    importance ((List.finRange n).map fun i => (xs i).map p)
      (some ((List.finRange n).map fun i => (xs i).map (prior i))) =
    (List.finRange n).map fun i => (xs i).map fun x => p x / prior i x := by
  unfold importance
  simp only [List.zipWith_map, List.zipWith_self]

/-- If the samples are drawn from the posteriors and what the selection function reports converges to `c` with a
variance tending to zero, then the log-likelihood and its variance converge. -/
theorem likelihood_converges [IsProbabilityMeasure P] {θ φ : Dict Fl} {sel : ℕ → Ω → SelectionFn} {c : ℝ}
    (hc : 0 < c)
    (hs : ∀ᵐ ω ∂P, ∃ m v : ℕ → ℝ,
      (∀ᶠ N in atTop, ∃ r, (sel N ω).call φ = .ok r ∧ reports r (m N) (v N)) ∧
      Tendsto m atTop (𝓝 c) ∧ Tendsto v atTop (𝓝 0))
    {n : ℕ} {prior like : Fin n → S → ℝ} {Z : Fin n → ℝ} {Y : Fin n → ℕ → Ω → S}
    (hY : ∀ i, EventSamples P ν p (prior i) (like i) (Z i) (Y i))
    (hev : ∀ i, 0 < ∫ x, like i x * p x ∂ν)
    {L : ℕ → ℕ → Ω → Likelihood} (hL : ∀ K N ω, LikelihoodOf (L K N ω) φ p prior Y K ω)
    (hconv : ∀ K N ω, (L K N ω).conversion θ = .ok φ)
    (hsel : ∀ K N ω, (L K N ω).selection = sel N ω) :
    ∀ᵐ ω ∂P, ∃ l v : ℕ × ℕ → ℝ,
      (∀ᶠ KN in atTop ×ˢ atTop, (L KN.1 KN.2 ω).lnLikelihoodAndVariance θ =
        .ok (fin (l KN), fin (v KN))) ∧
      Tendsto l (atTop ×ˢ atTop)
        (𝓝 (∑ i, Real.log ((∫ x, like i x * p x ∂ν) / Z i) - n * Real.log c)) ∧
      Tendsto v (atTop ×ˢ atTop) (𝓝 0) := by
  have hall : ∀ᵐ ω ∂P, ∀ i : Fin n,
      Tendsto (fun K => mean ((firstN (Y i) K ω).map fun x => p x / prior i x)) atTop
        (𝓝 ((∫ x, like i x * p x ∂ν) / Z i)) ∧
      Tendsto (fun K => mean (((firstN (Y i) K ω).map fun x => p x / prior i x).map (· ^ 2))) atTop
        (𝓝 ((∫ x, like i x * p x ^ 2 / prior i x ∂ν) / Z i)) :=
    ae_all_iff.2 fun i => event_converges (hY i)
  filter_upwards [hall, hs] with ω k1 ⟨m, v, ks, km, kv⟩
  set E : Fin n → ℝ := fun i => (∫ x, like i x * p x ∂ν) / Z i with hE
  have hE0 : ∀ i, 0 < E i := fun i => div_pos (hev i) (hY i).evidence_pos
  set w : Fin n → ℕ → List ℝ := fun i K => (firstN (Y i) K ω).map fun x => p x / prior i x with hw
  have hwl : ∀ i K, (w i K).length = K := by
    intro i K
    simp [hw, firstN]
  have hgoodK : ∀ᶠ K in atTop, ∀ i, 0 < mean (w i K) :=
    eventually_all.2 fun i => (k1 i).1.eventually (lt_mem_nhds (hE0 i))
  have hmpos : ∀ᶠ N in atTop, 0 < m N := km.eventually (lt_mem_nhds hc)
  set W : ℕ → List (List ℝ) := fun K => (List.finRange n).map fun i => w i K with hW
  have hWlen : ∀ K, (W K).length = n := by intro K; simp [hW]
  have hsumW : ∀ (f : List ℝ → ℝ) K, ((W K).map f).sum = ∑ i, f (w i K) := by
    intro f K
    rw [hW]
    simp only [List.map_map, Function.comp_def]
    rw [← List.ofFn_eq_map, List.sum_ofFn]
  refine ⟨fun KN => lnLikelihood (W KN.1) (m KN.2), fun KN =>
    lnLikelihoodVariance (W KN.1) (m KN.2) (v KN.2), ?_, ?_, ?_⟩
  · have hN := ks.and hmpos
    filter_upwards [(hgoodK.prod_mk hN)] with KN ⟨g1, ⟨r, hr, hrep⟩, g3⟩
    obtain ⟨K, N⟩ := KN
    simp only at g1 hr hrep g3 ⊢
    have hL' := hL K N ω
    have hrows := importance_rows p prior fun i => firstN (Y i) K ω
    have hgood : GoodWeights (L K N ω).samplesPerPosterior (importance
        ((List.finRange n).map fun i => (firstN (Y i) K ω).map p)
        (some ((List.finRange n).map fun i => (firstN (Y i) K ω).map (prior i)))) := by
      rw [hrows, hL'.samples]
      intro x hx
      obtain ⟨i, -, rfl⟩ := List.mem_map.1 hx
      exact ⟨hwl i K, g1 i⟩
    have := C44_estimator (self := L K N ω) hL'.cls (hconv K N ω)
      (P := (List.finRange n).map fun i => (firstN (Y i) K ω).map p)
      (prior := some ((List.finRange n).map fun i => (firstN (Y i) K ω).map (prior i)))
      (by rw [hL'.events]; simp) hL'.density hL'.sampling ?_ hgood (by rw [hsel]; exact hr) hrep g3
    · rw [hrows] at this
      exact this
    · intro Q hQ
      cases hQ
      refine ⟨by simp [List.map_map, Function.comp_def], ?_⟩
      intro qr hq x hx
      obtain ⟨i, -, rfl⟩ := List.mem_map.1 hq
      obtain ⟨y, -, rfl⟩ := List.mem_map.1 hx
      exact ((hY i).prior_pos y).ne'
  · unfold lnLikelihood
    simp only [hsumW, hWlen]
    refine Tendsto.sub ?_ ?_
    · refine tendsto_finsetSum _ fun i _ => ?_
      unfold lnBayesFactor
      have := ((Real.continuousAt_log (hE0 i).ne').tendsto.comp (k1 i).1).comp
        (tendsto_fst (f := atTop (α := ℕ)) (g := atTop (α := ℕ)))
      exact this
    · have := ((Real.continuousAt_log hc.ne').tendsto.comp km).comp
        (tendsto_snd (f := atTop (α := ℕ)) (g := atTop (α := ℕ)))
      exact this.const_mul _
  · unfold lnLikelihoodVariance
    simp only [hsumW, hWlen]
    rw [show (0 : ℝ) = (∑ _i : Fin n, (0 : ℝ)) + (n : ℝ) ^ 2 * (0 / c ^ 2) by simp]
    refine Tendsto.add (tendsto_finsetSum _ fun i _ => ?_) ?_
    · unfold relativeVariance
      have hK : Tendsto (fun K : ℕ => (1 : ℝ) / K) atTop (𝓝 0) := tendsto_one_div_atTop_nhds_zero_nat
      have t1 := hK.mul ((((k1 i).2).sub ((k1 i).1.pow 2)).div ((k1 i).1.pow 2)
        (pow_ne_zero 2 (hE0 i).ne'))
      rw [zero_mul] at t1
      have t2 := t1.comp (tendsto_fst (f := atTop (α := ℕ)) (g := atTop (α := ℕ)))
      refine t2.congr fun KN => ?_
      simp only [Function.comp, hwl, Pi.div_apply]
      rw [div_mul_div_comm, one_mul]
    · have t := (kv.div (km.pow 2) (by positivity)).comp
        (tendsto_snd (f := atTop (α := ℕ)) (g := atTop (α := ℕ)))
      exact t.const_mul _

/-- **C82.** Almost surely, as the number of posterior samples per event and the number of injections grow, in
any order and at any rate, `ln_likelihood_and_variance` eventually returns real numbers, the log-likelihood
converges to the exact one and the variance to zero. -/
theorem C82_likelihood [IsProbabilityMeasure P] (h : Campaign P ν p q D X)
    (hind : Pairwise fun i j => X i ⟂ᵢ[P] X j) (h2 : IntegrableOn (fun x => p x ^ 2 / q x) D ν)
    (hpos : 0 < ∫ x in D, p x ∂ν) {θ φ : Dict Fl} {vt : ℕ → Ω → ResamplingVT}
    (hvt : ∀ N ≥ 1, ∀ ω, BuiltFrom (vt N ω) φ p q D (firstN X N ω))
    (hmode : Mode vt ((∫ x in D, p x ^ 2 / q x ∂ν) - (∫ x in D, p x ∂ν) ^ 2))
    {n : ℕ} {prior like : Fin n → S → ℝ} {Z : Fin n → ℝ} {Y : Fin n → ℕ → Ω → S}
    (hY : ∀ i, EventSamples P ν p (prior i) (like i) (Z i) (Y i))
    (hev : ∀ i, 0 < ∫ x, like i x * p x ∂ν)
    {L : ℕ → ℕ → Ω → Likelihood} (hL : ∀ K N ω, LikelihoodOf (L K N ω) φ p prior Y K ω)
    (hconv : ∀ K N ω, (L K N ω).conversion θ = .ok φ)
    (hsel : ∀ K N ω, (L K N ω).selection = (vt N ω).asSelection) :
    ∀ᵐ ω ∂P, ∃ l v : ℕ × ℕ → ℝ,
      (∀ᶠ KN in atTop ×ˢ atTop, (L KN.1 KN.2 ω).lnLikelihoodAndVariance θ =
        .ok (fin (l KN), fin (v KN))) ∧
      Tendsto l (atTop ×ˢ atTop) (𝓝 (exactLnLikelihood ν p like Z D)) ∧
      Tendsto v (atTop ×ˢ atTop) (𝓝 0) :=
  likelihood_converges (sel := fun N ω => (vt N ω).asSelection) hpos
    (C82_selection h hind h2 hpos hvt hmode) hY hev hL hconv hsel

/-! ## Non-vacuity -/

omit [MeasurableSpace S] in
/-- For all injections a selection function can be constructed, in each mode. -/
theorem exists_built (planck15 : Cosmology) (θ : Dict Fl) (p q : S → ℝ) (D : Set S) (xs : List S)
    (marg enf : Bool) (n : Fl) : ∃ vt, BuiltFrom vt θ p q D xs ∧ vt.marginalizeUncertainty = marg ∧
      vt.enforceConvergence = enf ∧ vt.nEvents = n := by
  have hinit : ∃ r, ResamplingVT.init .numpy planck15
      ⟨[], fun _ _ => .ok ((found D xs).map fun x => fin (p x))⟩
      [("prior", .arr ((found D xs).map fun x => fin (q x))),
        ("total_generated", .num true (fin xs.length))] n marg enf = .ok r ∧
      r.1.marginalizeUncertainty = marg ∧ r.1.enforceConvergence = enf ∧ r.1.nEvents = n := by
    refine ⟨_, rfl, rfl, rfl, rfl⟩
  obtain ⟨⟨vt, d⟩, h, h1, h2, h3⟩ := hinit
  refine ⟨vt, ⟨_, _, _, _, _, _, _, _, h, rfl, ?_, true, ?_⟩, h1, h2, h3⟩
  · simp [Dict.get?_cons]
  · simp [Dict.get?_cons]

/-- The hypotheses of C81 and C82 hold: uniform injections and posterior samples on the unit interval, a
population density `2 x`, injections found above one half; the convergence check with ten events. -/
example (planck15 : Cosmology) : ∃ (Ω : Type) (_ : MeasurableSpace Ω) (P : Measure Ω)
    (_ : IsProbabilityMeasure P) (L : ℕ → ℕ → Ω → Likelihood),
    ∀ᵐ ω ∂P, ∃ l v : ℕ × ℕ → ℝ,
      (∀ᶠ KN in atTop ×ˢ atTop, (L KN.1 KN.2 ω).lnLikelihoodAndVariance [] =
        .ok (fin (l KN), fin (v KN))) ∧
      Tendsto l (atTop ×ˢ atTop) (𝓝 (-Real.log (3 / 4))) ∧
      Tendsto v (atTop ×ˢ atTop) (𝓝 0) := by
  set ν : Measure ℝ := volume.restrict (Set.Ioc 0 1) with hν
  have : IsProbabilityMeasure ν := ⟨by simp [hν]⟩
  obtain ⟨Ω, mΩ, P, X, hXm, hXl, hXi, hP⟩ := exists_iid ℕ ν
  have hlaw : ∀ i, P.map (X i) = ν.withDensity fun _ => ENNReal.ofReal 1 := by
    intro i
    rw [(hXl i).map_eq]
    simp
  have hindep : Pairwise fun i j => X i ⟂ᵢ[P] X j := fun i j hij => hXi.indepFun hij
  set p : ℝ → ℝ := fun x => 2 * x with hp
  set D : Set ℝ := Set.Ioc (1 / 2) 1 with hD
  have hcont : ∀ f : ℝ → ℝ, Continuous f → Integrable f ν := fun f hf =>
    (hf.integrableOn_Icc).mono_set Set.Ioc_subset_Icc_self
  have hpm : Measurable p := by fun_prop
  have hc : Campaign P ν p (fun _ => 1) D X :=
    ⟨hpm, measurable_const, measurableSet_Ioc, fun _ _ => one_pos, hXm, hlaw,
      (hcont p (by fun_prop)).integrableOn⟩
  have hDi : ∀ f : ℝ → ℝ, ∫ x in D, f x ∂ν = ∫ x in (1 / 2 : ℝ)..1, f x := by
    intro f
    rw [hν, Measure.restrict_restrict measurableSet_Ioc,
      intervalIntegral.integral_of_le (by norm_num)]
    congr 2
    ext x
    simp only [hD, Set.mem_inter_iff, Set.mem_Ioc]
    constructor
    · exact fun h => h.1
    · exact fun h => ⟨h, by linarith [h.1], h.2⟩
  have hi1 : ∫ x in D, p x ∂ν = 3 / 4 := by
    rw [hDi, hp, intervalIntegral.integral_const_mul, integral_id]
    norm_num
  have hi2 : ∫ x, (1 : ℝ) * p x ∂ν = 1 := by
    rw [hν, ← intervalIntegral.integral_of_le (by norm_num), hp]
    simp only [one_mul]
    rw [intervalIntegral.integral_const_mul, integral_id]
    norm_num
  choose vt hvt using fun (N : ℕ) (ω : Ω) =>
    exists_built planck15 [] p (fun _ => 1) D (firstN X N ω) false true (fin 10)
  let L : ℕ → ℕ → Ω → Likelihood := fun K N ω =>
    { cls := .hyper, backend := .numpy, data := []
      hyperPrior := ⟨[], fun _ _ =>
        .ok (matFin ((List.finRange 1).map fun _ => (firstN X K ω).map p))⟩
      samplingPrior := some (matFin ((List.finRange 1).map fun _ => (firstN X K ω).map fun _ => 1))
      totalNoiseEvidence := 0, conversion := fun θ => .ok θ, selection := (vt N ω).asSelection
      nPosteriors := 1, samplesPerPosterior := K, maximumUncertainty := pinf, maxVariance := pinf }
  refine ⟨Ω, mΩ, P, hP, L, ?_⟩
  have := C82_likelihood (L := L) (θ := []) (φ := []) (n := 1) (like := fun _ _ => 1)
    (prior := fun _ _ => 1) (Z := fun _ => 1) (Y := fun _ => X) hc hindep
    (hcont (fun x => p x ^ 2 / 1) (by fun_prop)).integrableOn (by rw [hi1]; norm_num)
    (fun N _ ω => (hvt N ω).1)
    (.inr (.inl ⟨10, fun N ω => ⟨(hvt N ω).2.1, (hvt N ω).2.2.1, (hvt N ω).2.2.2⟩⟩))
    (fun _ => ⟨hpm, measurable_const, measurable_const, fun _ => one_pos, fun _ => zero_le_one, one_pos,
      hXm, by simpa using hlaw, hindep, hcont _ (by fun_prop), hcont _ (by fun_prop)⟩)
    (fun _ => by rw [hi2]; norm_num) (fun K N ω => ⟨rfl, rfl, rfl, rfl, rfl⟩) (fun _ _ _ => rfl)
    (fun _ _ _ => rfl)
  have he : exactLnLikelihood ν p (fun (_ : Fin 1) _ => 1) (fun _ => 1) D = -Real.log (3 / 4) := by
    unfold exactLnLikelihood
    rw [hi1]
    simp only [hi2]
    simp
  rw [he] at this
  exact this

end GW
