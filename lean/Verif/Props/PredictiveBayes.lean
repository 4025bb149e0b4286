import Verif.Props.PredictiveLimit

/-!
# C107: with hyper-samples from the hyper-posterior, resampling gives the full hierarchical posterior
-/

noncomputable section

open MeasureTheory ProbabilityTheory Filter Topology Classical

namespace GW

open Fl Spec

variable {S Ω T Ω' : Type} [MeasurableSpace S] [MeasurableSpace Ω] [MeasurableSpace T] [MeasurableSpace Ω']
variable {P : Measure Ω} {ν : Measure S} {P' : Measure Ω'} {π : Measure T}

/-- The hierarchical model: hyper-parameters `t` with prior `π`, a catalogue of `n` events with parameters `x`
distributed as the detectable part `D` of the population `p t`, data with likelihood functions `like`. This is the
posterior mean of `g` at the parameters of event `i`, all hyper-parameters and the parameters of all other events
being marginalised over. -/
def Spec.hierarchicalMean {n : ℕ} (π : Measure T) (ν : Measure S) (p : T → S → ℝ) (D : Set S)
    (like : Fin n → S → ℝ) (i : Fin n) (g : S → ℝ) : ℝ :=
  (∫ t, ∫ x : Fin n → S, g (x i) * ∏ k, (like k (x k) * p t (x k) / ∫ y in D, p t y ∂ν)
      ∂(Measure.pi fun _ => ν) ∂π) /
    ∫ t, ∫ x : Fin n → S, ∏ k, (like k (x k) * p t (x k) / ∫ y in D, p t y ∂ν)
      ∂(Measure.pi fun _ => ν) ∂π

/-- Hyper-parameter samples `T 0, T 1, ...`: independent draws from the posterior with prior `π` and the exact
likelihood, the one the package estimates. -/
structure Spec.HyperSamples (P' : Measure Ω') (π : Measure T) (lnL : T → ℝ) (Λ : ℕ → Ω' → T) : Prop where
  measurable_lnL : Measurable lnL
  integrable : Integrable (fun t => Real.exp (lnL t)) π
  evidence_pos : 0 < ∫ t, Real.exp (lnL t) ∂π
  measurable_Λ : ∀ k, Measurable (Λ k)
  law : ∀ k, P'.map (Λ k) =
    π.withDensity fun t => ENNReal.ofReal (Real.exp (lnL t) / ∫ t, Real.exp (lnL t) ∂π)
  indep : Pairwise fun i j => Λ i ⟂ᵢ[P'] Λ j

theorem exp_exact {n : ℕ} {p : S → ℝ} {like : Fin n → S → ℝ} {Z : Fin n → ℝ} {D : Set S}
    (hZ : ∀ i, 0 < Z i) (hev : ∀ i, 0 < ∫ x, like i x * p x ∂ν) (hD : 0 < ∫ x in D, p x ∂ν) :
    Real.exp (exactLnLikelihood ν p like Z D) =
      ∏ i, ((∫ x, like i x * p x ∂ν) / Z i / ∫ x in D, p x ∂ν) := by
  unfold exactLnLikelihood
  rw [Real.exp_sub, Real.exp_sum, Real.exp_nat_mul, Real.exp_log hD, Finset.prod_div_distrib,
    Finset.prod_const, Finset.card_univ, Fintype.card_fin]
  congr 1
  exact Finset.prod_congr rfl fun i _ => Real.exp_log (div_pos (hev i) (hZ i))

/-- The parameters of the other events integrate out. -/
theorem catalogue_integral [SigmaFinite ν] {n : ℕ} {p : S → ℝ} {like : Fin n → S → ℝ} {Z : Fin n → ℝ}
    {D : Set S} (hZ : ∀ i, 0 < Z i) (hev : ∀ i, 0 < ∫ x, like i x * p x ∂ν)
    (hD : 0 < ∫ x in D, p x ∂ν) (i : Fin n) (g : S → ℝ) :
    ∫ x : Fin n → S, g (x i) * ∏ k, (like k (x k) * p (x k) / ∫ y in D, p y ∂ν)
        ∂(Measure.pi fun _ => ν) =
      (∏ k, Z k) * (Real.exp (exactLnLikelihood ν p like Z D) * informedMean ν (like i) p g) := by
  have e : (fun x : Fin n → S => g (x i) * ∏ k, (like k (x k) * p (x k) / ∫ y in D, p y ∂ν)) =
      fun x => ∏ k, (if k = i then g (x k) else 1) * (like k (x k) * p (x k) / ∫ y in D, p y ∂ν) := by
    funext x
    rw [Finset.prod_mul_distrib, Finset.prod_ite_eq' Finset.univ i fun k => g (x k),
      if_pos (Finset.mem_univ i)]
  rw [e, integral_fintype_prod_eq_prod (fun k x => (if k = i then g x else 1) *
    (like k x * p x / ∫ y in D, p y ∂ν)), exp_exact hZ hev hD]
  have hk : ∀ k, ∫ x, (if k = i then g x else 1) * (like k x * p x / ∫ y in D, p y ∂ν) ∂ν =
      Z k * ((∫ x, like k x * p x ∂ν) / Z k / ∫ x in D, p x ∂ν) *
        if k = i then informedMean ν (like i) p g else 1 := by
    intro k
    have h1 := (hZ k).ne'
    have h2 := (hev k).ne'
    by_cases hki : k = i
    · subst hki
      simp only [if_true]
      unfold informedMean
      have : ∀ x, g x * (like k x * p x / ∫ y in D, p y ∂ν) = like k x * p x * g x / ∫ y in D, p y ∂ν :=
        fun x => by ring
      simp_rw [this, integral_div]
      field_simp
    · simp only [hki, if_false, one_mul, mul_one, integral_div]
      field_simp
  simp_rw [hk, Finset.prod_mul_distrib]
  rw [Finset.prod_ite_eq' Finset.univ i fun _ => informedMean ν (like i) p g,
    if_pos (Finset.mem_univ i), mul_assoc]

theorem catalogue_evidence [SigmaFinite ν] {n : ℕ} {p : S → ℝ} {like : Fin n → S → ℝ} {Z : Fin n → ℝ}
    {D : Set S} (hZ : ∀ i, 0 < Z i) (hev : ∀ i, 0 < ∫ x, like i x * p x ∂ν)
    (hD : 0 < ∫ x in D, p x ∂ν) :
    ∫ x : Fin n → S, ∏ k, (like k (x k) * p (x k) / ∫ y in D, p y ∂ν) ∂(Measure.pi fun _ => ν) =
      (∏ k, Z k) * Real.exp (exactLnLikelihood ν p like Z D) := by
  rw [integral_fintype_prod_eq_prod (fun k x => like k x * p x / ∫ y in D, p y ∂ν), exp_exact hZ hev hD,
    ← Finset.prod_mul_distrib]
  refine Finset.prod_congr rfl fun k _ => ?_
  have h1 := (hZ k).ne'
  rw [integral_div]
  field_simp

/-- Averaging the population-informed posterior means over the hyper-posterior is the mean under the full
hierarchical posterior. -/
theorem C107_marginal [SigmaFinite ν] {n : ℕ} {p : T → S → ℝ} {like : Fin n → S → ℝ} {Z : Fin n → ℝ}
    {D : Set S} (hZ : ∀ i, 0 < Z i) (hev : ∀ t i, 0 < ∫ x, like i x * p t x ∂ν)
    (hD : ∀ t, 0 < ∫ x in D, p t x ∂ν) (i : Fin n) (g : S → ℝ) :
    (∫ t, Real.exp (exactLnLikelihood ν (p t) like Z D) * informedMean ν (like i) (p t) g ∂π) /
        ∫ t, Real.exp (exactLnLikelihood ν (p t) like Z D) ∂π =
      hierarchicalMean π ν p D like i g := by
  unfold hierarchicalMean
  simp_rw [fun t => catalogue_integral (p := p t) hZ (hev t) (hD t) i g,
    fun t => catalogue_evidence (p := p t) hZ (hev t) (hD t), integral_const_mul]
  rw [mul_div_mul_left _ _ (Finset.prod_ne_zero_iff.2 fun k _ => (hZ k).ne')]

/-- The average over the hyper-samples converges to the mean under the full posterior. -/
theorem hyper_average [IsProbabilityMeasure P'] [SigmaFinite ν] {n : ℕ} {p : T → S → ℝ}
    {like : Fin n → S → ℝ} {Z : Fin n → ℝ} {D : Set S} (hZ : ∀ i, 0 < Z i)
    (hev : ∀ t i, 0 < ∫ x, like i x * p t x ∂ν) (hD : ∀ t, 0 < ∫ x in D, p t x ∂ν)
    (hp : Measurable (Function.uncurry p)) (hlike : ∀ i, Measurable (like i)) {Λ : ℕ → Ω' → T}
    (h : HyperSamples P' π (fun t => exactLnLikelihood ν (p t) like Z D) Λ) (i : Fin n) {g : S → ℝ}
    (hg : Measurable g)
    (hint : Integrable (fun t => Real.exp (exactLnLikelihood ν (p t) like Z D) *
      informedMean ν (like i) (p t) g) π) :
    ∀ᵐ η ∂P', Tendsto (fun m : ℕ => (∑ k ∈ Finset.range m,
      informedMean ν (like i) (p (Λ k η)) g) / m) atTop (𝓝 (hierarchicalMean π ν p D like i g)) := by
  set lnL : T → ℝ := fun t => exactLnLikelihood ν (p t) like Z D with hlnL
  set N := ∫ t, Real.exp (lnL t) ∂π with hN
  have hNpos : 0 < N := h.evidence_pos
  have m : Measurable fun t => informedMean ν (like i) (p t) g := by
    unfold informedMean
    refine Measurable.div ?_ ?_
    · refine (StronglyMeasurable.integral_prod_right (f := fun t x => like i x * p t x * g x) ?_).measurable
      exact ((((hlike i).comp measurable_snd).mul hp).mul (hg.comp measurable_snd)).stronglyMeasurable
    · refine (StronglyMeasurable.integral_prod_right (f := fun t x => like i x * p t x) ?_).measurable
      exact (((hlike i).comp measurable_snd).mul hp).stronglyMeasurable
  have hd : Measurable fun t => ENNReal.ofReal (Real.exp (lnL t) / N) :=
    (h.measurable_lnL.exp.div_const N).ennreal_ofReal
  have hf : ∀ᵐ t ∂π, ENNReal.ofReal (Real.exp (lnL t) / N) < ⊤ :=
    ae_of_all _ fun _ => ENNReal.ofReal_lt_top
  have f1 : ∀ t, (ENNReal.ofReal (Real.exp (lnL t) / N)).toReal • informedMean ν (like i) (p t) g =
      Real.exp (lnL t) * informedMean ν (like i) (p t) g / N := by
    intro t
    rw [ENNReal.toReal_ofReal (by positivity), smul_eq_mul]
    ring
  have hid : ∀ k, IdentDistrib (fun η => informedMean ν (like i) (p (Λ k η)) g)
      (fun η => informedMean ν (like i) (p (Λ 0 η)) g) P' P' := by
    intro k
    have : IdentDistrib (Λ k) (Λ 0) P' P' :=
      ⟨(h.measurable_Λ k).aemeasurable, (h.measurable_Λ 0).aemeasurable, by rw [h.law k, h.law 0]⟩
    exact this.comp m
  have hi : Integrable (fun η => informedMean ν (like i) (p (Λ 0 η)) g) P' := by
    have : Integrable (fun t => informedMean ν (like i) (p t) g) (P'.map (Λ 0)) := by
      rw [h.law 0, integrable_withDensity_iff_integrable_smul' hd hf]
      simp_rw [f1]
      exact hint.div_const N
    exact this.comp_measurable (h.measurable_Λ 0)
  have hval : ∫ η, informedMean ν (like i) (p (Λ 0 η)) g ∂P' = hierarchicalMean π ν p D like i g := by
    rw [← integral_map (f := fun t => informedMean ν (like i) (p t) g) (h.measurable_Λ 0).aemeasurable
      m.aestronglyMeasurable, h.law 0, integral_withDensity_eq_integral_toReal_smul hd hf]
    simp_rw [f1, integral_div]
    exact C107_marginal hZ hev hD i g
  have l1 := strong_law_ae_real (fun k η => informedMean ν (like i) (p (Λ k η)) g) hi
    (fun a b hab => (h.indep hab).comp m m) hid
  rw [hval] at l1
  exact l1

/-- **C107** for hyper-samples drawn from the hyper-posterior, the one of the likelihood the package estimates: as
the number of posterior samples per event and then the number of hyper-samples grow, resampling gives the posterior
mean under the full hierarchical model. -/
theorem C107_hierarchical [IsProbabilityMeasure P] [IsProbabilityMeasure P'] [SigmaFinite ν] {n : ℕ}
    {prior like : Fin n → S → ℝ} {Z : Fin n → ℝ} {Y : Fin n → ℕ → Ω → S}
    (hY : ∀ i, EventDraws P ν (prior i) (like i) (Z i) (Y i)) {asDict : T → Dict Fl}
    {p : Dict Fl → S → ℝ} (hpm : Measurable (Function.uncurry fun t => p (asDict t)))
    (hp : ∀ t i, Possible ν (like i) (p (asDict t))) {D : Set S}
    (hD : ∀ t, 0 < ∫ x in D, p (asDict t) x ∂ν) {Λ : ℕ → Ω' → T}
    (h : HyperSamples P' π (fun t => exactLnLikelihood ν (p (asDict t)) like Z D) Λ) {g : S → ℝ}
    (hg : Measurable g) (hi : ∀ t i, Integrable (fun x => like i x * p (asDict t) x * g x) ν)
    (hi2 : ∀ t i, Integrable (fun x => like i x * p (asDict t) x * g x ^ 2) ν)
    (hint : ∀ i, Integrable (fun t => Real.exp (exactLnLikelihood ν (p (asDict t)) like Z D) *
      informedMean ν (like i) (p (asDict t)) g) π) {column : Dict (S → ℝ)}
    {samples : ℕ → Ω' → List (Dict Fl)}
    (hsamples : ∀ m η, samples m η = (firstN Λ m η).map asDict)
    {L : ℕ → ℕ → Ω' → Ω → Likelihood}
    (hL : ∀ m K η ω, ResamplesFrom (L m K η ω) (samples m η) p prior column Y K ω) :
    ∀ᵐ η ∂P', ∀ᵐ ω ∂P, ∃ (W : ℕ → ℕ → Fin n → ℕ → ℝ) (limit : ℕ → Fin n → ℝ),
      (∀ m ≥ 1, ∀ᶠ K in atTop, ∀ c : Fin n → Fin K → Fin K,
        (L m K η ω).posteriorPredictiveResample (samples m η) (choiceLists c) =
          .ok (drawnData column Y ω c,
            matFin ((List.finRange n).map fun i => (List.range K).map (W m K i)))) ∧
      (∀ m ≥ 1, ∀ i,
        Tendsto (fun K => ∑ j ∈ Finset.range K, W m K i j * g (Y i j ω)) atTop (𝓝 (limit m i)) ∧
        Tendsto (fun K => choiceMean (W m K i) fun c : Fin K → Fin K =>
          ((∑ k, g (Y i (c k) ω)) / K - limit m i) ^ 2) atTop (𝓝 0)) ∧
      ∀ i, Tendsto (fun m => limit m i) atTop
        (𝓝 (hierarchicalMean π ν (fun t => p (asDict t)) D like i g)) := by
  have a : ∀ᵐ η ∂P', ∀ i, _ := ae_all_iff.2 fun i => hyper_average (fun i => (hY i).evidence_pos)
    (fun t i => (hp t i).pos) hD hpm (fun i => (hY i).measurable_like) h i hg (hint i)
  filter_upwards [a] with η hη
  have b : ∀ᵐ ω ∂P, ∀ m : ℕ, m ≥ 1 → _ := ae_all_iff.2 fun m => by
    by_cases hm : m ≥ 1
    · have hmem : ∀ s ∈ samples m η, ∃ t, s = asDict t := by
        intro s hs
        rw [hsamples] at hs
        obtain ⟨t, -, rfl⟩ := List.mem_map.1 hs
        exact ⟨t, rfl⟩
      have hne : samples m η ≠ [] := by
        rw [hsamples]
        simp [firstN]
        omega
      filter_upwards [C107_resample hY hne (fun s hs i => by obtain ⟨t, rfl⟩ := hmem s hs; exact hp t i)
        hg (fun s hs i => by obtain ⟨t, rfl⟩ := hmem s hs; exact hi t i)
        (fun s hs i => by obtain ⟨t, rfl⟩ := hmem s hs; exact hi2 t i)
        (fun K ω => hL m K η ω)] with ω hω _
      exact hω
    · exact ae_of_all _ fun ω hm' => absurd hm' hm
  filter_upwards [b] with ω hω
  choose! W h1 h2 h3 using hω
  refine ⟨W, fun m i => averageMean ν (like i) g p (samples m η), h1, h3, fun i => ?_⟩
  refine (hη i).congr fun m => ?_
  unfold averageMean
  dsimp only
  rw [hsamples]
  unfold firstN
  simp only [List.map_map, Function.comp_def, sum_list_range, List.length_map, List.length_range]

/-! ## Non-vacuity -/

/-- Two populations on the unit interval: uniform or proportional to the parameter. -/
def toyPopulation (d : Dict Fl) (x : ℝ) : ℝ := if d = [] then 1 else 2 * |x|

def toyHyper : Bool → Dict Fl
  | true => [("peak", 1)]
  | false => []

theorem unit_integral {f h : ℝ → ℝ} (hfh : ∀ x, 0 < x → f x = h x) :
    ∫ x, f x ∂(volume.restrict (Set.Ioc 0 1)) = ∫ x in (0 : ℝ)..1, h x := by
  rw [intervalIntegral.integral_of_le zero_le_one]
  exact setIntegral_congr_fun measurableSet_Ioc fun x hx => hfh x hx.1

/-- The hypotheses of C107 hold: one event with likelihood function `2 x` on the unit interval and a uniform sampling
prior, two populations with equal prior weight. The population-informed posterior mean of the parameter is `5 / 7`. -/
example : ∃ (Ω Ω' : Type) (_ : MeasurableSpace Ω) (_ : MeasurableSpace Ω') (P : Measure Ω)
    (P' : Measure Ω') (_ : IsProbabilityMeasure P) (_ : IsProbabilityMeasure P')
    (Y : ℕ → Ω → ℝ) (samples : ℕ → Ω' → List (Dict Fl)) (L : ℕ → ℕ → Ω' → Ω → Likelihood),
    ∀ᵐ η ∂P', ∀ᵐ ω ∂P, ∃ (W : ℕ → ℕ → ℕ → ℝ) (limit : ℕ → ℝ),
      (∀ m ≥ 1, ∀ᶠ K in atTop, ∀ c : Fin K → Fin K,
        (L m K η ω).posteriorPredictiveResample (samples m η)
          [(List.finRange K).map fun k => (c k : ℕ)] =
          .ok ([("a", [(List.finRange K).map fun k => fin (Y (c k) ω)])],
            [(List.range K).map fun j => fin (W m K j)])) ∧
      (∀ m ≥ 1, Tendsto (fun K => ∑ j ∈ Finset.range K, W m K j * Y j ω) atTop (𝓝 (limit m))) ∧
      Tendsto limit atTop (𝓝 (5 / 7)) := by
  set ν : Measure ℝ := volume.restrict (Set.Ioc 0 1) with hν
  have : IsProbabilityMeasure ν := ⟨by simp [hν]⟩
  have hcont : ∀ f : ℝ → ℝ, Continuous f → Integrable f ν := fun f hf =>
    (hf.integrableOn_Icc).mono_set Set.Ioc_subset_Icc_self
  set like : ℝ → ℝ := fun x => 2 * |x| with hlike
  have hlikec : Continuous like := by fun_prop
  have hpc : ∀ t, Continuous (toyPopulation (toyHyper t)) := by
    intro t
    unfold toyPopulation toyHyper
    cases t
    · simpa using continuous_const
    · simp only [reduceCtorEq, if_false]
      fun_prop
  have i1 : ∫ x in (0 : ℝ)..1, x = 1 / 2 := by rw [integral_id]; norm_num
  have i2 : ∫ x in (0 : ℝ)..1, x ^ 2 = 1 / 3 := by rw [integral_pow]; norm_num
  have i3 : ∫ x in (0 : ℝ)..1, x ^ 3 = 1 / 4 := by rw [integral_pow]; norm_num
  have hZ : ∫ x, like x ∂ν = 1 := by
    rw [hν, unit_integral (h := fun x => 2 * x) fun x hx => by rw [hlike]; simp [abs_of_pos hx],
      intervalIntegral.integral_const_mul, i1]
    norm_num
  have hpf : toyPopulation (toyHyper false) = fun _ => 1 := by
    funext x
    simp [toyPopulation, toyHyper]
  have hpt : toyPopulation (toyHyper true) = fun x => 2 * |x| := by
    funext x
    simp [toyPopulation, toyHyper]
  have evf : ∫ x, like x * toyPopulation (toyHyper false) x ∂ν = 1 := by
    rw [hpf]
    simpa using hZ
  have evt : ∫ x, like x * toyPopulation (toyHyper true) x ∂ν = 4 / 3 := by
    rw [hpt, hν, unit_integral (h := fun x => 4 * x ^ 2) fun x hx => by
      rw [hlike]; simp only [abs_of_pos hx]; ring, intervalIntegral.integral_const_mul, i2]
    norm_num
  have gf : ∫ x, like x * toyPopulation (toyHyper false) x * x ∂ν = 2 / 3 := by
    rw [hpf, hν, unit_integral (h := fun x => 2 * x ^ 2) fun x hx => by
      rw [hlike]; simp only [abs_of_pos hx]; ring, intervalIntegral.integral_const_mul, i2]
    norm_num
  have gt : ∫ x, like x * toyPopulation (toyHyper true) x * x ∂ν = 1 := by
    rw [hpt, hν, unit_integral (h := fun x => 4 * x ^ 3) fun x hx => by
      rw [hlike]; simp only [abs_of_pos hx]; ring, intervalIntegral.integral_const_mul, i3]
    norm_num
  have hnorm : ∀ t, ∫ x in Set.univ, toyPopulation (toyHyper t) x ∂ν = 1 := by
    intro t
    rw [Measure.restrict_univ]
    cases t
    · rw [hpf]; simp
    · rw [hpt]; exact hZ
  have hpos : ∀ t, 0 < ∫ x, like x * toyPopulation (toyHyper t) x ∂ν := by
    intro t
    cases t
    · rw [evf]; norm_num
    · rw [evt]; norm_num
  have hposs : ∀ t, Possible ν like (toyPopulation (toyHyper t)) := fun t =>
    ⟨(hpc t).measurable, fun x => by
      unfold toyPopulation
      split_ifs
      · exact zero_le_one
      · positivity, hcont _ (hlikec.mul (hpc t)), hpos t⟩
  -- posterior samples
  have prob1 : IsProbabilityMeasure (ν.withDensity fun x => ENNReal.ofReal (like x * 1 / 1)) := by
    refine ⟨?_⟩
    rw [withDensity_apply _ MeasurableSet.univ, Measure.restrict_univ,
      ← ofReal_integral_eq_lintegral_ofReal (by simpa using hcont _ hlikec)
        (ae_of_all _ fun x => by simp [hlike])]
    simp [hZ]
  obtain ⟨Ω, mΩ, P, Y, hYm, hYl, hYi, hP⟩ := exists_iid ℕ
    (ν.withDensity fun x => ENNReal.ofReal (like x * 1 / 1))
  have hY : EventDraws P ν (fun _ => 1) like 1 Y :=
    ⟨measurable_const, hlikec.measurable, fun _ => one_pos, fun x => by simp [hlike], one_pos, hYm,
      fun k => (hYl k).map_eq, fun i j hij => hYi.indepFun hij⟩
  -- hyper-samples
  set lnL : Bool → ℝ := fun t => exactLnLikelihood ν (toyPopulation (toyHyper t)) (fun _ : Fin 1 => like)
    (fun _ => 1) Set.univ with hlnL
  have hexp : ∀ t, Real.exp (lnL t) = ∫ x, like x * toyPopulation (toyHyper t) x ∂ν := by
    intro t
    rw [hlnL]
    dsimp only
    rw [exp_exact (fun _ => one_pos) (fun _ => hpos t) (by rw [hnorm]; norm_num), hnorm]
    simp
  have hN : ∫ t, Real.exp (lnL t) ∂Measure.count = 7 / 3 := by
    rw [integral_count]
    simp only [hexp, Fintype.sum_bool, evf, evt]
    norm_num
  have hintT : ∀ f : Bool → ℝ, Integrable f Measure.count := fun f => .of_finite
  have prob2 : IsProbabilityMeasure (Measure.count.withDensity fun t =>
      ENNReal.ofReal (Real.exp (lnL t) / ∫ t, Real.exp (lnL t) ∂Measure.count)) := by
    refine ⟨?_⟩
    rw [withDensity_apply _ MeasurableSet.univ, Measure.restrict_univ,
      ← ofReal_integral_eq_lintegral_ofReal (hintT _)
        (ae_of_all _ fun x => by rw [hN]; simp only [Pi.zero_apply]; positivity), integral_div,
      div_self (by rw [hN]; norm_num)]
    simp
  obtain ⟨Ω', mΩ', P', Λ, hΛm, hΛl, hΛi, hP'⟩ := exists_iid ℕ (Measure.count.withDensity fun t =>
    ENNReal.ofReal (Real.exp (lnL t) / ∫ t, Real.exp (lnL t) ∂Measure.count))
  have hΛ : HyperSamples P' Measure.count lnL Λ :=
    ⟨measurable_of_countable _, hintT _, by rw [hN]; norm_num, hΛm, fun k => (hΛl k).map_eq,
      fun i j hij => hΛi.indepFun hij⟩
  let L : ℕ → ℕ → Ω' → Ω → Likelihood := fun m K η ω =>
    { cls := .hyper, backend := .numpy
      data := [("a", matFin ((List.finRange 1).map fun _ => (firstN Y K ω).map id))]
      hyperPrior := ⟨[], fun _ φ =>
        .ok (matFin ((List.finRange 1).map fun _ => (firstN Y K ω).map (toyPopulation φ)))⟩
      samplingPrior := some (matFin ((List.finRange 1).map fun _ => (firstN Y K ω).map fun _ => 1))
      totalNoiseEvidence := 0, conversion := fun θ => .ok θ
      selection := ⟨fun _ => .ok (.bare true (fin 1)), none⟩
      nPosteriors := 1, samplesPerPosterior := K, maximumUncertainty := pinf, maxVariance := pinf }
  refine ⟨Ω, Ω', mΩ, mΩ', P, P', hP, hP', Y, fun m η => (firstN Λ m η).map toyHyper, L, ?_⟩
  have key := C107_hierarchical (n := 1) (prior := fun _ _ => 1) (like := fun _ => like)
    (Z := fun _ => 1) (Y := fun _ => Y) (π := Measure.count) (D := Set.univ) (fun _ => hY)
    (asDict := toyHyper) (p := toyPopulation)
    (measurable_from_prod_countable_right fun t => (hpc t).measurable) (fun t _ => hposs t)
    (fun t => by rw [hnorm]; norm_num) hΛ (g := fun x => x) measurable_id
    (fun t _ => hcont _ ((hlikec.mul (hpc t)).mul continuous_id))
    (fun t _ => hcont _ ((hlikec.mul (hpc t)).mul (continuous_id.pow 2))) (fun _ => hintT _)
    (column := [("a", id)]) (samples := fun m η => (firstN Λ m η).map toyHyper) (fun _ _ => rfl)
    (L := L) (fun m K η ω => ⟨rfl, rfl, rfl, fun s _ => ⟨s, rfl, rfl⟩, rfl⟩)
  have hmean : hierarchicalMean Measure.count ν (fun t => toyPopulation (toyHyper t)) Set.univ
      (fun _ : Fin 1 => like) 0 (fun x => x) = 5 / 7 := by
    rw [← C107_marginal (Z := fun _ => 1) (fun _ => one_pos) (fun t _ => hpos t)
      (fun t => by rw [hnorm]; norm_num)]
    rw [show (fun t => Real.exp (exactLnLikelihood ν (toyPopulation (toyHyper t))
      (fun _ : Fin 1 => like) (fun _ => 1) Set.univ)) = fun t => Real.exp (lnL t) from rfl, hN,
      integral_count]
    have : ∀ t, Real.exp (exactLnLikelihood ν (toyPopulation (toyHyper t))
      (fun _ : Fin 1 => like) (fun _ => 1) Set.univ) = Real.exp (lnL t) := fun t => rfl
    simp only [this, hexp, Fintype.sum_bool, evf, evt, informedMean, gf, gt]
    norm_num
  filter_upwards [key] with η h1
  filter_upwards [h1] with ω ⟨W, limit, h2, h3, h4⟩
  refine ⟨fun m K j => W m K 0 j, fun m => limit m 0, fun m hm => ?_, fun m hm => (h3 m hm 0).1, ?_⟩
  · filter_upwards [h2 m hm] with K hK c
    have := hK fun _ => c
    simpa [choiceLists, drawnData, matFin, List.finRange_succ, Function.comp_def] using this
  · have := h4 0
    rwa [hmean] at this

end GW
