import Verif.Props.Consistency
import Verif.Props.PosteriorSamples
import Mathlib.MeasureTheory.Integral.Pi

/-!
# C107: posterior-predictive resampling gives the population-informed posterior
-/

noncomputable section

open MeasureTheory ProbabilityTheory Filter Topology Classical

namespace GW

open Fl Spec

variable {S Ω : Type} [MeasurableSpace S] [MeasurableSpace Ω]
variable {P : Measure Ω} {ν : Measure S}

/-! ## Specification -/

/-- The posterior samples `Y 0, Y 1, ...` of an event with likelihood function `like`, sampling prior `prior`
and evidence `Z`: independent draws from the posterior density `like * prior / Z`. -/
structure Spec.EventDraws (P : Measure Ω) (ν : Measure S) (prior like : S → ℝ) (Z : ℝ)
    (Y : ℕ → Ω → S) : Prop where
  measurable_prior : Measurable prior
  measurable_like : Measurable like
  prior_pos : ∀ x, 0 < prior x
  like_nonneg : ∀ x, 0 ≤ like x
  evidence_pos : 0 < Z
  measurable_Y : ∀ k, Measurable (Y k)
  law : ∀ k, P.map (Y k) = ν.withDensity fun x => ENNReal.ofReal (like x * prior x / Z)
  indep : Pairwise fun i j => Y i ⟂ᵢ[P] Y j

/-- A population density that leaves the event possible. -/
structure Spec.Possible (ν : Measure S) (like p : S → ℝ) : Prop where
  measurable : Measurable p
  nonneg : ∀ x, 0 ≤ p x
  integrable : Integrable (fun x => like x * p x) ν
  pos : 0 < ∫ x, like x * p x ∂ν

/-- The posterior mean of `g` for an event with likelihood function `like` when the population density `p` is
the prior. -/
def Spec.informedMean (ν : Measure S) (like p g : S → ℝ) : ℝ :=
  (∫ x, like x * p x * g x ∂ν) / ∫ x, like x * p x ∂ν

/-- The average of the posterior means over a list of populations. -/
def Spec.averageMean {T : Type} (ν : Measure S) (like g : S → ℝ) (p : T → S → ℝ) (samples : List T) : ℝ :=
  (samples.map fun s => informedMean ν like (p s) g).sum / samples.length

/-- A likelihood object with `n` events, `K` posterior samples for each; `Y i` are the samples of event `i`,
`column key` is the parameter stored under `key`. Hyper-sample `s` describes the population density `p s`. -/
structure Spec.ResamplesFrom {n : ℕ} (L : Likelihood) (samples : List (Dict Fl)) (p : Dict Fl → S → ℝ)
    (prior : Fin n → S → ℝ) (column : Dict (S → ℝ)) (Y : Fin n → ℕ → Ω → S) (K : ℕ) (ω : Ω) : Prop where
  events : L.nPosteriors = n
  draws : L.samplesPerPosterior = K
  data : L.data = column.map fun kv : String × (S → ℝ) =>
    (kv.1, matFin ((List.finRange n).map fun i => (firstN (Y i) K ω).map kv.2))
  density : ∀ s ∈ samples, ∃ φ, L.conversion s = .ok φ ∧ L.hyperPrior.prob L.data φ =
    .ok (matFin ((List.finRange n).map fun i => (firstN (Y i) K ω).map (p s)))
  sampling : L.samplingPrior =
    some (matFin ((List.finRange n).map fun i => (firstN (Y i) K ω).map (prior i)))

/-- The expectation of `F` over `K` independent choices from `0, ..., K - 1` with probabilities `W`: what
`choice(range(K), size=K, replace=True, p=W)` is documented to do. -/
def Spec.choiceMean {K : ℕ} (W : ℕ → ℝ) (F : (Fin K → Fin K) → ℝ) : ℝ :=
  ∑ c : Fin K → Fin K, (∏ k, W (c k)) * F c

/-! ## Choices -/

theorem choiceMean_prod {K : ℕ} (W : ℕ → ℝ) (f : Fin K → Fin K → ℝ) :
    choiceMean W (fun c => ∏ k, f k (c k)) = ∏ k, ∑ j : Fin K, W j * f k j := by
  unfold choiceMean
  rw [Finset.prod_univ_sum]
  simp only [Fintype.piFinset_univ]
  refine Finset.sum_congr rfl fun c _ => ?_
  rw [← Finset.prod_mul_distrib]

theorem choiceMean_two {K : ℕ} {W : ℕ → ℝ} (h1 : ∑ j : Fin K, W j = 1) (b : Fin K → ℝ) (k l : Fin K) :
    choiceMean W (fun c : Fin K → Fin K => b (c k) * b (c l)) =
      if k = l then ∑ j : Fin K, W j * b j ^ 2 else (∑ j : Fin K, W j * b j) ^ 2 := by
  have e : (fun c : Fin K → Fin K => b (c k) * b (c l)) = fun c =>
      ∏ m, ((if m = k then b (c m) else 1) * if m = l then b (c m) else 1) := by
    funext c
    rw [Finset.prod_mul_distrib, Finset.prod_ite_eq' Finset.univ k (fun m => b (c m)),
      Finset.prod_ite_eq' Finset.univ l (fun m => b (c m))]
    simp
  rw [e, choiceMean_prod W fun m j => (if m = k then b j else 1) * if m = l then b j else 1]
  have hf : ∀ m : Fin K, ∑ j : Fin K, W j * ((if m = k then b j else 1) * if m = l then b j else 1) =
      if m = k then (if m = l then ∑ j : Fin K, W j * b j ^ 2 else ∑ j : Fin K, W j * b j)
        else (if m = l then ∑ j : Fin K, W j * b j else 1) := by
    intro m
    by_cases hk : m = k <;> by_cases hl : m = l <;> simp [hk, hl, h1, pow_two]
  simp_rw [hf]
  by_cases hkl : k = l
  · subst hkl
    rw [if_pos rfl, Finset.prod_eq_single k]
    · simp
    · intro m _ hm; simp [hm]
    · simp
  · rw [if_neg hkl, Finset.prod_eq_mul k l hkl]
    · simp [hkl, Ne.symm hkl, pow_two]
    · intro m _ hm; simp [hm.1, hm.2]
    · simp
    · simp

theorem choiceMean_sum {K : ℕ} (W : ℕ → ℝ) {ι : Type} (s : Finset ι) (F : ι → (Fin K → Fin K) → ℝ) :
    choiceMean W (fun c => ∑ i ∈ s, F i c) = ∑ i ∈ s, choiceMean W (F i) := by
  unfold choiceMean
  simp_rw [Finset.mul_sum]
  rw [Finset.sum_comm]

theorem choiceMean_const_mul {K : ℕ} (W : ℕ → ℝ) (a : ℝ) (F : (Fin K → Fin K) → ℝ) :
    choiceMean W (fun c => a * F c) = a * choiceMean W F := by
  unfold choiceMean
  rw [Finset.mul_sum]
  exact Finset.sum_congr rfl fun c _ => by ring

/-- The mean square of the average of `b` over the choices. -/
theorem choiceMean_square {K : ℕ} (hK : 0 < K) {W : ℕ → ℝ} (h1 : ∑ j : Fin K, W j = 1)
    (b : Fin K → ℝ) :
    choiceMean W (fun c : Fin K → Fin K => ((∑ k, b (c k)) / K) ^ 2) =
      (∑ j : Fin K, W j * b j ^ 2) / K + (1 - 1 / K) * (∑ j : Fin K, W j * b j) ^ 2 := by
  have hK0 : (K : ℝ) ≠ 0 := by positivity
  have e : (fun c : Fin K → Fin K => ((∑ k, b (c k)) / K) ^ 2) = fun c =>
      1 / (K : ℝ) ^ 2 * ∑ k, ∑ l, b (c k) * b (c l) := by
    funext c
    rw [div_pow, pow_two (∑ k, b (c k)), Finset.sum_mul_sum]
    ring
  rw [e, choiceMean_const_mul, choiceMean_sum]
  simp_rw [choiceMean_sum, choiceMean_two h1]
  have : ∀ k : Fin K, ∑ l : Fin K, (if k = l then ∑ j : Fin K, W j * b j ^ 2
      else (∑ j : Fin K, W j * b j) ^ 2) =
      (∑ j : Fin K, W j * b j ^ 2) + ((K : ℝ) - 1) * (∑ j : Fin K, W j * b j) ^ 2 := by
    intro k
    rw [← Finset.add_sum_erase _ _ (Finset.mem_univ k), if_pos rfl]
    congr 1
    rw [Finset.sum_congr rfl (g := fun _ => (∑ j : Fin K, W j * b j) ^ 2)]
    · rw [Finset.sum_const, Finset.card_erase_of_mem (Finset.mem_univ k), Finset.card_univ,
        Fintype.card_fin, nsmul_eq_mul, Nat.cast_sub hK, Nat.cast_one]
    · intro l hl
      rw [if_neg (Finset.ne_of_mem_erase hl).symm]
  simp_rw [this]
  rw [Finset.sum_const, Finset.card_univ, Fintype.card_fin, nsmul_eq_mul]
  field_simp

/-! ## The law of large numbers for one event -/

theorem draws_mean [IsProbabilityMeasure P] {prior like : S → ℝ} {Z : ℝ} {Y : ℕ → Ω → S}
    (h : EventDraws P ν prior like Z Y) {p g : S → ℝ} (hp : Measurable p) (hg : Measurable g)
    (hi : Integrable (fun x => like x * p x * g x) ν) :
    ∀ᵐ ω ∂P, Tendsto (fun K : ℕ => (∑ j ∈ Finset.range K,
      p (Y j ω) / prior (Y j ω) * g (Y j ω)) / K) atTop (𝓝 ((∫ x, like x * p x * g x ∂ν) / Z)) := by
  have hd : Measurable fun x => ENNReal.ofReal (like x * prior x / Z) :=
    ((h.measurable_like.mul h.measurable_prior).div_const Z).ennreal_ofReal
  have hf : ∀ᵐ x ∂ν, ENNReal.ofReal (like x * prior x / Z) < ⊤ :=
    ae_of_all _ fun _ => ENNReal.ofReal_lt_top
  have hnn : ∀ x, (ENNReal.ofReal (like x * prior x / Z)).toReal = like x * prior x / Z := fun x =>
    ENNReal.toReal_ofReal (div_nonneg (mul_nonneg (h.like_nonneg x) (h.prior_pos x).le)
      h.evidence_pos.le)
  have hZ := h.evidence_pos.ne'
  have m : Measurable fun x => p x / prior x * g x := (hp.div h.measurable_prior).mul hg
  have f1 : ∀ x, (ENNReal.ofReal (like x * prior x / Z)).toReal • (p x / prior x * g x) =
      like x * p x * g x / Z := by
    intro x
    have := (h.prior_pos x).ne'
    rw [hnn, smul_eq_mul]
    field_simp
  have hid : ∀ i, IdentDistrib (fun ω => p (Y i ω) / prior (Y i ω) * g (Y i ω))
      (fun ω => p (Y 0 ω) / prior (Y 0 ω) * g (Y 0 ω)) P P := by
    intro i
    have : IdentDistrib (Y i) (Y 0) P P :=
      ⟨(h.measurable_Y i).aemeasurable, (h.measurable_Y 0).aemeasurable, by rw [h.law i, h.law 0]⟩
    exact this.comp m
  have hint : Integrable (fun ω => p (Y 0 ω) / prior (Y 0 ω) * g (Y 0 ω)) P := by
    have : Integrable (fun x => p x / prior x * g x) (P.map (Y 0)) := by
      rw [h.law 0, integrable_withDensity_iff_integrable_smul' hd hf]
      simp_rw [f1]
      exact hi.div_const Z
    exact this.comp_measurable (h.measurable_Y 0)
  have hval : ∫ ω, p (Y 0 ω) / prior (Y 0 ω) * g (Y 0 ω) ∂P = (∫ x, like x * p x * g x ∂ν) / Z := by
    rw [← integral_map (f := fun x => p x / prior x * g x) (h.measurable_Y 0).aemeasurable
      m.aestronglyMeasurable, h.law 0, integral_withDensity_eq_integral_toReal_smul hd hf]
    simp_rw [f1, integral_div]
  have l1 := strong_law_ae_real (fun i ω => p (Y i ω) / prior (Y i ω) * g (Y i ω)) hint
    (fun i j hij => (h.indep hij).comp m m) hid
  rw [hval] at l1
  exact l1

/-- The total weight of an event is eventually positive, and the self-normalised weighted mean converges. -/
theorem draws_ratio [IsProbabilityMeasure P] {prior like : S → ℝ} {Z : ℝ} {Y : ℕ → Ω → S}
    (h : EventDraws P ν prior like Z Y) {p g : S → ℝ} (hp : Possible ν like p) (hg : Measurable g)
    (hi : Integrable (fun x => like x * p x * g x) ν) :
    ∀ᵐ ω ∂P,
      (∀ᶠ K : ℕ in atTop, 0 < ∑ j ∈ Finset.range K, p (Y j ω) / prior (Y j ω)) ∧
      Tendsto (fun K : ℕ => (∑ j ∈ Finset.range K, p (Y j ω) / prior (Y j ω) * g (Y j ω)) /
        ∑ j ∈ Finset.range K, p (Y j ω) / prior (Y j ω)) atTop (𝓝 (informedMean ν like p g)) := by
  have a := draws_mean h hp.measurable (g := fun _ => 1) measurable_const (by simpa using hp.integrable)
  have b := draws_mean h hp.measurable hg hi
  have hZ := h.evidence_pos
  filter_upwards [a, b] with ω ka kb
  simp only [mul_one] at ka
  have hpos : 0 < (∫ x, like x * p x ∂ν) / Z := div_pos hp.pos hZ
  constructor
  · filter_upwards [ka.eventually (lt_mem_nhds hpos), eventually_gt_atTop 0] with K hK hK0
    have : (0 : ℝ) < K := by exact_mod_cast hK0
    have := mul_pos hK this
    rwa [div_mul_cancel₀ _ (by positivity)] at this
  · have := kb.div ka hpos.ne'
    unfold informedMean
    rw [div_div_div_cancel_right₀ hZ.ne'] at this
    refine this.congr' ?_
    filter_upwards [eventually_gt_atTop 0] with K hK0
    have : (K : ℝ) ≠ 0 := by positivity
    simp only [Pi.div_apply]
    rw [div_div_div_cancel_right₀ this]

/-! ## The resampling -/

/-- The choices as lists, one for each event. -/
def Spec.choiceLists {n K : ℕ} (c : Fin n → Fin K → Fin K) : List (List ℕ) :=
  (List.finRange n).map fun i => (List.finRange K).map fun k => (c i k : ℕ)

/-- The data made of the samples that were chosen: entry `k` of event `i` is sample `c i k` of that event, in
every column. -/
def Spec.drawnData {n K : ℕ} (column : Dict (S → ℝ)) (Y : Fin n → ℕ → Ω → S) (ω : Ω)
    (c : Fin n → Fin K → Fin K) : Dict Mat :=
  column.map fun kv : String × (S → ℝ) =>
    (kv.1, matFin ((List.finRange n).map fun i => (List.finRange K).map fun k => kv.2 (Y i (c i k) ω)))

theorem tabulate_finRange (n K : ℕ) (f : ℕ → ℕ → ℝ) :
    tabulate n K f = (List.finRange n).map fun i : Fin n => (List.range K).map (f i) := by
  unfold tabulate
  rw [← List.map_coe_finRange_eq_range (n := n), List.map_map]
  rfl

/-- The importance weight of sample `j` of event `i` for the population density `p`. -/
def sampleWeight {n : ℕ} (p : S → ℝ) (prior : Fin n → S → ℝ) (Y : Fin n → ℕ → Ω → S) (ω : Ω) (i j : ℕ) : ℝ :=
  if h : i < n then p (Y ⟨i, h⟩ j ω) / prior ⟨i, h⟩ (Y ⟨i, h⟩ j ω) else 0

omit [MeasurableSpace S] [MeasurableSpace Ω] in
theorem sampleWeight_fin {n : ℕ} (p : S → ℝ) (prior : Fin n → S → ℝ) (Y : Fin n → ℕ → Ω → S) (ω : Ω)
    (i : Fin n) (j : ℕ) : sampleWeight p prior Y ω i j = p (Y i j ω) / prior i (Y i j ω) := by
  unfold sampleWeight
  rw [dif_pos i.2]

theorem resamples_good {n : ℕ} {L : Likelihood} {samples : List (Dict Fl)} {p : Dict Fl → S → ℝ}
    {prior : Fin n → S → ℝ} {column : Dict (S → ℝ)} {Y : Fin n → ℕ → Ω → S} {K : ℕ} {ω : Ω}
    (h : ResamplesFrom L samples p prior column Y K ω) (hprior : ∀ i x, 0 < prior i x)
    (hp : ∀ s ∈ samples, ∀ _ : Fin n, ∀ x, 0 ≤ p s x)
    (hpos : ∀ s ∈ samples, ∀ i, 0 < ∑ j ∈ Finset.range K, p s (Y i j ω) / prior i (Y i j ω)) :
    GoodSamples L samples fun s => sampleWeight (p s) prior Y ω := by
  intro s hs
  rw [h.events, h.draws]
  refine ⟨?_, ?_, ?_⟩
  · obtain ⟨φ, h1, h2⟩ := h.density s hs
    refine ⟨φ, h1, ?_⟩
    rw [weights_fin (prior := some ((List.finRange n).map fun i => (firstN (Y i) K ω).map (prior i))) h2
      h.sampling, importance_rows, tabulate_finRange]
    · congr 2
      refine List.map_congr_left fun i _ => ?_
      unfold firstN
      rw [List.map_map]
      refine List.map_congr_left fun j _ => ?_
      dsimp only
      rw [sampleWeight_fin]
      rfl
    · rintro Q ⟨⟩
      refine ⟨?_, ?_⟩
      · simp [firstN, Function.comp_def]
      · intro q hq x hx
        obtain ⟨i, -, rfl⟩ := List.mem_map.1 hq
        obtain ⟨y, -, rfl⟩ := List.mem_map.1 hx
        exact (hprior i y).ne'
  · intro i hi j _
    have e := sampleWeight_fin (p s) prior Y ω ⟨i, hi⟩ j
    dsimp only at e ⊢
    rw [e]
    exact div_nonneg (hp s hs ⟨i, hi⟩ _) (hprior _ _).le
  · intro i hi
    have e := fun j => sampleWeight_fin (p s) prior Y ω ⟨i, hi⟩ j
    dsimp only at e ⊢
    simp_rw [e]
    exact hpos s hs ⟨i, hi⟩

/-- The outcome of a call, for every outcome of the random choice. -/
theorem resample_outcome {n : ℕ} {L : Likelihood} {samples : List (Dict Fl)} {p : Dict Fl → S → ℝ}
    {prior : Fin n → S → ℝ} {column : Dict (S → ℝ)} {Y : Fin n → ℕ → Ω → S} {K : ℕ} {ω : Ω}
    (h : ResamplesFrom L samples p prior column Y K ω) (hne : samples ≠ [])
    {w : Dict Fl → ℕ → ℕ → ℝ} (hw : GoodSamples L samples w) (c : Fin n → Fin K → Fin K) :
    L.posteriorPredictiveResample samples (choiceLists c) =
      .ok (drawnData column Y ω c, matFin ((List.finRange n).map fun i : Fin n =>
        (List.range K).map (averageWeight samples K w i))) := by
  have hW := C53_weights hw hne
  obtain ⟨W, hW', hWs⟩ := C53_normalised hw hne
  rw [h.events, h.draws, tabulate_finRange] at hW hW'
  rw [h.events, h.draws] at hWs
  unfold Likelihood.posteriorPredictiveResample
  rw [hW', ok_bind]
  have hidx : ((matFin ((List.finRange n).map fun i : Fin n => (List.range K).map (W i))).zip
      (choiceLists c)).mapM (fun pc => Likelihood.randomChoice L.backend pc.1 pc.2) =
      .ok (choiceLists c) := by
    rw [mapM_ok (g := Prod.snd)]
    · rw [List.map_snd_zip]
      simp [matFin, choiceLists]
    · intro pc hpc
      obtain ⟨r, hr, hpc1⟩ := List.mem_map.1 (List.of_mem_zip hpc).1
      obtain ⟨i, -, rfl⟩ := List.mem_map.1 hr
      rw [← hpc1]
      refine randomChoice_ok ?_ ?_ _
      · intro x hx
        obtain ⟨j, hj, rfl⟩ := List.mem_map.1 hx
        exact (hWs i i.2).1 j (List.mem_range.1 hj)
      · rw [sum_range_map]
        exact (hWs i i.2).2
  rw [hidx, ok_bind, pure_eq_ok, ← Except.ok.inj (hW'.symm.trans hW)]
  congr 2
  rw [h.data]
  unfold drawnData choiceLists
  rw [List.map_map]
  refine List.map_congr_left fun kv _ => ?_
  simp only [Function.comp, matFin, List.map_map, List.zipWith_map, List.zipWith_self]
  congr 1
  refine List.map_congr_left fun i _ => ?_
  simp only [Function.comp, List.map_map]
  refine List.map_congr_left fun k _ => ?_
  have : (c i k : ℕ) < K := (c i k).2
  simp [firstN, this]

omit [MeasurableSpace S] [MeasurableSpace Ω] in
theorem average_sum {n : ℕ} (samples : List (Dict Fl)) (p : Dict Fl → S → ℝ) (prior : Fin n → S → ℝ)
    (Y : Fin n → ℕ → Ω → S) (ω : Ω) (K : ℕ) (g : S → ℝ) (i : Fin n) :
    ∑ j ∈ Finset.range K, averageWeight samples K (fun s => sampleWeight (p s) prior Y ω) i j *
        g (Y i j ω) =
      (samples.map fun s => (∑ j ∈ Finset.range K, p s (Y i j ω) / prior i (Y i j ω) * g (Y i j ω)) /
        ∑ j ∈ Finset.range K, p s (Y i j ω) / prior i (Y i j ω)).sum / samples.length := by
  unfold averageWeight
  simp_rw [sampleWeight_fin, div_mul_eq_mul_div]
  rw [← Finset.sum_div]
  congr 1
  induction samples with
  | nil => simp
  | cons s ss ih =>
    simp only [List.map_cons, List.sum_cons, add_mul, Finset.sum_add_distrib]
    rw [ih, Finset.sum_div]
    congr 1
    exact Finset.sum_congr rfl fun j _ => by ring

theorem tendsto_list_sum {T : Type} (l : List T) {f : T → ℕ → ℝ} {a : T → ℝ}
    (h : ∀ s ∈ l, Tendsto (f s) atTop (𝓝 (a s))) :
    Tendsto (fun K => (l.map fun s => f s K).sum) atTop (𝓝 (l.map a).sum) := by
  induction l with
  | nil => simp
  | cons s ss ih =>
    simp only [List.map_cons, List.sum_cons]
    exact (h s (by simp)).add (ih fun t ht => h t (by simp [ht]))

/-- **C107.** Almost surely, once there are enough posterior samples `posterior_predictive_resample` succeeds.
For every outcome of the random choice it returns the chosen samples and normalised weights. As the number of
samples grows, the weighted mean of any quantity `g` converges, for every event, to the average over the
hyper-samples of the posterior mean of `g` with the population as the prior; and so does the plain mean over the
chosen samples, in mean square over the random choice. -/
theorem C107_resample [IsProbabilityMeasure P] {n : ℕ} {prior like : Fin n → S → ℝ} {Z : Fin n → ℝ}
    {Y : Fin n → ℕ → Ω → S} (hY : ∀ i, EventDraws P ν (prior i) (like i) (Z i) (Y i))
    {samples : List (Dict Fl)} (hne : samples ≠ []) {p : Dict Fl → S → ℝ}
    (hp : ∀ s ∈ samples, ∀ i, Possible ν (like i) (p s)) {g : S → ℝ} (hg : Measurable g)
    (hi : ∀ s ∈ samples, ∀ i, Integrable (fun x => like i x * p s x * g x) ν)
    (hi2 : ∀ s ∈ samples, ∀ i, Integrable (fun x => like i x * p s x * g x ^ 2) ν)
    {column : Dict (S → ℝ)} {L : ℕ → Ω → Likelihood}
    (hL : ∀ K ω, ResamplesFrom (L K ω) samples p prior column Y K ω) :
    ∀ᵐ ω ∂P, ∃ W : ℕ → Fin n → ℕ → ℝ,
      (∀ᶠ K in atTop, ∀ c : Fin n → Fin K → Fin K,
        (L K ω).posteriorPredictiveResample samples (choiceLists c) = .ok (drawnData column Y ω c,
          matFin ((List.finRange n).map fun i => (List.range K).map (W K i)))) ∧
      (∀ᶠ K in atTop, ∀ i, (∀ j < K, 0 ≤ W K i j) ∧ ∑ j ∈ Finset.range K, W K i j = 1) ∧
      ∀ i, Tendsto (fun K => ∑ j ∈ Finset.range K, W K i j * g (Y i j ω)) atTop
          (𝓝 (averageMean ν (like i) g p samples)) ∧
        Tendsto (fun K => choiceMean (W K i) fun c : Fin K → Fin K =>
          ((∑ k, g (Y i (c k) ω)) / K - averageMean ν (like i) g p samples) ^ 2) atTop (𝓝 0) := by
  have a1 : ∀ᵐ ω ∂P, ∀ s ∈ samples, ∀ i,
      (∀ᶠ K : ℕ in atTop, 0 < ∑ j ∈ Finset.range K, p s (Y i j ω) / prior i (Y i j ω)) ∧
      Tendsto (fun K : ℕ => (∑ j ∈ Finset.range K, p s (Y i j ω) / prior i (Y i j ω) * g (Y i j ω)) /
        ∑ j ∈ Finset.range K, p s (Y i j ω) / prior i (Y i j ω)) atTop
        (𝓝 (informedMean ν (like i) (p s) g)) ∧
      Tendsto (fun K : ℕ => (∑ j ∈ Finset.range K,
        p s (Y i j ω) / prior i (Y i j ω) * g (Y i j ω) ^ 2) /
        ∑ j ∈ Finset.range K, p s (Y i j ω) / prior i (Y i j ω)) atTop
        (𝓝 (informedMean ν (like i) (p s) fun x => g x ^ 2)) := by
    have : ∀ s : {s // s ∈ samples}, ∀ᵐ ω ∂P, ∀ i, _ := fun s => ae_all_iff.2 fun i =>
      (draws_ratio (hY i) (hp s.1 s.2 i) hg (hi s.1 s.2 i)).and
        (draws_ratio (hY i) (hp s.1 s.2 i) (hg.pow_const 2) (hi2 s.1 s.2 i))
    have hfin : Finite {s // s ∈ samples} := List.finite_toSet samples
    filter_upwards [ae_all_iff.2 this] with ω h s hs i
    exact ⟨(h ⟨s, hs⟩ i).1.1, (h ⟨s, hs⟩ i).1.2, (h ⟨s, hs⟩ i).2.2⟩
  filter_upwards [a1] with ω hω
  have hgood : ∀ᶠ K in atTop, GoodSamples (L K ω) samples fun s => sampleWeight (p s) prior Y ω := by
    have : ∀ᶠ K : ℕ in atTop, ∀ s : {s // s ∈ samples}, ∀ i : Fin n,
        0 < ∑ j ∈ Finset.range K, p s.1 (Y i j ω) / prior i (Y i j ω) := by
      have hfin : Finite {s // s ∈ samples} := List.finite_toSet samples
      exact eventually_all.2 fun s => eventually_all.2 fun i => (hω s.1 s.2 i).1
    filter_upwards [this] with K hK
    exact resamples_good (hL K ω) (fun i => (hY i).prior_pos) (fun s hs i => (hp s hs i).nonneg)
      fun s hs i => hK ⟨s, hs⟩ i
  have hl : (0 : ℝ) < samples.length := by
    rw [Nat.cast_pos]
    exact List.length_pos_iff.2 hne
  set W : ℕ → Fin n → ℕ → ℝ := fun K i =>
    averageWeight samples K (fun s => sampleWeight (p s) prior Y ω) i with hWdef
  have hsum : ∀ᶠ K in atTop, ∀ i, (∀ j < K, 0 ≤ W K i j) ∧ ∑ j ∈ Finset.range K, W K i j = 1 := by
    filter_upwards [hgood] with K hK i
    obtain ⟨V, hV, hVs⟩ := C53_normalised hK hne
    have e := Except.ok.inj (hV.symm.trans (C53_weights hK hne))
    rw [(hL K ω).events, (hL K ω).draws] at e hVs
    have hVW : ∀ j < K, V i j = W K i j := by
      intro j hj
      have e1 : ((matFin (tabulate n K V))[(i : ℕ)]?.bind fun r => r[j]?) =
          ((matFin (tabulate n K (averageWeight samples K
            fun s => sampleWeight (p s) prior Y ω)))[(i : ℕ)]?.bind fun r => r[j]?) := by rw [e]
      simpa [matFin, tabulate, hj] using e1
    refine ⟨fun j hj => by rw [← hVW j hj]; exact (hVs i i.2).1 j hj, ?_⟩
    rw [← (hVs i i.2).2]
    exact Finset.sum_congr rfl fun j hj => (hVW j (Finset.mem_range.1 hj)).symm
  have t1 : ∀ i, Tendsto (fun K => ∑ j ∈ Finset.range K, W K i j * g (Y i j ω)) atTop
      (𝓝 (averageMean ν (like i) g p samples)) := by
    intro i
    simp_rw [hWdef, average_sum]
    exact (tendsto_list_sum samples fun s hs => (hω s hs i).2.1).div_const _
  have t2 : ∀ i, Tendsto (fun K => ∑ j ∈ Finset.range K, W K i j * g (Y i j ω) ^ 2) atTop
      (𝓝 (averageMean ν (like i) (fun x => g x ^ 2) p samples)) := by
    intro i
    simp_rw [hWdef, average_sum samples p prior Y ω _ fun x => g x ^ 2]
    exact (tendsto_list_sum samples fun s hs => (hω s hs i).2.2).div_const _
  refine ⟨W, ?_, hsum, fun i => ⟨t1 i, ?_⟩⟩
  · filter_upwards [hgood] with K hK c
    exact resample_outcome (hL K ω) hne hK c
  · set T := averageMean ν (like i) g p samples with hT
    have u1 : Tendsto (fun K => ∑ j ∈ Finset.range K, W K i j * (g (Y i j ω) - T)) atTop (𝓝 0) := by
      have := (t1 i).sub_const T
      rw [sub_self] at this
      refine this.congr' ?_
      filter_upwards [hsum] with K hK
      simp_rw [mul_sub]
      rw [Finset.sum_sub_distrib, ← Finset.sum_mul, (hK i).2, one_mul]
    have u2 : Tendsto (fun K => ∑ j ∈ Finset.range K, W K i j * (g (Y i j ω) - T) ^ 2) atTop
        (𝓝 (averageMean ν (like i) (fun x => g x ^ 2) p samples - 2 * T * T + T ^ 2)) := by
      refine (((t2 i).sub ((t1 i).const_mul (2 * T))).add_const (T ^ 2)).congr' ?_
      filter_upwards [hsum] with K hK
      have e : ∀ j, W K i j * (g (Y i j ω) - T) ^ 2 = W K i j * g (Y i j ω) ^ 2 -
          2 * T * (W K i j * g (Y i j ω)) + W K i j * T ^ 2 := fun j => by ring
      simp_rw [e]
      rw [Finset.sum_add_distrib, Finset.sum_sub_distrib, ← Finset.mul_sum, ← Finset.sum_mul, (hK i).2,
        one_mul]
    have h0 : Tendsto (fun K : ℕ => (1 : ℝ) / K) atTop (𝓝 0) := tendsto_one_div_atTop_nhds_zero_nat
    have := (u2.mul h0).add ((h0.const_sub 1).mul (u1.pow 2))
    simp only [mul_zero, sub_zero, zero_add, ne_eq, OfNat.ofNat_ne_zero, not_false_eq_true, zero_pow]
      at this
    refine this.congr' ?_
    filter_upwards [hsum, eventually_gt_atTop 0] with K hK hK0
    have hs1 : ∑ j : Fin K, W K i j = 1 := by
      rw [← (hK i).2, Finset.sum_range]
    have hne0 : (K : ℝ) ≠ 0 := by positivity
    have := choiceMean_square hK0 hs1 fun j => g (Y i j ω) - T
    rw [Finset.sum_range, Finset.sum_range, mul_one_div, ← this]
    congr 1
    funext c
    rw [Finset.sum_sub_distrib, Finset.sum_const, Finset.card_univ, Fintype.card_fin, nsmul_eq_mul,
      sub_div, mul_div_cancel_left₀ _ hne0]

end GW
