import Verif.Props.AnalysisHistory
import Verif.Props.Population
import Verif.Props.SmoothedLimit
import Verif.Props.Consistency

/-!
# C105: the standard analysis computes the documented hierarchical likelihood
-/

noncomputable section

open Classical Set Filter Topology

namespace GW

open Fl Spec

/-! ## Specification -/

/-- The values at an array of `n` events with `k` samples each, as a list of rows. -/
def Spec.eventTable (k n : ℕ) (f : List ℕ → ℝ) : List (List ℝ) :=
  (List.range n).map fun e => (List.range k).map fun j => f [j, e]

/-- The values at `n` injections. -/
def Spec.injectionList (n : ℕ) (f : List ℕ → ℝ) : List ℝ := (List.range n).map fun k => f [k]

/-- The columns of a dataset of sources, of any shape. -/
def Spec.sourceColumns (shape : List ℕ) (x : List ℕ → Source) : Columns :=
  [("mass_1", ⟨shape, fun i => fin (x i).1.1.1.1⟩), ("mass_ratio", ⟨shape, fun i => fin (x i).1.1.1.2⟩),
   ("a_1", ⟨shape, fun i => fin (x i).1.1.2.1⟩), ("a_2", ⟨shape, fun i => fin (x i).1.1.2.2⟩),
   ("cos_tilt_1", ⟨shape, fun i => fin (x i).1.2.1⟩), ("cos_tilt_2", ⟨shape, fun i => fin (x i).1.2.2⟩),
   ("redshift", ⟨shape, fun i => fin (x i).2⟩)]

/-- The density of a population with mass density `mass`, spin magnitudes from a Beta distribution, tilts from the
mixture of isotropic and aligned spins, and redshift density `pz`. -/
def Spec.populationDensity (mass : ℝ → ℝ → ℝ) (amax al be xi sigma mu : ℝ) (pz : ℝ → ℝ) (x : Source) : ℝ :=
  mass x.1.1.1.1 x.1.1.1.2 *
  (normalised (fun t => t ^ (al - 1) * (amax - t) ^ (be - 1)) 0 amax x.1.1.2.1 *
    normalised (fun t => t ^ (al - 1) * (amax - t) ^ (be - 1)) 0 amax x.1.1.2.2) *
  ((1 - xi) / 4 + xi * (normalised (fun t => Real.exp (-(t - mu) ^ 2 / (2 * sigma ^ 2))) (-1) 1 x.1.2.1 *
    normalised (fun t => Real.exp (-(t - mu) ^ 2 / (2 * sigma ^ 2))) (-1) 1 x.1.2.2)) *
  pz x.2

/-- What the likelihood object and the selection function hold besides data and population models: `n` events with `k`
samples and prior densities `π`, `I` found injections with sampling densities `q` out of `T` generated ones. -/
structure Spec.Setup (L : Likelihood) (V : ResamplingVT) (k n I : ℕ) (π q : List ℕ → ℝ) (T : ℝ) : Prop where
  cls : L.cls = .hyper
  events : L.nPosteriors = n
  samples : L.samplesPerPosterior = k
  prior : L.samplingPrior = some (matFin (eventTable k n π))
  prior_ne : ∀ i ∈ NArr.indices [k, n], π i ≠ 0
  sampled : V.data.get? "prior" = some (.arr ((injectionList I q).map fin))
  sampled_ne : ∀ i ∈ NArr.indices [I], q i ≠ 0
  total : V.totalInjections.2 = fin T
  total_pos : 0 < T
  bare : V.marginalizeUncertainty = false

/-- The detection efficiency: the sum of the importance weights of the found injections over the number of generated
ones. -/
def Spec.detectionEstimate (I : ℕ) (T : ℝ) (w : List ℕ → ℝ) : ℝ := (injectionList I w).sum / T

/-- Its variance. -/
def Spec.detectionVariance (I : ℕ) (T : ℝ) (w : List ℕ → ℝ) : ℝ :=
  ((injectionList I w).map (· ^ 2)).sum / T ^ 2 - ((injectionList I w).sum / T) ^ 2 / T

/-- The check of the selection function is off, or passes. -/
def Spec.PassesCheck (V : ResamplingVT) (mu var : ℝ) : Prop :=
  V.enforceConvergence = false ∨ ∃ m : ℝ, V.nEvents = fin m ∧ 4 * m * var < mu ^ 2

namespace Analysis

/-! ## Products of arrays -/

theorem timesEq_first (b : Backend) (q : Shaped Fl) :
    ∃ r, Shaped.timesEq b ⟨[], fun _ => 1⟩ q = .ok r ∧ r.shape = q.shape ∧
      ∀ i ∈ NArr.indices q.shape, r.elem i = q.elem i := by
  unfold Shaped.timesEq Shaped.zip
  refine ⟨⟨q.shape, fun i => 1 * q.elem (NArr.proj q.shape i)⟩, ?_, rfl, fun i hi => ?_⟩
  · simp only [NArr.bshape, ok_bind]
    rw [if_neg (by simp)]
  · simp only [SharedSmoothed.proj_indices hi, one_mul]

theorem timesEq_same (b : Backend) (p q : Shaped Fl) (h : q.shape = p.shape) :
    ∃ r, Shaped.timesEq b p q = .ok r ∧ r.shape = p.shape ∧
      ∀ i ∈ NArr.indices p.shape, r.elem i = p.elem i * q.elem i := by
  unfold Shaped.timesEq Shaped.zip
  rw [h, SharedSmoothed.bshape_self]
  refine ⟨⟨p.shape, fun i => p.elem (NArr.proj p.shape i) * q.elem (NArr.proj p.shape i)⟩, ?_, rfl, fun i hi => ?_⟩
  · simp only [ok_bind]
    rw [if_neg (by simp)]
  · simp only [SharedSmoothed.proj_indices hi]

/-- On a dataset of this shape the function returns the numbers `g`. -/
def Returns (b : Backend) (start : Instances) (data : Columns) (φ : Dict Fl) (shape : List ℕ) (f : PopFn)
    (g : List ℕ → ℝ) : Prop :=
  ∃ θ r, f.select φ = .ok θ ∧ (f.call b start data θ).1 = .ok r ∧ r.shape = shape ∧
    ∀ i ∈ NArr.indices shape, r.elem i = fin (g i)

theorem freshLoop_value {b : Backend} {start : Instances} {data : Columns} {φ : Dict Fl} {shape : List ℕ}
    {fs : List PopFn} {gs : List (List ℕ → ℝ)} (h : List.Forall₂ (Returns b start data φ shape) fs gs) :
    ∀ (p : Shaped Fl) (u : List ℕ → ℝ), p.shape = shape → (∀ i ∈ NArr.indices shape, p.elem i = fin (u i)) →
    ∃ r, freshLoop b start data φ fs p = .ok r ∧ r.shape = shape ∧
      ∀ i ∈ NArr.indices shape, r.elem i = fin (u i * (gs.map (· i)).prod) := by
  induction h with
  | nil => exact fun p u hp hu => ⟨p, rfl, hp, fun i hi => by simpa using hu i hi⟩
  | cons hfg _ ih =>
    intro p u hp hu
    obtain ⟨θ, q, hs, hc, hq, hv⟩ := hfg
    obtain ⟨r, hr, hrs, hre⟩ := timesEq_same b p q (by rw [hq, hp])
    obtain ⟨r', hr', hs', he'⟩ := ih r (fun i => u i * _) (by rw [hrs, hp]) (fun i hi => by
      rw [hre i (by rw [hp]; exact hi), hu i hi, hv i hi, fin_mul])
    refine ⟨r', ?_, hs', fun i hi => ?_⟩
    · unfold freshLoop
      simp only [hs, hc, hr]
      exact hr'
    · rw [he' i hi, List.map_cons, List.prod_cons, mul_assoc]

theorem freshProb_value {b : Backend} {start : Instances} {data : Columns} {φ : Dict Fl} {shape : List ℕ}
    {fs : List PopFn} {gs : List (List ℕ → ℝ)} (h : List.Forall₂ (Returns b start data φ shape) fs gs) (hne : fs ≠ []) :
    ∃ r, freshProb b start fs data φ = .ok r ∧ r.shape = shape ∧
      ∀ i ∈ NArr.indices shape, r.elem i = fin (gs.map (· i)).prod := by
  cases h with
  | nil => exact absurd rfl hne
  | cons hfg hrest =>
    obtain ⟨θ, q, hs, hc, hq, hv⟩ := hfg
    obtain ⟨r, hr, hrs, hre⟩ := timesEq_first b q
    obtain ⟨r', hr', hs', he'⟩ := freshLoop_value hrest r _ (by rw [hrs, hq]) (fun i hi => by
      rw [hre i (by rw [hq]; exact hi), hv i hi])
    refine ⟨r', ?_, hs', fun i hi => ?_⟩
    · unfold freshProb freshLoop
      simp only [hs, hc, hr]
      exact hr'
    · rw [he' i hi, List.map_cons, List.prod_cons]

theorem mem_indices_two {k n j e : ℕ} (hj : j < k) (he : e < n) : [j, e] ∈ NArr.indices [k, n] := by
  simp [NArr.indices, hj, he]

theorem mem_indices_one {n k : ℕ} (h : k < n) : [k] ∈ NArr.indices [n] := by
  simp [NArr.indices, h]

theorem toMat_value {r : Shaped Fl} {k n : ℕ} {g : List ℕ → ℝ} (hs : r.shape = [k, n])
    (h : ∀ i ∈ NArr.indices [k, n], r.elem i = fin (g i)) : r.toMat = matFin (eventTable k n g) := by
  unfold Shaped.toMat matFin eventTable
  rw [hs]
  simp only [List.map_map]
  refine List.map_congr_left fun e he => ?_
  simp only [Function.comp, List.map_map]
  refine List.map_congr_left fun j hj => ?_
  exact h _ (mem_indices_two (List.mem_range.1 hj) (List.mem_range.1 he))

theorem elements_value {r : Shaped Fl} {n : ℕ} {g : List ℕ → ℝ} (hs : r.shape = [n])
    (h : ∀ i ∈ NArr.indices [n], r.elem i = fin (g i)) : r.elements = (injectionList n g).map fin := by
  unfold Shaped.elements injectionList
  rw [hs, List.map_congr_left h]
  simp [NArr.indices, List.map_map, Function.comp_def]

/-! ## The likelihood of an analysis whose population models return numbers -/

theorem importance_table (k n : ℕ) (p q : List ℕ → ℝ) :
    importance (eventTable k n p) (some (eventTable k n q)) = eventTable k n fun i => p i / q i := by
  unfold importance eventTable
  simp only [List.zipWith_map, List.zipWith_self]

theorem table_lengths (k n : ℕ) (p q : List ℕ → ℝ) :
    (eventTable k n p).map List.length = (eventTable k n q).map List.length := by
  simp [eventTable, List.map_map, Function.comp_def]

theorem weights_list (n : ℕ) (p q : List ℕ → ℝ) :
    weights (injectionList n p) (injectionList n q) = injectionList n fun i => p i / q i := by
  unfold weights injectionList
  simp only [List.zipWith_map, List.zipWith_self]

theorem selection_value {L : Likelihood} {V : ResamplingVT} {k n I : ℕ} {π q : List ℕ → ℝ} {T : ℝ}
    (h : Setup L V k n I π q T) {models : List Component} {φ : Dict Fl} {g : List ℕ → ℝ}
    (hc : Spec.PassesCheck V (detectionEstimate I T fun i => g i / q i) (detectionVariance I T fun i => g i / q i)) :
    ∃ r, ({ V with model := ⟨models, fun _ _ => .ok ((injectionList I g).map fin)⟩ } : ResamplingVT).asSelection.call φ =
      .ok r ∧ reports r (detectionEstimate I T fun i => g i / q i) (detectionVariance I T fun i => g i / q i) := by
  have he := C40_value (self := { V with model := ⟨models, fun _ _ => .ok ((injectionList I g).map fin)⟩ })
    (parameters := φ) (p := injectionList I g) (q := injectionList I q) rfl h.sampled (by simp [injectionList])
    (by
      intro x hx
      unfold injectionList at hx
      obtain ⟨j, hj, rfl⟩ := List.mem_map.1 hx
      exact h.sampled_ne _ (mem_indices_one (List.mem_range.1 hj))) h.total h.total_pos.ne'
  rw [weights_list] at he
  have hcall := C41_partial { V with model := ⟨models, fun _ _ => .ok ((injectionList I g).map fin)⟩ } φ _ _ h.bare he
  refine ⟨.pair (decide (V.backend ≠ .jax)) (fin _) (fin _), ?_, .inl ⟨_, rfl⟩⟩
  unfold ResamplingVT.asSelection
  rcases hc with hc | ⟨m, hm, hlt⟩
  · simp only [hcall.1 hc, ok_bind, pure_eq_ok]
    rfl
  · by_cases hen : V.enforceConvergence = true
    · have := hcall.2.1 hen (by
        show 4 * V.nEvents * _ < _
        rw [hm, show (4 : Fl) = fin 4 from rfl, fin_mul, fin_mul, fin_npow]
        exact fin_lt.2 hlt)
      simp only [this, ok_bind, pure_eq_ok]
      rfl
    · simp only [hcall.1 (by simpa using hen), ok_bind, pure_eq_ok]
      rfl

/-- **C105, value.** If the functions of the population models return the numbers `fs` at the posterior samples and
`gs` at the injections, an evaluation of the likelihood, after any history, returns the documented estimate and its
variance for the product of these numbers. -/
theorem C105_value (b : Backend) {same : Dict Fl → Dict Fl → Prop} (hsame : ∀ θ θ', same θ θ' → θ = θ')
    {a : Analysis} (hnew : Spec.NewAnalysis a) (hS : Spec.InstancesApart b a) {k n I : ℕ} {π q : List ℕ → ℝ} {T : ℝ}
    (hset : Setup a.likelihood a.vt k n I π q T) {θ φ : Dict Fl} (hconv : a.likelihood.conversion θ = .ok φ)
    {fs gs : List (List ℕ → ℝ)} (hn0 : a.numerator.models ≠ []) (hd0 : a.denominator.models ≠ [])
    (hf : List.Forall₂ (Returns b a.instances a.events φ [k, n]) a.numerator.models fs)
    (hg : List.Forall₂ (Returns b a.instances a.injections φ [I]) a.denominator.models gs)
    (hgood : GoodWeights k (eventTable k n fun i => (fs.map (· i)).prod / π i))
    (hdet : 0 < detectionEstimate I T fun i => (gs.map (· i)).prod / q i)
    (hc : Spec.PassesCheck a.vt (detectionEstimate I T fun i => (gs.map (· i)).prod / q i)
      (detectionVariance I T fun i => (gs.map (· i)).prod / q i)) (hist : List (Dict Fl)) :
    ((a.run b same hist).evaluate b same θ).1 = .ok
      (fin (lnLikelihood (eventTable k n fun i => (fs.map (· i)).prod / π i)
          (detectionEstimate I T fun i => (gs.map (· i)).prod / q i)),
        fin (lnLikelihoodVariance (eventTable k n fun i => (fs.map (· i)).prod / π i)
          (detectionEstimate I T fun i => (gs.map (· i)).prod / q i)
          (detectionVariance I T fun i => (gs.map (· i)).prod / q i))) := by
  rw [(evaluate_spec b hsame hnew.2.2 hS (run_state b hsame hnew.2.2 hS hist a (StateOf.refl hnew)) θ).1]
  obtain ⟨r, hr, hrs, hre⟩ := freshProb_value hf hn0
  obtain ⟨t, ht, hts, hte⟩ := freshProb_value hg hd0
  unfold freshEvaluate
  rw [hconv]
  simp only [hr, ht]
  have hmat : ∀ x, (a.withValues (.ok r) x).hyperPrior.prob (a.withValues (.ok r) x).data φ =
      .ok (matFin (eventTable k n fun i => (fs.map (· i)).prod)) := by
    intro x
    show Except.ok r.toMat = _
    rw [toMat_value hrs hre]
  have hshape : ∀ Q ∈ some (eventTable k n π),
      Q.map List.length = (eventTable k n fun i => (fs.map (· i)).prod).map List.length ∧
      ∀ q ∈ Q, ∀ x ∈ q, x ≠ 0 := by
    intro Q hQ
    cases hQ
    refine ⟨table_lengths .., fun row hrow x hx => ?_⟩
    unfold eventTable at hrow
    obtain ⟨e, he, rfl⟩ := List.mem_map.1 hrow
    obtain ⟨j, hj, rfl⟩ := List.mem_map.1 hx
    exact hset.prior_ne _ (mem_indices_two (List.mem_range.1 hj) (List.mem_range.1 he))
  have hgood' : ∀ x, GoodWeights (a.withValues (.ok r) x).samplesPerPosterior
      (importance (eventTable k n fun i => (fs.map (· i)).prod) (some (eventTable k n π))) := by
    intro x
    rw [importance_table]
    show GoodWeights a.likelihood.samplesPerPosterior _
    rw [hset.samples]
    exact hgood
  have hw := perEvent_fin (self := a.withValues (.ok r) (.error .notImplemented)) (θ := φ)
    (weights_fin (hmat _) (prior := some (eventTable k n π)) hset.prior hshape) (hgood' _)
  rw [hw]
  simp only
  obtain ⟨res, hres, hrep⟩ := selection_value hset (models := a.vt.model.models) (φ := φ) hc
  have hsel : (a.withValues (.ok r) (.ok t)).selection.call φ = .ok res := by
    rw [← hres, ← elements_value hts hte]
    rfl
  have := C44_estimator (self := a.withValues (.ok r) (.ok t)) (θ := θ) (φ := φ) hset.cls hconv
    (P := eventTable k n fun i => (fs.map (· i)).prod) (prior := some (eventTable k n π))
    (by
      show _ = a.likelihood.nPosteriors
      rw [hset.events]; simp [eventTable]) (hmat _) hset.prior hshape (hgood' _) hsel hrep hdet
  rw [this, importance_table]

end Analysis

end GW
