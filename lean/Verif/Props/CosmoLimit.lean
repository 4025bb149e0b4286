import Verif.Props.CosmoHistory
import Verif.Props.Consistency

/-!
# C108: the values of a `CosmoModel`, and the likelihood they lead to
-/

noncomputable section

open Classical MeasureTheory Set Filter Topology ProbabilityTheory

namespace GW

open Fl Spec

/-! ## Specification -/

/-- Source-frame coordinates (anything that is not redshifted, `k` masses, redshift) to detector-frame
coordinates. -/
def Spec.toDetector {Y : Type} {k : ℕ} (D : ℝ → ℝ) (x : Y × ((Fin k → ℝ) × ℝ)) : Y × ((Fin k → ℝ) × ℝ) :=
  (x.1, (fun j => x.2.1 j * (1 + x.2.2), D x.2.2))

/-- The density of a population in detector-frame coordinates; `ζ` is the redshift at a distance. -/
def Spec.detectorDensity {Y : Type} {k : ℕ} (D' ζ : ℝ → ℝ) (p : Y × ((Fin k → ℝ) × ℝ) → ℝ)
    (x : Y × ((Fin k → ℝ) × ℝ)) : ℝ :=
  p (x.1, (fun j => x.2.1 j / (1 + ζ x.2.2), ζ x.2.2)) / (D' (ζ x.2.2) * (1 + ζ x.2.2) ^ k)

/-- The reference measure: anything, any masses, redshifts (or distances) in `S`. -/
def Spec.massesAnd {Y : Type} [MeasurableSpace Y] (lam : Measure Y) (k : ℕ) (S : Set ℝ) :
    Measure (Y × ((Fin k → ℝ) × ℝ)) :=
  lam.prod (volume.restrict (univ ×ˢ S))

namespace CosmoArrays

/-! ## The values -/

/-- **C108, values.** For every backend, shape and dataset with a luminosity distance and any number of detector-frame
columns: at every sample, `CosmoModel.prob` is the product of the values of the population's functions at the
source-frame sample, divided by `dD/dz (1 + z)^n` with `n` the number of detector-frame columns. -/
theorem C108_value (b : Backend) (same : Dict Fl → Dict Fl → Prop) {available : Dict CosmoEntry} {models : List PopFn}
    {name : String} {self : CosmoObject} (h : CosmoObject.init available models name = .ok self) {start : Instances}
    (h0 : ∀ r, (start r).masses = none) {shape : List ℕ} (hne : NArr.indices shape ≠ []) {data : Columns}
    (hd : SameShape shape data) (hnd : data.keys.Nodup)
    (hnc : ∀ n, data.contains (n ++ "_detector") → ¬ data.contains n ∧ n ≠ "redshift")
    (hr : ¬ data.contains "redshift") {dl : Shaped Fl} (hdl : data.get? "luminosity_distance" = some dl)
    {kwargs : Dict Fl} {c : Cosmology} (hc : self.mixin.cosmology kwargs = .ok c) {z D' : List ℕ → ℝ}
    (hz : ∀ i ∈ NArr.indices shape, c.zAtDistance (dl.elem i) = fin (z i) ∧ c.dDLdz (fin (z i)) = fin (D' i) ∧
      -1 < z i ∧ 0 < D' i) (hmod : models ≠ []) :
    ∃ samples : Columns, SameShape shape samples ∧
      (∀ i ∈ NArr.indices shape, SourceFrame (sampleAt data i) (fin (z i)) (sampleAt samples i)) ∧
      ∀ gs, List.Forall₂ (Analysis.Returns b start samples kwargs shape) models gs →
        ∃ r, (self.prob b same start data kwargs).1 = .ok r ∧ r.shape = shape ∧
          ∀ i ∈ NArr.indices shape, r.elem i = fin ((gs.map (· i)).prod /
            (D' i * (1 + z i) ^ (data.keys.filter fun k => ∃ n, k = n ++ "_detector").length)) := by
  have hrow : ∀ i ∈ NArr.indices shape, ∃ S, self.mixin.detectorFrameToSourceFrame (sampleAt data i) kwargs =
      .ok (S, fin (D' i * (1 + z i) ^ (data.keys.filter fun k => ∃ n, k = n ++ "_detector").length)) ∧
      SourceFrame (sampleAt data i) (fin (z i)) S := by
    intro i hi
    obtain ⟨hz1, hz2, -, -⟩ := hz i hi
    obtain ⟨S, hS, hsf, -⟩ := C57_distance self.mixin (data := sampleAt data i) (parameters := kwargs)
      (by rw [sampleAt_keys]; exact hnd)
      (fun n hn => by
        rw [sampleAt_contains] at hn ⊢
        exact hnc n hn) hc (dl := dl.elem i)
      (by rw [sampleAt_get?]
          show Option.map _ (Dict.get? data "luminosity_distance") = _
          rw [hdl]; rfl)
      (by rw [sampleAt_contains]; exact hr)
    refine ⟨S, ?_, by rw [← hz1]; exact hsf⟩
    rw [hS, hz1, hz2, detectorCount, sampleAt_keys, one_eq, fin_add, fin_npow, fin_mul]
  have harr := C108_arrays b self.mixin hd kwargs
  cases hcv : self.mixin.convertColumns b data kwargs with
  | error e =>
    rw [hcv] at harr
    obtain ⟨i, hi⟩ := List.exists_mem_of_ne_nil _ hne
    obtain ⟨S, hS, -⟩ := hrow i hi
    have := harr i hi
    dsimp only at this
    rw [hS] at this
    cases this
  | ok st =>
    obtain ⟨samples, jacobian⟩ := st
    rw [hcv] at harr
    obtain ⟨u1, u2, u3⟩ := harr
    have hboth : ∀ i ∈ NArr.indices shape, SourceFrame (sampleAt data i) (fin (z i)) (sampleAt samples i) ∧
        jacobian.elem i =
          fin (D' i * (1 + z i) ^ (data.keys.filter fun k => ∃ n, k = n ++ "_detector").length) := by
      intro i hi
      obtain ⟨S, hS, hsf⟩ := hrow i hi
      have := u3 i hi
      dsimp only at this
      rw [hS] at this
      have := Except.ok.inj this
      rw [Prod.mk.injEq] at this
      exact ⟨this.1 ▸ hsf, this.2.symm⟩
    refine ⟨samples, u1, fun i hi => (hboth i hi).1, fun gs hgs => ?_⟩
    obtain ⟨hal, hmm⟩ := init_alike h
    obtain ⟨p, hp, hps, hpe⟩ := Analysis.freshProb_value hgs hmod
    obtain ⟨r, hr', hrs, hre⟩ := overEq_same b hps u2
    refine ⟨r, ?_, hrs, fun i hi => ?_⟩
    · have : (self.prob b same start data kwargs).1 = freshCosmo b self start data kwargs := by
        refine (prob_fresh b same hal (S := fun _ l => ∀ d, Columns.masses samples = .ok d → l = d.map Prod.fst) h0
          (fun r => ⟨rfl, fun l hl => by rw [h0] at hl; cases hl⟩) data kwargs ?_).1
        intro samples' jacobian' hcv' r hr d hdm
        rw [hcv] at hcv'
        cases hcv'
        exact ⟨fun d' hd' => by rw [hdm] at hd'; cases hd'; rfl, fun l hl => Or.inr (Or.inl (hl d hdm))⟩
      rw [this]
      unfold freshCosmo
      rw [hcv, hmm]
      simp only
      rw [hp]
      exact hr'
    · rw [hre i hi, hpe i hi, (hboth i hi).2, fin_div]
      obtain ⟨-, -, hz3, hz4⟩ := hz i hi
      exact (mul_pos hz4 (pow_pos (by linarith) _)).ne'

/-! ## The exact likelihood -/

theorem change_with_others {Y : Type} [MeasurableSpace Y] {lam : Measure Y} [SFinite lam] {k : ℕ} {S : Set ℝ}
    {D D' : ℝ → ℝ} (h : DistanceRelation S D D') {ζ : ℝ → ℝ} (hζ : ∀ z ∈ S, ζ (D z) = z)
    {p : Y × ((Fin k → ℝ) × ℝ) → ℝ} (hp : Measurable p) (p0 : ∀ x, 0 ≤ p x) (hpi : Integrable p (massesAnd lam k S)) :
    Integrable (detectorDensity D' ζ p) (massesAnd lam k (D '' S)) ∧
      ∫ x, detectorDensity D' ζ p x ∂massesAnd lam k (D '' S) = ∫ x, p x ∂massesAnd lam k S := by
  have hcont : ContinuousOn D S := fun z hz => (h.deriv z hz).continuousWithinAt
  have hDS : MeasurableSet (D '' S) := h.meas.image_of_continuousOn_injOn hcont h.mono.injOn
  have hζm : AEMeasurable ζ (volume.restrict (D '' S)) := by
    apply aemeasurable_restrict_of_monotoneOn hDS
    rintro _ ⟨a, ha, rfl⟩ _ ⟨b, hb, rfl⟩ hab
    rw [hζ a ha, hζ b hb]
    exact (h.mono.le_iff_le ha hb).1 hab
  have hvol : ((volume : Measure ((Fin k → ℝ) × ℝ)).restrict (univ ×ˢ (D '' S))) =
      (volume : Measure (Fin k → ℝ)).prod (volume.restrict (D '' S)) := by
    rw [Measure.volume_eq_prod, ← Measure.prod_restrict, Measure.restrict_univ]
  have hsnd : AEMeasurable (fun x : Y × ((Fin k → ℝ) × ℝ) => ζ x.2.2) (massesAnd lam k (D '' S)) := by
    unfold massesAnd
    rw [hvol]
    exact hζm.comp_quasiMeasurePreserving
      (Measure.quasiMeasurePreserving_snd.comp Measure.quasiMeasurePreserving_snd)
  have hFm : AEStronglyMeasurable (detectorDensity D' ζ p) (massesAnd lam k (D '' S)) := by
    apply AEMeasurable.aestronglyMeasurable
    apply AEMeasurable.div
    · refine hp.comp_aemeasurable (AEMeasurable.prodMk measurable_fst.aemeasurable (AEMeasurable.prodMk ?_ hsnd))
      refine aemeasurable_pi_lambda _ fun i => ?_
      exact (((measurable_pi_apply i).comp (measurable_fst.comp measurable_snd)).aemeasurable).div
        (aemeasurable_const.add hsnd)
    · exact (h.measD'.comp_aemeasurable hsnd).mul ((aemeasurable_const.add hsnd).pow_const k)
  have hslice : ∀ y, Integrable (fun x => p (y, x)) (volume.restrict (univ ×ˢ S)) →
      Integrable (fun x => detectorDensity D' ζ p (y, x)) (volume.restrict (univ ×ˢ (D '' S))) ∧
      ∫ x in (univ : Set (Fin k → ℝ)) ×ˢ (D '' S), detectorDensity D' ζ p (y, x) =
        ∫ x in (univ : Set (Fin k → ℝ)) ×ˢ S, p (y, x) :=
    fun y hy => change_of_variables h hζ (p := fun m z => p (y, (m, z)))
      (hp.comp (measurable_const.prodMk measurable_id)) (fun _ _ => p0 _) hy
  have hae := hpi.prod_right_ae
  have hpos : ∀ y, ∀ᵐ x ∂volume.restrict ((univ : Set (Fin k → ℝ)) ×ˢ (D '' S)), 0 ≤ detectorDensity D' ζ p (y, x) := by
    intro y
    rw [ae_restrict_iff' (MeasurableSet.univ.prod hDS)]
    refine ae_of_all _ ?_
    rintro ⟨m, _⟩ ⟨-, z, hz, rfl⟩
    have hz1 : 0 < 1 + z := by linarith [h.gt z hz]
    simp only [detectorDensity, hζ z hz]
    exact div_nonneg (p0 _) (mul_pos (h.pos z hz) (by positivity)).le
  have hFint : Integrable (detectorDensity D' ζ p) (massesAnd lam k (D '' S)) := by
    unfold massesAnd at hFm ⊢
    rw [integrable_prod_iff hFm]
    refine ⟨hae.mono fun y hy => (hslice y hy).1, ?_⟩
    refine hpi.integral_prod_left.congr (hae.mono fun y hy => ?_)
    dsimp only
    rw [← (hslice y hy).2]
    exact integral_congr_ae ((hpos y).mono fun x hx => (Real.norm_of_nonneg hx).symm)
  refine ⟨hFint, ?_⟩
  unfold massesAnd at hFint ⊢
  rw [integral_prod _ hFint, integral_prod _ hpi]
  exact integral_congr_ae (hae.mono fun y hy => (hslice y hy).2)

theorem measurable_toDetector {Y : Type} [MeasurableSpace Y] {k : ℕ} {D : ℝ → ℝ} (hD : Measurable D) :
    Measurable (toDetector D : Y × ((Fin k → ℝ) × ℝ) → _) := by
  refine measurable_fst.prodMk (Measurable.prodMk (measurable_pi_lambda _ fun j => ?_) ?_)
  · exact ((measurable_pi_apply j).comp (measurable_fst.comp measurable_snd)).mul
      (measurable_const.add (measurable_snd.comp measurable_snd))
  · exact hD.comp (measurable_snd.comp measurable_snd)

/-- A nonnegative function of the detector-frame coordinates, averaged over the population. -/
theorem detector_average {Y : Type} [MeasurableSpace Y] {lam : Measure Y} [SFinite lam] {k : ℕ} {S : Set ℝ}
    {D D' : ℝ → ℝ} (h : DistanceRelation S D D') (hD : Measurable D) {ζ : ℝ → ℝ} (hζ : ∀ z ∈ S, ζ (D z) = z)
    {p : Y × ((Fin k → ℝ) × ℝ) → ℝ} (hp : Measurable p) (p0 : ∀ x, 0 ≤ p x)
    {f : Y × ((Fin k → ℝ) × ℝ) → ℝ} (hf : Measurable f) (f0 : ∀ x, 0 ≤ f x)
    (hi : Integrable (fun x => f (toDetector D x) * p x) (massesAnd lam k S)) :
    ∫ x, f x * detectorDensity D' ζ p x ∂massesAnd lam k (D '' S) =
      ∫ x, f (toDetector D x) * p x ∂massesAnd lam k S := by
  have hcont : ContinuousOn D S := fun z hz => (h.deriv z hz).continuousWithinAt
  have hDS : MeasurableSet (D '' S) := h.meas.image_of_continuousOn_injOn hcont h.mono.injOn
  rw [← (change_with_others h hζ (p := fun x => f (toDetector D x) * p x)
    ((hf.comp (measurable_toDetector hD)).mul hp) (fun x => mul_nonneg (f0 _) (p0 _)) hi).2]
  have hmes : massesAnd lam k (D '' S) = (lam.prod volume).restrict (univ ×ˢ (univ ×ˢ (D '' S))) := by
    unfold massesAnd
    rw [← Measure.prod_restrict, Measure.restrict_univ]
  rw [hmes]
  refine setIntegral_congr_fun (MeasurableSet.univ.prod (MeasurableSet.univ.prod hDS)) ?_
  rintro ⟨y, m, _⟩ ⟨-, -, z, hz, rfl⟩
  have hz1 : 1 + z ≠ 0 := by linarith [h.gt z hz]
  have : toDetector D (y, (fun j => m j / (1 + z), z)) = (y, (m, D z)) := by
    unfold toDetector
    simp only [div_mul_cancel₀ _ hz1]
  simp only [detectorDensity, hζ z hz, this]
  rw [mul_div_assoc]

/-- **C108, exact likelihood.** For every distance-redshift relation, number of masses and further coordinates: the
exact likelihood of events and a detection criterion in detector-frame coordinates, for the density that `CosmoModel`
computes, is the exact likelihood of the population in source-frame coordinates, with the event likelihoods and the
detection criterion evaluated at the redshifted masses and the distances. -/
theorem C108_exact {Y : Type} [MeasurableSpace Y] {lam : Measure Y} [SFinite lam] {k : ℕ} {S : Set ℝ}
    {D D' : ℝ → ℝ} (h : DistanceRelation S D D') (hD : Measurable D) {ζ : ℝ → ℝ} (hζ : ∀ z ∈ S, ζ (D z) = z)
    {p : Y × ((Fin k → ℝ) × ℝ) → ℝ} (hp : Measurable p) (p0 : ∀ x, 0 ≤ p x) (hpi : Integrable p (massesAnd lam k S))
    {n : ℕ} {like : Fin n → Y × ((Fin k → ℝ) × ℝ) → ℝ} (hl : ∀ i, Measurable (like i)) (l0 : ∀ i x, 0 ≤ like i x)
    (hli : ∀ i, Integrable (fun x => like i (toDetector D x) * p x) (massesAnd lam k S)) (Z : Fin n → ℝ)
    {found : Set (Y × ((Fin k → ℝ) × ℝ))} (hfound : MeasurableSet found) :
    exactLnLikelihood (massesAnd lam k (D '' S)) (detectorDensity D' ζ p) like Z found =
      exactLnLikelihood (massesAnd lam k S) p (fun i x => like i (toDetector D x)) Z (toDetector D ⁻¹' found) := by
  have hpre : MeasurableSet ((toDetector D : Y × ((Fin k → ℝ) × ℝ) → _) ⁻¹' found) :=
    measurable_toDetector hD hfound
  have e1 : ∀ x, found.indicator (fun _ => (1 : ℝ)) (toDetector D x) * p x =
      ((toDetector D : Y × ((Fin k → ℝ) × ℝ) → _) ⁻¹' found).indicator p x := by
    intro x
    by_cases hx : toDetector D x ∈ found
    · rw [Set.indicator_of_mem hx, Set.indicator_of_mem (show x ∈ toDetector D ⁻¹' found from hx), one_mul]
    · rw [Set.indicator_of_notMem hx, Set.indicator_of_notMem (show x ∉ toDetector D ⁻¹' found from hx), zero_mul]
  have e2 : ∀ x, found.indicator (fun _ => (1 : ℝ)) x * detectorDensity D' ζ p x =
      found.indicator (detectorDensity D' ζ p) x := by
    intro x
    by_cases hx : x ∈ found <;> simp [hx]
  have hsel := detector_average h hD hζ hp p0 (lam := lam) (f := found.indicator fun _ => 1)
    (measurable_const.indicator hfound) (fun x => Set.indicator_nonneg (fun _ _ => zero_le_one) x)
    (by simp only [e1]; exact hpi.indicator hpre)
  simp only [e1, e2] at hsel
  rw [integral_indicator hfound, integral_indicator hpre] at hsel
  unfold exactLnLikelihood
  rw [hsel]
  congr 1
  refine Finset.sum_congr rfl fun i _ => ?_
  rw [detector_average h hD hζ hp p0 (hl i) (l0 i) (hli i)]

/-- **C108, likelihood.** Almost surely, as the numbers of posterior samples and of injections in detector-frame
coordinates grow, the log-likelihood with the density that `CosmoModel` computes converges to the exact one of the
source-frame population. -/
theorem C108_likelihood {Ω : Type} [MeasurableSpace Ω] {P : Measure Ω} [IsProbabilityMeasure P] {Y : Type}
    [MeasurableSpace Y] {lam : Measure Y} [SFinite lam] {k : ℕ} {S : Set ℝ}
    {D D' : ℝ → ℝ} (h : DistanceRelation S D D') (hD : Measurable D) {ζ : ℝ → ℝ} (hζ : ∀ z ∈ S, ζ (D z) = z)
    {p : Y × ((Fin k → ℝ) × ℝ) → ℝ} (hp : Measurable p) (p0 : ∀ x, 0 ≤ p x) (hpi : Integrable p (massesAnd lam k S))
    {q : Y × ((Fin k → ℝ) × ℝ) → ℝ} {found : Set (Y × ((Fin k → ℝ) × ℝ))} {X : ℕ → Ω → Y × ((Fin k → ℝ) × ℝ)}
    (hcam : Campaign P (massesAnd lam k (D '' S)) (detectorDensity D' ζ p) q found X)
    (hind : Pairwise fun i j => X i ⟂ᵢ[P] X j)
    (h2 : IntegrableOn (fun x => detectorDensity D' ζ p x ^ 2 / q x) found (massesAnd lam k (D '' S)))
    (hpos : 0 < ∫ x in found, detectorDensity D' ζ p x ∂massesAnd lam k (D '' S)) {θ φ : Dict Fl}
    {vt : ℕ → Ω → ResamplingVT}
    (hvt : ∀ N ≥ 1, ∀ ω, BuiltFrom (vt N ω) φ (detectorDensity D' ζ p) q found (firstN X N ω))
    (hmode : Mode vt ((∫ x in found, detectorDensity D' ζ p x ^ 2 / q x ∂massesAnd lam k (D '' S)) -
      (∫ x in found, detectorDensity D' ζ p x ∂massesAnd lam k (D '' S)) ^ 2))
    {n : ℕ} {prior like : Fin n → Y × ((Fin k → ℝ) × ℝ) → ℝ} {Z : Fin n → ℝ}
    {W : Fin n → ℕ → Ω → Y × ((Fin k → ℝ) × ℝ)}
    (hW : ∀ i, EventSamples P (massesAnd lam k (D '' S)) (detectorDensity D' ζ p) (prior i) (like i) (Z i) (W i))
    (hli : ∀ i, Integrable (fun x => like i (toDetector D x) * p x) (massesAnd lam k S))
    (hev : ∀ i, 0 < ∫ x, like i x * detectorDensity D' ζ p x ∂massesAnd lam k (D '' S))
    {L : ℕ → ℕ → Ω → Likelihood} (hL : ∀ K N ω, LikelihoodOf (L K N ω) φ (detectorDensity D' ζ p) prior W K ω)
    (hconv : ∀ K N ω, (L K N ω).conversion θ = .ok φ)
    (hsel : ∀ K N ω, (L K N ω).selection = (vt N ω).asSelection) :
    ∀ᵐ ω ∂P, ∃ l v : ℕ × ℕ → ℝ,
      (∀ᶠ KN in atTop ×ˢ atTop, (L KN.1 KN.2 ω).lnLikelihoodAndVariance θ = .ok (fin (l KN), fin (v KN))) ∧
      Tendsto l (atTop ×ˢ atTop) (𝓝 (exactLnLikelihood (massesAnd lam k S) p
        (fun i x => like i (toDetector D x)) Z (toDetector D ⁻¹' found))) ∧
      Tendsto v (atTop ×ˢ atTop) (𝓝 0) := by
  rw [← C108_exact h hD hζ hp p0 hpi (fun i => (hW i).measurable_like) (fun i => (hW i).like_nonneg) hli Z
    hcam.measurable_D]
  exact C82_likelihood hcam hind h2 hpos hvt hmode hW hev hL hconv hsel

/-! ## Non-vacuity -/

/-- `C108_value`: the model is the primary mass itself, the samples are those at distance 1 with detector-frame mass 5,
and the Hubble constant is 1, so that the redshift is 1. -/
example (b : Backend) (same : Dict Fl → Dict Fl → Prop) {N : ℕ} (hN : 0 < N) (start : Instances)
    (h0 : ∀ r, (start r).masses = none) : ∃ (self : CosmoObject) (r : Shaped Fl),
    CosmoObject.init [("FlatLambdaCDM", hubbleLaw)] [.pointwise ⟨fun _ => .ok [], fun row _ => row.get "mass_1"⟩]
      "FlatLambdaCDM" = .ok self ∧
    (self.prob b same start (distantSamples N) (hubbleKw 1)).1 = .ok r ∧ r.shape = [N] ∧
    ∀ i ∈ NArr.indices [N], r.elem i = fin (5 / 2 / (1 * (1 + 1) ^ 1)) := by
  set f : ModelFn (Dict Fl) Fl := ⟨fun _ => .ok [], fun row _ => row.get "mass_1"⟩ with hf
  have hinit : CosmoObject.init [("FlatLambdaCDM", hubbleLaw)] [.pointwise f] "FlatLambdaCDM" =
      .ok ⟨⟨"FlatLambdaCDM", ["H0", "Om0"], hubbleLaw⟩, PopObject.new [.pointwise f] false⟩ := by
    simp [CosmoObject.init, CosmoMixin.init, Dict.get, Dict.get?_cons, ok_bind, pure_eq_ok]
  have hc : (⟨"FlatLambdaCDM", ["H0", "Om0"], hubbleLaw⟩ : CosmoMixin).cosmology (hubbleKw 1) = .ok
      { diffComovingVolume := fun _ => 1
        luminosityDistance := fun z => z / fin 1
        dDLdz := fun _ => 1 / fin 1
        zAtDistance := fun d => d * fin 1 } := by
    simp [CosmoMixin.cosmology, hubbleLaw, CosmoMixin.cosmologyVariables, hubbleKw, staleKw, Dict.get,
      Dict.get?_cons, ok_bind, pure_eq_ok]
  have hkeys : (distantSamples N).keys = ["luminosity_distance", "mass_1_detector", "mass_ratio"] := rfl
  have hdet : ∀ n : String, n ++ "_detector" ∈ (distantSamples N).keys → n = "mass_1" := by
    intro n hn
    rw [hkeys] at hn
    simp only [List.mem_cons, List.not_mem_nil, or_false] at hn
    rcases hn with hn | hn | hn
    · exact absurd (hn ▸ isDetector_append n) not_isDetector_distance
    · exact append_detector_inj (show n ++ "_detector" = "mass_1" ++ "_detector" from hn)
    · have := hn ▸ isDetector_append n
      exact absurd this (by unfold CosmoMixin.isDetector; decide)
  have hcount : ((distantSamples N).keys.filter fun k => ∃ n, k = n ++ "_detector").length = 1 := by
    have h1 : ¬ ∃ n, "luminosity_distance" = n ++ "_detector" := fun ⟨n, h⟩ =>
      absurd (h ▸ isDetector_append n) not_isDetector_distance
    have h2 : ∃ n, "mass_1_detector" = n ++ "_detector" := ⟨"mass_1", rfl⟩
    have h3 : ¬ ∃ n, "mass_ratio" = n ++ "_detector" := fun ⟨n, h⟩ =>
      absurd (h ▸ isDetector_append n) (by unfold CosmoMixin.isDetector; decide)
    rw [hkeys, List.filter_cons_of_neg (by simpa using h1), List.filter_cons_of_pos (by simpa using h2),
      List.filter_cons_of_neg (by simpa using h3)]
    rfl
  obtain ⟨samples, hs, hsf, hval⟩ := C108_value b same hinit h0 (shape := [N])
    (List.ne_nil_of_mem (Analysis.mem_indices_one hN)) (data := distantSamples N)
    (by intro kv hkv
        simp only [distantSamples, List.mem_cons, List.not_mem_nil, or_false] at hkv
        rcases hkv with rfl | rfl | rfl <;> rfl)
    (by rw [hkeys]; decide)
    (fun n hn => by
      obtain rfl := hdet n hn
      exact ⟨by show ¬ "mass_1" ∈ (distantSamples N).keys; rw [hkeys]; decide, by decide⟩)
    (by show ¬ "redshift" ∈ (distantSamples N).keys; rw [hkeys]; decide)
    (dl := ⟨[N], fun _ => fin 1⟩) rfl hc (z := fun _ => 1) (D' := fun _ => 1)
    (fun i _ => ⟨by simp, by rw [one_eq, fin_div one_ne_zero, div_one], by norm_num, one_pos⟩) (by simp)
  have hm1 : ∀ i ∈ NArr.indices [N], (sampleAt samples i).get "mass_1" = .ok (fin (5 / 2)) := by
    intro i hi
    have := (hsf i hi).detector "mass_1" (fin 5) rfl
    rw [get_some this, one_eq, fin_add, fin_div (by norm_num)]
    norm_num
  have hrows : Columns.rows samples = ⟨[N], fun i => sampleAt samples i⟩ := by
    cases hsm : samples with
    | nil =>
      have := (hsf _ (Analysis.mem_indices_one hN)).redshift
      rw [hsm] at this
      cases this
    | cons kv l =>
      have hk : kv.2.shape = [N] := hs kv (by rw [hsm]; simp)
      unfold Columns.rows
      rw [← hk]
      rfl
  obtain ⟨v, hv, hvs, hve⟩ := Analysis.mapM_value (f := fun row => f.call row []) (a := Columns.rows samples)
    (g := fun _ => 5 / 2) (by
      rw [hrows]
      exact hm1)
  rw [show (Columns.rows samples).shape = [N] by rw [hrows]] at hvs hve
  obtain ⟨r, hr, hrs, hre⟩ := hval [fun _ => 5 / 2]
    (List.Forall₂.cons ⟨[], v, rfl, hv, hvs, hve⟩ List.Forall₂.nil)
  refine ⟨_, r, hinit, hr, hrs, fun i hi => ?_⟩
  rw [hre i hi, hcount]
  simp

/-- The redshift at a distance for `toyDistance`. -/
def toyRedshift (d : ℝ) : ℝ := (Real.sqrt (1 + 4 * d) - 1) / 2

theorem toyRedshift_inverse (z : ℝ) (hz : z ∈ Ioo (0 : ℝ) 1) : toyRedshift (z + z ^ 2) = z := by
  unfold toyRedshift
  rw [show 1 + 4 * (z + z ^ 2) = (1 + 2 * z) ^ 2 by ring, Real.sqrt_sq (by linarith [hz.1])]
  ring

/-- A mass uniform in `[0, 1]`. -/
def toyDensity (x : Unit × ((Fin 1 → ℝ) × ℝ)) : ℝ := (Icc (0 : Fin 1 → ℝ) 1).indicator (fun _ => 1) x.2.1

/-- The same in detector-frame coordinates. -/
def toyDetectorDensity : Unit × ((Fin 1 → ℝ) × ℝ) → ℝ := detectorDensity (fun z => 1 + 2 * z) toyRedshift toyDensity

theorem toyDensity_measurable : Measurable toyDensity :=
  (measurable_const.indicator measurableSet_Icc).comp (measurable_fst.comp measurable_snd)

theorem toyDetector_measurable : Measurable toyDetectorDensity := by
  have hζ : Measurable toyRedshift := by unfold toyRedshift; fun_prop
  have hsnd : Measurable fun x : Unit × ((Fin 1 → ℝ) × ℝ) => toyRedshift x.2.2 :=
    hζ.comp (measurable_snd.comp measurable_snd)
  refine Measurable.div (toyDensity_measurable.comp (measurable_fst.prodMk (Measurable.prodMk ?_ hsnd))) ?_
  · exact measurable_pi_lambda _ fun j =>
      ((measurable_pi_apply j).comp (measurable_fst.comp measurable_snd)).div (measurable_const.add hsnd)
  · exact (measurable_const.add (measurable_const.mul hsnd)).mul ((measurable_const.add hsnd).pow_const 1)

theorem toyDetector_nonneg (x : Unit × ((Fin 1 → ℝ) × ℝ)) : 0 ≤ toyDetectorDensity x := by
  have h1 := Real.sqrt_nonneg (1 + 4 * x.2.2)
  unfold toyDetectorDensity detectorDensity
  refine div_nonneg (Set.indicator_nonneg (fun _ _ => zero_le_one) _) (mul_nonneg ?_ (pow_nonneg ?_ _)) <;>
  · unfold toyRedshift
    linarith

theorem toy_integral (S : Set ℝ) {f : Unit × ((Fin 1 → ℝ) × ℝ) → ℝ} (hf : Measurable f) :
    ∫ x, f x ∂massesAnd (Measure.dirac ()) 1 S = ∫ x in (univ : Set (Fin 1 → ℝ)) ×ˢ S, f ((), x) := by
  unfold massesAnd
  rw [Measure.dirac_prod, integral_map (by fun_prop) hf.aestronglyMeasurable]

theorem toy_volume {a : ℝ} (ha : 0 ≤ a) :
    (volume : Measure ((Fin 1 → ℝ) × ℝ)) (Icc (0 : Fin 1 → ℝ) 1 ×ˢ Ioo 0 a) = ENNReal.ofReal a := by
  rw [Measure.volume_eq_prod, Measure.prod_prod, Real.volume_Icc_pi]
  simp

theorem toy_integrable : Integrable toyDensity (massesAnd (Measure.dirac ()) 1 (Ioo 0 1)) := by
  unfold massesAnd
  rw [Measure.dirac_prod, integrable_map_measure toyDensity_measurable.aestronglyMeasurable (by fun_prop)]
  have hset : Icc (0 : Fin 1 → ℝ) 1 ×ˢ (univ : Set ℝ) ∩ univ ×ˢ Ioo (0:ℝ) 1 = Icc (0 : Fin 1 → ℝ) 1 ×ˢ Ioo (0:ℝ) 1 := by
    ext x; simp
  have : toyDensity ∘ Prod.mk () = (Icc (0 : Fin 1 → ℝ) 1 ×ˢ (univ : Set ℝ)).indicator fun _ => (1 : ℝ) := by
    funext x
    by_cases hx : x.1 ∈ Icc (0 : Fin 1 → ℝ) 1
    · rw [Set.indicator_of_mem (show x ∈ Icc (0 : Fin 1 → ℝ) 1 ×ˢ (univ : Set ℝ) from ⟨hx, trivial⟩)]
      exact Set.indicator_of_mem hx fun _ => (1 : ℝ)
    · rw [Set.indicator_of_notMem fun h => hx h.1]
      exact Set.indicator_of_notMem hx fun _ => (1 : ℝ)
  rw [this, integrable_indicator_iff (measurableSet_Icc.prod MeasurableSet.univ)]
  refine integrableOn_const ?_
  rw [Measure.restrict_apply (measurableSet_Icc.prod MeasurableSet.univ), hset, toy_volume zero_le_one]
  simp

theorem toy_below {a : ℝ} (ha : 0 ≤ a) (ha1 : a ≤ 1) {f : Unit × ((Fin 1 → ℝ) × ℝ) → ℝ} (hf : Measurable f)
    (h : ∀ x, x.2.2 ∈ Ioo (0 : ℝ) 1 → f x = if x.2.1 ∈ Icc (0 : Fin 1 → ℝ) 1 ∧ x.2.2 < a then 1 else 0) :
    ∫ x, f x ∂massesAnd (Measure.dirac ()) 1 (Ioo 0 1) = a := by
  rw [toy_integral _ hf]
  have hm : MeasurableSet ((univ : Set (Fin 1 → ℝ)) ×ˢ Ioo (0:ℝ) 1) := MeasurableSet.univ.prod measurableSet_Ioo
  have hb : MeasurableSet (Icc (0 : Fin 1 → ℝ) 1 ×ˢ Ioo (0:ℝ) a) := measurableSet_Icc.prod measurableSet_Ioo
  rw [setIntegral_congr_fun (g := (Icc (0 : Fin 1 → ℝ) 1 ×ˢ Ioo (0:ℝ) a).indicator fun _ => (1:ℝ)) hm]
  · rw [setIntegral_indicator hb]
    have : (univ : Set (Fin 1 → ℝ)) ×ˢ Ioo (0:ℝ) 1 ∩ Icc (0 : Fin 1 → ℝ) 1 ×ˢ Ioo (0:ℝ) a =
        Icc (0 : Fin 1 → ℝ) 1 ×ˢ Ioo (0:ℝ) a := by
      ext x
      simp only [mem_inter_iff, mem_prod, mem_univ, true_and, mem_Ioo]
      constructor
      · exact fun h => h.2
      · exact fun h => ⟨⟨h.2.1, by linarith [h.2.2]⟩, h⟩
    rw [this]
    simp [Measure.real, toy_volume ha, ha]
  · rintro x ⟨-, hx⟩
    dsimp only
    rw [h ((), x) hx]
    by_cases hc : x.1 ∈ Icc (0 : Fin 1 → ℝ) 1 ∧ x.2 < a
    · rw [if_pos hc, Set.indicator_of_mem (show x ∈ Icc (0 : Fin 1 → ℝ) 1 ×ˢ Ioo (0:ℝ) a from ⟨hc.1, hx.1, hc.2⟩)]
    · rw [if_neg hc, Set.indicator_of_notMem fun h => hc ⟨h.1, h.2.2⟩]

/-- `C108_likelihood` and `C108_exact`: a mass uniform in `[0, 1]` and redshifts in `(0, 1)`, distances `z + z^2`, one
uninformative event, and detection of everything closer than `3 / 4`, that is at redshifts below one half. -/
example (planck15 : Cosmology) : ∃ (Ω : Type) (_ : MeasurableSpace Ω) (P : Measure Ω)
    (_ : IsProbabilityMeasure P) (L : ℕ → ℕ → Ω → Likelihood),
    ∀ᵐ ω ∂P, ∃ l v : ℕ × ℕ → ℝ,
      (∀ᶠ KN in atTop ×ˢ atTop, (L KN.1 KN.2 ω).lnLikelihoodAndVariance [] = .ok (fin (l KN), fin (v KN))) ∧
      Tendsto l (atTop ×ˢ atTop) (𝓝 (-Real.log (1 / 2))) ∧ Tendsto v (atTop ×ˢ atTop) (𝓝 0) := by
  set D : ℝ → ℝ := fun z => z + z ^ 2 with hD
  set ν := massesAnd (Measure.dirac ()) 1 (D '' Ioo 0 1) with hν
  have hDm : Measurable D := by fun_prop
  obtain ⟨hi, h1⟩ := change_with_others (lam := Measure.dirac ()) toyDistance toyRedshift_inverse toyDensity_measurable
    (fun x => Set.indicator_nonneg (fun _ _ => zero_le_one) _) toy_integrable
  rw [toy_below zero_le_one le_rfl toyDensity_measurable (fun x hx => by
    unfold toyDensity
    by_cases h : x.2.1 ∈ Icc (0 : Fin 1 → ℝ) 1
    · rw [Set.indicator_of_mem h, if_pos ⟨h, hx.2⟩]
    · rw [Set.indicator_of_notMem h, if_neg fun h' => h h'.1])] at h1
  change Integrable toyDetectorDensity ν at hi
  change ∫ x, toyDetectorDensity x ∂ν = 1 at h1
  have hprob : IsProbabilityMeasure (ν.withDensity fun x => ENNReal.ofReal (toyDetectorDensity x)) := by
    constructor
    rw [withDensity_apply _ MeasurableSet.univ, Measure.restrict_univ,
      ← ofReal_integral_eq_lintegral_ofReal hi (ae_of_all _ toyDetector_nonneg), h1, ENNReal.ofReal_one]
  obtain ⟨Ω, mΩ, P, X, hXm, hXl, hXi, hP⟩ := exists_iid ℕ (ν.withDensity fun x => ENNReal.ofReal (toyDetectorDensity x))
  have hlaw : ∀ i, P.map (X i) = ν.withDensity fun x => ENNReal.ofReal (toyDetectorDensity x) := fun i =>
    (hXl i).map_eq
  have hindep : Pairwise fun i j => X i ⟂ᵢ[P] X j := fun i j hij => hXi.indepFun hij
  set supp : Set (Unit × ((Fin 1 → ℝ) × ℝ)) := {x | 0 < toyDetectorDensity x} with hsupp
  have hsm : MeasurableSet supp := measurableSet_lt measurable_const toyDetector_measurable
  set seen : Set (Unit × ((Fin 1 → ℝ) × ℝ)) := supp ∩ {x | x.2.2 < 3 / 4} with hseen
  have hseenm : MeasurableSet seen :=
    hsm.inter (measurableSet_lt (measurable_snd.comp measurable_snd) measurable_const)
  set like : Unit × ((Fin 1 → ℝ) × ℝ) → ℝ := supp.indicator fun _ => 1 with hlike
  set prior : Unit × ((Fin 1 → ℝ) × ℝ) → ℝ := fun x => if 0 < toyDetectorDensity x then toyDetectorDensity x else 1
    with hprior
  have off : ∀ x, x ∉ supp → toyDetectorDensity x = 0 := fun x hx =>
    le_antisymm (not_lt.1 hx) (toyDetector_nonneg x)
  have hlp : ∀ x, like x * prior x / 1 = toyDetectorDensity x := by
    intro x
    by_cases hx : x ∈ supp
    · simp only [hlike, hprior, Set.indicator_of_mem hx]
      rw [if_pos (show 0 < toyDetectorDensity x from hx)]; ring
    · simp only [hlike, Set.indicator_of_notMem hx]
      rw [off x hx]; ring
  have hlp1 : ∀ x, like x * toyDetectorDensity x = toyDetectorDensity x := by
    intro x
    by_cases hx : x ∈ supp
    · simp only [hlike, Set.indicator_of_mem hx, one_mul]
    · rw [off x hx, mul_zero]
  have hlp2 : ∀ x, like x * toyDetectorDensity x ^ 2 / prior x = toyDetectorDensity x := by
    intro x
    by_cases hx : x ∈ supp
    · have h0 : 0 < toyDetectorDensity x := hx
      simp only [hlike, hprior, Set.indicator_of_mem hx, if_pos h0, one_mul]
      field_simp
    · rw [off x hx]; ring
  have hq2 : ∀ x, toyDetectorDensity x ^ 2 / toyDetectorDensity x = toyDetectorDensity x := by
    intro x
    by_cases hx : toyDetectorDensity x = 0
    · rw [hx]; ring
    · field_simp
  have hcam : Campaign P ν toyDetectorDensity toyDetectorDensity seen X :=
    ⟨toyDetector_measurable, toyDetector_measurable, hseenm, fun x hx => hx.1, hXm, hlaw, hi.integrableOn⟩
  have hT : ∀ x : Unit × ((Fin 1 → ℝ) × ℝ), x.2.2 ∈ Ioo (0 : ℝ) 1 →
      toyDetectorDensity (toDetector D x) = toyDensity x / ((1 + 2 * x.2.2) * (1 + x.2.2) ^ 1) := by
    intro x hx
    have hz : 1 + x.2.2 ≠ 0 := by linarith [hx.1]
    unfold toyDetectorDensity detectorDensity toDetector
    simp only [hD, toyRedshift_inverse _ hx, mul_div_cancel_right₀ _ hz]
  have hTs : ∀ x : Unit × ((Fin 1 → ℝ) × ℝ), x.2.2 ∈ Ioo (0 : ℝ) 1 →
      (toDetector D x ∈ supp ↔ x.2.1 ∈ Icc (0 : Fin 1 → ℝ) 1) := by
    intro x hx
    show 0 < toyDetectorDensity (toDetector D x) ↔ _
    rw [hT x hx]
    have hpos : 0 < (1 + 2 * x.2.2) * (1 + x.2.2) ^ 1 := by
      have := hx.1
      positivity
    by_cases h : x.2.1 ∈ Icc (0 : Fin 1 → ℝ) 1
    · simp only [toyDensity, Set.indicator_of_mem h, h, iff_true]
      positivity
    · simp [toyDensity, Set.indicator_of_notMem h, h]
  have hTm : Measurable (toDetector D : Unit × ((Fin 1 → ℝ) × ℝ) → _) := measurable_toDetector hDm
  have hsel : ∫ x in seen, toyDetectorDensity x ∂ν = 1 / 2 := by
    have e2 : ∀ x, seen.indicator (fun _ => (1 : ℝ)) x * toyDetectorDensity x = seen.indicator toyDetectorDensity x := by
      intro x
      by_cases hx : x ∈ seen <;> simp [hx]
    rw [← integral_indicator hseenm]
    simp_rw [← e2]
    rw [show (fun x => seen.indicator (fun _ => (1 : ℝ)) x * toyDetectorDensity x) = fun x =>
      seen.indicator (fun _ => (1 : ℝ)) x * detectorDensity (fun z => 1 + 2 * z) toyRedshift toyDensity x from rfl, hν,
      detector_average toyDistance hDm toyRedshift_inverse toyDensity_measurable
        (fun x => Set.indicator_nonneg (fun _ _ => zero_le_one) _) (measurable_const.indicator hseenm)
        (fun x => Set.indicator_nonneg (fun _ _ => zero_le_one) _) ?_]
    · refine toy_below (by norm_num) (by norm_num)
        (((measurable_const.indicator hseenm).comp hTm).mul toyDensity_measurable) fun x hx => ?_
      have hx2 : (toDetector D x).2.2 < 3 / 4 ↔ x.2.2 < 1 / 2 := by
        show x.2.2 + x.2.2 ^ 2 < 3 / 4 ↔ _
        have := hx.1
        constructor
        · intro h; nlinarith
        · intro h; nlinarith
      have hmem : toDetector D x ∈ seen ↔ x.2.1 ∈ Icc (0 : Fin 1 → ℝ) 1 ∧ x.2.2 < 1 / 2 := by
        rw [← hTs x hx, ← hx2]
        exact Iff.rfl
      by_cases h : x.2.1 ∈ Icc (0 : Fin 1 → ℝ) 1 ∧ x.2.2 < 1 / 2
      · rw [if_pos h, Set.indicator_of_mem (hmem.2 h)]
        simp only [toyDensity, Set.indicator_of_mem h.1, one_mul]
      · rw [if_neg h, Set.indicator_of_notMem fun h' => h (hmem.1 h'), zero_mul]
    · refine toy_integrable.mono' (((measurable_const.indicator hseenm).comp hTm).mul
        toyDensity_measurable).aestronglyMeasurable (ae_of_all _ fun x => ?_)
      have h0 : 0 ≤ toyDensity x := Set.indicator_nonneg (fun _ _ => zero_le_one) _
      by_cases hx : toDetector D x ∈ seen
      · rw [Set.indicator_of_mem hx, one_mul, Real.norm_of_nonneg h0]
      · rw [Set.indicator_of_notMem hx, zero_mul, norm_zero]
        exact h0
  choose vt hvt using fun (N : ℕ) (ω : Ω) =>
    exists_built planck15 [] toyDetectorDensity toyDetectorDensity seen (firstN X N ω) false true (fin 10)
  let L : ℕ → ℕ → Ω → Likelihood := fun K N ω =>
    { cls := .hyper, backend := .numpy, data := []
      hyperPrior := ⟨[], fun _ _ =>
        .ok (matFin ((List.finRange 1).map fun _ => (firstN X K ω).map toyDetectorDensity))⟩
      samplingPrior := some (matFin ((List.finRange 1).map fun _ => (firstN X K ω).map prior))
      totalNoiseEvidence := 0, conversion := fun θ => .ok θ, selection := (vt N ω).asSelection
      nPosteriors := 1, samplesPerPosterior := K, maximumUncertainty := pinf, maxVariance := pinf }
  refine ⟨Ω, mΩ, P, hP, L, ?_⟩
  have hli : Integrable (fun x => like (toDetector D x) * toyDensity x) (massesAnd (Measure.dirac ()) 1 (Ioo 0 1)) := by
    refine toy_integrable.mono' (((measurable_const.indicator hsm).comp hTm).mul
      toyDensity_measurable).aestronglyMeasurable (ae_of_all _ fun x => ?_)
    have h0 : 0 ≤ toyDensity x := Set.indicator_nonneg (fun _ _ => zero_le_one) _
    by_cases hx : toDetector D x ∈ supp
    · simp only [hlike, Set.indicator_of_mem hx, one_mul, Real.norm_of_nonneg h0, le_refl]
    · simp only [hlike, Set.indicator_of_notMem hx, zero_mul, norm_zero, h0]
  have key := C108_likelihood (L := L) (θ := []) (φ := []) (n := 1) (like := fun _ => like) (prior := fun _ => prior)
    (Z := fun _ => 1) (W := fun _ => X) (p := toyDensity) toyDistance hDm toyRedshift_inverse toyDensity_measurable
    (fun x => Set.indicator_nonneg (fun _ _ => zero_le_one) _) toy_integrable hcam hindep
    (by simp only [show ∀ x, detectorDensity (fun z => 1 + 2 * z) toyRedshift toyDensity x = toyDetectorDensity x from
          fun _ => rfl, hq2]
        exact hi.integrableOn)
    (show 0 < ∫ x in seen, toyDetectorDensity x ∂ν by rw [hsel]; norm_num)
    (fun N _ ω => (hvt N ω).1)
    (.inr (.inl ⟨10, fun N ω => ⟨(hvt N ω).2.1, (hvt N ω).2.2.1, (hvt N ω).2.2.2⟩⟩))
    (fun _ => ⟨toyDetector_measurable, Measurable.ite hsm toyDetector_measurable measurable_const,
      measurable_const.indicator hsm, fun x => by
        simp only [hprior]
        split_ifs with h
        · exact h
        · exact one_pos, fun x => Set.indicator_nonneg (fun _ _ => zero_le_one) _, one_pos,
      hXm, by simp only [hlp]; exact hlaw, hindep, by
        show Integrable (fun x => like x * toyDetectorDensity x) ν
        simp only [hlp1]; exact hi, by
        show Integrable (fun x => like x * toyDetectorDensity x ^ 2 / prior x) ν
        simp only [hlp2]; exact hi⟩)
    (fun _ => hli)
    (fun _ => show 0 < ∫ x, like x * toyDetectorDensity x ∂ν by simp only [hlp1, h1]; norm_num)
    (fun K N ω => ⟨rfl, rfl, rfl, rfl, rfl⟩) (fun _ _ _ => rfl) (fun _ _ _ => rfl)
  rw [← C108_exact toyDistance hDm toyRedshift_inverse toyDensity_measurable
    (fun x => Set.indicator_nonneg (fun _ _ => zero_le_one) _) toy_integrable
    (fun _ => measurable_const.indicator hsm) (fun _ x => Set.indicator_nonneg (fun _ _ => zero_le_one) _)
    (fun _ => hli) _ hseenm] at key
  have he : exactLnLikelihood ν toyDetectorDensity (fun (_ : Fin 1) => like) (fun _ => 1) seen = -Real.log (1 / 2) := by
    unfold exactLnLikelihood
    rw [hsel]
    simp [hlp1, h1]
  rw [← he]
  exact key

end CosmoArrays

end GW
