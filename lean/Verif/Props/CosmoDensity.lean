import Verif.Props.Cosmo
import Verif.Spec.Density
import Mathlib.MeasureTheory.Function.Jacobian
import Mathlib.MeasureTheory.Function.JacobianOneDim
import Mathlib.MeasureTheory.Measure.Haar.NormedSpace
import Mathlib.MeasureTheory.Constructions.BorelSpace.Order
import Mathlib.MeasureTheory.Integral.Prod

/-!
# C59: the Jacobian of the detector-frame conversion
-/

noncomputable section

open MeasureTheory Set Classical

namespace GW

open Fl Spec

/-- A distance-redshift relation on the set `S` of redshifts: strictly increasing, differentiable
with positive measurable derivative `D'`. -/
structure Spec.DistanceRelation (S : Set ℝ) (D D' : ℝ → ℝ) : Prop where
  /-- the set is measurable -/
  meas : MeasurableSet S
  /-- redshifts are above -1 -/
  gt : ∀ z ∈ S, -1 < z
  /-- strictly increasing -/
  mono : StrictMonoOn D S
  /-- derivative -/
  deriv : ∀ z ∈ S, HasDerivWithinAt D (D' z) S z
  /-- positive derivative -/
  pos : ∀ z ∈ S, 0 < D' z
  /-- measurable derivative -/
  measD' : Measurable D'

/-- The change of variables `(m, z) -> (m (1 + z), D(z))` for `k` masses and a redshift. -/
theorem change_of_variables {k : ℕ} {S : Set ℝ} {D D' : ℝ → ℝ} (h : DistanceRelation S D D')
    {ζ : ℝ → ℝ} (hζ : ∀ z ∈ S, ζ (D z) = z) {p : (Fin k → ℝ) → ℝ → ℝ}
    (hp : Measurable (fun x : (Fin k → ℝ) × ℝ => p x.1 x.2)) (p0 : ∀ m z, 0 ≤ p m z)
    (hpi : IntegrableOn (fun x : (Fin k → ℝ) × ℝ => p x.1 x.2) (univ ×ˢ S)) :
    IntegrableOn (fun x : (Fin k → ℝ) × ℝ =>
        p (fun i => x.1 i / (1 + ζ x.2)) (ζ x.2) / (D' (ζ x.2) * (1 + ζ x.2) ^ k))
        (univ ×ˢ (D '' S)) ∧
      ∫ x in (univ : Set (Fin k → ℝ)) ×ˢ (D '' S),
        p (fun i => x.1 i / (1 + ζ x.2)) (ζ x.2) / (D' (ζ x.2) * (1 + ζ x.2) ^ k) =
      ∫ x in (univ : Set (Fin k → ℝ)) ×ˢ S, p x.1 x.2 := by
  have hcont : ContinuousOn D S := fun z hz => (h.deriv z hz).continuousWithinAt
  have hinj : InjOn D S := h.mono.injOn
  have hDS : MeasurableSet (D '' S) := h.meas.image_of_continuousOn_injOn hcont hinj
  -- the inverse is monotone, hence measurable
  have hζm : AEMeasurable ζ (volume.restrict (D '' S)) := by
    apply aemeasurable_restrict_of_monotoneOn hDS
    rintro _ ⟨a, ha, rfl⟩ _ ⟨b, hb, rfl⟩ hab
    rw [hζ a ha, hζ b hb]
    exact (h.mono.le_iff_le ha hb).1 hab
  set F : (Fin k → ℝ) × ℝ → ℝ := fun x =>
    p (fun i => x.1 i / (1 + ζ x.2)) (ζ x.2) / (D' (ζ x.2) * (1 + ζ x.2) ^ k) with hF
  have hsnd : AEMeasurable (fun x : (Fin k → ℝ) × ℝ => ζ x.2)
      ((volume : Measure (Fin k → ℝ)).prod (volume.restrict (D '' S))) :=
    hζm.comp_quasiMeasurePreserving Measure.quasiMeasurePreserving_snd
  have hFm : AEStronglyMeasurable F
      ((volume : Measure (Fin k → ℝ)).prod (volume.restrict (D '' S))) := by
    apply AEMeasurable.aestronglyMeasurable
    apply AEMeasurable.div
    · refine hp.comp_aemeasurable (AEMeasurable.prodMk ?_ hsnd)
      refine aemeasurable_pi_lambda _ fun i => ?_
      exact (((measurable_pi_apply i).comp measurable_fst).aemeasurable).div
        (aemeasurable_const.add hsnd)
    · exact (h.measD'.comp_aemeasurable hsnd).mul ((aemeasurable_const.add hsnd).pow_const k)
  have hvol : ((volume : Measure ((Fin k → ℝ) × ℝ)).restrict (univ ×ˢ (D '' S))) =
      (volume : Measure (Fin k → ℝ)).prod (volume.restrict (D '' S)) := by
    rw [Measure.volume_eq_prod, ← Measure.prod_restrict, Measure.restrict_univ]
  have hvolS : ((volume : Measure ((Fin k → ℝ) × ℝ)).restrict (univ ×ˢ S)) =
      (volume : Measure (Fin k → ℝ)).prod (volume.restrict S) := by
    rw [Measure.volume_eq_prod, ← Measure.prod_restrict, Measure.restrict_univ]
  have hpi' : Integrable (fun x : (Fin k → ℝ) × ℝ => p x.1 x.2)
      ((volume : Measure (Fin k → ℝ)).prod (volume.restrict S)) := by
    rw [← hvolS]; exact hpi
  -- integral over the masses at fixed redshift
  have hinner : ∀ z ∈ S, (∫ m : Fin k → ℝ, F (m, D z)) = (∫ m, p m z) / D' z := by
    intro z hz
    have hz1 : 0 < 1 + z := by linarith [h.gt z hz]
    simp only [hF, hζ z hz]
    rw [integral_div]
    have e : (fun m : Fin k → ℝ => p (fun i => m i / (1 + z)) z) =
        fun m => (fun m' => p m' z) ((1 + z)⁻¹ • m) := by
      funext m
      congr 1
      funext i
      simp [div_eq_inv_mul]
    have e2 := Measure.integral_comp_inv_smul (volume : Measure (Fin k → ℝ))
      (fun m' => p m' z) (1 + z)
    rw [e, e2, Module.finrank_fin_fun, abs_of_pos (by positivity),
      smul_eq_mul]
    have := (h.pos z hz).ne'
    field_simp
  have hslice : ∀ z ∈ S, Integrable (fun m => p m z) → Integrable fun m : Fin k → ℝ => F (m, D z) := by
    intro z hz hi
    have hz1 : 0 < 1 + z := by linarith [h.gt z hz]
    simp only [hF, hζ z hz]
    apply Integrable.div_const
    have := hi.comp_smul (inv_ne_zero hz1.ne')
    refine this.congr (ae_of_all _ fun m => ?_)
    show p _ z = p _ z
    congr 1
    funext i
    simp [div_eq_inv_mul]
  have hP : IntegrableOn (fun z => ∫ m, p m z) S := hpi'.integral_prod_right
  have hae : ∀ᵐ z ∂(volume.restrict S), Integrable fun m => p m z := hpi'.prod_left_ae
  have hg : IntegrableOn (fun d => ∫ m : Fin k → ℝ, F (m, d)) (D '' S) := by
    rw [integrableOn_image_iff_integrableOn_abs_deriv_smul h.meas h.deriv hinj]
    refine hP.congr_fun (fun z hz => ?_) h.meas
    simp only [hinner z hz, abs_of_pos (h.pos z hz), smul_eq_mul]
    have := (h.pos z hz).ne'
    field_simp
  -- almost every distance has an integrable slice
  have hae' : ∀ᵐ d ∂(volume.restrict (D '' S)), Integrable fun m : Fin k → ℝ => F (m, d) := by
    rw [ae_restrict_iff' h.meas] at hae
    rw [ae_restrict_iff' hDS]
    have hnull : volume (D '' {z ∈ S | ¬ Integrable fun m => p m z}) = 0 := by
      refine addHaar_image_eq_zero_of_differentiableOn_of_addHaar_eq_zero volume ?_ ?_
      · intro z hz
        exact ((h.deriv z hz.1).mono (fun x hx => hx.1)).differentiableWithinAt
      · have := hae
        rw [ae_iff] at this
        convert this using 2
        ext z
        simp
    refine measure_mono_null ?_ hnull
    intro d hd
    simp only [mem_compl_iff, mem_setOf_eq, Classical.not_imp] at hd
    obtain ⟨⟨z, hz, rfl⟩, hni⟩ := hd
    exact ⟨z, ⟨hz, fun hi => hni (hslice z hz hi)⟩, rfl⟩
  have hF0 : ∀ d ∈ D '' S, ∀ m, 0 ≤ F (m, d) := by
    rintro _ ⟨z, hz, rfl⟩ m
    have hz1 : 0 < 1 + z := by linarith [h.gt z hz]
    simp only [hF, hζ z hz]
    exact div_nonneg (p0 _ _) (mul_pos (h.pos z hz) (by positivity)).le
  have hFint : Integrable F ((volume : Measure (Fin k → ℝ)).prod (volume.restrict (D '' S))) := by
    rw [integrable_prod_iff' hFm]
    refine ⟨hae', ?_⟩
    refine hg.congr_fun (fun d hd => ?_) hDS
    exact integral_congr_ae (ae_of_all _ fun m => (Real.norm_of_nonneg (hF0 d hd m)).symm)
  refine ⟨by unfold IntegrableOn; rw [hvol]; exact hFint, ?_⟩
  rw [hvol, hvolS, integral_prod_symm _ hFint, integral_prod_symm _ hpi',
    integral_image_eq_integral_abs_deriv_smul h.meas h.deriv hinj]
  refine setIntegral_congr_fun h.meas fun z hz => ?_
  simp only [hinner z hz, abs_of_pos (h.pos z hz), smul_eq_mul]
  have := (h.pos z hz).ne'
  field_simp

/-- One sample with a luminosity distance and `k` detector-frame columns. -/
def detectorData {k : ℕ} (names : Fin k → String) (m : Fin k → ℝ) (d : ℝ) : Dict Fl :=
  ("luminosity_distance", fin d) :: List.ofFn fun i => (names i ++ "_detector", fin (m i))

/-- Acceptable source-frame names for `k` columns: distinct, different from the two special names,
and none of them the detector-frame name of another one. -/
structure Spec.MassNames {k : ℕ} (names : Fin k → String) : Prop where
  /-- distinct -/
  inj : Function.Injective names
  /-- not `redshift` -/
  redshift : ∀ i, names i ≠ "redshift"
  /-- not `luminosity_distance` -/
  distance : ∀ i, names i ≠ "luminosity_distance"
  /-- no clash with the detector-frame names -/
  clash : ∀ i j, names i ≠ names j ++ "_detector"

theorem detectorData_keys {k : ℕ} (names : Fin k → String) (m : Fin k → ℝ) (d : ℝ) :
    (detectorData names m d).keys =
      "luminosity_distance" :: List.ofFn fun i => names i ++ "_detector" := by
  simp [detectorData, Dict.keys, List.map_ofFn, Function.comp_def]

theorem detectorData_nodup {k : ℕ} {names : Fin k → String} (hn : MassNames names)
    (m : Fin k → ℝ) (d : ℝ) : (detectorData names m d).keys.Nodup := by
  rw [detectorData_keys, List.nodup_cons]
  constructor
  · rw [List.mem_ofFn]
    rintro ⟨i, hi⟩
    exact not_isDetector_distance (hi ▸ isDetector_append _)
  · rw [List.nodup_ofFn]
    intro i j hij
    exact hn.inj (append_detector_inj hij)

theorem detectorData_noCollision {k : ℕ} {names : Fin k → String} (hn : MassNames names)
    (m : Fin k → ℝ) (d : ℝ) : NoCollision (detectorData names m d) := by
  intro n hc
  have hc : n ++ "_detector" ∈ (detectorData names m d).keys := hc
  rw [detectorData_keys, List.mem_cons, List.mem_ofFn] at hc
  rcases hc with hc | ⟨i, hi⟩
  · exact absurd (hc ▸ isDetector_append n) not_isDetector_distance
  · obtain rfl := append_detector_inj hi
    refine ⟨?_, hn.redshift i⟩
    show ¬ names i ∈ (detectorData names m d).keys
    rw [detectorData_keys, List.mem_cons, List.mem_ofFn]
    rintro (h | ⟨j, hj⟩)
    · exact hn.distance i h
    · exact hn.clash i j hj.symm

theorem detectorData_count {k : ℕ} (names : Fin k → String) (m : Fin k → ℝ) (d : ℝ) :
    detectorCount (detectorData names m d) = k := by
  unfold detectorCount
  rw [detectorData_keys, List.filter_cons_of_neg, List.filter_eq_self.2, List.length_ofFn]
  · intro a ha
    obtain ⟨i, rfl⟩ := List.mem_ofFn.1 ha
    simp
  · simp only [decide_eq_true_eq]
    exact fun h => not_isDetector_distance (isDetector_iff.2 h)

/-- The value of `CosmoModel.prob` at one sample. -/
theorem cosmoModelProb_eq (self : CosmoMixin) {base : Dict Fl → Dict Fl → Except PyErr Fl}
    {kwargs : Dict Fl} {c : Cosmology} (hc : self.cosmology kwargs = .ok c) {k : ℕ}
    {names : Fin k → String} (hn : MassNames names) {p : (Fin k → ℝ) → ℝ → ℝ}
    (hbase : ∀ (samples : Dict Fl) (m : Fin k → ℝ) (z : ℝ),
      (∀ i, samples.get? (names i) = some (fin (m i))) → samples.get? "redshift" = some (fin z) →
      base samples kwargs = .ok (fin (p m z)))
    {m : Fin k → ℝ} {d z D' : ℝ} (hz : c.zAtDistance (fin d) = fin z)
    (hD : c.dDLdz (fin z) = fin D') (hz1 : -1 < z) (hD0 : 0 < D') :
    cosmoModelProb self base (detectorData names m d) kwargs =
      .ok (fin (p (fun i => m i / (1 + z)) z / (D' * (1 + z) ^ k))) := by
  have h1 : (1 + z) ≠ 0 := by linarith
  obtain ⟨S, hS, hsf, -⟩ := C57_distance self (detectorData_nodup hn m d)
    (detectorData_noCollision hn m d) hc (dl := fin d) (by simp [detectorData, Dict.get?_cons])
    (by
      show ¬ "redshift" ∈ (detectorData names m d).keys
      rw [detectorData_keys, List.mem_cons, List.mem_ofFn]
      rintro (h | ⟨i, hi⟩)
      · exact absurd h (by decide)
      · exact not_isDetector_redshift (hi ▸ isDetector_append _))
  rw [hz, hD, detectorData_count] at hS
  rw [hz] at hsf
  have hm : ∀ i, S.get? (names i) = some (fin (m i / (1 + z))) := by
    intro i
    have hmem : (names i ++ "_detector", fin (m i)) ∈ detectorData names m d := by
      unfold detectorData
      exact List.mem_cons_of_mem _ (List.mem_ofFn.2 ⟨i, rfl⟩)
    have := hsf.detector (names i) (fin (m i))
      ((Dict.mem_iff_get? (detectorData_nodup hn m d) _ _).1 hmem)
    rw [this, one_eq, fin_add, fin_div h1]
  have hpow : (1 + fin z) ^ k = fin ((1 + z) ^ k) := by rw [one_eq, fin_add, fin_npow]
  unfold cosmoModelProb
  rw [hS, ok_bind]
  simp only
  rw [hbase S _ z hm hsf.redshift, ok_bind, pure_eq_ok, hpow, fin_mul,
    fin_div (mul_pos hD0 (by have : 0 < 1 + z := by linarith
                             positivity)).ne']

/-- **C59.** For every number `k` of redshifted columns, every population model that is a probability
density in the source-frame columns and redshifts of the set `S`, and every strictly increasing
differentiable distance-redshift relation with the derivative that the cosmology reports and
the inverse that `z_at_value` reports: `CosmoModel.prob` is a probability density in the
detector-frame columns and the luminosity distance. -/
theorem C59_density (self : CosmoMixin) {base : Dict Fl → Dict Fl → Except PyErr Fl}
    {kwargs : Dict Fl} {c : Cosmology} (hc : self.cosmology kwargs = .ok c) {k : ℕ}
    {names : Fin k → String} (hn : MassNames names) {S : Set ℝ} {D D' : ℝ → ℝ}
    (hD : DistanceRelation S D D') (hz : ∀ z ∈ S, c.zAtDistance (fin (D z)) = fin z)
    (hd : ∀ z ∈ S, c.dDLdz (fin z) = fin (D' z)) {p : (Fin k → ℝ) → ℝ → ℝ}
    (hp : Measurable (fun x : (Fin k → ℝ) × ℝ => p x.1 x.2)) (p0 : ∀ m z, 0 ≤ p m z)
    (hpi : IntegrableOn (fun x : (Fin k → ℝ) × ℝ => p x.1 x.2) (univ ×ˢ S))
    (hp1 : ∫ x in (univ : Set (Fin k → ℝ)) ×ˢ S, p x.1 x.2 = 1)
    (hbase : ∀ (samples : Dict Fl) (m : Fin k → ℝ) (z : ℝ),
      (∀ i, samples.get? (names i) = some (fin (m i))) → samples.get? "redshift" = some (fin z) →
      base samples kwargs = .ok (fin (p m z))) :
    IsDensityOn (fun x : (Fin k → ℝ) × ℝ =>
      cosmoModelProb self base (detectorData names x.1 x.2) kwargs) (univ ×ˢ (D '' S)) := by
  have hζ : ∀ z ∈ S, Function.invFunOn D S (D z) = z := fun z hz =>
    hD.mono.injOn.leftInvOn_invFunOn hz
  obtain ⟨hi, h1⟩ := change_of_variables hD hζ hp p0 hpi
  refine ⟨_, ?_, ?_, hi, h1.trans hp1⟩
  · rintro ⟨m, _⟩ ⟨-, z, hzS, rfl⟩
    simp only [hζ z hzS]
    exact cosmoModelProb_eq self hc hn hbase (hz z hzS) (hd z hzS) (hD.gt z hzS) (hD.pos z hzS)
  · rintro ⟨m, _⟩ ⟨-, z, hzS, rfl⟩
    simp only [hζ z hzS]
    have hz1 : 0 < 1 + z := by linarith [hD.gt z hzS]
    exact div_nonneg (p0 _ _) (mul_pos (hD.pos z hzS) (by positivity)).le

/-- A concrete distance-redshift relation: `D(z) = z + z^2` on `(0, 1)`. -/
theorem toyDistance : DistanceRelation (Ioo 0 1) (fun z => z + z ^ 2) (fun z => 1 + 2 * z) := by
  refine ⟨measurableSet_Ioo, fun z hz => by linarith [hz.1], ?_, ?_, fun z hz => by
    linarith [hz.1], by fun_prop⟩
  · intro a ha b hb hab
    have := ha.1
    simp only
    nlinarith
  · intro z _
    have h1 : HasDerivAt (fun z : ℝ => z + z ^ 2) (1 + 2 * z) z := by
      have h2 := hasDerivAt_pow 2 z
      norm_num at h2
      exact (hasDerivAt_id z).add h2
    exact h1.hasDerivWithinAt

/-- Names of two masses meet the hypothesis on names. -/
example : MassNames ![ "mass_1", "mass_2"] := by
  refine ⟨?_, ?_, ?_, ?_⟩ <;> decide

/-- A cosmology whose distance-redshift relation is `toyDistance`. -/
noncomputable def toyDistanceCosmology : Cosmology where
  diffComovingVolume _ := 1
  luminosityDistance z := z + z ^ 2
  dDLdz z := 1 + 2 * z
  zAtDistance d := fin ((Real.sqrt (1 + 4 * d.val) - 1) / 2)

/-- A population: mass uniform on `[0, 1]`, redshift uniform on `(0, 1)`. -/
noncomputable def toyBase (samples _kwargs : Dict Fl) : Except PyErr Fl := do
  let m ← samples.get "mass_1"
  let _z ← samples.get "redshift"
  pure (ind (0 ≤ m ∧ m ≤ 1))

/-- Non-vacuity of C59: all hypotheses hold for that population, cosmology and column. -/
example : IsDensityOn (fun x : (Fin 1 → ℝ) × ℝ =>
      cosmoModelProb (fixedMixin toyDistanceCosmology) toyBase
        (detectorData ![ "mass_1"] x.1 x.2) [])
      (univ ×ˢ ((fun z => z + z ^ 2) '' Ioo 0 1)) := by
  have hm : MeasurableSet (Icc (0 : Fin 1 → ℝ) 1) := measurableSet_Icc
  have hset : (univ : Set (Fin 1 → ℝ)) ×ˢ Ioo (0:ℝ) 1 ∩ Prod.fst ⁻¹' Icc (0 : Fin 1 → ℝ) 1 =
      Icc (0 : Fin 1 → ℝ) 1 ×ˢ Ioo (0:ℝ) 1 := by
    ext x; simp [and_comm]
  have hvol : (volume : Measure ((Fin 1 → ℝ) × ℝ)) (Icc (0 : Fin 1 → ℝ) 1 ×ˢ Ioo (0:ℝ) 1) = 1 := by
    rw [Measure.volume_eq_prod, Measure.prod_prod, Real.volume_Icc_pi]
    simp
  have hp : (fun x : (Fin 1 → ℝ) × ℝ => (Icc (0 : Fin 1 → ℝ) 1).indicator (fun _ => (1:ℝ)) x.1) =
      (Prod.fst ⁻¹' Icc (0 : Fin 1 → ℝ) 1 : Set ((Fin 1 → ℝ) × ℝ)).indicator (fun _ => 1) := by
    ext x; rfl
  refine C59_density _ (c := toyDistanceCosmology) rfl ⟨?_, ?_, ?_, ?_⟩ toyDistance ?_ ?_
    (p := fun m _ => (Icc (0 : Fin 1 → ℝ) 1).indicator (fun _ => 1) m) ?_ ?_ ?_ ?_ ?_
  · decide
  · decide
  · decide
  · decide
  · intro z hz
    have : 1 + 4 * (z + z ^ 2) = (1 + 2 * z) ^ 2 := by ring
    simp only [toyDistanceCosmology, Fl.val, this]
    rw [Real.sqrt_sq (by linarith [hz.1])]
    congr 1; ring
  · intro z hz
    simp [toyDistanceCosmology, one_eq, ofNat_eq]
  · rw [hp]
    exact measurable_const.indicator (hm.preimage measurable_fst)
  · intro m z
    exact Set.indicator_nonneg (fun _ _ => zero_le_one) _
  · rw [hp, integrableOn_indicator_iff (hm.preimage measurable_fst)]
    refine ⟨measurable_const.aestronglyMeasurable, ?_⟩
    rw [HasFiniteIntegral]
    simp [inter_comm, hset, hvol]
  · rw [hp, setIntegral_indicator (hm.preimage measurable_fst), hset]
    simp [Measure.real, hvol]
  · intro samples m z h1 h2
    have h1' : samples.get? "mass_1" = some (fin (m 0)) := h1 0
    simp only [toyBase, get_some h1', get_some h2, ok_bind, pure_eq_ok, zero_eq, one_eq, fin_le]
    congr 1
    by_cases h : 0 ≤ m 0 ∧ m 0 ≤ 1
    · rw [Set.indicator_of_mem (by simpa [Pi.le_def] using h)]
      simp [h, one_eq]
    · rw [Set.indicator_of_notMem (by simpa [Pi.le_def] using h)]
      simp [h, zero_eq]

end GW
