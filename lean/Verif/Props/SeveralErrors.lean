import Verif.Props.RedshiftErrors

/-!
# C161: joint populations of several parameters are found from noisy data of detected sources
-/

noncomputable section

open MeasureTheory ProbabilityTheory Filter Topology Set

namespace GW

open Fl Spec TruePopulation Posterior GaussianErrors

/-! ## Specification -/

/-- The density of two measured values `d`, for the true values `x` and independent Gaussian errors of variances `v₁`
and `v₂`. -/
def Spec.gaussianErrors2 (v₁ v₂ : NNReal) (d x : ℝ × ℝ) : ℝ := gaussianErrors v₁ d.1 x.1 * gaussianErrors v₂ d.2 x.2

/-- A measurement that tells populations apart: if two populations give the same data on a set that is not negligible,
they are the same. -/
structure Spec.Resolves {X T : Type} [MeasurableSpace X] [MeasurableSpace T] (ν : Measure X) (η : Measure T)
    (like : T → X → ℝ) : Prop where
  measurable : Measurable fun z : X × T => like z.2 z.1
  pos : ∀ d x, 0 < like d x
  normalised : ∀ x, ∫⁻ d, ENNReal.ofReal (like d x) ∂η = 1
  bounded : ∀ d, ∃ B, ∀ x, like d x ≤ B
  range : ∃ lo hi : T → ℝ, (∀ d, 0 < lo d) ∧ (∀ d, lo d ≤ hi d) ∧ (∀ d, ∀ᵐ x ∂ν, lo d ≤ like d x ∧ like d x ≤ hi d) ∧
    Integrable hi η ∧ Integrable (fun d => hi d * Real.log (hi d / lo d)) η
  unique : ∀ p₀ p₁ : X → ℝ, Measurable p₀ → Measurable p₁ → (∀ᵐ x ∂ν, 0 ≤ p₀ x) → (∀ᵐ x ∂ν, 0 ≤ p₁ x) →
    Integrable p₀ ν → Integrable p₁ ν → ∀ D, MeasurableSet D → η D ≠ 0 →
    (∀ᵐ d ∂η, d ∈ D → dataDensity ν like p₁ d = dataDensity ν like p₀ d) → ∀ᵐ x ∂ν, p₁ x = p₀ x

/-- A population on `ν`. It need not be normalised. -/
structure Spec.SomePopulation {X : Type} [MeasurableSpace X] (ν : Measure X) (p : X → ℝ) : Prop where
  measurable : Measurable p
  nonneg : ∀ᵐ x ∂ν, 0 ≤ p x
  integrable : Integrable p ν
  pos : 0 < ∫ x, p x ∂ν

/-! ## Lemmas -/

namespace SeveralErrors

section General

variable {X T : Type} [MeasurableSpace X] [MeasurableSpace T] {ν : Measure X} {η : Measure T} {like : T → X → ℝ}
  {Det : Set T} {p p₀ p₁ : X → ℝ}

theorem like_meas (h : Resolves ν η like) (d : T) : Measurable (like d) :=
  h.measurable.comp (measurable_id.prodMk measurable_const)

theorem survey (h : Resolves ν η like) (hD : MeasurableSet Det) : Survey like Det :=
  ⟨h.measurable, fun d x => (h.pos d x).le, hD⟩

theorem integrable_like (h : Resolves ν η like) (hp : Integrable p ν) (d : T) :
    Integrable (fun x => like d x * p x) ν := by
  obtain ⟨B, hB⟩ := h.bounded d
  refine Integrable.bdd_mul (c := B) hp (like_meas h d).aestronglyMeasurable (ae_of_all _ fun x => ?_)
  rw [Real.norm_eq_abs, abs_of_pos (h.pos d x)]
  exact hB x

theorem data_bounds (h : SomePopulation ν p) (hr : Resolves ν η like) {lo hi : T → ℝ} {d : T}
    (hb : ∀ᵐ x ∂ν, lo d ≤ like d x ∧ like d x ≤ hi d) :
    lo d * ∫ x, p x ∂ν ≤ dataDensity ν like p d ∧ dataDensity ν like p d ≤ hi d * ∫ x, p x ∂ν := by
  have hi' := integrable_like hr h.integrable d
  unfold dataDensity
  rw [← integral_const_mul, ← integral_const_mul]
  constructor
  · refine integral_mono_ae (h.integrable.const_mul _) hi' ?_
    filter_upwards [hb, h.nonneg] with x hx h0
    exact mul_le_mul_of_nonneg_right hx.1 h0
  · refine integral_mono_ae hi' (h.integrable.const_mul _) ?_
    filter_upwards [hb, h.nonneg] with x hx h0
    exact mul_le_mul_of_nonneg_right hx.2 h0

theorem data_positive (h : SomePopulation ν p) (hr : Resolves ν η like) (d : T) : 0 < dataDensity ν like p d := by
  obtain ⟨lo, hi, h0, -, hb, -, -⟩ := hr.range
  exact (mul_pos (h0 d) h.pos).trans_le (data_bounds h hr (hb d)).1

theorem data_integrable [SFinite ν] [SFinite η] (hl : Resolves ν η like) (hpm : Measurable p) (hpi : Integrable p ν) :
    Integrable (fun z : X × T => like z.2 z.1 * p z.1) (ν.prod (η.restrict Det)) := by
  have hm : Measurable fun z : X × T => like z.2 z.1 * p z.1 := hl.measurable.mul (hpm.comp measurable_fst)
  have hi1 : ∀ x, Integrable (fun d => like d x) η := fun x => by
    have hmx : Measurable fun d => like d x := hl.measurable.comp (measurable_const.prodMk measurable_id)
    refine ⟨hmx.aestronglyMeasurable, ?_⟩
    rw [hasFiniteIntegral_iff_ofReal (ae_of_all _ fun d => (hl.pos d x).le), hl.normalised x]
    exact ENNReal.one_lt_top
  refine (integrable_prod_iff hm.aestronglyMeasurable).2 ⟨?_, ?_⟩
  · exact ae_of_all _ fun x => ((hi1 x).mul_const (p x)).integrableOn
  · refine Integrable.mono' hpi.norm
      (hm.norm.stronglyMeasurable.integral_prod_right').aestronglyMeasurable (ae_of_all _ fun x => ?_)
    have h1 : ∫ d, like d x ∂η = 1 := by
      rw [integral_eq_lintegral_of_nonneg_ae (ae_of_all _ fun d => (hl.pos d x).le) (hi1 x).1, hl.normalised x]
      rfl
    have h2 : ∫ d in Det, ‖like d x * p x‖ ∂η ≤ ∫ d, ‖like d x * p x‖ ∂η :=
      setIntegral_le_integral ((hi1 x).mul_const (p x)).norm (ae_of_all _ fun _ => norm_nonneg _)
    have h3 : ∫ d, ‖like d x * p x‖ ∂η = ‖p x‖ := by
      simp only [norm_mul, Real.norm_of_nonneg (hl.pos _ x).le]
      rw [integral_mul_const, h1, one_mul]
    rw [Real.norm_of_nonneg (integral_nonneg fun _ => norm_nonneg _)]
    exact h2.trans h3.le

theorem population [SFinite ν] [SFinite η] (h : SomePopulation ν p) (hr : Resolves ν η like) :
    Population ν η like Det p :=
  ⟨h.measurable, data_integrable hr h.measurable h.integrable, fun d _ => data_positive h hr d⟩

theorem comparable [SFinite ν] (hr : Resolves ν η like) (hD : MeasurableSet Det) (h₀ : SomePopulation ν p₀)
    (h₁ : SomePopulation ν p₁) : Comparable ν η like Det p₀ p₁ := by
  have hs := survey (Det := Det) hr hD
  have m0 := measurable_density (ν := ν) hs h₀.measurable
  have m1 := measurable_density (ν := ν) hs h₁.measurable
  obtain ⟨lo, hi, l0, lh, hb, i1, i2⟩ := hr.range
  set A := |Real.log ((∫ x, p₁ x ∂ν) / ∫ x, p₀ x ∂ν)| with hA
  have key : ∀ d, |Real.log (dataDensity ν like p₁ d / dataDensity ν like p₀ d)| ≤ A + Real.log (hi d / lo d) := by
    intro d
    have b1 := data_bounds h₁ hr (hb d)
    have b0 := data_bounds h₀ hr (hb d)
    have d1 := data_positive h₁ hr d
    have d0 := data_positive h₀ hr d
    have hh := (l0 d).trans_le (lh d)
    have u1 := Real.log_le_log d1 b1.2
    have u0 := Real.log_le_log d0 b0.2
    have w1 := Real.log_le_log (mul_pos (l0 d) h₁.pos) b1.1
    have w0 := Real.log_le_log (mul_pos (l0 d) h₀.pos) b0.1
    rw [Real.log_mul hh.ne' h₁.pos.ne'] at u1
    rw [Real.log_mul hh.ne' h₀.pos.ne'] at u0
    rw [Real.log_mul (l0 d).ne' h₁.pos.ne'] at w1
    rw [Real.log_mul (l0 d).ne' h₀.pos.ne'] at w0
    have a1 := le_abs_self (Real.log ((∫ x, p₁ x ∂ν) / ∫ x, p₀ x ∂ν))
    have a2 := neg_abs_le (Real.log ((∫ x, p₁ x ∂ν) / ∫ x, p₀ x ∂ν))
    rw [← hA] at a1 a2
    rw [Real.log_div h₁.pos.ne' h₀.pos.ne'] at a1 a2
    rw [Real.log_div d1.ne' d0.ne', Real.log_div hh.ne' (l0 d).ne', abs_le]
    constructor <;> linarith
  have hdom : Integrable (fun d => (∫ x, p₀ x ∂ν) * (A * hi d + hi d * Real.log (hi d / lo d))) η :=
    ((i1.const_mul A).add i2).const_mul _
  refine Integrable.mono' hdom.integrableOn
    (m0.mul (Real.measurable_log.comp (m1.div m0))).aestronglyMeasurable (ae_of_all _ fun d => ?_)
  have d0 := data_positive h₀ hr d
  rw [Real.norm_eq_abs, abs_mul, abs_of_pos d0]
  calc _ ≤ (hi d * ∫ x, p₀ x ∂ν) * (A + Real.log (hi d / lo d)) :=
        mul_le_mul (data_bounds h₀ hr (hb d)).2 (key d) (abs_nonneg _) (d0.le.trans (data_bounds h₀ hr (hb d)).2)
    _ = _ := by ring

end General

section Product

variable {X₁ X₂ T₁ T₂ : Type} [MeasurableSpace X₁] [MeasurableSpace X₂] [MeasurableSpace T₁] [MeasurableSpace T₂]
  {ν₁ : Measure X₁} {ν₂ : Measure X₂} {η₁ : Measure T₁} {η₂ : Measure T₂} {l₁ : T₁ → X₁ → ℝ} {l₂ : T₂ → X₂ → ℝ}
  {p : X₁ × X₂ → ℝ}

/-- The population of the second parameter among sources whose first parameter is measured as `d`, not normalised. -/
def partially (ν₁ : Measure X₁) (l₁ : T₁ → X₁ → ℝ) (p : X₁ × X₂ → ℝ) (d : T₁) (y : X₂) : ℝ :=
  ∫ x, l₁ d x * p (x, y) ∂ν₁

theorem partially_measurable [SFinite ν₁] (hl : Measurable fun z : X₁ × T₁ => l₁ z.2 z.1) (hp : Measurable p) :
    Measurable fun z : T₁ × X₂ => partially ν₁ l₁ p z.1 z.2 := by
  unfold partially
  have hm : Measurable fun z : (T₁ × X₂) × X₁ => l₁ z.1.1 z.2 * p (z.2, z.1.2) :=
    (hl.comp (measurable_snd.prodMk (measurable_fst.comp measurable_fst))).mul
      (hp.comp (measurable_snd.prodMk (measurable_snd.comp measurable_fst)))
  exact (hm.stronglyMeasurable.integral_prod_right').measurable

theorem product_integrable [SFinite ν₁] [SFinite ν₂] (h₁ : Resolves ν₁ η₁ l₁) (hp : Integrable p (ν₁.prod ν₂)) (d : T₁) :
    Integrable (fun x : X₁ × X₂ => l₁ d x.1 * p x) (ν₁.prod ν₂) := by
  obtain ⟨B, hB⟩ := h₁.bounded d
  refine Integrable.bdd_mul (c := B) hp ((like_meas h₁ d).comp measurable_fst).aestronglyMeasurable
    (ae_of_all _ fun x => ?_)
  rw [Real.norm_eq_abs, abs_of_pos (h₁.pos d x.1)]
  exact hB x.1

theorem partially_integrable [SFinite ν₁] [SFinite ν₂] (h₁ : Resolves ν₁ η₁ l₁) (hp : Integrable p (ν₁.prod ν₂))
    (d : T₁) : Integrable (partially ν₁ l₁ p d) ν₂ :=
  (product_integrable h₁ hp d).integral_prod_right

theorem density_product [SFinite ν₁] [SFinite ν₂] (h₁ : Resolves ν₁ η₁ l₁) (h₂ : Resolves ν₂ η₂ l₂)
    (hp : Integrable p (ν₁.prod ν₂)) (d : T₁ × T₂) :
    dataDensity (ν₁.prod ν₂) (fun d x => l₁ d.1 x.1 * l₂ d.2 x.2) p d =
      dataDensity ν₂ l₂ (partially ν₁ l₁ p d.1) d.2 := by
  have hi : Integrable (fun x : X₁ × X₂ => l₁ d.1 x.1 * l₂ d.2 x.2 * p x) (ν₁.prod ν₂) := by
    obtain ⟨B, hB⟩ := h₂.bounded d.2
    have := Integrable.bdd_mul (c := B) (product_integrable h₁ hp d.1)
      ((like_meas h₂ d.2).comp measurable_snd).aestronglyMeasurable (ae_of_all _ fun x => by
        show ‖l₂ d.2 x.2‖ ≤ B
        rw [Real.norm_eq_abs, abs_of_pos (h₂.pos d.2 x.2)]
        exact hB x.2)
    refine this.congr (ae_of_all _ fun x => ?_)
    show l₂ d.2 x.2 * (l₁ d.1 x.1 * p x) = _
    ring
  unfold dataDensity partially
  rw [integral_prod_symm _ hi]
  refine integral_congr_ae (ae_of_all _ fun y => ?_)
  show ∫ x, l₁ d.1 x * l₂ d.2 y * p (x, y) ∂ν₁ = l₂ d.2 y * ∫ x, l₁ d.1 x * p (x, y) ∂ν₁
  rw [← integral_const_mul]
  exact integral_congr_ae (ae_of_all _ fun x => by show _ = _; ring)

/-- Independent measurements of two parameters tell joint populations apart. -/
theorem resolves_prod [SFinite ν₁] [SFinite ν₂] [SFinite η₁] [SFinite η₂] (h₁ : Resolves ν₁ η₁ l₁)
    (h₂ : Resolves ν₂ η₂ l₂) :
    Resolves (ν₁.prod ν₂) (η₁.prod η₂) (fun d x => l₁ d.1 x.1 * l₂ d.2 x.2) := by
  refine ⟨?_, fun d x => mul_pos (h₁.pos _ _) (h₂.pos _ _), fun x => ?_, fun d => ?_, ?_, ?_⟩
  · exact (h₁.measurable.comp ((measurable_fst.comp measurable_fst).prodMk (measurable_fst.comp measurable_snd))).mul
      (h₂.measurable.comp ((measurable_snd.comp measurable_fst).prodMk (measurable_snd.comp measurable_snd)))
  · have m1 : Measurable fun d => ENNReal.ofReal (l₁ d x.1) :=
      (h₁.measurable.comp (measurable_const.prodMk measurable_id)).ennreal_ofReal
    have m2 : Measurable fun d => ENNReal.ofReal (l₂ d x.2) :=
      (h₂.measurable.comp (measurable_const.prodMk measurable_id)).ennreal_ofReal
    simp only [ENNReal.ofReal_mul (h₁.pos _ _).le]
    rw [lintegral_prod_mul m1.aemeasurable m2.aemeasurable, h₁.normalised, h₂.normalised, one_mul]
  · obtain ⟨B, hB⟩ := h₁.bounded d.1
    obtain ⟨C, hC⟩ := h₂.bounded d.2
    exact ⟨B * C, fun x => mul_le_mul (hB _) (hC _) (h₂.pos _ _).le ((h₁.pos _ _).le.trans (hB x.1))⟩
  · obtain ⟨lo, hi, a1, a2, a3, a4, a5⟩ := h₁.range
    obtain ⟨lo', hi', b1, b2, b3, b4, b5⟩ := h₂.range
    refine ⟨fun d => lo d.1 * lo' d.2, fun d => hi d.1 * hi' d.2, fun d => mul_pos (a1 _) (b1 _),
      fun d => mul_le_mul (a2 _) (b2 _) (b1 _).le ((a1 _).le.trans (a2 _)), fun d => ?_, a4.mul_prod b4, ?_⟩
    · have e1 : ∀ᵐ x ∂ν₁.prod ν₂, lo d.1 ≤ l₁ d.1 x.1 ∧ l₁ d.1 x.1 ≤ hi d.1 :=
        Measure.quasiMeasurePreserving_fst.ae (a3 d.1)
      have e2 : ∀ᵐ x ∂ν₁.prod ν₂, lo' d.2 ≤ l₂ d.2 x.2 ∧ l₂ d.2 x.2 ≤ hi' d.2 :=
        Measure.quasiMeasurePreserving_snd.ae (b3 d.2)
      filter_upwards [e1, e2] with x c1 c2
      exact ⟨mul_le_mul c1.1 c2.1 (b1 _).le (h₁.pos _ _).le,
        mul_le_mul c1.2 c2.2 (h₂.pos _ _).le ((h₁.pos _ _).le.trans c1.2)⟩
    · refine ((a5.mul_prod b4).add (a4.mul_prod b5)).congr (ae_of_all _ fun d => ?_)
      show hi d.1 * Real.log (hi d.1 / lo d.1) * hi' d.2 + hi d.1 * (hi' d.2 * Real.log (hi' d.2 / lo' d.2)) =
        hi d.1 * hi' d.2 * Real.log (hi d.1 * hi' d.2 / (lo d.1 * lo' d.2))
      have c1 := div_pos ((a1 d.1).trans_le (a2 d.1)) (a1 d.1)
      have c2 := div_pos ((b1 d.2).trans_le (b2 d.2)) (b1 d.2)
      rw [mul_div_mul_comm, Real.log_mul c1.ne' c2.ne']
      ring
  · intro p₀ p₁ m0 m1 n0 n1 i0 i1 D hD hDv he
    have m0' := partially_measurable (ν₁ := ν₁) h₁.measurable m0
    have m1' := partially_measurable (ν₁ := ν₁) h₁.measurable m1
    have nn : ∀ {q : X₁ × X₂ → ℝ}, Measurable q → (∀ᵐ x ∂ν₁.prod ν₂, 0 ≤ q x) →
        ∀ᵐ y ∂ν₂, ∀ᵐ x ∂ν₁, 0 ≤ q (x, y) := fun {q} hq h => by
      have hms : MeasurableSet {z : X₁ × X₂ | 0 ≤ q (z.1, z.2)} := measurableSet_le measurable_const hq
      exact (Measure.ae_ae_comm hms).1 (Measure.ae_ae_of_ae_prod h)
    have nq : ∀ {q : X₁ × X₂ → ℝ}, Measurable q → (∀ᵐ x ∂ν₁.prod ν₂, 0 ≤ q x) →
        ∀ d, ∀ᵐ y ∂ν₂, 0 ≤ partially ν₁ l₁ q d y := fun {q} hq h d => by
      filter_upwards [nn hq h] with y hy
      refine integral_nonneg_of_ae ?_
      filter_upwards [hy] with x hx
      exact mul_nonneg (h₁.pos _ _).le hx
    have he' := Measure.ae_ae_of_ae_prod he
    set A : Set T₁ := {d | η₂ (Prod.mk d ⁻¹' D) ≠ 0} with hA
    have hAm : MeasurableSet A :=
      (measurableSet_singleton (0 : ENNReal)).compl.preimage (measurable_measure_prodMk_left hD)
    have hA0 : η₁ A ≠ 0 := fun h0 => hDv ((Measure.measure_prod_null hD).2 h0)
    have hq : ∀ᵐ d ∂η₁, ∀ᵐ y ∂ν₂, d ∈ A → partially ν₁ l₁ p₁ d y = partially ν₁ l₁ p₀ d y := by
      filter_upwards [he'] with d hd
      by_cases hdA : d ∈ A
      · have := h₂.unique (partially ν₁ l₁ p₀ d) (partially ν₁ l₁ p₁ d) (m0'.comp measurable_prodMk_left)
          (m1'.comp measurable_prodMk_left) (nq m0 n0 d) (nq m1 n1 d) (partially_integrable h₁ i0 d)
          (partially_integrable h₁ i1 d) (Prod.mk d ⁻¹' D) (measurable_prodMk_left hD) hdA (by
            filter_upwards [hd] with d2 h2 hm
            have := h2 hm
            rwa [density_product h₁ h₂ i1, density_product h₁ h₂ i0] at this)
        filter_upwards [this] with y hy _
        exact hy
      · exact ae_of_all _ fun y h => absurd h hdA
    have hset : MeasurableSet {z : T₁ × X₂ | z.1 ∈ A → partially ν₁ l₁ p₁ z.1 z.2 = partially ν₁ l₁ p₀ z.1 z.2} :=
      (hAm.preimage measurable_fst).imp (measurableSet_eq_fun m1' m0')
    have hq' := (Measure.ae_ae_comm hset).1 hq
    have hx : ∀ᵐ y ∂ν₂, ∀ᵐ x ∂ν₁, p₁ (x, y) = p₀ (x, y) := by
      filter_upwards [hq', nn m0 n0, nn m1 n1, i0.prod_left_ae, i1.prod_left_ae] with y hy k0 k1 j0 j1
      exact h₁.unique (fun x => p₀ (x, y)) (fun x => p₁ (x, y)) (m0.comp measurable_prodMk_right)
        (m1.comp measurable_prodMk_right) k0 k1 j0 j1 A hAm hA0 hy
    have hms : MeasurableSet {z : X₁ × X₂ | p₁ z = p₀ z} := measurableSet_eq_fun m1 m0
    exact (Measure.ae_prod_iff_ae_ae hms).2 ((Measure.ae_ae_comm hms).2 hx)

end Product

/-- Gaussian errors of a parameter that is bounded. -/
theorem resolves_gaussian {v : NNReal} {S : Set ℝ} {K : ℝ} (hv : v ≠ 0) (hS : MeasurableSet S)
    (hK : ∀ x ∈ S, |x| ≤ K) (hK0 : 0 ≤ K) : Resolves (volume.restrict S) volume (gaussianErrors v) := by
  have hl := errors_ordered hv
  have hv0 : (0 : ℝ) < v := by positivity
  have hf := front_pos hv
  refine ⟨hl.measurable, hl.pos, hl.normalised, hl.bounded, ?_, ?_⟩
  · refine ⟨fun d => front v * Real.exp (-(d ^ 2 + 2 * K * |d| + K ^ 2) / (2 * v)),
      fun d => front v * Real.exp (-(d ^ 2 - 2 * K * |d|) / (2 * v)), fun d => mul_pos hf (Real.exp_pos _),
      fun d => ?_, fun d => ?_, ?_⟩
    · refine mul_le_mul_of_nonneg_left (Real.exp_le_exp.2 (div_le_div_of_nonneg_right ?_ (by positivity))) hf.le
      have := mul_nonneg hK0 (abs_nonneg d)
      nlinarith [sq_nonneg K]
    · filter_upwards [ae_restrict_mem hS] with x hx
      have hxK := hK x hx
      have h1 : |d * x| ≤ K * |d| := by
        rw [abs_mul, mul_comm]
        exact mul_le_mul_of_nonneg_right hxK (abs_nonneg d)
      have h2 := neg_abs_le (d * x)
      have h3 := le_abs_self (d * x)
      have h4 : x ^ 2 ≤ K ^ 2 := by
        rw [← sq_abs]
        exact pow_le_pow_left₀ (abs_nonneg x) hxK 2
      rw [errors_eq]
      constructor
      · refine mul_le_mul_of_nonneg_left (Real.exp_le_exp.2 (div_le_div_of_nonneg_right ?_ (by positivity))) hf.le
        nlinarith
      · refine mul_le_mul_of_nonneg_left (Real.exp_le_exp.2 (div_le_div_of_nonneg_right ?_ (by positivity))) hf.le
        nlinarith [sq_nonneg x]
    · have key : ∀ c : ℝ, Integrable fun d : ℝ => gaussianErrors v d 0 * Real.exp (c * |d|) := fun c => by
        refine Integrable.mono' ((integrable_tail hv c).add (integrable_tail hv (-c))) ?_ (ae_of_all _ fun d => ?_)
        · have : Measurable fun d : ℝ => gaussianErrors v d 0 * Real.exp (c * |d|) := by
            unfold gaussianErrors gaussianPDFReal
            fun_prop
          exact this.aestronglyMeasurable
        · have hg := (hl.pos d 0).le
          rw [Real.norm_of_nonneg (mul_nonneg hg (Real.exp_pos _).le)]
          show _ ≤ gaussianErrors v d 0 * Real.exp (c * d) + gaussianErrors v d 0 * Real.exp (-c * d)
          rw [← mul_add]
          refine mul_le_mul_of_nonneg_left ?_ hg
          rcases abs_choice d with h | h <;> rw [h]
          · linarith [Real.exp_pos (-c * d)]
          · rw [mul_neg, ← neg_mul]
            linarith [Real.exp_pos (c * d)]
      have e : ∀ d : ℝ, front v * Real.exp (-(d ^ 2 - 2 * K * |d|) / (2 * v)) =
          gaussianErrors v d 0 * Real.exp (K / v * |d|) := fun d => by
        rw [errors_eq, mul_assoc (front v), ← Real.exp_add]
        congr 2
        field_simp
        ring
      have e2 : ∀ d : ℝ, Real.log (front v * Real.exp (-(d ^ 2 - 2 * K * |d|) / (2 * v)) /
          (front v * Real.exp (-(d ^ 2 + 2 * K * |d| + K ^ 2) / (2 * v)))) = (4 * K * |d| + K ^ 2) / (2 * v) := fun d => by
        rw [mul_div_mul_left _ _ hf.ne', ← Real.exp_sub, Real.log_exp, ← sub_div]
        congr 1
        ring
      refine ⟨(key (K / v)).congr (ae_of_all _ fun d => (e d).symm), ?_⟩
      simp only [e2]
      refine Integrable.mono' ((key (K / v + 1)).const_mul ((4 * K + K ^ 2) / (2 * v))) ?_ (ae_of_all _ fun d => ?_)
      · have : Measurable fun d : ℝ => front v * Real.exp (-(d ^ 2 - 2 * K * |d|) / (2 * v)) *
            ((4 * K * |d| + K ^ 2) / (2 * v)) := by fun_prop
        exact this.aestronglyMeasurable
      · have a0 := abs_nonneg d
        have g0 := (hl.pos d 0).le
        rw [e, Real.norm_of_nonneg (by positivity), add_mul, one_mul, Real.exp_add]
        have h1 := Real.add_one_le_exp |d|
        have h2 : (4 * K * |d| + K ^ 2) / (2 * v) ≤ (4 * K + K ^ 2) / (2 * v) * Real.exp |d| := by
          rw [div_mul_eq_mul_div]
          refine div_le_div_of_nonneg_right ?_ (by positivity)
          nlinarith [mul_nonneg hK0 a0, mul_nonneg (sq_nonneg K) a0]
        calc _ ≤ gaussianErrors v d 0 * Real.exp (K / v * |d|) * ((4 * K + K ^ 2) / (2 * v) * Real.exp |d|) :=
              mul_le_mul_of_nonneg_left h2 (by positivity)
          _ = _ := by ring
  · have hzero : ∀ {q : ℝ → ℝ}, (∀ᵐ x ∂volume.restrict S, 0 ≤ q x) → IntegrableOn q S →
        ∀ d, dataDensity (volume.restrict S) (gaussianErrors v) q d = 0 → ∀ᵐ x ∂volume.restrict S, q x = 0 := by
      intro q hq hqi d h0
      obtain ⟨B, hB⟩ := hl.bounded d
      have hi : Integrable (fun x => gaussianErrors v d x * q x) (volume.restrict S) := by
        refine Integrable.bdd_mul (c := B) hqi (Measured.like_measurable hl d).aestronglyMeasurable
          (ae_of_all _ fun x => ?_)
        rw [Real.norm_eq_abs, abs_of_pos (hl.pos d x)]
        exact hB x
      have hn : 0 ≤ᵐ[volume.restrict S] fun x => gaussianErrors v d x * q x := by
        filter_upwards [hq] with x hx
        exact mul_nonneg (hl.pos d x).le hx
      have := (integral_eq_zero_iff_of_nonneg_ae hn hi).1 h0
      filter_upwards [this] with x hx
      exact (mul_eq_zero.1 hx).resolve_left (hl.pos d x).ne'
    have hcongr : ∀ {q q' : ℝ → ℝ}, (∀ᵐ x ∂volume.restrict S, q x = q' x) → ∀ d,
        dataDensity (volume.restrict S) (gaussianErrors v) q d =
          dataDensity (volume.restrict S) (gaussianErrors v) q' d := fun h d => integral_congr_ae (by
      filter_upwards [h] with x hx
      rw [hx])
    intro p₀ p₁ m0 m1 n0 n1 i0 i1 D hD hDv he
    have hex : ∃ d, dataDensity (volume.restrict S) (gaussianErrors v) p₁ d =
        dataDensity (volume.restrict S) (gaussianErrors v) p₀ d := by
      by_contra hn
      push Not at hn
      refine hDv (measure_mono_null (fun d hd => ?_) he)
      exact fun h => hn d (h hd)
    obtain ⟨d, hd⟩ := hex
    by_cases z0 : ∀ᵐ x ∂volume.restrict S, p₀ x = 0
    · have h0 : dataDensity (volume.restrict S) (gaussianErrors v) p₀ d = 0 := by
        rw [hcongr (q' := fun _ => 0) z0]
        simp [dataDensity]
      filter_upwards [z0, hzero n1 i1 d (hd.trans h0)] with x a b
      rw [a, b]
    by_cases z1 : ∀ᵐ x ∂volume.restrict S, p₁ x = 0
    · have h0 : dataDensity (volume.restrict S) (gaussianErrors v) p₁ d = 0 := by
        rw [hcongr (q' := fun _ => 0) z1]
        simp [dataDensity]
      exact absurd (hzero n0 i0 d (hd.symm.trans h0)) z0
    have hpos : ∀ {q : ℝ → ℝ}, Measurable q → (∀ᵐ x ∂volume.restrict S, 0 ≤ q x) → IntegrableOn q S →
        (¬ ∀ᵐ x ∂volume.restrict S, q x = 0) → BoundedPopulation S K (fun x => max (q x) 0) ∧
          ∀ᵐ x ∂volume.restrict S, q x = max (q x) 0 := by
      intro q hm hn hi hz
      have hae : ∀ᵐ x ∂volume.restrict S, q x = max (q x) 0 := by
        filter_upwards [hn] with x hx
        rw [max_eq_left hx]
      refine ⟨⟨hm.max measurable_const, fun x _ => le_max_right _ _, hi.pos_part, ?_, fun x hx h =>
        absurd (hK x hx) (not_le.2 h)⟩, hae⟩
      rw [← integral_congr_ae hae]
      refine (integral_nonneg_of_ae hn).lt_of_ne fun h0 => hz ?_
      have := (integral_eq_zero_iff_of_nonneg_ae hn hi).1 h0.symm
      filter_upwards [this] with x hx
      exact hx
    obtain ⟨b0, e0⟩ := hpos m0 n0 i0 z0
    obtain ⟨b1, e1⟩ := hpos m1 n1 i1 z1
    have := GaussianErrors.unique hv hS hD hDv b0 b1 ((ae_restrict_iff' hD).2 (by
      filter_upwards [he] with d hd hm
      rw [← hcongr e1, ← hcongr e0]
      exact hd hm))
    filter_upwards [this, e0, e1] with x a b c
    rw [b, c, a]

end SeveralErrors

open SeveralErrors

/-! ## The property -/

/-- **C161.** Measured with errors that tell populations apart, events detected from the population `p j₀` are analysed
for finitely many other populations `p j`: the posterior is concentrated on `j₀`. -/
theorem C161_recovers {X T J : Type} [MeasurableSpace X] [MeasurableSpace T] [Fintype J] {ν : Measure X} {η : Measure T}
    [SFinite ν] [SFinite η] {like : T → X → ℝ} {Det : Set T} {p : J → X → ℝ} {j₀ : J} (h : Resolves ν η like)
    (hD : MeasurableSet Det) (hp : ∀ j, SomePopulation ν (p j))
    (hne : ∀ j, j ≠ j₀ → ∀ k > 0, ¬ ∀ᵐ x ∂ν, p j x = k * p j₀ x) : Recovers ν η like Det p j₀ := by
  intro Ω _ P _ d hd u hu
  have hDv := detectable_of_events hd
  have hs := survey h hD
  refine C147_posterior hs (fun j => population (hp j) h) (fun j _ => comparable h hD (hp j₀) (hp j))
    (fun j hj hsame => ?_) hd hu
  have f0 := fraction_pos hs (population (hp j₀) h) hDv
  have f1 := fraction_pos hs (population (hp j) h) hDv
  have hd : ∀ (q : X → ℝ) (c : ℝ) (d : T), dataDensity ν like (fun x => q x / c) d = dataDensity ν like q d / c :=
    fun q c d => by
      unfold dataDensity
      rw [← integral_div]
      exact integral_congr_ae (ae_of_all _ fun x => (mul_div_assoc _ _ _).symm)
  have nonneg : ∀ (j : J) {c : ℝ}, 0 < c → ∀ᵐ x ∂ν, 0 ≤ p j x / c := fun j c hc => by
    filter_upwards [(hp j).nonneg] with x hx
    exact div_nonneg hx hc.le
  have := h.unique _ _ ((hp j₀).measurable.div_const _) ((hp j).measurable.div_const _) (nonneg j₀ f0) (nonneg j f1)
    ((hp j₀).integrable.div_const _) ((hp j).integrable.div_const _) Det hD hDv (by
      rw [SameData, ae_restrict_iff' hD] at hsame
      filter_upwards [hsame] with d e hm
      rw [hd, hd]
      exact e hm)
  refine hne j hj _ (div_pos f1 f0) ?_
  filter_upwards [this] with x hx
  rw [div_eq_iff f1.ne'] at hx
  rw [hx]
  ring

namespace SeveralErrors

variable {v₁ v₂ : NNReal} {S₁ S₂ : Set ℝ} {K : ℝ} {Det : Set (ℝ × ℝ)}

theorem resolves_two (hv₁ : v₁ ≠ 0) (hv₂ : v₂ ≠ 0) (hS₁ : MeasurableSet S₁) (hS₂ : MeasurableSet S₂)
    (hK₁ : ∀ x ∈ S₁, |x| ≤ K) (hK₂ : ∀ x ∈ S₂, |x| ≤ K) (hK : 0 ≤ K) :
    Resolves (volume.restrict (S₁ ×ˢ S₂)) volume (gaussianErrors2 v₁ v₂) := by
  rw [Measure.volume_eq_prod, ← Measure.prod_restrict]
  exact resolves_prod (resolves_gaussian hv₁ hS₁ hK₁ hK) (resolves_gaussian hv₂ hS₂ hK₂ hK)

/-- Populations normalised to one. -/
theorem recovers_normalised {J : Type} [Fintype J] {p : J → ℝ × ℝ → ℝ} {j₀ : J} (hv₁ : v₁ ≠ 0) (hv₂ : v₂ ≠ 0)
    (hS₁ : MeasurableSet S₁) (hS₂ : MeasurableSet S₂) (hK₁ : ∀ x ∈ S₁, |x| ≤ K) (hK₂ : ∀ x ∈ S₂, |x| ≤ K) (hK : 0 ≤ K)
    (hD : MeasurableSet Det) (hm : ∀ j, Measurable (p j)) (hn : ∀ j, ∀ᵐ x ∂volume.restrict (S₁ ×ˢ S₂), 0 ≤ p j x)
    (hi : ∀ j, IntegrableOn (p j) (S₁ ×ˢ S₂)) (h1 : ∀ j, ∫ x in S₁ ×ˢ S₂, p j x = 1)
    (hne : ∀ j, j ≠ j₀ → ¬ ∀ᵐ x ∂volume.restrict (S₁ ×ˢ S₂), p j x = p j₀ x) :
    Recovers (volume.restrict (S₁ ×ˢ S₂)) volume (gaussianErrors2 v₁ v₂) Det p j₀ := by
  refine C161_recovers (resolves_two hv₁ hv₂ hS₁ hS₂ hK₁ hK₂ hK) hD
    (fun j => ⟨hm j, hn j, hi j, by rw [h1 j]; exact one_pos⟩) fun j hj k _ e => hne j hj ?_
  have hk : k = 1 := by
    have h := h1 j
    rw [integral_congr_ae e, integral_const_mul, h1 j₀, mul_one] at h
    exact h
  filter_upwards [e] with x hx
  rw [hx, hk, one_mul]

/-- Densities of the package. -/
theorem recovers_density {J : Type} [Fintype J] {H : J → ℝ × ℝ → Except PyErr Fl} {p : J → ℝ × ℝ → ℝ} {j₀ : J}
    (hv₁ : v₁ ≠ 0) (hv₂ : v₂ ≠ 0) (hS₁ : MeasurableSet S₁) (hS₂ : MeasurableSet S₂) (hK₁ : ∀ x ∈ S₁, |x| ≤ K)
    (hK₂ : ∀ x ∈ S₂, |x| ≤ K) (hK : 0 ≤ K) (hD : MeasurableSet Det) (hH : ∀ j, IsDensityOn (H j) (S₁ ×ˢ S₂))
    (hp : ∀ j, ∀ x ∈ S₁ ×ˢ S₂, H j x = .ok (fin (p j x))) (hm : ∀ j, Measurable (p j))
    (hne : ∀ j, j ≠ j₀ → ¬ ∀ᵐ x ∂volume.restrict (S₁ ×ˢ S₂), p j x = p j₀ x) :
    Recovers (volume.restrict (S₁ ×ˢ S₂)) volume (gaussianErrors2 v₁ v₂) Det p j₀ := by
  have hS := hS₁.prod hS₂
  have key : ∀ j, (∀ x ∈ S₁ ×ˢ S₂, 0 ≤ p j x) ∧ IntegrableOn (p j) (S₁ ×ˢ S₂) ∧ ∫ x in S₁ ×ˢ S₂, p j x = 1 := by
    intro j
    obtain ⟨g, e, hg, gi, g1⟩ := hH j
    have eg : ∀ x ∈ S₁ ×ˢ S₂, g x = p j x := fun x hx =>
      Fl.fin.inj (Except.ok.inj ((e x hx).symm.trans (hp j x hx)))
    exact ⟨fun x hx => eg x hx ▸ hg x hx, gi.congr_fun eg hS, by rw [← setIntegral_congr_fun hS eg, g1]⟩
  exact recovers_normalised hv₁ hv₂ hS₁ hS₂ hK₁ hK₂ hK hD hm
    (fun j => (ae_restrict_iff' hS).2 (ae_of_all _ (key j).1)) (fun j => (key j).2.1) (fun j => (key j).2.2) hne

end SeveralErrors

variable {v₁ v₂ : NNReal} {S₁ S₂ : Set ℝ} {K : ℝ} {Det : Set (ℝ × ℝ)}

/-- Products of densities that agree have the same factors. -/
theorem SeveralErrors.product_same {J : Type} {F G : J → ℝ → Except PyErr Fl} {H : J → ℝ × ℝ → Except PyErr Fl}
    {p : J → ℝ × ℝ → ℝ} {j j₀ : J} (hS₁ : MeasurableSet S₁) (hS₂ : MeasurableSet S₂)
    (hF : ∀ j, IsDensityOn (F j) S₁) (hG : ∀ j, IsDensityOn (G j) S₂)
    (hH : ∀ j x, H j x = (do let p ← F j x.1; let q ← G j x.2; return p * q))
    (hp : ∀ j, ∀ x ∈ S₁ ×ˢ S₂, H j x = .ok (fin (p j x))) (hm : ∀ j, Measurable (p j))
    (hae : ∀ᵐ x ∂volume.restrict (S₁ ×ˢ S₂), p j x = p j₀ x) :
    SamePopulation S₁ (F j₀) (F j) ∧ SamePopulation S₂ (G j₀) (G j) := by
  obtain ⟨f, ef, -, -, f1⟩ := hF j
  obtain ⟨g, eg, -, -, g1⟩ := hG j
  obtain ⟨f', ef', -, -, f1'⟩ := hF j₀
  obtain ⟨g', eg', -, -, g1'⟩ := hG j₀
  have val : ∀ x ∈ S₁, ∀ y ∈ S₂, p j (x, y) = f x * g y ∧ p j₀ (x, y) = f' x * g' y := fun x hx y hy => by
    have a1 := (hp j (x, y) ⟨hx, hy⟩).symm.trans (hH j (x, y))
    have a2 := (hp j₀ (x, y) ⟨hx, hy⟩).symm.trans (hH j₀ (x, y))
    rw [ef x hx, eg y hy] at a1
    rw [ef' x hx, eg' y hy] at a2
    change Except.ok _ = Except.ok _ at a1
    change Except.ok _ = Except.ok _ at a2
    rw [fin_mul] at a1 a2
    exact ⟨Fl.fin.inj (Except.ok.inj a1), Fl.fin.inj (Except.ok.inj a2)⟩
  rw [Measure.volume_eq_prod, ← Measure.prod_restrict] at hae
  have hms : MeasurableSet {z : ℝ × ℝ | p j z = p j₀ z} := measurableSet_eq_fun (hm j) (hm j₀)
  have h1 := Measure.ae_ae_of_ae_prod hae
  have h2 := (Measure.ae_ae_comm (p := fun x y => p j (x, y) = p j₀ (x, y)) hms).1 h1
  constructor
  · refine (ae_restrict_iff' hS₁).1 ?_
    filter_upwards [h1, ae_restrict_mem hS₁] with x hx hxS
    have : ∫ y in S₂, f x * g y = ∫ y in S₂, f' x * g' y := by
      refine integral_congr_ae ?_
      filter_upwards [hx, ae_restrict_mem hS₂] with y hy hyS
      rw [← (val x hxS y hyS).1, ← (val x hxS y hyS).2, hy]
    rw [integral_const_mul, integral_const_mul, g1, g1', mul_one, mul_one] at this
    rw [ef x hxS, ef' x hxS, this]
  · refine (ae_restrict_iff' hS₂).1 ?_
    filter_upwards [h2, ae_restrict_mem hS₂] with y hy hyS
    have : ∫ x in S₁, f x * g y = ∫ x in S₁, f' x * g' y := by
      refine integral_congr_ae ?_
      filter_upwards [hy, ae_restrict_mem hS₁] with x hx hxS
      rw [← (val x hxS y hyS).1, ← (val x hxS y hyS).2, hx]
    rw [integral_mul_const, integral_mul_const, f1, f1', one_mul, one_mul] at this
    rw [eg y hyS, eg' y hyS, this]

/-- **C161** for two parameters that are independent in the population. -/
theorem C161_product {J : Type} [Fintype J] {F G : J → ℝ → Except PyErr Fl} {H : J → ℝ × ℝ → Except PyErr Fl}
    {p : J → ℝ × ℝ → ℝ} {j₀ : J} (hv₁ : v₁ ≠ 0) (hv₂ : v₂ ≠ 0) (hS₁ : MeasurableSet S₁) (hS₂ : MeasurableSet S₂)
    (hK₁ : ∀ x ∈ S₁, |x| ≤ K) (hK₂ : ∀ x ∈ S₂, |x| ≤ K) (hK : 0 ≤ K) (hD : MeasurableSet Det)
    (hF : ∀ j, IsDensityOn (F j) S₁) (hG : ∀ j, IsDensityOn (G j) S₂)
    (hH : ∀ j x, H j x = (do let p ← F j x.1; let q ← G j x.2; return p * q))
    (hp : ∀ j, ∀ x ∈ S₁ ×ˢ S₂, H j x = .ok (fin (p j x))) (hm : ∀ j, Measurable (p j))
    (hne : ∀ j, j ≠ j₀ → ¬ (SamePopulation S₁ (F j₀) (F j) ∧ SamePopulation S₂ (G j₀) (G j))) :
    Recovers (volume.restrict (S₁ ×ˢ S₂)) volume (gaussianErrors2 v₁ v₂) Det p j₀ := by
  exact recovers_density hv₁ hv₂ hS₁ hS₂ hK₁ hK₂ hK hD (fun j => isDensityOn_prod (hF j) (hG j) (hH j)) hp hm
    fun j hj hae => hne j hj (SeveralErrors.product_same hS₁ hS₂ hF hG hH hp hm hae)

/-- Tilts with the same density have the same parameters. -/
theorem SeveralErrors.tilts_same {J : Type} {p : J → ℝ × ℝ → ℝ} {j j₀ : J} (b : Backend) (rest : Dict Fl)
    {xi s1 s2 : J → ℝ} (x0 : ∀ j, 0 < xi j) (x1 : ∀ j, xi j < 1) (hs1 : ∀ j, 0 < s1 j) (hs2 : ∀ j, 0 < s2 j)
    (hp : ∀ j z1 z2, |z1| ≤ 1 → |z2| ≤ 1 → independentSpinOrientation b (tiltData (fin z1) (fin z2) rest)
      (fin (xi j)) (fin (s1 j)) (fin (s2 j)) = .ok (fin (p j (z1, z2))))
    (hae : ∀ᵐ x ∂volume.restrict (Icc (-1) 1 ×ˢ Icc (-1) 1), p j x = p j₀ x) :
    (xi j, s1 j, s2 j) = (xi j₀, s1 j₀, s2 j₀) := by
  have pI : ∀ s : ℝ, 0 < ∫ t in (-1 : ℝ)..1, bell 1 s t := fun s => integral_gaussShape_pos (by norm_num)
  have val : ∀ j, ∀ z1 ∈ Ioo (-1 : ℝ) 1, ∀ z2 ∈ Ioo (-1 : ℝ) 1, p j (z1, z2) = (1 - xi j) / 4 + xi j *
      (bell 1 (s1 j) z1 / (∫ t in (-1 : ℝ)..1, bell 1 (s1 j) t) * (bell 1 (s2 j) z2 / ∫ t in (-1 : ℝ)..1, bell 1 (s2 j) t)) := by
    intro j z1 h1 z2 h2
    have a1 := hp j z1 z2 (abs_le.2 ⟨h1.1.le, h1.2.le⟩) (abs_le.2 ⟨h2.1.le, h2.2.le⟩)
    have a2 := C27_value b (tiltData_get1 (fin z1) (fin z2) rest) (tiltData_get2 _ _ _) (xi j) 1 1 (hs1 j) (hs2 j)
    have a3 := Fl.fin.inj (Except.ok.inj (a1.symm.trans a2))
    rw [a3, Spec.normalised, Spec.normalised, if_pos ⟨h1.1.le, h1.2.le⟩, if_pos ⟨h2.1.le, h2.2.le⟩]
    rfl
  have hop : ∀ z1 ∈ Ioo (-1 : ℝ) 1, ∀ z2 ∈ Ioo (-1 : ℝ) 1, p j (z1, z2) = p j₀ (z1, z2) := by
    have cont : ∀ j, ContinuousOn (p j) (Ioo (-1) 1 ×ˢ Ioo (-1) 1) := fun j => by
      refine ContinuousOn.congr (f := fun z : ℝ × ℝ => (1 - xi j) / 4 + xi j *
        (bell 1 (s1 j) z.1 / (∫ t in (-1 : ℝ)..1, bell 1 (s1 j) t) *
          (bell 1 (s2 j) z.2 / ∫ t in (-1 : ℝ)..1, bell 1 (s2 j) t))) ?_ fun z hz => val j z.1 hz.1 z.2 hz.2
      have c1 := gaussShape_continuous 1 (s1 j)
      have c2 := gaussShape_continuous 1 (s2 j)
      refine Continuous.continuousOn (continuous_const.add (continuous_const.mul ?_))
      exact ((c1.comp continuous_fst).div_const _).mul ((c2.comp continuous_snd).div_const _)
    have := Measure.eqOn_open_of_ae_eq (μ := (volume : Measure (ℝ × ℝ)))
      (ae_restrict_of_ae_restrict_of_subset (prod_mono Ioo_subset_Icc_self Ioo_subset_Icc_self) hae)
      (isOpen_Ioo.prod isOpen_Ioo) (cont j) (cont j₀)
    exact fun z1 h1 z2 h2 => this (show (z1, z2) ∈ Ioo (-1 : ℝ) 1 ×ˢ Ioo (-1 : ℝ) 1 from ⟨h1, h2⟩)
  have bexp : ∀ s t : ℝ, 0 < t → bell 1 s (1 - √t) = Real.exp (-(1 / (2 * s ^ 2)) * t) := fun s t ht => by
    show Real.exp (-(1 - √t - 1) ^ 2 / (2 * s ^ 2)) = _
    congr 1
    rw [show (1 - √t - 1) ^ 2 = √t ^ 2 by ring, Real.sq_sqrt ht.le]
    ring
  have dom : ∀ t ∈ Ioo (0 : ℝ) 1, 1 - √t ∈ Ioo (-1 : ℝ) 1 := fun t ht => by
    have h1 := Real.sqrt_pos.2 ht.1
    have h2 : √t < 1 := by rw [Real.sqrt_lt' one_pos]; linarith [ht.2]
    constructor <;> linarith
  have b0 : ∀ s z : ℝ, 0 < bell 1 s z := fun s z => Real.exp_pos _
  have width : ∀ {s s' : ℝ}, 0 < s → 0 < s' → -(1 / (2 * s ^ 2)) = -(1 / (2 * s' ^ 2)) → s = s' := by
    intro s s' h h' e
    have e1 := neg_injective e
    rw [one_div, one_div, inv_inj] at e1
    exact (pow_left_inj₀ h.le h'.le two_ne_zero).1 (by linarith)
  have neg : ∀ {s : ℝ}, 0 < s → -(1 / (2 * s ^ 2)) < 0 := by
    intro s h
    have : 0 < 1 / (2 * s ^ 2) := by positivity
    linarith
  have q1 := Identifiable.exponentials
    (A := xi j * (1 / (∫ t in (-1 : ℝ)..1, bell 1 (s1 j) t) * (bell 1 (s2 j) 0 / ∫ t in (-1 : ℝ)..1, bell 1 (s2 j) t)))
    (B := (1 - xi j) / 4)
    (C := xi j₀ * (1 / (∫ t in (-1 : ℝ)..1, bell 1 (s1 j₀) t) *
      (bell 1 (s2 j₀) 0 / ∫ t in (-1 : ℝ)..1, bell 1 (s2 j₀) t)))
    (D := (1 - xi j₀) / 4) (by linarith [x1 j])
    (mul_pos (x0 j) (mul_pos (div_pos one_pos (pI _)) (div_pos (b0 _ _) (pI _))))
    (mul_pos (x0 j₀) (mul_pos (div_pos one_pos (pI _)) (div_pos (b0 _ _) (pI _)))) (by linarith [x1 j₀])
    (neg (hs1 j)) (neg (hs1 j₀)) zero_lt_one (fun t ht => by
      have := hop (1 - √t) (dom t ht) 0 (by norm_num)
      rw [val j _ (dom t ht) 0 (by norm_num), val j₀ _ (dom t ht) 0 (by norm_num), bexp _ t ht.1, bexp _ t ht.1] at this
      rw [zero_mul, Real.exp_zero]
      linear_combination this)
  have q2 := Identifiable.exponentials
    (A := xi j * (bell 1 (s1 j) 0 / (∫ t in (-1 : ℝ)..1, bell 1 (s1 j) t) * (1 / ∫ t in (-1 : ℝ)..1, bell 1 (s2 j) t)))
    (B := (1 - xi j) / 4)
    (C := xi j₀ * (bell 1 (s1 j₀) 0 / (∫ t in (-1 : ℝ)..1, bell 1 (s1 j₀) t) *
      (1 / ∫ t in (-1 : ℝ)..1, bell 1 (s2 j₀) t)))
    (D := (1 - xi j₀) / 4) (by linarith [x1 j])
    (mul_pos (x0 j) (mul_pos (div_pos (b0 _ _) (pI _)) (div_pos one_pos (pI _))))
    (mul_pos (x0 j₀) (mul_pos (div_pos (b0 _ _) (pI _)) (div_pos one_pos (pI _)))) (by linarith [x1 j₀])
    (neg (hs2 j)) (neg (hs2 j₀)) zero_lt_one (fun t ht => by
      have := hop 0 (by norm_num) (1 - √t) (dom t ht)
      rw [val j 0 (by norm_num) _ (dom t ht), val j₀ 0 (by norm_num) _ (dom t ht), bexp _ t ht.1, bexp _ t ht.1] at this
      rw [zero_mul, Real.exp_zero]
      linear_combination this)
  have e1 := width (hs1 j) (hs1 j₀) q1.1
  have e2 := width (hs2 j) (hs2 j₀) q2.1
  have e3 : xi j = xi j₀ := by linarith [q1.2.2.2]
  rw [e1, e2, e3]

/-- **C161** for the tilts: the fraction of aligned spins and the two widths. -/
theorem C161_tilts {J : Type} [Fintype J] {p : J → ℝ × ℝ → ℝ} {j₀ : J} (b : Backend) (rest : Dict Fl)
    {xi s1 s2 : J → ℝ} (x0 : ∀ j, 0 < xi j) (x1 : ∀ j, xi j < 1) (hs1 : ∀ j, 0 < s1 j) (hs2 : ∀ j, 0 < s2 j)
    (hinj : ∀ j, j ≠ j₀ → (xi j, s1 j, s2 j) ≠ (xi j₀, s1 j₀, s2 j₀))
    (hp : ∀ j z1 z2, |z1| ≤ 1 → |z2| ≤ 1 → independentSpinOrientation b (tiltData (fin z1) (fin z2) rest)
      (fin (xi j)) (fin (s1 j)) (fin (s2 j)) = .ok (fin (p j (z1, z2))))
    (hm : ∀ j, Measurable (p j)) (hv₁ : v₁ ≠ 0) (hv₂ : v₂ ≠ 0) (hD : MeasurableSet Det) :
    Recovers (volume.restrict (Icc (-1) 1 ×ˢ Icc (-1) 1)) volume (gaussianErrors2 v₁ v₂) Det p j₀ := by
  refine recovers_density (K := 1) hv₁ hv₂ measurableSet_Icc measurableSet_Icc (fun x hx => abs_le.2 hx)
    (fun x hx => abs_le.2 hx) zero_le_one hD
    (fun j => C27_isDensity b rest (x0 j).le (x1 j).le 1 1 (hs1 j) (hs2 j))
    (fun j x hx => hp j x.1 x.2 (abs_le.2 hx.1) (abs_le.2 hx.2)) hm fun j hj hae =>
      hinj j hj (SeveralErrors.tilts_same b rest x0 x1 hs1 hs2 hp hae)

theorem SeveralErrors.beta_zero (junk : Fl → Fl → Fl) (b : Backend) {x al be A : ℝ} (hA : 0 < A) (hx : ¬ (0 ≤ x ∧ x ≤ A)) :
    betaDist junk b (pos (fin x)) (pos (fin al)) (pos (fin be)) (kw (fin A)) = .ok (fin 0) := by
  obtain ⟨r, -, hr, hz⟩ := C06_betaDist_total junk b (fin x) (fin al) (fin be) (fin A)
  have hA' : (0 : Fl) < fin A := by simpa using hA
  rw [betaDist_eq, if_neg (by simp)] at hr
  rw [betaDist_eq, if_neg (by simpa using fun _ => hA')]
  rw [hz (by simpa using hx)] at hr
  exact hr

/-- Spin magnitudes with the same density have the same parameters. -/
theorem SeveralErrors.beta_same (junk : Fl → Fl → Fl) (b : Backend) {al be A al' be' A' : ℝ} (h1 : 0 < al) (h2 : 0 < be)
    (h3 : 0 < A) (h1' : 0 < al') (h2' : 0 < be') (h3' : 0 < A') (hk : A ≤ K) (hk' : A' ≤ K)
    (hs : SamePopulation (Icc 0 K) (fun x => betaDist junk b (pos (fin x)) (pos (fin al)) (pos (fin be)) (kw (fin A)))
      (fun x => betaDist junk b (pos (fin x)) (pos (fin al')) (pos (fin be')) (kw (fin A')))) :
    (al', be', A') = (al, be, A) := by
  obtain ⟨e1, e2, e3⟩ := C156_beta junk b false false false true h1 h2 h3 h1' h2' h3' (by
    unfold Spec.SamePopulation at hs ⊢
    filter_upwards [hs] with x hx _
    by_cases hxK : x ∈ Icc 0 K
    · exact hx hxK
    · exact (SeveralErrors.beta_zero junk b h3 fun h => hxK ⟨h.1, h.2.trans hk⟩).trans
        (SeveralErrors.beta_zero junk b h3' fun h => hxK ⟨h.1, h.2.trans hk'⟩).symm)
  rw [e1, e2, e3]

/-- **C161** for the spin magnitudes: the two shapes and the maximum, for each of the two spins. -/
theorem C161_magnitudes {J : Type} [Fintype J] {p : J → ℝ × ℝ → ℝ} {j₀ : J} (junk : Fl → Fl → Fl) (b : Backend)
    (rest : Dict Fl) {al1 al2 be1 be2 A1 A2 : J → ℝ} (ha1 : ∀ j, 0 < al1 j) (ha2 : ∀ j, 0 < al2 j)
    (hb1 : ∀ j, 0 < be1 j) (hb2 : ∀ j, 0 < be2 j) (hA1 : ∀ j, 0 < A1 j) (hA2 : ∀ j, 0 < A2 j)
    (hK1 : ∀ j, A1 j ≤ K) (hK2 : ∀ j, A2 j ≤ K)
    (hinj : ∀ j, j ≠ j₀ → ¬ ((al1 j, be1 j, A1 j) = (al1 j₀, be1 j₀, A1 j₀) ∧ (al2 j, be2 j, A2 j) = (al2 j₀, be2 j₀, A2 j₀)))
    (hp : ∀ j x y, x ∈ Icc 0 K → y ∈ Icc 0 K → independentSpinMagnitudeBeta junk b (spinData (fin x) (fin y) rest)
      (fin (al1 j)) (fin (al2 j)) (fin (be1 j)) (fin (be2 j)) (fin (A1 j)) (fin (A2 j)) = .ok (fin (p j (x, y))))
    (hm : ∀ j, Measurable (p j)) (hv₁ : v₁ ≠ 0) (hv₂ : v₂ ≠ 0) (hD : MeasurableSet Det) :
    Recovers (volume.restrict (Icc 0 K ×ˢ Icc 0 K)) volume (gaussianErrors2 v₁ v₂) Det p j₀ := by
  have hK : 0 ≤ K := (hA1 j₀).le.trans (hK1 j₀)
  have ext := @SeveralErrors.beta_same K junk b
  have abs : ∀ x ∈ Icc 0 K, |x| ≤ K := fun x hx => by rw [abs_of_nonneg hx.1]; exact hx.2
  exact C161_product hv₁ hv₂ measurableSet_Icc measurableSet_Icc abs abs hK hD
    (fun j => C05_betaDist_isDensity junk b false false false true (ha1 j) (hb1 j) (hA1 j) (Icc 0 K)
      (fun x hx => ⟨hx.1.le, hx.2.le.trans (hK1 j)⟩) measurableSet_Icc)
    (fun j => C05_betaDist_isDensity junk b false false false true (ha2 j) (hb2 j) (hA2 j) (Icc 0 K)
      (fun x hx => ⟨hx.1.le, hx.2.le.trans (hK2 j)⟩) measurableSet_Icc)
    (fun j x => magnitude_eq junk b (spinData_get1 (fin x.1) (fin x.2) rest) (spinData_get2 _ _ _) _ _ _ _ _ _)
    (fun j x hx => hp j x.1 x.2 hx.1 hx.2) hm
    fun j hj h => hinj j hj ⟨ext (ha1 j₀) (hb1 j₀) (hA1 j₀) (ha1 j) (hb1 j) (hA1 j) (hK1 j₀) (hK1 j) h.1,
      ext (ha2 j₀) (hb2 j₀) (hA2 j₀) (ha2 j) (hb2 j) (hA2 j) (hK2 j₀) (hK2 j) h.2⟩

/-- **C161** for primary mass and mass ratio, with any of the models of the primary mass. -/
theorem C161_massRatio {J : Type} [Fintype J] {p : J → ℝ × ℝ → ℝ} {j₀ : J} {R : J → ℝ → ℝ → Except PyErr Fl}
    {P : J → ℝ → Except PyErr Fl} {beta mmin : J → ℝ} {M : ℝ} (hR : ∀ j, IsMassRatioModel (R j) (P j) (beta j) (mmin j))
    (h0 : ∀ j, 0 < mmin j) (hP : ∀ j, IsDensityOn (P j) (Ioi 0))
    (hz : ∀ j m, 0 < m → (m < mmin j ∨ M < m) → P j m = .ok (fin 0))
    (hinj : ∀ j, j ≠ j₀ → ¬ (beta j = beta j₀ ∧ SamePopulation (Ioi 0) (P j) (P j₀)))
    (hp : ∀ j m q, 0 < m → m ≠ mmin j → 0 < q → R j m q = .ok (fin (p j (m, q))))
    (hm : ∀ j, Measurable (p j)) (hv₁ : v₁ ≠ 0) (hv₂ : v₂ ≠ 0) (hD : MeasurableSet Det) :
    Recovers (volume.restrict (Ioc 0 M ×ˢ Ioc 0 1)) volume (gaussianErrors2 v₁ v₂) Det p j₀ := by
  have line : ∀ c : ℝ, ∀ᵐ x : ℝ × ℝ, x.1 ≠ c := fun c => by
    rw [Measure.volume_eq_prod]
    exact Measure.quasiMeasurePreserving_fst.ae (Measure.ae_ne volume c)
  set V : Set (ℝ × ℝ) := Ioc 0 M ×ˢ Ioc 0 1 with hV
  have hVm : MeasurableSet V := measurableSet_Ioc.prod measurableSet_Ioc
  set U : J → Set (ℝ × ℝ) := fun j => {x | 0 < x.1 ∧ x.1 ≠ mmin j ∧ 0 < x.2} with hU
  have hUm : ∀ j, MeasurableSet (U j) := fun j =>
    (measurableSet_lt measurable_const measurable_fst).inter
      ((measurable_fst (measurableSet_singleton (mmin j)).compl).inter (measurableSet_lt measurable_const measurable_snd))
  have zero : ∀ j, ∀ x ∈ U j, x ∉ V → p j x = 0 := by
    intro j x hx hxV
    have e := hp j x.1 x.2 hx.1 hx.2.1 hx.2.2
    by_cases hq : x.2 ≤ 1
    · have hM : M < x.1 := not_le.1 fun h => hxV ⟨⟨hx.1, h⟩, hx.2.2, hq⟩
      obtain ⟨q, e1, e2⟩ := (hR j).factor x.1 x.2 hx.1 hx.2.1 hx.2.2
      have hq0 : q = 0 := Fl.fin.inj (Except.ok.inj (e1.symm.trans (hz j x.1 hx.1 (Or.inr hM))))
      rw [hq0, zero_mul] at e2
      exact Fl.fin.inj (Except.ok.inj (e.symm.trans e2))
    · exact Fl.fin.inj (Except.ok.inj (e.symm.trans
        ((hR j).support x.1 x.2 hx.1 hx.2.1 hx.2.2 fun h => hq h.2.1)))
  have key : ∀ j, (∀ᵐ x ∂volume.restrict V, 0 ≤ p j x) ∧ IntegrableOn (p j) V ∧ ∫ x in V, p j x = 1 := by
    intro j
    obtain ⟨g, e, hg, gi, g1⟩ := (hR j).joint
    have eg : ∀ x ∈ U j, g x = p j x := fun x hx =>
      Fl.fin.inj (Except.ok.inj ((e x hx).symm.trans (hp j x.1 x.2 hx.1 hx.2.1 hx.2.2)))
    have pi : IntegrableOn (p j) (U j) := gi.congr_fun eg (hUm j)
    have p1 : ∫ x in U j, p j x = 1 := by rw [← setIntegral_congr_fun (hUm j) eg]; exact g1
    have hVU : (V ∩ U j : Set (ℝ × ℝ)) =ᵐ[volume] V := by
      filter_upwards [line (mmin j)] with x hx
      exact propext ⟨fun h => h.1, fun h => ⟨h, h.1.1, hx, h.2.1⟩⟩
    refine ⟨?_, (pi.mono_set inter_subset_right).congr_set_ae hVU.symm, ?_⟩
    · filter_upwards [ae_restrict_mem hVm, ae_restrict_of_ae (line (mmin j))] with x hx hl
      have hxU : x ∈ U j := ⟨hx.1.1, hl, hx.2.1⟩
      rw [← eg x hxU]
      exact hg x hxU
    · rw [← setIntegral_congr_set hVU, ← p1]
      exact (setIntegral_eq_of_subset_of_forall_diff_eq_zero (hUm j) inter_subset_right
        fun x hx => zero j x hx.1 fun h => hx.2 ⟨h, hx.1⟩).symm
  have hKM : ∀ x ∈ Ioc 0 M, |x| ≤ max M 1 := fun x hx => by
    rw [abs_of_pos hx.1]; exact hx.2.trans (le_max_left _ _)
  have hK1 : ∀ x ∈ Ioc (0 : ℝ) 1, |x| ≤ max M 1 := fun x hx => by
    rw [abs_of_pos hx.1]; exact hx.2.trans (le_max_right _ _)
  refine recovers_normalised hv₁ hv₂ measurableSet_Ioc measurableSet_Ioc hKM hK1
    (zero_le_one.trans (le_max_right _ _)) hD hm (fun j => (key j).1) (fun j => (key j).2.1) (fun j => (key j).2.2)
    fun j hj hae => hinj j hj ?_
  have all : ∀ᵐ x : ℝ × ℝ, 0 < x.1 → 0 < x.2 → p j x = p j₀ x := by
    filter_upwards [(ae_restrict_iff' hVm).1 hae, line (mmin j), line (mmin j₀)] with x hx l1 l2 hx1 hx2
    by_cases hxV : x ∈ V
    · exact hx hxV
    · rw [zero j x ⟨hx1, l1, hx2⟩ hxV, zero j₀ x ⟨hx1, l2, hx2⟩ hxV]
  rw [Measure.volume_eq_prod] at all
  have slice : ∀ᵐ m : ℝ, 0 < m → m ≠ mmin j ∧ m ≠ mmin j₀ ∧ SamePopulation (Ioi 0) (R j m) (R j₀ m) ∧ P j m = P j₀ m := by
    have marg : ∀ j m, 0 < m → m ≠ mmin j → ∃ v, P j m = .ok (fin v) ∧ ∫ q in Ioi 0, p j (m, q) = v := by
      intro j m hm0 hmm
      rcases lt_or_gt_of_ne hmm with h | h
      · refine ⟨0, hz j m hm0 (Or.inl h), ?_⟩
        rw [setIntegral_congr_fun (g := fun _ => (0 : ℝ)) measurableSet_Ioi fun q hq =>
          Fl.fin.inj (Except.ok.inj ((hp j m q hm0 hmm hq).symm.trans
            ((hR j).support m q hm0 hmm hq fun hh => absurd hh.1 (not_le.2 h))))]
        simp
      · obtain ⟨v, g, e1, e2, -, e3⟩ := (hR j).marginal m h
        refine ⟨v, e1, ?_⟩
        rw [← e3]
        exact setIntegral_congr_fun measurableSet_Ioi fun q hq =>
          Fl.fin.inj (Except.ok.inj ((hp j m q hm0 hmm hq).symm.trans (e2 q hq)))
    filter_upwards [Measure.ae_ae_of_ae_prod all, Measure.ae_ne volume (mmin j), Measure.ae_ne volume (mmin j₀)]
      with m hm1 l1 l2 hm0
    refine ⟨l1, l2, ?_, ?_⟩
    · unfold Spec.SamePopulation
      filter_upwards [hm1] with q hq hq0
      rw [hp j m q hm0 l1 hq0, hp j₀ m q hm0 l2 hq0, hq hm0 hq0]
    · obtain ⟨v, e1, e2⟩ := marg j m hm0 l1
      obtain ⟨v', e1', e2'⟩ := marg j₀ m hm0 l2
      rw [e1, e1', ← e2, ← e2']
      congr 2
      refine setIntegral_congr_ae measurableSet_Ioi ?_
      filter_upwards [hm1] with q hq hq0
      exact hq hm0 hq0
  have hPP : SamePopulation (Ioi 0) (P j) (P j₀) := by
    unfold Spec.SamePopulation
    filter_upwards [slice] with m h hm0
    exact (h hm0).2.2.2
  refine ⟨?_, hPP⟩
  obtain ⟨f, ef, f0, -, f1⟩ := hP j₀
  by_contra hb
  have hzero : ∀ᵐ m ∂volume.restrict (Ioi (0 : ℝ)), f m = 0 := by
    refine (ae_restrict_iff' measurableSet_Ioi).2 ?_
    filter_upwards [slice] with m h hm0
    obtain ⟨l1, l2, hs, hPm⟩ := h hm0
    refine le_antisymm (not_lt.1 fun hf => hb ?_) (f0 m hm0)
    have big : ∀ i, m ≠ mmin i → P i m = .ok (fin (f m)) → mmin i < m := fun i hi he => by
      refine lt_of_le_of_ne (not_lt.1 fun hlt => ?_) hi.symm
      exact hf.ne' (Fl.fin.inj (Except.ok.inj (he.symm.trans (hz i m hm0 (Or.inl hlt)))))
    have e2 := ef m hm0
    have e1 := hPm.trans e2
    exact (C156_massRatio (h0 j) (h0 j₀) (big j l1 e1) (big j₀ l2 e2) (hR j) (hR j₀) ⟨_, hf, e1⟩ ⟨_, hf, e2⟩ hs).1
  rw [integral_congr_ae hzero] at f1
  simp at f1

/-- **C161** for the power law in primary mass with the power law in mass ratio: all four parameters. -/
theorem C161_masses {J : Type} [Fintype J] {p : J → ℝ × ℝ → ℝ} {j₀ : J} (b : Backend) (py : Bool)
    {a beta mmin mmax : J → ℝ} {M : ℝ} (ha : ∀ j, b = .jax ∨ a j ≠ -1) (h0 : ∀ j, 0 < mmin j) (h : ∀ j, mmin j < mmax j)
    (hM : ∀ j, mmax j ≤ M)
    (hinj : ∀ j, j ≠ j₀ → (a j, beta j, mmin j, mmax j) ≠ (a j₀, beta j₀, mmin j₀, mmax j₀))
    (hp : ∀ j m q, 0 < m → m ≠ mmin j → 0 < q → powerLawPrimaryMassRatio b py (fin m) (fin q) (fin (a j))
      (fin (beta j)) (fin (mmin j)) (fin (mmax j)) = .ok (fin (p j (m, q))))
    (hm : ∀ j, Measurable (p j)) (hv₁ : v₁ ≠ 0) (hv₂ : v₂ ≠ 0) (hD : MeasurableSet Det) :
    Recovers (volume.restrict (Ioc 0 M ×ˢ Ioc 0 1)) volume (gaussianErrors2 v₁ v₂) Det p j₀ := by
  refine C161_massRatio (fun j => C19_powerLawPrimaryMassRatio b py (ha j) (h0 j) (h j)) h0 (fun j => ?_)
    (fun j m hm0 hout => ?_) (fun j hj hs => hinj j hj ?_) hp hm hv₁ hv₂ hD
  · exact (isPdf_powerlaw (-a j) (h0 j) (h j)).isDensityOn (fun x hx => (h0 j).trans_le hx.1)
      fun m hm0 => C18_powerLawMass_value b py (ha j) (h0 j) (h j) hm0
  · rw [C18_powerLawMass_value b py (ha j) (h0 j) (h j) hm0, Spec.normalised, if_neg]
    rintro ⟨h1, h2⟩
    rcases hout with h3 | h3
    · exact absurd h1 (not_le.2 h3)
    · exact absurd (h2.trans (hM j)) (not_le.2 h3)
  · obtain ⟨e1, e2, e3⟩ := C156_mass b py (h0 j) (h j) (h0 j₀) (h j₀) (ha j) (ha j₀) hs.2
    rw [e1, e2, e3, hs.1]

/-! ## Non-vacuity -/

/-- Candidates for the fraction of aligned spins and for the width of the second tilt. -/
example (b : Backend) (rest : Dict Fl) (hv₁ : v₁ ≠ 0) (hv₂ : v₂ ≠ 0) (hD : MeasurableSet Det) :
    ∃ p : Bool × Bool → ℝ × ℝ → ℝ, (∀ j, Measurable (p j)) ∧
    (∀ j z1 z2, independentSpinOrientation b (tiltData (fin z1) (fin z2) rest) (fin (if j.1 then 0.6 else 0.5)) (fin 1)
      (fin (if j.2 then 1.2 else 1)) = .ok (fin (p j (z1, z2)))) ∧
    Recovers (volume.restrict (Icc (-1) 1 ×ˢ Icc (-1) 1)) volume (gaussianErrors2 v₁ v₂) Det p (true, true) := by
  obtain ⟨xi, hxi⟩ : ∃ a : Bool × Bool → ℝ, a = fun j => if j.1 then 0.6 else 0.5 := ⟨_, rfl⟩
  obtain ⟨s2, hs2⟩ : ∃ a : Bool × Bool → ℝ, a = fun j => if j.2 then 1.2 else 1 := ⟨_, rfl⟩
  have x0 : ∀ j, 0 < xi j := fun j => by rcases j with ⟨_ | _, _⟩ <;> norm_num [hxi]
  have x1 : ∀ j, xi j < 1 := fun j => by rcases j with ⟨_ | _, _⟩ <;> norm_num [hxi]
  have s0 : ∀ j, 0 < s2 j := fun j => by rcases j with ⟨_, _ | _⟩ <;> norm_num [hs2]
  obtain ⟨p, hpe⟩ : ∃ p : Bool × Bool → ℝ × ℝ → ℝ, ∀ j z, p j z = (1 - xi j) / 4 + xi j *
      (Spec.normalised (fun t => Real.exp (-(t - 1) ^ 2 / (2 * 1 ^ 2))) (-1) 1 z.1 *
         Spec.normalised (fun t => Real.exp (-(t - 1) ^ 2 / (2 * s2 j ^ 2))) (-1) 1 z.2) := ⟨fun j z => _, fun j z => rfl⟩
  have hmn : ∀ s : ℝ, Measurable (Spec.normalised (fun t => Real.exp (-(t - 1) ^ 2 / (2 * s ^ 2))) (-1) 1) := fun s => by
    unfold Spec.normalised
    exact Measurable.ite measurableSet_Icc ((gaussShape_continuous 1 s).measurable.div_const _) measurable_const
  have hm : ∀ j, Measurable (p j) := fun j => by
    rw [show p j = _ from funext (hpe j)]
    exact measurable_const.add (measurable_const.mul (((hmn 1).comp measurable_fst).mul ((hmn (s2 j)).comp measurable_snd)))
  have hval : ∀ j z1 z2, independentSpinOrientation b (tiltData (fin z1) (fin z2) rest) (fin (xi j)) (fin 1)
      (fin (s2 j)) = .ok (fin (p j (z1, z2))) := fun j z1 z2 => by
    rw [hpe]
    exact C27_value b (tiltData_get1 _ _ _) (tiltData_get2 _ _ _) (xi j) 1 1 one_pos (s0 j)
  refine ⟨p, hm, fun j z1 z2 => by rw [← hval j z1 z2, hxi, hs2], C161_tilts b rest (s1 := fun _ => 1) x0 x1
    (fun _ => one_pos) s0 (fun j hj => ?_) (fun j z1 z2 _ _ => hval j z1 z2) hm hv₁ hv₂ hD⟩
  rcases j with ⟨_ | _, _ | _⟩
  · norm_num [hxi]
  · norm_num [hxi]
  · norm_num [hs2]
  · exact absurd rfl hj

/-- Candidates for the slopes in primary mass and in mass ratio. -/
example (py : Bool) (hv₁ : v₁ ≠ 0) (hv₂ : v₂ ≠ 0) (hD : MeasurableSet Det) :
    ∃ p : Bool × Bool → ℝ × ℝ → ℝ, (∀ j, Measurable (p j)) ∧
    (∀ j m q, 0 < m → m ≠ 5 → 0 < q → powerLawPrimaryMassRatio .numpy py (fin m) (fin q) (fin (if j.1 then 2.3 else 3.5))
      (fin (if j.2 then 1 else 2)) (fin 5) (fin 85) = .ok (fin (p j (m, q)))) ∧
    Recovers (volume.restrict (Ioc 0 100 ×ˢ Ioc 0 1)) volume (gaussianErrors2 v₁ v₂) Det p (true, true) := by
  obtain ⟨a, ha⟩ : ∃ a : Bool × Bool → ℝ, a = fun j => if j.1 then 2.3 else 3.5 := ⟨_, rfl⟩
  obtain ⟨be, hbe⟩ : ∃ a : Bool × Bool → ℝ, a = fun j => if j.2 then 1 else 2 := ⟨_, rfl⟩
  have a1 : ∀ j, a j ≠ -1 := fun j => by rcases j with ⟨_ | _, _⟩ <;> norm_num [ha]
  have b1 : ∀ j, -1 < be j := fun j => by rcases j with ⟨_, _ | _⟩ <;> norm_num [hbe]
  obtain ⟨p, hpe⟩ : ∃ p : Bool × Bool → ℝ × ℝ → ℝ, ∀ j z, p j z = Spec.normalised (fun t => t ^ (-a j)) 5 85 z.1 *
      (if 5 / z.1 ≤ z.2 ∧ z.2 ≤ 1 then z.2 ^ be j / ((1 - (5 / z.1) ^ (be j + 1)) / (be j + 1)) else 0) :=
    ⟨fun j z => _, fun j z => rfl⟩
  have hm : ∀ j, Measurable (p j) := fun j => by
    rw [show p j = _ from funext (hpe j)]
    have d : Measurable fun z : ℝ × ℝ => 5 / z.1 := measurable_const.div measurable_fst
    refine Measurable.mul ?_ (Measurable.ite ((measurableSet_le d measurable_snd).inter
      (measurableSet_le measurable_snd measurable_const)) ?_ measurable_const)
    · have : Measurable (Spec.normalised (fun t => t ^ (-a j)) 5 85) := by
        unfold Spec.normalised
        exact Measurable.ite measurableSet_Icc ((measurable_id.pow_const _).div_const _) measurable_const
      exact this.comp measurable_fst
    · exact (measurable_snd.pow_const _).div ((measurable_const.sub (d.pow_const _)).div_const _)
  have hval : ∀ j m q, 0 < m → m ≠ 5 → 0 < q → powerLawPrimaryMassRatio .numpy py (fin m) (fin q) (fin (a j))
      (fin (be j)) (fin 5) (fin 85) = .ok (fin (p j (m, q))) := fun j m q hm0 hm5 hq => by
    obtain ⟨v, e1, e2⟩ := (C19_powerLawPrimaryMassRatio .numpy py (beta := be j) (Or.inr (a1 j))
      (by norm_num : (0 : ℝ) < 5) (by norm_num : (5 : ℝ) < 85)).factor m q hm0 hm5 hq
    have hv : v = Spec.normalised (fun t => t ^ (-a j)) 5 85 m := Fl.fin.inj (Except.ok.inj (e1.symm.trans
      (C18_powerLawMass_value .numpy py (Or.inr (a1 j)) (by norm_num) (by norm_num) hm0)))
    refine e2.trans ?_
    rw [hpe, hv]
    congr 3
    unfold Spec.normalised
    rw [integral_rpow (Or.inl (b1 j)), Real.one_rpow]
  refine ⟨p, hm, fun j m q hm0 hm5 hq => by rw [← hval j m q hm0 hm5 hq, ha, hbe], C161_masses .numpy py
    (mmin := fun _ => 5) (mmax := fun _ => 85) (fun j => Or.inr (a1 j)) (fun _ => by norm_num) (fun _ => by norm_num)
    (fun _ => by norm_num) (fun j hj => ?_) hval hm hv₁ hv₂ hD⟩
  rcases j with ⟨_ | _, _ | _⟩
  · norm_num [ha]
  · norm_num [ha]
  · norm_num [hbe]
  · exact absurd rfl hj

/-- Candidates for the first shape of the first spin and for the largest second spin. -/
example (junk : Fl → Fl → Fl) (b : Backend) (rest : Dict Fl) (hv₁ : v₁ ≠ 0) (hv₂ : v₂ ≠ 0) (hD : MeasurableSet Det) :
    ∃ p : Bool × Bool → ℝ × ℝ → ℝ, (∀ j, Measurable (p j)) ∧
    (∀ j x y, independentSpinMagnitudeBeta junk b (spinData (fin x) (fin y) rest) (fin (if j.1 then 2 else 3)) (fin 2)
      (fin 4) (fin 4) (fin 1) (fin (if j.2 then 1 else 0.8)) = .ok (fin (p j (x, y)))) ∧
    Recovers (volume.restrict (Icc 0 1 ×ˢ Icc 0 1)) volume (gaussianErrors2 v₁ v₂) Det p (true, true) := by
  obtain ⟨al, hal⟩ : ∃ a : Bool × Bool → ℝ, a = fun j => if j.1 then 2 else 3 := ⟨_, rfl⟩
  obtain ⟨A, hA⟩ : ∃ a : Bool × Bool → ℝ, a = fun j => if j.2 then 1 else 0.8 := ⟨_, rfl⟩
  have a0 : ∀ j, 0 < al j := fun j => by rcases j with ⟨_ | _, _⟩ <;> norm_num [hal]
  have A0 : ∀ j, 0 < A j := fun j => by rcases j with ⟨_, _ | _⟩ <;> norm_num [hA]
  have A1 : ∀ j, A j ≤ 1 := fun j => by rcases j with ⟨_, _ | _⟩ <;> norm_num [hA]
  have one : ∀ al A : ℝ, 0 < al → 0 < A → ∃ f : ℝ → ℝ, Measurable f ∧
      ∀ x, betaDist junk b (pos (fin x)) (pos (fin al)) (pos (fin 4)) (kw (fin A)) = .ok (fin (f x)) := by
    intro al A hal hA
    have hA' : (0 : Fl) < fin A := by simpa using hA
    have tot : ∀ x : ℝ, ∃ r : ℝ, betaDist junk b (pos (fin x)) (pos (fin al)) (pos (fin 4)) (kw (fin A)) = .ok (fin r) := by
      intro x
      obtain ⟨r, -, hr, -⟩ := C06_betaDist_total junk b (fin x) (fin al) (fin 4) (fin A)
      refine ⟨r, ?_⟩
      rw [betaDist_eq, if_neg (by simp)] at hr
      rw [betaDist_eq, if_neg (by simpa using fun _ => hA')]
      exact hr
    choose f hf using tot
    refine ⟨f, ?_, hf⟩
    have : f = fun x => if x = 0 then f 0 else if x = A then f A else
        Spec.normalised (fun t => t ^ (al - 1) * (A - t) ^ ((4 : ℝ) - 1)) 0 A x := by
      funext x
      by_cases h0 : x = 0
      · rw [if_pos h0, h0]
      by_cases h1 : x = A
      · rw [if_neg h0, if_pos h1, h1]
      rw [if_neg h0, if_neg h1]
      exact Fl.fin.inj (Except.ok.inj ((hf x).symm.trans
        (Identifiable.beta_value junk b false false false true hal (by norm_num) hA h0 h1)))
    rw [this]
    refine Measurable.ite (measurableSet_singleton 0) measurable_const
      (Measurable.ite (measurableSet_singleton A) measurable_const ?_)
    unfold Spec.normalised
    exact Measurable.ite measurableSet_Icc (((measurable_id.pow_const _).mul
      ((measurable_const.sub measurable_id).pow_const _)).div_const _) measurable_const
  choose f1 m1 e1 using fun j : Bool × Bool => one (al j) 1 (a0 j) one_pos
  choose f2 m2 e2 using fun j : Bool × Bool => one 2 (A j) two_pos (A0 j)
  have hval : ∀ j x y, independentSpinMagnitudeBeta junk b (spinData (fin x) (fin y) rest) (fin (al j)) (fin 2)
      (fin 4) (fin 4) (fin 1) (fin (A j)) = .ok (fin (f1 j x * f2 j y)) := fun j x y => by
    rw [magnitude_eq junk b (spinData_get1 _ _ _) (spinData_get2 _ _ _), e1, e2]
    rfl
  have hm : ∀ j, Measurable fun z : ℝ × ℝ => f1 j z.1 * f2 j z.2 := fun j =>
    ((m1 j).comp measurable_fst).mul ((m2 j).comp measurable_snd)
  refine ⟨fun j z => f1 j z.1 * f2 j z.2, hm, fun j x y => by rw [← hval j x y, hal, hA],
    C161_magnitudes (K := 1) junk b rest (al2 := fun _ => 2) (be1 := fun _ => 4) (be2 := fun _ => 4) (A1 := fun _ => 1) a0
      (fun _ => two_pos) (fun _ => by norm_num) (fun _ => by norm_num) (fun _ => one_pos) A0 (fun _ => le_rfl) A1
      (fun j hj h => ?_) (fun j x y _ _ => hval j x y) hm hv₁ hv₂ hD⟩
  rcases j with ⟨_ | _, _ | _⟩
  · norm_num [hal] at h
  · norm_num [hal] at h
  · norm_num [hA] at h
  · exact absurd rfl hj

end GW
