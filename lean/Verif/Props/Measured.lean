import Verif.Props.Posterior
import Verif.Props.MassSingle
import Verif.Props.Truncnorm
import Verif.Props.LocalRate
import Mathlib.Probability.Distributions.Gaussian.Real

/-!
# C158: slopes and means are found from noisy, selected data
-/

noncomputable section

open MeasureTheory ProbabilityTheory Filter Topology Set

namespace GW

open Fl Spec TruePopulation Posterior

variable {lo hi : ℝ} {like : ℝ → ℝ → ℝ} {Det : Set ℝ} {p₀ p₁ : ℝ → ℝ}

/-! ## Specification -/

/-- A number is measured with errors: the datum has a positive density for every true value, and larger data
are relatively more probable for larger true values. -/
structure Spec.OrderedMeasurement (like : ℝ → ℝ → ℝ) : Prop where
  measurable : Measurable fun z : ℝ × ℝ => like z.2 z.1
  pos : ∀ d x, 0 < like d x
  normalised : ∀ x, ∫⁻ d, ENNReal.ofReal (like d x) = 1
  bounded : ∀ d, ∃ B, ∀ x, like d x ≤ B
  ordered : ∀ d d' x x', d < d' → x < x' → like d' x * like d x' < like d x * like d' x'

/-- A positive density between `lo` and `hi`. -/
structure Spec.PositiveDensity (lo hi : ℝ) (p : ℝ → ℝ) : Prop where
  measurable : Measurable p
  pos : ∀ x ∈ Ioo lo hi, 0 < p x
  integrable : IntegrableOn p (Ioo lo hi)

/-- `p₁` is `p₀` tilted to larger values. -/
structure Spec.TiltedUp (lo hi : ℝ) (p₀ p₁ : ℝ → ℝ) : Prop where
  rising : ∀ x y, lo < x → x < y → y < hi → p₁ x * p₀ y < p₁ y * p₀ x
  comparable : ∃ c C : ℝ, 0 < c ∧ ∀ x ∈ Ioo lo hi, c * p₀ x ≤ p₁ x ∧ p₁ x ≤ C * p₀ x

/-- The data of events detected from the population `p j₀` are analysed with the package, for candidate
hyper-parameters `θ j` which describe the populations `p j`: almost surely, for every `ε > 0`, from some number of
events on, the posterior gives the true hyper-parameters a probability larger than `1 - ε`, if there are enough
posterior samples and injections. -/
def Spec.Recovers {S T J : Type} [MeasurableSpace S] [MeasurableSpace T] [Fintype J] (ν : Measure S)
    (η : Measure T) (like : T → S → ℝ) (Det : Set T) (p : J → S → ℝ) (j₀ : J) : Prop :=
  ∀ (Ω : Type) (_ : MeasurableSpace Ω) (P : Measure Ω) (_ : IsProbabilityMeasure P) (d : ℕ → Ω → T),
    DetectedEvents P ν η like Det (p j₀) d → ∀ w : J → ℝ, (∀ j, 0 < w j) →
    ∀ᵐ ω ∂P, ∀ ε > 0, ∃ n₀, ∀ n ≥ n₀, ∀ (Ω' : Type) (_ : MeasurableSpace Ω') (P' : Measure Ω')
      (_ : IsProbabilityMeasure P') (q : S → ℝ) (X : ℕ → Ω' → S × T) (vt : ℕ → Ω' → ResamplingVT)
      (prior : Fin n → S → ℝ) (Z : Fin n → ℝ) (Y : Fin n → ℕ → Ω' → S) (L : ℕ → ℕ → Ω' → Likelihood)
      (θ φ : J → Dict Fl),
      (∀ j, Analysis P' ν η like Det (fun i => d i ω) q X vt prior Z Y L (p j) (θ j) (φ j)) →
      ∀ᵐ ω' ∂P', ∀ᶠ KN in atTop ×ˢ atTop, ∃ l v : J → ℝ,
        (∀ j, (L KN.1 KN.2 ω').lnLikelihoodAndVariance (θ j) = .ok (fin (l j), fin (v j))) ∧
        1 - ε < posteriorOf w l j₀

/-! ## Lemmas -/

namespace Measured

theorem survey (hl : OrderedMeasurement like) (hD : MeasurableSet Det) : Survey like Det :=
  ⟨hl.measurable, fun d x => (hl.pos d x).le, hD⟩

theorem like_measurable (hl : OrderedMeasurement like) (d : ℝ) : Measurable (like d) :=
  hl.measurable.comp (measurable_id.prodMk measurable_const)

theorem data_integrable (hl : OrderedMeasurement like) {p : ℝ → ℝ} (hp : PositiveDensity lo hi p) (d : ℝ) :
    IntegrableOn (fun x => like d x * p x) (Ioo lo hi) := by
  obtain ⟨B, hB⟩ := hl.bounded d
  refine Integrable.bdd_mul (c := B) hp.integrable (like_measurable hl d).aestronglyMeasurable
    (ae_of_all _ fun x => ?_)
  rw [Real.norm_eq_abs, abs_of_pos (hl.pos d x)]
  exact hB x

theorem density_pos (h : lo < hi) (hl : OrderedMeasurement like) {p : ℝ → ℝ} (hp : PositiveDensity lo hi p)
    (d : ℝ) : 0 < dataDensity (volume.restrict (Ioo lo hi)) like p d := by
  unfold dataDensity
  rw [setIntegral_pos_iff_support_of_nonneg_ae]
  · refine lt_of_lt_of_le (b := volume (Ioo lo hi)) (by simpa using h)
      (measure_mono fun x hx => ⟨(mul_pos (hl.pos d x) (hp.pos x hx)).ne', hx⟩)
  · exact (ae_restrict_iff' measurableSet_Ioo).2
      (ae_of_all _ fun x hx => (mul_pos (hl.pos d x) (hp.pos x hx)).le)
  · exact data_integrable hl hp d

theorem population (h : lo < hi) (hl : OrderedMeasurement like) {p : ℝ → ℝ} (hp : PositiveDensity lo hi p) :
    Population (volume.restrict (Ioo lo hi)) volume like Det p := by
  refine ⟨hp.measurable, ?_, fun d _ => density_pos h hl hp d⟩
  have hm : Measurable fun z : ℝ × ℝ => like z.2 z.1 * p z.1 := hl.measurable.mul (hp.measurable.comp measurable_fst)
  have hi1 : ∀ x, Integrable fun d => like d x := fun x => by
    have hmx : Measurable fun d => like d x := hl.measurable.comp (measurable_const.prodMk measurable_id)
    refine ⟨hmx.aestronglyMeasurable, ?_⟩
    rw [hasFiniteIntegral_iff_ofReal (ae_of_all _ fun d => (hl.pos d x).le), hl.normalised x]
    exact ENNReal.one_lt_top
  refine (integrable_prod_iff hm.aestronglyMeasurable).2 ⟨?_, ?_⟩
  · exact ae_of_all _ fun x => ((hi1 x).mul_const (p x)).integrableOn
  · refine Integrable.mono' hp.integrable.norm
      (hm.norm.stronglyMeasurable.integral_prod_right').aestronglyMeasurable (ae_of_all _ fun x => ?_)
    have h1 : ∫ d, like d x = 1 := by
      rw [integral_eq_lintegral_of_nonneg_ae (ae_of_all _ fun d => (hl.pos d x).le) (hi1 x).1, hl.normalised x]
      rfl
    have h2 : ∫ d in Det, ‖like d x * p x‖ ≤ ∫ d, ‖like d x * p x‖ :=
      setIntegral_le_integral ((hi1 x).mul_const (p x)).norm (ae_of_all _ fun _ => norm_nonneg _)
    have h3 : ∫ d, ‖like d x * p x‖ = ‖p x‖ := by
      simp only [norm_mul, Real.norm_of_nonneg (hl.pos _ x).le]
      rw [integral_mul_const, h1, one_mul]
    rw [Real.norm_of_nonneg (integral_nonneg fun _ => norm_nonneg _)]
    exact h2.trans h3.le

/-- The ratio of the densities of the data rises. -/
theorem cross (h : lo < hi) (hl : OrderedMeasurement like) (hp₀ : PositiveDensity lo hi p₀)
    (hp₁ : PositiveDensity lo hi p₁) (ht : TiltedUp lo hi p₀ p₁) {d d' : ℝ} (hd : d < d') :
    dataDensity (volume.restrict (Ioo lo hi)) like p₁ d * dataDensity (volume.restrict (Ioo lo hi)) like p₀ d' <
      dataDensity (volume.restrict (Ioo lo hi)) like p₁ d' * dataDensity (volume.restrict (Ioo lo hi)) like p₀ d := by
  unfold dataDensity
  set μ := volume.restrict (Ioo lo hi) with hμ
  rw [← integral_prod_mul, ← integral_prod_mul, ← sub_pos]
  have iA : Integrable (fun z : ℝ × ℝ => like d' z.1 * p₁ z.1 * (like d z.2 * p₀ z.2)) (μ.prod μ) :=
    Integrable.mul_prod (data_integrable hl hp₁ d') (data_integrable hl hp₀ d)
  have iB : Integrable (fun z : ℝ × ℝ => like d z.1 * p₁ z.1 * (like d' z.2 * p₀ z.2)) (μ.prod μ) :=
    Integrable.mul_prod (data_integrable hl hp₁ d) (data_integrable hl hp₀ d')
  rw [← integral_sub iA iB]
  set F : ℝ × ℝ → ℝ := fun z => like d' z.1 * p₁ z.1 * (like d z.2 * p₀ z.2) -
    like d z.1 * p₁ z.1 * (like d' z.2 * p₀ z.2) with hF
  have iF : Integrable F (μ.prod μ) := iA.sub iB
  have hswap : ∫ z, F z.swap ∂μ.prod μ = ∫ z, F z ∂μ.prod μ := integral_prod_swap F
  have iS : Integrable (fun z : ℝ × ℝ => F z.swap) (μ.prod μ) := Integrable.swap iF
  have hG : ∀ z : ℝ × ℝ, F z + F z.swap = (p₁ z.1 * p₀ z.2 - p₁ z.2 * p₀ z.1) *
      (like d' z.1 * like d z.2 - like d z.1 * like d' z.2) := by
    intro z
    simp only [hF, Prod.fst_swap, Prod.snd_swap]
    ring
  have hpos : ∀ z ∈ Ioo lo hi ×ˢ Ioo lo hi, z.1 ≠ z.2 → 0 < F z + F z.swap := by
    rintro ⟨x, y⟩ ⟨hx, hy⟩ hne
    rw [hG]
    simp only at hx hy hne ⊢
    rcases lt_or_gt_of_ne hne with hlt | hlt
    · have h1 := ht.rising x y hx.1 hlt hy.2
      have h2 := hl.ordered d d' x y hd hlt
      exact mul_pos_of_neg_of_neg (by linarith) (by linarith)
    · have h1 := ht.rising y x hy.1 hlt hx.2
      have h2 := hl.ordered d d' y x hd hlt
      exact mul_pos (by linarith) (by linarith)
  have hnn : ∀ z ∈ Ioo lo hi ×ˢ Ioo lo hi, 0 ≤ F z + F z.swap := by
    intro z hz
    by_cases hne : z.1 = z.2
    · rw [hG, hne]
      simp
    · exact (hpos z hz hne).le
  have hmain : 0 < ∫ z, (F z + F z.swap) ∂μ.prod μ := by
    have hr : μ.prod μ = ((volume : Measure ℝ).prod volume).restrict (Ioo lo hi ×ˢ Ioo lo hi) := by
      rw [hμ, Measure.prod_restrict]
    have hi' : Integrable (fun z : ℝ × ℝ => F z + F z.swap) (μ.prod μ) := iF.add iS
    rw [hr] at hi' ⊢
    rw [setIntegral_pos_iff_support_of_nonneg_ae _ hi']
    · set c := (lo + hi) / 2 with hc
      have hsub : Ioo lo c ×ˢ Ioo c hi ⊆ Function.support (fun z : ℝ × ℝ => F z + F z.swap) ∩
          Ioo lo hi ×ˢ Ioo lo hi := by
        rintro ⟨x, y⟩ ⟨hx, hy⟩
        simp only [mem_Ioo] at hx hy
        have hin : ((x, y) : ℝ × ℝ) ∈ Ioo lo hi ×ˢ Ioo lo hi :=
          ⟨⟨hx.1, by linarith [hx.2]⟩, ⟨by linarith [hy.1], hy.2⟩⟩
        exact ⟨(hpos _ hin (by simp only; linarith [hx.2, hy.1])).ne', hin⟩
      refine lt_of_lt_of_le ?_ (measure_mono hsub)
      rw [Measure.prod_prod, Real.volume_Ioo, Real.volume_Ioo]
      exact ENNReal.mul_pos (ENNReal.ofReal_pos.2 (by linarith)).ne' (ENNReal.ofReal_pos.2 (by linarith)).ne'
    · exact (ae_restrict_iff' (measurableSet_Ioo.prod measurableSet_Ioo)).2 (ae_of_all _ hnn)
  rw [integral_add iF iS, hswap] at hmain
  have : (∫ z, F z ∂μ.prod μ) = ∫ a, (like d' a.1 * p₁ a.1 * (like d a.2 * p₀ a.2) -
      like d a.1 * p₁ a.1 * (like d' a.2 * p₀ a.2)) ∂μ.prod μ := rfl
  linarith

theorem differ (h : lo < hi) (hl : OrderedMeasurement like) (hD : MeasurableSet Det) (hv : volume Det ≠ 0)
    (hp₀ : PositiveDensity lo hi p₀) (hp₁ : PositiveDensity lo hi p₁) (ht : TiltedUp lo hi p₀ p₁) :
    ¬ SameData (volume.restrict (Ioo lo hi)) volume like Det p₀ p₁ := by
  intro hsame
  unfold SameData at hsame
  have f0 := fraction_pos (survey hl hD) (population (Det := Det) h hl hp₀) hv
  have f1 := fraction_pos (survey hl hD) (population (Det := Det) h hl hp₁) hv
  rw [ae_restrict_iff' hD] at hsame
  set A := {d | d ∈ Det ∧ dataDensity (volume.restrict (Ioo lo hi)) like p₁ d /
      detectedFraction (volume.restrict (Ioo lo hi)) volume like Det p₁ =
    dataDensity (volume.restrict (Ioo lo hi)) like p₀ d /
      detectedFraction (volume.restrict (Ioo lo hi)) volume like Det p₀} with hA
  have hAne : volume A ≠ 0 := by
    intro h0
    refine hv (measure_mono_null (t := A ∪ _) (fun d hd => ?_) (measure_union_null h0 hsame))
    by_cases he : d ∈ A
    · exact Or.inl he
    · exact Or.inr fun k => he ⟨hd, k hd⟩
  have hns : ¬ A.Subsingleton := fun hs => hAne (hs.measure_zero _)
  rw [not_subsingleton_iff] at hns
  obtain ⟨d, hd, d', hd', hlt⟩ := hns.exists_lt
  have hc := cross h hl hp₀ hp₁ ht hlt
  have e := hd.2
  have e' := hd'.2
  rw [div_eq_div_iff f1.ne' f0.ne'] at e e'
  refine (mul_lt_mul_of_pos_right hc f0).ne ?_
  linear_combination dataDensity (volume.restrict (Ioo lo hi)) like p₀ d' * e -
    dataDensity (volume.restrict (Ioo lo hi)) like p₀ d * e'

theorem differ_symm {S T : Type} [MeasurableSpace S] [MeasurableSpace T] {ν : Measure S} {η : Measure T}
    {like : T → S → ℝ} {Det : Set T} {p₀ p₁ : S → ℝ} (h : ¬ SameData ν η like Det p₀ p₁) :
    ¬ SameData ν η like Det p₁ p₀ := fun k => h (k.mono fun _ e => e.symm)

theorem comparable (h : lo < hi) (hl : OrderedMeasurement like) (hD : MeasurableSet Det)
    (hp₀ : PositiveDensity lo hi p₀) (hp₁ : PositiveDensity lo hi p₁)
    (hb : ∃ c C : ℝ, 0 < c ∧ ∀ x ∈ Ioo lo hi, c * p₀ x ≤ p₁ x ∧ p₁ x ≤ C * p₀ x) :
    Comparable (volume.restrict (Ioo lo hi)) volume like Det p₀ p₁ := by
  obtain ⟨c, C, hc, hb⟩ := hb
  have hs := survey hl hD
  have m0 := measurable_density (ν := volume.restrict (Ioo lo hi)) hs hp₀.measurable
  have m1 := measurable_density (ν := volume.restrict (Ioo lo hi)) hs hp₁.measurable
  have hbd : ∀ d, |Real.log (dataDensity (volume.restrict (Ioo lo hi)) like p₁ d /
      dataDensity (volume.restrict (Ioo lo hi)) like p₀ d)| ≤ |Real.log c| + |Real.log C| := by
    intro d
    have d0 := density_pos h hl hp₀ d
    have i0 := data_integrable hl hp₀ d
    have i1 := data_integrable hl hp₁ d
    have l1 : c * dataDensity (volume.restrict (Ioo lo hi)) like p₀ d ≤
        dataDensity (volume.restrict (Ioo lo hi)) like p₁ d := by
      unfold dataDensity
      rw [← integral_const_mul]
      refine setIntegral_mono_on (i0.const_mul c) i1 measurableSet_Ioo fun x hx => ?_
      nlinarith [(hb x hx).1, hl.pos d x]
    have l2 : dataDensity (volume.restrict (Ioo lo hi)) like p₁ d ≤
        C * dataDensity (volume.restrict (Ioo lo hi)) like p₀ d := by
      unfold dataDensity
      rw [← integral_const_mul]
      refine setIntegral_mono_on i1 (i0.const_mul C) measurableSet_Ioo fun x hx => ?_
      nlinarith [(hb x hx).2, hl.pos d x]
    rw [← le_div_iff₀ d0] at l1
    rw [← div_le_iff₀ d0] at l2
    have k1 := Real.log_le_log hc l1
    have k2 := Real.log_le_log (hc.trans_le l1) l2
    rw [abs_le]
    constructor
    · linarith [neg_abs_le (Real.log c), abs_nonneg (Real.log C)]
    · linarith [le_abs_self (Real.log C), abs_nonneg (Real.log c)]
  refine Integrable.mul_bdd (c := |Real.log c| + |Real.log C|)
    (integrable_density (population (Det := Det) h hl hp₀))
    (Real.measurable_log.comp (m1.div m0)).aestronglyMeasurable (ae_of_all _ hbd)

theorem tilted_of_ratio (hp₀ : ∀ x ∈ Ioo lo hi, 0 < p₀ x) {r : ℝ → ℝ} (hr : StrictMonoOn r (Icc lo hi))
    (hr0 : 0 < r lo) (h : lo < hi) {k : ℝ} (hk : 0 < k) (e : ∀ x ∈ Ioo lo hi, p₁ x = k * r x * p₀ x) :
    TiltedUp lo hi p₀ p₁ := by
  refine ⟨fun x y hx hxy hy => ?_, k * r lo, k * r hi, mul_pos hk hr0, fun x hx => ?_⟩
  · have hx' : x ∈ Ioo lo hi := ⟨hx, hxy.trans hy⟩
    have hy' : y ∈ Ioo lo hi := ⟨hx.trans hxy, hy⟩
    rw [e x hx', e y hy']
    have := hr ⟨hx'.1.le, hx'.2.le⟩ ⟨hy'.1.le, hy'.2.le⟩ hxy
    have h2 : k * p₀ x * p₀ y * r x < k * p₀ x * p₀ y * r y :=
      mul_lt_mul_of_pos_left this (mul_pos (mul_pos hk (hp₀ x hx')) (hp₀ y hy'))
    linarith
  · have h0 := hp₀ x hx
    have h1 := hr ⟨le_rfl, h.le⟩ ⟨hx.1.le, hx.2.le⟩ hx.1
    have h2 := hr ⟨hx.1.le, hx.2.le⟩ ⟨h.le, le_rfl⟩ hx.2
    rw [e x hx]
    exact ⟨mul_le_mul_of_nonneg_right (mul_le_mul_of_nonneg_left h1.le hk.le) h0.le,
      mul_le_mul_of_nonneg_right (mul_le_mul_of_nonneg_left h2.le hk.le) h0.le⟩

theorem comparable_symm (hp₀ : ∀ x ∈ Ioo lo hi, 0 < p₀ x) (h : lo < hi) (ht : TiltedUp lo hi p₀ p₁) :
    ∃ c C : ℝ, 0 < c ∧ ∀ x ∈ Ioo lo hi, c * p₁ x ≤ p₀ x ∧ p₀ x ≤ C * p₁ x := by
  obtain ⟨c, C, hc, hb⟩ := ht.comparable
  have hC : 0 < C := by
    obtain ⟨x, hx⟩ := nonempty_Ioo.2 h
    have h0 := hp₀ x hx
    have := (hb x hx).1.trans (hb x hx).2
    have := le_of_mul_le_mul_right this h0
    linarith
  refine ⟨C⁻¹, c⁻¹, inv_pos.2 hC, fun x hx => ⟨?_, ?_⟩⟩
  · rw [inv_mul_le_iff₀ hC]
    exact (hb x hx).2
  · rw [← div_eq_inv_mul, le_div_iff₀ hc, mul_comm]
    exact (hb x hx).1

end Measured

open Measured

/-! ## The property -/

/-- **C158.** If one of two populations is the other one tilted, the data of detected sources tell them apart. -/
theorem C158_differ (h : lo < hi) (hl : OrderedMeasurement like) (hD : MeasurableSet Det) (hv : volume Det ≠ 0)
    (hp₀ : PositiveDensity lo hi p₀) (hp₁ : PositiveDensity lo hi p₁)
    (ht : TiltedUp lo hi p₀ p₁ ∨ TiltedUp lo hi p₁ p₀) :
    ¬ SameData (volume.restrict (Ioo lo hi)) volume like Det p₀ p₁ :=
  ht.elim (differ h hl hD hv hp₀ hp₁) fun k => differ_symm (differ h hl hD hv hp₁ hp₀ k)

/-- **C158** for all populations of which each is another one tilted. -/
theorem C158_tilted {J : Type} [Fintype J] {p : J → ℝ → ℝ} {j₀ : J} (h : lo < hi) (hl : OrderedMeasurement like)
    (hD : MeasurableSet Det) (hp : ∀ j, PositiveDensity lo hi (p j))
    (ht : ∀ j, j ≠ j₀ → TiltedUp lo hi (p j₀) (p j) ∨ TiltedUp lo hi (p j) (p j₀)) :
    Recovers (volume.restrict (Ioo lo hi)) volume like Det p j₀ := by
  intro Ω _ P _ d hd w hw
  have hv := detectable_of_events hd
  refine C147_posterior (survey hl hD) (fun j => population h hl (hp j)) (fun j hj => ?_) (fun j hj => ?_) hd hw
  · refine comparable h hl hD (hp j₀) (hp j) ?_
    rcases ht j hj with k | k
    · exact k.comparable
    · exact comparable_symm (hp j).pos h k
  · exact C158_differ h hl hD hv (hp j₀) (hp j) (ht j hj)

/-- **C158** for the spectral index of the power law in mass. -/
theorem C158_mass {J : Type} [Fintype J] {p : J → ℝ → ℝ} (b : Backend) (py : Bool) {a : J → ℝ} {mmin mmax : ℝ}
    {j₀ : J} (h0 : 0 < mmin) (h : mmin < mmax) (ha : ∀ j, b = .jax ∨ a j ≠ -1) (hinj : ∀ j, j ≠ j₀ → a j ≠ a j₀)
    (hm : ∀ j, Measurable (p j))
    (hp : ∀ j m, 0 < m → powerLawMass b py (fin m) (fin (a j)) (fin mmin) (fin mmax) = .ok (fin (p j m)))
    (hl : OrderedMeasurement like) (hD : MeasurableSet Det) :
    Recovers (volume.restrict (Ioo mmin mmax)) volume like Det p j₀ := by
  have hI : ∀ j, 0 < ∫ t in mmin..mmax, t ^ (-a j) := fun j => integral_rpow_pos h0 h
  have hval : ∀ j, ∀ m ∈ Ioo mmin mmax, p j m = m ^ (-a j) / ∫ t in mmin..mmax, t ^ (-a j) := by
    intro j m hmm
    have h1 := hp j m (h0.trans hmm.1)
    rw [C18_powerLawMass_value b py (ha j) h0 h (h0.trans hmm.1)] at h1
    rw [← Fl.fin.inj (Except.ok.inj h1), Spec.normalised, if_pos ⟨hmm.1.le, hmm.2.le⟩]
  have hpos : ∀ j, ∀ m ∈ Ioo mmin mmax, 0 < p j m := fun j m hmm => by
    rw [hval j m hmm]
    exact div_pos (Real.rpow_pos_of_pos (h0.trans hmm.1) _) (hI j)
  have htilt : ∀ i j, a i < a j → TiltedUp mmin mmax (p j) (p i) := by
    intro i j hij
    refine tilted_of_ratio (r := fun m => m ^ (a j - a i)) (hpos j) (fun x hx y hy hxy => ?_)
      (Real.rpow_pos_of_pos h0 _) h (div_pos (hI j) (hI i)) fun m hmm => ?_
    · exact Real.rpow_lt_rpow (h0.trans_le hx.1).le hxy (by linarith)
    · rw [hval j m hmm, hval i m hmm]
      have hm0 : 0 < m := h0.trans hmm.1
      have e : m ^ (-a i) = m ^ (a j - a i) * m ^ (-a j) := by
        rw [← Real.rpow_add hm0]
        congr 1
        ring
      have h1 := (hI i).ne'
      have h2 := (hI j).ne'
      rw [e]
      generalize (∫ t in mmin..mmax, t ^ (-a i)) = A at h1 ⊢
      generalize (∫ t in mmin..mmax, t ^ (-a j)) = B at h2 ⊢
      field_simp
  refine C158_tilted h hl hD (fun j => ⟨hm j, hpos j, ?_⟩) fun j hj => ?_
  · refine (IntegrableOn.congr_fun ?_ (fun m hmm => (hval j m hmm).symm) measurableSet_Ioo)
    refine (ContinuousOn.integrableOn_Icc ?_).mono_set Ioo_subset_Icc_self
    exact (ContinuousOn.rpow_const continuousOn_id fun x hx => Or.inl (h0.trans_le hx.1).ne').div_const _
  · rcases lt_or_gt_of_ne (hinj j hj) with k | k
    · exact Or.inl (htilt _ _ k)
    · exact Or.inr (htilt _ _ k)

/-- **C158** for the mean of the truncated Gaussian. -/
theorem C158_mean {J : Type} [Fintype J] {p : J → ℝ → ℝ} (b : Backend) (k₁ k₂ k₃ k₄ k₅ : Bool) {mu : J → ℝ}
    {sigma : ℝ} {j₀ : J} (hs : 0 < sigma) (h : lo < hi) (hinj : ∀ j, j ≠ j₀ → mu j ≠ mu j₀)
    (hp : ∀ j x, truncnorm b ⟨fin x, k₁⟩ ⟨fin (mu j), k₂⟩ ⟨fin sigma, k₃⟩ ⟨fin hi, k₄⟩ ⟨fin lo, k₅⟩ =
      .ok (fin (p j x)))
    (hl : OrderedMeasurement like) (hD : MeasurableSet Det) :
    Recovers (volume.restrict (Ioo lo hi)) volume like Det p j₀ := by
  set g : J → ℝ → ℝ := fun j t => Real.exp (-(t - mu j) ^ 2 / (2 * sigma ^ 2)) with hg
  have hgc : ∀ j, Continuous (g j) := fun j => by
    simp only [hg]
    fun_prop
  have hI : ∀ j, 0 < ∫ t in lo..hi, g j t := fun j => integral_gaussShape_pos h
  have heq : ∀ j x, p j x = Spec.normalised (g j) lo hi x := by
    intro j x
    have h1 := hp j x
    rw [C03_truncnorm_value b k₁ k₂ k₃ k₄ k₅ x hs h] at h1
    exact (Fl.fin.inj (Except.ok.inj h1)).symm
  have hval : ∀ j, ∀ x ∈ Ioo lo hi, p j x = g j x / ∫ t in lo..hi, g j t := by
    intro j x hx
    rw [heq, Spec.normalised, if_pos ⟨hx.1.le, hx.2.le⟩]
  have hm : ∀ j, Measurable (p j) := fun j => by
    rw [show p j = fun x => if lo ≤ x ∧ x ≤ hi then g j x / ∫ t in lo..hi, g j t else 0 from
      funext fun x => by rw [heq, Spec.normalised]]
    exact Measurable.ite measurableSet_Icc ((hgc j).measurable.div_const _) measurable_const
  have hpos : ∀ j, ∀ x ∈ Ioo lo hi, 0 < p j x := fun j x hx => by
    rw [hval j x hx]
    exact div_pos (Real.exp_pos _) (hI j)
  have htilt : ∀ i j, mu i < mu j → TiltedUp lo hi (p i) (p j) := by
    intro i j hij
    refine tilted_of_ratio (r := fun x => Real.exp ((mu j - mu i) * x / sigma ^ 2)) (hpos i)
      (fun x _ y _ hxy => ?_) (Real.exp_pos _) h
      (k := (∫ t in lo..hi, g i t) / (∫ t in lo..hi, g j t) *
        Real.exp (-((mu j) ^ 2 - (mu i) ^ 2) / (2 * sigma ^ 2)))
      (mul_pos (div_pos (hI i) (hI j)) (Real.exp_pos _)) fun x hx => ?_
    · refine Real.exp_lt_exp.2 (div_lt_div_of_pos_right ?_ (by positivity))
      exact mul_lt_mul_of_pos_left hxy (by linarith)
    · rw [hval j x hx, hval i x hx]
      have e : g j x = Real.exp (-((mu j) ^ 2 - (mu i) ^ 2) / (2 * sigma ^ 2)) *
          Real.exp ((mu j - mu i) * x / sigma ^ 2) * g i x := by
        simp only [hg]
        rw [← Real.exp_add, ← Real.exp_add]
        congr 1
        field_simp
        ring
      have h1 := (hI i).ne'
      have h2 := (hI j).ne'
      rw [e]
      generalize (∫ t in lo..hi, g i t) = A at h1 ⊢
      generalize (∫ t in lo..hi, g j t) = B at h2 ⊢
      field_simp
  refine C158_tilted h hl hD (fun j => ⟨hm j, hpos j, ?_⟩) fun j hj => ?_
  · refine (IntegrableOn.congr_fun ?_ (fun x hx => (hval j x hx).symm) measurableSet_Ioo)
    exact (((hgc j).div_const _).continuousOn.integrableOn_Icc).mono_set Ioo_subset_Icc_self
  · rcases lt_or_gt_of_ne (hinj j hj) with k | k
    · exact Or.inr (htilt _ _ k)
    · exact Or.inl (htilt _ _ k)

/-- **C158** for the exponent of the power law in redshift. -/
theorem C158_redshift {J : Type} [Fintype J] {p : J → ℝ → ℝ} {available : Dict CosmoEntry} {zMax : ℝ}
    {name : String} {c : Cosmology} {s : Redshift} (hs : Redshift.powerLaw available zMax name = .ok s)
    (hc : available.get? name = some (.fixed c)) {v : ℝ → ℝ}
    (hv : ∀ z, 0 ≤ z → c.diffComovingVolume (fin z) = fin (v z)) (v_pos : ∀ z, 0 < z → 0 < v z) (v_zero : 0 ≤ v 0)
    (v_cont : ContinuousOn v (Icc 0 zMax)) (hz : 1e-6 < zMax) {lamb : J → ℝ} {j₀ : J}
    (hinj : ∀ j, j ≠ j₀ → lamb j ≠ lamb j₀) (hm : ∀ j, Measurable (p j))
    (hp : ∀ j z, 0 ≤ z → s.probability [("redshift", fin z)] [("lamb", fin (lamb j))] = .ok (fin (p j z)))
    (hl : OrderedMeasurement like) (hD : MeasurableSet Det) :
    Recovers (volume.restrict (Ioo 0 zMax)) volume like Det p j₀ := by
  have hz0 : 0 < zMax := by linarith
  have hr := fun j => rateAt_powerLaw hs hc hv v_pos v_zero (lamb j)
  have hN : ∀ j, ∃ N : ℝ, 0 < N ∧ ∀ z ∈ Ioo 0 zMax, p j z = (1 + z) ^ lamb j / (1 + z) * (4 * Real.pi * v z) / N := by
    intro j
    obtain ⟨hra, hzm⟩ := hr j
    obtain ⟨N, hN, h1, -, -⟩ := C31_probability hra (by rw [hzm]; exact hz)
    refine ⟨N, hN, fun z hzz => ?_⟩
    have h2 := h1 [("redshift", fin z)] z hzz.1.le (by simp [Dict.get?_cons])
    rw [hp j z hzz.1.le, hzm, if_pos hzz.2.le] at h2
    exact Fl.fin.inj (Except.ok.inj h2)
  choose N hN0 hval using hN
  have hpos : ∀ j, ∀ z ∈ Ioo 0 zMax, 0 < p j z := fun j z hzz => by
    have h1 : 0 < 1 + z := by linarith [hzz.1]
    have h2 := v_pos z hzz.1
    have h3 := hN0 j
    rw [hval j z hzz]
    positivity
  have htilt : ∀ i j, lamb i < lamb j → TiltedUp 0 zMax (p i) (p j) := by
    intro i j hij
    refine tilted_of_ratio (r := fun z => (1 + z) ^ (lamb j - lamb i)) (hpos i) (fun x hx y hy hxy => ?_)
      (by simp) hz0 (div_pos (hN0 i) (hN0 j)) fun z hzz => ?_
    · exact Real.rpow_lt_rpow (by linarith [hx.1]) (by linarith) (by linarith)
    · rw [hval i z hzz, hval j z hzz]
      have h1 : 0 < 1 + z := by linarith [hzz.1]
      have e : (1 + z) ^ lamb j = (1 + z) ^ (lamb j - lamb i) * (1 + z) ^ lamb i := by
        rw [← Real.rpow_add h1]
        congr 1
        ring
      have h2 := (hN0 i).ne'
      have h3 := (hN0 j).ne'
      rw [e]
      field_simp
  refine C158_tilted hz0 hl hD (fun j => ⟨hm j, hpos j, ?_⟩) fun j hj => ?_
  · refine (IntegrableOn.congr_fun ?_ (fun z hzz => (hval j z hzz).symm) measurableSet_Ioo)
    refine (ContinuousOn.integrableOn_Icc ?_).mono_set Ioo_subset_Icc_self
    have hne : ∀ z ∈ Icc (0 : ℝ) zMax, 1 + z ≠ 0 := fun z hzz => by linarith [hzz.1]
    have h1 : ContinuousOn (fun z : ℝ => 1 + z) (Icc 0 zMax) := by fun_prop
    exact (((h1.rpow_const fun z hzz => Or.inl (hne z hzz)).div h1 hne).mul (continuousOn_const.mul v_cont)).div_const _
  · rcases lt_or_gt_of_ne (hinj j hj) with k | k
    · exact Or.inr (htilt _ _ k)
    · exact Or.inl (htilt _ _ k)

/-! ## Non-vacuity -/

/-- Gaussian errors. -/
theorem gaussian_measurement {v : NNReal} (hv : v ≠ 0) : OrderedMeasurement fun d x => gaussianPDFReal x v d := by
  have hv0 : (0 : ℝ) < v := by positivity
  refine ⟨?_, fun d x => gaussianPDFReal_pos x v d hv, fun x => ?_, fun d => ?_, fun d d' x x' hd hx => ?_⟩
  · unfold gaussianPDFReal
    fun_prop
  · exact lintegral_gaussianPDFReal_eq_one x hv
  · refine ⟨(√(2 * Real.pi * v))⁻¹, fun x => ?_⟩
    unfold gaussianPDFReal
    refine mul_le_of_le_one_right (by positivity) (Real.exp_le_one_iff.2 ?_)
    exact div_nonpos_of_nonpos_of_nonneg (by nlinarith [sq_nonneg (d - x)]) (by positivity)
  · unfold gaussianPDFReal
    have hk : 0 < (√(2 * Real.pi * v))⁻¹ := by positivity
    set k := (√(2 * Real.pi * v))⁻¹
    have : Real.exp (-(d' - x) ^ 2 / (2 * v)) * Real.exp (-(d - x') ^ 2 / (2 * v)) <
        Real.exp (-(d - x) ^ 2 / (2 * v)) * Real.exp (-(d' - x') ^ 2 / (2 * v)) := by
      rw [← Real.exp_add, ← Real.exp_add, Real.exp_lt_exp, ← add_div, ← add_div]
      refine div_lt_div_of_pos_right ?_ (by positivity)
      nlinarith [mul_pos (sub_pos.2 hd) (sub_pos.2 hx)]
    have h2 := mul_lt_mul_of_pos_left this (mul_pos hk hk)
    linarith

/-- Detected events of a population exist. -/
theorem detected_exist {p : ℝ → ℝ} (h : lo < hi) (hl : OrderedMeasurement like) (hD : MeasurableSet Det)
    (hv : volume Det ≠ 0) (hp : PositiveDensity lo hi p) :
    ∃ (Ω : Type) (_ : MeasurableSpace Ω) (P : Measure Ω) (_ : IsProbabilityMeasure P) (d : ℕ → Ω → ℝ),
      DetectedEvents P (volume.restrict (Ioo lo hi)) volume like Det p d := by
  have hpop := population (Det := Det) h hl hp
  have hF := fraction_pos (survey hl hD) hpop hv
  have hprob : IsProbabilityMeasure ((volume.restrict Det).withDensity fun t =>
      ENNReal.ofReal (dataDensity (volume.restrict (Ioo lo hi)) like p t /
        detectedFraction (volume.restrict (Ioo lo hi)) volume like Det p)) := by
    refine ⟨?_⟩
    have hi' := integrable_density hpop
    rw [withDensity_apply _ MeasurableSet.univ, Measure.restrict_univ,
      ← ofReal_integral_eq_lintegral_ofReal (hi'.div_const _)
        (ae_of_all _ fun t => (div_pos (density_pos h hl hp t) hF).le), integral_div, ← fraction_eq hpop,
      div_self hF.ne', ENNReal.ofReal_one]
  obtain ⟨Ω, mΩ, P, d, hm, hlaw, hi, hP⟩ := exists_iid ℕ ((volume.restrict Det).withDensity fun t =>
      ENNReal.ofReal (dataDensity (volume.restrict (Ioo lo hi)) like p t /
        detectedFraction (volume.restrict (Ioo lo hi)) volume like Det p))
  exact ⟨Ω, mΩ, P, hP, d, hm, fun i => (hlaw i).map_eq, fun i j hij => hi.indepFun hij⟩

/-- For any data an analysis with the package exists, for all bounded populations at once. -/
theorem analysis_exist (planck15 : Cosmology) (h : lo < hi) (hl : OrderedMeasurement like) (hD : MeasurableSet Det)
    {n : ℕ} (data : Fin n → ℝ) (pop : Dict Fl → ℝ → ℝ) (hpm : ∀ φ, Measurable (pop φ))
    (hpb : ∀ φ, ∃ B, ∀ x, |pop φ x| ≤ B) :
    ∃ (Ω' : Type) (_ : MeasurableSpace Ω')
    (P' : Measure Ω') (_ : IsProbabilityMeasure P') (X : ℕ → Ω' → ℝ × ℝ) (vt : ℕ → Ω' → ResamplingVT)
    (Z : Fin n → ℝ) (Y : Fin n → ℕ → Ω' → ℝ) (L : ℕ → ℕ → Ω' → Likelihood),
    ∀ φ, Analysis P' (volume.restrict (Ioo lo hi)) volume like Det data (fun _ => 1 / (hi - lo)) X vt
      (fun _ _ => 1) Z Y L (pop φ) φ φ := by
  classical
  have hlen : 0 < hi - lo := by linarith
  have hone : PositiveDensity lo hi fun _ => 1 := ⟨measurable_const, fun _ _ => one_pos, by simp⟩
  have hli : ∀ d, IntegrableOn (like d) (Ioo lo hi) := fun d => by simpa using data_integrable hl hone d
  set Z : Fin n → ℝ := fun i => ∫ x in Ioo lo hi, like (data i) x with hZ
  have hZ0 : ∀ i, 0 < Z i := fun i => by simpa [dataDensity] using density_pos h hl hone (data i)
  set ν : Measure ℝ := volume.restrict (Ioo lo hi) with hν
  have hjoint : joint ν volume like univ = ENNReal.ofReal (hi - lo) := by
    rw [joint, withDensity_apply _ MeasurableSet.univ, Measure.restrict_univ,
      lintegral_prod _ hl.measurable.ennreal_ofReal.aemeasurable]
    simp only [hl.normalised]
    simp [hν]
  have hJ : IsFiniteMeasure (joint ν volume like) := ⟨by rw [hjoint]; exact ENNReal.ofReal_lt_top⟩
  let μX : Measure (ℝ × ℝ) := (joint ν volume like).withDensity fun _ => ENNReal.ofReal (1 / (hi - lo))
  let μY : Fin n → Measure ℝ := fun i => ν.withDensity fun x => ENNReal.ofReal (like (data i) x * 1 / Z i)
  let μ : ℕ ⊕ Fin n × ℕ → Measure (ℝ × ℝ) := fun i => match i with
    | .inl _ => μX
    | .inr j => (μY j.1).prod (Measure.dirac 0)
  have pX : IsProbabilityMeasure μX := by
    refine ⟨?_⟩
    simp only [μX]
    rw [withDensity_apply _ MeasurableSet.univ, Measure.restrict_univ, lintegral_const, hjoint,
      ← ENNReal.ofReal_mul (by positivity), one_div, inv_mul_cancel₀ hlen.ne', ENNReal.ofReal_one]
  have pY : ∀ i, IsProbabilityMeasure (μY i) := by
    intro i
    refine ⟨?_⟩
    simp only [μY, mul_one]
    rw [withDensity_apply _ MeasurableSet.univ, Measure.restrict_univ,
      ← ofReal_integral_eq_lintegral_ofReal ((hli (data i)).div_const _) (ae_of_all _ fun z =>
        div_nonneg (hl.pos _ _).le (hZ0 i).le), integral_div]
    change ENNReal.ofReal (Z i / Z i) = 1
    rw [div_self (hZ0 i).ne', ENNReal.ofReal_one]
  have hμ : ∀ i, IsProbabilityMeasure (μ i) := fun i => match i with
    | .inl _ => pX
    | .inr j => by have := pY j.1; exact inferInstanceAs (IsProbabilityMeasure ((μY j.1).prod _))
  obtain ⟨Ω, mΩ, P, W, hm, hlw, hind, hP⟩ := exists_hasLaw_indepFun (fun _ => ℝ × ℝ) μ
  set X : ℕ → Ω → ℝ × ℝ := fun i => W (.inl i) with hX
  set Y : Fin n → ℕ → Ω → ℝ := fun i k ω => (W (.inr (i, k)) ω).1 with hY
  have lX : ∀ i, P.map (X i) = μX := fun i => (hlw (.inl i)).map_eq
  have lY : ∀ i k, P.map (Y i k) = μY i := by
    intro i k
    have := pY i
    have h := (hlw (.inr (i, k))).map_eq
    rw [show Y i k = Prod.fst ∘ W (.inr (i, k)) from rfl, ← Measure.map_map measurable_fst (hm _), h]
    simp only [μ]
    rw [Measure.map_fst_prod]
    simp
  have iX : Pairwise fun i j => X i ⟂ᵢ[P] X j := fun i j hij =>
    hind.indepFun fun h => hij (Sum.inl.inj h)
  have iY : ∀ i, Pairwise fun k l => Y i k ⟂ᵢ[P] Y i l := fun i k l hkl =>
    (hind.indepFun (i := .inr (i, k)) (j := .inr (i, l)) fun h => hkl (by simpa using h)).comp
      measurable_fst measurable_fst
  have hvt : ∀ xs : List (ℝ × ℝ), ∃ vt : ResamplingVT,
      (∀ φ, BuiltFrom vt φ (fun z => pop φ z.1) (fun _ => 1 / (hi - lo)) (univ ×ˢ Det) xs) ∧
      vt.marginalizeUncertainty = false ∧ vt.enforceConvergence = false := by
    intro xs
    have hinit : ∃ r, ResamplingVT.init .numpy planck15
        ⟨[], fun _ φ => .ok ((found (univ ×ˢ Det) xs).map fun z => fin (pop φ z.1))⟩
        [("prior", .arr ((found (univ ×ˢ Det) xs).map fun _ => fin (1 / (hi - lo)))),
          ("total_generated", .num true (fin xs.length))] pinf false false = .ok r ∧
        r.1.marginalizeUncertainty = false ∧ r.1.enforceConvergence = false := by
      refine ⟨_, rfl, rfl, rfl⟩
    obtain ⟨⟨vt, d⟩, h, h1, h2⟩ := hinit
    refine ⟨vt, fun φ => ⟨_, _, _, _, _, _, _, _, h, rfl, ?_, true, ?_⟩, h1, h2⟩
    · simp [Dict.get?_cons]
    · simp [Dict.get?_cons]
  choose vt hvt using fun (N : ℕ) (ω : Ω) => hvt (firstN X N ω)
  let L : ℕ → ℕ → Ω → Likelihood := fun K N ω =>
    { cls := .hyper, backend := .numpy, data := []
      hyperPrior := ⟨[], fun _ φ =>
        .ok (matFin ((List.finRange n).map fun i => (firstN (Y i) K ω).map (pop φ)))⟩
      samplingPrior := some (matFin ((List.finRange n).map fun i => (firstN (Y i) K ω).map fun _ => 1))
      totalNoiseEvidence := 0, conversion := fun θ => .ok θ, selection := (vt N ω).asSelection
      nPosteriors := n, samplesPerPosterior := K, maximumUncertainty := pinf, maxVariance := pinf }
  have hsq : ∀ φ, ∃ B, ∀ x, |pop φ x ^ 2| ≤ B := fun φ => by
    obtain ⟨B, hB⟩ := hpb φ
    refine ⟨B ^ 2, fun x => ?_⟩
    rw [abs_pow]
    exact pow_le_pow_left₀ (abs_nonneg _) (hB x) 2
  have hjm : ∀ f : ℝ → ℝ, Measurable f → (∃ B, ∀ x, |f x| ≤ B) →
      Integrable (fun z : ℝ × ℝ => f z.1) (joint ν volume like) := fun f hf ⟨B, hB⟩ =>
    Integrable.of_bound (hf.comp measurable_fst).aestronglyMeasurable B (ae_of_all _ fun z => hB z.1)
  have hlm : ∀ (d : ℝ) (f : ℝ → ℝ), Measurable f → (∃ B, ∀ x, |f x| ≤ B) →
      Integrable (fun x => like d x * f x) ν := fun d f hf ⟨B, hB⟩ =>
    Integrable.mul_bdd (c := B) (hli d) hf.aestronglyMeasurable (ae_of_all _ hB)
  exact ⟨Ω, mΩ, P, hP, X, vt, Z, Y, L, fun φ =>
    { campaign := ⟨(hpm φ).comp measurable_fst, measurable_const, MeasurableSet.univ.prod hD,
        fun _ _ => by positivity, fun i => hm _, lX, (hjm _ (hpm φ) (hpb φ)).integrableOn⟩
      indep := iX
      finite := ((hjm _ ((hpm φ).pow_const 2) (hsq φ)).div_const _).integrableOn
      built := fun N _ ω => (hvt N ω).1 φ
      mode := .inl fun N ω => (hvt N ω).2
      samples := fun i => ⟨hpm φ, measurable_const, like_measurable hl _, fun _ => one_pos,
        fun x => (hl.pos _ x).le, hZ0 i, fun k => measurable_fst.comp (hm _), lY i, iY i,
        hlm _ _ (hpm φ) (hpb φ), (hlm _ _ ((hpm φ).pow_const 2) (hsq φ)).div_const _⟩
      likelihood := fun K N ω => ⟨rfl, rfl, rfl, rfl, rfl⟩
      conversion := fun _ _ _ => rfl
      selection := fun _ _ _ => rfl }⟩

/-- Two candidates for the index, 2.35 and 3, masses between 5 and 50 measured with an error of 1, and sources
detected if the measured mass is larger than 10. Events and analyses of both candidates exist. -/
example (planck15 : Cosmology) (py : Bool) : ∃ p : Bool → ℝ → ℝ, (∀ j, Measurable (p j)) ∧
    (∀ j m, 0 < m → powerLawMass .numpy py (fin m) (fin (if j then 2.35 else 3)) (fin 5) (fin 50) =
      .ok (fin (p j m))) ∧
    OrderedMeasurement (fun d x => gaussianPDFReal x 1 d) ∧
    (∃ (Ω : Type) (_ : MeasurableSpace Ω) (P : Measure Ω) (_ : IsProbabilityMeasure P) (d : ℕ → Ω → ℝ),
      DetectedEvents P (volume.restrict (Ioo 5 50)) volume (fun d x => gaussianPDFReal x 1 d) (Ioi 10) (p true) d) ∧
    (∀ (n : ℕ) (data : Fin n → ℝ), ∃ (Ω' : Type) (_ : MeasurableSpace Ω') (P' : Measure Ω')
      (_ : IsProbabilityMeasure P') (q : ℝ → ℝ) (X : ℕ → Ω' → ℝ × ℝ) (vt : ℕ → Ω' → ResamplingVT)
      (prior : Fin n → ℝ → ℝ) (Z : Fin n → ℝ) (Y : Fin n → ℕ → Ω' → ℝ) (L : ℕ → ℕ → Ω' → Likelihood)
      (θ : Bool → Dict Fl), ∀ j, Analysis P' (volume.restrict (Ioo 5 50)) volume (fun d x => gaussianPDFReal x 1 d)
        (Ioi 10) data q X vt prior Z Y L (p j) (θ j) (θ j)) ∧
    Recovers (volume.restrict (Ioo 5 50)) volume (fun d x => gaussianPDFReal x 1 d) (Ioi 10) p true := by
  classical
  have hl := gaussian_measurement (v := 1) one_ne_zero
  set a : Bool → ℝ := fun j => if j then 2.35 else 3 with ha
  have ha1 : ∀ j, a j ≠ -1 := fun j => by cases j <;> norm_num [ha]
  set p : Bool → ℝ → ℝ := fun j => Spec.normalised (fun t => t ^ (-a j)) 5 50 with hp
  have hpe : ∀ j x, p j x = if 5 ≤ x ∧ x ≤ 50 then x ^ (-a j) / ∫ t in (5 : ℝ)..50, t ^ (-a j) else 0 :=
    fun j x => by rw [hp]; rfl
  have hI : ∀ j, 0 < ∫ t in (5 : ℝ)..50, t ^ (-a j) := fun j => integral_rpow_pos (by norm_num) (by norm_num)
  have hm : ∀ j, Measurable (p j) := fun j => by
    rw [show p j = fun x => if 5 ≤ x ∧ x ≤ 50 then x ^ (-a j) / ∫ t in (5 : ℝ)..50, t ^ (-a j) else 0 from
      funext (hpe j)]
    exact Measurable.ite measurableSet_Icc ((measurable_id.pow_const _).div_const _) measurable_const
  have hv : ∀ j m, 0 < m → powerLawMass .numpy py (fin m) (fin (a j)) (fin 5) (fin 50) = .ok (fin (p j m)) :=
    fun j m h0 => C18_powerLawMass_value .numpy py (Or.inr (ha1 j)) (by norm_num) (by norm_num) h0
  have hb : ∀ j, ∃ B, ∀ x, |p j x| ≤ B := fun j => by
    refine ⟨1 / ∫ t in (5 : ℝ)..50, t ^ (-a j), fun x => ?_⟩
    rw [hpe]
    split_ifs with hx
    · have h0 : 0 ≤ x ^ (-a j) := Real.rpow_nonneg (by linarith [hx.1]) _
      rw [abs_of_nonneg (div_nonneg h0 (hI j).le)]
      refine div_le_div_of_nonneg_right (Real.rpow_le_one_of_one_le_of_nonpos (by linarith [hx.1]) ?_) (hI j).le
      cases j <;> norm_num [ha]
    · rw [abs_zero]
      exact (div_pos one_pos (hI j)).le
  have hpd : PositiveDensity 5 50 (p true) := by
    refine ⟨hm true, fun x hx => ?_, ?_⟩
    · rw [hpe, if_pos ⟨hx.1.le, hx.2.le⟩]
      exact div_pos (Real.rpow_pos_of_pos (by linarith [hx.1]) _) (hI true)
    · obtain ⟨B, hB⟩ := hb true
      exact Integrable.of_bound (hm true).aestronglyMeasurable B (ae_of_all _ hB)
  refine ⟨p, hm, hv, hl, detected_exist (by norm_num) hl measurableSet_Ioi (by simp) hpd, fun n data => ?_,
    C158_mass .numpy py (by norm_num) (by norm_num) (fun j => Or.inr (ha1 j)) (fun j hj => ?_) hm hv hl
      measurableSet_Ioi⟩
  · obtain ⟨Ω, mΩ, P, hP, X, vt, Z, Y, L, main⟩ := analysis_exist planck15 (by norm_num : (5 : ℝ) < 50) hl
      (measurableSet_Ioi (a := (10 : ℝ))) data (fun φ => if φ = [("alpha", fin 2.35)] then p true else p false)
      (fun φ => by split_ifs <;> exact hm _) (fun φ => by split_ifs <;> exact hb _)
    refine ⟨Ω, mΩ, P, hP, fun _ => 1 / (50 - 5), X, vt, fun _ _ => 1, Z, Y, L, fun j => [("alpha", fin (a j))],
      fun j => ?_⟩
    cases j
    · have h := main [("alpha", fin (a false))]
      rwa [if_neg (by norm_num [ha])] at h
    · have h := main [("alpha", fin (a true))]
      rwa [if_pos (by norm_num [ha])] at h
  · cases j
    · norm_num [ha]
    · exact absurd rfl hj

/-- Two candidates for the mean of a Gaussian between -1 and 1. -/
example (b : Backend) (hl : OrderedMeasurement like) (hD : MeasurableSet Det) :
    ∃ p : Bool → ℝ → ℝ,
    (∀ j x, truncnorm b ⟨fin x, false⟩ ⟨fin (if j then 0.1 else 0.2), true⟩ ⟨fin 0.3, true⟩ ⟨fin 1, true⟩
      ⟨fin (-1), true⟩ = .ok (fin (p j x))) ∧
    Recovers (volume.restrict (Ioo (-1) 1)) volume like Det p true := by
  obtain ⟨mu, hmu⟩ : ∃ mu : Bool → ℝ, mu = fun j => if j then 0.1 else 0.2 := ⟨_, rfl⟩
  have h : ∀ (j : Bool) (x : ℝ), ∃ y : ℝ, truncnorm b ⟨fin x, false⟩ ⟨fin (mu j), true⟩
      ⟨fin 0.3, true⟩ ⟨fin 1, true⟩ ⟨fin (-1), true⟩ = .ok (fin y) := fun j x =>
    ⟨_, C03_truncnorm_value b false true true true true x (by norm_num) (by norm_num)⟩
  choose p hp using h
  refine ⟨p, fun j x => by rw [← hp j x, hmu], C158_mean b false true true true true (by norm_num) (by norm_num)
    (fun j hj => ?_) hp hl hD⟩
  rw [hmu]
  cases j
  · norm_num
  · exact absurd rfl hj

/-- Two candidates for the exponent of the redshift model. -/
example (hl : OrderedMeasurement like) (hD : MeasurableSet Det) : ∃ (s : Redshift) (p : Bool → ℝ → ℝ),
    Redshift.powerLaw [("Planck15", .fixed toyCosmology)] 2.3 "Planck15" = .ok s ∧ (∀ j, Measurable (p j)) ∧
    (∀ j z, 0 ≤ z → s.probability [("redshift", fin z)] [("lamb", fin (if j then 2.7 else 3))] = .ok (fin (p j z))) ∧
    Recovers (volume.restrict (Ioo 0 2.3)) volume like Det p true := by
  obtain ⟨s, hs⟩ : ∃ s, Redshift.powerLaw [("Planck15", .fixed toyCosmology)] 2.3 "Planck15" = .ok s := ⟨_, rfl⟩
  have hg : Dict.get? [("Planck15", CosmoEntry.fixed toyCosmology)] "Planck15" = some (.fixed toyCosmology) := by
    simp [Dict.get?_cons]
  have hr := fun j : Bool => rateAt_powerLaw hs hg (v := fun z => z * z) (fun z _ => by simp [toyCosmology])
    (fun z hz => by positivity) (by norm_num) (if j then 2.7 else 3)
  have hN : ∀ j : Bool, ∃ N : ℝ, ∀ z, 0 ≤ z →
      s.probability [("redshift", fin z)] [("lamb", fin (if j then 2.7 else 3))] = .ok (fin (if z ≤ 2.3 then
        volumeElement (fun z => (1 + z) ^ (if j then 2.7 else 3 : ℝ)) (fun z => z * z) z / N else 0)) := fun j => by
    obtain ⟨hra, hzm⟩ := hr j
    obtain ⟨N, -, h1, -, -⟩ := C31_probability hra (by rw [hzm]; norm_num)
    rw [hzm] at h1
    exact ⟨N, fun z hz => h1 _ z hz (by simp [Dict.get?_cons])⟩
  choose N hN using hN
  have hm : ∀ j : Bool, Measurable fun z : ℝ => if z ≤ 2.3 then
      volumeElement (fun z => (1 + z) ^ (if j then 2.7 else 3 : ℝ)) (fun z => z * z) z / N j else 0 := fun j => by
    refine Measurable.ite measurableSet_Iic ?_ measurable_const
    unfold volumeElement
    fun_prop
  refine ⟨s, _, hs, hm, hN, C158_redshift hs hg (v := fun z => z * z) (fun z _ => by simp [toyCosmology])
    (fun z hz => by positivity) (by norm_num) (by fun_prop) (by norm_num)
    (lamb := fun j => if j then 2.7 else 3) (fun j hj => ?_) hm hN hl hD⟩
  cases j
  · norm_num
  · exact absurd rfl hj

end GW
