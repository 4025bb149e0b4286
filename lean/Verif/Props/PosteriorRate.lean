import Verif.Props.Posterior
import Verif.Props.TrueRate

/-!
# C149: with a long enough observation the posterior is concentrated on the true rate and population
-/

noncomputable section

open MeasureTheory ProbabilityTheory Filter Topology Classical

namespace GW

open Fl Spec TruePopulation TrueRate Posterior

variable {S T Ω J : Type} [MeasurableSpace S] [MeasurableSpace T] [MeasurableSpace Ω] [Fintype J]
variable {P : Measure Ω} {ν : Measure S} {η : Measure T} {like : T → S → ℝ} {Det : Set T}
variable {p : J → S → ℝ} {R : J → ℝ} [SFinite ν] [SFinite η]

/-! ## Specification -/

/-- Two pairs of a rate and a population can be told apart: the data of detected events have different distributions or
the mean numbers of detected events differ. -/
def Spec.Distinguishable (ν : Measure S) (η : Measure T) (like : T → S → ℝ) (Det : Set T) (p₀ p₁ : S → ℝ)
    (R₀ R₁ : ℝ) : Prop :=
  ¬ SameData ν η like Det p₀ p₁ ∨
    R₁ * detectedFraction ν η like Det p₁ ≠ R₀ * detectedFraction ν η like Det p₀

/-! ## The property -/

theorem Posterior.others_lt {w : J → ℝ} (hw : ∀ j, 0 < w j) {ε : ℝ} (hε : 0 < ε) (j₀ : J) :
    ∃ B : ℝ, ∀ l : J → ℝ, (∀ j, j ≠ j₀ → l j + B < l j₀) → others w l j₀ < ε := by
  set W := ∑ k ∈ Finset.univ.erase j₀, w k / w j₀ with hW
  have hW0 : 0 ≤ W := Finset.sum_nonneg fun k _ => (div_pos (hw k) (hw j₀)).le
  have hq : 0 < (W + 1) / ε := by positivity
  refine ⟨Real.log ((W + 1) / ε), fun l hl => ?_⟩
  have hexp : Real.exp (-Real.log ((W + 1) / ε)) = ε / (W + 1) := by
    rw [Real.exp_neg, Real.exp_log hq, inv_div]
  have h1 : others w l j₀ ≤ W * (ε / (W + 1)) := by
    rw [hW, Finset.sum_mul]
    refine Finset.sum_le_sum fun k hk => mul_le_mul_of_nonneg_left ?_ (div_pos (hw k) (hw j₀)).le
    rw [← hexp]
    exact Real.exp_le_exp.2 (by linarith [hl k (Finset.ne_of_mem_erase hk)])
  have h2 : W * (ε / (W + 1)) < ε := by
    rw [mul_div_assoc', div_lt_iff₀ (by linarith)]
    nlinarith
  exact h1.trans_lt h2

/-- **C149** for the exact likelihood. -/
theorem C149_exact [IsProbabilityMeasure P] (hs : Survey like Det) (hp : ∀ j, Population ν η like Det (p j))
    (hR : ∀ j, 0 < R j) {j₀ : J} (hc : ∀ j, j ≠ j₀ → Comparable ν η like Det (p j₀) (p j))
    (hne : ∀ j, j ≠ j₀ → Distinguishable ν η like Det (p j₀) (p j) (R j₀) (R j)) {d : ℕ → Ω → T}
    (hd : DetectedEvents P ν η like Det (p j₀) d) {t : ℕ → ℝ} (ht : Tendsto t atTop atTop) {n : ℕ → Ω → ℕ}
    (hn : ∀ᵐ ω ∂P, Tendsto (fun k => n k ω / t k) atTop (𝓝 (R j₀ * detectedFraction ν η like Det (p j₀))))
    {w : J → ℝ} (hw : ∀ j, 0 < w j) :
    ∀ᵐ ω ∂P, ∀ ε > 0, ∀ᶠ k in atTop, ∀ Z : Fin (n k ω) → ℝ, (∀ i, 0 < Z i) →
      1 - ε < posteriorOf w
        (fun j => catalogueLnRate ν η like Det (fun i => d i ω) Z (p j) (R j * t k)) j₀ := by
  have hall : ∀ᵐ ω ∂P, ∀ j, j ≠ j₀ → ∀ B : ℝ, ∀ᶠ k in atTop, ∀ Z : Fin (n k ω) → ℝ, (∀ i, 0 < Z i) →
      catalogueLnRate ν η like Det (fun i => d i ω) Z (p j) (R j * t k) + B <
        catalogueLnRate ν η like Det (fun i => d i ω) Z (p j₀) (R j₀ * t k) := by
    refine ae_all_iff.2 fun j => ?_
    by_cases hj : j = j₀
    · exact ae_of_all _ fun _ h => absurd hj h
    · filter_upwards [excess_atTop hs (hp j₀) (hp j) (hc j hj) hd (hR j₀) (hR j) ht hn (hne j hj)] with ω h _
      exact h
  filter_upwards [hall] with ω h ε hε
  obtain ⟨B, hB⟩ := others_lt hw hε j₀
  have : ∀ᶠ k in atTop, ∀ j, j ≠ j₀ → ∀ Z : Fin (n k ω) → ℝ, (∀ i, 0 < Z i) →
      catalogueLnRate ν η like Det (fun i => d i ω) Z (p j) (R j * t k) + B <
        catalogueLnRate ν η like Det (fun i => d i ω) Z (p j₀) (R j₀ * t k) := by
    refine eventually_all.2 fun j => ?_
    by_cases hj : j = j₀
    · exact Eventually.of_forall fun _ h => absurd hj h
    · filter_upwards [h j hj B] with k hk _
      exact hk
  filter_upwards [this] with k hk Z hZ
  exact lt_posterior hw hε (hB _ fun j hj => hk j hj Z hZ)

/-- **C149.** Candidates for the hyper-parameters `θ j` describe the populations `p j` and the rates `R j`; the events
are those of candidate `j₀`, detected in observations of exposure `t k`. Almost surely, for every `ε > 0`, from some
exposure on, the posterior computed with the log-likelihoods of `RateLikelihood` gives candidate `j₀` a probability
larger than `1 - ε`, if the number of posterior samples and the number of injections are large enough. -/
theorem C149_posterior [IsProbabilityMeasure P] (hs : Survey like Det) (hp : ∀ j, Population ν η like Det (p j))
    (hR : ∀ j, 0 < R j) {j₀ : J} (hc : ∀ j, j ≠ j₀ → Comparable ν η like Det (p j₀) (p j))
    (hne : ∀ j, j ≠ j₀ → Distinguishable ν η like Det (p j₀) (p j) (R j₀) (R j)) {d : ℕ → Ω → T}
    (hd : DetectedEvents P ν η like Det (p j₀) d) {t : ℕ → ℝ} (ht : Tendsto t atTop atTop) {n : ℕ → Ω → ℕ}
    (hn : ∀ᵐ ω ∂P, Tendsto (fun k => n k ω / t k) atTop (𝓝 (R j₀ * detectedFraction ν η like Det (p j₀))))
    {w : J → ℝ} (hw : ∀ j, 0 < w j) :
    ∀ᵐ ω ∂P, ∀ ε > 0, ∀ᶠ k in atTop, ∀ (Ω' : Type) (_ : MeasurableSpace Ω') (P' : Measure Ω')
      (_ : IsProbabilityMeasure P') (q : S → ℝ) (X : ℕ → Ω' → S × T) (vt : ℕ → Ω' → ResamplingVT)
      (prior : Fin (n k ω) → S → ℝ) (Z : Fin (n k ω) → ℝ) (Y : Fin (n k ω) → ℕ → Ω' → S)
      (L : ℕ → ℕ → Ω' → Likelihood) (θ φ : J → Dict Fl),
      (∀ j, RateAnalysis P' ν η like Det (fun i => d i ω) q X vt prior Z Y L (p j) (R j * t k) (θ j) (φ j)) →
      ∀ᵐ ω' ∂P', ∀ᶠ KN in atTop ×ˢ atTop, ∃ l v : J → ℝ,
        (∀ j, (L KN.1 KN.2 ω').lnLikelihoodAndVariance (θ j) = .ok (fin (l j), fin (v j))) ∧
        1 - ε < posteriorOf w l j₀ := by
  have hD := detectable_of_events hd
  filter_upwards [C149_exact hs hp hR hc hne hd ht hn hw, events_mem hs hd] with ω h hmem ε hε
  filter_upwards [h ε hε, ht.eventually_gt_atTop 0] with k hk htk Ω' mΩ' P' hP' q X vt prior Z Y L θ φ a
  have hlt := hk Z fun i => ((a j₀).analysis.samples i).evidence_pos
  filter_upwards [ae_all_iff.2 fun j => C144_limit hs (hp j) hD (fun i => hmem i) (mul_pos (hR j) htk) (a j)]
    with ω' h'
  choose l v e t' using h'
  have hl : Tendsto (fun KN => fun j => l j KN) (atTop ×ˢ atTop)
      (𝓝 fun j => catalogueLnRate ν η like Det (fun i => d i ω) Z (p j) (R j * t k)) := tendsto_pi_nhds.2 t'
  have hpost := ((continuous_posterior hw j₀).tendsto _).comp hl
  filter_upwards [eventually_all.2 e, hpost.eventually (lt_mem_nhds hlt)] with KN k₀ k
  exact ⟨fun j => l j KN, fun j => v j KN, k₀, k⟩

/-- The rate of a known population: candidates with the same population and different rates can be told apart. -/
theorem C149_rate_known {p₀ : S → ℝ} (hs : Survey like Det) (hp : Population ν η like Det p₀) (hD : η Det ≠ 0)
    {R₀ R₁ : ℝ} (hne : R₁ ≠ R₀) : Distinguishable ν η like Det p₀ p₀ R₀ R₁ :=
  .inr fun h => hne (mul_right_cancel₀ (fraction_pos hs hp hD).ne' h)

/-! ## Non-vacuity -/

/-- Three candidates of the test survey: the true one, the true population with another rate, another population. -/
example : ∃ (Ω : Type) (_ : MeasurableSpace Ω) (P : Measure Ω) (_ : IsProbabilityMeasure P)
    (d : ℕ → Ω → Fin 3) (p : Fin 3 → Bool → ℝ) (R : Fin 3 → ℝ) (t : ℕ → ℝ) (n : ℕ → Ω → ℕ),
    Survey coinLike coinDet ∧
    (∀ j, Population Measure.count Measure.count coinLike coinDet (p j)) ∧ (∀ j, 0 < R j) ∧
    (∀ j, j ≠ 0 → Comparable Measure.count Measure.count coinLike coinDet (p 0) (p j)) ∧
    (∀ j, j ≠ 0 → Distinguishable Measure.count Measure.count coinLike coinDet (p 0) (p j) (R 0) (R j)) ∧
    DetectedEvents P Measure.count Measure.count coinLike coinDet (p 0) d ∧ Tendsto t atTop atTop ∧
    ∀ᵐ ω ∂P, Tendsto (fun k => n k ω / t k) atTop
      (𝓝 (R 0 * detectedFraction Measure.count Measure.count coinLike coinDet (p 0))) := by
  obtain ⟨Ω, mΩ, P, hP, d, c, h1, h2, h3⟩ := coin_observation (R := 7) (by norm_num)
  have pt : Population Measure.count Measure.count coinLike coinDet coinTrue :=
    coin_population fun x => by norm_num [coinTrue]
  have po : Population Measure.count Measure.count coinLike coinDet coinOther :=
    coin_population fun x => by unfold coinOther; split_ifs <;> norm_num
  refine ⟨Ω, mΩ, P, hP, d, ![coinTrue, coinTrue, coinOther], ![7, 9, 7], _, _, coin_survey, ?_, ?_, ?_, ?_, h1,
    tendsto_natCast_atTop_atTop, h3⟩
  · intro j
    fin_cases j <;> assumption
  · intro j
    fin_cases j <;> norm_num
  · intro j _
    exact .of_finite
  · intro j hj
    fin_cases j
    · exact absurd rfl hj
    · exact C149_rate_known coin_survey pt (detectable_of_events h1) (by norm_num)
    · exact .inl coin_differ

end GW
