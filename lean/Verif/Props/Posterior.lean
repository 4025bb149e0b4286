import Verif.Props.TruePopulation

/-!
# C147: with enough events the posterior is concentrated on the true population
-/

noncomputable section

open MeasureTheory ProbabilityTheory Filter Topology Classical

namespace GW

open Fl Spec TruePopulation

variable {S T Ω J : Type} [MeasurableSpace S] [MeasurableSpace T] [MeasurableSpace Ω] [Fintype J]
variable {P : Measure Ω} {ν : Measure S} {η : Measure T} {like : T → S → ℝ} {Det : Set T}
variable {p : J → S → ℝ}

/-! ## Specification -/

/-- Bayes' theorem: the posterior probability of candidate `j`, for prior weights `w` and log-likelihoods `l`. -/
def Spec.posteriorOf (w l : J → ℝ) (j : J) : ℝ := w j * Real.exp (l j) / ∑ k, w k * Real.exp (l k)

/-! ## Lemmas -/

namespace Posterior

theorem total_pos {w : J → ℝ} (hw : ∀ j, 0 < w j) (j₀ : J) (l : J → ℝ) :
    0 < ∑ k, w k * Real.exp (l k) :=
  Finset.sum_pos (fun k _ => mul_pos (hw k) (Real.exp_pos _)) ⟨j₀, Finset.mem_univ _⟩

/-- The weight of the other candidates relative to `j₀`. -/
def others (w l : J → ℝ) (j₀ : J) : ℝ :=
  ∑ k ∈ Finset.univ.erase j₀, w k / w j₀ * Real.exp (l k - l j₀)

theorem posterior_eq {w : J → ℝ} (hw : ∀ j, 0 < w j) (l : J → ℝ) (j₀ : J) :
    posteriorOf w l j₀ = 1 / (1 + others w l j₀) := by
  have h0 := hw j₀
  have he := Real.exp_pos (l j₀)
  have hs : ∑ k, w k * Real.exp (l k) = w j₀ * Real.exp (l j₀) * (1 + others w l j₀) := by
    rw [← Finset.add_sum_erase _ _ (Finset.mem_univ j₀), mul_add, mul_one, others, Finset.mul_sum]
    congr 1
    refine Finset.sum_congr rfl fun k _ => ?_
    rw [Real.exp_sub]
    field_simp
  unfold posteriorOf
  rw [hs, div_mul_eq_div_div, div_self (mul_pos h0 he).ne']

theorem others_nonneg {w : J → ℝ} (hw : ∀ j, 0 < w j) (l : J → ℝ) (j₀ : J) : 0 ≤ others w l j₀ :=
  Finset.sum_nonneg fun k _ => mul_nonneg (div_nonneg (hw k).le (hw j₀).le) (Real.exp_pos _).le

theorem lt_posterior {w : J → ℝ} (hw : ∀ j, 0 < w j) {l : J → ℝ} {j₀ : J} {ε : ℝ} (hε : 0 < ε)
    (h : others w l j₀ < ε) : 1 - ε < posteriorOf w l j₀ := by
  have h0 := others_nonneg hw l j₀
  rw [posterior_eq hw, lt_div_iff₀ (by linarith)]
  nlinarith

theorem continuous_posterior {w : J → ℝ} (hw : ∀ j, 0 < w j) (j₀ : J) :
    Continuous fun l : J → ℝ => posteriorOf w l j₀ := by
  unfold posteriorOf
  refine Continuous.div ?_ ?_ fun l => (total_pos hw j₀ l).ne'
  · exact continuous_const.mul (Real.continuous_exp.comp (continuous_apply _))
  · exact continuous_finsetSum _ fun k _ =>
      continuous_const.mul (Real.continuous_exp.comp (continuous_apply _))

variable [SFinite ν] [SFinite η] {p₀ p₁ : S → ℝ}

/-- The accumulated gain of another population tends to minus infinity. -/
theorem gain_atBot [IsProbabilityMeasure P] (hs : Survey like Det) (h₀ : Population ν η like Det p₀)
    (h₁ : Population ν η like Det p₁) (hc : Comparable ν η like Det p₀ p₁)
    (hne : ¬ SameData ν η like Det p₀ p₁) {d : ℕ → Ω → T} (hd : DetectedEvents P ν η like Det p₀ d) :
    ∀ᵐ ω ∂P, Tendsto (fun n => ∑ i ∈ Finset.range n, gain ν η like Det p₀ p₁ (d i ω)) atTop atBot := by
  have hm := gain_measurable hs h₀ h₁
  have hid : ∀ i, IdentDistrib (fun ω => gain ν η like Det p₀ p₁ (d i ω))
      (fun ω => gain ν η like Det p₀ p₁ (d 0 ω)) P P := by
    intro i
    have : IdentDistrib (d i) (d 0) P P :=
      ⟨(hd.measurable i).aemeasurable, (hd.measurable 0).aemeasurable, by rw [hd.law i, hd.law 0]⟩
    exact this.comp hm
  have hg := gain_mean hs h₀ h₁ hc hd 0
  have l := strong_law_ae_real (fun i ω => gain ν η like Det p₀ p₁ (d i ω)) hg.1
    (fun i j hij => (hd.indep hij).comp hm hm) hid
  filter_upwards [l] with ω k
  have hneg := hg.2.2 hne
  have h1 := Tendsto.atTop_mul_neg hneg tendsto_natCast_atTop_atTop k
  refine h1.congr' ?_
  filter_upwards [eventually_gt_atTop 0] with n hn
  have : (n : ℝ) ≠ 0 := by exact_mod_cast hn.ne'
  field_simp

end Posterior

open Posterior

/-! ## The property -/

variable [SFinite ν] [SFinite η]

/-- **C147** for the exact likelihood. -/
theorem C147_exact [IsProbabilityMeasure P] (hs : Survey like Det) (hp : ∀ j, Population ν η like Det (p j))
    {j₀ : J} (hc : ∀ j, j ≠ j₀ → Comparable ν η like Det (p j₀) (p j))
    (hne : ∀ j, j ≠ j₀ → ¬ SameData ν η like Det (p j₀) (p j)) {d : ℕ → Ω → T}
    (hd : DetectedEvents P ν η like Det (p j₀) d) {w : J → ℝ} (hw : ∀ j, 0 < w j) :
    ∀ᵐ ω ∂P, ∀ ε > 0, ∃ n₀, ∀ n ≥ n₀, ∀ Z : Fin n → ℝ, (∀ i, 0 < Z i) →
      1 - ε < posteriorOf w (fun j => catalogueLnLikelihood ν η like Det (fun i => d i ω) Z (p j)) j₀ := by
  have hD := detectable_of_events hd
  have hall : ∀ᵐ ω ∂P, ∀ j, j ≠ j₀ → Tendsto (fun n => ∑ i ∈ Finset.range n,
      gain ν η like Det (p j₀) (p j) (d i ω)) atTop atBot := by
    refine ae_all_iff.2 fun j => ?_
    by_cases hj : j = j₀
    · exact ae_of_all _ fun _ h => absurd hj h
    · filter_upwards [gain_atBot hs (hp j₀) (hp j) (hc j hj) (hne j hj) hd] with ω h _
      exact h
  filter_upwards [hall, events_mem hs hd] with ω h hmem ε hε
  have ht : Tendsto (fun n => ∑ k ∈ Finset.univ.erase j₀, w k / w j₀ * Real.exp
      (∑ i ∈ Finset.range n, gain ν η like Det (p j₀) (p k) (d i ω))) atTop (𝓝 0) := by
    have : ∀ k ∈ Finset.univ.erase j₀, Tendsto (fun n => w k / w j₀ * Real.exp
        (∑ i ∈ Finset.range n, gain ν η like Det (p j₀) (p k) (d i ω))) atTop (𝓝 0) := by
      intro k hk
      have := (Real.tendsto_exp_atBot.comp (h k (Finset.ne_of_mem_erase hk))).const_mul (w k / w j₀)
      simpa using this
    simpa using tendsto_finsetSum _ this
  obtain ⟨n₀, hn₀⟩ := eventually_atTop.1 (ht.eventually (gt_mem_nhds hε))
  refine ⟨n₀, fun n hn Z hZ => lt_posterior hw hε ?_⟩
  refine lt_of_eq_of_lt (Finset.sum_congr rfl fun k _ => ?_) (hn₀ n hn)
  rw [difference hs (hp j₀) (hp k) hD (fun i : Fin n => d i ω) (fun i => hmem i) Z hZ,
    Fin.sum_univ_eq_sum_range fun i => gain ν η like Det (p j₀) (p k) (d i ω)]

/-- **C147.** Candidates for the hyper-parameters `θ j` describe the populations `p j`, whose detected data
differ; events are detected from the population `p j₀`. Almost surely, for every `ε > 0`, from some number of
events on, the posterior computed with the log-likelihoods of the package gives `θ j₀` a probability larger than
`1 - ε`, if the number of posterior samples and the number of injections are large enough. -/
theorem C147_posterior [IsProbabilityMeasure P] (hs : Survey like Det)
    (hp : ∀ j, Population ν η like Det (p j)) {j₀ : J}
    (hc : ∀ j, j ≠ j₀ → Comparable ν η like Det (p j₀) (p j))
    (hne : ∀ j, j ≠ j₀ → ¬ SameData ν η like Det (p j₀) (p j)) {d : ℕ → Ω → T}
    (hd : DetectedEvents P ν η like Det (p j₀) d) {w : J → ℝ} (hw : ∀ j, 0 < w j) :
    ∀ᵐ ω ∂P, ∀ ε > 0, ∃ n₀, ∀ n ≥ n₀, ∀ (Ω' : Type) (_ : MeasurableSpace Ω') (P' : Measure Ω')
      (_ : IsProbabilityMeasure P') (q : S → ℝ) (X : ℕ → Ω' → S × T) (vt : ℕ → Ω' → ResamplingVT)
      (prior : Fin n → S → ℝ) (Z : Fin n → ℝ) (Y : Fin n → ℕ → Ω' → S) (L : ℕ → ℕ → Ω' → Likelihood)
      (θ φ : J → Dict Fl),
      (∀ j, Analysis P' ν η like Det (fun i => d i ω) q X vt prior Z Y L (p j) (θ j) (φ j)) →
      ∀ᵐ ω' ∂P', ∀ᶠ KN in atTop ×ˢ atTop, ∃ l v : J → ℝ,
        (∀ j, (L KN.1 KN.2 ω').lnLikelihoodAndVariance (θ j) = .ok (fin (l j), fin (v j))) ∧
        1 - ε < posteriorOf w l j₀ := by
  have hD := detectable_of_events hd
  filter_upwards [C147_exact hs hp hc hne hd hw, events_mem hs hd] with ω h hmem ε hε
  obtain ⟨n₀, hn₀⟩ := h ε hε
  refine ⟨n₀, fun n hn Ω' mΩ' P' hP' q X vt prior Z Y L θ φ a => ?_⟩
  have hlt := hn₀ n hn Z fun i => ((a j₀).samples i).evidence_pos
  filter_upwards [ae_all_iff.2 fun j => C142_limit hs (hp j) hD (fun i => hmem i) (a j)] with ω' h'
  choose l v e t _ using h'
  have hl : Tendsto (fun KN => fun j => l j KN) (atTop ×ˢ atTop)
      (𝓝 fun j => catalogueLnLikelihood ν η like Det (fun i => d i ω) Z (p j)) := tendsto_pi_nhds.2 t
  have hpost := ((continuous_posterior hw j₀).tendsto _).comp hl
  filter_upwards [eventually_all.2 e, hpost.eventually (lt_mem_nhds hlt)] with KN k₀ k
  exact ⟨fun j => l j KN, fun j => v j KN, k₀, k⟩

/-! ## Non-vacuity -/

/-- Two candidates (`true` for the true population) of the test survey of C142. -/
example : ∃ (Ω : Type) (_ : MeasurableSpace Ω) (P : Measure Ω) (_ : IsProbabilityMeasure P)
    (d : ℕ → Ω → Fin 3) (p : Bool → Bool → ℝ),
    DetectedEvents P Measure.count Measure.count coinLike coinDet (p true) d ∧
    (∀ j, Population Measure.count Measure.count coinLike coinDet (p j)) ∧
    (∀ j, j ≠ true → Comparable Measure.count Measure.count coinLike coinDet (p true) (p j)) ∧
    ∀ j, j ≠ true → ¬ SameData Measure.count Measure.count coinLike coinDet (p true) (p j) := by
  have hp := coin_data
  obtain ⟨Ω, mΩ, P, d, hm, hl, hi, hP⟩ := exists_iid ℕ coinData
  refine ⟨Ω, mΩ, P, hP, d, fun j => if j then coinTrue else coinOther,
    ⟨hm, fun i => (hl i).map_eq, fun i j hij => hi.indepFun hij⟩, fun j => ?_, fun j _ => .of_finite,
    fun j hj => ?_⟩
  · cases j
    · exact coin_population fun x => by simp only [Bool.false_eq_true, if_false]; unfold coinOther; split_ifs <;> norm_num
    · exact coin_population fun x => by norm_num [coinTrue]
  · cases j
    · exact coin_differ
    · exact absurd rfl hj

/-- Analyses of both candidates at once exist for all detected data. -/
example (planck15 : Cosmology) {n : ℕ} (data : Fin n → Fin 3) : ∃ (Ω' : Type) (_ : MeasurableSpace Ω')
    (P' : Measure Ω') (_ : IsProbabilityMeasure P') (X : ℕ → Ω' → Bool × Fin 3) (vt : ℕ → Ω' → ResamplingVT)
    (Z : Fin n → ℝ) (Y : Fin n → ℕ → Ω' → Bool) (L : ℕ → ℕ → Ω' → Likelihood) (θ : Bool → Dict Fl),
    ∀ j, Analysis P' Measure.count Measure.count coinLike coinDet data (fun _ => 1 / 2) X vt (fun _ _ => 1) Z Y L
      (if j then coinTrue else coinOther) (θ j) (θ j) := by
  obtain ⟨Ω, mΩ, P, hP, X, vt, Z, Y, L, main⟩ := coin_analysis planck15 data
    fun φ => if φ = [("a", fin 0)] then coinTrue else coinOther
  refine ⟨Ω, mΩ, P, hP, X, vt, Z, Y, L, fun j => if j then [("a", fin 0)] else [("a", fin 1)], fun j => ?_⟩
  cases j
  · have := main [("a", fin 1)]
    rwa [if_neg (by simp)] at this
  · have := main [("a", fin 0)]
    rwa [if_pos rfl] at this

end GW
