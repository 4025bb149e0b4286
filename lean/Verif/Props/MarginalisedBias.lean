import Verif.Props.SelectionBias

/-!
# C137: `marginalize_uncertainty` and the bias of the likelihood

The documentation leaves open whether the uncertainty-marginalised factor is correct (`vt.py:131-134`). Here: what
it does to the mean of the likelihood over random injections, which without it is too large (C136).
-/

noncomputable section

open MeasureTheory ProbabilityTheory Classical

namespace GW

open Fl Spec SelectionBias

/-! ## Specification -/

/-- The same selection function with `marginalize_uncertainty = True`. -/
def Spec.marginalised (vt : ResamplingVT) : ResamplingVT := { vt with marginalizeUncertainty := true }

/-- Every draw of the injections has a positive variance and passes the check of convergence for `n` events. -/
def Spec.AllConverged {Ω : Type} (vt : Ω → ResamplingVT) (φ : Dict Fl) (n : ℝ) : Prop :=
  ∀ ω, (vt ω).nEvents = fin n ∧ ∃ mu var : ℝ, (vt ω).detectionEfficiency φ = .ok (fin mu, fin var) ∧
    0 < var ∧ 4 * n * var < mu ^ 2

/-- **C137** as a user might state it: the mean of the likelihood over the injections is not further from the
likelihood with the true found fraction if the uncertainty is marginalised over. -/
def C137_statement : Prop :=
  ∀ (S Ω : Type) (_ : MeasurableSpace S) (_ : MeasurableSpace Ω) (P : Measure Ω) (ν : Measure S)
    (p q : S → ℝ) (D : Set S) (X : ℕ → Ω → S) (N : ℕ) (vt : Ω → ResamplingVT) (L : Likelihood) (θ φ : Dict Fl)
    (W : List (List ℝ)) (n : ℝ) (ℓ ℓ' : Ω → ℝ), IsProbabilityMeasure P → GivenEvents P ν p q D X N vt L θ φ W →
    n = W.length → AllConverged vt φ n →
    LogLikelihoods L vt θ ℓ → LogLikelihoods L (fun ω => marginalised (vt ω)) θ ℓ' →
    Integrable (fun ω => Real.exp (ℓ ω)) P → Integrable (fun ω => Real.exp (ℓ' ω)) P →
    |∫ ω, Real.exp (ℓ' ω) ∂P - likelihoodGiven W (∫ x in D, p x ∂ν)| ≤
      |∫ ω, Real.exp (ℓ ω) ∂P - likelihoodGiven W (∫ x in D, p x ∂ν)|

/-! ## The marginalised likelihood -/

section

variable {S Ω : Type} [MeasurableSpace S] [MeasurableSpace Ω] {P : Measure Ω} {ν : Measure S}
  {p q : S → ℝ} {D : Set S} {X : ℕ → Ω → S} {N : ℕ} {vt : Ω → ResamplingVT} {L : Likelihood} {θ φ : Dict Fl}
  {W : List (List ℝ)}

theorem SelectionBias.marginalised_value (h : GivenEvents P ν p q D X N vt L θ φ W) {n : ℝ} (hn : 0 ≤ n)
    (hc : AllConverged vt φ n) (ω : Ω) :
    ∃ var : ℝ, (vt ω).detectionEfficiency φ = .ok (fin (estimate p q D X N ω), fin var) ∧ 0 < var ∧ ∃ v,
      { L with selection := (marginalised (vt ω)).asSelection }.lnLikelihoodAndVariance θ =
        .ok (fin (lnLikelihood W (estimate p q D X N ω) +
          W.length * ((3 + n) / 2 * (var / estimate p q D X N ω ^ 2))), v) := by
  obtain ⟨hne, mu, var, he, hv, hcv⟩ := hc ω
  obtain ⟨v0, he0⟩ := efficiency h ω
  have hmu : mu = estimate p q D X N ω := by
    have := he.symm.trans he0
    simp only [Except.ok.injEq, Prod.mk.injEq, fin_inj] at this
    exact this.1
  subst hmu
  have hm0 := estimate_pos h ω
  refine ⟨var, he, hv, ?_⟩
  have hf := C43_factor_partial (self := marginalised (vt ω)) (parameters := φ) rfl hne hn hm0 (.inl hv) he
  obtain ⟨hcall, hpos, -⟩ := hf
  rw [if_pos hcv] at hcall
  obtain ⟨prior, dens, hlen, hp, hprior, hshape, hW⟩ := h.events
  have hest := C44_estimator (self := { L with selection := (marginalised (vt ω)).asSelection }) h.cls h.conversion
    hlen hp hprior hshape (hW ▸ h.good)
    (r := .bare (decide ((marginalised (vt ω)).backend ≠ .jax)) (fin (estimate p q D X N ω *
      Real.exp (-((3 + n) / 2 * (var / estimate p q D X N ω ^ 2))))))
    (by
      show (marginalised (vt ω)).asSelection.call φ = _
      unfold ResamplingVT.asSelection
      simp only [hcall, ok_bind, pure_eq_ok]) (.inr ⟨⟨_, rfl⟩, rfl⟩) hpos
  rw [← hW] at hest
  have hl : lnLikelihood W (estimate p q D X N ω * Real.exp (-((3 + n) / 2 * (var / estimate p q D X N ω ^ 2)))) =
      lnLikelihood W (estimate p q D X N ω) + W.length * ((3 + n) / 2 * (var / estimate p q D X N ω ^ 2)) := by
    unfold lnLikelihood
    rw [Real.log_mul hm0.ne' (Real.exp_pos _).ne', Real.log_exp]
    ring
  rw [hl] at hest
  exact ⟨_, hest⟩

/-- **C137.** What happens instead: in every draw the log likelihood with marginalisation is larger, by
`N (3 + n) / (2 n_eff)` with `N` the number of events, `n` the number given to the selection function and
`n_eff = mu^2 / var`; so the mean of the likelihood, already at least the one with the true fraction, becomes strictly
larger still. -/
theorem C137_larger_partial [IsProbabilityMeasure P] (h : GivenEvents P ν p q D X N vt L θ φ W) {n : ℝ} (hn : 0 ≤ n)
    (hc : AllConverged vt φ n) :
    ∃ ℓ ℓ', LogLikelihoods L vt θ ℓ ∧ LogLikelihoods L (fun ω => marginalised (vt ω)) θ ℓ' ∧
      (∀ ω, ∃ mu var : ℝ, (vt ω).detectionEfficiency φ = .ok (fin mu, fin var) ∧ ℓ ω < ℓ' ω ∧
        ℓ' ω = ℓ ω + W.length * (3 + n) / (2 * (mu ^ 2 / var))) ∧
      (Integrable (fun ω => Real.exp (ℓ ω)) P → Integrable (fun ω => Real.exp (ℓ' ω)) P →
        likelihoodGiven W (∫ x in D, p x ∂ν) ≤ ∫ ω, Real.exp (ℓ ω) ∂P ∧
        ∫ ω, Real.exp (ℓ ω) ∂P < ∫ ω, Real.exp (ℓ' ω) ∂P) := by
  choose var hvar hv0 hval using marginalised_value h hn hc
  have hN : (0 : ℝ) < W.length := by exact_mod_cast List.length_pos_iff.2 h.some_event
  have hlt : ∀ ω, lnLikelihood W (estimate p q D X N ω) < lnLikelihood W (estimate p q D X N ω) +
      W.length * ((3 + n) / 2 * (var ω / estimate p q D X N ω ^ 2)) := by
    intro ω
    have := hv0 ω
    have := estimate_pos h ω
    have : 0 < W.length * ((3 + n) / 2 * (var ω / estimate p q D X N ω ^ 2)) := by positivity
    linarith
  refine ⟨_, _, value h, hval, fun ω => ⟨_, _, hvar ω, hlt ω, ?_⟩, fun h1 h2 => ⟨?_, ?_⟩⟩
  · have := hv0 ω
    have := estimate_pos h ω
    field_simp
  · obtain ⟨ℓ, hℓ, hr⟩ := C136_likelihood_partial h
    have e : ℓ = fun ω => lnLikelihood W (estimate p q D X N ω) := by
      funext ω
      exact logLikelihoods_eq h hℓ ω
    rw [e] at hr
    exact (hr h1).1
  · have hp := (integral_pos_iff_support_of_nonneg (μ := P) (f := fun ω =>
      Real.exp (lnLikelihood W (estimate p q D X N ω) +
        W.length * ((3 + n) / 2 * (var ω / estimate p q D X N ω ^ 2))) -
      Real.exp (lnLikelihood W (estimate p q D X N ω)))
      (fun ω => sub_nonneg.2 (Real.exp_le_exp.2 (hlt ω).le)) (h2.sub h1)).2 (by
        have := Set.eq_univ_of_forall (s := Function.support fun ω =>
          Real.exp (lnLikelihood W (estimate p q D X N ω) +
            W.length * ((3 + n) / 2 * (var ω / estimate p q D X N ω ^ 2))) -
          Real.exp (lnLikelihood W (estimate p q D X N ω)))
          fun ω => (sub_pos.2 (Real.exp_lt_exp.2 (hlt ω))).ne'
        rw [this]
        simp)
    rw [integral_sub h2 h1] at hp
    linarith

end

/-! ## A concrete case -/

namespace SelectionBias

/-- Two injections, of which the second has the value that the first one does not have. -/
def coinPair (i : ℕ) (b : Bool) : Bool := if i = 0 then b else !b

theorem coin_map_not : coin.map not = coin := by
  refine Measure.ext fun s hs => ?_
  have hm : Measurable not := measurable_of_finite _
  rw [Measure.map_apply hm hs]
  unfold coin
  rw [withDensity_apply _ hs, withDensity_apply _ (hm hs)]
  simp only [lintegral_const, Measure.restrict_apply_univ]
  congr 1
  have h1 : not ⁻¹' s = not '' s := by
    ext b
    constructor
    · exact fun hb => ⟨!b, hb, Bool.not_not b⟩
    · rintro ⟨c, hc, rfl⟩
      show (!!c) ∈ s
      rwa [Bool.not_not]
  rw [h1]
  exact Measure.count_injective_image (fun a b => by simp) s

theorem pair_given (planck15 : Cosmology) : ∃ vt,
    GivenEvents coin Measure.count coinPop (fun _ => 1 / 2) Set.univ coinPair 2 vt
      (flatEvent .hyper (.bare true (fin 1)) pinf) [] [] [[1, 1]] ∧ AllConverged vt [] 1 ∧
      ∀ ω, (vt ω).detectionEfficiency [] = .ok (fin 1, fin (1 / 8)) := by
  choose vt hvt using fun ω : Bool =>
    exists_built planck15 [] coinPop (fun _ => 1 / 2) Set.univ (firstN coinPair 2 ω) false false (fin 1)
  have hp : ∀ b, 0 < coinPop b := by
    intro b
    cases b <;> norm_num [coinPop]
  have heff : ∀ ω, (vt ω).detectionEfficiency [] = .ok (fin 1, fin (1 / 8)) := by
    intro ω
    have := built_efficiency (hvt ω).1 (fun _ _ => by norm_num) (by simp [firstN])
    rw [this]
    cases ω <;> norm_num [firstN, coinPair, coinPop, injectionWeight, List.range_succ]
  refine ⟨vt, ⟨⟨measurable_of_finite _, measurable_const, MeasurableSet.univ, fun _ _ => by norm_num,
    fun _ => measurable_of_finite _, fun i => ?_, Integrable.of_finite⟩, fun b _ => (hp b).le,
    fun ω => ⟨0, two_pos, trivial, hp _⟩, fun ω => (hvt ω).1,
    fun ω => ⟨(hvt ω).2.1, (hvt ω).2.2.1⟩, rfl, rfl, ⟨none, [[1, 1]], rfl, rfl, rfl, by simp, rfl⟩, flatGood,
    by simp⟩, fun ω => ⟨(hvt ω).2.2.2, 1, 1 / 8, heff ω, by norm_num, by norm_num⟩, heff⟩
  by_cases hi : i = 0
  · have : coinPair i = id := by
      funext b
      simp [coinPair, hi]
    rw [this, Measure.map_id]
    rfl
  · have : coinPair i = not := by
      funext b
      simp [coinPair, hi]
    rw [this, coin_map_not]
    rfl

end SelectionBias

/-- **C137** fails: two injections whose estimate of the found fraction is exact in every draw; without
marginalisation the likelihood is exact, with it it is too large. -/
theorem C137_fails : ¬ C137_statement := by
  intro H
  obtain ⟨vt, h, hc, he⟩ := pair_given ⟨id, id, id, id⟩
  obtain ⟨ℓ, ℓ', hl, hl', -, hr⟩ := C137_larger_partial h zero_le_one hc
  obtain ⟨h1, h2⟩ := hr Integrable.of_finite Integrable.of_finite
  have h3 := H _ _ _ _ _ _ _ _ _ _ _ _ _ _ _ _ 1 _ _ inferInstance h (by simp) hc hl hl' Integrable.of_finite
    Integrable.of_finite
  rw [abs_of_nonneg (by linarith), abs_of_nonneg (by linarith)] at h3
  linarith

example (planck15 : Cosmology) := (pair_given planck15).imp fun _ h => C137_larger_partial h.1 zero_le_one h.2.1

end GW
