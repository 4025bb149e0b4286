import Verif.Props.SelectionBias

/-!
# C138: the mean over the injections of the likelihood with a rate

`RateLikelihood` contains the estimated found fraction linearly in its logarithm, so that, other than for
`HyperparameterLikelihood` (C136), the log likelihood is unbiased.
-/

noncomputable section

open MeasureTheory ProbabilityTheory Classical

namespace GW

open Fl Spec SelectionBias

/-! ## Specification -/

/-- The log likelihoods that `RateLikelihood` returns for the injections drawn, with the data and models of `L`. -/
def Spec.RateLogLikelihoods {Ω : Type} (L : Likelihood) (vt : Ω → ResamplingVT) (θ : Dict Fl) (ℓ : Ω → ℝ) : Prop :=
  ∀ ω, ∃ v, { L with cls := .rate, selection := (vt ω).asSelection }.lnLikelihoodAndVariance θ = .ok (fin (ℓ ω), v)

variable {S Ω : Type} [MeasurableSpace S] [MeasurableSpace Ω] {P : Measure Ω} {ν : Measure S}
  {p q : S → ℝ} {D : Set S} {X : ℕ → Ω → S} {N : ℕ} {vt : Ω → ResamplingVT} {L : Likelihood} {θ φ : Dict Fl}
  {W : List (List ℝ)}

theorem SelectionBias.rate_value (h : GivenEvents P ν p q D X N vt L θ φ W) {R : ℝ} (hR : 0 < R)
    (hrate : φ.get? "rate" = some (fin R)) (ω : Ω) :
    ∃ v, { L with cls := .rate, selection := (vt ω).asSelection }.lnLikelihoodAndVariance θ =
      .ok (fin (lnRateLikelihood W (estimate p q D X N ω) R), v) := by
  obtain ⟨v, heff⟩ := efficiency h ω
  have hcall := (C41_partial (vt ω) φ _ _ (h.mode ω).1 heff).1 (h.mode ω).2
  obtain ⟨prior, dens, hlen, hp, hprior, hshape, hW⟩ := h.events
  have hest := C49_value (self := { L with cls := .rate, selection := (vt ω).asSelection }) rfl h.conversion hlen hp
    hprior hshape (hW ▸ h.good) (r := .pair (decide ((vt ω).backend ≠ .jax)) (fin (estimate p q D X N ω)) (fin v))
    (by
      show (vt ω).asSelection.call φ = _
      unfold ResamplingVT.asSelection
      simp only [hcall, ok_bind, pure_eq_ok]) (.inl ⟨_, rfl⟩) (estimate_pos h ω) hR hrate
  rw [← hW] at hest
  exact ⟨_, hest⟩

/-- **C138.** The mean over the injections of the log likelihood with a rate is the Poisson log likelihood with the
true found fraction, for every rate; the mean of the likelihood is at least the exponential of that, with equality only
if the estimated fraction is the true one almost surely. -/
theorem C138_unbiased [IsProbabilityMeasure P] (h : GivenEvents P ν p q D X N vt L θ φ W) {R : ℝ} (hR : 0 < R)
    (hrate : φ.get? "rate" = some (fin R)) :
    ∃ ℓ, RateLogLikelihoods L vt θ ℓ ∧ Integrable ℓ P ∧
      ∫ ω, ℓ ω ∂P = lnRateLikelihood W (∫ x in D, p x ∂ν) R ∧
      Integrable (fun ω => Real.exp (ℓ ω)) P ∧
      Real.exp (lnRateLikelihood W (∫ x in D, p x ∂ν) R) ≤ ∫ ω, Real.exp (ℓ ω) ∂P ∧
      (∫ ω, Real.exp (ℓ ω) ∂P = Real.exp (lnRateLikelihood W (∫ x in D, p x ∂ν) R) ↔
        ∀ᵐ ω ∂P, ∃ v, (vt ω).detectionEfficiency φ = .ok (fin (∫ x in D, p x ∂ν), v)) := by
  set a := ∫ x in D, p x ∂ν with ha
  have hi := estimate_integrable h
  have hval : ∀ ω, lnRateLikelihood W (estimate p q D X N ω) R =
      lnRateLikelihood W a R - R * (estimate p q D X N ω - a) := by
    intro ω
    unfold lnRateLikelihood
    ring
  have hm : Integrable (fun ω => R * (estimate p q D X N ω - a)) P := (hi.sub (integrable_const a)).const_mul R
  have hm0 : ∫ ω, R * (estimate p q D X N ω - a) ∂P = 0 := by
    rw [integral_const_mul, integral_sub hi (integrable_const a), estimate_mean h, ← ha]
    simp
  have hli : Integrable (fun ω => lnRateLikelihood W (estimate p q D X N ω) R) P := by
    simp only [hval]
    exact (integrable_const _).sub hm
  have hl : ∫ ω, lnRateLikelihood W (estimate p q D X N ω) R ∂P = lnRateLikelihood W a R := by
    simp only [hval]
    rw [integral_sub (integrable_const _) hm, hm0]
    simp
  have hei : Integrable (fun ω => Real.exp (lnRateLikelihood W (estimate p q D X N ω) R)) P := by
    refine Integrable.of_bound (Real.continuous_exp.comp_aestronglyMeasurable hli.aestronglyMeasurable)
      (Real.exp (lnRateLikelihood W 0 R)) (ae_of_all _ fun ω => ?_)
    rw [Real.norm_eq_abs, abs_of_pos (Real.exp_pos _), Real.exp_le_exp]
    unfold lnRateLikelihood
    have := mul_pos hR (estimate_pos h ω)
    linarith
  set E := Real.exp (lnRateLikelihood W a R) with hE
  have hE0 : 0 < E := Real.exp_pos _
  have hexp : ∀ ω, Real.exp (lnRateLikelihood W (estimate p q D X N ω) R) =
      E * Real.exp (-(R * (estimate p q D X N ω - a))) := by
    intro ω
    rw [hval, sub_eq_add_neg, Real.exp_add]
  have hg : Integrable (fun ω => E * (1 - R * (estimate p q D X N ω - a))) P :=
    ((integrable_const (1 : ℝ)).sub hm).const_mul E
  have hgi : ∫ ω, E * (1 - R * (estimate p q D X N ω - a)) ∂P = E := by
    rw [integral_const_mul, integral_sub (integrable_const _) hm, hm0]
    simp
  have key := integral_above (P := P) (m := estimate p q D X N) (a := a) hei hg
    (fun ω => by
      rw [hexp]
      refine mul_le_mul_of_nonneg_left ?_ hE0.le
      have := Real.add_one_le_exp (-(R * (estimate p q D X N ω - a)))
      linarith)
    (fun ω => by
      rw [hexp]
      constructor
      · intro he
        have he' := mul_left_cancel₀ hE0.ne' he
        by_contra hne
        have := Real.add_one_lt_exp (x := -(R * (estimate p q D X N ω - a)))
          (neg_ne_zero.2 (mul_ne_zero hR.ne' (sub_ne_zero.2 hne)))
        linarith
      · intro he
        rw [he]
        simp)
  rw [hgi] at key
  refine ⟨_, rate_value h hR hrate, hli, hl, hei, key.1, key.2.trans ⟨fun h' => ?_, fun h' => ?_⟩⟩
  · filter_upwards [h'] with ω hω
    obtain ⟨v, hv⟩ := efficiency h ω
    exact ⟨v, by rw [hv, hω]⟩
  · filter_upwards [h'] with ω hω
    obtain ⟨v, hv⟩ := efficiency h ω
    obtain ⟨v', hv'⟩ := hω
    have := hv.symm.trans hv'
    simp only [Except.ok.injEq, Prod.mk.injEq, fin_inj] at this
    exact this.1

/-- One event and one random injection. -/
theorem SelectionBias.coin_rate (planck15 : Cosmology) : ∃ vt, GivenEvents coin Measure.count coinPop (fun _ => 1 / 2)
    Set.univ (fun _ => id) 1 vt (flatEvent .hyper (.bare true (fin 1)) pinf) [("rate", fin 5)] [("rate", fin 5)]
    [[1, 1]] := by
  choose vt hvt using fun ω : Bool =>
    exists_built planck15 [("rate", fin 5)] coinPop (fun _ => 1 / 2) Set.univ (firstN (fun _ => id) 1 ω) false false
      (fin 1)
  obtain ⟨vt0, h⟩ := coin_given planck15
  exact ⟨vt, ⟨h.campaign, h.nonneg, h.some_found, fun ω => (hvt ω).1,
    fun ω => ⟨(hvt ω).2.1, (hvt ω).2.2.1⟩, rfl, rfl, ⟨none, [[1, 1]], rfl, rfl, rfl, by simp, rfl⟩, flatGood,
    by simp⟩⟩

example (planck15 : Cosmology) := (coin_rate planck15).imp fun _ h =>
  C138_unbiased h (R := 5) (by norm_num) (by simp [Dict.get?_cons])

end GW
