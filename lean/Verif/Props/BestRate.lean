import Verif.Props.Likelihood

/-!
# C143: fitting the rate gives the likelihood without a rate
-/

noncomputable section

open Classical

namespace GW

open Fl Spec

/-- The maximum of the Poisson log-likelihood over the rate. -/
theorem Spec.rate_maximum (W : List (List ℝ)) {pdet R : ℝ} (hp : 0 < pdet) (hR : 0 < R) :
    lnRateLikelihood W pdet R ≤ lnLikelihood W pdet + (W.length * Real.log W.length - W.length) ∧
    (lnRateLikelihood W pdet R = lnLikelihood W pdet + (W.length * Real.log W.length - W.length) ↔
      R * pdet = W.length) := by
  unfold lnRateLikelihood lnLikelihood
  have hx : 0 < R * pdet := mul_pos hR hp
  have hl : Real.log (R * pdet) = Real.log R + Real.log pdet := Real.log_mul hR.ne' hp.ne'
  rcases Nat.eq_zero_or_pos W.length with h0 | h0
  · rw [h0]
    simp only [Nat.cast_zero, zero_mul, add_zero, sub_zero]
    refine ⟨by linarith, ⟨fun h => by linarith, fun h => by linarith⟩⟩
  · have hn : (0 : ℝ) < W.length := by exact_mod_cast h0
    set n : ℝ := (W.length : ℝ) with hn'
    set S : ℝ := (W.map lnBayesFactor).sum
    have hq : 0 < R * pdet / n := div_pos hx hn
    have hlq : Real.log (R * pdet / n) = Real.log R + Real.log pdet - Real.log n := by
      rw [Real.log_div hx.ne' hn.ne', hl]
    have e : S - n * Real.log pdet + (n * Real.log n - n) - (S + n * Real.log R - R * pdet) =
        n * (R * pdet / n - 1 - Real.log (R * pdet / n)) := by
      rw [hlq]
      field_simp
      ring
    constructor
    · have := Real.log_le_sub_one_of_pos hq
      have := mul_nonneg hn.le (show 0 ≤ R * pdet / n - 1 - Real.log (R * pdet / n) by linarith)
      linarith
    · constructor
      · intro h
        by_contra hne
        have hne' : R * pdet / n ≠ 1 := fun h => hne ((div_eq_one_iff_eq hn.ne').1 h)
        have := Real.log_lt_sub_one_of_pos hq hne'
        have := mul_pos hn (show 0 < R * pdet / n - 1 - Real.log (R * pdet / n) by linarith)
        linarith
      · intro h
        rw [h, div_self hn.ne', Real.log_one] at e
        rw [h]
        linarith

/-- **C143.** Whatever the rate, the log-likelihood of `RateLikelihood` does not exceed the one of
`HyperparameterLikelihood` for the same data plus a constant that depends on the number of events only. It reaches it
at exactly one rate, the number of events divided by the detected fraction. -/
theorem C143_best_rate {self : Likelihood} (hcls : self.cls = .rate) {θ φ : ℝ → Dict Fl}
    (hconv : ∀ R, self.conversion (θ R) = .ok (φ R)) {P : List (List ℝ)}
    {prior : Option (List (List ℝ))} (hN : P.length = self.nPosteriors)
    (hp : ∀ R, self.hyperPrior.prob self.data (φ R) = .ok (matFin P))
    (hprior : self.samplingPrior = prior.map matFin)
    (hshape : ∀ Q ∈ prior, Q.map List.length = P.map List.length ∧ ∀ q ∈ Q, ∀ x ∈ q, x ≠ 0)
    (hgood : GoodWeights self.samplesPerPosterior (importance P prior))
    {r : SelResult} {pdet varDet : ℝ} (hs : ∀ R, self.selection.call (φ R) = .ok r)
    (hr : reports r pdet varDet) (hpdet : 0 < pdet)
    (hrate : ∀ R, (φ R).get? "rate" = some (fin R)) :
    ∃ (lnRate : ℝ → ℝ) (lnHyper : ℝ),
      (∀ R, 0 < R → ∃ v, self.lnLikelihoodAndVariance (θ R) = .ok (fin (lnRate R), v)) ∧
      (∀ R, ∃ v, { self with cls := .hyper }.lnLikelihoodAndVariance (θ R) =
        .ok (fin lnHyper, v)) ∧
      (∀ R, 0 < R → lnRate R ≤
        lnHyper + (self.nPosteriors * Real.log self.nPosteriors - self.nPosteriors)) ∧
      ∀ R, 0 < R → (lnRate R =
        lnHyper + (self.nPosteriors * Real.log self.nPosteriors - self.nPosteriors) ↔
          R = self.nPosteriors / pdet) := by
  have hlen : (importance P prior).length = self.nPosteriors := by
    cases prior with
    | none => exact hN
    | some Q =>
      have := congrArg List.length (hshape Q rfl).1
      simp only [List.length_map] at this
      simp [importance, this, hN]
  refine ⟨lnRateLikelihood (importance P prior) pdet, lnLikelihood (importance P prior) pdet,
    fun R hR => ⟨_, C49_value hcls (hconv R) hN (hp R) hprior hshape hgood (hs R) hr hpdet hR
      (hrate R)⟩, fun R => ⟨_, C44_estimator (self := { self with cls := .hyper }) rfl (hconv R) hN
        (hp R) hprior hshape hgood (hs R) hr hpdet⟩, fun R hR => ?_, fun R hR => ?_⟩
  · rw [← hlen]
    exact (rate_maximum _ hpdet hR).1
  · rw [← hlen, (rate_maximum _ hpdet hR).2, eq_div_iff hpdet.ne']

/-- The hypotheses hold for the toy likelihood: two events, a detected fraction of one half, hence a best rate of
four. -/
example : ∃ (lnRate : ℝ → ℝ), (∀ R, 0 < R → ∃ v, (toyLikelihood .rate (.bare true (fin (1 / 2))) pinf
        ).lnLikelihoodAndVariance [("rate", fin R)] = .ok (fin (lnRate R), v)) ∧
      ∀ R, 0 < R → lnRate R ≤ lnRate 4 ∧ (lnRate R = lnRate 4 ↔ R = 4) := by
  obtain ⟨lnRate, lnHyper, h1, -, h3, h4⟩ :=
    C143_best_rate (self := toyLikelihood .rate (.bare true (fin (1 / 2))) pinf)
      (θ := fun R => [("rate", fin R)]) (φ := fun R => [("rate", fin R)]) rfl (fun _ => rfl) (P := [[1, 3], [2, 2]])
      (prior := some [[1, 1], [2, 2]]) rfl (fun _ => rfl) rfl toyShape
      (by rw [toyWeights]; exact toyGood) (fun _ => rfl) (.inr ⟨⟨true, rfl⟩, rfl⟩)
      (by norm_num) (fun _ => rfl)
  have hn : (toyLikelihood .rate (.bare true (fin (1 / 2))) pinf).nPosteriors = 2 := rfl
  have h5 := (h4 4 (by norm_num)).2 (by rw [hn]; norm_num)
  refine ⟨lnRate, h1, fun R hR => ⟨by rw [h5]; exact h3 R hR, ?_⟩⟩
  rw [h5, h4 R hR, hn]
  norm_num

end GW
