import Verif.Lemmas.RoundMono
import Verif.Props.Likelihood

/-!
# C135: a looser `maximum_uncertainty` only re-admits points

The uncertainty cut of `log_likelihood_ratio` (`hyperpe.py:180-184`) as a function of the limit, for
every estimate and every variance, NaN and infinities included.
-/

noncomputable section

open Classical

namespace GW

open Fl Spec

/-! ## Specification -/

/-- The likelihood after `likelihood.maximum_uncertainty = u` (the setter, `hyperpe.py:155-161`). -/
def Spec.setLimit (lik : Likelihood) (u : Fl) : Likelihood :=
  { lik with maximumUncertainty := u, maxVariance := Likelihood.maxVarianceOf u }

/-- Two evaluations fail in the same way, or both return and the results are related. -/
def Spec.RelatedOutcome (r : Fl → Fl → Prop) : Except PyErr Fl → Except PyErr Fl → Prop
  | .ok x, .ok y => r x y
  | .error e, .error e' => e = e'
  | _, _ => False

/-! ## Monotony -/

namespace UncertaintyLimit

theorem lt_of_le_lt {a b c : Fl} (h : a ≤ b) (h' : b < c) : a < c := by
  cases a <;> cases b <;> cases c <;> simp_all
  linarith

theorem nanToNum_mono {x y : Fl} (h : x ≤ y) (hx : IsFloat x) (hy : IsFloat y) : nanToNum x ≤ nanToNum y := by
  have hb := bigR_pos
  cases x <;> cases y <;> simp_all [nanToNum, nanToNumWith, IsFloat]
  · exact (abs_le.1 hx.1).2
  · exact (abs_le.1 hy.1).1
  · linarith

theorem le_self {x : Fl} {r : ℝ} (h : x = fin r) : x ≤ x := by rw [h]; simp

theorem ratio_set {lik : Likelihood} {θ : Dict Fl} {l v : Fl}
    (h : lik.lnLikelihoodAndVariance θ = .ok (l, v)) (u : Fl) :
    (setLimit lik u).logLikelihoodRatio θ = .ok (cut u l v) :=
  ratio_eq (self := setLimit lik u) h

theorem ratio_error {lik : Likelihood} {θ : Dict Fl} {e : PyErr}
    (h : lik.lnLikelihoodAndVariance θ = .error e) (u : Fl) :
    (setLimit lik u).logLikelihoodRatio θ = .error e := by
  have h' : (setLimit lik u).lnLikelihoodAndVariance θ = .error e := h
  unfold Likelihood.logLikelihoodRatio
  rw [h']
  rfl

theorem cut_finite (u l v : Fl) : ∃ r : ℝ, cut u l v = fin r := by
  obtain ⟨r, hr, -⟩ := nanToNum_range (toDouble_isFloat
    (nanToNumWith ninf (fin bigR) (fin (-bigR)) (toDouble l) -
      nanToNumWith 0 (fin bigR) (fin (-bigR)) (pinf * ind (u < v))))
  exact ⟨r, hr⟩

theorem cut_same {u u' l v : Fl} (h : u < v ↔ u' < v) : cut u l v = cut u' l v := by
  unfold cut
  rw [propext h]

theorem cut_mono {u u' : Fl} (h : u ≤ u') (l v : Fl) : cut u l v ≤ cut u' l v := by
  by_cases h' : u' < v
  · have e := cut_same (l := l) (iff_of_true (lt_of_le_lt h h') h')
    obtain ⟨r, hr⟩ := cut_finite u' l v
    rw [e, hr]
    simp
  by_cases h1 : u < v
  · unfold cut
    rw [excess_true h1, excess_false h']
    have hx : ∀ x : Fl, IsFloat x → nanToNumWith ninf (fin bigR) (fin (-bigR)) x = ninf ∨
        ∃ r, nanToNumWith ninf (fin bigR) (fin (-bigR)) x = fin r := by
      intro x _
      cases x with
      | fin r => exact .inr ⟨r, rfl⟩
      | pinf => exact .inr ⟨_, rfl⟩
      | ninf => exact .inr ⟨_, rfl⟩
      | nan => exact .inl rfl
    rcases hx _ (toDouble_isFloat l) with hn | ⟨r, hr⟩
    · rw [hn]
      show fin (-bigR) ≤ fin (-bigR)
      simp
    · rw [hr, fin_sub, fin_sub]
      exact nanToNum_mono (toDouble_mono (by linarith [bigR_pos])) (toDouble_isFloat _) (toDouble_isFloat _)
  · rw [cut_same (l := l) (iff_of_false h1 h')]
    obtain ⟨r, hr⟩ := cut_finite u' l v
    rw [hr]
    simp

end UncertaintyLimit

open UncertaintyLimit

/-- **C135.** A larger limit never lowers a value, and whether and how an evaluation fails does not depend
on the limit. -/
theorem C135_monotone (lik : Likelihood) (θ : Dict Fl) {u u' : Fl} (h : u ≤ u') :
    Spec.RelatedOutcome (· ≤ ·) ((setLimit lik u).logLikelihoodRatio θ)
      ((setLimit lik u').logLikelihoodRatio θ) := by
  cases hv : lik.lnLikelihoodAndVariance θ with
  | error e => rw [ratio_error hv, ratio_error hv]; exact rfl
  | ok p =>
    rw [ratio_set (l := p.1) (v := p.2) hv, ratio_set (l := p.1) (v := p.2) hv]
    exact cut_mono h _ _

/-- Both limits evaluate, with different results. -/
example : Spec.RelatedOutcome (· ≤ ·)
      ((setLimit (flatEvent .hyper (.pair true (fin 1) (fin 3)) pinf) (fin 2)).logLikelihoodRatio [])
      ((setLimit (flatEvent .hyper (.pair true (fin 1) (fin 3)) pinf) (fin 4)).logLikelihoodRatio []) ∧
    (setLimit (flatEvent .hyper (.pair true (fin 1) (fin 3)) pinf) (fin 2)).logLikelihoodRatio [] =
      .ok (fin (-bigR)) ∧
    (setLimit (flatEvent .hyper (.pair true (fin 1) (fin 3)) pinf) (fin 4)).logLikelihoodRatio [] =
      .ok (fin 0) := by
  have hv (u : Fl) : (setLimit (flatEvent .hyper (.pair true (fin 1) (fin 3)) pinf) u).lnLikelihoodAndVariance
      [] = .ok (fin 0, fin 3) := by
    have := flatEvent_value (r := .pair true (fin 1) (fin 3)) (.inl ⟨true, rfl⟩) one_pos pinf []
    norm_num at this
    exact this
  refine ⟨C135_monotone _ _ (by simp; norm_num),
    C47_rejected_partial (hv _) isFloat_zero (by positivity) ?_, C47_accepted_partial (hv _) isFloat_zero ?_⟩
  · show fin 2 < fin 3
    simp
    norm_num
  · show ¬ fin 4 < fin 3
    simp
    norm_num

/-- **C135.** A larger limit changes the value only at points whose variance exceeds the smaller limit and not
the larger one. -/
theorem C135_changes (lik : Likelihood) (θ : Dict Fl) {u u' : Fl} (h : u ≤ u')
    (hne : (setLimit lik u).logLikelihoodRatio θ ≠ (setLimit lik u').logLikelihoodRatio θ) :
    ∃ l v, lik.lnLikelihoodAndVariance θ = .ok (l, v) ∧ u < v ∧ ¬ u' < v := by
  cases hv : lik.lnLikelihoodAndVariance θ with
  | error e => exact absurd ((ratio_error hv u).trans (ratio_error hv u').symm) hne
  | ok p =>
    refine ⟨p.1, p.2, rfl, ?_⟩
    rw [ratio_set (l := p.1) (v := p.2) hv, ratio_set (l := p.1) (v := p.2) hv] at hne
    by_contra hc
    refine hne (congrArg _ (cut_same ?_))
    constructor
    · intro h1
      by_contra h2
      exact hc ⟨h1, h2⟩
    · exact lt_of_le_lt h

example : ∃ l v, (flatEvent .hyper (.pair true (fin 1) (fin 3)) pinf).lnLikelihoodAndVariance [] = .ok (l, v) ∧
    fin 2 < v ∧ ¬ fin 4 < v := by
  have := flatEvent_value (r := .pair true (fin 1) (fin 3)) (.inl ⟨true, rfl⟩) one_pos pinf []
  norm_num at this
  exact ⟨_, _, this, by simp; norm_num, by simp; norm_num⟩

/-- **C135.** The cut only ever lowers: with any limit the value is at most the one without a limit
(`maximum_uncertainty = inf`), which in turn is that of any limit that is not exceeded. -/
theorem C135_below_uncut (lik : Likelihood) (θ : Dict Fl) (u : Fl) :
    Spec.RelatedOutcome (· ≤ ·) ((setLimit lik u).logLikelihoodRatio θ)
      ((setLimit lik pinf).logLikelihoodRatio θ) ∧
    (∀ l v, lik.lnLikelihoodAndVariance θ = .ok (l, v) → ¬ u < v →
      (setLimit lik u).logLikelihoodRatio θ = (setLimit lik pinf).logLikelihoodRatio θ) := by
  constructor
  · by_cases hu : u = nan
    · subst hu
      cases hv : lik.lnLikelihoodAndVariance θ with
      | error e => rw [ratio_error hv, ratio_error hv]; exact rfl
      | ok p =>
        rw [ratio_set (l := p.1) (v := p.2) hv, ratio_set (l := p.1) (v := p.2) hv]
        have e : cut nan p.1 p.2 = cut pinf p.1 p.2 := cut_same (iff_of_false (by simp) pinf_not_lt)
        obtain ⟨r, hr⟩ := cut_finite pinf p.1 p.2
        show cut nan p.1 p.2 ≤ cut pinf p.1 p.2
        rw [e, hr]
        simp
    · refine C135_monotone lik θ ?_
      cases u <;> simp_all
  · intro l v hv h
    rw [ratio_set hv, ratio_set hv]
    exact congrArg _ (cut_same (iff_of_false h pinf_not_lt))

example := C135_below_uncut (flatEvent .hyper (.pair true (fin 1) (fin 3)) pinf) [] (fin 2)

end GW
