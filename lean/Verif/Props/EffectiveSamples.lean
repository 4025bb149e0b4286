import Verif.Props.Likelihood
import Verif.Props.Resampling
import Verif.Model.Experimental
import Verif.Lemmas.RoundMono

/-!
# C150: the uncertainty of the likelihood and the effective numbers of samples
-/

noncomputable section

open Classical

namespace GW

open Fl Spec

/-! ## Specification -/

/-- Kish's effective number of samples of some weights: `(sum w)^2 / sum w^2`. -/
def Spec.effectiveSamples (w : List ℝ) : ℝ := w.sum ^ 2 / (w.map (· ^ 2)).sum

/-- A likelihood with a `ResamplingVT` selection function, evaluated at the parameters `θ`: `W` are the weights of the
posterior samples of the events, `p` the population densities of the found injections, `q` their sampling densities and
`N` the number of generated injections. -/
structure Spec.Weighted (lik : Likelihood) (vt : ResamplingVT) (θ : Dict Fl) (W : List (List ℝ)) (p q : List ℝ)
    (N : ℝ) : Prop where
  cls : lik.cls = .hyper
  selection : lik.selection = vt.asSelection
  plain : vt.marginalizeUncertainty = false
  events : W.length = lik.nPosteriors
  converted : ∃ φ, lik.conversion θ = .ok φ ∧ lik.weights φ = .ok (matFin W) ∧
    vt.model.prob vt.data φ = .ok (p.map fin)
  good : GoodWeights lik.samplesPerPosterior W
  sampling : vt.data.get? "prior" = some (.arr (q.map fin))
  sampling_ne : ∀ x ∈ q, x ≠ 0
  found : p.length = q.length
  generated : vt.totalInjections.2 = fin N
  most : (p.length : ℝ) ≤ N
  detected : 0 < (weights p q).sum

/-- The variance of the log-likelihood in terms of effective numbers of samples: `K` samples of every event, `N`
generated injections. -/
def Spec.varianceFromSamples (K : ℕ) (W : List (List ℝ)) (w : List ℝ) (N : ℝ) : ℝ :=
  (W.map fun v => 1 / effectiveSamples v - 1 / K).sum + (W.length : ℝ) ^ 2 * (1 / effectiveSamples w - 1 / N)

/-! ## Lemmas -/

namespace Effective

theorem sum_sq_pos {w : List ℝ} (h : 0 < w.sum) : 0 < (w.map (· ^ 2)).sum := by
  have h0 : ∀ x ∈ w.map (· ^ 2), (0 : ℝ) ≤ x := by
    intro x hx
    obtain ⟨y, -, rfl⟩ := List.mem_map.1 hx
    positivity
  rcases (List.sum_nonneg h0).lt_or_eq with h1 | h1
  · exact h1
  · exfalso
    have : ∀ l : List ℝ, (l.map (· ^ 2)).sum = 0 → l.sum = 0 := by
      intro l
      induction l with
      | nil => simp
      | cons a l ih =>
        intro hl
        simp only [List.map_cons, List.sum_cons] at hl ⊢
        have hn : 0 ≤ (l.map (· ^ 2)).sum := List.sum_nonneg fun x hx => by
          obtain ⟨y, -, rfl⟩ := List.mem_map.1 hx
          positivity
        have ha : a ^ 2 = 0 := by nlinarith [sq_nonneg a]
        rw [pow_eq_zero_iff two_ne_zero] at ha
        rw [ha, ih (by linarith [sq_nonneg a]), add_zero]
    rw [this w h1.symm] at h
    exact lt_irrefl _ h

theorem pos {w : List ℝ} (h : 0 < w.sum) : 0 < effectiveSamples w :=
  div_pos (pow_pos h 2) (sum_sq_pos h)

theorem sum_pos_of_mean {w : List ℝ} (h : 0 < mean w) : 0 < w.sum := by
  unfold mean at h
  have hl : 0 < (w.length : ℝ) := by
    have := ne_nil_of_mean_pos (w := w) h
    exact_mod_cast List.length_pos_of_ne_nil this
  exact (div_pos_iff_of_pos_right hl).1 h

/-- The relative variance of an event. -/
theorem relativeVariance_eq_samples {w : List ℝ} (h : 0 < mean w) :
    relativeVariance w = 1 / effectiveSamples w - 1 / w.length := by
  have hs := sum_pos_of_mean h
  have hl : (w.length : ℝ) ≠ 0 := by
    have := ne_nil_of_mean_pos (w := w) h
    exact_mod_cast (List.length_pos_of_ne_nil this).ne'
  have h2 := (sum_sq_pos hs).ne'
  unfold relativeVariance effectiveSamples mean
  rw [List.length_map]
  have := hs.ne'
  field_simp

/-- The relative variance of the detection efficiency. -/
theorem selection_eq_samples {w : List ℝ} (h : 0 < w.sum) {N : ℝ} (hN : 0 < N) :
    ((w.map (· ^ 2)).sum / N ^ 2 - (w.sum / N) ^ 2 / N) / (w.sum / N) ^ 2 = 1 / effectiveSamples w - 1 / N := by
  have h2 := (sum_sq_pos h).ne'
  have := h.ne'
  have := hN.ne'
  unfold effectiveSamples
  field_simp

/-- There are at most as many effective samples as samples. -/
theorem le_length {w : List ℝ} (h : 0 < w.sum) : effectiveSamples w ≤ w.length := by
  have hne : w ≠ [] := by
    rintro rfl
    simp at h
  have hl : 0 < (w.length : ℝ) := by exact_mod_cast List.length_pos_of_ne_nil hne
  have hm : 0 < mean w := div_pos h hl
  have h1 := relativeVariance_nonneg w hne
  rw [relativeVariance_eq_samples hm] at h1
  have h2 := pos h
  rw [sub_nonneg, div_le_div_iff₀ hl h2] at h1
  linarith

end Effective

open Effective

/-! ## The property -/

theorem Spec.Weighted.total_pos {lik : Likelihood} {vt : ResamplingVT} {θ : Dict Fl} {W : List (List ℝ)}
    {p q : List ℝ} {N : ℝ} (h : Weighted lik vt θ W p q N) : 0 < N := by
  have hne : p ≠ [] := by
    rintro rfl
    have := h.detected
    simp [weights] at this
  have : 0 < (p.length : ℝ) := by exact_mod_cast List.length_pos_of_ne_nil hne
  linarith [h.most]

theorem Spec.Weighted.selection_value {lik : Likelihood} {vt : ResamplingVT} {θ : Dict Fl} {W : List (List ℝ)}
    {p q : List ℝ} {N : ℝ} (h : Weighted lik vt θ W p q N) {φ : Dict Fl}
    (hφ : vt.model.prob vt.data φ = .ok (p.map fin)) :
    vt.detectionEfficiency φ = .ok (fin ((weights p q).sum / N),
      fin (((weights p q).map (· ^ 2)).sum / N ^ 2 - ((weights p q).sum / N) ^ 2 / N)) :=
  C40_value hφ h.sampling h.found h.sampling_ne h.generated h.total_pos.ne'

/-- **C150, the variance.** If the check of the selection function is off or passes, the variance of the log-likelihood
is the sum over events of `1 / n_eff - 1 / K` plus the squared number of events times `1 / n_eff - 1 / N` of the
injections. -/
theorem C150_variance {lik : Likelihood} {vt : ResamplingVT} {θ : Dict Fl} {W : List (List ℝ)} {p q : List ℝ} {N : ℝ}
    (h : Weighted lik vt θ W p q N) (hc : vt.enforceConvergence = false ∨ ∃ m : ℝ, vt.nEvents = fin m ∧
      4 * m * (((weights p q).map (· ^ 2)).sum / N ^ 2 - ((weights p q).sum / N) ^ 2 / N) < ((weights p q).sum / N) ^ 2) :
    lik.lnLikelihoodAndVariance θ = .ok (fin (lnLikelihood W ((weights p q).sum / N)),
      fin (varianceFromSamples lik.samplesPerPosterior W (weights p q) N)) := by
  obtain ⟨φ, hconv, hw, hφ⟩ := h.converted
  have hN := h.total_pos
  have heff := h.selection_value hφ
  set mu := (weights p q).sum / N with hmu
  set var := ((weights p q).map (· ^ 2)).sum / N ^ 2 - mu ^ 2 / N with hvar
  have hmu0 : 0 < mu := div_pos h.detected hN
  have hcall : vt.call φ = .ok (fin mu, some (fin var)) := by
    have := C41_partial vt φ _ _ h.plain heff
    rcases hc with hc | ⟨m, hm, hlt⟩
    · exact this.1 hc
    · cases he : vt.enforceConvergence with
      | false => exact this.1 he
      | true =>
        refine this.2.1 he ?_
        rw [hm, show (4 : Fl) = fin 4 from ofNat_eq 4, fin_mul, fin_mul, fin_npow, fin_lt]
        exact hlt
  have hsel : ∃ py, lik.selectionWithUncertainty φ = .ok (py, fin mu, fin var) := by
    refine selection_fin (r := .pair (decide (vt.backend ≠ .jax)) (fin mu) (fin var)) ?_ (.inl ⟨_, rfl⟩)
    rw [h.selection]
    simp only [ResamplingVT.asSelection, hcall, ok_bind]
    rfl
  obtain ⟨py, hsel⟩ := hsel
  have hrv : (W.map relativeVariance).sum = (W.map fun v => 1 / effectiveSamples v - 1 / lik.samplesPerPosterior).sum := by
    refine congrArg _ (List.map_congr_left fun w hw => ?_)
    rw [relativeVariance_eq_samples (h.good w hw).2, (h.good w hw).1]
  unfold Likelihood.lnLikelihoodAndVariance Likelihood.lnLikelihoodAndVarianceBase
    Likelihood.selectionFactor Likelihood.selectionFactorHyper
  simp only [hconv, ok_bind, perEvent_fin hw h.good, h.cls, hsel,
    pure_eq_ok, List.map_map, Function.comp_def, sum_map_fin, log_fin hmu0, natCast_eq, fin_neg,
    fin_mul, fin_npow, fin_div (pow_ne_zero 2 hmu0.ne'), fin_add, toNumber, ite_self, id]
  congr 2
  · unfold lnLikelihood
    rw [h.events]
    congr 1
    ring
  · unfold varianceFromSamples
    rw [h.events, hrv, hvar, hmu, selection_eq_samples h.detected hN]

theorem Effective.two_zpow_le_bigR {e : ℤ} (he : e ≤ 1023) : (2 : ℝ) ^ e ≤ bigR := by
  have h1 : (2 : ℝ) ^ e ≤ 2 ^ (1023 : ℤ) := zpow_le_zpow_right₀ (by norm_num) he
  have h2 := two_pow_le_bigR
  have h3 : (0 : ℝ) < 2 ^ (1023 : ℤ) := by positivity
  generalize (2 : ℝ) ^ (1023 : ℤ) = x at h1 h2 h3
  linarith

/-- Points whose variance exceeds the limit are rejected. -/
theorem rejected_of_le {lik : Likelihood} {θ : Dict Fl} {l : ℝ} {v : Fl}
    (h : lik.lnLikelihoodAndVariance θ = .ok (fin l, v)) (hl : l ≤ 2 ^ (969 : ℤ))
    (hc : lik.maximumUncertainty < v) : lik.logLikelihoodRatio θ = .ok (fin (-bigR)) := by
  have hb : toDouble (fin (2 ^ (969 : ℤ))) = fin (2 ^ (969 : ℤ)) := by
    refine toDouble_of_isFloat ⟨?_, 1, 969, by norm_num, by norm_num, by simp⟩
    rw [abs_of_nonneg (by positivity)]
    exact two_zpow_le_bigR (by norm_num)
  have hm := toDouble_mono hl
  rw [hb] at hm
  have h970 : (2 : ℝ) ^ (969 : ℤ) < 2 ^ (970 : ℤ) := zpow_lt_zpow_right₀ (by norm_num) (by norm_num)
  rw [ratio_eq h]
  unfold cut
  rw [excess_true hc]
  cases hd : toDouble (fin l) with
  | fin y =>
    rw [hd, fin_le] at hm
    have e : nanToNumWith ninf (fin bigR) (fin (-bigR)) (fin y) = fin y := rfl
    rw [e, fin_sub]
    exact congrArg _ (nanToNum_fl64_sub_bigR (hm.trans_lt h970))
  | ninf =>
    have e : nanToNumWith ninf (fin bigR) (fin (-bigR)) ninf = fin (-bigR) := rfl
    rw [e, fin_sub]
    refine congrArg _ (nanToNum_fl64_sub_bigR ?_)
    exact (neg_neg_of_pos bigR_pos).trans (by positivity)
  | pinf => rw [hd] at hm; simp at hm
  | nan => rw [hd] at hm; simp at hm

theorem bound_of_variance {lik : Likelihood} {vt : ResamplingVT} {θ : Dict Fl} {W : List (List ℝ)} {p q : List ℝ} {N : ℝ}
    (h : Weighted lik vt θ W p q N) {V : ℝ}
    (hV : varianceFromSamples lik.samplesPerPosterior W (weights p q) N ≤ V) :
    (∀ w ∈ W, 1 / effectiveSamples w ≤ V + 1 / lik.samplesPerPosterior) ∧
    (W.length : ℝ) ^ 2 * (1 / effectiveSamples (weights p q) - 1 / N) ≤ V := by
  have hN := h.total_pos
  have hev : ∀ w ∈ W, 0 ≤ 1 / effectiveSamples w - 1 / lik.samplesPerPosterior := by
    intro w hw
    have hm := (h.good w hw).2
    have := relativeVariance_nonneg w (ne_nil_of_mean_pos hm)
    rwa [relativeVariance_eq_samples hm, (h.good w hw).1] at this
  have hsel : 0 ≤ 1 / effectiveSamples (weights p q) - 1 / N := by
    have h1 := le_length h.detected
    have h2 : ((weights p q).length : ℝ) ≤ N := by
      have : (weights p q).length = p.length := by
        unfold weights
        rw [List.length_zipWith, h.found, min_self]
      rw [this]
      exact h.most
    rw [sub_nonneg]
    exact one_div_le_one_div_of_le (Effective.pos h.detected) (h1.trans h2)
  have hsel' : 0 ≤ (W.length : ℝ) ^ 2 * (1 / effectiveSamples (weights p q) - 1 / N) := by positivity
  have hsum : ∀ x ∈ W.map fun v => 1 / effectiveSamples v - 1 / lik.samplesPerPosterior, 0 ≤ x := by
    intro x hx
    obtain ⟨w, hw, rfl⟩ := List.mem_map.1 hx
    exact hev w hw
  unfold varianceFromSamples at hV
  refine ⟨fun w hw => ?_, by linarith [List.sum_nonneg hsum]⟩
  have := List.single_le_sum hsum _ (List.mem_map.2 ⟨w, hw, rfl⟩)
  linarith

/-- **C150, accepted points.** If `log_likelihood_ratio` does not reject the point, every event has at least
`1 / (V + 1 / K)` effective samples and the injections have at least `1 / (V / n^2 + 1 / N)`, where `V` is
`maximum_uncertainty` and `n` the number of events. -/
theorem C150_accepted {lik : Likelihood} {vt : ResamplingVT} {θ : Dict Fl} {W : List (List ℝ)} {p q : List ℝ} {N : ℝ}
    (h : Weighted lik vt θ W p q N) (hc : vt.enforceConvergence = false) {V : ℝ}
    (hV : lik.maximumUncertainty = fin V) (hV0 : 0 ≤ V) (hW : W ≠ [])
    (hl : lnLikelihood W ((weights p q).sum / N) ≤ 2 ^ (969 : ℤ))
    (hacc : lik.logLikelihoodRatio θ ≠ .ok (fin (-bigR))) :
    (∀ w ∈ W, 1 / (V + 1 / lik.samplesPerPosterior) ≤ effectiveSamples w) ∧
    1 / (V / (W.length : ℝ) ^ 2 + 1 / N) ≤ effectiveSamples (weights p q) := by
  have hval := C150_variance h (.inl hc)
  have hle : varianceFromSamples lik.samplesPerPosterior W (weights p q) N ≤ V := by
    by_contra hcon
    refine hacc (rejected_of_le hval hl ?_)
    rw [hV, fin_lt]
    exact not_le.1 hcon
  obtain ⟨h1, h2⟩ := bound_of_variance h hle
  have hN := h.total_pos
  have hn : 0 < (W.length : ℝ) := by exact_mod_cast List.length_pos_of_ne_nil hW
  refine ⟨fun w hw => ?_, ?_⟩
  · have hpos := Effective.pos (sum_pos_of_mean (h.good w hw).2)
    have hb := h1 w hw
    have : 0 < V + 1 / (lik.samplesPerPosterior : ℝ) := lt_of_lt_of_le (by positivity) hb
    rw [div_le_iff₀ this]
    rw [div_le_iff₀ hpos] at hb
    linarith
  · have hpos := Effective.pos h.detected
    have hb : 1 / effectiveSamples (weights p q) ≤ V / (W.length : ℝ) ^ 2 + 1 / N := by
      rw [← sub_le_iff_le_add, le_div_iff₀ (by positivity)]
      linarith
    have : 0 < V / (W.length : ℝ) ^ 2 + 1 / N := by positivity
    rw [div_le_iff₀ this]
    rw [div_le_iff₀ hpos] at hb
    linarith

/-- **C150, the check of the selection function.** A point accepted with a `maximum_uncertainty` below a quarter of the
number of events passes the check of `ResamplingVT`: `enforce_convergence` makes no difference. -/
theorem C150_converged {lik : Likelihood} {vt : ResamplingVT} {θ : Dict Fl} {W : List (List ℝ)} {p q : List ℝ} {N : ℝ}
    (h : Weighted lik vt θ W p q N) (hc : vt.enforceConvergence = false) {V : ℝ}
    (hV : lik.maximumUncertainty = fin V) (hW : W ≠ []) (hVn : V < W.length / 4)
    (hl : lnLikelihood W ((weights p q).sum / N) ≤ 2 ^ (969 : ℤ))
    (hacc : lik.logLikelihoodRatio θ ≠ .ok (fin (-bigR))) (hnev : vt.nEvents = fin W.length)
    {φ : Dict Fl} (hφ : lik.conversion θ = .ok φ) :
    { vt with enforceConvergence := true }.call φ = vt.call φ := by
  have hval := C150_variance h (.inl hc)
  have hle : varianceFromSamples lik.samplesPerPosterior W (weights p q) N ≤ V := by
    by_contra hcon
    refine hacc (rejected_of_le hval hl ?_)
    rw [hV, fin_lt]
    exact not_le.1 hcon
  obtain ⟨-, h2⟩ := bound_of_variance h hle
  have hN := h.total_pos
  have hn : 0 < (W.length : ℝ) := by exact_mod_cast List.length_pos_of_ne_nil hW
  obtain ⟨φ', hconv, -, hp⟩ := h.converted
  rw [hφ] at hconv
  cases hconv
  have heff := h.selection_value hp
  have hlt : 4 * (W.length : ℝ) * (((weights p q).map (· ^ 2)).sum / N ^ 2 - ((weights p q).sum / N) ^ 2 / N) <
      ((weights p q).sum / N) ^ 2 := by
    have hmu : 0 < ((weights p q).sum / N) ^ 2 := pow_pos (div_pos h.detected hN) 2
    rw [← selection_eq_samples h.detected hN] at h2
    set r := (((weights p q).map (· ^ 2)).sum / N ^ 2 - ((weights p q).sum / N) ^ 2 / N) / ((weights p q).sum / N) ^ 2
      with hr
    have hr' : ((weights p q).map (· ^ 2)).sum / N ^ 2 - ((weights p q).sum / N) ^ 2 / N =
        r * ((weights p q).sum / N) ^ 2 := by
      rw [hr, div_mul_cancel₀ _ hmu.ne']
    rw [hr']
    have h3 : (W.length : ℝ) * (4 * W.length * r) < W.length * 1 := by nlinarith
    have h4 : 4 * (W.length : ℝ) * r < 1 := lt_of_mul_lt_mul_left h3 hn.le
    nlinarith
  rw [(C41_partial vt φ _ _ h.plain heff).1 hc]
  refine (C41_partial { vt with enforceConvergence := true } φ _ _ h.plain heff).2.1 rfl ?_
  rw [show ({ vt with enforceConvergence := true } : ResamplingVT).nEvents = vt.nEvents from rfl, hnev,
    show (4 : Fl) = fin 4 from ofNat_eq 4, fin_mul, fin_mul, fin_npow, fin_lt]
  exact hlt

/-! ## Non-vacuity -/

/-- The test likelihood with two injections of different weights. -/
def Effective.toyVt : ResamplingVT := { toyResampling .numpy [fin 1, fin 2] 2 false with enforceConvergence := false }

/-- The test likelihood with these injections. -/
def Effective.toyLik (limit : Fl) : Likelihood :=
  { toyLikelihood .hyper (.bare true (fin 1)) limit with selection := toyVt.asSelection }

theorem Effective.toy_weighted (limit : Fl) : Weighted (toyLik limit) toyVt [] [[1, 3], [1, 1]] [1, 2] [1, 1] 2 where
  cls := rfl
  selection := rfl
  plain := rfl
  events := rfl
  converted := by
    refine ⟨[], rfl, ?_, rfl⟩
    have : (toyLik limit).weights [] =
        (toyLikelihood .hyper (.bare true (fin 1)) limit).weights [] := rfl
    rw [this, weights_fin (P := [[1, 3], [2, 2]]) (prior := some [[1, 1], [2, 2]]) rfl rfl, toyWeights]
    intro Q hQ
    cases hQ
    refine ⟨rfl, ?_⟩
    simp
  good := by
    intro w hw
    simp only [List.mem_cons, List.not_mem_nil, or_false] at hw
    rcases hw with rfl | rfl <;> exact ⟨rfl, by norm_num [mean]⟩
  sampling := rfl
  sampling_ne := by simp
  found := rfl
  generated := by simp [toyVt, toyResampling]
  most := by norm_num
  detected := by norm_num [weights]

/-- The variance of the test likelihood: effective numbers `8/5` of 2 samples, 2 of 2 samples and `9/5` of 2
injections. -/
example (limit : Fl) : ∃ l : ℝ, (toyLik limit).lnLikelihoodAndVariance [] =
    .ok (fin l, fin (1 / (8 / 5) - 1 / 2 + (1 / 2 - 1 / 2) + 2 ^ 2 * (1 / (9 / 5) - 1 / 2))) := by
  refine ⟨lnLikelihood [[1, 3], [1, 1]] ((weights [1, 2] [1, 1]).sum / 2),
    (C150_variance (toy_weighted limit) (.inl rfl)).trans ?_⟩
  congr 3
  have : (toyLik limit).samplesPerPosterior = 2 := rfl
  simp [varianceFromSamples, effectiveSamples, weights, this]
  norm_num

theorem Effective.toy_lnL : lnLikelihood [[1, 3], [1, 1]] ((weights [1, 2] [1, 1]).sum / 2) = Real.log (8 / 9) := by
  have h : Real.log (8 / 9) = Real.log 2 - 2 * Real.log (3 / 2) := by
    rw [show (8 / 9 : ℝ) = 2 / (3 / 2) ^ 2 by norm_num, Real.log_div (by norm_num) (by norm_num), Real.log_pow]
    norm_num
  rw [h]
  simp [lnLikelihood, lnBayesFactor, mean, weights]
  norm_num

/-- With a limit of `2/5`, which is below a quarter of the number of events, the point of the test likelihood is
accepted: all hypotheses of `C150_accepted` and `C150_converged` are met. -/
example : (toyLik (fin (2 / 5))).logLikelihoodRatio [] ≠ .ok (fin (-bigR)) ∧
    lnLikelihood [[1, 3], [1, 1]] ((weights [1, 2] [1, 1]).sum / 2) ≤ 2 ^ (969 : ℤ) ∧
    (2 / 5 : ℝ) < ([[1, 3], [1, 1]] : List (List ℝ)).length / 4 ∧
    toyVt.nEvents = fin ([[1, 3], [1, 1]] : List (List ℝ)).length := by
  have hlog0 : Real.log (8 / 9) ≤ 0 := Real.log_nonpos (by norm_num) (by norm_num)
  have hlog1 : -1 ≤ Real.log (8 / 9) := by
    have := Real.one_sub_inv_le_log_of_pos (show (0 : ℝ) < 8 / 9 by norm_num)
    norm_num at this
    linarith
  have hval := C150_variance (toy_weighted (fin (2 / 5))) (.inl rfl)
  rw [toy_lnL] at hval
  refine ⟨?_, ?_, by norm_num, ofNat_eq 2⟩
  · rw [ratio_eq hval]
    unfold cut
    have hV : varianceFromSamples (toyLik (fin (2 / 5))).samplesPerPosterior [[1, 3], [1, 1]]
        (weights [1, 2] [1, 1]) 2 ≤ 2 / 5 := by
      have : (toyLik (fin (2 / 5))).samplesPerPosterior = 2 := rfl
      simp [varianceFromSamples, effectiveSamples, weights, this]
      norm_num
    rw [excess_false (by
      show ¬ fin (2 / 5) < _
      rw [fin_lt]
      exact not_lt.2 hV)]
    have hm := toDouble_mono hlog1
    have h1 : toDouble (fin (-1)) = fin (-1) := by
      refine toDouble_of_isFloat ⟨?_, -1, 0, by norm_num, by norm_num, by norm_num⟩
      rw [abs_neg, abs_one]
      exact (by norm_num : (1 : ℝ) ≤ 2 ^ (1 : ℤ)).trans (two_zpow_le_bigR (by norm_num))
    rw [h1] at hm
    have hm2 := toDouble_mono hlog0
    rw [show toDouble (fin 0) = fin 0 from fl64_zero] at hm2
    cases hd : toDouble (fin (Real.log (8 / 9))) with
    | fin y =>
      rw [hd, fin_le] at hm
      have hf := toDouble_isFloat (fin (Real.log (8 / 9)))
      rw [hd] at hf
      have e : nanToNumWith ninf (fin bigR) (fin (-bigR)) (fin y) = fin y := rfl
      rw [e, fin_sub, sub_zero, toDouble_of_isFloat hf]
      intro hcon
      have := Except.ok.inj hcon
      rw [show nanToNum (fin y) = fin y from rfl, fin_inj] at this
      have hb : (2 : ℝ) ^ (1 : ℤ) ≤ bigR := two_zpow_le_bigR (by norm_num)
      rw [zpow_one] at hb
      linarith
    | ninf => rw [hd] at hm; simp at hm
    | pinf => rw [hd] at hm2; simp at hm2
    | nan => rw [hd] at hm; simp at hm
  · rw [toy_lnL]
    exact hlog0.trans (by positivity)

end GW
