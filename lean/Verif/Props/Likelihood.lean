import Verif.Model.HyperPE
import Verif.Lemmas.Round
import Verif.Props.Resampling
import Mathlib.MeasureTheory.Integral.Gamma

/-!
# Properties of the likelihoods: C44 to C49
-/

noncomputable section

open Classical

namespace GW

open Fl Spec

/-- A real matrix as an array of floats. -/
def matFin (P : List (List ℝ)) : Mat := P.map fun r => r.map fin

/-! ## Specification -/

/-- The importance weights of all events: prior densities of the population model divided by the
sampling prior, if there is one. -/
def Spec.importance (P : List (List ℝ)) : Option (List (List ℝ)) → List (List ℝ)
  | none => P
  | some Q => List.zipWith (List.zipWith (· / ·)) P Q

/-- The logarithm of the Monte Carlo estimate of the evidence of one event. -/
def Spec.lnBayesFactor (w : List ℝ) : ℝ := Real.log (mean w)

/-- The relative variance of that estimate: `(mean w^2 - (mean w)^2) / (K (mean w)^2)`. -/
def Spec.relativeVariance (w : List ℝ) : ℝ :=
  (mean (w.map (· ^ 2)) - mean w ^ 2) / (w.length * mean w ^ 2)

/-- The log-likelihood of `N` events with detection probability `pdet`. -/
def Spec.lnLikelihood (W : List (List ℝ)) (pdet : ℝ) : ℝ :=
  (W.map lnBayesFactor).sum - W.length * Real.log pdet

/-- Its variance. -/
def Spec.lnLikelihoodVariance (W : List (List ℝ)) (pdet varDet : ℝ) : ℝ :=
  (W.map relativeVariance).sum + (W.length : ℝ) ^ 2 * (varDet / pdet ^ 2)

/-- All events have `K` samples and a positive mean weight. -/
def Spec.GoodWeights (K : ℕ) (W : List (List ℝ)) : Prop := ∀ w ∈ W, w.length = K ∧ 0 < mean w

/-- What the selection function reports: a number, or a number with its variance. -/
def Spec.reports (r : SelResult) (pdet varDet : ℝ) : Prop :=
  (∃ py, r = .pair py (fin pdet) (fin varDet)) ∨ (∃ py, r = .bare py (fin pdet)) ∧ varDet = 0

/-! ## The weights and the per-event estimates -/

theorem matFin_lengths (P : List (List ℝ)) : (matFin P).map List.length = P.map List.length := by
  simp [matFin]

theorem zipWith_matFin {P Q : List (List ℝ)} (hQ : ∀ q ∈ Q, ∀ x ∈ q, x ≠ 0) :
    List.zipWith (List.zipWith (· / ·)) (matFin P) (matFin Q) =
      matFin (List.zipWith (List.zipWith (· / ·)) P Q) := by
  unfold matFin
  induction P generalizing Q with
  | nil => simp
  | cons a P ih =>
    cases Q with
    | nil => simp
    | cons b Q =>
      simp only [List.map_cons, List.zipWith_cons_cons]
      rw [ih fun q hq => hQ q (by simp [hq])]
      congr 1
      exact zipWith_div_fin fun x hx => hQ b (by simp) x hx

theorem weights_fin {self : Likelihood} {θ : Dict Fl} {P : List (List ℝ)}
    {prior : Option (List (List ℝ))}
    (hp : self.hyperPrior.prob self.data θ = .ok (matFin P))
    (hprior : self.samplingPrior = prior.map matFin)
    (hshape : ∀ Q ∈ prior, Q.map List.length = P.map List.length ∧ ∀ q ∈ Q, ∀ x ∈ q, x ≠ 0) :
    self.weights θ = .ok (matFin (importance P prior)) := by
  unfold Likelihood.weights
  rw [hp, ok_bind, hprior]
  cases prior with
  | none =>
    simp only [Option.map_none, pure_eq_ok, importance]
    congr 1
    unfold matFin
    rw [List.map_map]
    refine List.map_congr_left fun r _ => ?_
    simp only [Function.comp, List.map_map]
    refine List.map_congr_left fun x _ => ?_
    simp only [Function.comp, one_eq]
    rw [fin_div one_ne_zero, div_one]
  | some Q =>
    obtain ⟨h1, h2⟩ := hshape Q rfl
    simp only [Option.map_some, importance, Mat.divide]
    rw [if_pos (by rw [matFin_lengths, matFin_lengths, h1]), zipWith_matFin h2]

theorem mean_fin {w : List ℝ} (h : w ≠ []) : Arr.mean (w.map fin) = fin (mean w) := by
  unfold Arr.mean mean
  rw [sum_fin, natCast_eq, List.length_map, fin_div]
  rw [Nat.cast_ne_zero]
  exact fun h' => h (List.length_eq_zero_iff.1 h')

theorem ne_nil_of_mean_pos {w : List ℝ} (h : 0 < mean w) : w ≠ [] := by
  rintro rfl
  simp [mean] at h

theorem perEvent_row {w : List ℝ} {K : ℕ} (hK : w.length = K) (h : 0 < mean w) :
    ((Fl.log (Arr.mean (w.map fin)),
      (Arr.mean ((w.map fin).map (· ^ 2)) - Arr.mean (w.map fin) ^ 2) /
        ((K : Fl) * Arr.mean (w.map fin) ^ 2)) : Fl × Fl) =
      (fin (lnBayesFactor w), fin (relativeVariance w)) := by
  have hw := ne_nil_of_mean_pos h
  have hl : (w.length : ℝ) ≠ 0 := by
    rw [Nat.cast_ne_zero]
    exact fun h' => hw (List.length_eq_zero_iff.1 h')
  rw [map_sq_fin, mean_fin hw, mean_fin (by simpa using hw), log_fin h, fin_npow, fin_sub,
    natCast_eq, fin_mul, ← hK, fin_div (mul_ne_zero hl (pow_ne_zero 2 h.ne'))]
  rfl

theorem perEvent_fin {self : Likelihood} {θ : Dict Fl} {W : List (List ℝ)}
    (hw : self.weights θ = .ok (matFin W)) (hgood : GoodWeights self.samplesPerPosterior W) :
    self.perEvent θ = .ok (W.map fun w => (fin (lnBayesFactor w), fin (relativeVariance w))) := by
  unfold Likelihood.perEvent
  rw [hw, ok_bind, pure_eq_ok, matFin, List.map_map]
  congr 1
  refine List.map_congr_left fun w hmem => ?_
  obtain ⟨h1, h2⟩ := hgood w hmem
  exact perEvent_row h1 h2

theorem sum_map_fin {α : Type} (l : List α) (f : α → ℝ) :
    Arr.sum (l.map fun x => fin (f x)) = fin (l.map f).sum := by
  unfold Arr.sum
  rw [← sum_fin, List.map_map]
  rfl

theorem selection_fin {self : Likelihood} {θ : Dict Fl} {r : SelResult} {pdet varDet : ℝ}
    (hs : self.selection.call θ = .ok r) (hr : reports r pdet varDet) :
    ∃ py, self.selectionWithUncertainty θ = .ok (py, fin pdet, fin varDet) := by
  unfold Likelihood.selectionWithUncertainty
  rw [hs]
  rcases hr with ⟨py, rfl⟩ | ⟨⟨py, rfl⟩, rfl⟩
  · exact ⟨py, rfl⟩
  · exact ⟨py, rfl⟩

/-! ## C44: the estimator -/

/-- For every number of events and samples, population model, sampling prior and selection function,
`ln_likelihood_and_variance` is the documented estimator, evaluated at the converted parameters; a
selection function that returns a bare number has variance 0. -/
theorem C44_estimator {self : Likelihood} (hcls : self.cls = .hyper) {θ φ : Dict Fl}
    (hconv : self.conversion θ = .ok φ) {P : List (List ℝ)} {prior : Option (List (List ℝ))}
    (hN : P.length = self.nPosteriors)
    (hp : self.hyperPrior.prob self.data φ = .ok (matFin P))
    (hprior : self.samplingPrior = prior.map matFin)
    (hshape : ∀ Q ∈ prior, Q.map List.length = P.map List.length ∧ ∀ q ∈ Q, ∀ x ∈ q, x ≠ 0)
    (hgood : GoodWeights self.samplesPerPosterior (importance P prior))
    {r : SelResult} {pdet varDet : ℝ} (hs : self.selection.call φ = .ok r)
    (hr : reports r pdet varDet) (hpdet : 0 < pdet) :
    self.lnLikelihoodAndVariance θ = .ok
      (fin (lnLikelihood (importance P prior) pdet),
        fin (lnLikelihoodVariance (importance P prior) pdet varDet)) := by
  have hlen : (importance P prior).length = self.nPosteriors := by
    cases prior with
    | none => exact hN
    | some Q =>
      have := congrArg List.length (hshape Q rfl).1
      simp only [List.length_map] at this
      simp [importance, this, hN]
  obtain ⟨py, hsel⟩ := selection_fin hs hr
  unfold Likelihood.lnLikelihoodAndVariance Likelihood.lnLikelihoodAndVarianceBase
    Likelihood.selectionFactor Likelihood.selectionFactorHyper
  simp only [hconv, ok_bind, perEvent_fin (weights_fin hp hprior hshape) hgood, hcls, hsel,
    pure_eq_ok, List.map_map, Function.comp_def, sum_map_fin, log_fin hpdet, natCast_eq, fin_neg,
    fin_mul, fin_npow, fin_div (pow_ne_zero 2 hpdet.ne'), fin_add, toNumber, ite_self, id]
  congr 2
  · unfold lnLikelihood
    rw [hlen]
    congr 1
    ring
  · unfold lnLikelihoodVariance
    rw [hlen]

/-- A small likelihood object used in examples: two events with two samples, a flat population model
and a selection function with result `r`. -/
def toyLikelihood (cls : LikelihoodClass) (r : SelResult) (limit : Fl) : Likelihood where
  cls := cls
  backend := .numpy
  data := [("mass_1", matFin [[1, 2], [3, 4]])]
  hyperPrior := ⟨[.other], fun _ _ => .ok (matFin [[1, 3], [2, 2]])⟩
  samplingPrior := some (matFin [[1, 1], [2, 2]])
  totalNoiseEvidence := fin 0
  conversion := fun θ => .ok θ
  selection := ⟨fun _ => .ok r, none⟩
  nPosteriors := 2
  samplesPerPosterior := 2
  maximumUncertainty := limit
  maxVariance := pinf

theorem toyWeights : importance [[1, 3], [2, 2]] (some [[1, 1], [2, 2]]) =
    ([[1, 3], [1, 1]] : List (List ℝ)) := by
  simp [importance]

theorem toyGood : GoodWeights 2 [[1, 3], [1, 1]] := by
  intro w hw
  simp only [List.mem_cons, List.not_mem_nil, or_false] at hw
  rcases hw with rfl | rfl <;> refine ⟨rfl, ?_⟩ <;> norm_num [mean]

theorem toyShape : ∀ Q ∈ (some [[1, 1], [2, 2]] : Option (List (List ℝ))),
    Q.map List.length = ([[1, 3], [2, 2]] : List (List ℝ)).map List.length ∧
      ∀ q ∈ Q, ∀ x ∈ q, x ≠ 0 := by
  intro Q hQ
  rw [Option.mem_some_iff] at hQ
  subst hQ
  refine ⟨rfl, ?_⟩
  intro q hq x hx
  simp only [List.mem_cons, List.not_mem_nil, or_false] at hq
  rcases hq with rfl | rfl <;> simp at hx <;> rw [hx] <;> norm_num

theorem toyPerEvent (cls : LikelihoodClass) (r : SelResult) (limit : Fl) (θ : Dict Fl) :
    (toyLikelihood cls r limit).perEvent θ = .ok
      ([[1, 3], [1, 1]].map fun w => (fin (lnBayesFactor w), fin (relativeVariance w))) := by
  have := weights_fin (self := toyLikelihood cls r limit) (θ := θ) (P := [[1, 3], [2, 2]])
    (prior := some [[1, 1], [2, 2]]) rfl rfl toyShape
  rw [toyWeights] at this
  exact perEvent_fin this toyGood

theorem toyValue (r : SelResult) (limit : Fl) (θ : Dict Fl) {pdet varDet : ℝ}
    (hr : reports r pdet varDet) (hpdet : 0 < pdet) :
    (toyLikelihood .hyper r limit).lnLikelihoodAndVariance θ = .ok
      (fin (lnLikelihood [[1, 3], [1, 1]] pdet),
        fin (lnLikelihoodVariance [[1, 3], [1, 1]] pdet varDet)) := by
  have := C44_estimator (self := toyLikelihood .hyper r limit) rfl (θ := θ) rfl
    (P := [[1, 3], [2, 2]]) (prior := some [[1, 1], [2, 2]]) rfl rfl rfl toyShape
    (by rw [toyWeights]; exact toyGood) rfl hr hpdet
  rwa [toyWeights] at this

/-- The hypotheses of `C44_estimator` hold for two events with different weights, a selection
function with variance and one without, and the variances are what one computes by hand:
`(5 - 4) / (2 * 4)` for the first event and 0 for the second. -/
example : (toyLikelihood .hyper (.pair true (fin (1 / 2)) (fin (1 / 100))) pinf
      ).lnLikelihoodAndVariance [] = .ok
      (fin (Real.log 2 + Real.log 1 - 2 * Real.log (1 / 2)),
        fin (1 / 8 + 4 * ((1 / 100) / (1 / 2) ^ 2))) ∧
    (toyLikelihood .hyper (.bare true (fin (1 / 2))) pinf).lnLikelihoodAndVariance [] = .ok
      (fin (Real.log 2 + Real.log 1 - 2 * Real.log (1 / 2)), fin (1 / 8)) := by
  constructor
  · rw [toyValue _ _ _ (.inl ⟨true, rfl⟩) (by norm_num)]
    norm_num [lnLikelihood, lnLikelihoodVariance]
    norm_num [lnBayesFactor, relativeVariance, mean]
  · rw [toyValue _ _ _ (.inr ⟨⟨true, rfl⟩, rfl⟩) (by norm_num)]
    norm_num [lnLikelihood, lnLikelihoodVariance]
    norm_num [lnBayesFactor, relativeVariance, mean]

/-! ## C45: the variances -/

theorem sum_nonneg_of {w : List ℝ} (h : ∀ x ∈ w, 0 ≤ x) : 0 ≤ w.sum := List.sum_nonneg h

theorem sum_sq_le {w : List ℝ} (h : ∀ x ∈ w, 0 ≤ x) : (w.map (· ^ 2)).sum ≤ w.sum ^ 2 := by
  induction w with
  | nil => simp
  | cons a w ih =>
    simp only [List.map_cons, List.sum_cons]
    have h1 := ih fun x hx => h x (by simp [hx])
    have h2 := h a (by simp)
    have h3 := sum_nonneg_of fun x hx => h x (List.mem_cons_of_mem a hx)
    nlinarith [mul_nonneg h2 h3]

theorem mean_sq_sub {w : List ℝ} (hw : w ≠ []) :
    mean (w.map (· ^ 2)) - mean w ^ 2 = (w.map fun x => (x - mean w) ^ 2).sum / w.length := by
  have hl : (w.length : ℝ) ≠ 0 := by
    rw [Nat.cast_ne_zero]
    exact fun h' => hw (List.length_eq_zero_iff.1 h')
  rw [sum_sq_sub]
  unfold mean
  rw [List.length_map]
  field_simp
  ring

theorem relativeVariance_eq {w : List ℝ} (hw : w ≠ []) : relativeVariance w =
    (w.map fun x => (x - mean w) ^ 2).sum / w.length / (w.length * mean w ^ 2) := by
  unfold relativeVariance
  rw [mean_sq_sub hw]

theorem relativeVariance_nonneg (w : List ℝ) (hw : w ≠ []) : 0 ≤ relativeVariance w := by
  rw [relativeVariance_eq hw]
  have : 0 ≤ (w.map fun x => (x - mean w) ^ 2).sum := by
    refine sum_nonneg_of fun x hx => ?_
    obtain ⟨y, -, rfl⟩ := List.mem_map.1 hx
    positivity
  positivity

theorem relativeVariance_lt_one {w : List ℝ} (h0 : ∀ x ∈ w, 0 ≤ x) (hm : 0 < mean w) :
    relativeVariance w < 1 := by
  have hw := ne_nil_of_mean_pos hm
  have hl : (0 : ℝ) < w.length := by
    rw [Nat.cast_pos]
    exact List.length_pos_iff.2 hw
  have hsq := sum_sq_le h0
  have e1 : mean (w.map (· ^ 2)) = (w.map (· ^ 2)).sum / w.length := by
    unfold mean; rw [List.length_map]
  have e2 : w.sum = w.length * mean w := by unfold mean; field_simp
  unfold relativeVariance
  rw [div_lt_one (by positivity), e1, div_sub' hl.ne', div_lt_iff₀ hl]
  rw [e2] at hsq
  have : 0 < (w.length : ℝ) * mean w ^ 2 := by positivity
  nlinarith

theorem sum_eq_zero_iff {l : List ℝ} (h : ∀ x ∈ l, 0 ≤ x) : l.sum = 0 ↔ ∀ x ∈ l, x = 0 := by
  induction l with
  | nil => simp
  | cons a l ih =>
    have h1 := h a (by simp)
    have h2 : ∀ x ∈ l, 0 ≤ x := fun x hx => h x (by simp [hx])
    have h3 := sum_nonneg_of h2
    rw [List.sum_cons, List.forall_mem_cons, ← ih h2]
    constructor
    · intro h
      constructor <;> linarith
    · rintro ⟨h, h'⟩
      rw [h, h', add_zero]

theorem relativeVariance_eq_zero {w : List ℝ} (hm : 0 < mean w) :
    relativeVariance w = 0 ↔ ∀ x ∈ w, ∀ y ∈ w, x = y := by
  have hw := ne_nil_of_mean_pos hm
  have hl : (0 : ℝ) < w.length := by
    rw [Nat.cast_pos]
    exact List.length_pos_iff.2 hw
  rw [relativeVariance_eq hw, div_eq_zero_iff, or_iff_left (by positivity), div_eq_zero_iff,
    or_iff_left hl.ne', sum_eq_zero_iff]
  · constructor
    · intro h x hx y hy
      have hx := h _ (List.mem_map.2 ⟨x, hx, rfl⟩)
      have hy := h _ (List.mem_map.2 ⟨y, hy, rfl⟩)
      have hx := pow_eq_zero_iff (two_ne_zero) |>.1 hx
      have hy := pow_eq_zero_iff (two_ne_zero) |>.1 hy
      linarith
    · intro h z hz
      obtain ⟨x, hx, rfl⟩ := List.mem_map.1 hz
      have : mean w = x := by
        have : w = List.replicate w.length x := by
          rw [List.eq_replicate_iff]
          exact ⟨rfl, fun y hy => h y hy x hx⟩
        unfold mean
        rw [this]
        simp only [List.sum_replicate, List.length_replicate, nsmul_eq_mul]
        field_simp
      rw [this]
      simp
  · intro z hz
    obtain ⟨x, -, rfl⟩ := List.mem_map.1 hz
    positivity

/-- For finite non-negative weights with positive mean, each per-event variance is in `[0, 1)`, and
is 0 exactly if all weights of the event are equal. -/
theorem C45_per_event {self : Likelihood} {θ : Dict Fl} {W : List (List ℝ)}
    (hw : self.weights θ = .ok (matFin W)) (hgood : GoodWeights self.samplesPerPosterior W)
    (h0 : ∀ w ∈ W, ∀ x ∈ w, 0 ≤ x) :
    ∃ events, self.perEvent θ = .ok events ∧ events.length = W.length ∧
      ∀ i (hi : i < events.length) (hi' : i < W.length),
        ∃ v : ℝ, events[i].2 = fin v ∧ 0 ≤ v ∧ v < 1 ∧
          (v = 0 ↔ ∀ x ∈ W[i], ∀ y ∈ W[i], x = y) := by
  refine ⟨_, perEvent_fin hw hgood, by simp, fun i hi hi' => ?_⟩
  have hmem : W[i] ∈ W := List.getElem_mem hi'
  obtain ⟨-, hm⟩ := hgood _ hmem
  refine ⟨relativeVariance W[i], by simp, relativeVariance_nonneg _ (ne_nil_of_mean_pos hm),
    relativeVariance_lt_one (h0 _ hmem) hm, relativeVariance_eq_zero hm⟩

/-- The total variance of the log-likelihood is non-negative if the selection variance is. -/
theorem C45_total {self : Likelihood} (hcls : self.cls = .hyper) {θ φ : Dict Fl}
    (hconv : self.conversion θ = .ok φ) {W : List (List ℝ)}
    (hw : self.weights φ = .ok (matFin W)) (hgood : GoodWeights self.samplesPerPosterior W)
    {r : SelResult} {pdet varDet : ℝ} (hs : self.selection.call φ = .ok r)
    (hr : reports r pdet varDet) (hpdet : 0 < pdet) (hv : 0 ≤ varDet) :
    ∃ l v : ℝ, self.lnLikelihoodAndVariance θ = .ok (fin l, fin v) ∧ 0 ≤ v := by
  obtain ⟨py, hsel⟩ := selection_fin hs hr
  refine ⟨(W.map lnBayesFactor).sum + -self.nPosteriors * Real.log pdet,
    (W.map relativeVariance).sum + (self.nPosteriors : ℝ) ^ 2 * (varDet / pdet ^ 2), ?_, ?_⟩
  · unfold Likelihood.lnLikelihoodAndVariance Likelihood.lnLikelihoodAndVarianceBase
      Likelihood.selectionFactor Likelihood.selectionFactorHyper
    simp only [hconv, ok_bind, perEvent_fin hw hgood, hcls, hsel,
      pure_eq_ok, List.map_map, Function.comp_def, sum_map_fin, log_fin hpdet, natCast_eq, fin_neg,
      fin_mul, fin_npow, fin_div (pow_ne_zero 2 hpdet.ne'), fin_add, toNumber, ite_self, id]
  · have : 0 ≤ (W.map relativeVariance).sum := by
      refine sum_nonneg_of fun x hx => ?_
      obtain ⟨w, hw, rfl⟩ := List.mem_map.1 hx
      exact relativeVariance_nonneg w (ne_nil_of_mean_pos (hgood w hw).2)
    positivity

/-- The hypotheses of `C45_per_event` and `C45_total` hold for an event with unequal weights and one
with equal weights. -/
example : ∃ self : Likelihood, ∃ W : List (List ℝ), self.weights [] = .ok (matFin W) ∧
    GoodWeights self.samplesPerPosterior W ∧ (∀ w ∈ W, ∀ x ∈ w, 0 ≤ x) ∧ W = [[1, 3], [1, 1]] := by
  refine ⟨toyLikelihood .hyper (.bare true (fin 1)) pinf, [[1, 3], [1, 1]], ?_, toyGood, ?_, rfl⟩
  · have := weights_fin (self := toyLikelihood .hyper (.bare true (fin 1)) pinf) (θ := [])
      (P := [[1, 3], [2, 2]]) (prior := some [[1, 1], [2, 2]]) rfl rfl toyShape
    rwa [toyWeights] at this
  · intro w hw x hx
    simp only [List.mem_cons, List.not_mem_nil, or_false] at hw
    rcases hw with rfl | rfl <;> simp at hx
    · rcases hx with rfl | rfl <;> norm_num
    · rw [hx]; norm_num

/-! ## C46: the ratio is finite -/

/-- The ratio in terms of the estimate and its variance. -/
def Spec.cut (limit l v : Fl) : Fl :=
  nanToNum (toDouble (nanToNumWith ninf (fin bigR) (fin (-bigR)) (toDouble l) -
    nanToNumWith 0 (fin bigR) (fin (-bigR)) (pinf * ind (limit < v))))

theorem ratio_eq {self : Likelihood} {θ : Dict Fl} {l v : Fl}
    (h : self.lnLikelihoodAndVariance θ = .ok (l, v)) :
    self.logLikelihoodRatio θ = .ok (cut self.maximumUncertainty l v) := by
  unfold Likelihood.logLikelihoodRatio
  simp only [h, ok_bind, pure_eq_ok, toNumber, ite_self, id]
  rfl

theorem nanToNum_range {x : Fl} (h : IsFloat x) :
    ∃ r : ℝ, nanToNum x = fin r ∧ -bigR ≤ r ∧ r ≤ bigR := by
  have hb := bigR_pos
  cases x with
  | fin r => exact ⟨r, rfl, abs_le.1 h.1⟩
  | pinf => exact ⟨bigR, rfl, by linarith, le_refl _⟩
  | ninf => exact ⟨-bigR, rfl, le_refl _, by linarith⟩
  | nan => exact ⟨0, rfl, by linarith, hb.le⟩

theorem excess_true {p : Prop} (h : p) :
    nanToNumWith 0 (fin bigR) (fin (-bigR)) (pinf * ind p) = fin bigR := by
  rw [ind_true h, pinf_mul_fin, signInf_one]
  rfl

theorem excess_false {p : Prop} (h : ¬ p) :
    nanToNumWith 0 (fin bigR) (fin (-bigR)) (pinf * ind p) = fin 0 := by
  rw [ind_false h, pinf_mul_fin, signInf_zero]
  rfl

/-- Whatever the estimate, the variance and the limit are, including NaN and infinities,
`log_likelihood_ratio` returns a finite double. -/
theorem C46_finite {self : Likelihood} {θ : Dict Fl} {l v : Fl}
    (h : self.lnLikelihoodAndVariance θ = .ok (l, v)) :
    ∃ r : ℝ, self.logLikelihoodRatio θ = .ok (fin r) ∧ -bigR ≤ r ∧ r ≤ bigR := by
  obtain ⟨r, hr, h'⟩ := nanToNum_range (toDouble_isFloat
    (nanToNumWith ninf (fin bigR) (fin (-bigR)) (toDouble l) -
      nanToNumWith 0 (fin bigR) (fin (-bigR)) (pinf * ind (self.maximumUncertainty < v))))
  refine ⟨r, ?_, h'⟩
  rw [ratio_eq h]
  unfold cut
  rw [hr]

/-- A NaN estimate gives the lowest finite float. -/
theorem C46_nan {self : Likelihood} {θ : Dict Fl} {v : Fl}
    (h : self.lnLikelihoodAndVariance θ = .ok (nan, v)) :
    self.logLikelihoodRatio θ = .ok (fin (-bigR)) := by
  rw [ratio_eq h]
  unfold cut
  by_cases hc : self.maximumUncertainty < v
  · rw [excess_true hc]; rfl
  · rw [excess_false hc]; rfl

/-- An estimate of minus infinity, which is what an event with all weights zero gives, also gives
the lowest finite float. -/
theorem C46_ninf {self : Likelihood} {θ : Dict Fl} {v : Fl}
    (h : self.lnLikelihoodAndVariance θ = .ok (ninf, v)) :
    self.logLikelihoodRatio θ = .ok (fin (-bigR)) := by
  rw [ratio_eq h]
  unfold cut
  have e : nanToNumWith ninf (fin bigR) (fin (-bigR)) (toDouble ninf) = fin (-bigR) := rfl
  rw [e]
  by_cases hc : self.maximumUncertainty < v
  · rw [excess_true hc, fin_sub]
    have : (-bigR : ℝ) < 2 ^ (970 : ℤ) := lt_trans (neg_lt_zero.2 bigR_pos) (by positivity)
    exact congrArg _ (nanToNum_fl64_sub_bigR this)
  · rw [excess_false hc, fin_sub, sub_zero, toDouble, fl64_neg_bigR, nanToNum_fin]

/-- A likelihood object whose only event has all weights zero; the estimate is minus infinity and
its variance NaN. -/
def emptyEvent : Likelihood :=
  { toyLikelihood .hyper (.bare true (fin 1)) pinf with
    hyperPrior := ⟨[.other], fun _ _ => .ok [[fin 0, fin 0]]⟩
    samplingPrior := none
    nPosteriors := 1 }

theorem emptyEvent_value : emptyEvent.lnLikelihoodAndVariance [] = .ok (ninf, nan) := by
  unfold Likelihood.lnLikelihoodAndVariance Likelihood.lnLikelihoodAndVarianceBase
    Likelihood.selectionFactor Likelihood.selectionFactorHyper Likelihood.perEvent
    Likelihood.weights Likelihood.selectionWithUncertainty
  have h2 : (2 : ℝ) ≠ 0 := by norm_num
  simp [emptyEvent, toyLikelihood, ok_bind, pure_eq_ok, Arr.mean, Arr.sum, toNumber,
    fin_div h2, fin_div one_ne_zero, log_fin one_pos]

/-- Special values are reachable: an event outside the support of the model. -/
example : emptyEvent.lnLikelihoodAndVariance [] = .ok (ninf, nan) ∧
    emptyEvent.logLikelihoodRatio [] = .ok (fin (-bigR)) :=
  ⟨emptyEvent_value, C46_ninf emptyEvent_value⟩

/-! ## C47: the uncertainty cut -/

/-- Points whose standard deviation is larger than `maximum_uncertainty` are rejected, others are
returned unchanged. -/
def C47_statement : Prop :=
  ∀ (self : Likelihood) (θ : Dict Fl) (l v u : ℝ),
    self.lnLikelihoodAndVariance θ = .ok (fin l, fin v) → IsFloat (fin l) → l < 2 ^ (970 : ℤ) →
    0 ≤ v → 0 ≤ u → self.maximumUncertainty = fin u →
    self.logLikelihoodRatio θ = .ok (fin (if u < Real.sqrt v then -bigR else l))

/-- What the code does instead: it compares the limit with the variance. For every estimate below
`2 ^ 970` (and for NaN and minus infinity, see `C46_nan` and `C46_ninf`), a variance larger than the
limit gives the lowest float. -/
theorem C47_rejected_partial {self : Likelihood} {θ : Dict Fl} {l : ℝ} {v : Fl}
    (h : self.lnLikelihoodAndVariance θ = .ok (fin l, v)) (hl : IsFloat (fin l))
    (hl2 : l < 2 ^ (970 : ℤ)) (hc : self.maximumUncertainty < v) :
    self.logLikelihoodRatio θ = .ok (fin (-bigR)) := by
  rw [ratio_eq h]
  unfold cut
  rw [excess_true hc, toDouble_of_isFloat hl]
  have e : nanToNumWith ninf (fin bigR) (fin (-bigR)) (fin l) = fin l := rfl
  rw [e, fin_sub]
  exact congrArg _ (nanToNum_fl64_sub_bigR hl2)

/-- If the variance is not larger than the limit, or one of them is NaN, the estimate is
returned unchanged. -/
theorem C47_accepted_partial {self : Likelihood} {θ : Dict Fl} {l : ℝ} {v : Fl}
    (h : self.lnLikelihoodAndVariance θ = .ok (fin l, v)) (hl : IsFloat (fin l))
    (hc : ¬ self.maximumUncertainty < v) : self.logLikelihoodRatio θ = .ok (fin l) := by
  rw [ratio_eq h]
  unfold cut
  rw [excess_false hc, toDouble_of_isFloat hl]
  have e : nanToNumWith ninf (fin bigR) (fin (-bigR)) (fin l) = fin l := rfl
  rw [e, fin_sub, sub_zero, toDouble_of_isFloat hl]
  rfl

/-- The property holds at the points where limit and squared limit are on the same side of the
variance, in particular for a limit of 1 and for an infinite limit. -/
theorem C47_agreement_partial {self : Likelihood} {θ : Dict Fl} {l v u : ℝ}
    (h : self.lnLikelihoodAndVariance θ = .ok (fin l, fin v)) (hl : IsFloat (fin l))
    (hl2 : l < 2 ^ (970 : ℤ)) (hu : 0 ≤ u) (hlim : self.maximumUncertainty = fin u)
    (hside : u < v ↔ u ^ 2 < v) :
    self.logLikelihoodRatio θ = .ok (fin (if u < Real.sqrt v then -bigR else l)) := by
  have hsq : u < Real.sqrt v ↔ u < v := by rw [Real.lt_sqrt hu, hside]
  by_cases hc : u < v
  · rw [if_pos (hsq.2 hc)]
    exact C47_rejected_partial h hl hl2 (by rw [hlim]; exact hc)
  · rw [if_neg (fun h' => hc (hsq.1 h'))]
    exact C47_accepted_partial h hl (by rw [hlim]; exact hc)

/-- An infinite estimate with too large a variance is not rejected: the result is 0. This is what a
selection function with `(0, variance)` gives. -/
theorem C47_infinite_partial {self : Likelihood} {θ : Dict Fl} {v : Fl}
    (h : self.lnLikelihoodAndVariance θ = .ok (pinf, v)) (hc : self.maximumUncertainty < v) :
    self.logLikelihoodRatio θ = .ok (fin 0) := by
  rw [ratio_eq h]
  unfold cut
  rw [excess_true hc]
  have e : nanToNumWith ninf (fin bigR) (fin (-bigR)) (toDouble pinf) = fin bigR := rfl
  rw [e, fin_sub, sub_self, toDouble, fl64_zero, nanToNum_fin]

/-- An object with one event of constant weights, so that the variance is that of the selection
function. -/
def flatEvent (cls : LikelihoodClass) (r : SelResult) (limit : Fl) : Likelihood :=
  { toyLikelihood cls r limit with
    hyperPrior := ⟨[.other], fun _ _ => .ok (matFin [[1, 1]])⟩
    samplingPrior := none
    nPosteriors := 1 }

theorem flatGood : GoodWeights 2 [[1, 1]] := by
  intro w hw
  simp only [List.mem_cons, List.not_mem_nil, or_false] at hw
  rw [hw]
  exact ⟨rfl, by norm_num [mean]⟩

theorem flatEvent_value {r : SelResult} {pdet varDet : ℝ} (hr : reports r pdet varDet)
    (hpdet : 0 < pdet) (limit : Fl) (θ : Dict Fl) :
    (flatEvent .hyper r limit).lnLikelihoodAndVariance θ = .ok
      (fin (-Real.log pdet), fin (varDet / pdet ^ 2)) := by
  have := C44_estimator (self := flatEvent .hyper r limit) rfl (θ := θ) rfl
    (P := [[1, 1]]) (prior := none) rfl rfl rfl (by simp) flatGood rfl hr hpdet
  rw [this]
  norm_num [importance, lnLikelihood, lnLikelihoodVariance]
  norm_num [lnBayesFactor, relativeVariance, mean]

theorem isFloat_zero : IsFloat (fin 0) :=
  ⟨by rw [abs_zero]; exact bigR_pos.le, isDouble_zero⟩

/-- A limit of 2 rejects a point with variance 3, although its standard deviation is below 2. -/
theorem C47_fails : ¬ C47_statement := by
  intro H
  have hv : (flatEvent .hyper (.pair true (fin 1) (fin 3)) (fin 2)).lnLikelihoodAndVariance [] =
      .ok (fin 0, fin 3) := by
    rw [flatEvent_value (.inl ⟨true, rfl⟩) one_pos]
    norm_num
  have h970 : (0 : ℝ) < 2 ^ (970 : ℤ) := by positivity
  have h1 := H _ [] 0 3 2 hv isFloat_zero h970 (by norm_num) (by norm_num) rfl
  have h2 := C47_rejected_partial hv isFloat_zero h970 (show fin 2 < fin 3 by
    rw [fin_lt]; norm_num)
  rw [if_neg (by rw [Real.lt_sqrt (by norm_num)]; norm_num)] at h1
  rw [h1] at h2
  have := Except.ok.inj h2
  rw [fin_inj] at this
  have hb := bigR_pos
  linarith only [this, hb]

/-- Both outcomes occur, and so does the infinite estimate: with the selection `(0, 1)`. -/
example : (∃ self : Likelihood, self.lnLikelihoodAndVariance [] = .ok (fin 0, fin 3) ∧
      self.maximumUncertainty < fin 3) ∧
    (∃ self : Likelihood, self.lnLikelihoodAndVariance [] = .ok (fin 0, fin 3) ∧
      ¬ self.maximumUncertainty < fin 3) ∧
    (∃ self : Likelihood, self.lnLikelihoodAndVariance [] = .ok (pinf, pinf) ∧
      self.maximumUncertainty < pinf) := by
  refine ⟨⟨flatEvent .hyper (.pair true (fin 1) (fin 3)) (fin 2), ?_, ?_⟩,
    ⟨flatEvent .hyper (.pair true (fin 1) (fin 3)) pinf, ?_, ?_⟩,
    ⟨flatEvent .hyper (.pair true (fin 0) (fin 1)) (fin 2), ?_, ?_⟩⟩
  · rw [flatEvent_value (.inl ⟨true, rfl⟩) one_pos]; norm_num
  · show fin 2 < fin 3
    rw [fin_lt]; norm_num
  · rw [flatEvent_value (.inl ⟨true, rfl⟩) one_pos]; norm_num
  · exact pinf_not_lt
  · unfold Likelihood.lnLikelihoodAndVariance Likelihood.lnLikelihoodAndVarianceBase
      Likelihood.selectionFactor Likelihood.selectionFactorHyper Likelihood.perEvent
      Likelihood.weights Likelihood.selectionWithUncertainty
    have h2 : (2 : ℝ) ≠ 0 := by norm_num
    have h3 : (-1 : ℝ) < 0 := by norm_num
    simp [flatEvent, toyLikelihood, ok_bind, pure_eq_ok, Arr.mean, Arr.sum, toNumber, matFin,
      fin_div h2, fin_div one_ne_zero]
    norm_num [log_fin, signInf_pos, fin_div]
  · exact fin_lt_pinf

/-! ## C48: the null likelihood -/

/-- The null likelihood has log-likelihood 0 and the variance of the ordinary likelihood with the
same fields, and raises where that raises. -/
theorem C48_value (self : Likelihood) (hcls : self.cls = .null) (θ : Dict Fl) :
    self.lnLikelihoodAndVariance θ =
      ({ self with cls := .hyper }.lnLikelihoodAndVariance θ).map fun p : Fl × Fl =>
        (fin 0, p.2) := by
  unfold Likelihood.lnLikelihoodAndVariance
  have : self.lnLikelihoodAndVarianceBase θ =
      { self with cls := .hyper }.lnLikelihoodAndVarianceBase θ := by
    unfold Likelihood.lnLikelihoodAndVarianceBase Likelihood.selectionFactor
    rw [hcls]
    rfl
  rw [this]
  cases h : { self with cls := .hyper }.lnLikelihoodAndVarianceBase θ with
  | error e => rfl
  | ok p =>
    simp only [ok_bind, hcls]
    rfl

/-- Its ratio is 0 where the variance of the ordinary likelihood does not exceed the limit, and
exactly the lowest finite float where it does. -/
theorem C48_ratio (self : Likelihood) (hcls : self.cls = .null) (θ : Dict Fl) {l v : Fl}
    (h : { self with cls := .hyper }.lnLikelihoodAndVariance θ = .ok (l, v)) :
    self.logLikelihoodRatio θ = .ok (if self.maximumUncertainty < v then fin (-bigR) else fin 0) := by
  have hv : self.lnLikelihoodAndVariance θ = .ok (fin 0, v) := by
    rw [C48_value self hcls, h]
    rfl
  by_cases hc : self.maximumUncertainty < v
  · rw [if_pos hc]
    have h970 : (0 : ℝ) < 2 ^ (970 : ℤ) := by positivity
    exact C47_rejected_partial hv isFloat_zero h970 hc
  · rw [if_neg hc]
    exact C47_accepted_partial hv isFloat_zero hc

/-- Both cases occur. -/
example : (flatEvent .null (.pair true (fin (1 / 2)) (fin 1)) (fin 1)).logLikelihoodRatio [] =
      .ok (fin (-bigR)) ∧
    (flatEvent .null (.pair true (fin (1 / 2)) (fin 1)) (fin 5)).logLikelihoodRatio [] =
      .ok (fin 0) := by
  have h (u : Fl) := C48_ratio (flatEvent .null (.pair true (fin (1 / 2)) (fin 1)) u) rfl []
    (flatEvent_value (.inl ⟨true, rfl⟩) (by norm_num) u [])
  have e (u : Fl) : (flatEvent .null (.pair true (fin (1 / 2)) (fin 1)) u).maximumUncertainty = u :=
    rfl
  simp only [e] at h
  constructor
  · rw [h, if_pos]
    rw [fin_lt]; norm_num
  · rw [h, if_neg]
    rw [fin_lt]; norm_num

/-! ## C49: the rate likelihood -/

/-- The Poisson log-likelihood of `N` events at rate `R`. -/
def Spec.lnRateLikelihood (W : List (List ℝ)) (pdet R : ℝ) : ℝ :=
  (W.map lnBayesFactor).sum + W.length * Real.log R - R * pdet

/-- For every set of events, `RateLikelihood` returns the Poisson log-likelihood; the variance is the
documented one. -/
theorem C49_value {self : Likelihood} (hcls : self.cls = .rate) {θ φ : Dict Fl}
    (hconv : self.conversion θ = .ok φ) {P : List (List ℝ)} {prior : Option (List (List ℝ))}
    (hN : P.length = self.nPosteriors)
    (hp : self.hyperPrior.prob self.data φ = .ok (matFin P))
    (hprior : self.samplingPrior = prior.map matFin)
    (hshape : ∀ Q ∈ prior, Q.map List.length = P.map List.length ∧ ∀ q ∈ Q, ∀ x ∈ q, x ≠ 0)
    (hgood : GoodWeights self.samplesPerPosterior (importance P prior))
    {r : SelResult} {pdet varDet : ℝ} (hs : self.selection.call φ = .ok r)
    (hr : reports r pdet varDet) (hpdet : 0 < pdet) {R : ℝ} (hR : 0 < R)
    (hrate : φ.get? "rate" = some (fin R)) :
    self.lnLikelihoodAndVariance θ = .ok
      (fin (lnRateLikelihood (importance P prior) pdet R),
        fin (((importance P prior).map relativeVariance).sum +
          R * pdet * varDet / pdet ^ 2)) := by
  have hlen : (importance P prior).length = self.nPosteriors := by
    cases prior with
    | none => exact hN
    | some Q =>
      have := congrArg List.length (hshape Q rfl).1
      simp only [List.length_map] at this
      simp [importance, this, hN]
  obtain ⟨py, hsel⟩ := selection_fin hs hr
  unfold Likelihood.lnLikelihoodAndVariance Likelihood.lnLikelihoodAndVarianceBase
    Likelihood.selectionFactor Likelihood.selectionFactorRate
  simp only [hconv, ok_bind, perEvent_fin (weights_fin hp hprior hshape) hgood, hcls, hsel,
    pure_eq_ok, List.map_map, Function.comp_def, sum_map_fin, log_fin hR, natCast_eq, fin_neg,
    fin_mul, fin_npow, fin_add, toNumber, ite_self, id, Dict.get, hrate, pyDiv, zero_eq, eqf_fin]
  rw [if_neg (by rintro ⟨-, h⟩; exact pow_ne_zero 2 hpdet.ne' h),
    fin_div (pow_ne_zero 2 hpdet.ne')]
  simp only [ok_bind, fin_add]
  congr 2
  · unfold lnRateLikelihood
    rw [hlen]
    congr 1
    ring
  · congr 1
    ring

/-- Without a rate in the (converted) parameters, `KeyError` is raised. -/
theorem C49_missing_rate {self : Likelihood} (hcls : self.cls = .rate) {θ φ : Dict Fl}
    (hconv : self.conversion θ = .ok φ) {events : List (Fl × Fl)}
    (hev : self.perEvent φ = .ok events) {r : SelResult} (hs : self.selection.call φ = .ok r)
    (hrate : ¬ φ.contains "rate") :
    self.lnLikelihoodAndVariance θ = .error (.keyError "rate") := by
  have hnone : φ.get? "rate" = none := (Dict.get?_eq_none_iff φ "rate").2 hrate
  unfold Likelihood.lnLikelihoodAndVariance Likelihood.lnLikelihoodAndVarianceBase
    Likelihood.selectionFactor Likelihood.selectionFactorRate Likelihood.selectionWithUncertainty
  simp only [hconv, ok_bind, hev, hcls, hs]
  cases r <;> simp only [ok_bind, pure_eq_ok, Dict.get, hnone, error_bind]

theorem integral_gamma_rate {N : ℕ} (hN : 1 ≤ N) {p : ℝ} (hp : 0 < p) :
    ∫ R in Set.Ioi (0 : ℝ), R⁻¹ * (R ^ N * Real.exp (-(R * p))) = (N - 1).factorial / p ^ N := by
  have h := Real.integral_rpow_mul_exp_neg_mul_Ioi (a := N) (r := p)
    (by exact_mod_cast hN) hp
  have hG : Real.Gamma N = (N - 1).factorial := by
    obtain ⟨n, rfl⟩ : ∃ n, N = n + 1 := ⟨N - 1, by omega⟩
    rw [Nat.cast_add_one, Real.Gamma_nat_eq_factorial]
    simp
  rw [hG] at h
  have e : ∫ R in Set.Ioi (0 : ℝ), R⁻¹ * (R ^ N * Real.exp (-(R * p))) =
      ∫ R in Set.Ioi (0 : ℝ), R ^ ((N : ℝ) - 1) * Real.exp (-(p * R)) := by
    refine MeasureTheory.setIntegral_congr_fun measurableSet_Ioi fun R hR => ?_
    have hR : 0 < R := hR
    show R⁻¹ * (R ^ N * Real.exp (-(R * p))) = R ^ ((N : ℝ) - 1) * Real.exp (-(p * R))
    rw [Real.rpow_sub_one hR.ne', Real.rpow_natCast, mul_comm p R]
    field_simp
  rw [e, h, Real.rpow_natCast, one_div, inv_pow]
  field_simp

/-- Integrating the exponential of the rate log-likelihood over the rate with prior `1 / R` gives
`(N - 1)!` times the exponential of the ordinary log-likelihood. -/
theorem Spec.rate_marginal (W : List (List ℝ)) (hN : 1 ≤ W.length) {pdet : ℝ} (hp : 0 < pdet) :
    ∫ R in Set.Ioi (0 : ℝ), R⁻¹ * Real.exp (lnRateLikelihood W pdet R) =
      (W.length - 1).factorial * Real.exp (lnLikelihood W pdet) := by
  have e : ∫ R in Set.Ioi (0 : ℝ), R⁻¹ * Real.exp (lnRateLikelihood W pdet R) =
      ∫ R in Set.Ioi (0 : ℝ), Real.exp (W.map lnBayesFactor).sum *
        (R⁻¹ * (R ^ W.length * Real.exp (-(R * pdet)))) := by
    refine MeasureTheory.setIntegral_congr_fun measurableSet_Ioi fun R hR => ?_
    have hR : 0 < R := hR
    simp only [lnRateLikelihood]
    rw [sub_eq_add_neg, Real.exp_add, Real.exp_add, Real.exp_nat_mul, Real.exp_log hR]
    ring
  rw [e, MeasureTheory.integral_const_mul, integral_gamma_rate hN hp, lnLikelihood, Real.exp_sub,
    Real.exp_nat_mul, Real.exp_log hp]
  ring

/-- The marginal of the values returned by `RateLikelihood` at all rates is `(N - 1)!` times the
exponential of the value returned by `HyperparameterLikelihood` with the same fields, provided the
population model, the selection function and the conversion do not use the rate. -/
theorem C49_marginal {self : Likelihood} (hcls : self.cls = .rate) {θ : ℝ → Dict Fl}
    (hconv : ∀ R, self.conversion (θ R) = .ok (θ R)) {P : List (List ℝ)}
    {prior : Option (List (List ℝ))} (hN : P.length = self.nPosteriors) (hN1 : 1 ≤ self.nPosteriors)
    (hp : ∀ R, self.hyperPrior.prob self.data (θ R) = .ok (matFin P))
    (hprior : self.samplingPrior = prior.map matFin)
    (hshape : ∀ Q ∈ prior, Q.map List.length = P.map List.length ∧ ∀ q ∈ Q, ∀ x ∈ q, x ≠ 0)
    (hgood : GoodWeights self.samplesPerPosterior (importance P prior))
    {r : SelResult} {pdet varDet : ℝ} (hs : ∀ R, self.selection.call (θ R) = .ok r)
    (hr : reports r pdet varDet) (hpdet : 0 < pdet)
    (hrate : ∀ R, (θ R).get? "rate" = some (fin R)) :
    ∃ (lnRate : ℝ → ℝ) (lnHyper : ℝ),
      (∀ R, 0 < R → ∃ v, self.lnLikelihoodAndVariance (θ R) = .ok (fin (lnRate R), v)) ∧
      (∀ R, ∃ v, { self with cls := .hyper }.lnLikelihoodAndVariance (θ R) =
        .ok (fin lnHyper, v)) ∧
      ∫ R in Set.Ioi (0 : ℝ), R⁻¹ * Real.exp (lnRate R) =
        (self.nPosteriors - 1).factorial * Real.exp lnHyper := by
  have hlen : (importance P prior).length = self.nPosteriors := by
    cases prior with
    | none => exact hN
    | some Q =>
      have := congrArg List.length (hshape Q rfl).1
      simp only [List.length_map] at this
      simp [importance, this, hN]
  refine ⟨lnRateLikelihood (importance P prior) pdet, lnLikelihood (importance P prior) pdet,
    fun R hR => ⟨_, C49_value hcls (hconv R) hN (hp R) hprior hshape hgood (hs R) hr hpdet hR
      (hrate R)⟩, fun R => ⟨_, C44_estimator (self := { self with cls := .hyper }) rfl (hconv R) hN
        (hp R) hprior hshape hgood (hs R) hr hpdet⟩, ?_⟩
  rw [← hlen]
  exact rate_marginal _ (by omega) hpdet

/-- The hypotheses of the three theorems hold for the toy likelihood. -/
example : (∃ (lnRate : ℝ → ℝ) (lnHyper : ℝ),
      (∀ R, 0 < R → ∃ v, (toyLikelihood .rate (.bare true (fin (1 / 2))) pinf
        ).lnLikelihoodAndVariance [("rate", fin R)] = .ok (fin (lnRate R), v)) ∧
      (∀ R, ∃ v, (toyLikelihood .hyper (.bare true (fin (1 / 2))) pinf
        ).lnLikelihoodAndVariance [("rate", fin R)] = .ok (fin lnHyper, v)) ∧
      ∫ R in Set.Ioi (0 : ℝ), R⁻¹ * Real.exp (lnRate R) = (1 : ℕ).factorial * Real.exp lnHyper) ∧
    (toyLikelihood .rate (.bare true (fin (1 / 2))) pinf).lnLikelihoodAndVariance [] =
      .error (.keyError "rate") := by
  constructor
  · exact C49_marginal (self := toyLikelihood .rate (.bare true (fin (1 / 2))) pinf)
      (θ := fun R => [("rate", fin R)]) rfl (fun _ => rfl) (P := [[1, 3], [2, 2]])
      (prior := some [[1, 1], [2, 2]]) rfl (by decide) (fun _ => rfl) rfl toyShape
      (by rw [toyWeights]; exact toyGood) (fun _ => rfl) (.inr ⟨⟨true, rfl⟩, rfl⟩)
      (by norm_num) (fun _ => rfl)
  · exact C49_missing_rate rfl rfl (toyPerEvent _ _ _ _) rfl (by simp [Dict.contains])

end GW
