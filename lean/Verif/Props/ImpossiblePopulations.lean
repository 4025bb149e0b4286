import Verif.Props.Likelihood
import Verif.Props.Experimental
import Verif.Props.Consistency

/-!
# C129: populations that cannot have produced the data are rejected
-/

noncomputable section

namespace GW

open Fl Spec

/-! ## Specification -/

/-- The population model excludes an event: its density vanishes at all samples of the event. -/
def Spec.ExcludesEvent (p : Mat) : Prop := ∃ row ∈ p, ∀ x ∈ row, x = fin 0

/-- The population model is not a number at some sample. -/
def Spec.HasNaN (p : Mat) : Prop := ∃ row ∈ p, nan ∈ row

/-- The sampling prior of the samples, if given, is a positive number at each of them. -/
def Spec.PositivePrior (lik : Likelihood) (p : Mat) : Prop :=
  lik.samplingPrior = none ∨ ∃ Q : List (List ℝ), lik.samplingPrior = some (matFin Q) ∧
    Q.map List.length = p.map List.length ∧ ∀ q ∈ Q, ∀ x ∈ q, 0 < x

/-- Nothing that the population produces is detected: the density vanishes at all found
injections. -/
def Spec.NothingDetected (vt : ResamplingVT) (φ : Dict Fl) : Prop :=
  ∃ q : List ℝ, vt.data.get? "prior" = some (.arr (q.map fin)) ∧ (∀ x ∈ q, x ≠ 0) ∧
    vt.model.prob vt.data φ = .ok (q.map fun _ => fin 0) ∧
    ∃ N : ℝ, vt.totalInjections.2 = fin N ∧ 0 < N

/-! ## Low values -/

/-- Estimates that become the lowest float. -/
def Low (l : Fl) : Prop := l = ninf ∨ l = nan

theorem Low.add_right {a : Fl} (h : Low a) (b : Fl) : Low (a + b) := by
  rcases h with rfl | rfl <;> cases b <;> simp [Low]

theorem Low.add_left {b : Fl} (h : Low b) (a : Fl) : Low (a + b) := by
  rcases h with rfl | rfl <;> cases a <;> simp [Low]

theorem low_sum {l : List Fl} {x : Fl} (hx : x ∈ l) (h : Low x) : Low (Arr.sum l) := by
  unfold Arr.sum
  induction l with
  | nil => simp at hx
  | cons a l ih =>
    rw [List.sum_cons]
    rcases List.mem_cons.1 hx with rfl | hx
    · exact h.add_right _
    · exact (ih hx).add_left _

theorem low_log {x : Fl} (h : ¬ 0 < x) : Low (Fl.log x) := by
  cases x with
  | fin a =>
    have ha : ¬ 0 < a := h
    rcases lt_or_eq_of_le (not_lt.1 ha) with h1 | rfl
    · exact .inr (log_fin_neg h1)
    · exact .inl log_zero
  | pinf => exact absurd (show (fin 0 : Fl) < pinf from trivial) h
  | ninf => exact .inr rfl
  | nan => exact .inr rfl

theorem ratio_low {lik : Likelihood} {θ : Dict Fl} {l v : Fl}
    (h : lik.lnLikelihoodAndVariance θ = .ok (l, v)) (hl : Low l) :
    lik.logLikelihoodRatio θ = .ok (fin (-bigR)) := by
  rcases hl with rfl | rfl
  · exact C46_ninf h
  · exact C46_nan h

/-- The parts of a returned estimate. -/
theorem estimate_parts {lik : Likelihood} (hcls : lik.cls ≠ .null) {θ φ : Dict Fl}
    (hconv : lik.conversion θ = .ok φ) {r : Fl} (h : lik.logLikelihoodRatio θ = .ok r) :
    ∃ events s, lik.perEvent φ = .ok events ∧ lik.selectionFactor φ = .ok s ∧
      lik.lnLikelihoodAndVariance θ = .ok (Arr.sum (events.map Prod.fst) + s.1,
        Arr.sum (events.map Prod.snd) + s.2) := by
  have hb : ∃ x, lik.lnLikelihoodAndVariance θ = .ok x := by
    unfold Likelihood.logLikelihoodRatio at h
    cases hx : lik.lnLikelihoodAndVariance θ with
    | ok x => exact ⟨x, rfl⟩
    | error e => rw [hx] at h; cases h
  obtain ⟨x, hx⟩ := hb
  unfold Likelihood.lnLikelihoodAndVariance Likelihood.lnLikelihoodAndVarianceBase at hx ⊢
  rw [hconv] at hx ⊢
  cases he : lik.perEvent φ with
  | error e => simp only [ok_bind, he, error_bind] at hx; cases hx
  | ok events =>
    cases hs : lik.selectionFactor φ with
    | error e => simp only [ok_bind, he, hs, error_bind] at hx; cases hx
    | ok s =>
      refine ⟨events, s, rfl, rfl, ?_⟩
      cases hc : lik.cls with
      | hyper => simp only [ok_bind, pure_eq_ok, he, hs, toNumber, ite_self, id]
      | rate => simp only [ok_bind, pure_eq_ok, he, hs, toNumber, ite_self, id]
      | null => exact absurd hc hcls

theorem perEvent_rows {lik : Likelihood} {φ : Dict Fl} {W : Mat} (hw : lik.weights φ = .ok W)
    {events : List (Fl × Fl)} (h : lik.perEvent φ = .ok events) :
    events.map Prod.fst = W.map fun row => Fl.log (Arr.mean row) := by
  unfold Likelihood.perEvent at h
  rw [hw, ok_bind, pure_eq_ok] at h
  rw [← Except.ok.inj h, List.map_map]
  rfl

/-! ## C129 -/

/-- An event whose mean weight is not positive (zero, negative or NaN) makes the result the lowest
float, whatever the other events, the selection function and the limit on the uncertainty are. -/
theorem C129_mean {lik : Likelihood} (hcls : lik.cls ≠ .null) {θ φ : Dict Fl}
    (hconv : lik.conversion θ = .ok φ) {W : Mat} (hw : lik.weights φ = .ok W)
    (hrow : ∃ row ∈ W, ¬ 0 < Arr.mean row) {r : Fl} (h : lik.logLikelihoodRatio θ = .ok r) :
    r = fin (-bigR) := by
  obtain ⟨events, s, he, -, hv⟩ := estimate_parts hcls hconv h
  obtain ⟨row, hr, hm⟩ := hrow
  have hlow : Low (Arr.sum (events.map Prod.fst)) := by
    rw [perEvent_rows hw he]
    exact low_sum (List.mem_map_of_mem hr) (low_log hm)
  rw [ratio_low hv (hlow.add_right _)] at h
  exact (Except.ok.inj h).symm

theorem sum_zero {l : List Fl} (h : ∀ x ∈ l, x = fin 0) : l.sum = fin 0 := by
  induction l with
  | nil => rfl
  | cons a l ih =>
    rw [List.sum_cons, h a (by simp), ih fun x hx => h x (by simp [hx]), fin_add, add_zero]

theorem sum_nan {l : List Fl} (h : nan ∈ l) : l.sum = nan := by
  induction l with
  | nil => simp at h
  | cons a l ih =>
    rw [List.sum_cons]
    rcases List.mem_cons.1 h with rfl | h
    · cases l.sum <;> rfl
    · rw [ih h]; cases a <;> rfl

theorem mean_zero_row {l : List Fl} (h : ∀ x ∈ l, x = fin 0) : ¬ 0 < Arr.mean l := by
  unfold Arr.mean
  rw [sum_zero h, natCast_eq]
  rcases Nat.eq_zero_or_pos l.length with hl | hl
  · rw [hl]
    simp
  · have : (l.length : ℝ) ≠ 0 := by positivity
    rw [fin_div this, zero_div]
    exact lt_irrefl (0 : ℝ)

theorem mean_nan_row {l : List Fl} (h : nan ∈ l) : ¬ 0 < Arr.mean l := by
  unfold Arr.mean
  rw [sum_nan h, natCast_eq]
  exact id

/-- Zero and NaN stay in the weights. -/
theorem weights_rows {lik : Likelihood} {φ : Dict Fl} {p : Mat}
    (hp : lik.hyperPrior.prob lik.data φ = .ok p) (hq : PositivePrior lik p) :
    ∃ W, lik.weights φ = .ok W ∧
      (∀ row ∈ p, (∀ x ∈ row, x = fin 0) → ∃ row' ∈ W, ∀ x ∈ row', x = fin 0) ∧
      (∀ row ∈ p, nan ∈ row → ∃ row' ∈ W, nan ∈ row') := by
  unfold Likelihood.weights
  rw [hp, ok_bind]
  rcases hq with hq | ⟨Q, hq, hlen, hpos⟩
  · rw [hq]
    refine ⟨_, rfl, fun row hr h0 => ⟨_, List.mem_map_of_mem hr, ?_⟩,
      fun row hr h0 => ⟨_, List.mem_map_of_mem hr, ?_⟩⟩
    · intro x hx
      obtain ⟨y, hy, rfl⟩ := List.mem_map.1 hx
      rw [h0 y hy, one_eq, fin_div one_ne_zero, zero_div]
    · exact List.mem_map.2 ⟨nan, h0, rfl⟩
  · rw [hq]
    simp only [Mat.divide]
    rw [if_pos (by rw [matFin_lengths, hlen])]
    refine ⟨_, rfl, ?_⟩
    have key : ∀ (p : Mat) (Q : List (List ℝ)), Q.map List.length = p.map List.length →
        (∀ q ∈ Q, ∀ x ∈ q, 0 < x) →
        (∀ row ∈ p, (∀ x ∈ row, x = fin 0) →
          ∃ row' ∈ List.zipWith (List.zipWith (· / ·)) p (matFin Q), ∀ x ∈ row', x = fin 0) ∧
        (∀ row ∈ p, nan ∈ row →
          ∃ row' ∈ List.zipWith (List.zipWith (· / ·)) p (matFin Q), nan ∈ row') := by
      intro p
      induction p with
      | nil => intro Q _ _; simp
      | cons a p ih =>
        intro Q hl hpos
        cases Q with
        | nil => simp at hl
        | cons b Q =>
          simp only [List.map_cons, List.cons.injEq] at hl
          obtain ⟨i1, i2⟩ := ih Q hl.2 fun q hq => hpos q (by simp [hq])
          have hb : ∀ x ∈ b, 0 < x := hpos b (by simp)
          have e : List.zipWith (List.zipWith (· / ·)) (a :: p) (matFin (b :: Q)) =
            List.zipWith (· / ·) a (b.map fin) ::
              List.zipWith (List.zipWith (· / ·)) p (matFin Q) := rfl
          rw [e]
          refine ⟨fun row hr h0 => ?_, fun row hr h0 => ?_⟩
          · rcases List.mem_cons.1 hr with rfl | hr
            · refine ⟨_, List.mem_cons_self, fun x hx => ?_⟩
              obtain ⟨i, hi, rfl⟩ := List.mem_iff_getElem.1 hx
              have hi2 : i < row.length ∧ i < b.length := by simpa using hi
              rw [List.getElem_zipWith, List.getElem_map, h0 _ (List.getElem_mem hi2.1),
                fin_div (hb _ (List.getElem_mem hi2.2)).ne', zero_div]
            · obtain ⟨row', hr', h⟩ := i1 row hr h0
              exact ⟨row', List.mem_cons_of_mem _ hr', h⟩
          · rcases List.mem_cons.1 hr with rfl | hr
            · refine ⟨_, List.mem_cons_self, ?_⟩
              obtain ⟨i, hi, hn⟩ := List.mem_iff_getElem.1 h0
              refine List.mem_iff_getElem.2 ⟨i, by simp; omega, ?_⟩
              rw [List.getElem_zipWith, hn]
              rfl
            · obtain ⟨row', hr', h⟩ := i2 row hr h0
              exact ⟨row', List.mem_cons_of_mem _ hr', h⟩
    exact key p Q hlen hpos

/-- **C129**: a population that excludes one of the events is given the lowest float by
`log_likelihood_ratio`, whatever the densities of the other events (NaN and infinities included), the
selection function and the limit on the uncertainty are; for the likelihood and for the likelihood
with a rate. -/
theorem C129_excluded {lik : Likelihood} (hcls : lik.cls ≠ .null) {θ φ : Dict Fl}
    (hconv : lik.conversion θ = .ok φ) {p : Mat} (hp : lik.hyperPrior.prob lik.data φ = .ok p)
    (hq : PositivePrior lik p) (hex : ExcludesEvent p) {r : Fl}
    (h : lik.logLikelihoodRatio θ = .ok r) : r = fin (-bigR) := by
  obtain ⟨W, hw, h0, -⟩ := weights_rows hp hq
  obtain ⟨row, hr, hz⟩ := hex
  obtain ⟨row', hr', hz'⟩ := h0 row hr hz
  exact C129_mean hcls hconv hw ⟨row', hr', mean_zero_row hz'⟩ h

/-- **C129**: a population density that is NaN at one sample gives the lowest float. -/
theorem C129_nan {lik : Likelihood} (hcls : lik.cls ≠ .null) {θ φ : Dict Fl}
    (hconv : lik.conversion θ = .ok φ) {p : Mat} (hp : lik.hyperPrior.prob lik.data φ = .ok p)
    (hq : PositivePrior lik p) (hex : HasNaN p) {r : Fl}
    (h : lik.logLikelihoodRatio θ = .ok r) : r = fin (-bigR) := by
  obtain ⟨W, hw, -, h0⟩ := weights_rows hp hq
  obtain ⟨row, hr, hz⟩ := hex
  obtain ⟨row', hr', hz'⟩ := h0 row hr hz
  exact C129_mean hcls hconv hw ⟨row', hr', mean_nan_row hz'⟩ h

/-- What the selection function returns, without its variance. -/
def Spec.selected : SelResult → Fl
  | .pair _ s _ => s
  | .bare _ s => s

/-- **C129**: a selection function that is NaN, negative or infinite (not converged) gives the lowest
float. -/
theorem C129_selection {lik : Likelihood} (hcls : lik.cls = .hyper) {θ φ : Dict Fl}
    (hconv : lik.conversion θ = .ok φ) {sel : SelResult} (hs : lik.selection.call φ = .ok sel)
    (hbad : selected sel = nan ∨ selected sel < 0 ∨ selected sel = pinf) {r : Fl}
    (h : lik.logLikelihoodRatio θ = .ok r) : r = fin (-bigR) := by
  obtain ⟨events, s, -, hf, hv⟩ := estimate_parts (by rw [hcls]; decide) hconv h
  have hlow : Low s.1 := by
    have h1 : ∃ py v, lik.selectionWithUncertainty φ = .ok (py, selected sel, v) := by
      unfold Likelihood.selectionWithUncertainty
      rw [hs]
      cases sel with
      | pair py a b => exact ⟨py, b, rfl⟩
      | bare py a => exact ⟨py, 0, rfl⟩
    obtain ⟨py, v, h1⟩ := h1
    unfold Likelihood.selectionFactor Likelihood.selectionFactorHyper at hf
    rw [hcls] at hf
    simp only [h1, ok_bind, pure_eq_ok] at hf
    rw [← Except.ok.inj hf]
    simp only [natCast_eq, fin_neg]
    rcases hbad with hb | hb | hb
    · rw [hb]
      exact .inr rfl
    · have : Fl.log (selected sel) = nan := by
        revert hb
        cases selected sel with
        | fin a => exact fun hb => log_fin_neg hb
        | pinf => exact fun hb => absurd hb id
        | ninf => exact fun _ => rfl
        | nan => exact fun _ => rfl
      rw [this]
      exact .inr rfl
    · rw [hb, log_pinf]
      rcases Nat.eq_zero_or_pos lik.nPosteriors with hn | hn
      · rw [hn]
        right
        simp
      · left
        have : -(lik.nPosteriors : ℝ) < 0 := by simpa using hn
        rw [fin_mul_pinf]
        simp [signInf, this, not_lt.2 this.le]
  rw [ratio_low hv (hlow.add_left _)] at h
  exact (Except.ok.inj h).symm

/-- Nothing detected: efficiency and variance are 0. -/
theorem efficiency_zero {vt : ResamplingVT} {φ : Dict Fl} (h : NothingDetected vt φ) :
    vt.detectionEfficiency φ = .ok (fin 0, fin 0) := by
  obtain ⟨q, hq, hq0, hp, N, hN, hN0⟩ := h
  have hp' : vt.model.prob vt.data φ = .ok ((q.map fun _ => (0 : ℝ)).map fin) := by
    rw [hp, List.map_map]
    rfl
  rw [C40_value hp' hq (by simp) hq0 hN hN0.ne']
  have : Spec.weights (q.map fun _ => (0 : ℝ)) q = q.map fun _ => (0 : ℝ) := by
    unfold Spec.weights
    clear hq hq0 hp hp'
    induction q with
    | nil => rfl
    | cons a q ih => rw [List.map_cons, List.zipWith_cons_cons, ih, zero_div]
  rw [this]
  simp

/-- **C129**: if nothing the population produces is detected, a selection function with the
convergence check gives the lowest float for every number of events; one marginalised over its
uncertainty gives the lowest float on jax and raises `ZeroDivisionError` on the other backends. -/
theorem C129_undetected_partial {lik : Likelihood} (hcls : lik.cls = .hyper) {θ φ : Dict Fl}
    (hconv : lik.conversion θ = .ok φ) {vt : ResamplingVT} (hvt : lik.selection = vt.asSelection)
    (hnone : NothingDetected vt φ)
    (hmode : vt.marginalizeUncertainty = true ∨ vt.enforceConvergence = true) :
    (∀ r, lik.logLikelihoodRatio θ = .ok r → r = fin (-bigR)) ∧
    (vt.marginalizeUncertainty = true → vt.backend ≠ .jax → ∀ r,
      lik.logLikelihoodRatio θ ≠ .ok r) := by
  have he := efficiency_zero hnone
  cases hm : vt.marginalizeUncertainty with
  | false =>
    refine ⟨fun r hr => ?_, fun h => by cases h⟩
    have henf : vt.enforceConvergence = true := by simpa [hm] using hmode
    have hc : vt.call φ = .ok (pinf, some (fin 0)) := by
      refine ((C41_partial vt φ _ _ hm he).2.2 henf ?_).2 (by simp)
      rw [fin_npow]
      cases vt.nEvents with
      | fin a =>
        rw [show (4 : Fl) = fin 4 from rfl, fin_mul, fin_mul]
        simp
      | pinf =>
        rw [show (4 : Fl) = fin 4 from rfl, fin_mul_pinf, signInf_pos (by norm_num)]
        simp
      | ninf =>
        rw [show (4 : Fl) = fin 4 from rfl, fin_mul_ninf, signInf_neg (by norm_num)]
        simp
      | nan => simp
    have hs : lik.selection.call φ = .ok (.pair (decide (vt.backend ≠ .jax)) pinf (fin 0)) := by
      rw [hvt]
      unfold ResamplingVT.asSelection
      simp only [hc, ok_bind, pure_eq_ok]
    exact C129_selection hcls hconv hs (.inr (.inr rfl)) hr
  | true =>
    by_cases hb : vt.backend = .jax
    · refine ⟨fun r hr => ?_, fun _ h => absurd hb h⟩
      have hc : vt.call φ = .ok (nan, none) := by
        unfold ResamplingVT.call ResamplingVT.vtFactor
        have h1 : ∀ x y : Fl, pyDiv (decide (vt.backend ≠ .jax)) x y = .ok (x / y) := by
          intro x y
          rw [hb]
          simp [pyDiv]
        have h2 : (fin 0 : Fl) ^ 2 / fin 0 = nan := by
          rw [fin_npow]
          simp
        simp only [hm, he, ok_bind, Bool.not_true, Bool.false_eq_true, if_false, h1, h2, pure_eq_ok]
        simp
      have hs : lik.selection.call φ = .ok (.bare (decide (vt.backend ≠ .jax)) nan) := by
        rw [hvt]
        unfold ResamplingVT.asSelection
        simp only [hc, ok_bind, pure_eq_ok]
      exact C129_selection hcls hconv hs (.inl rfl) hr
    · have hno : ∀ r, lik.logLikelihoodRatio θ ≠ .ok r := by
        intro r hr
        obtain ⟨-, s, -, hf, -⟩ := estimate_parts (by rw [hcls]; decide) hconv hr
        unfold Likelihood.selectionFactor Likelihood.selectionFactorHyper
          Likelihood.selectionWithUncertainty at hf
        rw [hcls, hvt] at hf
        unfold ResamplingVT.asSelection at hf
        simp only [C43_zero_variance hm hb he, error_bind] at hf
        cases hf
      exact ⟨fun r hr => absurd hr (hno r), fun _ _ => hno⟩

theorem fl64_bigR_self : fl64 bigR = fin bigR :=
  fl64_eq (by rw [abs_of_pos bigR_pos]) isDouble_bigR

/-- Without the convergence check a selection function that is 0 gives the *highest* float, whatever
the limit on the uncertainty is. -/
theorem C129_highest_partial {lik : Likelihood} (hcls : lik.cls = .hyper) {θ φ : Dict Fl}
    (hconv : lik.conversion θ = .ok φ) (hn : 1 ≤ lik.nPosteriors) {W : List (List ℝ)}
    (hw : lik.weights φ = .ok (matFin W)) (hgood : GoodWeights lik.samplesPerPosterior W)
    {sel : SelResult} (hs : lik.selection.call φ = .ok sel) (hr : reports sel 0 0) :
    lik.logLikelihoodRatio θ = .ok (fin bigR) := by
  obtain ⟨py, hsel⟩ := selection_fin hs hr
  have hneg : -(lik.nPosteriors : ℝ) < 0 := by
    have : (1 : ℝ) ≤ lik.nPosteriors := by exact_mod_cast hn
    linarith
  have hv : lik.lnLikelihoodAndVariance θ = .ok (pinf, nan) := by
    unfold Likelihood.lnLikelihoodAndVariance Likelihood.lnLikelihoodAndVarianceBase
      Likelihood.selectionFactor Likelihood.selectionFactorHyper
    simp only [hconv, ok_bind, perEvent_fin hw hgood, hcls, hsel, pure_eq_ok, List.map_map,
      Function.comp_def, sum_map_fin, log_zero, natCast_eq, fin_neg, toNumber, ite_self, id]
    have h1 : fin (-(lik.nPosteriors : ℝ)) * ninf = pinf := by
      rw [fin_mul_ninf, signInf_pos (by linarith)]
    have h2 : (fin 0 : Fl) / fin 0 ^ 2 = nan := by
      rw [fin_npow]
      simp
    rw [h1, h2]
    simp
  rw [ratio_eq hv]
  unfold cut
  rw [excess_false not_lt_nan]
  have e : nanToNumWith ninf (fin bigR) (fin (-bigR)) (toDouble pinf) = fin bigR := rfl
  rw [e, fin_sub, sub_zero, toDouble, fl64_bigR_self]
  rfl

/-- An estimate of plus infinity with a variance that is NaN is returned as the highest float. -/
theorem ratio_high {lik : Likelihood} {θ : Dict Fl}
    (h : lik.lnLikelihoodAndVariance θ = .ok (pinf, nan)) :
    lik.logLikelihoodRatio θ = .ok (fin bigR) := by
  rw [ratio_eq h]
  unfold cut
  rw [excess_false not_lt_nan]
  have e : nanToNumWith ninf (fin bigR) (fin (-bigR)) (toDouble pinf) = fin bigR := rfl
  rw [e, fin_sub, sub_zero, toDouble, fl64_bigR_self]
  rfl

theorem sum_high {l : List Fl} (h : ∀ x ∈ l, ¬ Low x) :
    ¬ Low (Arr.sum l) ∧ (pinf ∈ l → Arr.sum l = pinf) := by
  unfold Arr.sum
  induction l with
  | nil => simp [Low]
  | cons a l ih =>
    obtain ⟨i1, i2⟩ := ih fun x hx => h x (by simp [hx])
    have ha := h a (by simp)
    rw [List.sum_cons]
    revert i1 i2 ha
    generalize l.sum = s
    cases a <;> cases s <;> simp [Low]

/-- An infinite density also gives the *highest* float, whatever the limit on the uncertainty is, if the
other events have positive mean weights and the selection function is a positive number. -/
theorem C129_infinite_partial {lik : Likelihood} (hcls : lik.cls = .hyper) {θ φ : Dict Fl}
    (hconv : lik.conversion θ = .ok φ) {W : Mat} (hw : lik.weights φ = .ok W)
    (hpos : ∀ row ∈ W, 0 < Arr.mean row) (hinf : ∃ row ∈ W, Arr.mean row = pinf)
    {sel : SelResult} (hs : lik.selection.call φ = .ok sel) {s v : ℝ} (hr : reports sel s v)
    (hs0 : 0 < s) : lik.logLikelihoodRatio θ = .ok (fin bigR) := by
  obtain ⟨py, hsel⟩ := selection_fin hs hr
  obtain ⟨row, hrow, hmean⟩ := hinf
  refine ratio_high ?_
  have hper : lik.perEvent φ = .ok (W.map fun row => (Fl.log (Arr.mean row),
      (Arr.mean (row.map (· ^ 2)) - Arr.mean row ^ 2) /
        ((lik.samplesPerPosterior : Fl) * Arr.mean row ^ 2))) := by
    unfold Likelihood.perEvent
    rw [hw, ok_bind, pure_eq_ok]
  have h1 : Arr.sum (W.map fun row => Fl.log (Arr.mean row)) = pinf := by
    refine (sum_high ?_).2 (List.mem_map.2 ⟨row, hrow, by rw [hmean, log_pinf]⟩)
    intro x hx
    obtain ⟨r, hr', rfl⟩ := List.mem_map.1 hx
    have := hpos r hr'
    revert this
    cases Arr.mean r with
    | fin a => intro h; rw [log_fin h]; simp [Low]
    | pinf => simp [Low]
    | ninf => exact fun h => absurd h id
    | nan => exact fun h => absurd h id
  have h2 : Arr.sum (W.map fun row => (Arr.mean (row.map (· ^ 2)) - Arr.mean row ^ 2) /
      ((lik.samplesPerPosterior : Fl) * Arr.mean row ^ 2)) = nan := by
    refine sum_nan (List.mem_map.2 ⟨row, hrow, ?_⟩)
    rw [hmean, natCast_eq]
    have hp2 : (pinf : Fl) ^ 2 = pinf := npow_two pinf
    rw [hp2]
    have : ∀ x : Fl, (x - pinf) / (fin (lik.samplesPerPosterior : ℝ) * pinf) = nan := by
      intro x
      rw [fin_mul_pinf]
      rcases signInf_cases (lik.samplesPerPosterior : ℝ) with h | h | h <;> rw [h.2] <;>
        cases x <;> simp
    exact this _
  unfold Likelihood.lnLikelihoodAndVariance Likelihood.lnLikelihoodAndVarianceBase
    Likelihood.selectionFactor Likelihood.selectionFactorHyper
  simp only [hconv, ok_bind, hper, hcls, hsel, pure_eq_ok, List.map_map,
    Function.comp_def, h1, h2, log_fin hs0, toNumber, ite_self, id]
  rw [natCast_eq (lik.nPosteriors), fin_neg, fin_mul]
  rfl

/-- The property: a population for which an event is excluded, nothing is detected, or the density of a
sample is NaN or infinite, is rejected: the result is the lowest float. -/
def C129_statement : Prop :=
  ∀ (lik : Likelihood) (θ φ : Dict Fl) (p : Mat) (r : Fl), lik.cls = .hyper →
    lik.conversion θ = .ok φ → lik.hyperPrior.prob lik.data φ = .ok p → PositivePrior lik p →
    (ExcludesEvent p ∨ HasNaN p ∨ (∃ row ∈ p, pinf ∈ row) ∨
      ∃ vt : ResamplingVT, lik.selection = vt.asSelection ∧ NothingDetected vt φ) →
    lik.logLikelihoodRatio θ = .ok r → r = fin (-bigR)

/-- A likelihood of one event with the densities `row` and a selection function built from one found
injection at which the density is `d`. -/
def oneEvent (planck15 : Cosmology) (row : List Fl) (d : ℝ) (enforce : Bool) (limit : Fl) :
    Likelihood × ResamplingVT :=
  let vt : ResamplingVT :=
    { backend := .numpy, model := ⟨[], fun _ _ => .ok [fin d]⟩, data := [("prior", .arr [fin 1])]
      nEvents := fin 1, totalInjections := (true, fin 2), analysisTime := fin 1
      redshiftModel := none, marginalizeUncertainty := false, enforceConvergence := enforce
      surveyedHypervolumeAttr := some (totalFourVolume planck15 0 (fin 1)) }
  ({ cls := .hyper, backend := .numpy, data := [], hyperPrior := ⟨[], fun _ _ => .ok [row]⟩
     samplingPrior := none, totalNoiseEvidence := fin 0, conversion := fun θ => .ok θ
     selection := vt.asSelection, nPosteriors := 1, samplesPerPosterior := row.length
     maximumUncertainty := limit, maxVariance := limit ^ 2 }, vt)

theorem oneEvent_none (planck15 : Cosmology) (row : List Fl) (enforce : Bool) (limit : Fl) :
    NothingDetected (oneEvent planck15 row 0 enforce limit).2 [] :=
  ⟨[1], by simp [oneEvent, Dict.get?_cons], by simp, rfl, 2, rfl, by norm_num⟩

theorem oneEvent_weights (planck15 : Cosmology) (w : List ℝ) (d : ℝ) (enforce : Bool) (limit : Fl) :
    (oneEvent planck15 (w.map fin) d enforce limit).1.weights [] = .ok (matFin [w]) := by
  refine (weights_fin (P := [w]) (prior := none) rfl rfl ?_)
  intro Q hQ
  cases hQ

/-- Without the convergence check a population without any detections has the highest likelihood. -/
theorem oneEvent_highest (planck15 : Cosmology) (limit : Fl) :
    (oneEvent planck15 [fin 1, fin 2] 0 false limit).1.logLikelihoodRatio [] = .ok (fin bigR) := by
  have hn := oneEvent_none planck15 [fin 1, fin 2] false limit
  have hc := (C41_partial _ _ _ _ rfl (efficiency_zero hn)).1 rfl
  refine C129_highest_partial (φ := []) (W := [[1, 2]])
    (sel := .pair true (fin 0) (fin 0)) rfl rfl le_rfl
    (oneEvent_weights planck15 [1, 2] 0 false limit) ?_ ?_ (.inl ⟨true, rfl⟩)
  · intro w hw
    rw [List.mem_singleton] at hw
    subst hw
    exact ⟨rfl, by norm_num [Spec.mean]⟩
  · show (oneEvent planck15 [fin 1, fin 2] 0 false limit).2.asSelection.call [] = _
    unfold ResamplingVT.asSelection
    simp only [hc, ok_bind, pure_eq_ok]
    rfl

/-- **C129 is false of the code.** -/
theorem C129_fails (planck15 : Cosmology) : ¬ C129_statement := by
  intro H
  have h := H (oneEvent planck15 [fin 1, fin 2] 0 false (fin 1)).1 [] [] [[fin 1, fin 2]] _ rfl rfl rfl
    (.inl rfl) (.inr (.inr (.inr ⟨(oneEvent planck15 [fin 1, fin 2] 0 false (fin 1)).2, rfl,
      oneEvent_none planck15 _ _ _⟩)))
    (oneEvent_highest planck15 (fin 1))
  rw [fin_inj] at h
  linarith [bigR_pos]

/-- The hypotheses of the theorems hold: an excluded event, a NaN density, nothing detected with the
convergence check, and an infinite density, all with a limit on the uncertainty. -/
example (planck15 : Cosmology) :
    (∃ r, (oneEvent planck15 [fin 0, fin 0] 1 true (fin 1)).1.logLikelihoodRatio [] = .ok r ∧
      r = fin (-bigR)) ∧
    (∃ r, (oneEvent planck15 [fin 1, nan] 1 true (fin 1)).1.logLikelihoodRatio [] = .ok r ∧
      r = fin (-bigR)) ∧
    (∃ r, (oneEvent planck15 [fin 1, fin 2] 0 true (fin 1)).1.logLikelihoodRatio [] = .ok r ∧
      r = fin (-bigR)) := by
  have hcall : ∀ row d, ∃ sel,
      (oneEvent planck15 row d true (fin 1)).1.selection.call [] = .ok sel := by
    intro row d
    have he := C40_value (self := (oneEvent planck15 row d true (fin 1)).2) (parameters := [])
      (p := [d]) (q := [1]) rfl (by simp [oneEvent, Dict.get?_cons]) rfl (by simp) (N := 2) rfl
      (by norm_num)
    have hc : ∃ x, (oneEvent planck15 row d true (fin 1)).2.call [] = .ok x := by
      unfold ResamplingVT.call
      rw [he]
      exact ⟨_, rfl⟩
    obtain ⟨⟨a, b⟩, hc⟩ := hc
    show ∃ sel, (oneEvent planck15 row d true (fin 1)).2.asSelection.call [] = .ok sel
    unfold ResamplingVT.asSelection
    cases b with
    | none => simp only [hc, ok_bind, pure_eq_ok]; exact ⟨_, rfl⟩
    | some b => simp only [hc, ok_bind, pure_eq_ok]; exact ⟨_, rfl⟩
  have hret : ∀ row d, ∃ r,
      (oneEvent planck15 row d true (fin 1)).1.logLikelihoodRatio [] = .ok r := by
    intro row d
    obtain ⟨sel, hsel⟩ := hcall row d
    have h1 : ∃ x, (oneEvent planck15 row d true (fin 1)).1.lnLikelihoodAndVariance [] = .ok x := by
      unfold Likelihood.lnLikelihoodAndVariance Likelihood.lnLikelihoodAndVarianceBase
        Likelihood.selectionFactor Likelihood.selectionFactorHyper
        Likelihood.selectionWithUncertainty
      have e1 : (oneEvent planck15 row d true (fin 1)).1.conversion [] = .ok [] := rfl
      have e2 : (oneEvent planck15 row d true (fin 1)).1.cls = .hyper := rfl
      have e3 : ∃ ev, (oneEvent planck15 row d true (fin 1)).1.perEvent [] = .ok ev := ⟨_, rfl⟩
      obtain ⟨ev, e3⟩ := e3
      simp only [e1, e2, e3, hsel, ok_bind]
      cases sel <;> exact ⟨_, rfl⟩
    obtain ⟨⟨l, v⟩, h1⟩ := h1
    exact ⟨_, ratio_eq h1⟩
  refine ⟨?_, ?_, ?_⟩
  · obtain ⟨r, hr⟩ := hret [fin 0, fin 0] 1
    exact ⟨r, hr, C129_excluded (p := [[fin 0, fin 0]]) (φ := []) (by simp [oneEvent]) rfl rfl
      (.inl rfl) ⟨_, List.mem_singleton_self _, by simp⟩ hr⟩
  · obtain ⟨r, hr⟩ := hret [fin 1, nan] 1
    exact ⟨r, hr, C129_nan (p := [[fin 1, nan]]) (φ := []) (by simp [oneEvent]) rfl rfl
      (.inl rfl) ⟨_, List.mem_singleton_self _, by simp⟩ hr⟩
  · obtain ⟨r, hr⟩ := hret [fin 1, fin 2] 0
    exact ⟨r, hr, (C129_undetected_partial (φ := []) rfl rfl rfl
      (oneEvent_none planck15 [fin 1, fin 2] true (fin 1)) (.inr rfl)).1 r hr⟩

/-- The hypotheses of `C129_infinite_partial` hold, with a limit on the uncertainty. -/
example (planck15 : Cosmology) :
    (oneEvent planck15 [pinf, fin 1] 1 false (fin 1)).1.logLikelihoodRatio [] = .ok (fin bigR) := by
  have he := C40_value (self := (oneEvent planck15 [pinf, fin 1] 1 false (fin 1)).2)
    (parameters := []) (p := [1]) (q := [1]) rfl (by simp [oneEvent, Dict.get?_cons]) rfl (by simp)
    (N := 2) rfl (by norm_num)
  have hc := (C41_partial _ _ _ _ rfl he).1 rfl
  have hm : Arr.mean [pinf / 1, fin 1 / 1] = pinf := by
    unfold Arr.mean
    have h1 : ∀ c : ℝ, 0 < c → (pinf : Fl) / fin c = pinf := fun c hc => by
      rw [pinf_div_fin, if_neg (not_lt.2 hc.le)]
    have h2 : (pinf / fin 1 : Fl) = pinf := h1 1 one_pos
    rw [one_eq, h2, fin_div one_ne_zero]
    simp [h1 2 two_pos]
  refine C129_infinite_partial (φ := []) (W := [[pinf / 1, fin 1 / 1]])
    (sel := .pair true (fin ((Spec.weights [1] [1]).sum / 2))
      (fin (((Spec.weights [1] [1]).map (· ^ 2)).sum / 2 ^ 2 -
        ((Spec.weights [1] [1]).sum / 2) ^ 2 / 2))) rfl rfl rfl ?_ ⟨_, List.mem_singleton_self _, hm⟩ ?_ (.inl ⟨true, rfl⟩) ?_
  · intro row hrow
    rw [List.mem_singleton] at hrow
    rw [hrow, hm]
    exact trivial
  · show (oneEvent planck15 [pinf, fin 1] 1 false (fin 1)).2.asSelection.call [] = _
    unfold ResamplingVT.asSelection
    simp only [hc, ok_bind, pure_eq_ok]
    rfl
  · norm_num [Spec.weights]

end GW
