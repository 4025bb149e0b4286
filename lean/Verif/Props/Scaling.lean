import Verif.Lemmas.Scaling
import Verif.Props.PosteriorSamples
import Verif.Model.Experimental

/-!
# C77, C78: the likelihood does not depend on the normalisation of the population model or on the units
of the sampling priors
-/

noncomputable section

open Classical

namespace GW

open Fl Spec

/-! ## Specification -/

/-- All entries multiplied by a constant. -/
def Spec.scaleRow (c : ℝ) (row : List Fl) : List Fl := row.map (fin c * ·)

/-- The population model with its density multiplied by `c`, evaluated on posterior samples. -/
def Spec.scaleEvents (c : ℝ) (m : PopModel (Dict Mat) Mat) : PopModel (Dict Mat) Mat :=
  ⟨m.models, fun d θ => (m.prob d θ).map (·.map (scaleRow c))⟩

/-- The population model with its density multiplied by `c`, evaluated on injections. -/
def Spec.scaleInjections (c : ℝ) (m : PopModel (Dict Value) (List Fl)) :
    PopModel (Dict Value) (List Fl) :=
  ⟨m.models, fun d θ => (m.prob d θ).map (scaleRow c)⟩

/-- A selection function built with the rescaled model. -/
def Spec.scaledVT (c : ℝ) (vt : ResamplingVT) : ResamplingVT :=
  { vt with model := scaleInjections c vt.model }

/-- A likelihood built with the rescaled model, both for the events and for the selection function. -/
def Spec.scaledLikelihood (c : ℝ) (L : Likelihood) (vt : ResamplingVT) : Likelihood :=
  { L with hyperPrior := scaleEvents c L.hyperPrior, selection := (scaledVT c vt).asSelection }

/-- The population model returns one row per event. -/
def Spec.OneRowPerEvent (L : Likelihood) (θ : Dict Fl) : Prop :=
  ∀ φ m, L.conversion θ = .ok φ → L.hyperPrior.prob L.data φ = .ok m → m.length = L.nPosteriors

variable {c : ℝ}

theorem divide_scale (hc : 0 < c) (p q : List Fl) :
    Arr.divide (scaleRow c p) q = (Arr.divide p q).map (scaleRow c) := by
  unfold Arr.divide scaleRow
  rw [List.length_map]
  split_ifs
  · simp only [Except.map, Except.ok.injEq]
    rw [List.zipWith_map_left, List.map_zipWith]
    congr 1
    funext a b
    exact scale_div hc a b
  · rcases p with _ | ⟨x, _ | ⟨x', p⟩⟩ <;> rcases q with _ | ⟨y, _ | ⟨y', q⟩⟩ <;>
      simp [Except.map, scale_div hc]

theorem matDivide_scale (hc : 0 < c) (p q : Mat) :
    Mat.divide (p.map (scaleRow c)) q = (Mat.divide p q).map (·.map (scaleRow c)) := by
  unfold Mat.divide
  have e : (p.map (scaleRow c)).map List.length = p.map List.length := by
    rw [List.map_map]
    congr 1
    funext r
    simp [scaleRow]
  rw [e]
  split_ifs
  · simp only [Except.map, Except.ok.injEq]
    rw [List.zipWith_map_left, List.map_zipWith]
    congr 1
    funext a b
    unfold scaleRow
    rw [List.zipWith_map_left, List.map_zipWith]
    congr 1
    funext x y
    exact scale_div hc x y
  · rfl

theorem squares_scale (w : List Fl) :
    (scaleRow c w).map (· ^ 2) = (w.map (· ^ 2)).map (fin (c ^ 2) * ·) := by
  unfold scaleRow
  rw [List.map_map, List.map_map]
  congr 1
  funext x
  exact scale_sq x

theorem toNumber_id {b : Backend} (x : Fl) : toNumber b id id x = x := by
  unfold toNumber; split_ifs <;> rfl

/-- The detection efficiency is multiplied by the constant, its variance by the square. -/
theorem detectionEfficiency_scale (hc : 0 < c) (vt : ResamplingVT) (θ : Dict Fl) :
    (scaledVT c vt).detectionEfficiency θ =
      (vt.detectionEfficiency θ).map fun p => (fin c * p.1, fin (c ^ 2) * p.2) := by
  have hc2 : 0 < c ^ 2 := by positivity
  unfold ResamplingVT.detectionEfficiency
  simp only [scaledVT, scaleInjections, toNumber_id]
  cases vt.model.prob vt.data θ with
  | error e => rfl
  | ok p =>
    cases vt.data.get "prior" with
    | error e => rfl
    | ok q =>
      simp only [Except.map, ok_bind, pure_eq_ok]
      have key : ∀ l : List Fl, (do
          let weights ← Arr.divide (scaleRow c p) l
          let second ← pyDiv (decide (vt.backend ≠ Backend.jax) && vt.totalInjections.1)
            ((Arr.sum weights / vt.totalInjections.2) ^ 2) vt.totalInjections.2
          (Except.ok (Arr.sum weights / vt.totalInjections.2,
            Arr.sum (weights.map (· ^ 2)) / vt.totalInjections.2 ^ 2 - second) :
              Except PyErr (Fl × Fl))) =
          (do
          let weights ← Arr.divide p l
          let second ← pyDiv (decide (vt.backend ≠ Backend.jax) && vt.totalInjections.1)
            ((Arr.sum weights / vt.totalInjections.2) ^ 2) vt.totalInjections.2
          (Except.ok (Arr.sum weights / vt.totalInjections.2,
            Arr.sum (weights.map (· ^ 2)) / vt.totalInjections.2 ^ 2 - second) :
              Except PyErr (Fl × Fl))).map fun (p : Fl × Fl) => (fin c * p.1, fin (c ^ 2) * p.2) := by
        intro l
        rw [divide_scale hc]
        cases Arr.divide p l with
        | error e => rfl
        | ok w =>
          simp only [Except.map, ok_bind]
          have e1 : Arr.sum (scaleRow c w) = fin c * Arr.sum w := sum_scale hc w
          have e2 : Arr.sum ((scaleRow c w).map (· ^ 2)) = fin (c ^ 2) * Arr.sum (w.map (· ^ 2)) := by
            rw [squares_scale]; exact sum_scale hc2 _
          rw [e1, e2, scale_div hc, scale_sq, pyDiv_scale_left hc2, scale_div hc2]
          cases pyDiv (decide (vt.backend ≠ Backend.jax) && vt.totalInjections.1)
            ((Arr.sum w / vt.totalInjections.2) ^ 2) vt.totalInjections.2 with
          | error e => rfl
          | ok s => simp only [Except.map, ok_bind, scale_sub hc2]
      cases q with
      | arr l => exact key l
      | num b x => exact key [x]

theorem correction_cases (vt : ResamplingVT) (mu var : Fl) :
    (vt.checkConvergence mu var).2 = fin 0 ∨ (vt.checkConvergence mu var).2 = pinf := by
  unfold ResamplingVT.checkConvergence
  simp only
  by_cases h : (decide (4 * vt.nEvents * var < mu ^ 2)) = true
  · left; rw [ind_true h]; simp [nanToNumWith]
  · right; rw [ind_false h]; simp [nanToNumWith]

/-- Two selection functions with the same options whose efficiencies differ by the factor `c`. -/
structure VTScaled (c : ℝ) (vt vt' : ResamplingVT) (θ θ' : Dict Fl) : Prop where
  backend : vt'.backend = vt.backend
  nEvents : vt'.nEvents = vt.nEvents
  marginalise : vt'.marginalizeUncertainty = vt.marginalizeUncertainty
  enforce : vt'.enforceConvergence = vt.enforceConvergence
  efficiency : vt'.detectionEfficiency θ' =
    (vt.detectionEfficiency θ).map fun p => (fin c * p.1, fin (c ^ 2) * p.2)

theorem checkConvergence_scale (hc : 0 < c) {vt vt' : ResamplingVT} (h : vt'.nEvents = vt.nEvents)
    (mu var : Fl) :
    vt'.checkConvergence (fin c * mu) (fin (c ^ 2) * var) = vt.checkConvergence mu var := by
  have hc2 : 0 < c ^ 2 := by positivity
  unfold ResamplingVT.checkConvergence
  simp only [h]
  have e : (4 * vt.nEvents * (fin (c ^ 2) * var) < (fin c * mu) ^ 2) =
      (4 * vt.nEvents * var < mu ^ 2) := by
    rw [scale_sq, mul_left_comm]
    exact propext (scale_lt hc2 _ _)
  simp only [e]

theorem scale_correction (hc : 0 < c) (vt : ResamplingVT) (mu var x : Fl) :
    fin c * x + (vt.checkConvergence mu var).2 = fin c * (x + (vt.checkConvergence mu var).2) := by
  rw [scale_add hc]
  rcases correction_cases vt mu var with h | h <;> rw [h]
  · simp
  · rw [scale_pinf hc]

theorem vtFactor_scale (hc : 0 < c) {vt vt' : ResamplingVT} {θ θ' : Dict Fl}
    (h : VTScaled c vt vt' θ θ') : vt'.vtFactor θ' = (vt.vtFactor θ).map (fin c * ·) := by
  have hc2 : 0 < c ^ 2 := by positivity
  unfold ResamplingVT.vtFactor
  rw [h.efficiency]
  cases vt.detectionEfficiency θ with
  | error e => rfl
  | ok p =>
    obtain ⟨mu, var⟩ := p
    simp only [Except.map, ok_bind, checkConvergence_scale hc h.nEvents, scale_sq,
      pyDiv_scale_cancel hc2]
    rw [h.backend, h.nEvents]
    cases pyDiv (decide (vt.backend ≠ Backend.jax)) (mu ^ 2) var with
    | error e => rfl
    | ok n =>
      simp only [ok_bind]
      cases pyDiv (decide (vt.backend ≠ Backend.jax)) ((3 + vt.nEvents) / 2) n with
      | error e => rfl
      | ok e => simp only [ok_bind, pure_eq_ok, scale_div hc, scale_correction hc]

theorem call_scale (hc : 0 < c) {vt vt' : ResamplingVT} {θ θ' : Dict Fl}
    (h : VTScaled c vt vt' θ θ') :
    vt'.call θ' = (vt.call θ).map fun p => (fin c * p.1, p.2.map (fin (c ^ 2) * ·)) := by
  unfold ResamplingVT.call
  rw [h.marginalise, h.enforce, h.efficiency, vtFactor_scale hc h]
  cases vt.marginalizeUncertainty with
  | true =>
    simp only [Bool.not_true, Bool.false_eq_true, if_false]
    cases vt.vtFactor θ <;> rfl
  | false =>
    simp only [Bool.not_false, if_true]
    cases vt.detectionEfficiency θ with
    | error e => rfl
    | ok p =>
      obtain ⟨mu, var⟩ := p
      simp only [Except.map, ok_bind, checkConvergence_scale hc h.nEvents, pure_eq_ok, Option.map]
      cases vt.enforceConvergence with
      | true => simp only [if_true, scale_correction hc]
      | false => simp only [Bool.false_eq_true, if_false]

/-- The selection and its variance, as seen by a likelihood. -/
theorem selection_scale (hc : 0 < c) {L L' : Likelihood} {vt vt' : ResamplingVT}
    (hL : L.selection = vt.asSelection) (hL' : L'.selection = vt'.asSelection) {θ θ' : Dict Fl}
    (h : VTScaled c vt vt' θ θ') :
    L'.selectionWithUncertainty θ' =
      (L.selectionWithUncertainty θ).map fun p => (p.1, fin c * p.2.1, fin (c ^ 2) * p.2.2) := by
  unfold Likelihood.selectionWithUncertainty
  rw [hL, hL']
  simp only [ResamplingVT.asSelection]
  rw [call_scale hc h, h.backend]
  cases vt.call θ with
  | error e => rfl
  | ok p =>
    obtain ⟨s, v⟩ := p
    cases v with
    | none => simp [Except.map, ok_bind, pure_eq_ok]
    | some v => simp [Except.map, ok_bind, pure_eq_ok]

theorem scaledVT_rel (hc : 0 < c) (vt : ResamplingVT) (θ : Dict Fl) :
    VTScaled c vt (scaledVT c vt) θ θ :=
  ⟨rfl, rfl, rfl, rfl, detectionEfficiency_scale hc vt θ⟩

theorem weights_scale (hc : 0 < c) (L : Likelihood) (vt : ResamplingVT) (φ : Dict Fl) :
    (scaledLikelihood c L vt).weights φ = (L.weights φ).map (·.map (scaleRow c)) := by
  unfold Likelihood.weights
  have e1 : (scaledLikelihood c L vt).hyperPrior.prob (scaledLikelihood c L vt).data φ =
      (L.hyperPrior.prob L.data φ).map (·.map (scaleRow c)) := rfl
  have e2 : (scaledLikelihood c L vt).samplingPrior = L.samplingPrior := rfl
  rw [e1, e2]
  cases L.hyperPrior.prob L.data φ with
  | error e => rfl
  | ok p =>
    simp only [Except.map, ok_bind]
    cases L.samplingPrior with
    | some q => exact matDivide_scale hc p q
    | none =>
      simp only [pure_eq_ok, Except.ok.injEq, List.map_map]
      congr 1
      funext r
      simp only [Function.comp, scaleRow, List.map_map]
      congr 1
      funext x
      exact scale_div hc x 1

theorem perEvent_scale (hc : 0 < c) (L : Likelihood) (vt : ResamplingVT) (φ : Dict Fl) :
    (scaledLikelihood c L vt).perEvent φ =
      (L.perEvent φ).map (·.map fun p => (p.1 + fin (Real.log c), p.2)) := by
  have hc2 : 0 < c ^ 2 := by positivity
  unfold Likelihood.perEvent
  rw [weights_scale hc]
  have e1 : (scaledLikelihood c L vt).samplesPerPosterior = L.samplesPerPosterior := rfl
  rw [e1]
  cases L.weights φ with
  | error e => rfl
  | ok w =>
    simp only [Except.map, ok_bind, pure_eq_ok, List.map_map, Except.ok.injEq]
    congr 1
    funext row
    simp only [Function.comp]
    have m1 : Arr.mean (scaleRow c row) = fin c * Arr.mean row := mean_scale hc row
    have m2 : Arr.mean ((scaleRow c row).map (· ^ 2)) = fin (c ^ 2) * Arr.mean (row.map (· ^ 2)) := by
      rw [squares_scale]; exact mean_scale hc2 _
    rw [m1, m2, log_scale hc, scale_sq, ← scale_sub hc2, mul_left_comm, scale_cancel hc2]

/-! ## C77 -/

/-- The number of rows of the weights is the number of events. -/
theorem perEvent_length {L : Likelihood} {θ φ : Dict Fl} (hrows : OneRowPerEvent L θ)
    (hφ : L.conversion θ = .ok φ) {ev : List (Fl × Fl)} (hev : L.perEvent φ = .ok ev) :
    ev.length = L.nPosteriors := by
  unfold Likelihood.perEvent at hev
  simp only [bind_eq_ok, pure_eq_ok] at hev
  obtain ⟨w, hw, hev⟩ := hev
  rw [← Except.ok.inj hev, List.length_map]
  unfold Likelihood.weights at hw
  simp only [bind_eq_ok] at hw
  obtain ⟨p, hp, hw⟩ := hw
  have hl := hrows φ p hφ hp
  cases hq : L.samplingPrior with
  | none =>
    rw [hq] at hw
    simp only [pure_eq_ok] at hw
    rw [← Except.ok.inj hw, List.length_map, hl]
  | some q =>
    rw [hq] at hw
    simp only [Mat.divide] at hw
    split_ifs at hw with h
    rw [← Except.ok.inj hw, List.length_zipWith]
    have := congrArg List.length h
    rw [List.length_map, List.length_map] at this
    omega

/-- If the event terms change by the logarithm of `c` and the selection by the factor `c`, nothing
changes. -/
theorem base_scale (hc : 0 < c) {L L' : Likelihood} {θ θ' φ φ' : Dict Fl} (hcls : L'.cls = L.cls)
    (hn : L'.nPosteriors = L.nPosteriors) (hφ : L.conversion θ = .ok φ)
    (hφ' : L'.conversion θ' = .ok φ') (hrows : OneRowPerEvent L θ)
    (hev : L'.perEvent φ' = (L.perEvent φ).map (·.map fun p => (p.1 + fin (Real.log c), p.2)))
    (hsel : L'.selectionFactor φ' = (L.selectionFactor φ).map fun p =>
      (p.1 + fin (-(L.nPosteriors : ℝ) * Real.log c), p.2)) :
    L'.lnLikelihoodAndVariance θ' = L.lnLikelihoodAndVariance θ := by
  have base : L'.lnLikelihoodAndVarianceBase θ' = L.lnLikelihoodAndVarianceBase θ := by
    unfold Likelihood.lnLikelihoodAndVarianceBase
    rw [hφ, hφ']
    simp only [ok_bind]
    rw [hev]
    cases hev : L.perEvent φ with
    | error e => rfl
    | ok ev =>
      simp only [Except.map, ok_bind]
      rw [hsel]
      cases L.selectionFactor φ with
      | error e => rfl
      | ok p =>
        obtain ⟨s, v⟩ := p
        simp only [Except.map, ok_bind, pure_eq_ok, List.map_map, toNumber_id, Except.ok.injEq,
          Prod.mk.injEq]
        constructor
        · have h1 : Arr.sum (ev.map (Prod.fst ∘ fun p => (p.1 + fin (Real.log c), p.2))) =
              Arr.sum (ev.map Prod.fst) + fin (L.nPosteriors * Real.log c) := by
            have := sum_add_const (Real.log c) (ev.map Prod.fst)
            rw [List.map_map, List.length_map, perEvent_length hrows hφ hev] at this
            exact this
          rw [h1, add_add_add_comm, fin_add,
            show (L.nPosteriors : ℝ) * Real.log c + -(L.nPosteriors : ℝ) * Real.log c = 0 by ring,
            show (fin 0 : Fl) = 0 from rfl, add_zero]
        · rfl
  unfold Likelihood.lnLikelihoodAndVariance
  rw [base, hcls]

theorem factor_scale_hyper (hc : 0 < c) {L L' : Likelihood} {φ φ' : Dict Fl} (hcls : L'.cls = L.cls)
    (hn : L'.nPosteriors = L.nPosteriors) (hne : L.cls ≠ .rate)
    (hsel : L'.selectionWithUncertainty φ' =
      (L.selectionWithUncertainty φ).map fun p => (p.1, fin c * p.2.1, fin (c ^ 2) * p.2.2)) :
    L'.selectionFactor φ' = (L.selectionFactor φ).map fun p =>
      (p.1 + fin (-(L.nPosteriors : ℝ) * Real.log c), p.2) := by
  have hc2 : 0 < c ^ 2 := by positivity
  have hyp : L'.selectionFactorHyper φ' = (L.selectionFactorHyper φ).map fun p =>
      (p.1 + fin (-(L.nPosteriors : ℝ) * Real.log c), p.2) := by
    unfold Likelihood.selectionFactorHyper
    rw [hsel]
    cases L.selectionWithUncertainty φ with
    | error e => rfl
    | ok p =>
      obtain ⟨py, s, v⟩ := p
      simp only [Except.map, ok_bind, pure_eq_ok, hn, log_scale hc, natCast_eq, fin_neg,
        fin_mul_add_fin, scale_sq, scale_cancel hc2]
  unfold Likelihood.selectionFactor
  rw [hcls]
  cases hcl : L.cls with
  | rate => exact absurd hcl hne
  | hyper => exact hyp
  | null => exact hyp

theorem factor_scale_rate (hc : 0 < c) {L L' : Likelihood} {φ φ' : Dict Fl} (hcls : L'.cls = L.cls)
    (hn : L'.nPosteriors = L.nPosteriors) (hrate : L.cls = .rate) {R : Fl}
    (hR : φ.get "rate" = .ok R) (hR' : φ'.get "rate" = .ok (fin c⁻¹ * R))
    (hsel : L'.selectionWithUncertainty φ' =
      (L.selectionWithUncertainty φ).map fun p => (p.1, fin c * p.2.1, fin (c ^ 2) * p.2.2)) :
    L'.selectionFactor φ' = (L.selectionFactor φ).map fun p =>
      (p.1 + fin (-(L.nPosteriors : ℝ) * Real.log c), p.2) := by
  have hc2 : 0 < c ^ 2 := by positivity
  have hi : 0 < c⁻¹ := inv_pos.2 hc
  unfold Likelihood.selectionFactor
  rw [hcls, hrate]
  simp only
  unfold Likelihood.selectionFactorRate
  rw [hsel]
  cases L.selectionWithUncertainty φ with
  | error e => rfl
  | ok p =>
    obtain ⟨py, s, v⟩ := p
    simp only [Except.map, ok_bind, hR, hR', hn]
    have e : fin c * s * (fin c⁻¹ * R) = s * R := by
      rw [mul_mul_mul_comm, fin_mul, mul_inv_cancel₀ hc.ne']
      exact one_mul _
    rw [e, log_scale hi, scale_sq, mul_left_comm, pyDiv_scale_cancel hc2]
    cases pyDiv py (s * R * v) (s ^ 2) with
    | error e => rfl
    | ok w =>
      simp only [ok_bind, pure_eq_ok, natCast_eq, fin_mul_add_fin, Real.log_inv, mul_neg,
        neg_mul, ← add_assoc]

/-- **C77.** Multiplying the population density by any positive constant, in the event terms and in the
selection function alike, changes neither the estimate of the log-likelihood nor its variance, and the
same exceptions are raised. This holds for all floats that the population model may return, for
`HyperparameterLikelihood` and the null likelihood. -/
theorem C77_hyper (hc : 0 < c) (L : Likelihood) (vt : ResamplingVT) (hL : L.selection = vt.asSelection)
    (hcls : L.cls ≠ .rate) (θ : Dict Fl) (hrows : OneRowPerEvent L θ) :
    (scaledLikelihood c L vt).lnLikelihoodAndVariance θ = L.lnLikelihoodAndVariance θ := by
  cases hφ : L.conversion θ with
  | error e =>
    unfold Likelihood.lnLikelihoodAndVariance Likelihood.lnLikelihoodAndVarianceBase
    have e1 : (scaledLikelihood c L vt).conversion = L.conversion := rfl
    rw [e1, hφ]
    rfl
  | ok φ =>
    exact base_scale hc (L' := scaledLikelihood c L vt) rfl rfl hφ hφ hrows (perEvent_scale hc L vt φ)
      (factor_scale_hyper hc rfl rfl hcls (selection_scale hc hL rfl (scaledVT_rel hc vt φ)))

/-- The same holds for the value used in sampling, with the uncertainty cut applied. -/
theorem C77_ratio (hc : 0 < c) (L : Likelihood) (vt : ResamplingVT) (hL : L.selection = vt.asSelection)
    (hcls : L.cls ≠ .rate) (θ : Dict Fl) (hrows : OneRowPerEvent L θ) :
    (scaledLikelihood c L vt).logLikelihoodRatio θ = L.logLikelihoodRatio θ ∧
    (scaledLikelihood c L vt).logLikelihood θ = L.logLikelihood θ := by
  have h1 : (scaledLikelihood c L vt).logLikelihoodRatio θ = L.logLikelihoodRatio θ := by
    unfold Likelihood.logLikelihoodRatio
    rw [C77_hyper hc L vt hL hcls θ hrows]
    rfl
  refine ⟨h1, ?_⟩
  unfold Likelihood.logLikelihood
  rw [h1]
  rfl

/-- **C77** for the rate likelihood: the constant is absorbed by the rate. Multiplying the density by `c`
and dividing the merger rate by `c` changes nothing, if the density itself does not depend on the rate. -/
theorem C77_rate (hc : 0 < c) (L : Likelihood) (vt : ResamplingVT) (hL : L.selection = vt.asSelection)
    (hcls : L.cls = .rate) {θ θ' φ φ' : Dict Fl} {R : Fl} (hφ : L.conversion θ = .ok φ)
    (hφ' : L.conversion θ' = .ok φ') (hR : φ.get "rate" = .ok R)
    (hR' : φ'.get "rate" = .ok (fin c⁻¹ * R))
    (hp : L.hyperPrior.prob L.data φ' = L.hyperPrior.prob L.data φ)
    (hv : vt.model.prob vt.data φ' = vt.model.prob vt.data φ) (hrows : OneRowPerEvent L θ) :
    (scaledLikelihood c L vt).lnLikelihoodAndVariance θ' = L.lnLikelihoodAndVariance θ := by
  have hev : L.perEvent φ' = L.perEvent φ := by
    unfold Likelihood.perEvent Likelihood.weights
    rw [hp]
  have heff : vt.detectionEfficiency φ' = vt.detectionEfficiency φ := by
    unfold ResamplingVT.detectionEfficiency
    rw [hv]
  have hrel : VTScaled c vt (scaledVT c vt) φ φ' :=
    ⟨rfl, rfl, rfl, rfl, by rw [detectionEfficiency_scale hc, heff]⟩
  exact base_scale hc (L' := scaledLikelihood c L vt) rfl rfl hφ hφ' hrows
    (by rw [perEvent_scale hc, hev])
    (factor_scale_rate hc rfl rfl hcls hR hR' (selection_scale hc hL rfl hrel))

/-- Accordingly, the rate samples drawn for the rescaled density are divided by the constant (for the same
random number). -/
theorem C77_rate_sample (hc : 0 < c) (L : Likelihood) (vt : ResamplingVT)
    (hL : L.selection = vt.asSelection) (hcls : L.cls ≠ .rate) (g : Fl) (θ : Dict Fl) :
    (scaledLikelihood c L vt).generateRatePosteriorSample g θ =
      (L.generateRatePosteriorSample g θ).map (fin c⁻¹ * ·) := by
  unfold Likelihood.generateRatePosteriorSample
  have e1 : (scaledLikelihood c L vt).cls = L.cls := rfl
  have e2 : (scaledLikelihood c L vt).selection = (scaledVT c vt).asSelection := rfl
  have e3 : (scaledVT c vt).surveyedHypervolume θ = vt.surveyedHypervolume θ := rfl
  rw [e1, e2, hL]
  simp only [ResamplingVT.asSelection]
  rw [detectionEfficiency_scale hc, e3]
  have key : (do
      let p ← (vt.detectionEfficiency θ).map fun p => (fin c * p.1, fin (c ^ 2) * p.2)
      let v ← vt.surveyedHypervolume θ
      (pure (g / (p.1 * v)) : Except PyErr Fl)) =
      (do
      let p ← vt.detectionEfficiency θ
      let v ← vt.surveyedHypervolume θ
      (pure (g / (p.1 * v)) : Except PyErr Fl)).map (fin c⁻¹ * ·) := by
    cases vt.detectionEfficiency θ with
    | error e => rfl
    | ok p =>
      simp only [Except.map, ok_bind]
      cases vt.surveyedHypervolume θ with
      | error e => rfl
      | ok v => simp only [ok_bind, pure_eq_ok, mul_assoc, div_scale hc]
  cases hcl : L.cls with
  | rate => exact absurd hcl hcls
  | hyper => exact key
  | null => exact key

/-! ## C78: units of the sampling priors -/

/-- Sampling priors with each event's values multiplied by its own constant. -/
def Spec.scalePriors (cs : List ℝ) (q : Mat) : Mat := List.zipWith scaleRow cs q

/-- An entry of the injections with its values multiplied by a constant. -/
def Spec.scaleValue (c : ℝ) : Value → Value
  | .num py x => .num py (fin c * x)
  | .arr l => .arr (scaleRow c l)

/-- The injections with the sampling density `prior` in other units. -/
def Spec.scaleInjectionPrior (c : ℝ) (data : Dict Value) : Dict Value :=
  data.map fun kv => if kv.1 = "prior" then (kv.1, scaleValue c kv.2) else kv

theorem zipWith_rows_scale {q p : Mat} {cs : List ℝ} (hcs : ∀ c ∈ cs, 0 < c)
    (hlen : cs.length = q.length) (h : p.map List.length = q.map List.length) :
    (List.zipWith (List.zipWith (· / ·)) p (scalePriors cs q)) =
      List.zipWith (fun (c : ℝ) row => scaleRow c⁻¹ row) cs
        (List.zipWith (List.zipWith (· / ·)) p q) := by
  induction q generalizing p cs with
  | nil => cases cs <;> cases p <;> simp_all [scalePriors]
  | cons r q ih =>
    cases cs with
    | nil => simp at hlen
    | cons c cs =>
      cases p with
      | nil => simp at h
      | cons s p =>
        simp only [scalePriors, List.zipWith_cons_cons, List.cons.injEq]
        constructor
        · unfold scaleRow
          rw [List.zipWith_map_right, List.map_zipWith]
          congr 1
          funext x y
          exact div_scale (hcs c (by simp)) x y
        · exact ih (fun c hc => hcs c (by simp [hc])) (by simpa using hlen) (by simp_all)

theorem matDivide_scalePriors {q p : Mat} {cs : List ℝ} (hcs : ∀ c ∈ cs, 0 < c)
    (hlen : cs.length = q.length) :
    Mat.divide p (scalePriors cs q) = (Mat.divide p q).map fun m =>
      List.zipWith (fun (c : ℝ) row => scaleRow c⁻¹ row) cs m := by
  unfold Mat.divide
  have e : (scalePriors cs q).map List.length = q.map List.length := by
    induction q generalizing cs with
    | nil => cases cs <;> simp [scalePriors]
    | cons r q ih =>
      cases cs with
      | nil => simp at hlen
      | cons c cs =>
        simp only [scalePriors, List.zipWith_cons_cons, List.map_cons, List.cons.injEq]
        refine ⟨by simp [scaleRow], ih (fun c hc => hcs c (by simp [hc])) (by simpa using hlen)⟩
  rw [e]
  split_ifs with h
  · simp only [Except.map, Except.ok.injEq]
    exact zipWith_rows_scale hcs hlen h
  · rfl

/-- The event terms with rescaled priors: the logarithms are shifted event by event. -/
theorem perEvent_scalePriors {cs : List ℝ} (hcs : ∀ c ∈ cs, 0 < c) (L : Likelihood) {q : Mat}
    (hq : L.samplingPrior = some q) (hlen : cs.length = q.length) (φ : Dict Fl) :
    ({ L with samplingPrior := some (scalePriors cs q) } : Likelihood).perEvent φ =
      (L.perEvent φ).map fun ev =>
        List.zipWith (fun (c : ℝ) (p : Fl × Fl) => (p.1 + fin (-Real.log c), p.2)) cs ev := by
  unfold Likelihood.perEvent Likelihood.weights
  simp only [hq]
  cases L.hyperPrior.prob L.data φ with
  | error e => rfl
  | ok p =>
    simp only [ok_bind]
    rw [matDivide_scalePriors hcs hlen]
    cases Mat.divide p q with
    | error e => rfl
    | ok m =>
      simp only [Except.map, ok_bind, pure_eq_ok, Except.ok.injEq]
      clear hlen hq p q
      induction cs generalizing m with
      | nil => cases m <;> simp
      | cons c cs ih =>
        cases m with
        | nil => simp
        | cons row m =>
          have hc : 0 < c⁻¹ := inv_pos.2 (hcs c (by simp))
          have hc2 : 0 < c⁻¹ ^ 2 := by positivity
          simp only [List.zipWith_cons_cons, List.map_cons, List.cons.injEq, Prod.mk.injEq]
          have m1 : Arr.mean (scaleRow c⁻¹ row) = fin c⁻¹ * Arr.mean row := mean_scale hc row
          have m2 : Arr.mean ((scaleRow c⁻¹ row).map (· ^ 2)) =
              fin (c⁻¹ ^ 2) * Arr.mean (row.map (· ^ 2)) := by
            rw [squares_scale]; exact mean_scale hc2 _
          refine ⟨⟨?_, ?_⟩, ih (fun c hc => hcs c (by simp [hc])) m⟩
          · rw [m1, log_scale hc, Real.log_inv]
          · rw [m1, m2, scale_sq, ← scale_sub hc2, mul_left_comm, scale_cancel hc2]

theorem sum_zipWith_shift (cs : List ℝ) (ev : List (Fl × Fl)) (h : cs.length = ev.length) :
    Arr.sum ((List.zipWith (fun (c : ℝ) (p : Fl × Fl) => (p.1 + fin (-Real.log c), p.2)) cs ev).map
        Prod.fst) = Arr.sum (ev.map Prod.fst) + fin (-(cs.map Real.log).sum) ∧
    (List.zipWith (fun (c : ℝ) (p : Fl × Fl) => (p.1 + fin (-Real.log c), p.2)) cs ev).map Prod.snd =
      ev.map Prod.snd := by
  unfold Arr.sum
  induction cs generalizing ev with
  | nil => cases ev <;> simp_all
  | cons c cs ih =>
    cases ev with
    | nil => simp at h
    | cons p ev =>
      obtain ⟨h1, h2⟩ := ih ev (by simpa using h)
      simp only [List.zipWith_cons_cons, List.map_cons, List.sum_cons, h1, h2]
      refine ⟨?_, trivial⟩
      rw [add_add_add_comm, fin_add, neg_add]

/-- **C78.** Multiplying the sampling prior of each event by its own positive constant shifts the
log-likelihood by a constant, minus the sum of the logarithms, and leaves the variance alone, for all
hyper-parameters, so that the posterior is the same. -/
theorem C78_priors {cs : List ℝ} (hcs : ∀ c ∈ cs, 0 < c) (L : Likelihood) {q : Mat}
    (hq : L.samplingPrior = some q) (hlen : cs.length = q.length) (hn : q.length = L.nPosteriors)
    (hcls : L.cls ≠ .null) (θ : Dict Fl) (hrows : OneRowPerEvent L θ) :
    ({ L with samplingPrior := some (scalePriors cs q) } : Likelihood).lnLikelihoodAndVariance θ =
      (L.lnLikelihoodAndVariance θ).map fun p => (p.1 + fin (-(cs.map Real.log).sum), p.2) := by
  obtain ⟨L', hL'⟩ : ∃ L' : Likelihood, L' = { L with samplingPrior := some (scalePriors cs q) } :=
    ⟨_, rfl⟩
  have base : L'.lnLikelihoodAndVarianceBase θ = (L.lnLikelihoodAndVarianceBase θ).map fun p =>
      (p.1 + fin (-(cs.map Real.log).sum), p.2) := by
    unfold Likelihood.lnLikelihoodAndVarianceBase
    have e1 : L'.conversion = L.conversion := by rw [hL']
    rw [e1]
    cases hφ : L.conversion θ with
    | error e => rfl
    | ok φ =>
      simp only [ok_bind]
      have e2 := perEvent_scalePriors hcs L hq hlen φ
      rw [← hL'] at e2
      have e3 : L'.selectionFactor φ = L.selectionFactor φ := by rw [hL']; rfl
      rw [e2, e3]
      cases hev : L.perEvent φ with
      | error e => rfl
      | ok ev =>
        simp only [Except.map, ok_bind]
        have hl := perEvent_length hrows hφ hev
        obtain ⟨h1, h2⟩ := sum_zipWith_shift cs ev (by omega)
        rw [h1, h2]
        cases L.selectionFactor φ with
        | error e => rfl
        | ok p =>
          simp only [ok_bind, pure_eq_ok, toNumber_id, Except.ok.injEq, Prod.mk.injEq]
          exact ⟨add_right_comm _ _ _, trivial⟩
  rw [← hL']
  unfold Likelihood.lnLikelihoodAndVariance
  have e1 : L'.cls = L.cls := by rw [hL']
  rw [base, e1]
  cases L.lnLikelihoodAndVarianceBase θ with
  | error e => rfl
  | ok p =>
    simp only [Except.map, ok_bind]
    cases hcl : L.cls with
    | null => exact absurd hcl hcls
    | hyper => rfl
    | rate => rfl

theorem get_scaleInjectionPrior (data : Dict Value) :
    (scaleInjectionPrior c data).get "prior" = (data.get "prior").map (scaleValue c) := by
  have : (scaleInjectionPrior c data).get? "prior" = (data.get? "prior").map (scaleValue c) := by
    unfold scaleInjectionPrior
    induction data with
    | nil => rfl
    | cons kv d ih =>
      obtain ⟨k, v⟩ := kv
      rw [List.map_cons]
      by_cases h : k = "prior"
      · simp only [h, if_true, Dict.get?_cons, Option.map_some]
      · have h' : ¬ "prior" = k := fun e => h e.symm
        simp only [h, if_false, Dict.get?_cons, h', ih]
  unfold Dict.get
  rw [this]
  cases data.get? "prior" <;> rfl

theorem divide_scale_right (hc : 0 < c) (p q : List Fl) :
    Arr.divide p (scaleRow c q) = (Arr.divide p q).map (scaleRow c⁻¹) := by
  unfold Arr.divide scaleRow
  rw [List.length_map]
  split_ifs
  · simp only [Except.map, Except.ok.injEq]
    rw [List.zipWith_map_right, List.map_zipWith]
    congr 1
    funext a b
    exact div_scale hc a b
  · rcases p with _ | ⟨x, _ | ⟨x', p⟩⟩ <;> rcases q with _ | ⟨y, _ | ⟨y', q⟩⟩ <;>
      simp [Except.map, div_scale hc]

/-- Injection priors in other units: the efficiency is divided by the constant. -/
theorem detectionEfficiency_prior (hc : 0 < c) (vt : ResamplingVT) (θ : Dict Fl)
    (hp : vt.model.prob (scaleInjectionPrior c vt.data) θ = vt.model.prob vt.data θ) :
    ({ vt with data := scaleInjectionPrior c vt.data } : ResamplingVT).detectionEfficiency θ =
      (vt.detectionEfficiency θ).map fun p => (fin c⁻¹ * p.1, fin (c⁻¹ ^ 2) * p.2) := by
  have e : ({ vt with data := scaleInjectionPrior c vt.data } : ResamplingVT).detectionEfficiency θ =
      (scaledVT c⁻¹ vt).detectionEfficiency θ := by
    unfold ResamplingVT.detectionEfficiency
    simp only [scaledVT, scaleInjections]
    rw [hp]
    cases vt.model.prob vt.data θ with
    | error e => rfl
    | ok p =>
      rw [get_scaleInjectionPrior]
      cases vt.data.get "prior" with
      | error e => rfl
      | ok q =>
        simp only [Except.map, ok_bind, pure_eq_ok]
        cases q with
        | arr l =>
          simp only [scaleValue, divide_scale_right hc, divide_scale (inv_pos.2 hc)]
          rfl
        | num b x =>
          have e : [fin c * x] = scaleRow c [x] := rfl
          simp only [scaleValue, e, divide_scale_right hc, divide_scale (inv_pos.2 hc)]
          rfl
  rw [e, detectionEfficiency_scale (inv_pos.2 hc)]

/-- **C78**, change of units: if the sampling priors of all events and of the injections are multiplied by
the same positive constant, as they are when a parameter is expressed in other units, the
log-likelihood and its variance do not change. -/
theorem C78_units (hc : 0 < c) (L : Likelihood) (vt : ResamplingVT) (hL : L.selection = vt.asSelection)
    {q : Mat} (hq : L.samplingPrior = some q) (hcls : L.cls ≠ .rate) (θ : Dict Fl)
    (hn : q.length = L.nPosteriors) (hrows : OneRowPerEvent L θ)
    (hp : ∀ φ, vt.model.prob (scaleInjectionPrior c vt.data) φ = vt.model.prob vt.data φ) :
    ({ L with
        samplingPrior := some (scalePriors (List.replicate L.nPosteriors c) q)
        selection :=
          ResamplingVT.asSelection { vt with data := scaleInjectionPrior c vt.data } } :
      Likelihood).lnLikelihoodAndVariance θ = L.lnLikelihoodAndVariance θ := by
  have hi : 0 < c⁻¹ := inv_pos.2 hc
  have hcs : ∀ x ∈ List.replicate L.nPosteriors c, 0 < x := fun x hx => by
    rw [(List.mem_replicate.1 hx).2]; exact hc
  cases hφ : L.conversion θ with
  | error e =>
    unfold Likelihood.lnLikelihoodAndVariance Likelihood.lnLikelihoodAndVarianceBase
    simp only [hφ]
    rfl
  | ok φ =>
    refine base_scale hi (L := L) (φ := φ) (φ' := φ) rfl rfl hφ hφ hrows ?_
      (factor_scale_hyper hi rfl rfl hcls (selection_scale (vt := vt)
        (vt' := { vt with data := scaleInjectionPrior c vt.data }) hi hL rfl
        ⟨rfl, rfl, rfl, rfl, detectionEfficiency_prior hc vt φ (hp φ)⟩))
    have e : (Likelihood.perEvent { L with
        samplingPrior := some (scalePriors (List.replicate L.nPosteriors c) q)
        selection := ResamplingVT.asSelection { vt with data := scaleInjectionPrior c vt.data } } φ) =
      (Likelihood.perEvent { L with
        samplingPrior := some (scalePriors (List.replicate L.nPosteriors c) q) } φ) := rfl
    rw [e, perEvent_scalePriors hcs L hq (by simp [hn])]
    cases hev : L.perEvent φ with
    | error e => rfl
    | ok ev =>
      simp only [Except.map, Except.ok.injEq]
      have hl := perEvent_length hrows hφ hev
      rw [← hl, Real.log_inv]
      clear hl hev
      induction ev with
      | nil => rfl
      | cons p ev ih =>
        simp only [List.length_cons, List.replicate_succ, List.zipWith_cons_cons, List.map_cons, ih]

/-! ## Non-vacuity -/

/-- A likelihood with two events and a selection function, both built with the density `p`. -/
example : ∃ (L : Likelihood) (vt : ResamplingVT), L.selection = vt.asSelection ∧ L.cls ≠ .rate ∧
    L.cls ≠ .null ∧ OneRowPerEvent L [] ∧ (∃ q, L.samplingPrior = some q ∧ q.length = L.nPosteriors) ∧
    (∀ c φ, vt.model.prob (scaleInjectionPrior c vt.data) φ = vt.model.prob vt.data φ) ∧
    L.nPosteriors = 2 := by
  refine ⟨⟨.hyper, .numpy, [("x", [[fin 1, fin 2], [fin 3, fin 4]])],
    ⟨[], fun _ _ => .ok [[fin 1, fin 2], [fin 3, fin 4]]⟩, some [[fin 1, fin 1], [fin 2, fin 2]],
    nan, fun θ => .ok θ,
    ResamplingVT.asSelection ⟨.numpy, ⟨[], fun _ _ => .ok [fin 1, fin 2]⟩,
      [("prior", .arr [fin 1, fin 1])], pinf, (true, fin 10), fin 1, none, false, true, none⟩,
    2, 2, pinf, pinf⟩, _, rfl, by simp, by simp, ?_, ⟨_, rfl, rfl⟩, fun _ _ => rfl, rfl⟩
  intro φ m h1 h2
  rw [← Except.ok.inj h2]
  rfl

/-- The hypotheses of `C77_rate` with the constant 2: rates 6 and 3. -/
example : ∃ (L : Likelihood) (vt : ResamplingVT), L.selection = vt.asSelection ∧ L.cls = .rate ∧
    OneRowPerEvent L [("rate", fin 6)] ∧ L.conversion [("rate", fin 6)] = .ok [("rate", fin 6)] ∧
    L.conversion [("rate", fin 3)] = .ok [("rate", fin 3)] ∧
    Dict.get [("rate", fin 6)] "rate" = .ok (fin 6) ∧
    Dict.get [("rate", fin 3)] "rate" = .ok (fin (2 : ℝ)⁻¹ * fin 6) ∧
    L.hyperPrior.prob L.data [("rate", fin 3)] = L.hyperPrior.prob L.data [("rate", fin 6)] ∧
    vt.model.prob vt.data [("rate", fin 3)] = vt.model.prob vt.data [("rate", fin 6)] := by
  refine ⟨⟨.rate, .numpy, [("x", [[fin 1, fin 2], [fin 3, fin 4]])],
    ⟨[], fun _ _ => .ok [[fin 1, fin 2], [fin 3, fin 4]]⟩, some [[fin 1, fin 1], [fin 2, fin 2]],
    nan, fun θ => .ok θ,
    ResamplingVT.asSelection ⟨.numpy, ⟨[], fun _ _ => .ok [fin 1, fin 2]⟩,
      [("prior", .arr [fin 1, fin 1])], pinf, (true, fin 10), fin 1, none, false, true, none⟩,
    2, 2, pinf, pinf⟩, _, rfl, rfl, ?_, rfl, rfl, rfl, ?_, rfl, rfl⟩
  · intro φ m h1 h2
    rw [← Except.ok.inj h2]
    rfl
  · rw [fin_mul, show (2 : ℝ)⁻¹ * 6 = 3 by norm_num]
    rfl

end GW
