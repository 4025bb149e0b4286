import Verif.Props.BackendValues
import Verif.Props.Likelihood
import Verif.Model.Experimental

/-!
# C140: the selection function and the likelihood on the three backends

C83 is about the population models. Here: what is computed from them.
-/

noncomputable section

open Classical

namespace GW

open Fl Spec

/-! ## Specification -/

/-- A population model that returns the same values on every backend. -/
structure Spec.SameModel {D O : Type} (m : Backend → PopModel D O) : Prop where
  components : ∀ b, (m b).models = (m .numpy).models
  values : ∀ d θ, SameValues fun b => (m b).prob d θ

/-- An argument `hyper_prior` that behaves in the same way on every backend: a function or an object whose
probabilities have the same values, or an object that cannot be used on any backend. -/
inductive Spec.SameHyperPriorArg : (Backend → HyperPriorArg) → Prop
  | function (f : Backend → Dict Mat → Dict Fl → Except PyErr Mat) (h : ∀ d θ, SameValues fun b => f b d θ) :
      SameHyperPriorArg fun b => .function (f b)
  | object (hasParameters : Bool) (models : List Component) (f : Backend → Dict Mat → Dict Fl → Except PyErr Mat)
      (h : ∀ d θ, SameValues fun b => f b d θ) : SameHyperPriorArg fun b => .object hasParameters (.callable models (f b))
  | missing (hasParameters : Bool) : SameHyperPriorArg fun _ => .object hasParameters .missing
  | notCallable (hasParameters : Bool) : SameHyperPriorArg fun _ => .object hasParameters .notCallable

/-- The arguments of `ResamplingVT`. -/
structure Spec.VTArguments where
  planck15 : Cosmology
  data : Dict Value
  nEvents : Fl
  marginalize : Bool
  enforce : Bool

/-- A `ResamplingVT` constructed on the backend `b`, and then used. -/
def Spec.withVT {α : Type} (a : VTArguments) (m : Backend → PopModel (Dict Value) (List Fl)) (b : Backend)
    (use : ResamplingVT → Except PyErr α) : Except PyErr α := do
  let r ← ResamplingVT.init b a.planck15 (m b) a.data a.nEvents a.marginalize a.enforce
  use r.1

/-- The arguments of a likelihood. -/
structure Spec.LikelihoodArguments where
  cls : LikelihoodClass
  posteriors : List Frame
  lnEvidences : Option (List Fl)
  maxSamples : Option ℕ
  maximumUncertainty : Fl
  picks : List (List ℕ)

/-- A likelihood with this selection function constructed on the backend `b`, and then used. -/
def Spec.withLikelihood {α : Type} (a : VTArguments) (m : Backend → PopModel (Dict Value) (List Fl))
    (l : LikelihoodArguments) (hp : Backend → HyperPriorArg) (conv : Backend → Dict Fl → Except PyErr (Dict Fl))
    (b : Backend) (use : Likelihood → Except PyErr α) : Except PyErr α :=
  withVT a m b fun vt => do
    let L ← Likelihood.init l.cls b l.posteriors (hp b) l.lnEvidences l.maxSamples vt.asSelection (conv b)
      l.maximumUncertainty l.picks
    use L

/-! ## Lemmas -/

namespace BackendLikelihood

theorem pyDiv_same (c : Bool) (x y : Fl) : SameValues fun b => pyDiv (decide (b ≠ .jax) && c) x y := by
  constructor
  · rfl
  · intro v h
    unfold pyDiv at h ⊢
    dsimp only at h ⊢
    split at h
    · cases h
    · simpa using h

theorem pyDiv_same' (x y : Fl) : SameValues fun b => pyDiv (decide (b ≠ .jax)) x y := by
  have := pyDiv_same true x y
  simpa only [Bool.and_true] using this

theorem toNumber_id (b : Backend) (x : Fl) : toNumber b id id x = x := by
  unfold toNumber
  split <;> rfl

/-- The instance that is constructed. -/
def instVT (a : VTArguments) (m : Backend → PopModel (Dict Value) (List Fl)) (total time : Bool × Fl) (b : Backend) :
    ResamplingVT :=
  { backend := b, model := m b, data := a.data, nEvents := a.nEvents, totalInjections := total,
    analysisTime := time.2, redshiftModel := lastRedshift (m b).models, marginalizeUncertainty := a.marginalize,
    enforceConvergence := a.enforce,
    surveyedHypervolumeAttr := match lastRedshift (m b).models with
      | none => some (totalFourVolume a.planck15 0 time.2)
      | some _ => none }

theorem withVT_same {α : Type} {a : VTArguments} {m : Backend → PopModel (Dict Value) (List Fl)}
    {use : Backend → ResamplingVT → Except PyErr α}
    (h : ∀ total time, SameValues fun b => use b (instVT a m total time b)) :
    SameValues fun b => withVT a m b (use b) := by
  unfold withVT ResamplingVT.init
  simp only [bind_assoc, pure_eq_ok, ok_bind]
  refine .bind (.const _) fun prior => .bind (.const _) fun n => .bind (.const _) fun total =>
    .bind (.const _) fun time => ?_
  exact h total time

variable {a : VTArguments} {m : Backend → PopModel (Dict Value) (List Fl)}

theorem efficiency_same (hm : SameModel m) (total time : Bool × Fl) (θ : Dict Fl) :
    SameValues fun b => (instVT a m total time b).detectionEfficiency θ := by
  unfold ResamplingVT.detectionEfficiency instVT
  simp only [toNumber_id]
  refine .bind (hm.values _ _) fun p => .bind (.const _) fun prior => ?_
  cases prior with
  | arr l => exact .bind (.const _) fun q => .bind (.const _) fun w => .bind (pyDiv_same _ _ _) fun s => .const _
  | num py x => exact .bind (.const _) fun q => .bind (.const _) fun w => .bind (pyDiv_same _ _ _) fun s => .const _

theorem vtFactor_same (hm : SameModel m) (total time : Bool × Fl) (θ : Dict Fl) :
    SameValues fun b => (instVT a m total time b).vtFactor θ := by
  unfold ResamplingVT.vtFactor
  refine .bind (efficiency_same hm total time θ) fun mv => ?_
  refine .bind (pyDiv_same' _ _) fun n => .bind (pyDiv_same' _ _) fun e => .const _

theorem call_same (hm : SameModel m) (total time : Bool × Fl) (θ : Dict Fl) :
    SameValues fun b => (instVT a m total time b).call θ := by
  unfold ResamplingVT.call
  by_cases h : a.marginalize
  · simp only [instVT, h, Bool.not_true, Bool.false_eq_true, if_false]
    exact .bind (vtFactor_same hm total time θ) fun v => .const _
  · simp only [instVT, h, Bool.not_false, if_true]
    exact .bind (efficiency_same hm total time θ) fun mv => .const _

theorem hypervolume_same (hm : SameModel m) (total time : Bool × Fl) (θ : Dict Fl) :
    SameValues fun b => (instVT a m total time b).surveyedHypervolume θ := by
  refine (SameValues.const ((instVT a m total time .numpy).surveyedHypervolume θ)).congr fun b => ?_
  unfold ResamplingVT.surveyedHypervolume instVT
  simp only [hm.components b]

end BackendLikelihood

open BackendLikelihood

/-- **C140.** The selection function: construction and all of its results. -/
theorem C140_selection (a : VTArguments) {m : Backend → PopModel (Dict Value) (List Fl)} (hm : SameModel m)
    (θ : Dict Fl) :
    (SameValues fun b => withVT a m b fun vt => vt.call θ) ∧
    (SameValues fun b => withVT a m b fun vt => vt.detectionEfficiency θ) ∧
    (SameValues fun b => withVT a m b fun vt => vt.vtFactor θ) ∧
    (SameValues fun b => withVT a m b fun vt => vt.surveyedHypervolume θ) :=
  ⟨withVT_same fun _ _ => call_same hm _ _ θ, withVT_same fun _ _ => efficiency_same hm _ _ θ,
    withVT_same fun _ _ => vtFactor_same hm _ _ θ, withVT_same fun _ _ => hypervolume_same hm _ _ θ⟩

namespace BackendLikelihood

variable {a : VTArguments} {m : Backend → PopModel (Dict Value) (List Fl)}

/-- The likelihood that is constructed. -/
def instL (a : VTArguments) (m : Backend → PopModel (Dict Value) (List Fl)) (l : LikelihoodArguments)
    (pop : Backend → PopModel (Dict Mat) Mat) (conv : Backend → Dict Fl → Except PyErr (Dict Fl))
    (total time : Bool × Fl) (dk : Dict Mat × ℕ) (b : Backend) : Likelihood :=
  { cls := l.cls, backend := b, data := dk.1.erase "prior", hyperPrior := pop b, samplingPrior := dk.1.get? "prior",
    totalNoiseEvidence := match l.lnEvidences with
      | some l => Arr.sum l
      | none => nan
    conversion := conv b, selection := (instVT a m total time b).asSelection, nPosteriors := l.posteriors.length,
    samplesPerPosterior := dk.2, maximumUncertainty := l.maximumUncertainty,
    maxVariance := Likelihood.maxVarianceOf l.maximumUncertainty }

theorem withLikelihood_same {α : Type} {l : LikelihoodArguments} {hp : Backend → HyperPriorArg} (hhp : SameHyperPriorArg hp)
    {conv : Backend → Dict Fl → Except PyErr (Dict Fl)} {use : Likelihood → Except PyErr α}
    (h : ∀ pop, (∀ d θ, SameValues fun b => (pop b).prob d θ) → ∀ total time dk,
      SameValues fun b => use (instL a m l pop conv total time dk b)) :
    SameValues fun b => withLikelihood a m l hp conv b use := by
  refine withVT_same fun total time => ?_
  unfold Likelihood.init
  simp only [bind_assoc, pure_eq_ok, ok_bind]
  refine .bind (.const _) fun dk => ?_
  cases hhp with
  | function f hf => exact h (fun b => ⟨[.other], f b⟩) hf total time dk
  | object hasParameters models f hf =>
    cases hasParameters with
    | true => exact h (fun b => ⟨models, f b⟩) hf total time dk
    | false => exact .const _
  | missing hasParameters => cases hasParameters <;> exact .const _
  | notCallable hasParameters => cases hasParameters <;> exact .const _

variable {l : LikelihoodArguments} {pop : Backend → PopModel (Dict Mat) Mat}
  {conv : Backend → Dict Fl → Except PyErr (Dict Fl)} {total time : Bool × Fl} {dk : Dict Mat × ℕ}

theorem weights_same (hp : ∀ d θ, SameValues fun b => (pop b).prob d θ) (φ : Dict Fl) :
    SameValues fun b => (instL a m l pop conv total time dk b).weights φ := by
  unfold Likelihood.weights
  exact .bind (hp _ _) fun p => .const _

theorem perEvent_same (hp : ∀ d θ, SameValues fun b => (pop b).prob d θ) (φ : Dict Fl) :
    SameValues fun b => (instL a m l pop conv total time dk b).perEvent φ := by
  unfold Likelihood.perEvent
  exact .bind (weights_same hp φ) fun w => .const _

theorem selection_same {α : Type} (hm : SameModel m) (φ : Dict Fl) {g : Bool × Fl × Fl → Except PyErr α}
    (hg : ∀ s v, SameValues fun b => g (decide (b ≠ .jax), s, v)) :
    SameValues fun b => (instL a m l pop conv total time dk b).selectionWithUncertainty φ >>= g := by
  refine (SameValues.bind (call_same (a := a) hm total time φ)
    (g := fun b r => g (decide (b ≠ .jax), r.1, r.2.getD 0)) fun r => hg _ _).congr fun b => ?_
  unfold Likelihood.selectionWithUncertainty
  show _ = ((instVT a m total time b).asSelection.call φ >>= _) >>= g
  unfold ResamplingVT.asSelection
  simp only [bind_assoc]
  refine congrArg _ (funext fun r => ?_)
  obtain ⟨s, v⟩ := r
  cases v <;> rfl

theorem selectionFactor_same (hm : SameModel m) (φ : Dict Fl) :
    SameValues fun b => (instL a m l pop conv total time dk b).selectionFactor φ := by
  unfold Likelihood.selectionFactor
  have h1 : SameValues fun b => (instL a m l pop conv total time dk b).selectionFactorHyper φ := by
    unfold Likelihood.selectionFactorHyper
    exact selection_same hm φ fun s v => .const _
  have h2 : SameValues fun b => (instL a m l pop conv total time dk b).selectionFactorRate φ := by
    unfold Likelihood.selectionFactorRate
    exact selection_same hm φ fun s v => .bind (.const _) fun r => .bind (pyDiv_same' _ _) fun t => .const _
  show SameValues fun b => match l.cls with
    | .rate => (instL a m l pop conv total time dk b).selectionFactorRate φ
    | _ => (instL a m l pop conv total time dk b).selectionFactorHyper φ
  cases l.cls with
  | rate => exact h2
  | hyper => exact h1
  | null => exact h1

theorem value_same (hm : SameModel m) (hp : ∀ d θ, SameValues fun b => (pop b).prob d θ)
    (hc : ∀ θ, SameValues fun b => conv b θ) (θ : Dict Fl) :
    SameValues fun b => (instL a m l pop conv total time dk b).lnLikelihoodAndVariance θ := by
  unfold Likelihood.lnLikelihoodAndVariance Likelihood.lnLikelihoodAndVarianceBase
  simp only [toNumber_id]
  refine .bind (.bind (hc θ) fun φ => .bind (perEvent_same hp φ) fun e => .bind (selectionFactor_same hm φ) fun s =>
    .const _) fun r => .const _

theorem ratio_same (hm : SameModel m) (hp : ∀ d θ, SameValues fun b => (pop b).prob d θ)
    (hc : ∀ θ, SameValues fun b => conv b θ) (θ : Dict Fl) :
    SameValues fun b => (instL a m l pop conv total time dk b).logLikelihoodRatio θ := by
  unfold Likelihood.logLikelihoodRatio
  simp only [toNumber_id]
  exact .bind (value_same hm hp hc θ) fun r => .const _

theorem ppd_same (hp : ∀ d θ, SameValues fun b => (pop b).prob d θ) (hc : ∀ θ, SameValues fun b => conv b θ)
    (samples : List (Dict Fl)) (acc : Mat) :
    SameValues fun b => (instL a m l pop conv total time dk b).ppdWeightsLoop acc samples := by
  induction samples generalizing acc with
  | nil => exact .const _
  | cons s ss ih =>
    unfold Likelihood.ppdWeightsLoop
    refine .bind (hc s) fun φ => .bind (weights_same hp φ) fun w => ?_
    by_cases h : w.map List.length = acc.map List.length
    · simp only [h, if_true]
      exact ih _
    · simp only [h, if_false]
      exact .const _

theorem choice_same (p : List Fl) (idx : List ℕ) : SameValues fun b => Likelihood.randomChoice b p idx := by
  constructor
  · unfold Likelihood.randomChoice
    simp
  · intro v h
    unfold Likelihood.randomChoice at h ⊢
    simp only [true_or, if_true]
    dsimp only at h
    split at h
    · exact h
    · cases h

end BackendLikelihood

/-- **C140.** The likelihoods of the three classes, with `ResamplingVT`: construction, the estimate with its variance, the
log likelihoods, and the post-processing of a sample with the same random draws. -/
theorem C140_likelihood (a : VTArguments) {m : Backend → PopModel (Dict Value) (List Fl)} (hm : SameModel m)
    (l : LikelihoodArguments) {hp : Backend → HyperPriorArg} (hhp : SameHyperPriorArg hp)
    {conv : Backend → Dict Fl → Except PyErr (Dict Fl)} (hc : ∀ θ, SameValues fun b => conv b θ) (θ : Dict Fl) :
    (SameValues fun b => withLikelihood a m l hp conv b fun L => L.lnLikelihoodAndVariance θ) ∧
    (SameValues fun b => withLikelihood a m l hp conv b fun L => L.logLikelihoodRatio θ) ∧
    (SameValues fun b => withLikelihood a m l hp conv b fun L => L.logLikelihood θ) ∧
    (SameValues fun b => withLikelihood a m l hp conv b fun L => .ok L.noiseLogLikelihood) ∧
    (SameValues fun b => withLikelihood a m l hp conv b fun L => L.generateExtraStatistics θ) ∧
    (∀ g, SameValues fun b => withLikelihood a m l hp conv b fun L => L.generateRatePosteriorSample g θ) ∧
    (∀ samples choices, SameValues fun b =>
      withLikelihood a m l hp conv b fun L => L.posteriorPredictiveResample samples choices) := by
  refine ⟨?_, ?_, ?_, ?_, ?_, fun g => ?_, fun samples choices => ?_⟩ <;>
    refine withLikelihood_same hhp fun pop hpop total time dk => ?_
  · exact value_same hm hpop hc θ
  · exact ratio_same hm hpop hc θ
  · unfold Likelihood.logLikelihood
    exact .bind (ratio_same hm hpop hc θ) fun r => .const _
  · exact .const _
  · unfold Likelihood.generateExtraStatistics
    refine .bind (hc θ) fun φ => .bind (perEvent_same hpop φ) fun e => .bind (.const _) fun s => ?_
    exact selection_same hm φ fun s v => .bind (pyDiv_same' _ _) fun t => .const _
  · unfold Likelihood.generateRatePosteriorSample
    show SameValues fun b => match l.cls with
      | .rate => θ.get "rate"
      | _ => do
        let (e, _) ← (instVT a m total time b).detectionEfficiency θ
        let v ← (instVT a m total time b).surveyedHypervolume θ
        return g / (e * v)
    have h : SameValues fun b => (do
        let (e, _) ← (instVT a m total time b).detectionEfficiency θ
        let v ← (instVT a m total time b).surveyedHypervolume θ
        return g / (e * v) : Except PyErr Fl) :=
      .bind (efficiency_same hm _ _ θ) fun e => .bind (hypervolume_same hm _ _ θ) fun v => .const _
    cases l.cls with
    | rate => exact .const _
    | hyper => exact h
    | null => exact h
  · unfold Likelihood.posteriorPredictiveResample Likelihood.ppdWeights
    refine .bind (.bind (ppd_same hpop hc samples _) fun w => .const _) fun w => ?_
    exact .bind (.mapM (fun pc => choice_same _ _) _) fun idx => .const _

/-! ## A concrete case -/

namespace BackendLikelihood

/-- Two injections with equal weights. -/
def twoInjections (planck15 : Cosmology) : VTArguments :=
  ⟨planck15, [("prior", .arr [1, 1]), ("mass_1", .arr [fin 20, fin 30])], fin 1, false, false⟩

/-- Power laws in the mass of the injections. -/
def powerlaws (b : Backend) : PopModel (Dict Value) (List Fl) :=
  ⟨[], fun d θ => do
    let alpha ← θ.get "alpha"
    match ← d.get "mass_1" with
    | .arr l => l.mapM fun x => powerlaw b true (pos x) (kw alpha) (kw (fin 100)) (kw (fin 5))
    | .num _ _ => .error .typeError⟩

theorem powerlaws_same : SameModel powerlaws := by
  refine ⟨fun _ => rfl, fun d θ => .bind (.const _) fun alpha => .bind (.const _) fun x => ?_⟩
  cases x with
  | arr l => exact .mapM (fun x => .powerlaw _ _ _ _ _) _
  | num py x => exact .const _

end BackendLikelihood

example (planck15 : Cosmology) (θ : Dict Fl) := C140_selection (twoInjections planck15) powerlaws_same θ

/-- On numpy a value is returned. -/
example (planck15 : Cosmology) : ∃ r, (withVT (twoInjections planck15) (fun _ => ⟨[], fun _ _ => .ok [1, 1]⟩) .jax
    fun vt => vt.call []) = .ok r := by
  have h := (C140_selection (twoInjections planck15) (m := fun _ => ⟨[], fun _ _ => .ok [1, 1]⟩)
    ⟨fun _ => rfl, fun _ _ => .const _⟩ []).1
  have : ∃ r, (withVT (twoInjections planck15) (fun _ => ⟨[], fun _ _ => .ok [1, 1]⟩) .numpy
      fun vt => vt.call []) = .ok r := by
    simp [withVT, ResamplingVT.init, twoInjections, ResamplingVT.call, ResamplingVT.detectionEfficiency, Dict.get,
      Dict.get?_cons, Value.len, getNumber, Arr.divide, pyDiv, ok_bind, pure_eq_ok]
  obtain ⟨r, hr⟩ := this
  exact ⟨r, h.2 r hr⟩

/-- A likelihood with one event, whose population is a power law too. -/
example (planck15 : Cosmology) (θ : Dict Fl) := C140_likelihood (twoInjections planck15) powerlaws_same
  ⟨.rate, [⟨["mass_1"], [fun _ => fin 20, fun _ => fin 40]⟩], none, none, pinf, [[0, 1]]⟩
  (.function (fun b d θ => do
    let alpha ← θ.get "alpha"
    let l ← d.get "mass_1"
    l.mapM fun r => r.mapM fun x => powerlaw b true (pos x) (kw alpha) (kw (fin 100)) (kw (fin 5)))
    fun _ _ => .bind (.const _) fun _ => .bind (.const _) fun _ => .mapM (fun _ => .mapM (fun _ => .powerlaw _ _ _ _ _) _) _)
  (conv := fun _ θ => .ok θ) (fun _ => .const _) θ

end GW
