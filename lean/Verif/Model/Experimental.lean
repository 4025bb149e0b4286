import Verif.Model.HyperPE

/-!
# Model of `gwpopulation/experimental/numpyro.py` and `gwpopulation/experimental/jax.py`

The module runs on jax: division never raises, and reading out of bounds returns the last entry.
Simplification: 64-bit floats (`jax_enable_x64`), and `jax.jit` does not change values.
-/

noncomputable section

open Classical

namespace GW

open Fl

/-- A `ResamplingVT` object as the selection function of a likelihood: the result of the call consists of
Python numbers except on jax (`vt.py:167-195`). -/
def ResamplingVT.asSelection (self : ResamplingVT) : SelectionFn where
  call := fun parameters => do
    match ← self.call parameters with
    | (mu, some var) => return .pair (decide (self.backend ≠ .jax)) mu var
    | (vt, none) => return .bare (decide (self.backend ≠ .jax)) vt
  rate := some (self.detectionEfficiency, self.surveyedHypervolume)

/-- The outcome of `jax.random.choice(PRNGKey(0), arange(len(p)), p=p, shape=(n,), replace=False)`:
probabilities and number of draws to indices. -/
abbrev ChoiceRule := List Fl → ℕ → List ℕ

/-- `array[i]` on jax: an index beyond the end gives the last entry. -/
def clampGet {α : Type} (default : α) (l : List α) (i : ℕ) : α := l.getD (min i (l.length - 1)) default

/-- `weights /= jnp.sum(weights)` (`numpyro.py:132`). -/
def normalised (weights : List Fl) : List Fl := weights.map (· / Arr.sum weights)

/-- `jax.random.choice` without replacement (`numpyro.py:134-140`): `ValueError` if more draws than
entries are requested. -/
def jaxChoice (choice : ChoiceRule) (p : List Fl) (n : ℕ) : Except PyErr (List ℕ) :=
  if p.length < n then .error .valueError else .ok (choice p n)

/-- What one call of `posterior_predictive_resample` does: the probabilities of the entries, the indices
drawn and the values recorded with `deterministic`. -/
structure ResampleSite where
  /-- the argument `p` of the random choice -/
  probabilities : List Fl
  /-- the indices drawn -/
  indices : List ℕ
  /-- the recorded values -/
  values : Dict (List Fl)

/-- `deterministic(f"{key}_{label}", data[key][idx])` (`numpyro.py:143-145`); indexing a number raises. -/
def injectionColumn (data : Dict Value) (label : String) (idx : List ℕ) (key : String) :
    Except PyErr (String × List Fl) :=
  match data.get key with
  | .ok (.arr l) => .ok (key ++ "_" ++ label, idx.map (clampGet nan l))
  | .ok (.num py _) => .error (if py then .typeError else .indexError)
  | .error e => .error e

/-- `posterior_predictive_resample` with `event=None` (`numpyro.py:108-147`), as used for the
injections. -/
def resampleInjections (choice : ChoiceRule) (data : Dict Value) (weights : List Fl) (label : String)
    (n : ℕ) (fitKeys : Option (List String)) : Except PyErr ResampleSite := do
  let p := normalised weights
  let idx ← jaxChoice choice p n
  let values ← (fitKeys.getD data.keys).mapM (injectionColumn data label idx)
  return ⟨p, idx, values⟩

/-- `posterior_predictive_resample` for an event (`numpyro.py:108-147`): the weights are
`weights[:, event]`, the recorded values `data[key][event, idx]`. -/
def resampleEvent (choice : ChoiceRule) (data : Dict Mat) (weights : Mat) (event : ℕ)
    (fitKeys : Option (List String)) : Except PyErr ResampleSite := do
  let column := weights.map fun row => clampGet nan row event
  let p := normalised column
  let idx ← jaxChoice choice p 1
  let values ← (fitKeys.getD data.keys).mapM fun key => do
    let m ← data.get key
    pure (key ++ "_" ++ toString event, idx.map (clampGet nan (clampGet [] m event)))
  return ⟨p, idx, values⟩

/-- The sites of one evaluation of the numpyro model and the value it returns. -/
structure NumpyroTrace where
  /-- site `variances` -/
  variances : List Fl
  /-- site `ln_bayes_factors` -/
  lnBayesFactors : List Fl
  /-- sites `selection` and `selection_variance`, or two zeros -/
  selection : Fl × Fl
  /-- the parameters (concentration, rate) of the Gamma distribution of site `rate` -/
  rate : Option (Fl × Fl)
  /-- the resampled injections -/
  injections : Option ResampleSite
  /-- the resampled events -/
  events : List ResampleSite
  /-- site `ln_l` -/
  lnL : Fl
  /-- site `variance` -/
  variance : Fl
  /-- the value returned -/
  value : Fl

/-- `selector.data["prior"]` as an array. -/
def injectionPrior (data : Dict Value) : Except PyErr (List Fl) :=
  match data.get "prior" with
  | .ok (.arr l) => .ok l
  | .ok (.num _ x) => .ok [x]
  | .error e => .error e

/-- `if predictive_resample: posterior_predictive_resample(...)` for the injections
(`numpyro.py:79-86`). -/
def numpyroInjections (choice : ChoiceRule) (data : Dict Value) (weights : List Fl) (n : ℕ)
    (fitKeys : Option (List String)) (resample : Bool) : Except PyErr (Option ResampleSite) :=
  if resample then
    match resampleInjections choice data weights "injections" n fitKeys with
    | .ok site => .ok (some site)
    | .error e => .error e
  else .ok none

/-- The selection part (`numpyro.py:58-89`): the selection terms, the Gamma parameters and the resampled
injections. -/
def numpyroSelection (choice : ChoiceRule) (likelihood : Likelihood) (selector : ResamplingVT)
    (parameters : Dict Fl) (resample : Bool) (fitKeys : Option (List String)) :
    Except PyErr ((Fl × Fl) × (Fl × Fl) × Option ResampleSite) := do
  let p ← selector.model.prob selector.data parameters
  let prior ← injectionPrior selector.data
  let injectionWeights ← Arr.divide p prior
  let N := selector.totalInjections.2
  let efficiency := Arr.sum injectionWeights / N
  let uncertainty := Arr.sum (injectionWeights.map (· ^ 2)) / N ^ 2 - efficiency ^ 2 / N
  let selection := -Fl.log efficiency * (likelihood.nPosteriors : Fl)
  let selectionVariance := uncertainty / efficiency ^ 2 * (likelihood.nPosteriors : Fl) ^ 2
  let volume ← selector.surveyedHypervolume parameters
  let vt := volume * efficiency
  let rate := ((likelihood.nPosteriors : Fl), 1 / vt)
  let site ← numpyroInjections choice selector.data injectionWeights likelihood.nPosteriors fitKeys
    resample
  return ((selection, selectionVariance), rate, site)

/-- The branches of `if apply_selection` (`numpyro.py:58-89`). -/
def numpyroApply (choice : ChoiceRule) (likelihood : Likelihood) (selector : ResamplingVT)
    (parameters : Dict Fl) (applySelection resample : Bool) (fitKeys : Option (List String)) :
    Except PyErr ((Fl × Fl) × Option (Fl × Fl) × Option ResampleSite) :=
  if applySelection then
    match numpyroSelection choice likelihood selector parameters resample fitKeys with
    | .ok r => .ok (r.1, some r.2.1, r.2.2)
    | .error e => .error e
  else .ok ((0, 0), none, none)

/-- The loop over the events (`numpyro.py:94-98`). -/
def numpyroEvents (choice : ChoiceRule) (likelihood : Likelihood) (weights : Mat) (resample : Bool)
    (fitKeys : Option (List String)) : Except PyErr (List ResampleSite) :=
  if resample then
    (List.range likelihood.nPosteriors).mapM fun event =>
      resampleEvent choice likelihood.data weights event fitKeys
  else .ok []

/-- The cut `numpyro.py:99-104`. -/
def numpyroCut (varmax lnL variance : Fl) : Fl :=
  if varmax < pinf then
    (if isNan lnL ∨ varmax < variance then nanToNum ninf else lnL)
  else lnL

/-- `gwpopulation_likelihood_model` (`numpyro.py:12-105`). The argument `selector` is
`likelihood.selection_function`, which has to be a `ResamplingVT`. -/
def numpyroModel (choice : ChoiceRule) (likelihood : Likelihood) (selector : ResamplingVT)
    (hyperParams : Dict Fl) (varmax : Fl := pinf) (applySelection : Bool := true)
    (resample : Bool := true) (fitKeys : Option (List String) := none) :
    Except PyErr NumpyroTrace := do
  let parameters ← likelihood.conversion hyperParams
  let weights ← likelihood.weights parameters
  let expectations := weights.map Arr.mean
  let squareExpectations := weights.map fun row => Arr.mean (row.map (· ^ 2))
  let variances := List.zipWith (fun s e => (s - e ^ 2) /
    ((likelihood.samplesPerPosterior : Fl) * e ^ 2)) squareExpectations expectations
  let lnBayesFactors := expectations.map Fl.log
  let lnLEvents := Arr.sum lnBayesFactors
  let varianceEvents := Arr.sum variances
  let (selection, rate, site) ← numpyroApply choice likelihood selector parameters applySelection
    resample fitKeys
  let lnL := lnLEvents + selection.1
  let variance := varianceEvents + selection.2
  let events ← numpyroEvents choice likelihood weights resample fitKeys
  return { variances := variances, lnBayesFactors := lnBayesFactors, selection := selection,
           rate := rate, injections := site, events := events, lnL := lnL, variance := variance,
           value := numpyroCut varmax lnL variance }

/-- What `jax.py` uses of a bilby likelihood. -/
structure BilbyLikelihood where
  /-- `log_likelihood_ratio` -/
  logLikelihoodRatio : Dict Fl → Except PyErr Fl
  /-- `log_likelihood` -/
  logLikelihood : Dict Fl → Except PyErr Fl

/-- A hyper-parameter likelihood as a bilby likelihood. -/
def Likelihood.asBilby (self : Likelihood) : BilbyLikelihood :=
  ⟨self.logLikelihoodRatio, self.logLikelihood⟩

/-- `generic_bilby_likelihood_function` (`jax.py:9-26`). -/
def genericBilbyLikelihood (likelihood : BilbyLikelihood) (useRatio : Bool) (parameters : Dict Fl) :
    Except PyErr Fl :=
  if useRatio then likelihood.logLikelihoodRatio parameters else likelihood.logLikelihood parameters

/-- The function compiled by `JittedLikelihood.__init__` (`jax.py:51-59`) with the default function, called
with `kwargs` (the argument `use_ratio` if given). Keyword arguments of a compiled function are tracers,
and the branch at `jax.py:23` on a tracer raises `TracerBoolConversionError`, a `TypeError`. -/
def jittedFunction (likelihood : BilbyLikelihood) (kwargs : Option Bool) (parameters : Dict Fl) :
    Except PyErr Fl :=
  match kwargs with
  | none => genericBilbyLikelihood likelihood true parameters
  | some _ => .error .typeError

/-- `JittedLikelihood.log_likelihood_ratio` (`jax.py:65-66`). Simplification: one evaluation; for
the effect of compilation on later ones see `Verif/Model/JitLikelihood.lean`. -/
def jittedLogLikelihoodRatio (likelihood : BilbyLikelihood) (kwargs : Option Bool)
    (parameters : Dict Fl) : Except PyErr Fl := do
  let v ← jittedFunction likelihood kwargs parameters
  return nanToNum v

end GW
