import Verif.Model.VT
import Verif.Num.Round

/-!
# Model of `gwpopulation/hyperpe.py`

Arrays with one row per event are lists of rows. The population model, the selection function and the
conversion function are parameters; they are pure functions that may raise. Random choices
(`DataFrame.sample`, `numpy.random.choice`, the Gamma variate) are explicit arguments, and the
theorems quantify over all their possible outcomes.
-/

noncomputable section

open Classical

namespace GW

open Fl

/-- A two-dimensional array: one row per event. -/
abbrev Mat := List (List Fl)

/-- A pandas data frame: column names and rows. -/
structure Frame where
  /-- `list(frame)` -/
  columns : List String
  /-- the rows; only the entries of the columns matter -/
  rows : List (String → Fl)

/-- What a selection function returns. `py` says that the numbers are Python numbers, for which
division by zero raises. -/
inductive SelResult where
  /-- a bare number -/
  | bare (py : Bool) (selection : Fl)
  /-- a tuple `(selection, variance)` -/
  | pair (py : Bool) (selection variance : Fl)

/-- A selection function: the call and, if it has them, the methods `detection_efficiency` and
`surveyed_hypervolume` of `ResamplingVT`. -/
structure SelectionFn where
  /-- `selection_function(parameters)` -/
  call : Dict Fl → Except PyErr SelResult
  /-- `detection_efficiency` and `surveyed_hypervolume`, if the object has both attributes -/
  rate : Option ((Dict Fl → Except PyErr (Fl × Fl)) × (Dict Fl → Except PyErr Fl))

/-- The attribute `prob` of an object. -/
inductive ProbAttr where
  | missing
  | notCallable
  | callable (models : List Component) (f : Dict Mat → Dict Fl → Except PyErr Mat)

/-- The argument `hyper_prior` of the constructor: a plain Python function or any other object. -/
inductive HyperPriorArg where
  | function (f : Dict Mat → Dict Fl → Except PyErr Mat)
  | object (hasParameters : Bool) (prob : ProbAttr)

/-- The class of a likelihood object. -/
inductive LikelihoodClass where
  | hyper
  | rate
  | null
  deriving DecidableEq

/-- An instance of `HyperparameterLikelihood` or of one of its subclasses
(`hyperpe.py:72-142`). -/
structure Likelihood where
  /-- the class of the object -/
  cls : LikelihoodClass
  /-- the backend `xp` -/
  backend : Backend
  /-- `self.data` -/
  data : Dict Mat
  /-- `self.hyper_prior` -/
  hyperPrior : PopModel (Dict Mat) Mat
  /-- `self.sampling_prior`: an array, or the number 1 -/
  samplingPrior : Option Mat
  /-- `self.total_noise_evidence` -/
  totalNoiseEvidence : Fl
  /-- `self.conversion_function` (only the first component of what it returns is used) -/
  conversion : Dict Fl → Except PyErr (Dict Fl)
  /-- `self.selection_function` -/
  selection : SelectionFn
  /-- `self.n_posteriors` -/
  nPosteriors : ℕ
  /-- `self.samples_per_posterior` -/
  samplesPerPosterior : ℕ
  /-- `self._maximum_uncertainty` -/
  maximumUncertainty : Fl
  /-- `self._max_variance` -/
  maxVariance : Fl

/-- `min(len(posterior), max_samples)` over all posteriors (`hyperpe.py:331-332`); `none` is a
`max_samples` larger than every length, such as the default `1e100`. -/
def minSamples : List Frame → Option ℕ → Option ℕ
  | [], m => m
  | p :: ps, none => minSamples ps (some p.rows.length)
  | p :: ps, some m => minSamples ps (some (min p.rows.length m))

/-- `temp[key]` for the rows of `posterior` with the given indices (`hyperpe.py:337-339`). -/
def takeColumn (posterior : Frame) (idx : List ℕ) (key : String) : Except PyErr (List Fl) :=
  if key ∈ posterior.columns then .ok (idx.map fun j => (posterior.rows.getD j fun _ => nan) key)
  else .error (.keyError key)

/-- `HyperparameterLikelihood.resample_posteriors` (`hyperpe.py:314-343`): the data and
`samples_per_posterior`. `picks` is the outcome of the random subsampling: the row numbers chosen by
`posterior.sample(K)` for each posterior. Simplification: `max_samples` is an integer or larger than
all lengths. The loops over posteriors and columns are exchanged; the error raised is a
`KeyError` in any case. -/
def resamplePosteriors (posteriors : List Frame) (maxSamples : Option ℕ) (picks : List (List ℕ)) :
    Except PyErr (Dict Mat × ℕ) :=
  match posteriors with
  | [] => .error .indexError
  | p0 :: _ =>
    match minSamples posteriors maxSamples with
    | none => .error .indexError
    | some k => do
      let data ← p0.columns.mapM fun key => do
        let rows ← (posteriors.zip picks).mapM fun pi => takeColumn pi.1 pi.2 key
        pure (key, rows)
      pure (data, k)

/-- Division of arrays of equal shape, `ValueError` otherwise. Simplification: no broadcasting. -/
def Mat.divide (a b : Mat) : Except PyErr Mat :=
  if a.map List.length = b.map List.length then
    .ok (List.zipWith (List.zipWith (· / ·)) a b)
  else .error .valueError

namespace Likelihood

/-- The check of `hyper_prior` (`hyperpe.py:114-124`). Simplification: the wrapped function is given
all parameters (bilby's `Model` passes those in the signature of the function). -/
def checkHyperPrior : HyperPriorArg → Except PyErr (PopModel (Dict Mat) Mat)
  | .function f => .ok ⟨[.other], f⟩
  | .object true (.callable models f) => .ok ⟨models, f⟩
  | .object _ _ => .error .attributeError

/-- The setter of `maximum_uncertainty` (`hyperpe.py:155-161`): the value of `_max_variance`. -/
def maxVarianceOf (value : Fl) : Fl := if Fl.eqf value pinf then value else value ^ 2

/-- `HyperparameterLikelihood.__init__` (`hyperpe.py:72-142`), inherited by the subclasses. -/
def init (cls : LikelihoodClass) (backend : Backend) (posteriors : List Frame)
    (hyperPrior : HyperPriorArg) (lnEvidences : Option (List Fl)) (maxSamples : Option ℕ)
    (selection : SelectionFn) (conversion : Dict Fl → Except PyErr (Dict Fl))
    (maximumUncertainty : Fl) (picks : List (List ℕ)) : Except PyErr Likelihood := do
  let (data, k) ← resamplePosteriors posteriors maxSamples picks
  let hp ← checkHyperPrior hyperPrior
  let samplingPrior := data.get? "prior"
  let data := data.erase "prior"
  let noise := match lnEvidences with
    | some l => Arr.sum l
    | none => nan
  return { cls := cls, backend := backend, data := data, hyperPrior := hp,
           samplingPrior := samplingPrior, totalNoiseEvidence := noise, conversion := conversion,
           selection := selection, nPosteriors := posteriors.length, samplesPerPosterior := k,
           maximumUncertainty := maximumUncertainty,
           maxVariance := maxVarianceOf maximumUncertainty }

/-- `self.hyper_prior.prob(self.data, **parameters) / self.sampling_prior`
(`hyperpe.py:197`, `hyperpe.py:379-381`). -/
def weights (self : Likelihood) (parameters : Dict Fl) : Except PyErr Mat := do
  let p ← self.hyperPrior.prob self.data parameters
  match self.samplingPrior with
  | none => return p.map fun row => row.map (· / 1)
  | some q => Mat.divide p q

/-- `_compute_per_event_ln_bayes_factors` (`hyperpe.py:194-206`): one pair `(ln_bf, variance)` per
event. -/
def perEvent (self : Likelihood) (parameters : Dict Fl) : Except PyErr (List (Fl × Fl)) := do
  let w ← self.weights parameters
  return w.map fun row =>
    let expectation := Arr.mean row
    let squareExpectation := Arr.mean (row.map (· ^ 2))
    (Fl.log expectation, (squareExpectation - expectation ^ 2) /
      ((self.samplesPerPosterior : Fl) * expectation ^ 2))

/-- `_selection_function_with_uncertainty` (`hyperpe.py:219-226`): whether the numbers are Python
numbers, the selection and its variance. -/
def selectionWithUncertainty (self : Likelihood) (parameters : Dict Fl) :
    Except PyErr (Bool × Fl × Fl) := do
  match ← self.selection.call parameters with
  | .pair py s v => return (py, s, v)
  | .bare py s => return (py, s, 0)

/-- `HyperparameterLikelihood._get_selection_factor` (`hyperpe.py:208-217`). -/
def selectionFactorHyper (self : Likelihood) (parameters : Dict Fl) : Except PyErr (Fl × Fl) := do
  let (_, selection, variance) ← self.selectionWithUncertainty parameters
  let totalSelection := -(self.nPosteriors : Fl) * Fl.log selection
  let totalVariance := (self.nPosteriors : Fl) ^ 2 * (variance / selection ^ 2)
  return (totalSelection, totalVariance)

/-- `RateLikelihood._get_selection_factor` (`hyperpe.py:445-473`); the last division raises
`ZeroDivisionError` if all numbers are Python numbers and the selection is 0. Simplification: the
parameter `rate` is a Python number. -/
def selectionFactorRate (self : Likelihood) (parameters : Dict Fl) : Except PyErr (Fl × Fl) := do
  let (py, selection, variance) ← self.selectionWithUncertainty parameters
  let rate ← parameters.get "rate"
  let nExpected := selection * rate
  let totalSelection := -nExpected + (self.nPosteriors : Fl) * Fl.log rate
  let totalVariance ← pyDiv py (nExpected * variance) (selection ^ 2)
  return (totalSelection, totalVariance)

/-- The method `_get_selection_factor` of the class of the object. -/
def selectionFactor (self : Likelihood) (parameters : Dict Fl) : Except PyErr (Fl × Fl) :=
  match self.cls with
  | .rate => self.selectionFactorRate parameters
  | _ => self.selectionFactorHyper parameters

/-- `HyperparameterLikelihood.ln_likelihood_and_variance` (`hyperpe.py:163-178`). -/
def lnLikelihoodAndVarianceBase (self : Likelihood) (parameters : Dict Fl) :
    Except PyErr (Fl × Fl) := do
  let parameters ← self.conversion parameters
  let events ← self.perEvent parameters
  let lnL := Arr.sum (events.map Prod.fst)
  let variance := Arr.sum (events.map Prod.snd)
  let (selection, selectionVariance) ← self.selectionFactor parameters
  return (lnL + selection, toNumber self.backend id id (variance + selectionVariance))

/-- `ln_likelihood_and_variance` of the class of the object; for the null likelihood
(`hyperpe.py:493-498`) the first number is replaced by 0. -/
def lnLikelihoodAndVariance (self : Likelihood) (parameters : Dict Fl) :
    Except PyErr (Fl × Fl) := do
  let (lnL, variance) ← self.lnLikelihoodAndVarianceBase parameters
  match self.cls with
  | .null => return (0, variance)
  | _ => return (lnL, variance)

/-- `log_likelihood_ratio` (`hyperpe.py:180-184`). The estimate is taken as a double and the
subtraction is rounded, because subtracting the largest double relies on rounding and overflow. -/
def logLikelihoodRatio (self : Likelihood) (parameters : Dict Fl) : Except PyErr Fl := do
  let (lnL, variance) ← self.lnLikelihoodAndVariance parameters
  let lnL := nanToNumWith ninf (fin bigR) (fin (-bigR)) (toDouble lnL)
  let excess := nanToNumWith 0 (fin bigR) (fin (-bigR))
    (pinf * ind (self.maximumUncertainty < variance))
  return toNumber self.backend id id (nanToNum (toDouble (lnL - excess)))

/-- `noise_log_likelihood` (`hyperpe.py:186-187`). -/
def noiseLogLikelihood (self : Likelihood) : Fl := self.totalNoiseEvidence

/-- `log_likelihood` (`hyperpe.py:189-192`). -/
def logLikelihood (self : Likelihood) (parameters : Dict Fl) : Except PyErr Fl := do
  let r ← self.logLikelihoodRatio parameters
  return self.noiseLogLikelihood + r

/-- The loop `hyperpe.py:262-264`. -/
def setEventStatistics (sample : Dict Fl) (events : List (Fl × Fl)) : List ℕ →
    Except PyErr (Dict Fl)
  | [] => .ok sample
  | i :: is =>
    match events[i]? with
    | none => .error .indexError
    | some e => setEventStatistics
        ((sample.set ("ln_bf_" ++ toString i) e.1).set ("var_" ++ toString i) e.2) events is

/-- `generate_extra_statistics` (`hyperpe.py:228-275`): the dictionary given, modified in place and
returned. Python's `sum` over the variances starts from 0. -/
def generateExtraStatistics (self : Likelihood) (sample : Dict Fl) : Except PyErr (Dict Fl) := do
  let parameters ← self.conversion sample
  let events ← self.perEvent parameters
  let totalVariance := Arr.sum (events.map Prod.snd)
  let sample ← setEventStatistics sample events (List.range self.nPosteriors)
  let (py, selection, variance) ← self.selectionWithUncertainty parameters
  let variance ← pyDiv py variance (selection ^ 2)
  let selectionVariance := variance * (self.nPosteriors : Fl) ^ 2
  let sample := sample.set "selection" selection
  let sample := sample.set "selection_variance" variance
  return sample.set "variance" (totalVariance + selectionVariance)

/-- `generate_rate_posterior_sample` (`hyperpe.py:277-312`; `hyperpe.py:475-480` for the rate
likelihood); `g` is the outcome of `gamma(a=n_posteriors).rvs()`, a numpy float. A tuple cannot be a
divisor (`TypeError`). -/
def generateRatePosteriorSample (self : Likelihood) (g : Fl) (parameters : Dict Fl) :
    Except PyErr Fl :=
  match self.cls with
  | .rate => parameters.get "rate"
  | _ =>
    match self.selection.rate with
    | some (efficiency, hypervolume) => do
      let (e, _) ← efficiency parameters
      let v ← hypervolume parameters
      return g / (e * v)
    | none => do
      match ← self.selection.call parameters with
      | .bare _ vt => return g / vt
      | .pair _ _ _ => throw .typeError

/-- Division of each row by its sum: `(w.T / xp.sum(w, axis=-1)).T` (`hyperpe.py:383`, `:385`). -/
def normaliseRows (w : Mat) : Mat := w.map fun row => row.map (· / Arr.sum row)

/-- Addition of arrays of equal shape. -/
def addRows (a b : Mat) : Mat := List.zipWith (List.zipWith (· + ·)) a b

/-- The array of zeros `hyperpe.py:374`. -/
def zeros (n k : ℕ) : Mat := List.replicate n (List.replicate k 0)

/-- The loop over the hyper-samples (`hyperpe.py:376-384`). Simplification: `weights` has the shape
`(n_posteriors, samples_per_posterior)` of the data, otherwise `ValueError`. -/
def ppdWeightsLoop (self : Likelihood) : Mat → List (Dict Fl) → Except PyErr Mat
  | acc, [] => .ok acc
  | acc, s :: ss => do
    let parameters ← self.conversion s
    let w ← self.weights parameters
    if w.map List.length = acc.map List.length then
      self.ppdWeightsLoop (addRows acc (normaliseRows w)) ss
    else throw .valueError

/-- The normalised weights (`hyperpe.py:374-385`). -/
def ppdWeights (self : Likelihood) (samples : List (Dict Fl)) : Except PyErr Mat := do
  let w ← self.ppdWeightsLoop (zeros self.nPosteriors self.samplesPerPosterior) samples
  return normaliseRows w

/-- `numpy.random.choice(range(k), size=k, p=p)`: `ValueError` unless the probabilities are
non-negative and sum to one (up to a tolerance, here exactly); `jax.random.choice` does not check
(`hyperpe.py:387-409`). `idx` is the outcome. -/
def randomChoice (backend : Backend) (p : List Fl) (idx : List ℕ) : Except PyErr (List ℕ) :=
  if backend = .jax ∨ (∀ x ∈ p, (0 : Fl) ≤ x) ∧ Arr.sum p = 1 then .ok idx
  else .error .valueError

/-- `posterior_predictive_resample` (`hyperpe.py:345-420`) with a list of hyper-samples: the new samples and
the weights. `choices` is the outcome of the random choice for each event. -/
def posteriorPredictiveResample (self : Likelihood) (samples : List (Dict Fl))
    (choices : List (List ℕ)) : Except PyErr (Dict Mat × Mat) := do
  let weights ← self.ppdWeights samples
  let idx ← (weights.zip choices).mapM fun pc =>
    randomChoice self.backend pc.1 pc.2
  let new := self.data.map fun kv =>
    (kv.1, List.zipWith (fun row is => is.map fun j => row.getD j nan) kv.2 idx)
  return (new, weights)

end Likelihood

end GW
