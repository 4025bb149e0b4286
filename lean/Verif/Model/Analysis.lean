import Verif.Model.SharedSmoothed
import Verif.Model.Bilby
import Verif.Model.Experimental

/-!
# A whole analysis: likelihood, selection function, population models and their instances

What the example notebooks (`examples/GWTC1.ipynb`, `examples/GWTC3.ipynb`) set up: a `HyperparameterLikelihood`
(`hyperpe.py`) whose population model is evaluated at the posterior samples (events by samples) and a `ResamplingVT`
(`vt.py`) whose population model is evaluated at the injections. The population models are `bilby` `Model` objects
(`Model/Bilby.lean`), which remember values; some of their functions are instances of smoothed mass distributions
(`Model/SharedSmoothed.lean`), which remember interpolants. One evaluation of the likelihood therefore changes the
state that the next evaluation finds.

Simplifications: the other functions of a population model (spins, redshifts) are evaluated sample by sample (C97);
the columns of a dataset have one common shape; the two `Model` objects are different objects, and a function occurs
once in a `Model`.
-/

noncomputable section

open Classical

namespace GW

open Fl

/-- A dataset: its columns. -/
abbrev Columns := Dict (Shaped Fl)

/-- The samples of a dataset as an array of dictionaries of numbers. -/
def Columns.rows (data : Columns) : Shaped (Dict Fl) :=
  ⟨match data with
    | [] => []
    | (_, a) :: _ => a.shape, fun i => data.map fun kv => (kv.1, kv.2.elem i)⟩

/-- `dataset["mass_1"]` and `dataset["mass_ratio"]` (`mass.py:583-587`). Simplification: both are read first. -/
def Columns.masses (data : Columns) : Except PyErr (Shaped (Fl × Fl)) := do
  let m ← data.get "mass_1"
  let q ← data.get "mass_ratio"
  return ⟨m.shape, fun i => (m.elem i, q.elem i)⟩

/-- The instances of smoothed mass distributions in memory. -/
abbrev Instances := ℕ → SharedSmoothed

/-- A function of a population model. -/
inductive PopFn where
  /-- the instance of a smoothed mass distribution behind a reference, and its `variable_names` (`mass.py:550-558`) -/
  | smoothed (ref : ℕ) (names : List String)
  /-- a function evaluated sample by sample -/
  | pointwise (f : ModelFn (Dict Fl) Fl)

namespace PopFn

/-- The parameters the function is called with, out of all parameters. -/
def select : PopFn → Dict Fl → Except PyErr (Dict Fl)
  | .smoothed _ names, kwargs => bySignature names kwargs
  | .pointwise f, kwargs => f.select kwargs

/-- The call: the outcome and the instances afterwards. -/
def call (b : Backend) (f : PopFn) (mem : Instances) (data : Columns) (θ : Dict Fl) :
    Except PyErr (Shaped Fl) × Instances :=
  match f with
  | .smoothed ref _ =>
    match data.masses with
    | .error e => (.error e, mem)
    | .ok d =>
      let r := SharedSmoothed.call b (mem ref) d θ
      (r.1, fun k => if k = ref then r.2 else mem k)
  | .pointwise f => (data.rows.mapM fun row => f.call row θ, mem)

end PopFn

/-- `p *= q` in `Model.prob`: the first factor is the float `1.0`, so that the name is bound to a new array; later an
array is updated in place (numpy, cupy). -/
def Shaped.timesEq (b : Backend) (p q : Shaped Fl) : Except PyErr (Shaped Fl) := do
  let r ← Shaped.zip b (· * ·) p q
  if b ≠ .jax ∧ p.shape ≠ [] ∧ r.shape ≠ p.shape then .error .valueError else .ok r

/-- A `bilby.hyper.model.Model` with functions that have state. The entries are numbered like the functions. -/
structure PopObject where
  /-- `models` -/
  models : List PopFn
  /-- `cache` -/
  cache : Bool
  /-- `_cached_parameters` and `_cached_probability` -/
  entries : Entries (Shaped Fl)

namespace PopObject

/-- `Model(models, cache=cache)`. -/
def new (models : List PopFn) (cache : Bool) : PopObject := ⟨models, cache, fun _ => none⟩

/-- The loop of `Model.prob` over the functions (cf. `probLoop` in `Model/Bilby.lean`), `k` of which have been
evaluated. -/
def loop (b : Backend) (same : Dict Fl → Dict Fl → Prop) (cache : Bool) (data : Columns) (kwargs : Dict Fl) :
    ℕ → List PopFn → Shaped Fl → Entries (Shaped Fl) → Instances →
      Except PyErr (Shaped Fl) × Entries (Shaped Fl) × Instances
  | _, [], p, entries, mem => (.ok p, entries, mem)
  | k, f :: l, p, entries, mem =>
    match f.select kwargs with
    | .error e => (.error e, entries, mem)
    | .ok θ =>
      match lookupEntry same cache entries k θ with
      | some q =>
        match Shaped.timesEq b p q with
        | .error e => (.error e, entries, mem)
        | .ok p => loop b same cache data kwargs (k + 1) l p entries mem
      | none =>
        let r := f.call b mem data θ
        match r.1 with
        | .error e => (.error e, entries, r.2)
        | .ok q =>
          let entries := if cache then fun g => if g = k then some (θ, q) else entries g else entries
          match Shaped.timesEq b p q with
          | .error e => (.error e, entries, r.2)
          | .ok p => loop b same cache data kwargs (k + 1) l p entries r.2

/-- `Model.prob(data, **kwargs)`: the outcome, and the object and the instances afterwards. -/
def prob (b : Backend) (same : Dict Fl → Dict Fl → Prop) (self : PopObject) (mem : Instances) (data : Columns)
    (kwargs : Dict Fl) : Except PyErr (Shaped Fl) × PopObject × Instances :=
  let r := loop b same self.cache data kwargs 0 self.models ⟨[], fun _ => 1⟩ self.entries mem
  (r.1, { self with entries := r.2.1 }, r.2.2)

end PopObject

/-- An array of events by samples as a list of rows. -/
def Shaped.toMat (a : Shaped Fl) : Mat :=
  match a.shape with
  | [k, n] => (List.range n).map fun e => (List.range k).map fun j => a.elem [j, e]
  | _ => [a.elements]

/-- An analysis. -/
structure Analysis where
  /-- the likelihood object; its data, population model and selection function are the components below -/
  likelihood : Likelihood
  /-- the selection function; its data apart from `"prior"` and its population model are the components below -/
  vt : ResamplingVT
  /-- `likelihood.data` -/
  events : Columns
  /-- the columns of the injections -/
  injections : Columns
  /-- `likelihood.hyper_prior` -/
  numerator : PopObject
  /-- `selection_function.model` -/
  denominator : PopObject
  /-- the instances used by the two models -/
  instances : Instances

namespace Analysis

/-- The likelihood object when its population model returns `p` and that of the selection function `q`: each is
evaluated once in an evaluation of the likelihood. -/
def withValues (a : Analysis) (p : Except PyErr (Shaped Fl)) (q : Except PyErr (Shaped Fl)) : Likelihood :=
  { a.likelihood with
    hyperPrior := ⟨a.likelihood.hyperPrior.models, fun _ _ => p.map Shaped.toMat⟩
    selection := { a.vt with model := ⟨a.vt.model.models, fun _ _ => q.map Shaped.elements⟩ }.asSelection }

/-- `likelihood.ln_likelihood_and_variance(parameters)` (`hyperpe.py:163-178`): the outcome and the analysis
afterwards. The selection function is only called if the events were evaluated without an exception. -/
def evaluate (b : Backend) (same : Dict Fl → Dict Fl → Prop) (a : Analysis) (parameters : Dict Fl) :
    Except PyErr (Fl × Fl) × Analysis :=
  match a.likelihood.conversion parameters with
  | .error e => (.error e, a)
  | .ok φ =>
    let r := a.numerator.prob b same a.instances a.events φ
    let a := { a with numerator := r.2.1, instances := r.2.2 }
    match (a.withValues r.1 (.error .notImplemented)).perEvent φ with
    | .error e => (.error e, a)
    | .ok _ =>
      let t := a.denominator.prob b same a.instances a.injections φ
      ((a.withValues r.1 t.1).lnLikelihoodAndVariance parameters,
        { a with denominator := t.2.1, instances := t.2.2 })

/-- A history of evaluations. -/
def run (b : Backend) (same : Dict Fl → Dict Fl → Prop) (a : Analysis) : List (Dict Fl) → Analysis
  | [] => a
  | θ :: rest => run b same (a.evaluate b same θ).2 rest

end Analysis

end GW
