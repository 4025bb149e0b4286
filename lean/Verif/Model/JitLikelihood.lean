import Verif.Model.Jit
import Verif.Model.Bilby

/-!
# Model of a likelihood and its `JittedLikelihood` in one process

`gwpopulation/experimental/jax.py` and `gwpopulation/hyperpe.py` with `jax.jit` as in
`Verif/Model/Jit.lean`. The compiled function holds a reference to the likelihood object
(`jax.py:58`), so that a trace reads the attributes the object has at that time, and the population
model of the likelihood (`bilby.hyper.model.Model`, see `Verif/Model/Bilby.lean`) is used, and its cache
written, by traces and by ordinary evaluations.

Simplifications: the backend is jax; the functions of the population model, the conversion function
and the selection function have no state and consist of array operations, so that they can be traced; the
functions of the model are different objects; the conversion function does not depend on the order of the
parameters (`jax.jit` sorts them); a parameter is a number.
-/

noncomputable section

open Classical

namespace GW

open Fl

/-- A function of a population model: the names of its parameters, and the call with the values of these
parameters. -/
structure PlainFn where
  names : List String
  call : Dict Mat → List Fl → Except PyErr Mat

/-- What `Model` keeps for each function: `_cached_parameters` (the values, in the order of the names) and
`_cached_probability`. -/
abbrev StagedEntries (E : Type) := ℕ → Option (List (Staged E Fl) × Staged E Mat)

/-- An instance of `bilby.hyper.model.Model`. -/
structure StagedModel (E : Type) where
  functions : List PlainFn
  cache : Bool
  entries : StagedEntries E

/-- `self._cached_parameters[function] == parameters` for dictionaries with the same keys: values are
compared one after the other until two differ. A comparison with a tracer gives a tracer, or raises if the
trace has ended; the truth value of a tracer raises `TracerBoolConversionError`, a `TypeError`. -/
def sameParameters {E : Type} : List (Staged E Fl) → List (Staged E Fl) → Except PyErr Bool
  | .known a :: xs, .known b :: ys => if eqf a b then sameParameters xs ys else .ok false
  | _ :: _, _ :: _ => .error .typeError
  | _, _ => .ok true

/-- The value of a function of the model: the cached one if the parameters are the cached ones. -/
def StagedModel.lookup {E : Type} (cache : Bool) (entries : StagedEntries E) (i : ℕ)
    (vals : List (Staged E Fl)) : Except PyErr (Option (Staged E Mat)) :=
  if cache then
    match entries i with
    | none => .ok none
    | some (vals', q) => do
      let same ← sameParameters vals' vals
      return if same then some q else none
  else .ok none

/-- `function(data, **parameters)`. -/
def PlainFn.apply {E : Type} (c : Ctx E) (f : PlainFn) (data : Dict Mat) (vals : List (Staged E Fl)) :
    Except PyErr (Staged E Mat) := do
  let a ← Staged.list c vals
  Staged.op c (f.call data) a

/-- `probability *= new_probability`. -/
def multiply {E : Type} (c : Ctx E) (ops : OutOps Mat) (p q : Staged E Mat) :
    Except PyErr (Staged E Mat) := do
  let a ← Staged.pair c p q
  Staged.op c (fun a => ops.mul a.1 a.2) a

/-- The product of arrays of the same shape, `ValueError` for others. The number `1.0` with which the product
starts is represented by the matrix without rows. Simplification: no broadcasting. -/
def matOps : OutOps Mat :=
  ⟨[], fun p q =>
    if p = [] then .ok q
    else if p.map List.length = q.map List.length then .ok (List.zipWith (List.zipWith (· * ·)) p q)
    else .error .valueError⟩

/-- The loop of `Model.prob` over the functions. The entries written so far are kept when an exception is
raised. -/
def stagedProbLoop {E : Type} (c : Ctx E) (ops : OutOps Mat) (cache : Bool) (data : Dict Mat)
    (θ : Staged E (Dict Fl)) :
    List (ℕ × PlainFn) → Staged E Mat → StagedEntries E → Except PyErr (Staged E Mat) × StagedEntries E
  | [], p, entries => (.ok p, entries)
  | (i, f) :: l, p, entries =>
    match f.names.mapM (fun k => Staged.op c (fun d => Dict.get d k) θ) with
    | .error e => (.error e, entries)
    | .ok vals =>
      match StagedModel.lookup cache entries i vals with
      | .error e => (.error e, entries)
      | .ok (some q) =>
        match multiply c ops p q with
        | .error e => (.error e, entries)
        | .ok p => stagedProbLoop c ops cache data θ l p entries
      | .ok none =>
        match f.apply c data vals with
        | .error e => (.error e, entries)
        | .ok q =>
          let entries := if cache then fun j => if j = i then some (vals, q) else entries j else entries
          match multiply c ops p q with
          | .error e => (.error e, entries)
          | .ok p => stagedProbLoop c ops cache data θ l p entries

/-- The functions with their positions. -/
def StagedModel.numbered {E : Type} (m : StagedModel E) : List (ℕ × PlainFn) :=
  (List.range m.functions.length).zip m.functions

/-- `Model.prob(data, **parameters)`. -/
def StagedModel.prob {E : Type} (c : Ctx E) (ops : OutOps Mat) (m : StagedModel E) (data : Dict Mat)
    (θ : Staged E (Dict Fl)) : Except PyErr (Staged E Mat) × StagedModel E :=
  let r := stagedProbLoop c ops m.cache data θ m.numbered (.known ops.one) m.entries
  (r.1, { m with entries := r.2 })

/-- `log_likelihood_ratio` (`hyperpe.py:163-184`) once the parameters are converted and the population
model has been evaluated. -/
def Likelihood.ratioFrom (self : Likelihood) (θ : Dict Fl) (p : Mat) : Except PyErr Fl :=
  Likelihood.logLikelihoodRatio
    { self with conversion := .ok, hyperPrior := ⟨self.hyperPrior.models, fun _ _ => .ok p⟩ } θ

/-- `log_likelihood_ratio` (`hyperpe.py:163-184`) of a likelihood with this population model, in any context.
The attributes are those of the object at this time; its field `hyperPrior` is not used. -/
def stagedRatio {E : Type} (c : Ctx E) (ops : OutOps Mat) (self : Likelihood) (m : StagedModel E)
    (θ : Staged E (Dict Fl)) : Except PyErr (Staged E Fl) × StagedModel E :=
  match Staged.op c self.conversion θ with
  | .error e => (.error e, m)
  | .ok θ' =>
    match m.prob c ops self.data θ' with
    | (.error e, m') => (.error e, m')
    | (.ok p, m') =>
      ((do
        let a ← Staged.pair c θ' p
        Staged.op c (fun a => self.ratioFrom a.1 a.2) a), m')

/-- What `jax.jit` compares for a dictionary of numbers: the names. -/
def parameterNames (θ : Dict Fl) : String → Bool := fun k => (Dict.get? θ k).isSome

/-- A process with a likelihood and its `JittedLikelihood`. -/
structure LikelihoodProcess where
  /-- the attributes of the likelihood except the population model -/
  likelihood : Likelihood
  /-- `likelihood.hyper_prior` -/
  model : StagedModel (Dict Fl)
  /-- the recorded computations of the `JittedLikelihood`, by the names of the parameters -/
  compiled : List ((String → Bool) × (Dict Fl → Except PyErr Fl))
  /-- number of traces made so far -/
  traces : ℕ
  /-- the attribute `maximum_uncertainty` of the `JittedLikelihood` itself, if it was set -/
  own : Option Fl

/-- What a program does with the two objects. -/
inductive LikelihoodAction where
  /-- `likelihood.log_likelihood_ratio(θ)` -/
  | ordinary (θ : Dict Fl)
  /-- `jitted.log_likelihood_ratio(θ)` -/
  | jitted (θ : Dict Fl)
  /-- `likelihood.maximum_uncertainty = u` -/
  | setMaximum (u : Fl)
  /-- `jitted.maximum_uncertainty = u` -/
  | setOwnMaximum (u : Fl)

namespace LikelihoodProcess

/-- `jitted.maximum_uncertainty`: the own attribute if there is one, otherwise that of the likelihood
(`jax.py:62-63`, getter `hyperpe.py:146-153`). -/
def maximumUncertainty (p : LikelihoodProcess) : Fl := p.own.getD p.likelihood.maximumUncertainty

/-- `likelihood.log_likelihood_ratio(θ)`. -/
def evalOrdinary (ops : OutOps Mat) (p : LikelihoodProcess) (θ : Dict Fl) :
    Except PyErr Fl × LikelihoodProcess :=
  let r := stagedRatio .eager ops p.likelihood p.model (.known θ)
  (r.1 >>= Staged.toNumpy, { p with model := r.2 })

/-- `jitted.log_likelihood_ratio(θ)` (`jax.py:65-66`) with the default arguments. -/
def evalJitted (ops : OutOps Mat) (p : LikelihoodProcess) (θ : Dict Fl) :
    Except PyErr Fl × LikelihoodProcess :=
  match p.compiled.find? (fun q => q.1 = parameterNames θ) with
  | some q => ((q.2 θ).map nanToNum, p)
  | none =>
    let c := Ctx.tracing p.traces θ
    let r := stagedRatio c ops p.likelihood p.model (.tracer p.traces .ok)
    let p1 := { p with model := r.2, traces := p.traces + 1 }
    match r.1 >>= Staged.read c with
    | .error err => (.error err, p1)
    | .ok f => ((f θ).map nanToNum, { p1 with compiled := (parameterNames θ, f) :: p1.compiled })

/-- The setter of `maximum_uncertainty` (`hyperpe.py:155-161`). -/
def setMaximum (p : LikelihoodProcess) (u : Fl) : LikelihoodProcess :=
  { p with likelihood :=
    { p.likelihood with maximumUncertainty := u, maxVariance := Likelihood.maxVarianceOf u } }

/-- One action: the outcome of an evaluation, and the process afterwards. -/
def step (ops : OutOps Mat) (p : LikelihoodProcess) :
    LikelihoodAction → Option (Except PyErr Fl) × LikelihoodProcess
  | .ordinary θ => let r := p.evalOrdinary ops θ; (some r.1, r.2)
  | .jitted θ => let r := p.evalJitted ops θ; (some r.1, r.2)
  | .setMaximum u => (none, p.setMaximum u)
  | .setOwnMaximum u => (none, { p with own := some u })

/-- The outcomes of the evaluations in a sequence of actions. -/
def outcomes (ops : OutOps Mat) (p : LikelihoodProcess) :
    List LikelihoodAction → List (Option (Except PyErr Fl))
  | [] => []
  | a :: as => (p.step ops a).1 :: outcomes ops (p.step ops a).2 as

/-- The process after a sequence of actions. -/
def run (ops : OutOps Mat) (p : LikelihoodProcess) : List LikelihoodAction → LikelihoodProcess
  | [] => p
  | a :: as => run ops (p.step ops a).2 as

end LikelihoodProcess

/-- A likelihood with the population model `Model(functions, cache=cache)`, and its `JittedLikelihood`,
right after construction. -/
def newLikelihoodProcess (likelihood : Likelihood) (functions : List PlainFn) (cache : Bool) :
    LikelihoodProcess :=
  ⟨likelihood, ⟨functions, cache, fun _ => none⟩, [], 0, none⟩

/-- A likelihood constructed with a function as `hyper_prior` (`hyperpe.py:114-115`): the function is
wrapped in a `Model`, which caches. -/
def functionLikelihoodProcess (likelihood : Likelihood) (f : PlainFn) : LikelihoodProcess :=
  newLikelihoodProcess likelihood [f] true

end GW
