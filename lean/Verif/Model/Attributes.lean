import Verif.Model.Experimental

/-!
# Attribute access: `JittedLikelihood.__getattr__` and `HyperparameterLikelihood.meta_data`

Python's attribute lookup is modelled as far as these two need it. `obj.name` looks `name` up in the
instance and in the classes of the object; if it is found nowhere the method `__getattr__` of the class,
if there is one, is called. Every call of a method costs one level of the interpreter's recursion limit,
and `RecursionError` is raised when none is left.

Not modelled: data descriptors which take precedence over the instance dictionary.
-/

noncomputable section

open Classical

namespace GW

open Fl

/-- A Python object as seen by attribute access; `α` is the type of attribute values. -/
inductive PyObject (α : Type) where
  /-- an object without `__getattr__`: everything found in the instance or its classes -/
  | plain (lookup : String → Option α)
  /-- an instance of `JittedLikelihood`: what is found in the instance dictionary or, failing that, in the
  classes `JittedLikelihood`, `bilby.core.likelihood.Likelihood` and `object`; and the attribute
  `_likelihood`, if it has been set -/
  | jitted (lookup : String → Option α) (inner : Option (PyObject α))

/-- Outcome of an attribute access. -/
inductive AttrResult (α : Type) where
  | value (a : α)
  | attributeError
  | recursionError
  deriving DecidableEq

/-- The repeated calls of `__getattr__("_likelihood")` on an object without that attribute
(`jax.py:62-63`): evaluating `self._likelihood` calls `__getattr__("_likelihood")`, which evaluates
`self._likelihood`. The number is what is left of the recursion limit. -/
def missingLikelihood {α : Type} : ℕ → AttrResult α
  | 0 => .recursionError
  | limit + 1 => missingLikelihood limit

/-- `getattr(obj, name)` (with `JittedLikelihood.__getattr__`, `jax.py:62-63`), for a name other than
`_likelihood`; `limit` is what is left of the recursion limit. -/
def getAttribute {α : Type} : ℕ → PyObject α → String → AttrResult α
  | _, .plain lookup, name => match lookup name with
    | some a => .value a
    | none => .attributeError
  | limit, .jitted lookup inner, name => match lookup name with
    | some a => .value a
    | none => match limit with
      | 0 => .recursionError
      | limit + 1 => match inner with
        | some obj => getAttribute limit obj name
        | none => missingLikelihood limit

/-- `JittedLikelihood(likelihood, likelihood_func, kwargs)` (`jax.py:50-60`). The instance gets the
attributes `kwargs`, `_likelihood` and `likelihood_func`; `base` are the attributes set by
`bilby.core.likelihood.Likelihood.__init__`, `classes` those found in the classes (`JittedLikelihood`
itself contributes `log_likelihood_ratio`, bilby's class at least `log_likelihood`,
`noise_log_likelihood` and `meta_data`). -/
def jittedObject {α : Type} (kwargs func : α) (base classes : String → Option α)
    (likelihood : PyObject α) : PyObject α :=
  .jitted (fun name =>
    if name = "kwargs" then some kwargs
    else if name = "likelihood_func" then some func
    else match base name with
      | some a => some a
      | none => classes name) (some likelihood)

/-- `cls.__new__(cls)`, the first step of `copy.copy`, `copy.deepcopy` and of unpickling: an instance
with empty dictionary. -/
def blankJitted {α : Type} (classes : String → Option α) : PyObject α := .jitted classes none

/-- Restoring a copied or unpickled `JittedLikelihood` (the standard library's `copy._reconstruct` and
`pickle`): an empty instance is made and asked for `__setstate__`; if it has none, the saved dictionary is
stored in it. Only `AttributeError` counts as not having the attribute. -/
def restoreJitted {α : Type} (limit : ℕ) (classes : String → Option α) (saved : PyObject α) :
    AttrResult (PyObject α) :=
  match getAttribute limit (blankJitted classes) "__setstate__" with
  | .value _ => .value saved
  | .attributeError => .value saved
  | .recursionError => .recursionError

/-! ## `meta_data` -/

/-- What `meta_data` looks at in the argument `hyper_prior`: the name of a function, or the attribute
`models` of an object, if it has one. -/
inductive MetaPrior where
  | function (name : String)
  | object (models : Option (List PyObjName))

/-- `self.hyper_prior.models`, where a function has been wrapped as `Model([hyper_prior])`
(`hyperpe.py:113-114`, `hyperpe.py:425`). -/
def MetaPrior.models : MetaPrior → Except PyErr (List PyObjName)
  | .function name => .ok [⟨some name, "function"⟩]
  | .object (some models) => .ok models
  | .object none => .error .attributeError

/-- The class of the arrays made by `xp.array` (`hyperpe.py:342`): `numpy.ndarray`, `cupy.ndarray` or an
array of `jaxlib`. -/
def arrayKind : Backend → PyObjKind
  | .numpy => ⟨true, false, false, false⟩
  | .cupy => ⟨false, true, false, false⟩
  | .jax => ⟨false, false, false, true⟩

/-- `to_numpy(array)` for an array made by backend `made` while `active` is the backend of
`gwpopulation.utils`: all three conversions keep the numbers. -/
def arrayToNumpy (active made : Backend) (m : Mat) : Except PyErr Mat :=
  match toNumpy active (arrayKind made) with
  | .ok _ => .ok m
  | .error e => .error e

/-- The dictionary returned by `meta_data`. -/
structure MetaData where
  /-- `model` -/
  model : List String
  /-- `data` -/
  data : Dict Mat
  /-- `n_events` -/
  nEvents : ℕ
  /-- `sampling_prior`; `none` is the number 1 -/
  samplingPrior : Option Mat
  /-- `samples_per_posterior` -/
  samplesPerPosterior : ℕ

/-- `to_numpy(self.sampling_prior)` (`hyperpe.py:428`). -/
def priorToNumpy (active made : Backend) : Option Mat → Except PyErr (Option Mat)
  | none => .ok none
  | some m => match arrayToNumpy active made m with
    | .ok m => .ok (some m)
    | .error e => .error e

/-- `{key: to_numpy(self.data[key]) for key in self.data}` (`hyperpe.py:426`), one entry. -/
def entryToNumpy (active made : Backend) (kv : String × Mat) : Except PyErr (String × Mat) :=
  match arrayToNumpy active made kv.2 with
  | .ok m => .ok (kv.1, m)
  | .error e => .error e

/-- `HyperparameterLikelihood.meta_data` (`hyperpe.py:422-430`); `active` is the backend while it is
read, `self.backend` the one the arrays were made with. -/
def Likelihood.metaData (active : Backend) (prior : MetaPrior) (self : Likelihood) :
    Except PyErr MetaData := do
  let models ← prior.models
  let data ← self.data.mapM (entryToNumpy active self.backend)
  let samplingPrior ← priorToNumpy active self.backend self.samplingPrior
  return { model := models.map getName, data := data, nEvents := self.nPosteriors,
           samplingPrior := samplingPrior, samplesPerPosterior := self.samplesPerPosterior }

end GW
