import Verif.Model.HyperPE
import Verif.Model.Mass
import Verif.Model.Spin
import Verif.Model.Redshift

/-!
# Population models as objects: `bilby.hyper.model.Model` and who holds it

`bilby` is not part of the repository. The class is modelled as the repository relies on it and
documents it: `prob` multiplies the values of the model functions
(`cosmo_models.py:140-165` extends it and repeats its documentation), each function receives the
parameters it asks for, and unless constructed with `cache=False` (`cosmo_models.py:123-126`, `:137`)
the value of a function is reused while its parameters do not change
(`examples/GWTC3.ipynb`: "We need to define `Bilby` `Model` objects for the numerator and denominator
independently as these cache some computations internally").

Simplifications: the model functions have no state of their own; how a function's parameters are
selected is a parameter (`select`), as is the array arithmetic (`mul`).
-/

noncomputable section

open Classical

namespace GW

open Fl

/-- A function of a population model. -/
structure ModelFn (Data Out : Type) where
  /-- the parameters the function is called with, out of all parameters -/
  select : Dict Fl → Except PyErr (Dict Fl)
  /-- the call -/
  call : Data → Dict Fl → Except PyErr Out

/-- What the product needs of arrays. -/
structure OutOps (Out : Type) where
  /-- the number `1.0` -/
  one : Out
  /-- `p *= q`; shapes may not fit -/
  mul : Out → Out → Except PyErr Out

/-- The cached parameters and value of each function. -/
abbrev Entries (Out : Type) := ℕ → Option (Dict Fl × Out)

/-- An instance of `bilby.hyper.model.Model`; functions are named by numbers, so that one function
occurring twice is recognisable. -/
structure BilbyModel (Out : Type) where
  /-- `models` -/
  models : List ℕ
  /-- `cache` -/
  cache : Bool
  /-- `_cached_parameters` and `_cached_probability` -/
  entries : Entries Out

/-- `Model(models, cache=cache)`. -/
def BilbyModel.new (Out : Type) (models : List ℕ) (cache : Bool) : BilbyModel Out :=
  ⟨models, cache, fun _ => none⟩

/-- The cached value of function `f`, if it was computed for equal parameters. -/
def lookupEntry {Out : Type} (same : Dict Fl → Dict Fl → Prop) (cache : Bool) (entries : Entries Out)
    (f : ℕ) (θ : Dict Fl) : Option Out :=
  if cache then
    match entries f with
    | some (θ', q) => if same θ' θ then some q else none
    | none => none
  else none

/-- The loop of `Model.prob` over the functions. The entries reached so far are kept when an exception
is raised. -/
def probLoop {Data Out : Type} (ops : OutOps Out) (same : Dict Fl → Dict Fl → Prop)
    (fns : ℕ → ModelFn Data Out) (cache : Bool) (data : Data) (kwargs : Dict Fl) :
    List ℕ → Out → Entries Out → Except PyErr Out × Entries Out
  | [], p, entries => (.ok p, entries)
  | f :: l, p, entries =>
    match (fns f).select kwargs with
    | .error e => (.error e, entries)
    | .ok θ =>
      match lookupEntry same cache entries f θ with
      | some q =>
        match ops.mul p q with
        | .error e => (.error e, entries)
        | .ok p => probLoop ops same fns cache data kwargs l p entries
      | none =>
        match (fns f).call data θ with
        | .error e => (.error e, entries)
        | .ok q =>
          let entries := if cache then fun g => if g = f then some (θ, q) else entries g else entries
          match ops.mul p q with
          | .error e => (.error e, entries)
          | .ok p => probLoop ops same fns cache data kwargs l p entries

/-- `Model.prob(data, **kwargs)`: the value or exception, and the object afterwards. -/
def BilbyModel.prob {Data Out : Type} (ops : OutOps Out) (same : Dict Fl → Dict Fl → Prop)
    (fns : ℕ → ModelFn Data Out) (self : BilbyModel Out) (data : Data) (kwargs : Dict Fl) :
    Except PyErr Out × BilbyModel Out :=
  let r := probLoop ops same fns self.cache data kwargs self.models ops.one self.entries
  (r.1, { self with entries := r.2 })

/-! ## Who holds the object -/

/-- What can be passed as population model. -/
inductive ModelArg where
  /-- a function -/
  | function (f : ℕ)
  /-- a list of functions -/
  | functions (l : List ℕ)
  /-- a reference to an existing `Model` -/
  | model (ref : ℕ)

/-- The `Model` objects in memory; `next` is the first unused reference. -/
structure Memory (Out : Type) where
  /-- the object behind a reference -/
  object : ℕ → BilbyModel Out
  /-- the first unused reference -/
  next : ℕ

/-- Create a new object. -/
def Memory.alloc {Out : Type} (mem : Memory Out) (m : BilbyModel Out) : ℕ × Memory Out :=
  (mem.next, ⟨fun r => if r = mem.next then m else mem.object r, mem.next + 1⟩)

/-- The population model of a likelihood, `hyperpe.py:114-125`: a function is wrapped in a new `Model`,
an object is kept, a list has no attribute `parameters`. -/
def likelihoodModel {Out : Type} (arg : ModelArg) (mem : Memory Out) :
    Except PyErr (ℕ × Memory Out) :=
  match arg with
  | .function f => .ok (mem.alloc (.new Out [f] true))
  | .functions _ => .error .attributeError
  | .model ref => .ok (ref, mem)

/-- The population model of a selection function, `_BaseVT.__init__`, `vt.py:61-68`: lists and functions
are wrapped in a new `Model`, a `Model` is kept. -/
def vtModel {Out : Type} (arg : ModelArg) (mem : Memory Out) : ℕ × Memory Out :=
  match arg with
  | .function f => mem.alloc (.new Out [f] true)
  | .functions l => mem.alloc (.new Out l true)
  | .model ref => (ref, mem)

/-- `_BaseVT.__call__`, `vt.py:70-71`: the base class itself cannot be used. -/
def baseVTCall {α : Type} : Except PyErr α := .error .notImplemented

/-- `model.prob(data, **kwargs)` on the object behind a reference. -/
def Memory.prob {Data Out : Type} (ops : OutOps Out) (same : Dict Fl → Dict Fl → Prop)
    (fns : ℕ → ModelFn Data Out) (mem : Memory Out) (ref : ℕ) (data : Data) (kwargs : Dict Fl) :
    Except PyErr Out × Memory Out :=
  let r := (mem.object ref).prob ops same fns data kwargs
  (r.1, { mem with object := fun k => if k = ref then r.2 else mem.object k })

/-- A sequence of evaluations: reference, data and parameters of each. -/
def Memory.run {Data Out : Type} (ops : OutOps Out) (same : Dict Fl → Dict Fl → Prop)
    (fns : ℕ → ModelFn Data Out) : List (ℕ × Data × Dict Fl) → Memory Out → Memory Out
  | [], mem => mem
  | (ref, data, kwargs) :: l, mem => Memory.run ops same fns l (mem.prob ops same fns ref data kwargs).2

/-! ## Functions of the package as parts of a population model

At one sample: the data are a dictionary of numbers. -/

/-- The parameters named in a signature, apart from the data; a missing one is an error.
Simplification: parameters with a default must be given, too. -/
def bySignature (names : List String) (kwargs : Dict Fl) : Except PyErr (Dict Fl) :=
  names.mapM fun k => do
    let v ← kwargs.get k
    return (k, v)

/-- `two_component_primary_mass_ratio(dataset, alpha, beta, mmin, mmax, lam, mpp, sigpp,
gaussian_mass_maximum)` (`mass.py:397-439`). -/
def massRatioFn (b : Backend) (py : Bool) : ModelFn (Dict Fl) Fl where
  select := bySignature ["alpha", "beta", "mmin", "mmax", "lam", "mpp", "sigpp",
    "gaussian_mass_maximum"]
  call data θ := do
    twoComponentPrimaryMassRatio b py (← data.get "mass_1") (← data.get "mass_ratio")
      (← θ.get "alpha") (← θ.get "beta") (← θ.get "mmin") (← θ.get "mmax") (← θ.get "lam")
      (← θ.get "mpp") (← θ.get "sigpp") (← θ.get "gaussian_mass_maximum")

/-- `iid_spin_magnitude_beta(dataset, amax, alpha_chi, beta_chi)` (`spin.py:50-67`). -/
def spinMagnitudeFn (junk : Fl → Fl → Fl) (b : Backend) : ModelFn (Dict Fl) Fl where
  select := bySignature ["amax", "alpha_chi", "beta_chi"]
  call data θ := do
    iidSpinMagnitudeBeta junk b data (← θ.get "amax") (← θ.get "alpha_chi") (← θ.get "beta_chi")

/-- `iid_spin_orientation_gaussian_isotropic(dataset, xi_spin, sigma_spin, mu_spin)`
(`spin.py:95-124`). -/
def spinOrientationFn (b : Backend) : ModelFn (Dict Fl) Fl where
  select := bySignature ["xi_spin", "sigma_spin", "mu_spin"]
  call data θ := do
    iidSpinOrientation b data (← θ.get "xi_spin") (← θ.get "sigma_spin") (← θ.get "mu_spin")

/-- A redshift model (`redshift.py`), `__call__(dataset, **parameters)` (`redshift.py:68-72`). -/
def redshiftFn (s : Redshift) : ModelFn (Dict Fl) Fl where
  select := bySignature s.variableNames.1
  call data θ := s.probability data θ

/-! ## `CosmoModel` -/

/-- An instance of `CosmoModel` (`cosmo_models.py:120-138`). -/
structure CosmoModel where
  /-- the part of `Model` -/
  model : BilbyModel Fl
  /-- the part of `CosmoMixin` -/
  mixin : CosmoMixin

/-- `CosmoModel.__init__` (`cosmo_models.py:136-138`): the cache is disabled. -/
def CosmoModel.init (available : Dict CosmoEntry) (models : List ℕ) (cosmoModel : String := "Planck15") :
    Except PyErr CosmoModel := do
  let mixin ← CosmoMixin.init available cosmoModel
  return ⟨.new Fl models false, mixin⟩

/-- Multiplication of numbers, as element of an array. -/
def flOps : OutOps Fl := ⟨1, fun p q => .ok (p * q)⟩

/-- `CosmoModel.prob` (`cosmo_models.py:140-165`) at one sample: the value and the object
afterwards. -/
def CosmoModel.prob (same : Dict Fl → Dict Fl → Prop) (fns : ℕ → ModelFn (Dict Fl) Fl)
    (self : CosmoModel) (data kwargs : Dict Fl) : Except PyErr Fl × CosmoModel :=
  match self.mixin.detectorFrameToSourceFrame data kwargs with
  | .error e => (.error e, self)
  | .ok (samples, jacobian) =>
    let r := self.model.prob flOps same fns samples kwargs
    (r.1.map (· / jacobian), { self with model := r.2 })

end GW
