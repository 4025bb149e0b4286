import Verif.Model.Smoothed
import Verif.Model.InterpPowerlaw
import Verif.Model.HyperPE

/-!
# Model of copying objects: `pickle`, `copy.deepcopy`, worker processes

Samplers send the likelihood to worker processes and write it to checkpoint files. What an object of
the package refers to decides whether this works: `pickle` stores functions and classes by name and
cannot store lambdas, and neither `pickle` nor `copy.deepcopy` accepts a module.

Simplifications: only what matters for copying is kept of a value; objects without cycles; the class of
an object and the functions given by the user under a name can be imported wherever the object is
loaded; all classes of the package copy their `__dict__` (none defines `__reduce__`, `__getstate__` or
`__deepcopy__`). What jax does with the precision of loaded arrays is not modelled.
-/

noncomputable section

open Classical

namespace GW

/-- A Python value, as far as copying is concerned. -/
inductive PyVal where
  /-- a number, string, `None` or an array -/
  | data
  /-- a function or class that can be imported by its name -/
  | named
  /-- a lambda, or a function defined inside a function -/
  | nameless
  /-- a module -/
  | module
  /-- an instance, container or `functools.partial`, with everything it refers to -/
  | object (parts : List PyVal)

/-- The exceptions of `pickle` and `copy`. -/
inductive CopyErr where
  /-- `pickle.PicklingError: Can't pickle <function <lambda>>` -/
  | picklingError
  /-- `TypeError: cannot pickle 'module' object` -/
  | typeError
  deriving DecidableEq

mutual
/-- `pickle.dumps` (`names = true`: functions are stored by name) and `copy.deepcopy` (`names = false`:
functions are not copied). Parts are visited in order; the first exception is raised. -/
def PyVal.copy (names : Bool) : PyVal → Except CopyErr Unit
  | .data => .ok ()
  | .named => .ok ()
  | .nameless => if names then .error .picklingError else .ok ()
  | .module => .error .typeError
  | .object parts => PyVal.copyAll names parts

/-- The parts of an object. -/
def PyVal.copyAll (names : Bool) : List PyVal → Except CopyErr Unit
  | [] => .ok ()
  | v :: vs =>
    match v.copy names with
    | .error e => .error e
    | .ok _ => PyVal.copyAll names vs
end

/-- `pickle.dumps(v)`. -/
def PyVal.pickle (v : PyVal) : Except CopyErr Unit := v.copy true

/-- `copy.deepcopy(v)`. -/
def PyVal.deepcopy (v : PyVal) : Except CopyErr Unit := v.copy false

/-- The object returned by `_setup_interpolant` (`interped.py:15-43`): `partial(interpolant, values)`.
The interpolant is constructed with `backend=xp`; `keeps` says whether `cached_interpolate` keeps this module
as an attribute of the interpolant (it does: `self.bk`). -/
def interpolantVal (keeps : Bool) : PyVal :=
  .object [.object ((if keeps then [.module] else []) ++ [.data, .data, .data]), .data]

/-- The instance dictionary of a smoothed mass model (`mass.py:563-570`, `:655`): numbers and arrays, and
the interpolant `_q_interpolant` once it has been set up. -/
def Smoothed.pyVal (keeps : Bool) (s : Smoothed) : PyVal :=
  .object ([.data, .data, .data, .data, .data, .data, .data, .data, .data] ++
    match s.qMasses with
    | none => []
    | some _ => [interpolantVal keeps])

/-- The attributes of a spline model (`interped.py:79-92`, `:122-126`). -/
def SplineModel.attrs (keeps : Bool) (s : SplineModel) : List PyVal :=
  [.data, match s.normSpline with
    | none => .data
    | some _ => interpolantVal keeps,
    .object (s.dataSpline.map fun _ => interpolantVal keeps),
    .data, .data, .data, .data, .data, .data, .data, .data, .data, .data]

/-- The instance dictionary of a spline model. -/
def SplineModel.pyVal (keeps : Bool) (s : SplineModel) : PyVal := .object (s.attrs keeps)

/-- The instance dictionary of `InterpolatedPowerlaw` (`mass.py:901-916`): the attributes of both base
classes. -/
def InterpPowerlaw.pyVal (keeps : Bool) (s : InterpPowerlaw) : PyVal :=
  .object (s.spline.attrs keeps ++ [s.smoothed.pyVal keeps])

/-- `Model(models, cache=...)` of bilby: the list of functions, the flag, and the two dictionaries of cached
parameters and values, whose keys are the functions. -/
def modelVal (models : List PyVal) (cached : List PyVal) : PyVal :=
  .object [.object models, .data, .object cached, .object cached]

/-- An optional argument that is a function. -/
inductive FnArg where
  /-- left out -/
  | default
  /-- given by the user -/
  | given (v : PyVal)

/-- The function that is stored: the default values are lambdas (`hyperpe.py:78-79`). -/
def FnArg.pyVal : FnArg → PyVal
  | .default => .nameless
  | .given v => v

/-- The instance dictionary of a likelihood (`hyperpe.py:110-142`): data, the model, sampling prior,
evidence, the two functions, numbers. -/
def likelihoodVal (hyperPrior : PyVal) (conversion selection : FnArg) : PyVal :=
  .object [.data, .object [.data], hyperPrior, .data, .data, conversion.pyVal, selection.pyVal, .data,
    .data, .data, .data]

/-- The instance dictionary of a `ResamplingVT` (`vt.py:63-68`, `:152-165`): data, the model, numbers, and the
redshift model among the functions of the model, if there is one (it holds numbers and arrays,
`redshift.py:65-66`). -/
def resamplingVal (model : PyVal) (redshift : Bool) : PyVal :=
  .object [.object [.data], model, .data, .data, .data, if redshift then .object [.data, .data] else .data,
    .data, .data, .data]

/-- How worker processes are started: `fork` duplicates the memory of the process, `spawn` starts a new
interpreter, to which arguments are sent with `pickle`. -/
inductive StartMethod where
  | fork
  | spawn

/-- `pool.map(call, [object])`: the outcome of the call in a worker of a process that has selected the backend
`main`. A new interpreter imports the modules with `xp = np` (the first lines of every module, e.g.
`mass.py:10-11`, `interped.py:7`); nobody calls `set_backend` there (`backend.py:3`). -/
def inWorker {α : Type} (start : StartMethod) (main : Backend) (v : PyVal) (call : Backend → α) :
    Except CopyErr α :=
  match start with
  | .fork => .ok (call main)
  | .spawn =>
    match v.pickle with
    | .error e => .error e
    | .ok _ => .ok (call .numpy)

end GW
