import Verif.Model.Redshift
import Verif.Model.Utils
import Verif.Num.ND

/-!
# Model of `gwpopulation/vt.py`

The population model (`bilby.hyper.model.Model`, external) is a parameter: the list of its component
models, of which only the redshift models matter here, and the function `prob`.
-/

noncomputable section

open Classical

namespace GW

open Fl

/-- A component of a population model, as far as `isinstance(_, _Redshift)` can tell. -/
inductive Component where
  /-- an instance of a subclass of `_Redshift` -/
  | redshift (r : Redshift)
  /-- anything else -/
  | other

/-- What `vt.py` uses of `bilby.hyper.model.Model` (external): `models` and `prob`. -/
structure PopModel (Data Out : Type) where
  /-- `model.models` -/
  models : List Component
  /-- `model.prob(data, **parameters)` -/
  prob : Data → Dict Fl → Except PyErr Out

/-- A value in the dictionary of injections: a number (`py` says it is a Python number, otherwise
a numpy scalar) or a one-dimensional array. -/
inductive Value where
  | num (py : Bool) (x : Fl)
  | arr (l : List Fl)

/-- `len(value)`: a number has no length. -/
def Value.len : Value → Except PyErr ℕ
  | .num _ _ => .error .typeError
  | .arr l => .ok l.length

/-- `a / b` for one-dimensional arrays with numpy broadcasting. -/
def Arr.divide (a b : List Fl) : Except PyErr (List Fl) :=
  if a.length = b.length then .ok (List.zipWith (· / ·) a b)
  else match a, b with
    | [x], b => .ok (b.map (x / ·))
    | a, [y] => .ok (a.map (· / y))
    | _, _ => .error .valueError

/-- An instance of `ResamplingVT` (`vt.py:144-165`). -/
structure ResamplingVT where
  /-- the backend `xp` -/
  backend : Backend
  /-- `self.model` -/
  model : PopModel (Dict Value) (List Fl)
  /-- `self.data` -/
  data : Dict Value
  /-- `self.n_events`, a Python number -/
  nEvents : Fl
  /-- `self.total_injections` and whether it is a Python number -/
  totalInjections : Bool × Fl
  /-- `self.analysis_time` -/
  analysisTime : Fl
  /-- `self.redshift_model` -/
  redshiftModel : Option Redshift
  /-- `self.marginalize_uncertainty` -/
  marginalizeUncertainty : Bool
  /-- `self.enforce_convergence` -/
  enforceConvergence : Bool
  /-- `self._surveyed_hypervolume` (unset if there is a redshift model) -/
  surveyedHypervolumeAttr : Option Fl

/-- The loop `vt.py:159-161`. -/
def lastRedshift (models : List Component) : Option Redshift :=
  models.foldl (fun acc m => match m with | .redshift r => some r | .other => acc) none

/-- `data.get(key, default)` for an entry that has to be a number, with the flag telling whether
it is a Python number; an array is outside the model (`TypeError`). -/
def getNumber (data : Dict Value) (key : String) (default : Bool × Fl) : Except PyErr (Bool × Fl) :=
  match data.get? key with
  | none => .ok default
  | some (.num py x) => .ok (py, x)
  | some (.arr _) => .error .typeError

namespace ResamplingVT

/-- `ResamplingVT.__init__` (`vt.py:144-165`, with `_BaseVT.__init__`, `vt.py:62-68`): the instance and
the caller's dictionary afterwards. The default of `data.get("total_generated", len(data["prior"]))` is
evaluated in any case. -/
def init (backend : Backend) (planck15 : Cosmology) (model : PopModel (Dict Value) (List Fl))
    (data : Dict Value) (nEvents : Fl := pinf) (marginalizeUncertainty : Bool := false)
    (enforceConvergence : Bool := true) : Except PyErr (ResamplingVT × Dict Value) := do
  let selfData := data
  let prior ← data.get "prior"
  let n ← prior.len
  let total ← getNumber data "total_generated" (true, (n : Fl))
  let analysisTime ← getNumber data "analysis_time" (true, 1)
  let redshiftModel := lastRedshift model.models
  let hyper := match redshiftModel with
    | none => some (totalFourVolume planck15 0 analysisTime.2)
    | some _ => none
  return ({ backend := backend, model := model, data := selfData, nEvents := nEvents,
            totalInjections := total, analysisTime := analysisTime.2,
            redshiftModel := redshiftModel, marginalizeUncertainty := marginalizeUncertainty,
            enforceConvergence := enforceConvergence, surveyedHypervolumeAttr := hyper }, data)

/-- `detection_efficiency` (`vt.py:235-259`). `to_number(_, float)` gives Python floats except on jax,
so that the last division raises if both operands are Python numbers and the divisor is 0. -/
def detectionEfficiency (self : ResamplingVT) (parameters : Dict Fl) :
    Except PyErr (Fl × Fl) := do
  let p ← self.model.prob self.data parameters
  let prior ← match ← self.data.get "prior" with
    | .arr l => pure l
    | .num _ x => pure [x]
  let weights ← Arr.divide p prior
  let N := self.totalInjections.2
  let mu := toNumber self.backend id id (Arr.sum weights / N)
  let second ← pyDiv (decide (self.backend ≠ .jax) && self.totalInjections.1) (mu ^ 2) N
  let var := toNumber self.backend id id
    (Arr.sum (weights.map (· ^ 2)) / N ^ 2 - second)
  return (mu, var)

/-- `check_convergence` (`vt.py:197-206`): whether converged, and the correction. -/
def checkConvergence (self : ResamplingVT) (mu var : Fl) : Bool × Fl :=
  let converged : Bool := decide (4 * self.nEvents * var < mu ^ 2)
  (converged, nanToNumWith 0 pinf (fin (-bigR)) (pinf * (1 - ind (converged = true))))

/-- `vt_factor` (`vt.py:208-233`); divisions between Python floats raise on a zero divisor. -/
def vtFactor (self : ResamplingVT) (parameters : Dict Fl) : Except PyErr Fl := do
  let (mu, var) ← self.detectionEfficiency parameters
  let correction := (self.checkConvergence mu var).2
  let py := decide (self.backend ≠ .jax)
  let nEffective ← pyDiv py (mu ^ 2) var
  let e ← pyDiv py ((3 + self.nEvents) / 2) nEffective
  let vtFactor := mu / Fl.exp e
  return vtFactor + correction

/-- `__call__` (`vt.py:167-195`): a pair `(mu, var)` or the single number `vt_factor`. -/
def call (self : ResamplingVT) (parameters : Dict Fl) : Except PyErr (Fl × Option Fl) := do
  if !self.marginalizeUncertainty then
    let (mu, var) ← self.detectionEfficiency parameters
    let mu := if self.enforceConvergence then mu + (self.checkConvergence mu var).2 else mu
    return (mu, some var)
  else
    let v ← self.vtFactor parameters
    return (v, none)

/-- `surveyed_hypervolume` (`vt.py:261-286`). -/
def surveyedHypervolume (self : ResamplingVT) (parameters : Dict Fl) : Except PyErr Fl :=
  match self.redshiftModel with
  | none => match self.surveyedHypervolumeAttr with
    | some v => .ok v
    | none => .error .attributeError
  | some r => do
    let n ← r.normalisation parameters
    return n / fin 1e9 * self.analysisTime

end ResamplingVT

/-- An instance of `GridVT` (`vt.py:87-94`). -/
structure GridVT where
  /-- `self.vts` -/
  vts : ND
  /-- `self.model` -/
  model : PopModel (Dict ND) ND
  /-- `self.data` -/
  data : Dict ND
  /-- `self.values` -/
  values : Dict (List Fl)
  /-- `self.axes`: the key belonging to an axis, in insertion order -/
  axes : List (ℕ × String)
  /-- `self.ndim` -/
  ndim : ℕ

/-- `d[k] = v` for a dictionary with integer keys. -/
def axesSet : List (ℕ × String) → ℕ → String → List (ℕ × String)
  | [], a, k => [(a, k)]
  | (a', k') :: d, a, k => if a' = a then (a, k) :: d else (a', k') :: axesSet d a k

namespace GridVT

/-- `int(np.where(shape == n)[0][0])`: the first axis of length `n`; `IndexError` if there is none. -/
def firstAxis (shape : List ℕ) (n : ℕ) : Except PyErr ℕ :=
  if n ∈ shape then .ok (shape.idxOf n) else .error .indexError

/-- `list(self.data.values())[0].shape` (`vt.py:91`). -/
def firstShape : Dict ND → Except PyErr (List ℕ)
  | [] => .error .indexError
  | (_, a) :: _ => .ok a.shape

/-- The dictionary comprehension `vt.py:93`, starting from `axes`. -/
def findAxes (shape : List ℕ) (values : Dict (List Fl)) (axes : List (ℕ × String)) :
    Except PyErr (List (ℕ × String)) :=
  values.foldlM (fun axes p => do
    let a ← firstAxis shape p.2.length
    pure (axesSet axes a p.1)) axes

/-- `GridVT.__init__` (`vt.py:87-94`, with `_BaseVT.__init__`, `vt.py:62-68`): the instance and
the caller's dictionary afterwards (`data.pop("vt")` removes a key from it). -/
def init (model : PopModel (Dict ND) ND) (data : Dict ND) :
    Except PyErr (GridVT × Dict ND) := do
  let vts ← data.get "vt"
  let data := data.erase "vt"
  let selfData := data
  let values : Dict (List Fl) := selfData.map fun p => (p.1, p.2.unique)
  let shape ← firstShape selfData
  let axes ← findAxes shape values []
  return ({ vts := vts, model := model, data := selfData, values := values, axes := axes,
            ndim := axes.length }, data)

/-- One pass of the loop `vt.py:98-101`; a missing axis number is a `KeyError`. -/
def step (self : GridVT) (vtFac : ND) (ii : ℕ) : Except PyErr ND := do
  let axis := self.ndim - ii - 1
  match self.axes.lookup axis with
  | none => throw (.keyError (toString axis))
  | some key =>
    let x ← self.values.get key
    vtFac.trapzLast x

/-- `GridVT.__call__` (`vt.py:96-102`). -/
def call (self : GridVT) (parameters : Dict Fl) : Except PyErr ND := do
  let p ← self.model.prob self.data parameters
  let vtFac ← p.mul self.vts
  (List.range self.ndim).foldlM (fun v ii => self.step v ii) vtFac

end GridVT

end GW
