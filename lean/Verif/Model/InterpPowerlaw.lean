import Verif.Model.Interped

/-!
# Model of `InterpolatedPowerlaw`, `gwpopulation/models/mass.py:844-952`

The class inherits from `BaseSmoothedMassDistribution` and from `InterpolatedNoBaseModelIdentical`; an
instance is the pair of the two parts. As for the parts, datasets are lists of pairs
`(mass_1, mass_ratio)` and the interpolation rule is a parameter.
-/

noncomputable section

open Classical

namespace GW

open Fl

/-- `power_law_mass` as the class attribute `primary_model` (`mass.py:871`); not called through the
methods of the base class here. -/
def primPowerLaw (py : Bool) : Primary := fun b kwargs m => do
  let g ← bindArgs ["alpha", "mmin", "mmax"] [] kwargs
  powerLawMass b py m (g "alpha") (g "mmin") (g "mmax")

/-- An instance of `InterpolatedPowerlaw`. -/
structure InterpPowerlaw where
  /-- whether hyper-parameters are Python floats -/
  py : Bool
  /-- the attributes of `BaseSmoothedMassDistribution` -/
  smoothed : Smoothed
  /-- the attributes of `InterpolatedNoBaseModelIdentical` -/
  spline : SplineModel

namespace InterpPowerlaw

/-- `__init__` (`mass.py:873-915`). The class of the spline part only matters for `infer_n_nodes`,
which this class never calls. -/
def init (py : Bool) (nodes : ℕ) (kind : String) (mmin mmax : ℝ) (nM nQ : ℕ) (regularize : Bool) :
    Except PyErr InterpPowerlaw := do
  let smoothed ← Smoothed.init (primPowerLaw py) [] mmin mmax nM nQ true
  let spline ← SplineModel.init .base ⟨["mass_1"], mmin, mmax, nodes, kind, true, regularize⟩
  return ⟨py, smoothed, { spline with xs := smoothed.m1s }⟩

/-- `variable_names` (`mass.py:917-922`): the set union, as a list. `primary_model` has no attribute
`variable_names`, and `power_law_mass(mass, alpha, mmin, mmax)` has no fixed arguments. -/
def variableNames (s : InterpPowerlaw) : List String :=
  ((GW.variableNames ⟨["mass", "alpha", "mmin", "mmax"], none⟩ []).1 ++ s.spline.variableNames).dedup

/-- `primary_model(masses, **{key: kwargs[key] for key in ["alpha", "mmin", "mmax"]})`
(`mass.py:930-932`, `:944-946`). -/
def primaryAt (b : Backend) (s : InterpPowerlaw) (kwargs : Dict Fl) (masses : List Fl) :
    Except PyErr (List Fl) := do
  let alpha ← kwargs.get "alpha"
  let lo ← kwargs.get "mmin"
  let hi ← kwargs.get "mmax"
  masses.mapM fun m => powerLawMass b s.py m alpha lo hi

/-- `norm_p_m1` (`mass.py:942-952`). The window is raised to the power `delta_m > 0`. -/
def normPM1 (b : Backend) (rule : SplineRule) (s : InterpPowerlaw) (deltaM : Fl) (f : List Fl)
    (kwargs : Dict Fl) : Except PyErr Fl := do
  let mmin := Smoothed.kwGet kwargs "mmin" (fin s.smoothed.mmin)
  let grid := s.smoothed.m1s.map fin
  let pm ← s.primaryAt b kwargs grid
  let window := grid.map fun m =>
    Fl.pow (smoothing b m mmin (fin s.smoothed.mmax) deltaM) (ind (0 < deltaM))
  let pm ← SplineModel.inplaceMul b pm window
  match s.spline.normSpline with
  | none => .error .typeError
  | some spline =>
    let pm ← SplineModel.inplaceMul b pm ((spline.eval rule f).map Fl.exp)
    return Arr.trapz pm grid

/-- The dictionary of data of which `p_x_unnormed` reads `mass_1`. -/
def massColumn (masses : List Fl) : Dict (List Fl) := [("mass_1", masses)]

/-- The product and quotient `mass.py:936-939`, once the spline values are known. -/
def finish (b : Backend) (rule : SplineRule) (s : InterpPowerlaw) (pm px f : List Fl) (deltaM : Fl)
    (kwargs : Dict Fl) : Except PyErr (List Fl) := do
  let pm ← SplineModel.inplaceMul b pm px
  let norm ← s.normPM1 b rule deltaM f kwargs
  return pm.map (· / norm)

/-- The primary model and the window at the data (`mass.py:928-935`). -/
def pMRaw (b : Backend) (s : InterpPowerlaw) (masses : List Fl) (mmin deltaM : Fl)
    (kwargs : Dict Fl) : Except PyErr (List Fl) := do
  let pm ← s.primaryAt b kwargs masses
  SplineModel.inplaceMul b pm
    (masses.map fun m => smoothing b m mmin (fin s.smoothed.mmax) deltaM)

/-- `p_m1` (`mass.py:924-940`). Returns the outcome and the instance afterwards. -/
def pM1 (b : Backend) (rule : SplineRule) (s : InterpPowerlaw) (masses : List Fl)
    (kwargs : Dict Fl) : Except PyErr (List Fl) × InterpPowerlaw :=
  match s.spline.extractSplinePoints kwargs with
  | .error e => (.error e, s)
  | .ok (f, x) =>
    let mmin := Smoothed.kwGet kwargs "mmin" (fin s.smoothed.mmin)
    let deltaM := Smoothed.kwGet kwargs "delta_m" 0
    let kwargs := Dict.erase kwargs "delta_m"
    match s.pMRaw b masses mmin deltaM kwargs with
    | .error e => (.error e, s)
    | .ok pm =>
      match s.spline.pXUnnormed b rule (massColumn masses) "mass_1" x f with
      | (.error e, t) => (.error e, { s with spline := t })
      | (.ok px, t) => (finish b rule { s with spline := t } pm px f deltaM kwargs,
          { s with spline := t })

/-- The last steps of `__call__` (`mass.py:587-589`). -/
def times (b : Backend) (s : InterpPowerlaw) (pm : List Fl) :
    Except PyErr (List Fl) × Smoothed → Except PyErr (List Fl) × InterpPowerlaw
  | (.error e, sm) => (.error e, { s with smoothed := sm })
  | (.ok pq, sm) => (Smoothed.broadcast b (· * ·) pm pq, { s with smoothed := sm })

/-- `__call__`, inherited from `BaseSmoothedMassDistribution` (`mass.py:572-589`; `self.kwargs` is
empty). Returns the outcome and the instance afterwards. -/
def call (b : Backend) (rule : SplineRule) (s : InterpPowerlaw) (data : List (Fl × Fl))
    (kwargs : Dict Fl) : Except PyErr (List Fl) × InterpPowerlaw :=
  match Dict.get? kwargs "beta" with
  | none => (.error (.keyError "beta"), s)
  | some beta =>
    let kwargs := Dict.erase kwargs "beta"
    let mmin := Smoothed.kwGet kwargs "mmin" (fin s.smoothed.mmin)
    let mmax := Smoothed.kwGet kwargs "mmax" (fin s.smoothed.mmax)
    if b ≠ .jax ∧ mmin < fin s.smoothed.mmin then (.error .valueError, s)
    else if b ≠ .jax ∧ fin s.smoothed.mmax < mmax then (.error .valueError, s)
    else
      let deltaM := Smoothed.kwGet kwargs "delta_m" 0
      match s.pM1 b rule (data.map Prod.fst) kwargs with
      | (.error e, s') => (.error e, s')
      | (.ok pm, s') => times b s' pm (s'.smoothed.pQ b data beta mmin deltaM)

/-- A history of calls on one instance. -/
def runCalls (b : Backend) (rule : SplineRule) (s : InterpPowerlaw) :
    List (List (Fl × Fl) × Dict Fl) → InterpPowerlaw
  | [] => s
  | (data, kwargs) :: rest => runCalls b rule (call b rule s data kwargs).2 rest

end InterpPowerlaw

end GW
