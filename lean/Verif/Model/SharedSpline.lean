import Verif.Model.Interped
import Verif.Model.SharedSmoothed

/-!
# Spline models evaluated on arrays of any shape, `gwpopulation/models/interped.py`

`Model/Interped.lean` describes one-dimensional datasets. Here the columns of a dataset have any number of axes, as in
an analysis where one instance evaluates the posterior samples (events by samples) and the injections (one axis). The
grid of the norm, the nodes and the configuration are those of `Model/Interped.lean`. Shapes and indices are written
last axis first, as in `Num/NArr.lean`.

Simplifications: those of `Model/Interped.lean`; a dataset has at least one axis; an interpolant returns an array with
the shape of the points it was set up for.
-/

noncomputable section

open Classical

namespace GW

open Fl

/-- The object returned by `_setup_interpolant` (`interped.py:15-43`) for an array of any shape. -/
structure ShapedInterpolant where
  kind : String
  nodes : List Fl
  values : Shaped Fl

/-- Calling the interpolant with new node values (`interped.py:153`). -/
def ShapedInterpolant.eval (rule : SplineRule) (i : ShapedInterpolant) (y : List Fl) : Shaped Fl :=
  i.values.map (rule i.kind i.nodes y)

/-- `x *= y`: in place on numpy and cupy, where the result must have the shape of `x`; a rebinding on jax. -/
def Shaped.inplaceMul (b : Backend) (x y : Shaped Fl) : Except PyErr (Shaped Fl) := do
  let r ← Shaped.zip b (· * ·) x y
  if b ≠ .jax ∧ r.shape ≠ x.shape then .error .valueError else .ok r

/-- An instance of a spline model whose datasets may have any shape. -/
structure SharedSpline where
  /-- the attributes other than `_data_spline`; the field `dataSpline` is not used -/
  inst : SplineModel
  /-- `self._data_spline` -/
  data : Dict ShapedInterpolant

namespace SharedSpline

/-- The instance as `__init__` leaves it. -/
def new (s : SplineModel) : SharedSpline := ⟨s, []⟩

/-- `infer_n_nodes` (`interped.py:239-258`): a re-initialised instance has no interpolants. -/
def inferNodes (m : SharedSpline) (kwargs : Dict Fl) : Except PyErr SharedSpline :=
  let nodes := SplineModel.inferLoop kwargs m.inst.base m.inst.config.nodes
  if nodes ≠ m.inst.config.nodes then (m.inst.reinit nodes).map new else .ok m

/-- `setup_interpolant` (`interped.py:116-126`). -/
def setupInterpolant (m : SharedSpline) (nodes : List Fl) (values : Dict (Shaped Fl)) :
    Except PyErr Unit × SharedSpline :=
  let normSpline : Interpolant :=
    ⟨m.inst.config.kind, nodes.map m.inst.transform, (m.inst.xs.map fin).map m.inst.transform⟩
  let m1 : SharedSpline := ⟨{ m.inst with normSpline := some normSpline }, m.data⟩
  match m.inst.config.parameters.mapM (fun param => do
      let v ← values.get param
      return (param, (⟨m.inst.config.kind, nodes.map m.inst.transform, v.map m.inst.transform⟩ : ShapedInterpolant))) with
  | .error e => (.error e, m1)
  | .ok d => (.ok (), { m1 with data := d.foldl (fun acc p => acc.set p.1 p.2) [] })

/-- The mask `(values >= x_splines[0]) & (values <= x_splines[-1])` (`interped.py:156-158`). -/
def mask (values : Shaped Fl) (x : List Fl) : Except PyErr (Shaped Fl) :=
  match x.head?, x.getLast? with
  | some lo, some hi => .ok (values.map fun v => ind (lo ≤ v ∧ v ≤ hi))
  | _, _ => .error .indexError

/-- The evaluation part of `p_x_unnormed` (`interped.py:153-159`). -/
def evalUnnormed (b : Backend) (rule : SplineRule) (m : SharedSpline) (dataset : Dict (Shaped Fl))
    (parameter : String) (x f : List Fl) : Except PyErr (Shaped Fl) := do
  let spline ← m.data.get parameter
  let px := (spline.eval rule f).map Fl.exp
  let values ← dataset.get parameter
  let k ← mask values x
  Shaped.inplaceMul b px k

/-- `p_x_unnormed` (`interped.py:128-159`). Returns the outcome and the instance afterwards. -/
def pXUnnormed (b : Backend) (rule : SplineRule) (m : SharedSpline) (dataset : Dict (Shaped Fl))
    (parameter : String) (x f : List Fl) : Except PyErr (Shaped Fl) × SharedSpline :=
  match m.inst.normSpline with
  | some _ => (evalUnnormed b rule m dataset parameter x f, m)
  | none =>
    match m.setupInterpolant x dataset with
    | (.error e, m1) => (.error e, m1)
    | (.ok _, m1) => (evalUnnormed b rule m1 dataset parameter x f, m1)

/-- The loop over the parameters of `p_x_identical` (`interped.py:230-233`). -/
def parameterLoop (b : Backend) (rule : SplineRule) (dataset : Dict (Shaped Fl)) (x f : List Fl) :
    List String → Shaped Fl → SharedSpline → Except PyErr (Shaped Fl) × SharedSpline
  | [], px, m => (.ok px, m)
  | param :: params, px, m =>
    match pXUnnormed b rule m dataset param x f with
    | (.error e, m1) => (.error e, m1)
    | (.ok r, m1) =>
      match Shaped.inplaceMul b px r with
      | .error e => (.error e, m1)
      | .ok px1 => parameterLoop b rule dataset x f params px1 m1

/-- `p_x_identical` and `__call__` (`interped.py:94-98`, `:207-237`). Returns the outcome and the instance
afterwards. -/
def call (b : Backend) (rule : SplineRule) (m : SharedSpline) (dataset : Dict (Shaped Fl))
    (kwargs : Dict Fl) : Except PyErr (Shaped Fl) × SharedSpline :=
  match m.inferNodes kwargs with
  | .error e => (.error e, m)
  | .ok m =>
    match m.inst.extractSplinePoints kwargs with
    | .error e => (.error e, m)
    | .ok (f, x) =>
      match dataset.get (m.inst.config.parameters.headD "") with
      | .error e => (.error e, m)
      | .ok values =>
        match parameterLoop b rule dataset x f m.inst.config.parameters (values.map fun _ => 1) m with
        | (.error e, m1) => (.error e, m1)
        | (.ok px, m1) =>
          match SplineModel.normPX b rule m1.inst f x with
          | .error e => (.error e, m1)
          | .ok norm => (.ok (px.map (· / norm ^ m.inst.config.parameters.length)), m1)

/-- A history of calls on one instance. -/
def runCalls (b : Backend) (rule : SplineRule) (m : SharedSpline) :
    List (Dict (Shaped Fl) × Dict Fl) → SharedSpline
  | [] => m
  | (dataset, kwargs) :: rest => runCalls b rule (call b rule m dataset kwargs).2 rest

end SharedSpline

end GW
