import Verif.Model.Interped

/-!
# Evaluations in threads and interrupted evaluations of spline models, `gwpopulation/models/interped.py:94-258`

`Model/Interped.lean` describes an evaluation that runs from beginning to end. Here an evaluation is a sequence of steps,
between which another thread may run or the evaluation may be abandoned (an exception raised from outside such as
`KeyboardInterrupt`, or a killed thread). The attributes that an evaluation assigns are `_norm_spline` and `_data_spline`
(`setup_interpolant`), and all of them if the number of nodes changes; a step ends at each use of or assignment to
`_norm_spline` and `_data_spline`.

Simplifications: those of `Model/Interped.lean`; reading or assigning an attribute is one indivisible operation, as it is
in CPython; `self.__init__(nodes=nodes)` is one operation. The other attributes change only in `__init__`.
-/

noncomputable section

open Classical

namespace GW

open Fl

namespace SplineThreads

open SplineModel

/-- The arguments of an evaluation. -/
structure Request where
  dataset : Dict (List Fl)
  kwargs : Dict Fl

/-- The local variables of `p_x_identical` in its loop (`interped.py:226-233`). -/
structure Locals where
  /-- the product so far -/
  px : List Fl
  f : List Fl
  x : List Fl

/-- Where an evaluation stands. -/
inductive Stage where
  /-- before the first statement of `p_x_identical` -/
  | begin
  /-- before `if self._norm_spline is None` for the first of the remaining parameters (`interped.py:150`), or before
  `norm_p_x` if there are none (`interped.py:235`) -/
  | check (todo : List String) (l : Locals)
  /-- before the assignment to `_norm_spline` (`interped.py:122`) -/
  | assignNorm (param : String) (rest : List String) (l : Locals)
  /-- before the assignment to `_data_spline` (`interped.py:123-126`) -/
  | assignData (param : String) (rest : List String) (l : Locals)
  /-- before the use of `_data_spline[parameter]` (`interped.py:153`) -/
  | evaluate (param : String) (rest : List String) (l : Locals)
  /-- returned or raised -/
  | finished (r : Except PyErr (List Fl))

/-- `self._norm_spline = _setup_interpolant(func(nodes), func(self._xs), **kwargs)` (`interped.py:122`). -/
def withNorm (s : SplineModel) (nodes : List Fl) : SplineModel :=
  { s with normSpline := some ⟨s.config.kind, nodes.map s.transform, (s.xs.map fin).map s.transform⟩ }

/-- `self._data_spline = {...}` (`interped.py:123-126`). -/
def withData (s : SplineModel) (nodes : List Fl) (values : Dict (List Fl)) : Except PyErr SplineModel := do
  let d ← s.config.parameters.mapM (fun param => do
    let v ← values.get param
    return (param, (⟨s.config.kind, nodes.map s.transform, v.map s.transform⟩ : Interpolant)))
  return { s with dataSpline := d.foldl (fun acc p => acc.set p.1 p.2) [] }

/-- One step of an evaluation: the stage and the instance afterwards. -/
def advance (b : Backend) (rule : SplineRule) (q : Request) (s : SplineModel) : Stage → Stage × SplineModel
  | .begin =>
    match s.inferNodes q.kwargs with
    | .error e => (.finished (.error e), s)
    | .ok s =>
      match s.extractSplinePoints q.kwargs with
      | .error e => (.finished (.error e), s)
      | .ok (f, x) =>
        match q.dataset.get (s.config.parameters.headD "") with
        | .error e => (.finished (.error e), s)
        | .ok values => (.check s.config.parameters ⟨values.map fun _ => 1, f, x⟩, s)
  | .check [] l =>
    match normPX b rule s l.f l.x with
    | .error e => (.finished (.error e), s)
    | .ok norm => (.finished (.ok (l.px.map (· / norm ^ s.config.parameters.length))), s)
  | .check (param :: rest) l =>
    match s.normSpline with
    | none => (.assignNorm param rest l, s)
    | some _ => (.evaluate param rest l, s)
  | .assignNorm param rest l => (.assignData param rest l, withNorm s l.x)
  | .assignData param rest l =>
    match withData s l.x q.dataset with
    | .error e => (.finished (.error e), s)
    | .ok s => (.evaluate param rest l, s)
  | .evaluate param rest l =>
    match evalUnnormed b rule s q.dataset param l.x l.f with
    | .error e => (.finished (.error e), s)
    | .ok r =>
      match inplaceMul b l.px r with
      | .error e => (.finished (.error e), s)
      | .ok px => (.check rest { l with px := px }, s)
  | .finished r => (.finished r, s)

/-- Several threads evaluating one instance. -/
structure World where
  inst : SplineModel
  /-- where the evaluation of each thread stands; a thread that never runs stays at `begin` -/
  stage : ℕ → Stage

/-- All threads are about to start. -/
def World.start (s : SplineModel) : World := ⟨s, fun _ => .begin⟩

/-- Thread `i` makes one step. -/
def World.step (b : Backend) (rule : SplineRule) (req : ℕ → Request) (w : World) (i : ℕ) : World :=
  let r := advance b rule (req i) w.inst (w.stage i)
  ⟨r.2, fun j => if j = i then r.1 else w.stage j⟩

/-- The threads make steps in the order given by a schedule. -/
def World.run (b : Backend) (rule : SplineRule) (req : ℕ → Request) (w : World) (schedule : List ℕ) : World :=
  schedule.foldl (World.step b rule req) w

/-- One evaluation that is abandoned after at most `k` steps: where it stands and the instance afterwards. -/
def advanceN (b : Backend) (rule : SplineRule) (q : Request) (s : SplineModel) (st : Stage) : ℕ → Stage × SplineModel
  | 0 => (st, s)
  | k + 1 => let r := advance b rule q s st; advanceN b rule q r.2 r.1 k

end SplineThreads

end GW
