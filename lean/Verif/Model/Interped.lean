import Verif.Model.Smoothed
import Std.Data.String.ToNat

/-!
# Model of `gwpopulation/models/interped.py` and of the spline spin models (`spin.py:333-398`)

Datasets are dictionaries of one-dimensional arrays. The interpolation rule of
`cached_interpolate.RegularCachingInterpolant` is a parameter of the model (`SplineRule`): the value
at a point as a function of the kind, the node positions given at construction, and the node values
given at the call. Simplifications: the rule never raises; `print` is dropped; a keyword argument
named like a parameter of one of the methods (`dataset`, `parameter`, `x_splines`, `f_splines`) is not
considered.
-/

noncomputable section

open Classical

namespace GW

open Fl

/-- An interpolation rule: kind, node positions, node values, evaluation point. -/
abbrev SplineRule := String → List Fl → List Fl → Fl → Fl

/-- The object returned by `_setup_interpolant` (`interped.py:15-43`): a
`RegularCachingInterpolant` together with the points at which it will be evaluated. -/
structure Interpolant where
  kind : String
  nodes : List Fl
  values : List Fl

/-- Calling the interpolant with new node values (`interped.py:153`, `:178`). -/
def Interpolant.eval (rule : SplineRule) (i : Interpolant) (y : List Fl) : List Fl :=
  i.values.map (rule i.kind i.nodes y)

/-- The class of a spline model: the base class and its two subclasses in `spin.py`. -/
inductive SplineClass where
  | base
  | spinMagnitude
  | spinTilt
  deriving DecidableEq

/-- `str.strip(chars)`: remove leading and trailing characters that occur in `chars`. -/
def pyStrip (chars : List Char) (s : List Char) : List Char :=
  ((s.dropWhile (· ∈ chars)).reverse.dropWhile (· ∈ chars)).reverse

/-- The arguments of `__init__` of a spline model (`interped.py:69-78`). -/
structure SplineConfig where
  parameters : List String
  minimum : ℝ
  maximum : ℝ
  nodes : ℕ
  kind : String
  logNodes : Bool
  regularize : Bool

/-- An instance of a spline model (`interped.py:79-92`). The attributes `nodes`, `kind`, `parameters`,
`min`, `max`, `log_nodes` and `regularize` are those of `config`. -/
structure SplineModel where
  cls : SplineClass
  config : SplineConfig
  /-- `self.base` -/
  base : String
  /-- `self._xs` -/
  xs : List ℝ
  /-- `self._norm_spline` -/
  normSpline : Option Interpolant
  /-- `self._data_spline` -/
  dataSpline : Dict Interpolant

namespace SplineModel

/-- `f"{base}{ii}"` (`interped.py:90`). -/
def xkey (base : String) (i : ℕ) : String := base ++ toString i

/-- `f"f{base}{ii}"` (`interped.py:91`, `:249`). -/
def fkey (base : String) (i : ℕ) : String := "f" ++ base ++ toString i

/-- `f"rms{base}"` (`interped.py:113`, `:203`). -/
def rmsKey (base : String) : String := "rms" ++ base

/-- `InterpolatedNoBaseModelIdentical.__init__` (`interped.py:69-92`): an empty list of parameters is
an `IndexError`. -/
def init (cls : SplineClass) (c : SplineConfig) : Except PyErr SplineModel :=
  match c.parameters with
  | [] => .error .indexError
  | p :: _ => .ok
    { cls := cls
      config := c
      base := String.ofList (pyStrip ['_', '1'] p.toList)
      xs := Arr.linspaceR c.minimum c.maximum (10 * c.nodes)
      normSpline := none
      dataSpline := [] }

/-- `SplineSpinMagnitudeIdentical.__init__` (`spin.py:354-363`). -/
def initMagnitude (minimum maximum : ℝ) (nodes : ℕ) (kind : String) (regularize : Bool) :
    Except PyErr SplineModel :=
  init .spinMagnitude ⟨["a_1", "a_2"], minimum, maximum, nodes, kind, false, regularize⟩

/-- `SplineSpinTiltIdentical.__init__` (`spin.py:387-396`). -/
def initTilt (minimum maximum : ℝ) (nodes : ℕ) (kind : String) (regularize : Bool) :
    Except PyErr SplineModel :=
  init .spinTilt ⟨["cos_tilt_1", "cos_tilt_2"], minimum, maximum, nodes, kind, false, regularize⟩

/-- `self.xkeys` (`interped.py:90`). -/
def xkeys (s : SplineModel) : List String := (List.range s.config.nodes).map (xkey s.base)

/-- `self.fkeys` (`interped.py:91`). -/
def fkeys (s : SplineModel) : List String := (List.range s.config.nodes).map (fkey s.base)

/-- `variable_names` (`interped.py:100-114`). -/
def variableNames (s : SplineModel) : List String :=
  let keys := s.xkeys ++ s.fkeys
  if s.config.regularize then keys ++ [rmsKey s.base] else keys

/-- The loop of `infer_n_nodes` (`interped.py:246-252`). The number of keys of `kwargs` that name a
node at or above `nodes` decreases. -/
def inferLoop (kwargs : Dict Fl) (base : String) (nodes : ℕ) : ℕ :=
  if kwargs.contains (fkey base nodes) then inferLoop kwargs base (nodes + 1) else nodes
termination_by (kwargs.keys.filter fun k => decide (∃ m, nodes ≤ m ∧ k = fkey base m)).length
decreasing_by
  rename_i h
  have hle : ∀ l : List String,
      (l.filter fun k => decide (∃ m, nodes + 1 ≤ m ∧ k = fkey base m)).length ≤
      (l.filter fun k => decide (∃ m, nodes ≤ m ∧ k = fkey base m)).length := by
    intro l
    rw [← List.countP_eq_length_filter, ← List.countP_eq_length_filter]
    refine List.countP_mono_left fun k _ hk => ?_
    rw [decide_eq_true_eq] at hk ⊢
    obtain ⟨m, hm, rfl⟩ := hk
    exact ⟨m, by omega, rfl⟩
  obtain ⟨l₁, l₂, hl⟩ := List.append_of_mem (show fkey base nodes ∈ kwargs.keys from h)
  have hnew : ¬ ∃ m, nodes + 1 ≤ m ∧ fkey base nodes = fkey base m := by
    rintro ⟨m, hm, he⟩
    unfold fkey at he
    have h1 := congrArg String.toList he
    simp only [String.toList_append, List.append_assoc, List.append_cancel_left_eq] at h1
    have h2 : toString nodes = toString m := String.toList_inj.1 h1
    have := Nat.repr_injective h2
    omega
  rw [hl, List.filter_append, List.filter_append, List.length_append, List.length_append,
    List.filter_cons_of_neg (by rw [decide_eq_true_eq]; exact hnew),
    List.filter_cons_of_pos (by rw [decide_eq_true_eq]; exact ⟨nodes, le_refl _, rfl⟩),
    List.length_cons]
  have h1 := hle l₁
  have h2 := hle l₂
  omega

/-- `self.__init__(nodes=nodes)` (`interped.py:258`): the constructor of the instance's class with all
other arguments left out. The base class has required parameters. -/
def reinit (s : SplineModel) (nodes : ℕ) : Except PyErr SplineModel :=
  match s.cls with
  | .base => .error .typeError
  | .spinMagnitude => initMagnitude 0 1 nodes "cubic" false
  | .spinTilt => initTilt (-1) 1 nodes "cubic" false

/-- `infer_n_nodes` (`interped.py:239-258`). -/
def inferNodes (s : SplineModel) (kwargs : Dict Fl) : Except PyErr SplineModel :=
  let nodes := inferLoop kwargs s.base s.config.nodes
  if nodes ≠ s.config.nodes then s.reinit nodes else .ok s

/-- The transformation applied to positions in `setup_interpolant` (`interped.py:117-120`). -/
def transform (s : SplineModel) (x : Fl) : Fl := if s.config.logNodes then Fl.log x else x

/-- `setup_interpolant` (`interped.py:116-126`). The assignment to `_norm_spline` comes before the
dictionary of data interpolants, whose construction fails if a parameter is not in the data. -/
def setupInterpolant (s : SplineModel) (nodes : List Fl) (values : Dict (List Fl)) :
    Except PyErr Unit × SplineModel :=
  let normSpline : Interpolant :=
    ⟨s.config.kind, nodes.map s.transform, (s.xs.map fin).map s.transform⟩
  let s1 := { s with normSpline := some normSpline }
  match s.config.parameters.mapM (fun param => do
      let v ← values.get param
      return (param, (⟨s.config.kind, nodes.map s.transform, v.map s.transform⟩ : Interpolant))) with
  | .error e => (.error e, s1)
  | .ok d => (.ok (), { s1 with dataSpline := d.foldl (fun acc p => acc.set p.1 p.2) [] })

/-- `xs *= ys`: in place on numpy/cupy, a rebinding on jax. -/
def inplaceMul (b : Backend) (xs ys : List Fl) : Except PyErr (List Fl) := do
  let r ← Smoothed.broadcast b (· * ·) xs ys
  if b ≠ .jax ∧ r.length ≠ xs.length then .error .valueError else .ok r

/-- The mask `(values >= x_splines[0]) & (values <= x_splines[-1])` (`interped.py:156-158`, `:180`). -/
def mask (values x : List Fl) : Except PyErr (List Fl) :=
  match x.head?, x.getLast? with
  | some lo, some hi => .ok (values.map fun v => ind (lo ≤ v ∧ v ≤ hi))
  | _, _ => .error .indexError

/-- The evaluation part of `p_x_unnormed` (`interped.py:153-159`). -/
def evalUnnormed (b : Backend) (rule : SplineRule) (s : SplineModel) (dataset : Dict (List Fl))
    (parameter : String) (x f : List Fl) : Except PyErr (List Fl) := do
  let spline ← s.dataSpline.get parameter
  let px := (spline.eval rule f).map Fl.exp
  let values ← dataset.get parameter
  let m ← mask values x
  inplaceMul b px m

/-- `p_x_unnormed` (`interped.py:128-159`). Returns the outcome and the instance afterwards. -/
def pXUnnormed (b : Backend) (rule : SplineRule) (s : SplineModel) (dataset : Dict (List Fl))
    (parameter : String) (x f : List Fl) : Except PyErr (List Fl) × SplineModel :=
  match s.normSpline with
  | some _ => (evalUnnormed b rule s dataset parameter x f, s)
  | none =>
    match s.setupInterpolant x dataset with
    | (.error e, s1) => (.error e, s1)
    | (.ok _, s1) => (evalUnnormed b rule s1 dataset parameter x f, s1)

/-- `norm_p_x` (`interped.py:161-182`); calling `None` is a `TypeError`. -/
def normPX (b : Backend) (rule : SplineRule) (s : SplineModel) (f x : List Fl) :
    Except PyErr Fl := do
  match s.normSpline with
  | none => .error .typeError
  | some spline =>
    let m ← mask (s.xs.map fin) x
    let px ← inplaceMul b ((spline.eval rule f).map Fl.exp) m
    return Arr.trapz px (s.xs.map fin)

/-- The regularisation factor `kwargs[rms] / mean(f**2)**0.5` (`interped.py:203`). -/
def rmsFactor (rms : Fl) (f : List Fl) : Fl := rms / Fl.pow (Arr.mean (f.map (· ^ 2))) (fin 0.5)

/-- The conditional statement of `extract_spline_points` (`interped.py:202-203`). -/
def regularise (s : SplineModel) (kwargs : Dict Fl) (f : List Fl) : Except PyErr (List Fl) :=
  if s.config.regularize then do
    let rms ← kwargs.get (rmsKey s.base)
    return f.map (· * rmsFactor rms f)
  else .ok f

/-- `extract_spline_points` (`interped.py:184-205`): node values and node positions. -/
def extractSplinePoints (s : SplineModel) (kwargs : Dict Fl) : Except PyErr (List Fl × List Fl) := do
  let f ← s.fkeys.mapM kwargs.get
  let f ← s.regularise kwargs f
  let x ← s.xkeys.mapM kwargs.get
  return (f, x)

/-- The loop over the parameters of `p_x_identical` (`interped.py:230-233`). -/
def parameterLoop (b : Backend) (rule : SplineRule) (dataset : Dict (List Fl)) (x f : List Fl) :
    List String → List Fl → SplineModel → Except PyErr (List Fl) × SplineModel
  | [], px, s => (.ok px, s)
  | param :: params, px, s =>
    match pXUnnormed b rule s dataset param x f with
    | (.error e, s1) => (.error e, s1)
    | (.ok r, s1) =>
      match inplaceMul b px r with
      | .error e => (.error e, s1)
      | .ok px1 => parameterLoop b rule dataset x f params px1 s1

/-- `p_x_identical` and `__call__` (`interped.py:94-98`, `:207-237`). Returns the outcome and the
instance afterwards. -/
def call (b : Backend) (rule : SplineRule) (s : SplineModel) (dataset : Dict (List Fl))
    (kwargs : Dict Fl) : Except PyErr (List Fl) × SplineModel :=
  match s.inferNodes kwargs with
  | .error e => (.error e, s)
  | .ok s =>
    match s.extractSplinePoints kwargs with
    | .error e => (.error e, s)
    | .ok (f, x) =>
      match dataset.get (s.config.parameters.headD "") with
      | .error e => (.error e, s)
      | .ok values =>
        match parameterLoop b rule dataset x f s.config.parameters (values.map fun _ => 1) s with
        | (.error e, s1) => (.error e, s1)
        | (.ok px, s1) =>
          match normPX b rule s1 f x with
          | .error e => (.error e, s1)
          | .ok norm => (.ok (px.map (· / norm ^ s.config.parameters.length)), s1)

/-- A history of calls on one instance. -/
def runCalls (b : Backend) (rule : SplineRule) (s : SplineModel) :
    List (Dict (List Fl) × Dict Fl) → SplineModel
  | [] => s
  | (dataset, kwargs) :: rest => runCalls b rule (call b rule s dataset kwargs).2 rest

end SplineModel

end GW
