import Verif.Model.Interped

/-!
# Model of `jax.jit` and of the stateful models under it

`jax.jit(f)` runs the Python function `f` once for every signature of its arguments, on placeholders
("tracers") instead of arrays, and records the array operations. Later calls with the same signature
replay the recorded operations and run no Python. What the code of the package can observe of this:

* an array operation during a trace returns a tracer, even if all its operands are concrete;
* converting a tracer to a numpy array raises (`TracerArrayConversionError`, a `TypeError`);
* using a tracer after its trace has ended raises (`UnexpectedTracerError`, a `TypeError`);
* errors that depend on the shapes of the operands are raised during the trace.

The code covered is that of the two families of models that keep state between calls:
`gwpopulation/models/interped.py` (with `spin.py:333-398`) and
`gwpopulation/models/mass.py:530-684`.

Simplifications: signatures contain the names of the arguments and the lengths of the arrays, not the
dtypes; instances are constructed outside of any trace; traces are not nested.
-/

noncomputable section

open Classical

namespace GW

open Fl

/-- A value in a Python process that uses `jax.jit` on functions with arguments `E`: a concrete array,
or a tracer that belongs to the trace with the given number and stands for the given function of the
arguments. -/
inductive Staged (E α : Type) where
  | known (a : α)
  | tracer (trace : ℕ) (f : E → Except PyErr α)

/-- What is being executed: ordinary Python, or the trace with the given number of a function that
was called with the arguments `args`. -/
inductive Ctx (E : Type) where
  | eager
  | tracing (trace : ℕ) (args : E)

namespace Staged

variable {E α β : Type}

/-- An operand of an array operation, as a function of the arguments of the running trace. A tracer of
another trace raises `UnexpectedTracerError`. -/
def read : Ctx E → Staged E α → Except PyErr (E → Except PyErr α)
  | _, .known a => .ok fun _ => .ok a
  | .eager, .tracer _ _ => .error .typeError
  | .tracing t _, .tracer t' f => if t' = t then .ok f else .error .typeError

/-- Two operands. -/
def pair : Ctx E → Staged E α → Staged E β → Except PyErr (Staged E (α × β))
  | .eager, .known a, .known b => .ok (.known (a, b))
  | .eager, _, _ => .error .typeError
  | .tracing t e, x, y => do
    let f ← x.read (.tracing t e)
    let g ← y.read (.tracing t e)
    return .tracer t fun e => do
      let a ← f e
      let b ← g e
      return (a, b)

/-- A list of operands. -/
def list : Ctx E → List (Staged E α) → Except PyErr (Staged E (List α))
  | _, [] => .ok (.known [])
  | c, x :: xs => do
    let ys ← list c xs
    match c, x, ys with
    | .eager, .known a, .known as => .ok (.known (a :: as))
    | .eager, _, _ => .error .typeError
    | .tracing t e, x, ys => do
      let f ← x.read (.tracing t e)
      let g ← ys.read (.tracing t e)
      return .tracer t fun e => do
        let a ← f e
        let as ← g e
        return a :: as

/-- An array operation. During a trace its result is a tracer; an error that depends on the shapes of
the operands is raised at once, which is decided here on the arguments of the traced call. -/
def op : Ctx E → (α → Except PyErr β) → Staged E α → Except PyErr (Staged E β)
  | .eager, f, .known a => do
    let b ← f a
    return .known b
  | .eager, _, .tracer _ _ => .error .typeError
  | .tracing t e₀, f, x => do
    let g ← x.read (.tracing t e₀)
    let a ← g e₀
    let _ ← f a
    return .tracer t fun e => do
      let a ← g e
      f a

/-- `to_numpy` (`utils.py:299-316`) under the jax backend. -/
def toNumpy : Staged E α → Except PyErr α
  | .known a => .ok a
  | .tracer _ _ => .error .typeError

end Staged

/-! ### Spline models -/

/-- The object returned by `_setup_interpolant` (`interped.py:15-43`). `conversion` stands for the array
`interpolant.conversion`, which is determined by the nodes and the kind. -/
structure StagedInterpolant (E : Type) where
  kind : String
  nodes : List Fl
  conversion : Staged E Unit
  values : Staged E (List Fl)

/-- `_setup_interpolant` (`interped.py:15-43`). -/
def StagedInterpolant.setup {E : Type} (c : Ctx E) (kind : String) (nodes values : Staged E (List Fl)) :
    Except PyErr (StagedInterpolant E) := do
  let nodes ← nodes.toNumpy
  let conversion ← Staged.op c (fun _ => .ok ()) (.known ())
  let values ← Staged.op c .ok values
  return ⟨kind, nodes, conversion, values⟩

/-- Calling the interpolant with new node values (`interped.py:153`, `:178`). -/
def StagedInterpolant.eval {E : Type} (c : Ctx E) (rule : SplineRule) (i : StagedInterpolant E)
    (y : Staged E (List Fl)) : Except PyErr (Staged E (List Fl)) := do
  let a ← Staged.pair c i.conversion i.values
  let a ← Staged.pair c a y
  Staged.op c (fun a => .ok (a.1.2.map (rule i.kind i.nodes a.2))) a

/-- An instance of a spline model (`interped.py:79-92`) in a process that uses `jax.jit`. -/
structure StagedSpline (E : Type) where
  cls : SplineClass
  config : SplineConfig
  /-- `self.base` -/
  base : String
  /-- `self._xs` -/
  xs : Staged E (List Fl)
  /-- `self._norm_spline` -/
  normSpline : Option (StagedInterpolant E)
  /-- `self._data_spline` -/
  dataSpline : Dict (StagedInterpolant E)

namespace StagedSpline

variable {E : Type}

/-- `InterpolatedNoBaseModelIdentical.__init__` (`interped.py:69-92`). -/
def init (c : Ctx E) (cls : SplineClass) (cfg : SplineConfig) : Except PyErr (StagedSpline E) := do
  let xs ← Staged.op c
    (fun _ => .ok ((Arr.linspaceR cfg.minimum cfg.maximum (10 * cfg.nodes)).map fin)) (.known ())
  match cfg.parameters with
  | [] => .error .indexError
  | p :: _ => .ok ⟨cls, cfg, String.ofList (pyStrip ['_', '1'] p.toList), xs, none, []⟩

/-- `self.xkeys` (`interped.py:90`). -/
def xkeys (s : StagedSpline E) : List String :=
  (List.range s.config.nodes).map (SplineModel.xkey s.base)

/-- `self.fkeys` (`interped.py:91`). -/
def fkeys (s : StagedSpline E) : List String :=
  (List.range s.config.nodes).map (SplineModel.fkey s.base)

/-- `self.__init__(nodes=nodes)` (`interped.py:258`, `spin.py:354-363`, `:387-396`). -/
def reinit (c : Ctx E) (s : StagedSpline E) (nodes : ℕ) : Except PyErr (StagedSpline E) :=
  match s.cls with
  | .base => .error .typeError
  | .spinMagnitude => init c .spinMagnitude ⟨["a_1", "a_2"], 0, 1, nodes, "cubic", false, false⟩
  | .spinTilt =>
    init c .spinTilt ⟨["cos_tilt_1", "cos_tilt_2"], -1, 1, nodes, "cubic", false, false⟩

/-- `infer_n_nodes` (`interped.py:239-258`); the names of the arguments are known during a trace. -/
def inferNodes (c : Ctx E) (s : StagedSpline E) (kwargs : Dict (Staged E Fl)) :
    Except PyErr (StagedSpline E) :=
  let nodes := SplineModel.inferLoop (kwargs.map fun p => (p.1, 0)) s.base s.config.nodes
  if nodes ≠ s.config.nodes then s.reinit c nodes else .ok s

/-- The function applied to positions in `setup_interpolant` (`interped.py:117-120`). -/
def transform (c : Ctx E) (s : StagedSpline E) (x : Staged E (List Fl)) :
    Except PyErr (Staged E (List Fl)) :=
  Staged.op c (fun l => .ok (l.map fun v => if s.config.logNodes then Fl.log v else v)) x

/-- One interpolant of `setup_interpolant` (`interped.py:122`, `:124`). -/
def interpolant (c : Ctx E) (s : StagedSpline E) (nodes values : Staged E (List Fl)) :
    Except PyErr (StagedInterpolant E) := do
  let n ← s.transform c nodes
  let v ← s.transform c values
  StagedInterpolant.setup c s.config.kind n v

/-- `setup_interpolant` (`interped.py:116-126`). -/
def setupInterpolant (c : Ctx E) (s : StagedSpline E) (nodes : Staged E (List Fl))
    (values : Dict (Staged E (List Fl))) : Except PyErr Unit × StagedSpline E :=
  match s.interpolant c nodes s.xs with
  | .error e => (.error e, s)
  | .ok ns =>
    let s1 := { s with normSpline := some ns }
    match s.config.parameters.mapM (fun param => do
        let v ← values.get param
        let i ← s.interpolant c nodes v
        return (param, i)) with
    | .error e => (.error e, s1)
    | .ok d => (.ok (), { s1 with dataSpline := d.foldl (fun acc p => acc.set p.1 p.2) [] })

/-- The evaluation part of `p_x_unnormed` (`interped.py:153-159`). -/
def evalUnnormed (c : Ctx E) (rule : SplineRule) (s : StagedSpline E)
    (dataset : Dict (Staged E (List Fl))) (parameter : String) (x f : Staged E (List Fl)) :
    Except PyErr (Staged E (List Fl)) := do
  let spline ← s.dataSpline.get parameter
  let px ← spline.eval c rule f
  let px ← Staged.op c (fun l => .ok (l.map Fl.exp)) px
  let values ← dataset.get parameter
  let vx ← Staged.pair c values x
  let m ← Staged.op c (fun a => SplineModel.mask a.1 a.2) vx
  let pm ← Staged.pair c px m
  Staged.op c (fun a => SplineModel.inplaceMul .jax a.1 a.2) pm

/-- `p_x_unnormed` (`interped.py:128-159`). -/
def pXUnnormed (c : Ctx E) (rule : SplineRule) (s : StagedSpline E)
    (dataset : Dict (Staged E (List Fl))) (parameter : String) (x f : Staged E (List Fl)) :
    Except PyErr (Staged E (List Fl)) × StagedSpline E :=
  match s.normSpline with
  | some _ => (s.evalUnnormed c rule dataset parameter x f, s)
  | none =>
    match s.setupInterpolant c x dataset with
    | (.error e, s1) => (.error e, s1)
    | (.ok _, s1) => (s1.evalUnnormed c rule dataset parameter x f, s1)

/-- `norm_p_x` (`interped.py:161-182`). -/
def normPX (c : Ctx E) (rule : SplineRule) (s : StagedSpline E) (f x : Staged E (List Fl)) :
    Except PyErr (Staged E Fl) := do
  match s.normSpline with
  | none => .error .typeError
  | some spline =>
    let px ← spline.eval c rule f
    let px ← Staged.op c (fun l => .ok (l.map Fl.exp)) px
    let vx ← Staged.pair c s.xs x
    let m ← Staged.op c (fun a => SplineModel.mask a.1 a.2) vx
    let pm ← Staged.pair c px m
    let px ← Staged.op c (fun a => SplineModel.inplaceMul .jax a.1 a.2) pm
    let a ← Staged.pair c px s.xs
    Staged.op c (fun a => .ok (Arr.trapz a.1 a.2)) a

/-- `extract_spline_points` (`interped.py:184-205`): node values and node positions. -/
def extractSplinePoints (c : Ctx E) (s : StagedSpline E) (kwargs : Dict (Staged E Fl)) :
    Except PyErr (Staged E (List Fl) × Staged E (List Fl)) := do
  let fs ← s.fkeys.mapM kwargs.get
  let f ← Staged.list c fs
  let f ← Staged.op c .ok f
  let f ← if s.config.regularize then do
      let rms ← kwargs.get (SplineModel.rmsKey s.base)
      let a ← Staged.pair c rms f
      Staged.op c (fun a => .ok (a.2.map (· * SplineModel.rmsFactor a.1 a.2))) a
    else .ok f
  let xs ← s.xkeys.mapM kwargs.get
  let x ← Staged.list c xs
  let x ← Staged.op c .ok x
  return (f, x)

/-- `p_x *= r` (`interped.py:231`). -/
def timesInPlace (c : Ctx E) (px r : Staged E (List Fl)) : Except PyErr (Staged E (List Fl)) := do
  let a ← Staged.pair c px r
  Staged.op c (fun a => SplineModel.inplaceMul .jax a.1 a.2) a

/-- `xp.ones(xp.shape(dataset[self.parameters[0]]))` (`interped.py:228`). -/
def ones (c : Ctx E) (s : StagedSpline E) (dataset : Dict (Staged E (List Fl))) :
    Except PyErr (Staged E (List Fl)) := do
  let values ← dataset.get (s.config.parameters.headD "")
  Staged.op c (fun l => .ok (l.map fun _ => 1)) values

/-- The division by the normalisation (`interped.py:235-236`). -/
def normalise (c : Ctx E) (rule : SplineRule) (s : StagedSpline E) (f x px : Staged E (List Fl))
    (n : ℕ) : Except PyErr (Staged E (List Fl)) := do
  let norm ← normPX c rule s f x
  let a ← Staged.pair c px norm
  Staged.op c (fun a => .ok (a.1.map (· / a.2 ^ n))) a

/-- The loop over the parameters of `p_x_identical` (`interped.py:230-233`). -/
def parameterLoop (c : Ctx E) (rule : SplineRule) (dataset : Dict (Staged E (List Fl)))
    (x f : Staged E (List Fl)) :
    List String → Staged E (List Fl) → StagedSpline E →
      Except PyErr (Staged E (List Fl)) × StagedSpline E
  | [], px, s => (.ok px, s)
  | param :: params, px, s =>
    match pXUnnormed c rule s dataset param x f with
    | (.error e, s1) => (.error e, s1)
    | (.ok r, s1) =>
      match timesInPlace c px r with
      | .error e => (.error e, s1)
      | .ok px1 => parameterLoop c rule dataset x f params px1 s1

/-- `p_x_identical` and `__call__` (`interped.py:94-98`, `:207-237`). Returns the outcome and the
instance afterwards. -/
def call (c : Ctx E) (rule : SplineRule) (s : StagedSpline E) (dataset : Dict (Staged E (List Fl)))
    (kwargs : Dict (Staged E Fl)) : Except PyErr (Staged E (List Fl)) × StagedSpline E :=
  match s.inferNodes c kwargs with
  | .error e => (.error e, s)
  | .ok s =>
    match s.extractSplinePoints c kwargs with
    | .error e => (.error e, s)
    | .ok (f, x) =>
      match s.ones c dataset with
      | .error e => (.error e, s)
      | .ok px =>
        match parameterLoop c rule dataset x f s.config.parameters px s with
        | (.error e, s1) => (.error e, s1)
        | (.ok px, s1) => (s1.normalise c rule f x px s.config.parameters.length, s1)

end StagedSpline

/-- The arguments of a call of a spline model: the dataset and the keyword arguments. -/
abbrev SplineArgs := Dict (List Fl) × Dict Fl

/-- What `jax.jit` compares to decide whether to trace again: the names of the arguments and the
lengths of the arrays. -/
def splineSignature (e : SplineArgs) : (String → Option ℕ) × (String → Bool) :=
  (fun k => (Dict.get? e.1 k).map List.length, fun k => (Dict.get? e.2 k).isSome)

/-- The arguments of an ordinary call. -/
def knownDict {E α : Type} (d : Dict α) : Dict (Staged E α) := d.map fun p => (p.1, .known p.2)

/-- The dataset of a traced call. -/
def tracedData (t : ℕ) (d : Dict (List Fl)) : Dict (Staged SplineArgs (List Fl)) :=
  d.map fun p => (p.1, .tracer t fun e => Dict.get e.1 p.1)

/-- The keyword arguments of a traced call. -/
def tracedKwargs (t : ℕ) (d : Dict Fl) : Dict (Staged SplineArgs Fl) :=
  d.map fun p => (p.1, .tracer t fun e => Dict.get e.2 p.1)

/-- A process with a spline model `model` and the function `jax.jit(model)`. -/
structure SplineProcess where
  model : StagedSpline SplineArgs
  /-- the recorded computations, by signature -/
  compiled : List (((String → Option ℕ) × (String → Bool)) × (SplineArgs → Except PyErr (List Fl)))
  /-- number of traces made so far -/
  traces : ℕ

namespace SplineProcess

/-- `model(dataset, **kwargs)`. -/
def callEager (rule : SplineRule) (p : SplineProcess) (e : SplineArgs) :
    Except PyErr (List Fl) × SplineProcess :=
  let r := p.model.call .eager rule (knownDict e.1) (knownDict e.2)
  (r.1 >>= Staged.toNumpy, { p with model := r.2 })

/-- `jax.jit(model)(dataset, **kwargs)`. -/
def callCompiled (rule : SplineRule) (p : SplineProcess) (e : SplineArgs) :
    Except PyErr (List Fl) × SplineProcess :=
  match p.compiled.find? (fun q => q.1 = splineSignature e) with
  | some q => (q.2 e, p)
  | none =>
    let c := Ctx.tracing p.traces e
    let r := p.model.call c rule (tracedData p.traces e.1) (tracedKwargs p.traces e.2)
    let p1 := { p with model := r.2, traces := p.traces + 1 }
    match r.1 >>= Staged.read c with
    | .error err => (.error err, p1)
    | .ok f => (f e, { p1 with compiled := (splineSignature e, f) :: p1.compiled })

/-- A call of either kind. -/
def step (rule : SplineRule) (p : SplineProcess) (jit : Bool) (e : SplineArgs) :
    Except PyErr (List Fl) × SplineProcess :=
  if jit then p.callCompiled rule e else p.callEager rule e

/-- The outcomes of a sequence of calls, each compiled or not, on one instance. -/
def outcomes (rule : SplineRule) (p : SplineProcess) :
    List (Bool × SplineArgs) → List (Except PyErr (List Fl))
  | [] => []
  | (jit, e) :: rest => (p.step rule jit e).1 :: outcomes rule (p.step rule jit e).2 rest

end SplineProcess

/-! ### Smoothed mass distributions -/

/-- An instance of `BaseSmoothedMassDistribution` or of a subclass (`mass.py:562-570`) in a process that
uses `jax.jit`. The attributes set by the constructor are those of `base`; `base.qMasses` is not used. -/
structure StagedSmoothed (E : Type) where
  base : Smoothed
  /-- `self._q_interpolant`: the coefficient array and the masses it was created for -/
  interpolant : Option (Staged E Unit × Staged E (List Fl))

namespace StagedSmoothed

variable {E : Type}

/-- `_cache_q_norms` (`mass.py:648-657`). -/
def cacheQNorms (c : Ctx E) (s : StagedSmoothed E) (masses : Staged E (List Fl)) :
    Except PyErr (StagedSmoothed E) := do
  let conversion ← Staged.op c (fun _ => .ok ()) (.known ())
  let values ← Staged.op c .ok masses
  return { s with interpolant := some (conversion, values) }

/-- `norm_p_q` (`mass.py:635-646`) with the arguments `(beta, mmin, delta_m)`. -/
def normPQ (c : Ctx E) (s : StagedSmoothed E) (args : Staged E (Fl × Fl × Fl)) :
    Except PyErr (Staged E (List Fl)) := do
  let norms ← Staged.op c (fun a => Smoothed.qNorms .jax s.base a.1 a.2.1 a.2.2) args
  match s.interpolant with
  | none => .error .attributeError
  | some (conversion, values) =>
    let a ← Staged.pair c conversion values
    let a ← Staged.pair c a norms
    Staged.op c (fun a => .ok (a.1.2.map (interpLinear s.base.m1s a.2))) a

/-- `p_q /= self.norm_p_q(...)`. -/
def divideByNorm (c : Ctx E) (s : StagedSmoothed E) (pq : Staged E (List Fl))
    (args : Staged E (Fl × Fl × Fl)) : Except PyErr (Staged E (List Fl)) := do
  let norm ← s.normPQ c args
  let a ← Staged.pair c pq norm
  Staged.op c (fun a => Smoothed.inplaceDiv .jax a.1 a.2) a

/-- The body of the `try` statement (`mass.py:623-628`). -/
def tryBody (c : Ctx E) (s : StagedSmoothed E) (masses pq : Staged E (List Fl))
    (args : Staged E (Fl × Fl × Fl)) : Except PyErr (Staged E (List Fl)) × StagedSmoothed E :=
  if s.base.cache then (s.divideByNorm c pq args, s)
  else match s.cacheQNorms c masses with
    | .error e => (.error e, s)
    | .ok s1 => (s1.divideByNorm c pq args, s1)

/-- The `except` clause (`mass.py:629-631`). -/
def handler (c : Ctx E) (s : StagedSmoothed E) (masses pq : Staged E (List Fl))
    (args : Staged E (Fl × Fl × Fl)) : Except PyErr (Staged E (List Fl)) × StagedSmoothed E :=
  match s.cacheQNorms c masses with
  | .error e => (.error e, s)
  | .ok s1 => (s1.divideByNorm c pq args, s1)

/-- The unnormalised mass-ratio distribution (`mass.py:615-621`) with the arguments
`(beta, mmin, delta_m)`. -/
def rawPQ (c : Ctx E) (data : Staged E (List (Fl × Fl))) (args : Staged E (Fl × Fl × Fl)) :
    Except PyErr (Staged E (List Fl)) := do
  let a ← Staged.pair c data args
  Staged.op c (fun a => a.1.mapM fun d => Smoothed.pQRaw .jax a.2.1 a.2.2.1 a.2.2.2 d.1 d.2) a

/-- `dataset["mass_1"]`. -/
def masses : Staged E (List (Fl × Fl)) → Staged E (List Fl)
  | .known l => .known (l.map Prod.fst)
  | .tracer t f => .tracer t fun e => do
    let l ← f e
    return l.map Prod.fst

/-- `p_q` (`mass.py:614-633`). Returns the outcome and the instance afterwards. -/
def pQ (c : Ctx E) (s : StagedSmoothed E) (data : Staged E (List (Fl × Fl)))
    (args : Staged E (Fl × Fl × Fl)) : Except PyErr (Staged E (List Fl)) × StagedSmoothed E :=
  match rawPQ c data args with
  | .error e => (.error e, s)
  | .ok pq =>
    match s.tryBody c (masses data) pq args with
    | (.ok r, s1) => (Staged.op c (fun l => .ok (l.map nanToNum)) r, s1)
    | (.error e, s1) =>
      if Smoothed.caught e then
        let r := s1.handler c (masses data) pq args
        (r.1 >>= Staged.op c (fun l => .ok (l.map nanToNum)), r.2)
      else (.error e, s1)

/-- The arguments `(beta, mmin, delta_m)` of `p_q` (`mass.py:573-574`, `:586-588`). -/
def qArgs (c : Ctx E) (s : StagedSmoothed E) (beta : Staged E Fl) (kwargs : Dict (Staged E Fl)) :
    Except PyErr (Staged E (Fl × Fl × Fl)) := do
  let a ← Staged.pair c ((Dict.get? kwargs "mmin").getD (.known (fin s.base.mmin)))
    ((Dict.get? kwargs "delta_m").getD (.known 0))
  Staged.pair c beta a

/-- The keyword arguments of `p_m1` as one operand. -/
def kwOperand (c : Ctx E) (kwargs : Dict (Staged E Fl)) : Except PyErr (Staged E (Dict Fl)) := do
  let vs ← Staged.list c (kwargs.map Prod.snd)
  match vs with
  | .known l => .ok (.known (kwargs.keys.zip l))
  | .tracer t f => .ok (.tracer t fun e => do
      let l ← f e
      return kwargs.keys.zip l)

/-- `p_m1` (`mass.py:591-599`) as called at `mass.py:587`. -/
def pM1 (c : Ctx E) (s : StagedSmoothed E) (data : Staged E (List (Fl × Fl)))
    (kwargs : Dict (Staged E Fl)) : Except PyErr (Staged E (List Fl)) := do
  let kw ← kwOperand c kwargs
  let a ← Staged.pair c data kw
  Staged.op c (fun a => Smoothed.pM1 .jax s.base (a.1.map Prod.fst) (a.2 ++ s.base.fixed)) a

/-- `p_m1 * p_q` (`mass.py:588`). -/
def times (c : Ctx E) (pm pq : Staged E (List Fl)) : Except PyErr (Staged E (List Fl)) := do
  let a ← Staged.pair c pm pq
  Staged.op c (fun a => Smoothed.broadcast .jax (· * ·) a.1 a.2) a

/-- `__call__` (`mass.py:572-589`). Returns the outcome and the instance afterwards. -/
def call (c : Ctx E) (s : StagedSmoothed E) (data : Staged E (List (Fl × Fl)))
    (kwargs : Dict (Staged E Fl)) : Except PyErr (Staged E (List Fl)) × StagedSmoothed E :=
  match Dict.get? kwargs "beta" with
  | none => (.error (.keyError "beta"), s)
  | some beta =>
    let kwargs := Dict.erase kwargs "beta"
    if ∃ k ∈ Dict.keys kwargs, k ∈ Dict.keys s.base.fixed then (.error .typeError, s)
    else
      match s.pM1 c data kwargs with
      | .error e => (.error e, s)
      | .ok pm =>
        match s.qArgs c beta kwargs with
        | .error e => (.error e, s)
        | .ok args =>
          match s.pQ c data args with
          | (.error e, s') => (.error e, s')
          | (.ok pq, s') => (times c pm pq, s')

end StagedSmoothed

/-- The arguments of a call of a smoothed mass model: the dataset and the keyword arguments. -/
abbrev SmoothedArgs := List (Fl × Fl) × Dict Fl

/-- What `jax.jit` compares to decide whether to trace again. -/
def smoothedSignature (e : SmoothedArgs) : ℕ × List String := (e.1.length, Dict.keys e.2)

/-- A process with a smoothed mass model `model` and the function `jax.jit(model)`. -/
structure SmoothedProcess where
  model : StagedSmoothed SmoothedArgs
  /-- the recorded computations, by signature -/
  compiled : List ((ℕ × List String) × (SmoothedArgs → Except PyErr (List Fl)))
  /-- number of traces made so far -/
  traces : ℕ

namespace SmoothedProcess

/-- `model(dataset, **kwargs)`. -/
def callEager (p : SmoothedProcess) (e : SmoothedArgs) : Except PyErr (List Fl) × SmoothedProcess :=
  let r := p.model.call .eager (.known e.1) (knownDict e.2)
  (r.1 >>= Staged.toNumpy, { p with model := r.2 })

/-- `jax.jit(model)(dataset, **kwargs)`. -/
def callCompiled (p : SmoothedProcess) (e : SmoothedArgs) :
    Except PyErr (List Fl) × SmoothedProcess :=
  match p.compiled.find? (fun q => q.1 = smoothedSignature e) with
  | some q => (q.2 e, p)
  | none =>
    let c := Ctx.tracing p.traces e
    let r := p.model.call c (.tracer p.traces fun e => .ok e.1)
      (e.2.map fun q => (q.1, .tracer p.traces fun e => Dict.get e.2 q.1))
    let p1 := { p with model := r.2, traces := p.traces + 1 }
    match r.1 >>= Staged.read c with
    | .error err => (.error err, p1)
    | .ok f => (f e, { p1 with compiled := (smoothedSignature e, f) :: p1.compiled })

/-- A call of either kind. -/
def step (p : SmoothedProcess) (jit : Bool) (e : SmoothedArgs) :
    Except PyErr (List Fl) × SmoothedProcess :=
  if jit then p.callCompiled e else p.callEager e

/-- The outcomes of a sequence of calls, each compiled or not, on one instance. -/
def outcomes (p : SmoothedProcess) : List (Bool × SmoothedArgs) → List (Except PyErr (List Fl))
  | [] => []
  | (jit, e) :: rest => (p.step jit e).1 :: outcomes (p.step jit e).2 rest

/-- The process after a sequence of calls. -/
def run (p : SmoothedProcess) : List (Bool × SmoothedArgs) → SmoothedProcess
  | [] => p
  | (jit, e) :: rest => run (p.step jit e).2 rest

end SmoothedProcess

end GW
