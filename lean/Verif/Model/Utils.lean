import Verif.Py
import Verif.Num.Arr
import Mathlib.Probability.CDF
import Mathlib.Probability.Distributions.Gaussian.Real
import Mathlib.Probability.Distributions.Beta

/-!
# Model of `gwpopulation/utils.py`
-/

noncomputable section

open Classical MeasureTheory

namespace GW

open Fl

/-! ## External special functions (scipy.special) -/

/-- Standard normal cumulative distribution function on the reals. -/
def stdNormalCDF (x : ℝ) : ℝ := (ProbabilityTheory.gaussianReal 0 1).real (Set.Iic x)

/-- `scipy.special.ndtr`. -/
def ndtr : Fl → Fl
  | .fin x => .fin (stdNormalCDF x)
  | .pinf => .fin 1
  | .ninf => .fin 0
  | .nan => .nan

/-- `scipy.special.log_ndtr` (exact: the logarithm of `ndtr`). -/
def logNdtr (x : Fl) : Fl := Fl.log (ndtr x)

/-- `numpy.log1p`. -/
def log1p (x : Fl) : Fl := Fl.log (1 + x)

/-- `scipy.special.betaln` for positive finite arguments: the logarithm of the Beta function.
Simplification: for arguments that are not both positive and finite, scipy returns assorted
inf/NaN/finite values; the model leaves them to the arbitrary function `junk` so that nothing
can be proved from them. -/
def betaln (junk : Fl → Fl → Fl) : Fl → Fl → Fl
  | .fin a, .fin b =>
      if 0 < a ∧ 0 < b then .fin (Real.log (ProbabilityTheory.beta a b)) else junk (.fin a) (.fin b)
  | a, b => junk a b

/-- The modified Bessel function `I0(k) = (1/pi) * integral_0^pi exp(k cos t) dt`. -/
def besselI0 (k : ℝ) : ℝ := (∫ t in (0 : ℝ)..Real.pi, Real.exp (k * Real.cos t)) / Real.pi

/-- `scipy.special.i0e(k) = exp(-|k|) I0(k)`; the limit at infinity is 0. -/
def i0e : Fl → Fl
  | .fin k => .fin (Real.exp (-|k|) * besselI0 k)
  | .pinf => .fin 0
  | .ninf => .fin 0
  | .nan => .nan

/-! ## `apply_conditions` -/

/-- A condition as in the argument of `apply_conditions` (`utils.py:20-29`): a callable, a
pair of a comparison operator and a value, or a pair whose operator is not callable. -/
inductive Cond where
  | callable (p : List Fl → Prop)
  | opVal (op : Fl → Fl → Prop) (v : Fl)
  | badOp (v : Fl)

/-- One iteration of the loop body of `wrapped_function`, `utils.py:38-56`.
`xp.all` ranges over all elements of the value. -/
def Cond.check (c : Cond) (value : List Fl) : Except PyErr Unit :=
  match c with
  | .callable p => if ¬ p value then .error .valueError else .ok ()
  | .opVal op v => if ¬ (∀ x ∈ value, op x v) then .error .valueError else .ok ()
  | .badOp _ => .error .valueError

/-- The loop over `conditions.items()`, `utils.py:38-56`. -/
def checkConditions (kwargs : Dict (List Fl)) : List (String × Cond) → Except PyErr Unit
  | [] => .ok ()
  | (key, c) :: rest =>
    match Dict.get? kwargs key with
    | some value => do c.check value; checkConditions kwargs rest
    | none => checkConditions kwargs rest

/-- `apply_conditions`, `utils.py:14-60`: the wrapped call. On jax the function is called
directly; otherwise the keyword arguments are checked first. `xp.asarray(value)` for cupy has
no effect on the check. The `body` is the result of calling the undecorated function. -/
def applyConditions {β : Type} (b : Backend) (conds : List (String × Cond))
    (kwargs : Dict (List Fl)) (body : Except PyErr β) : Except PyErr β :=
  if b = .jax then body
  else do checkConditions kwargs conds; body

/-- `operator.gt`. -/
def opGt (x v : Fl) : Prop := v < x
/-- `operator.ge`. -/
def opGe (x v : Fl) : Prop := v ≤ x
/-- `operator.ne` (true for NaN). -/
def opNe (x v : Fl) : Prop := ¬ eqf x v

/-! ## Densities -/

/-- Body of `beta_dist`, `utils.py:87-94` (element-wise). -/
def betaDistBody (junk : Fl → Fl → Fl) (xx alpha beta scale : Fl) : Fl :=
  let lnBeta := (alpha - 1) * Fl.log xx + (beta - 1) * Fl.log (scale - xx)
  let lnBeta := lnBeta - betaln junk alpha beta
  let lnBeta := lnBeta - (alpha + beta - 1) * Fl.log scale
  let prob := Fl.exp lnBeta
  let prob := nanToNum prob
  prob * (ind (0 ≤ xx) * ind (xx ≤ scale))

/-- `beta_dist`, `utils.py:63-94`. -/
def betaDist (junk : Fl → Fl → Fl) (b : Backend) (xx alpha beta scale : Arg) : Except PyErr Fl :=
  applyConditions b [("alpha", .opVal opGt 0), ("beta", .opVal opGt 0), ("scale", .opVal opGt 0)]
    (kwargsOf [("xx", xx), ("alpha", alpha), ("beta", beta), ("scale", scale)])
    (.ok (betaDistBody junk xx.val alpha.val beta.val scale.val))

/-- Body of `powerlaw`, `utils.py:121-130` (element-wise in `xx`). Both arms of `xp.where` are
evaluated. `py` says that `alpha`, `high`, `low` are Python floats (then `high / low` and `**`
can raise `ZeroDivisionError`); `py = false` is the numpy-scalar / array case. -/
def powerlawBody (py : Bool) (xx alpha high low : Fl) : Except PyErr Fl := do
  let ratio ← pyDiv py high low
  let ph ← pyPow py high (1 + alpha)
  let pl ← pyPow py low (1 + alpha)
  let norm := if eqf alpha (-1) then 1 / Fl.log ratio else (1 + alpha) / (ph - pl)
  let prob := Fl.pow xx alpha
  let prob := prob * norm
  let prob := prob * ind (xx ≤ high ∧ low ≤ xx)
  pure prob

/-- `powerlaw`, `utils.py:97-130`. -/
def powerlaw (b : Backend) (py : Bool) (xx alpha high low : Arg) : Except PyErr Fl :=
  applyConditions b [("low", .opVal opGe 0), ("alpha", .opVal opNe 1)]
    (kwargsOf [("xx", xx), ("alpha", alpha), ("high", high), ("low", low)])
    (powerlawBody py xx.val alpha.val high.val low.val)

/-- `logsubexp`, `utils.py:160-161`. -/
def logsubexp (logP logQ : Fl) : Fl := logP + Fl.log (1 - Fl.exp (logQ - logP))

/-- Body of `truncnorm`, `utils.py:160-183` (element-wise). `xp.select` takes the first branch
whose condition holds, NaN if none. -/
def truncnormBody (xx mu sigma high low : Fl) : Fl :=
  let zz := (xx - mu) / sigma
  let aa := (low - mu) / sigma
  let bb := (high - mu) / sigma
  let logPdf := -(zz ^ 2) / 2 - Fl.log (2 * fin Real.pi) / 2 - Fl.log sigma
  let logNorm :=
    if bb ≤ 0 then logsubexp (logNdtr bb) (logNdtr aa)
    else if 0 < aa then logsubexp (logNdtr (-aa)) (logNdtr (-bb))
    else if 0 < bb then log1p (-(ndtr aa) - ndtr (-bb))
    else nan
  let logPdf := logPdf - logNorm
  nanToNum (Fl.exp logPdf) * ind (low ≤ xx) * ind (xx ≤ high)

/-- `truncnorm`, `utils.py:133-183`. -/
def truncnorm (b : Backend) (xx mu sigma high low : Arg) : Except PyErr Fl :=
  applyConditions b [("sigma", .opVal opGt 0)]
    (kwargsOf [("xx", xx), ("mu", mu), ("sigma", sigma), ("high", high), ("low", low)])
    (.ok (truncnormBody xx.val mu.val sigma.val high.val low.val))

/-- `unnormalized_2d_gaussian`, `utils.py:186-228` (element-wise). -/
def unnormalized2dGaussian (xx yy muX muY sigmaX sigmaY covariance : Fl) : Fl :=
  let determinant := sigmaX ^ 2 * sigmaY ^ 2 * (1 - covariance)
  let residualX := (muX - xx) * sigmaY
  let residualY := (muY - yy) * sigmaX
  Fl.exp (-(residualX ^ 2 + residualY ^ 2 - 2 * residualX * residualY * covariance) / 2 / determinant)

/-- `von_mises`, `utils.py:231-258` (element-wise). -/
def vonMises (xx mu kappa : Fl) : Fl :=
  Fl.exp (kappa * (Fl.cos (xx - mu) - 1)) / (2 * fin Real.pi * i0e kappa)

/-! ## Small helpers -/

/-- What `get_name` can observe of an object: its `__name__` attribute if it has one, and the
name of its class. -/
structure PyObjName where
  /-- `input.__name__`, if present -/
  name : Option String
  /-- `input.__class__.__name__` -/
  className : String

/-- `get_name`, `utils.py:261-278`. -/
def getName (o : PyObjName) : String :=
  match o.name with
  | some n => n
  | none => o.className

/-- `to_number`, `utils.py:281-296`: `astype` is the jax method, `func` the conversion. -/
def toNumber {α β : Type} (b : Backend) (astype : α → β) (func : α → β) (value : α) : β :=
  if b = .jax then astype value else func value

/-- What `to_numpy` looks at: whether the object is a Python number or numpy array, and the
module of its class. -/
structure PyObjKind where
  /-- `isinstance(array, (Number, np.ndarray))` -/
  numberOrNdarray : Bool
  /-- `array.__class__.__module__` contains "cupy" -/
  cupy : Bool
  /-- ... contains "pandas" -/
  pandas : Bool
  /-- ... contains "jax" -/
  jax : Bool

/-- The possible outcomes of `to_numpy`. -/
inductive ToNumpyAction where
  | unchanged
  | cupyAsnumpy
  | npAsarray
  deriving DecidableEq

/-- `to_numpy`, `utils.py:299-318`. `xp.asnumpy` exists only in cupy; with another active
backend the attribute access raises `AttributeError`. -/
def toNumpy (b : Backend) (k : PyObjKind) : Except PyErr ToNumpyAction :=
  if k.numberOrNdarray then .ok .unchanged
  else if k.cupy then (if b = .cupy then .ok .cupyAsnumpy else .error .attributeError)
  else if k.pandas then .ok .unchanged
  else if k.jax then .ok .npAsarray
  else .error .typeError

/-- Which integration routines the active array module offers. -/
structure XpCaps where
  /-- `hasattr(xp, "trapezoid")` -/
  hasTrapezoid : Bool
  /-- `hasattr(xp, "trapz")` -/
  hasTrapz : Bool
  /-- what arithmetic with arrays that do not fit together raises: `TypeError` if `xp` is `jax.numpy`, else
  `ValueError` -/
  mismatch : PyErr

/-- `xp.diff(x)`. -/
def gridSteps (x : List Fl) : List Fl := List.zipWith (fun x1 x0 => x1 - x0) x.tail x

/-- `y[1:] + y[:-1]`. -/
def neighbourSums (y : List Fl) : List Fl := List.zipWith (fun y1 y0 => y1 + y0) y.tail y

/-- `xp.trapezoid(y, x=x)` for 1-d arrays of any lengths: the sum of `diff(x) * (y[1:] + y[:-1]) / 2`, in which an array
of length 1 is repeated and any other difference of lengths is an error. -/
def trapzOf (mismatch : PyErr) (y x : List Fl) : Except PyErr Fl :=
  if (gridSteps x).length = (neighbourSums y).length then .ok (Arr.trapz y x)
  else match gridSteps x, neighbourSums y with
    | [d], s => .ok (s.map fun v => d * v / 2).sum
    | d, [v] => .ok (d.map fun d => d * v / 2).sum
    | _, _ => .error mismatch

/-- `trapezoid`, `utils.py:321-348`, for 1-d `y`. `x = none` means uniform spacing `dx`.
`xp.trapezoid` and `xp.trapz` are the same function under two names. -/
def trapezoid (caps : XpCaps) (y : List Fl) (x : Option (List Fl)) (dx : Fl) : Except PyErr Fl :=
  let integrate := match x with
    | some x => trapzOf caps.mismatch y x
    | none => .ok (Arr.trapzDx dx y)
  if caps.hasTrapezoid then integrate
  else if caps.hasTrapz then integrate
  else .error .notImplemented

end GW
