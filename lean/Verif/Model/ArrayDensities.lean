import Verif.Model.Utils
import Verif.Model.Smoothed
import Verif.Num.NArr

/-!
# Densities as functions of arrays

The functions of `utils.py` and the mass, spin and redshift models built from them, on arrays of any shape and data
type, statement by statement. The element-wise models are in `Model/Utils.lean` and so on.
-/

noncomputable section

open Classical

namespace GW

open Fl NArr

/-- An array argument of a call together with the way it is passed. -/
structure AArg where
  /-- the value -/
  val : NArr
  /-- passed by keyword? -/
  kw : Bool

/-- The keyword arguments among the arguments, each as the list of its elements. -/
def akwargs (l : List (String × AArg)) : Dict (List Fl) :=
  (l.filter fun p => p.2.kw).map fun p => (p.1, p.2.val.elements)

/-- `2.0`, `np.log(2.0 * np.pi) / 2.0`, ...: a Python float. -/
abbrev lit (x : ℝ) : NArr := pyFloat (fin x)

/-- Body of `powerlaw` (`utils.py:121-130`). -/
def powerlawArr (b : Backend) (xx alpha high low : NArr) : Except PyErr NArr := do
  let cond ← NArr.eq b (array alpha) (pyInt (-1))
  let ratio ← div b high low
  let first ← div b (pyInt 1) (fn b Fl.log ratio)
  let index ← add b (pyInt 1) alpha
  let ph ← pow b high (← add b (pyInt 1) alpha)
  let pl ← pow b low (← add b (pyInt 1) alpha)
  let second ← div b index (array (← sub b ph pl))
  let norm ← where_ cond first second
  let prob ← power b xx alpha
  let prob ← assign b (· * ·) prob norm
  let mask ← NArr.and b (← le b xx high) (← le b low xx)
  assign b (· * ·) prob mask

/-- `powerlaw` (`utils.py:97-130`). -/
def powerlawA (b : Backend) (xx alpha high low : AArg) : Except PyErr NArr :=
  applyConditions b [("low", .opVal opGe 0), ("alpha", .opVal opNe 1)]
    (akwargs [("xx", xx), ("alpha", alpha), ("high", high), ("low", low)])
    (powerlawArr b xx.val alpha.val high.val low.val)

/-- `logsubexp` (`utils.py:160-161`). -/
def logsubexpArr (b : Backend) (logP logQ : NArr) : Except PyErr NArr := do
  add b logP (fn b Fl.log (← sub b (pyInt 1) (fn b Fl.exp (← sub b logQ logP))))

/-- Body of `truncnorm` (`utils.py:160-183`). -/
def truncnormArr (b : Backend) (xx mu sigma high low : NArr) : Except PyErr NArr := do
  let zz ← div b (array (← sub b xx mu)) sigma
  let aa ← div b (array (← sub b low mu)) sigma
  let bb ← div b (array (← sub b high mu)) sigma
  let square ← pow b zz (pyInt 2)
  let logPdf ← sub b (← div b (neg b square) (lit 2)) (← div b (pyFloat (Fl.log (2 * fin Real.pi))) (lit 2))
  let logPdf ← sub b logPdf (fn b Fl.log sigma)
  let c1 ← le b bb (pyInt 0)
  let c2 ← lt b (pyInt 0) aa
  let c3 ← lt b (pyInt 0) bb
  let v1 ← logsubexpArr b (fn b logNdtr bb) (fn b logNdtr aa)
  let v2 ← logsubexpArr b (fn b logNdtr (neg b aa)) (fn b logNdtr (neg b bb))
  let v3 ← sub b (neg b (fn b ndtr aa)) (fn b ndtr (neg b bb))
  let logNorm ← select [(c1, v1), (c2, v2), (c3, fn b log1p v3)] (pyFloat nan)
  let logPdf ← assign b (· - ·) logPdf logNorm
  let prob ← mul b (fn b nanToNum (fn b Fl.exp logPdf)) (← le b low xx)
  mul b prob (← le b xx high)

/-- `truncnorm` (`utils.py:133-183`). -/
def truncnormA (b : Backend) (xx mu sigma high low : AArg) : Except PyErr NArr :=
  applyConditions b [("sigma", .opVal opGt 0)]
    (akwargs [("xx", xx), ("mu", mu), ("sigma", sigma), ("high", high), ("low", low)])
    (truncnormArr b xx.val mu.val sigma.val high.val low.val)

/-- Body of `beta_dist` (`utils.py:87-94`). -/
def betaDistArr (junk : Fl → Fl → Fl) (b : Backend) (xx alpha beta scale : NArr) : Except PyErr NArr := do
  let t1 ← mul b (← sub b alpha (pyInt 1)) (fn b Fl.log xx)
  let t2 ← mul b (← sub b beta (pyInt 1)) (fn b Fl.log (← sub b scale xx))
  let lnBeta ← add b t1 t2
  let lnBeta ← assign b (· - ·) lnBeta (← fn2 b (betaln junk) alpha beta)
  let lnBeta ← assign b (· - ·) lnBeta
    (← mul b (← sub b (← add b alpha beta) (pyInt 1)) (fn b Fl.log scale))
  let prob := fn b Fl.exp lnBeta
  let prob := fn b nanToNum prob
  assign b (· * ·) prob (← mul b (← le b (pyInt 0) xx) (← le b xx scale))

/-- `beta_dist` (`utils.py:63-94`). -/
def betaDistA (junk : Fl → Fl → Fl) (b : Backend) (xx alpha beta scale : AArg) : Except PyErr NArr :=
  applyConditions b [("alpha", .opVal opGt 0), ("beta", .opVal opGt 0), ("scale", .opVal opGt 0)]
    (akwargs [("xx", xx), ("alpha", alpha), ("beta", beta), ("scale", scale)])
    (betaDistArr junk b xx.val alpha.val beta.val scale.val)

/-- `von_mises` (`utils.py:231-258`). -/
def vonMisesArr (b : Backend) (xx mu kappa : NArr) : Except PyErr NArr := do
  let c ← sub b (fn b Fl.cos (← sub b xx mu)) (pyInt 1)
  let d ← mul b (pyFloat (2 * fin Real.pi)) (fn b i0e kappa)
  div b (fn b Fl.exp (← mul b kappa c)) d

/-- `unnormalized_2d_gaussian` (`utils.py:186-228`). -/
def unnormalized2dGaussianArr (b : Backend) (xx yy muX muY sigmaX sigmaY covariance : NArr) :
    Except PyErr NArr := do
  let determinant ← mul b (← mul b (← pow b sigmaX (pyInt 2)) (← pow b sigmaY (pyInt 2)))
    (← sub b (pyInt 1) covariance)
  let residualX ← mul b (← sub b muX xx) sigmaY
  let residualY ← mul b (← sub b muY yy) sigmaX
  let cross ← mul b (← mul b (← mul b (pyInt 2) residualX) residualY) covariance
  let sum ← sub b (← add b (← pow b residualX (pyInt 2)) (← pow b residualY (pyInt 2))) cross
  return fn b Fl.exp (← div b (← div b (neg b sum) (pyInt 2)) determinant)

end GW
