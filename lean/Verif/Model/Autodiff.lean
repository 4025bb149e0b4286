import Verif.Model.Smoothed
import Verif.Model.Redshift

/-!
# Model of reverse-mode differentiation of the densities by jax

With the jax backend (`backend.py:79-101`) the population functions are traced: calling them with
tracers records which array operations they perform, and `jax.grad` applies the derivative rule of
each operation, from the result back to the arguments. The samplers that
`experimental/numpyro.py:13-102` is written for follow these gradients. `Ex` is a recorded computation
at one element of the data, `Ex.eval` its value and `Ex.back` the backward pass.

The derivative rules are those of jax (`jax/_src/lax/lax.py`, `jax/_src/numpy`): `select` sends the
cotangent to the chosen operand and 0 to the other; comparisons have no derivative; `nan_to_num`
is a `select`; `maximum`/`minimum` share the cotangent when the operands are equal.
Arithmetic on cotangents is float arithmetic, so `0 * inf` is NaN. Simplifications: no rounding; a value used
several times receives its cotangents one by one (jax adds them up first); at points where the
derivative does not exist the rules of `pow` are those for positive bases.
-/

noncomputable section

open Classical

namespace GW

open Fl

/-- The standard normal density. -/
def normalPdf : Fl → Fl
  | .fin x => .fin (Real.exp (-(x ^ 2 / 2)) / Real.sqrt (2 * Real.pi))
  | .pinf => .fin 0
  | .ninf => .fin 0
  | .nan => .nan

/-- Array operations with one operand. `nanToNumInf` is `nan_to_num(_, nan=0, posinf=inf)` (`vt.py:205`). -/
inductive UnOp where
  | neg | log | exp | log1p | expit | ndtr | logNdtr | square | nanToNum | nanToNumInf

/-- Array operations with two operands. `betaln junk junkL junkR`: value and derivatives for
arguments that are not positive numbers are arbitrary. -/
inductive BinOp where
  | add | sub | mul | div | pow | maximum | minimum
  | betaln (junk junkL junkR : Fl → Fl → Fl)

/-- Comparisons. -/
inductive CmpOp where
  | lt | le | eq | ne

/-- A recorded computation: constants (including the data), hyper-parameters, operations, a comparison
used as a number, and `where(x c y, t, e)`. -/
inductive Ex where
  | const (c : Fl)
  | arg (name : String)
  | un (o : UnOp) (x : Ex)
  | bin (o : BinOp) (x y : Ex)
  | mask (c : CmpOp) (x y : Ex)
  | sel (c : CmpOp) (x y t e : Ex)

/-- The value of an operation. -/
def UnOp.val : UnOp → Fl → Fl
  | neg, x => -x
  | log, x => Fl.log x
  | exp, x => Fl.exp x
  | log1p, x => GW.log1p x
  | expit, x => GW.expit x
  | ndtr, x => GW.ndtr x
  | logNdtr, x => GW.logNdtr x
  | square, x => x ^ 2
  | nanToNum, x => Fl.nanToNum x
  | nanToNumInf, x => nanToNumWith 0 pinf (fin (-bigR)) x

/-- The cotangent of the operand `x`, given the one of the result. -/
def UnOp.back : UnOp → Fl → Fl → Fl
  | neg, _, ct => -ct
  | log, x, ct => ct / x
  | exp, x, ct => ct * Fl.exp x
  | log1p, x, ct => ct / (x + 1)
  | expit, x, ct => ct * GW.expit x * (1 - GW.expit x)
  | ndtr, x, ct => ct * normalPdf x
  | logNdtr, x, ct => ct * (normalPdf x / GW.ndtr x)
  | square, x, ct => ct * (2 * x)
  | nanToNum, x, ct => if x.isFinite then ct else 0
  | nanToNumInf, x, ct => if x.isFinite then ct else 0

/-- `jnp.maximum`; NaN if an operand is. -/
def flMax (x y : Fl) : Fl := if x.isNan ∨ y.isNan then nan else if y ≤ x then x else y

/-- `jnp.minimum`; NaN if an operand is. -/
def flMin (x y : Fl) : Fl := if x.isNan ∨ y.isNan then nan else if x ≤ y then x else y

/-- The share of the cotangent that goes to the operand `x` of `maximum(x, y) = z` or
`minimum(x, y) = z`: `(x == z) / (1 + (y == z))`. -/
def balancedEq (x z y : Fl) : Fl := ind (eqf x z) / (if eqf y z then 2 else 1)

/-- The value of an operation. -/
def BinOp.val : BinOp → Fl → Fl → Fl
  | add, x, y => x + y
  | sub, x, y => x - y
  | mul, x, y => x * y
  | div, x, y => x / y
  | pow, x, y => Fl.pow x y
  | maximum, x, y => flMax x y
  | minimum, x, y => flMin x y
  | betaln junk _ _, x, y => GW.betaln junk x y

/-- The derivative of `betaln` with respect to its first argument. -/
def betalnDeriv (junk : Fl → Fl → Fl) : Fl → Fl → Fl
  | .fin a, .fin b =>
      if 0 < a ∧ 0 < b then .fin (deriv (fun t => Real.log (ProbabilityTheory.beta t b)) a)
      else junk (.fin a) (.fin b)
  | a, b => junk a b

/-- The cotangent of the first operand. -/
def BinOp.backL : BinOp → Fl → Fl → Fl → Fl
  | add, _, _, ct => ct
  | sub, _, _, ct => ct
  | mul, _, y, ct => ct * y
  | div, _, y, ct => ct / y
  | pow, x, y, ct => ct * (y * Fl.pow x (y - 1))
  | maximum, x, y, ct => ct * balancedEq x (flMax x y) y
  | minimum, x, y, ct => ct * balancedEq x (flMin x y) y
  | betaln _ junkL _, x, y, ct => ct * betalnDeriv junkL x y

/-- The cotangent of the second operand. -/
def BinOp.backR : BinOp → Fl → Fl → Fl → Fl
  | add, _, _, ct => ct
  | sub, _, _, ct => -ct
  | mul, x, _, ct => ct * x
  | div, x, y, ct => -ct * x * (1 / (y * y))
  | pow, x, y, ct => ct * (Fl.log (if eqf x 0 then 1 else x) * Fl.pow x y)
  | maximum, x, y, ct => ct * balancedEq y (flMax x y) x
  | minimum, x, y, ct => ct * balancedEq y (flMin x y) x
  | betaln _ _ junkR, x, y, ct => ct * betalnDeriv junkR y x

/-- The truth of a comparison. -/
def CmpOp.holds : CmpOp → Fl → Fl → Prop
  | lt, x, y => x < y
  | le, x, y => x ≤ y
  | eq, x, y => eqf x y
  | ne, x, y => ¬ eqf x y

namespace Ex

/-- The value of a computation. -/
def eval (env : String → Fl) : Ex → Fl
  | const c => c
  | arg k => env k
  | un o x => o.val (eval env x)
  | bin o x y => o.val (eval env x) (eval env y)
  | mask c x y => ind (c.holds (eval env x) (eval env y))
  | sel c x y t e => if c.holds (eval env x) (eval env y) then eval env t else eval env e

/-- What the backward pass adds to the derivative with respect to `v`, if the result has cotangent
`ct`. -/
def back (env : String → Fl) (v : String) : Ex → Fl → Fl
  | const _, _ => 0
  | arg k, ct => if k = v then ct else 0
  | un o x, ct => back env v x (o.back (eval env x) ct)
  | bin o x y, ct => back env v x (o.backL (eval env x) (eval env y) ct) +
      back env v y (o.backR (eval env x) (eval env y) ct)
  | mask _ _ _, _ => 0
  | sel c x y t e, ct =>
      back env v t (if c.holds (eval env x) (eval env y) then ct else 0) +
        back env v e (if c.holds (eval env x) (eval env y) then 0 else ct)

/-- `jax.grad` with respect to `v`. -/
def grad (env : String → Fl) (v : String) (e : Ex) : Fl := back env v e 1

instance : Add Ex := ⟨bin .add⟩
instance : Sub Ex := ⟨bin .sub⟩
instance : Mul Ex := ⟨bin .mul⟩
instance : Div Ex := ⟨bin .div⟩
instance : Neg Ex := ⟨un .neg⟩
instance : Coe Fl Ex := ⟨const⟩

end Ex

open Ex

/-! ## The recorded computations -/

/-- `powerlaw` (`utils.py:121-130`). -/
def powerlawEx (xx alpha high low : Ex) : Ex :=
  let norm := sel .eq alpha (const (-1)) (const 1 / un .log (high / low))
    ((const 1 + alpha) / (bin .pow high (const 1 + alpha) - bin .pow low (const 1 + alpha)))
  bin .pow xx alpha * norm * (mask .le xx high * mask .le low xx)

/-- `beta_dist` (`utils.py:87-94`). -/
def betaDistEx (junk junkL junkR : Fl → Fl → Fl) (xx alpha beta scale : Ex) : Ex :=
  let lnBeta := (alpha - const 1) * un .log xx + (beta - const 1) * un .log (scale - xx)
  let lnBeta := lnBeta - bin (.betaln junk junkL junkR) alpha beta
  let lnBeta := lnBeta - (alpha + beta - const 1) * un .log scale
  un .nanToNum (un .exp lnBeta) * (mask .le (const 0) xx * mask .le xx scale)

/-- `logsubexp` (`utils.py:160-161`). -/
def logsubexpEx (logP logQ : Ex) : Ex := logP + un .log (const 1 - un .exp (logQ - logP))

/-- The logarithm of the normalisation in `truncnorm` (`utils.py:168-180`). -/
def truncLogNormEx (aa bb : Ex) : Ex :=
  sel .le bb (const 0) (logsubexpEx (un .logNdtr bb) (un .logNdtr aa))
    (sel .lt (const 0) aa (logsubexpEx (un .logNdtr (-aa)) (un .logNdtr (-bb)))
      (sel .lt (const 0) bb (un .log1p (-(un .ndtr aa) - un .ndtr (-bb))) (const nan)))

/-- `truncnorm` (`utils.py:160-183`). -/
def truncnormEx (xx mu sigma high low : Ex) : Ex :=
  let zz := (xx - mu) / sigma
  let aa := (low - mu) / sigma
  let bb := (high - mu) / sigma
  let logPdf := -(un .square zz) / const 2 - const (Fl.log (2 * fin Real.pi) / 2) - un .log sigma
  un .nanToNum (un .exp (logPdf - truncLogNormEx aa bb)) * mask .le low xx * mask .le xx high

/-- `BaseSmoothedMassDistribution.smoothing` on jax (`mass.py:676-682`). -/
def smoothingEx (mass mmin mmax deltaM : Ex) : Ex :=
  let shifted := un .nanToNum ((mass - mmin) / deltaM)
  let shifted := bin .minimum (bin .maximum shifted (const (fin 1e-6))) (const (fin (1 - 1e-6)))
  let exponent := const 1 / shifted - const 1 / (const 1 - shifted)
  un .expit (-exponent) * (mask .le mmin mass * mask .le mass mmax)

/-- `double_power_law_primary_mass` (`mass.py:60-71`). -/
def doublePowerLawEx (mass alpha1 alpha2 mmin mmax breakFraction : Ex) : Ex :=
  let mBreak := mmin + breakFraction * (mmax - mmin)
  let correction := powerlawEx mBreak (-alpha2) mmax mBreak / powerlawEx mBreak (-alpha1) mBreak mmin
  let prob := powerlawEx mass (-alpha1) mBreak mmin * mask .lt mass mBreak * correction +
    powerlawEx mass (-alpha2) mmax mBreak * mask .le mBreak mass
  prob / (const 1 + correction)

/-- `double_power_law_peak_primary_mass` (`mass.py:74-137`). -/
def doublePowerLawPeakEx (mass alpha1 alpha2 mmin mmax breakFraction lam mpp sigpp gmax : Ex) : Ex :=
  (const 1 - lam) * doublePowerLawEx mass alpha1 alpha2 mmin mmax breakFraction +
    lam * truncnormEx mass mpp sigpp gmax mmin

/-- `two_component_single` (`mass.py:297-332`). -/
def twoComponentEx (mass alpha mmin mmax lam mpp sigpp gmax : Ex) : Ex :=
  (const 1 - lam) * powerlawEx mass (-alpha) mmax mmin + lam * truncnormEx mass mpp sigpp gmax mmin

/-- `three_component_single` (`mass.py:335-394`). -/
def threeComponentEx (mass alpha mmin mmax lam lam1 mpp1 sigpp1 mpp2 sigpp2 gmax : Ex) : Ex :=
  (const 1 - lam) * powerlawEx mass (-alpha) mmax mmin +
    lam * lam1 * truncnormEx mass mpp1 sigpp1 gmax mmin +
    lam * (const 1 - lam1) * truncnormEx mass mpp2 sigpp2 gmax mmin

/-- `trapezoid(ys, xs)`: the terms are added up from the right. -/
def trapzEx : List Ex → List ℝ → Ex
  | y0 :: y1 :: ys, x0 :: x1 :: xs =>
      const (fin x1 - fin x0) * (y1 + y0) / const 2 + trapzEx (y1 :: ys) (x1 :: xs)
  | _, _ => const 0

/-- The factor `* (delta_m != 0) + 1 * (delta_m == 0)` (`mass.py:609-611`, `:642-644`). -/
def orOneEx (norm deltaM : Ex) : Ex :=
  un .nanToNum norm * mask .ne deltaM (const 0) + const 1 * mask .eq deltaM (const 0)

/-- `p_m1` on jax (`mass.py:591-612`), for a primary model recorded as `prim`. -/
def pM1Ex (s : Smoothed) (prim : Ex → Ex) (mmin deltaM : Ex) (m : Fl) : Ex :=
  let raw := fun m => prim (const m) * smoothingEx (const m) mmin (const (fin s.mmax)) deltaM
  raw m / orOneEx (trapzEx (s.m1s.map fun m => raw (fin m)) s.m1s) deltaM

/-- The unnormalised mass-ratio density (`mass.py:615-621`). -/
def pQRawEx (beta mmin deltaM : Ex) (m q : Fl) : Ex :=
  powerlawEx (const q) beta (const 1) (mmin / const m) *
    smoothingEx (const (m * q)) mmin (const m) deltaM

/-- The norm of the mass-ratio density at one mass of the grid (`mass.py:637-644`). -/
def qNormEx (s : Smoothed) (beta mmin deltaM : Ex) (m : ℝ) : Ex :=
  orOneEx (trapzEx (s.qs.map fun q => pQRawEx beta mmin deltaM (fin m) (fin q)) s.qs) deltaM

/-- The interpolated norm at mass `m` (`mass.py:646`). -/
def qNormAtEx (s : Smoothed) (beta mmin deltaM : Ex) (m : ℝ) : Ex :=
  let i := min ((s.m1s.filter (fun x => x ≤ m)).length - 1) (s.m1s.length - 2)
  let x0 := s.m1s.getD i 0
  let x1 := s.m1s.getD (i + 1) 0
  let y0 := qNormEx s beta mmin deltaM x0
  let y1 := qNormEx s beta mmin deltaM x1
  y0 + const (fin ((m - x0) / (x1 - x0))) * (y1 - y0)

/-- `p_q` on jax for a source with masses `m` and `m * q` (`mass.py:614-633`). -/
def pQEx (s : Smoothed) (beta mmin deltaM : Ex) (m q : ℝ) : Ex :=
  un .nanToNum (pQRawEx beta mmin deltaM (fin m) (fin q) / qNormAtEx s beta mmin deltaM m)

/-- `__call__` on jax for one source (`mass.py:572-589`). -/
def smoothedEx (s : Smoothed) (prim : Ex → Ex) (beta mmin deltaM : Ex) (m q : ℝ) : Ex :=
  pM1Ex s prim mmin deltaM (fin m) * pQEx s beta mmin deltaM m q

/-- `PowerLawRedshift.psi_of_z` (`redshift.py:201-215`). -/
def psiPowerLawEx (lamb : Ex) (z : Fl) : Ex := bin .pow (const (1 + z)) lamb

/-- `MadauDickinsonRedshift.psi_of_z` (`redshift.py:222-249`). -/
def psiMadauDickinsonEx (gamma kappa zPeak : Ex) (z : Fl) : Ex :=
  bin .pow (const (1 + z)) gamma / (const 1 + bin .pow (const (1 + z) / (const 1 + zPeak)) kappa) *
    (const 1 + bin .pow (const 1 + zPeak) (-kappa))

/-- `_Redshift.differential_spacetime_volume` within `z_max`, with a fixed cosmology
(`redshift.py:169-195`). -/
def volumeEx (zMax : ℝ) (c : Cosmology) (psi : Fl → Ex) (z : Fl) : Ex :=
  psi z / const (1 + z) * const (4 * fin Real.pi * c.diffComovingVolume z) *
    const (ind (z ≤ fin zMax))

/-- `_Redshift.probability` with a fixed cosmology (`redshift.py:74-122`). -/
def redshiftEx (zMax : ℝ) (zs : List ℝ) (c : Cosmology) (psi : Fl → Ex) (z : Fl) : Ex :=
  volumeEx zMax c psi z / trapzEx (zs.map fun z => volumeEx zMax c psi (fin z)) zs

/-- `sum(xs)`: the terms are added up from the right. -/
def sumEx (xs : List Ex) : Ex := xs.foldr (· + ·) (const 0)

/-- The log Bayes factor of an event (`hyperpe.py:194-206`) whose samples have the recorded densities and the
sampling priors `w`. -/
def lnBayesFactorEx (w : List (Ex × ℝ)) : Ex :=
  un .log (sumEx (w.map fun e => e.1 / const (fin e.2)) / const (fin w.length))

/-- The first number returned by `ln_likelihood_and_variance` (`hyperpe.py:163-178`, `hyperpe.py:208-217`), with the
selection function recorded as `sel`. -/
def lnLikelihoodEx (events : List (List (Ex × ℝ))) (selection : Ex) : Ex :=
  sumEx (events.map lnBayesFactorEx) + const (fin (-(events.length : ℝ))) * un .log selection

/-- The detection efficiency (`vt.py:235-259`) for found injections with recorded densities and given draw
probabilities, of `n` injections. -/
def efficiencyEx (found : List (Ex × ℝ)) (n : ℝ) : Ex :=
  sumEx (found.map fun e => e.1 / const (fin e.2)) / const (fin n)

/-- Its variance (`vt.py:253-258`). -/
def efficiencyVarianceEx (found : List (Ex × ℝ)) (n : ℝ) : Ex :=
  sumEx (found.map fun e => un .square (e.1 / const (fin e.2))) / const (fin n ^ 2) -
    un .square (efficiencyEx found n) / const (fin n)

/-- The correction of `check_convergence` (`vt.py:197-206`) for `n` events. -/
def correctionEx (nEvents : ℝ) (mu var : Ex) : Ex :=
  un .nanToNumInf (const pinf * (const 1 - mask .lt (const (4 * fin nEvents) * var) (un .square mu)))

/-- `ResamplingVT.__call__` without marginalisation (`vt.py:187-192`). -/
def selectionEx (enforce : Bool) (nEvents : ℝ) (found : List (Ex × ℝ)) (n : ℝ) : Ex :=
  if enforce then
    efficiencyEx found n + correctionEx nEvents (efficiencyEx found n) (efficiencyVarianceEx found n)
  else efficiencyEx found n

/-- `vt_factor` (`vt.py:208-233`). -/
def vtFactorEx (nEvents : ℝ) (found : List (Ex × ℝ)) (n : ℝ) : Ex :=
  let mu := efficiencyEx found n
  let var := efficiencyVarianceEx found n
  mu / un .exp (const ((3 + fin nEvents) / 2) / (un .square mu / var)) + correctionEx nEvents mu var

end GW
