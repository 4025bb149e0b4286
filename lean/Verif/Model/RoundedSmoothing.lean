import Verif.Model.RoundedRedshift
import Verif.Model.Smoothed

/-!
# The smoothing window and smoothed primary-mass densities in double precision

`smoothing`, `norm_p_m1` and `p_m1` of `BaseSmoothedMassDistribution` (`mass.py:591-684`) with every operation rounded
to double precision. The logistic function and the order of summation are those of a library of which only the
accuracy is known; so is the primary model, which is given by its computed values.
-/

noncomputable section

open Classical

namespace GW

open Fl

/-- `BaseSmoothedMassDistribution.smoothing` (`mass.py:659-684`) in double precision, elementwise; `expitD` is
`scs.expit`. -/
def smoothingD (expitD : Fl → Fl) (b : Backend) (mass mmin mmax deltaM : Fl) : Fl :=
  if b = .jax ∨ 0 < deltaM then
    let shifted := nanToNumWith (fin 0) (fin bigR) (fin (-bigR)) (toDouble (toDouble (mass - mmin) / deltaM))
    let low := toDouble (fin 1e-6)
    let shifted := Arr.clip shifted low (toDouble (1 - low))
    let exponent := toDouble (toDouble (1 / shifted) - toDouble (1 / toDouble (1 - shifted)))
    let window := expitD (-exponent)
    mulD window (ind (mmin ≤ mass) * ind (mass ≤ mmax))
  else 1

namespace Smoothed

/-- The primary model times the window (`mass.py:594-597`, `:606-607`) in double precision; `prim` are the computed
values of the primary model. -/
def pMRawD (expitD : Fl → Fl) (b : Backend) (s : Smoothed) (prim : Fl → Except PyErr Fl) (mmin deltaM m : Fl) :
    Except PyErr Fl := do
  let p ← prim m
  return mulD p (smoothingD expitD b m mmin (fin s.mmax) deltaM)

/-- `norm_p_m1` (`mass.py:601-612`) in double precision. -/
def normPM1D (expitD : Fl → Fl) (A : Arith) (halveFirst : Bool) (b : Backend) (s : Smoothed)
    (prim : Fl → Except PyErr Fl) (mmin deltaM : Fl) : Except PyErr Fl := do
  if b ≠ .jax ∧ eqf deltaM 0 then return 1
  else
    let pm ← s.m1s.mapM fun m => pMRawD expitD b s prim mmin deltaM (fin m)
    return toDouble (mulD (nanToNum (trapzD A halveFirst pm (s.m1s.map fin))) (ind (¬ eqf deltaM 0)) +
      1 * ind (eqf deltaM 0))

/-- `p_m1` (`mass.py:591-599`) in double precision, at one mass. -/
def pM1D (expitD : Fl → Fl) (A : Arith) (halveFirst : Bool) (b : Backend) (s : Smoothed)
    (prim : Fl → Except PyErr Fl) (mmin deltaM mass : Fl) : Except PyErr Fl := do
  let pm ← pMRawD expitD b s prim mmin deltaM mass
  let norm ← normPM1D expitD A halveFirst b s prim mmin deltaM
  return toDouble (pm / norm)

end Smoothed

end GW
