import Verif.Model.Redshift
import Verif.Model.Rounded
import Verif.Model.RoundedDensities

/-!
# Grid normalisations and redshift models in double precision

`trapezoid` of `utils.py` and the models of `redshift.py` with every operation rounded to double precision.
The order in which the library adds up the terms is arbitrary (`Arith`), powers and the cosmology are those of
a library of which only the accuracy is known.
-/

noncomputable section

open Classical

namespace GW

open Fl

/-- The terms of `trapezoid(y, x)` before they are halved, in double precision. -/
def trapzTermsD : List Fl → List Fl → List Fl
  | y0 :: y1 :: ys, x0 :: x1 :: xs =>
      mulD (toDouble (x1 - x0)) (toDouble (y1 + y0)) :: trapzTermsD (y1 :: ys) (x1 :: xs)
  | _, _ => []

/-- `trapezoid(y, x)` (`utils.py:321-348`, see `Arr.trapz`) in double precision. numpy computes
`(d * (y[1:] + y[:-1]) / 2.0).sum()` (`halveFirst`), jax `0.5 * (d * (y[1:] + y[:-1])).sum()`; multiplication by
0.5 and division by 2 are the same. -/
def trapzD (A : Arith) (halveFirst : Bool) (ys xs : List Fl) : Fl :=
  if halveFirst then A.sum ((trapzTermsD ys xs).map fun t => toDouble (t / 2))
  else toDouble (A.sum (trapzTermsD ys xs) / 2)

/-- `PowerLawRedshift.psi_of_z` (`redshift.py:201-215`, see `psiPowerLaw`) in double precision. -/
def psiPowerLawD (L : MathLib) (z : Fl) (parameters : Dict Fl) : Except PyErr Fl := do
  let lamb ← parameters.get "lamb"
  return L.pow (toDouble (1 + z)) lamb

/-- `MadauDickinsonRedshift.psi_of_z` (`redshift.py:222-249`, see `psiMadauDickinson`) in double precision. -/
def psiMadauDickinsonD (L : MathLib) (py : Bool) (z : Fl) (parameters : Dict Fl) : Except PyErr Fl := do
  let gamma ← parameters.get "gamma"
  let kappa ← parameters.get "kappa"
  let zPeak ← parameters.get "z_peak"
  let ratio := toDouble (toDouble (1 + z) / toDouble (1 + zPeak))
  let psi := toDouble (L.pow (toDouble (1 + z)) gamma / toDouble (1 + L.pow ratio kappa))
  let corr ← pyPowD L py (toDouble (1 + zPeak)) (-kappa)
  return toDouble (psi * toDouble (1 + corr))

namespace Redshift

/-! The methods in double precision. The fields `psiOfZ` and `mixin` of the instance are those of the
double-precision libraries, and `zs` and `zMax` are doubles. -/

/-- `_Redshift.dvc_dz` (`redshift.py:148-167`) in double precision. -/
def dvcDzD (self : Redshift) (z : Fl) (parameters : Dict Fl) : Except PyErr Fl := do
  let c ← self.mixin.cosmology parameters
  return mulD (mulD 4 (toDouble (fin Real.pi))) (c.diffComovingVolume z)

/-- `_Redshift.differential_spacetime_volume` (`redshift.py:169-195`) in double precision. -/
def differentialSpacetimeVolumeD (self : Redshift) (dataset : Dict Fl) (bounds : Bool)
    (parameters : Dict Fl) : Except PyErr Fl := do
  noClash ["self", "dataset", "bounds"] parameters
  let z ← dataset.get "redshift"
  noClash ["self", "redshift"] parameters
  let psi ← self.psiOfZ z parameters
  let dv := toDouble (psi / toDouble (1 + z))
  let v ← self.dvcDzD z parameters
  let dv := mulD dv v
  if bounds then return dv * ind (z ≤ fin self.zMax) else return dv

/-- `_Redshift.normalisation` (`redshift.py:74-98`) in double precision. -/
def normalisationD (A : Arith) (halveFirst : Bool) (self : Redshift) (parameters : Dict Fl) :
    Except PyErr Fl := do
  let data ← self.zs.mapM fun z =>
    self.differentialSpacetimeVolumeD [("redshift", fin z)] true parameters
  return trapzD A halveFirst data (self.zs.map fin)

/-- `_Redshift.probability` (`redshift.py:100-122`) in double precision. -/
def probabilityD (A : Arith) (halveFirst : Bool) (self : Redshift) (dataset : Dict Fl)
    (parameters : Dict Fl) : Except PyErr Fl := do
  let n ← self.normalisationD A halveFirst parameters
  let d ← self.differentialSpacetimeVolumeD dataset true parameters
  return toDouble (d / n)

end Redshift

end GW
