import Verif.Model.ArrayDensities
import Verif.Model.Redshift

/-!
# Redshift models as functions of arrays

The methods of `models/redshift.py` on datasets and hyper-parameters that are arrays of any shape and data type,
statement by statement. The methods at one sample are in `Model/Redshift.lean`.

Simplification: the functions of a cosmology act element by element and return floating-point numbers; hyper-parameters
of the cosmology with axes are outside the model.
-/

noncomputable section

open Classical

namespace GW

open Fl NArr

/-- The hyper-parameters as numbers. -/
def numbersOf (parameters : Dict NArr) : Dict Fl := parameters.map fun p => (p.1, p.2.elem [])

/-- `PowerLawRedshift.psi_of_z` (`redshift.py:201-215`). -/
def psiPowerLawA (b : Backend) (z : NArr) (parameters : Dict NArr) : Except PyErr NArr := do
  let base ← add b (pyInt 1) z
  let lamb ← parameters.get "lamb"
  pow b base lamb

/-- `MadauDickinsonRedshift.psi_of_z` (`redshift.py:222-249`). -/
def psiMadauDickinsonA (b : Backend) (z : NArr) (parameters : Dict NArr) : Except PyErr NArr := do
  let gamma ← parameters.get "gamma"
  let kappa ← parameters.get "kappa"
  let zPeak ← parameters.get "z_peak"
  let rise ← pow b (← add b (pyInt 1) z) gamma
  let ratio ← div b (← add b (pyInt 1) z) (← add b (pyInt 1) zPeak)
  let fall ← pow b ratio kappa
  let psi ← div b rise (← add b (pyInt 1) fall)
  let corr ← pow b (← add b (pyInt 1) zPeak) (neg b kappa)
  assign b (· * ·) psi (← add b (pyInt 1) corr)

/-- `xp.trapezoid(y, x)` over the last axis (`utils.py:321-348`), for `x` with one axis. Simplification: axes of
different lengths always raise `ValueError`. -/
def trapezoidA (b : Backend) (y : NArr) (xs : List Fl) : Except PyErr NArr :=
  match y.shape with
  | [] => .error .valueError
  | n :: s =>
    if n = xs.length then
      .ok ⟨libKind b s, .float, s, fun idx => Arr.trapz ((List.range n).map fun i => y.elem (i :: idx)) xs⟩
    else .error .valueError

namespace Redshift

/-- `self.cosmology(parameters)` (`cosmo_models.py:54-71`). -/
def cosmologyA (self : Redshift) (parameters : Dict NArr) : Except PyErr Cosmology :=
  if ∃ k ∈ self.mixin.cosmologyNames, ∃ x, Dict.get? parameters k = some x ∧ x.shape ≠ [] then .error .notImplemented
  else self.mixin.cosmology (numbersOf parameters)

/-- `_Redshift.dvc_dz` (`redshift.py:148-167`). -/
def dvcDzA (b : Backend) (self : Redshift) (z : NArr) (parameters : Dict NArr) : Except PyErr NArr := do
  let c ← self.cosmologyA parameters
  mul b (pyFloat (4 * fin Real.pi)) (fn b c.diffComovingVolume z)

/-- `_Redshift.differential_spacetime_volume` (`redshift.py:169-195`); `psi` is the method `psi_of_z` of the class. -/
def differentialSpacetimeVolumeA (b : Backend) (self : Redshift) (psi : NArr → Dict NArr → Except PyErr NArr)
    (dataset : Dict NArr) (bounds : Bool) (parameters : Dict NArr) : Except PyErr NArr := do
  noClash ["self", "dataset", "bounds"] (numbersOf parameters)
  let z ← dataset.get "redshift"
  noClash ["self", "redshift"] (numbersOf parameters)
  let rate ← psi z parameters
  let dv ← div b rate (← add b (pyInt 1) z)
  let dv ← assign b (· * ·) dv (← self.dvcDzA b z parameters)
  if bounds then assign b (· * ·) dv (← le b z (pyFloat (fin self.zMax))) else return dv

/-- `self.zs` as an array. -/
def zsA (self : Redshift) : NArr :=
  ⟨.array, .float, [self.zs.length], fun idx => fin (self.zs.getD (idx.headD 0) 0)⟩

/-- `_Redshift.normalisation` (`redshift.py:74-98`). -/
def normalisationA (b : Backend) (self : Redshift) (psi : NArr → Dict NArr → Except PyErr NArr)
    (parameters : Dict NArr) : Except PyErr NArr := do
  let data ← self.differentialSpacetimeVolumeA b psi [("redshift", self.zsA)] true parameters
  trapezoidA b data (self.zs.map fin)

/-- `_Redshift.probability` (`redshift.py:100-122`), also `__call__` (`redshift.py:68-72`). -/
def probabilityA (b : Backend) (self : Redshift) (psi : NArr → Dict NArr → Except PyErr NArr)
    (dataset parameters : Dict NArr) : Except PyErr NArr := do
  let n ← self.normalisationA b psi parameters
  let d ← self.differentialSpacetimeVolumeA b psi dataset true parameters
  div b d n

end Redshift

end GW
