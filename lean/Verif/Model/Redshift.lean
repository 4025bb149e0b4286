import Verif.Model.Cosmo

/-!
# Model of `gwpopulation/models/redshift.py`

Data are modelled at one sample. `py` says whether the hyper-parameters are Python floats.
-/

noncomputable section

open Classical

namespace GW

open Fl

/-- An instance of a subclass of `_Redshift` (`redshift.py:18-66`). -/
structure Redshift where
  /-- what `CosmoMixin.__init__` sets -/
  mixin : CosmoMixin
  /-- `self.z_max` -/
  zMax : ℝ
  /-- `self.zs` -/
  zs : List ℝ
  /-- the class attribute `base_variable_names` (`None` on the base class) -/
  baseVariableNames : Option (List String)
  /-- the method `psi_of_z`, elementwise in the redshift -/
  psiOfZ : Fl → Dict Fl → Except PyErr Fl

/-- `PowerLawRedshift.psi_of_z` (`redshift.py:201-215`); the base is an array. -/
def psiPowerLaw (z : Fl) (parameters : Dict Fl) : Except PyErr Fl := do
  let lamb ← parameters.get "lamb"
  return Fl.pow (1 + z) lamb

/-- `MadauDickinsonRedshift.psi_of_z` (`redshift.py:222-249`). -/
def psiMadauDickinson (py : Bool) (z : Fl) (parameters : Dict Fl) : Except PyErr Fl := do
  let gamma ← parameters.get "gamma"
  let kappa ← parameters.get "kappa"
  let zPeak ← parameters.get "z_peak"
  let psi := Fl.pow (1 + z) gamma / (1 + Fl.pow ((1 + z) / (1 + zPeak)) kappa)
  let corr ← pyPow py (1 + zPeak) (-kappa)
  return psi * (1 + corr)

/-- `_Redshift.psi_of_z` (`redshift.py:124-146`). -/
def psiBase (_z : Fl) (_parameters : Dict Fl) : Except PyErr Fl := .error .notImplemented

namespace Redshift

/-- `_Redshift.__init__` (`redshift.py:63-66`) of the class with the given rate model. -/
def init (available : Dict CosmoEntry) (names : Option (List String))
    (psi : Fl → Dict Fl → Except PyErr Fl) (zMax : ℝ := 2.3) (cosmoModel : String := "Planck15") :
    Except PyErr Redshift := do
  let mixin ← CosmoMixin.init available cosmoModel
  return { mixin := mixin, zMax := zMax, zs := Arr.linspaceR 1e-6 zMax 2500,
           baseVariableNames := names, psiOfZ := psi }

/-- `PowerLawRedshift(z_max, cosmo_model)` (`redshift.py:198-199`). -/
def powerLaw (available : Dict CosmoEntry) (zMax : ℝ := 2.3) (cosmoModel : String := "Planck15") :
    Except PyErr Redshift :=
  init available (some ["lamb"]) psiPowerLaw zMax cosmoModel

/-- `MadauDickinsonRedshift(z_max, cosmo_model)` (`redshift.py:218-220`). -/
def madauDickinson (available : Dict CosmoEntry) (py : Bool) (zMax : ℝ := 2.3)
    (cosmoModel : String := "Planck15") : Except PyErr Redshift :=
  init available (some ["gamma", "kappa", "z_peak"]) (psiMadauDickinson py) zMax cosmoModel

/-- `_Redshift.variable_names` (`redshift.py:46-61`): the list and the instance after the read.
`vars` is a copy of `cosmology_names`, so the `+=` leaves the instance as it is. -/
def variableNames (self : Redshift) : List String × Redshift :=
  let vars := self.mixin.cosmologyNames
  match self.baseVariableNames with
  | none => (vars, self)
  | some l => (vars ++ l, self)

/-- A call `f(name=..., **parameters)` raises `TypeError` if `name` is also in `parameters`. -/
def noClash (reserved : List String) (parameters : Dict Fl) : Except PyErr Unit :=
  if ∃ k ∈ reserved, Dict.contains parameters k then .error .typeError else .ok ()

/-- `_Redshift.dvc_dz` (`redshift.py:148-167`). -/
def dvcDz (self : Redshift) (z : Fl) (parameters : Dict Fl) : Except PyErr Fl := do
  let c ← self.mixin.cosmology parameters
  return 4 * fin Real.pi * c.diffComovingVolume z

/-- `_Redshift.differential_spacetime_volume` (`redshift.py:169-195`). -/
def differentialSpacetimeVolume (self : Redshift) (dataset : Dict Fl) (bounds : Bool)
    (parameters : Dict Fl) : Except PyErr Fl := do
  noClash ["self", "dataset", "bounds"] parameters
  let z ← dataset.get "redshift"
  noClash ["self", "redshift"] parameters
  let psi ← self.psiOfZ z parameters
  let dv := psi / (1 + z)
  let v ← self.dvcDz z parameters
  let dv := dv * v
  if bounds then return dv * ind (z ≤ fin self.zMax) else return dv

/-- `_Redshift.normalisation` (`redshift.py:74-98`). -/
def normalisation (self : Redshift) (parameters : Dict Fl) : Except PyErr Fl := do
  let data ← self.zs.mapM fun z =>
    self.differentialSpacetimeVolume [("redshift", fin z)] true parameters
  return Arr.trapz data (self.zs.map fin)

/-- `_Redshift.probability` (`redshift.py:100-122`), also `__call__` (`redshift.py:68-72`); the
normalisation is an array scalar, so the division follows numpy. -/
def probability (self : Redshift) (dataset : Dict Fl) (parameters : Dict Fl) :
    Except PyErr Fl := do
  let n ← self.normalisation parameters
  let d ← self.differentialSpacetimeVolume dataset true parameters
  return d / n

end Redshift

/-- `total_four_volume` (`redshift.py:252-295`) with `planck15` the fixed cosmology. -/
def totalFourVolume (planck15 : Cosmology) (lamb analysisTime : Fl) (maxRedshift : ℝ := 2.3) : Fl :=
  let redshifts := Arr.linspaceR 0 maxRedshift 2500
  let normalization := 4 * fin Real.pi / fin 1e9 * analysisTime
  Arr.trapz (redshifts.map fun z =>
    planck15.diffComovingVolume (fin z) / (1 + fin z) * Fl.pow (1 + fin z) lamb)
    (redshifts.map fin) * normalization

end GW
