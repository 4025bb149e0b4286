import Verif.Py
import Verif.Num.Arr

/-!
# Model of `gwpopulation/experimental/cosmo_models.py`

The package `wcosmo` is not part of the repository; a cosmology is any quadruple of functions
and `wcosmo.astropy.available` is any dictionary of fixed cosmologies and cosmology classes.
Data are modelled at one sample: `data` maps column names to floats.
-/

noncomputable section

open Classical

namespace GW

open Fl

/-- A `wcosmo` cosmology object: the methods that the package calls. -/
structure Cosmology where
  /-- `differential_comoving_volume` (per steradian) -/
  diffComovingVolume : Fl → Fl
  /-- `luminosity_distance` -/
  luminosityDistance : Fl → Fl
  /-- `dDLdz` -/
  dDLdz : Fl → Fl
  /-- `z_at_value(self.luminosity_distance, _)` -/
  zAtDistance : Fl → Fl

/-- An entry of `wcosmo.astropy.available`: an instance or a class. -/
inductive CosmoEntry where
  /-- an instance of `WCosmoMixin` -/
  | fixed (c : Cosmology)
  /-- a class; calling it with keyword arguments may raise -/
  | free (mk : Dict Fl → Except PyErr Cosmology)

/-- The attributes set by `CosmoMixin.__init__`. -/
structure CosmoMixin where
  /-- `self.cosmo_model` -/
  cosmoModel : String
  /-- `self.cosmology_names` -/
  cosmologyNames : List String
  /-- `self._cosmo` -/
  cosmo : CosmoEntry

namespace CosmoMixin

/-- `CosmoMixin.__init__` (`cosmo_models.py:27-36`). `wcosmo_disable_units()` only changes the
units of `wcosmo`'s results, which are plain numbers here. -/
def init (available : Dict CosmoEntry) (cosmoModel : String := "Planck15") :
    Except PyErr CosmoMixin := do
  let names :=
    if cosmoModel = "FlatwCDM" then ["H0", "Om0", "w0"]
    else if cosmoModel = "FlatLambdaCDM" then ["H0", "Om0"]
    else []
  let c ← available.get cosmoModel
  return { cosmoModel := cosmoModel, cosmologyNames := names, cosmo := c }

/-- `CosmoMixin.cosmology_variables` (`cosmo_models.py:38-52`). -/
def cosmologyVariables (self : CosmoMixin) (parameters : Dict Fl) : Except PyErr (Dict Fl) :=
  self.cosmologyNames.mapM fun key => do
    let v ← parameters.get key
    return (key, v)

/-- `CosmoMixin.cosmology` (`cosmo_models.py:54-71`). -/
def cosmology (self : CosmoMixin) (parameters : Dict Fl) : Except PyErr Cosmology :=
  match self.cosmo with
  | .fixed c => .ok c
  | .free cls => do cls (← self.cosmologyVariables parameters)

/-- `key.endswith("_detector")`. -/
def isDetector (key : String) : Prop := "_detector".toList <:+ key.toList

/-- `key[:-9]`. -/
def sourceName (key : String) : String := String.ofList (key.toList.take (key.toList.length - 9))

/-- One iteration of the loop at `cosmo_models.py:110-115`. -/
def convertKey (data : Dict Fl) (st : Dict Fl × Fl) (key : String) :
    Except PyErr (Dict Fl × Fl) :=
  if isDetector key then do
    let x ← data.get key
    let z ← st.1.get "redshift"
    let samples := st.1.set (sourceName key) (x / (1 + z))
    let z' ← samples.get "redshift"
    return (samples, st.2 * (1 + z'))
  else if key ≠ "luminosity_distance" then do
    let x ← data.get key
    return (st.1.set key x, st.2)
  else
    return st

/-- `CosmoMixin.detector_frame_to_source_frame` (`cosmo_models.py:73-117`). The input dictionary is
an immutable value here because the code only reads it (`samples` is a new dictionary, and the
in-place `jacobian *= ...` acts on a fresh array). -/
def detectorFrameToSourceFrame (self : CosmoMixin) (data parameters : Dict Fl) :
    Except PyErr (Dict Fl × Fl) := do
  let start ←
    if data.contains "luminosity_distance" then do
      let cosmo ← self.cosmology parameters
      let dl ← data.get "luminosity_distance"
      let z := cosmo.zAtDistance dl
      pure ([("redshift", z)], cosmo.dDLdz z)
    else if ¬ data.contains "redshift" then
      throw .valueError
    else
      pure ([], 1)
  data.keys.foldlM (convertKey data) start

end CosmoMixin

/-- `CosmoModel.prob` (`cosmo_models.py:140-165`). `base` is `bilby.hyper.model.Model.prob` of the
model functions (not part of the repository), at one sample; the cache is disabled
(`cosmo_models.py:137`), so `base` is a function of its arguments. -/
def cosmoModelProb (self : CosmoMixin) (base : Dict Fl → Dict Fl → Except PyErr Fl)
    (data kwargs : Dict Fl) : Except PyErr Fl := do
  let (samples, jacobian) ← self.detectorFrameToSourceFrame data kwargs
  let probability ← base samples kwargs
  return probability / jacobian

end GW
