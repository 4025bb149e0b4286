import Verif.Model.Analysis
import Verif.Model.SharedSpline
import Verif.Model.Cosmo

/-!
# `CosmoModel` on arrays, with the population models it is made of, `gwpopulation/experimental/cosmo_models.py`

`Model/Cosmo.lean` describes the conversion at one sample. Here the columns are arrays of any shape, the population
model is a `bilby` `Model` whose functions may be instances that remember interpolants (`Model/Analysis.lean`), and one
object is called again and again with other parameters, as when the cosmology is fitted.

Simplification: the functions of a cosmology act element by element.
-/

noncomputable section

open Classical

namespace GW

open Fl

namespace CosmoMixin

/-- One iteration of the loop (`cosmo_models.py:110-115`). `jacobian *= ...` is in place on numpy and cupy. -/
def convertColumn (b : Backend) (data : Columns) (st : Columns × Shaped Fl) (key : String) :
    Except PyErr (Columns × Shaped Fl) :=
  if isDetector key then do
    let x ← data.get key
    let z ← st.1.get "redshift"
    let y ← Shaped.zip b (· / ·) x (z.map (1 + ·))
    let samples := st.1.set (sourceName key) y
    let z' ← samples.get "redshift"
    let jacobian ← Shaped.inplaceMul b st.2 (z'.map (1 + ·))
    return (samples, jacobian)
  else if key ≠ "luminosity_distance" then do
    let x ← data.get key
    return (st.1.set key x, st.2)
  else
    return st

/-- `detector_frame_to_source_frame` (`cosmo_models.py:73-117`) on arrays. -/
def convertColumns (b : Backend) (self : CosmoMixin) (data : Columns) (parameters : Dict Fl) :
    Except PyErr (Columns × Shaped Fl) := do
  let start ←
    if data.contains "luminosity_distance" then do
      let cosmo ← self.cosmology parameters
      let dl ← data.get "luminosity_distance"
      let z := dl.map cosmo.zAtDistance
      pure ([("redshift", z)], z.map cosmo.dDLdz)
    else if ¬ data.contains "redshift" then
      throw .valueError
    else do
      let z ← data.get "redshift"
      pure ([], ⟨z.shape, fun _ => 1⟩)
  data.keys.foldlM (convertColumn b data) start

end CosmoMixin

/-- `probability /= jacobian` (`cosmo_models.py:163`): a model without functions returns the float `1.0`, otherwise an
array is updated in place (numpy, cupy). -/
def Shaped.overEq (b : Backend) (p q : Shaped Fl) : Except PyErr (Shaped Fl) := do
  let r ← Shaped.zip b (· / ·) p q
  if b ≠ .jax ∧ p.shape ≠ [] ∧ r.shape ≠ p.shape then .error .valueError else .ok r

/-- A `CosmoModel`. -/
structure CosmoObject where
  /-- the part of `CosmoMixin` -/
  mixin : CosmoMixin
  /-- the part of `bilby.hyper.model.Model` -/
  model : PopObject

namespace CosmoObject

/-- `CosmoModel(model_functions, cosmo_model)` (`cosmo_models.py:136-138`): the cache of `Model` is off. -/
def init (available : Dict CosmoEntry) (models : List PopFn) (cosmoModel : String) : Except PyErr CosmoObject := do
  let mixin ← CosmoMixin.init available cosmoModel
  return ⟨mixin, PopObject.new models false⟩

/-- `CosmoModel.prob(data, **kwargs)` (`cosmo_models.py:140-165`): the outcome, the object and the instances
afterwards. -/
def prob (b : Backend) (same : Dict Fl → Dict Fl → Prop) (self : CosmoObject) (mem : Instances) (data : Columns)
    (kwargs : Dict Fl) : Except PyErr (Shaped Fl) × CosmoObject × Instances :=
  match self.mixin.convertColumns b data kwargs with
  | .error e => (.error e, self, mem)
  | .ok (samples, jacobian) =>
    let r := self.model.prob b same mem samples kwargs
    (r.1.bind fun p => Shaped.overEq b p jacobian, { self with model := r.2.1 }, r.2.2)

/-- A history of calls: the object and the instances afterwards. -/
def run (b : Backend) (same : Dict Fl → Dict Fl → Prop) (self : CosmoObject) (mem : Instances) :
    List (Columns × Dict Fl) → CosmoObject × Instances
  | [] => (self, mem)
  | (data, kwargs) :: rest =>
    let r := self.prob b same mem data kwargs
    run b same r.2.1 r.2.2 rest

end CosmoObject

end GW
