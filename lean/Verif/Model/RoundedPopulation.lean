import Verif.Model.Bilby
import Verif.Model.Rounded

/-!
# Products of population functions in double precision

`bilby.hyper.model.Model.prob` (`Model/Bilby.lean`) with the product rounded to double precision, evaluated at the
posterior samples of a likelihood (`hyperpe.py:197`) and at the injections of a selection function
(`vt.py:252`).

Simplifications: the functions are evaluated sample by sample (C97), and values are not cached (C86).
-/

noncomputable section

open Classical

namespace GW

open Fl

/-- `p *= q` for numbers in double precision; the product starts with `1.0`. -/
def doubleOps : OutOps Fl := ⟨1, fun p q => .ok (mulD p q)⟩

/-- `Model(models, cache=False).prob(sample, **parameters)` at one sample. -/
def sampleProbD (fns : ℕ → ModelFn (Dict Fl) Fl) (models : List ℕ) (sample parameters : Dict Fl) : Except PyErr Fl :=
  (BilbyModel.prob doubleOps (fun _ _ => False) fns (.new Fl models false) sample parameters).1

/-- The samples of a dataset with one row per event. The columns have the shape of the first one. -/
def samplesOf (data : Dict Mat) : List (List (Dict Fl)) :=
  match data with
  | [] => []
  | (_, a) :: _ => a.mapIdx fun i row => row.mapIdx fun j _ =>
      data.map fun kv => (kv.1, (kv.2.getD i []).getD j nan)

/-- The injections: there are as many as entries of `prior`. -/
def injectionsOf (data : Dict Value) : List (Dict Fl) :=
  match data.get? "prior" with
  | some (.arr l) => (List.range l.length).map fun i => data.map fun kv =>
      (kv.1, match kv.2 with
        | .num _ x => x
        | .arr v => v.getD i nan)
  | _ => []

/-- `hyper_prior.prob(data, **parameters)` (`hyperpe.py:197`) in double precision. -/
def populationD (components : List Component) (fns : ℕ → ModelFn (Dict Fl) Fl) (models : List ℕ) :
    PopModel (Dict Mat) Mat :=
  ⟨components, fun data parameters => (samplesOf data).mapM fun row => row.mapM fun sample =>
    sampleProbD fns models sample parameters⟩

/-- `model.prob(data, **parameters)` (`vt.py:252`) in double precision. -/
def injectedD (components : List Component) (fns : ℕ → ModelFn (Dict Fl) Fl) (models : List ℕ) :
    PopModel (Dict Value) (List Fl) :=
  ⟨components, fun data parameters => (injectionsOf data).mapM fun sample =>
    sampleProbD fns models sample parameters⟩

end GW
