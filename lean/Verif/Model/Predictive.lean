import Verif.Model.HyperPE

/-!
# Formats of the hyper-samples given to `posterior_predictive_resample`
-/

noncomputable section

open Classical

namespace GW

open Fl

/-- The argument `samples` of `posterior_predictive_resample` (`hyperpe.py:345`): a `pandas.DataFrame` with named columns
and `n` rows, a dictionary, or a list of dictionaries. Simplification: the columns have different names. -/
inductive HyperSamples where
  | frame (cols : List (String × List Fl)) (n : ℕ)
  | dict (sample : Dict Fl)
  | list (samples : List (Dict Fl))

/-- The list of samples made from the argument (`hyperpe.py:370-373`); `dict(samples.iloc[ii])` has the entries of one
row, in the order of the columns. -/
def HyperSamples.rows : HyperSamples → List (Dict Fl)
  | .frame cols n => (List.range n).map fun ii => cols.map fun c => (c.1, c.2.getD ii nan)
  | .dict sample => [sample]
  | .list samples => samples

/-- `posterior_predictive_resample` (`hyperpe.py:345-420`) with hyper-samples in one of the accepted formats. -/
def Likelihood.posteriorPredictiveResampleOf (lik : Likelihood) (samples : HyperSamples)
    (choices : List (List ℕ)) : Except PyErr (Dict Mat × Mat) :=
  lik.posteriorPredictiveResample samples.rows choices

end GW
