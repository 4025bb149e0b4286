import Verif.Model.HyperPE

/-!
# `generate_extra_statistics` step by step, and rejected limits

`Likelihood.generateExtraStatistics` (`Model/HyperPE.lean`) says what a completed call returns. The
call writes into the dictionary of the caller (`hyperpe.py:253-254`, `hyperpe.py:262-275`), so a call
that raises, or that is interrupted, leaves some of its entries behind. This module models the
sequence of assignments.
-/

noncomputable section

open Classical

namespace GW

open Fl

/-- Assignments `sample[key] = value`, first to last. -/
def applyWrites (sample : Dict Fl) (writes : List (String × Fl)) : Dict Fl :=
  writes.foldl (fun d w => d.set w.1 w.2) sample

namespace Likelihood

/-- The assignments of the loop over events (`hyperpe.py:262-264`) and the exception that ends it. -/
def eventWrites (events : List (Fl × Fl)) : List ℕ → List (String × Fl) × Option PyErr
  | [] => ([], none)
  | i :: is =>
    match events[i]? with
    | none => ([], some .indexError)
    | some e =>
      let rest := eventWrites events is
      (("ln_bf_" ++ toString i, e.1) :: ("var_" ++ toString i, e.2) :: rest.1, rest.2)

/-- The assignments that `generate_extra_statistics` (`hyperpe.py:257-275`) makes to the dictionary it
is given, in order, and the exception it ends with, if any. -/
def extraWrites (self : Likelihood) (sample : Dict Fl) : List (String × Fl) × Option PyErr :=
  match self.conversion sample with
  | .error e => ([], some e)
  | .ok parameters =>
    match self.perEvent parameters with
    | .error e => ([], some e)
    | .ok events =>
      match eventWrites events (List.range self.nPosteriors) with
      | (writes, some e) => (writes, some e)
      | (writes, none) =>
        match self.selectionWithUncertainty parameters with
        | .error e => (writes, some e)
        | .ok (py, selection, variance) =>
          match pyDiv py variance (selection ^ 2) with
          | .error e => (writes, some e)
          | .ok variance =>
            (writes ++ [("selection", selection), ("selection_variance", variance),
              ("variance", Arr.sum (events.map Prod.snd) +
                variance * (self.nPosteriors : Fl) ^ 2)], none)

/-- The caller's dictionary if the call is interrupted (`KeyboardInterrupt`, the end of the process)
after `k` assignments. -/
def extraInterrupted (self : Likelihood) (k : ℕ) (sample : Dict Fl) : Dict Fl :=
  applyWrites sample ((self.extraWrites sample).1.take k)

/-- The caller's dictionary after the call has returned or raised. -/
def extraAfter (self : Likelihood) (sample : Dict Fl) : Dict Fl :=
  applyWrites sample (self.extraWrites sample).1

/-- A value given to `maximum_uncertainty`: a number, or an object that is neither a number nor
comparable to one (`None`, a string). -/
inductive LimitValue where
  | num (x : Fl)
  | other

/-- The two attributes set by the setter of `maximum_uncertainty`. -/
structure Limits where
  /-- `_maximum_uncertainty` -/
  maximumUncertainty : LimitValue
  /-- `_max_variance` -/
  maxVariance : Fl

/-- The setter of `maximum_uncertainty` (`hyperpe.py:155-161`): the first attribute is assigned before
`value**2` raises `TypeError`. -/
def Limits.set (l : Limits) : LimitValue → Limits × Option PyErr
  | .num x => (⟨.num x, maxVarianceOf x⟩, none)
  | .other => (⟨.other, l.maxVariance⟩, some .typeError)

/-- `log_likelihood_ratio` (`hyperpe.py:180-184`) for the attributes `l`; the comparison raises
`TypeError` for objects that are not numbers. -/
def ratioWithLimits (self : Likelihood) (l : Limits) (parameters : Dict Fl) : Except PyErr Fl :=
  match l.maximumUncertainty with
  | .num x => ({ self with maximumUncertainty := x, maxVariance := l.maxVariance } :
      Likelihood).logLikelihoodRatio parameters
  | .other => do
    let _ ← self.lnLikelihoodAndVariance parameters
    .error .typeError

end Likelihood

end GW
