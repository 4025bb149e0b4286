import Verif.Model.Conversions
import Verif.Model.Rounded

/-!
# The conversions between Beta parameters in double precision

`alpha_beta_max_to_mu_var_max` and `mu_var_max_to_alpha_beta_max` of `conversions.py` with every operation
rounded to double precision.

Simplification: squares are rounded once, as a product (C's `pow` may be off by a unit in the last place).
-/

noncomputable section

open Classical

namespace GW

open Fl

/-- A quotient, rounded; between Python floats division by zero raises. -/
def pyDivD (py : Bool) (a b : Fl) : Except PyErr Fl := do
  let q ← pyDiv py a b
  return toDouble q

/-- `alpha_beta_max_to_mu_var_max` (`conversions.py:72-101`, see `alphaBetaMaxToMuVarMax`) in double precision. -/
def alphaBetaMaxToMuVarMaxD (py : Bool) (alpha beta amax : Fl) : Except PyErr (Fl × Fl × Fl) := do
  let s := toDouble (alpha + beta)
  let r ← pyDivD py alpha s
  let mu := mulD r amax
  let v ← pyDivD py (mulD alpha beta) (mulD (mulD s s) (toDouble (s + 1)))
  let var := mulD v (mulD amax amax)
  pure (mu, var, amax)

/-- `mu_var_max_to_alpha_beta_max` (`conversions.py:104-135`, see `muVarMaxToAlphaBetaMax`) in double
precision. -/
def muVarMaxToAlphaBetaMaxD (py : Bool) (mu var amax : Fl) : Except PyErr (Fl × Fl × Fl) := do
  let mu ← pyDivD py mu amax
  let var ← pyDivD py var (mulD amax amax)
  let c := toDouble (1 - mu)
  let alpha ← pyDivD py (toDouble (mulD (mulD mu mu) c - mulD mu var)) var
  let beta ← pyDivD py (toDouble (mulD mu (mulD c c) - mulD c var)) var
  pure (alpha, beta, amax)

end GW
