import Verif.Model.Utils
import Verif.Num.Round

/-!
# Densities in double precision

`powerlaw`, `truncnorm`, `beta_dist` and `von_mises` of `utils.py` with every operation rounded to double
precision. Powers, logarithms and special functions are those of the library, of which only the accuracy is known.
-/

noncomputable section

open Classical

namespace GW

open Fl

/-- The library functions: C's `pow` and `log`. -/
structure MathLib where
  /-- `pow` -/
  pow : Fl → Fl → Fl
  /-- `log` -/
  log : Fl → Fl

/-- `a ** b` in double precision. Between Python floats (`py`) a zero base with a negative exponent raises
`ZeroDivisionError`, and overflow raises `OverflowError`; numpy returns infinity. -/
def pyPowD (L : MathLib) (py : Bool) (a b : Fl) : Except PyErr Fl :=
  if py = true ∧ Fl.eqf a 0 ∧ b < 0 then .error .zeroDivision
  else if py = true ∧ L.pow a b = pinf ∧ a ≠ pinf ∧ b ≠ pinf ∧ b ≠ ninf then .error .overflowError
  else .ok (L.pow a b)

/-- Body of `powerlaw` (`utils.py:121-130`, see `powerlawBody`) in double precision. -/
def powerlawBodyD (L : MathLib) (py : Bool) (xx alpha high low : Fl) : Except PyErr Fl := do
  let ratio ← pyDiv py high low
  let ratio := toDouble ratio
  let index := toDouble (1 + alpha)
  let ph ← pyPowD L py high index
  let pl ← pyPowD L py low index
  let norm := if eqf alpha (-1) then toDouble (1 / L.log ratio)
    else toDouble (index / toDouble (ph - pl))
  let prob := L.pow xx alpha
  let prob := toDouble (prob * norm)
  let prob := prob * ind (xx ≤ high ∧ low ≤ xx)
  pure prob

/-- The special functions of the backend (`numpy` and `scipy.special` or their replacements). -/
structure SpecialLib where
  /-- `log` -/
  log : Fl → Fl
  /-- `exp` -/
  exp : Fl → Fl
  /-- `log1p` -/
  log1p : Fl → Fl
  /-- `cos` -/
  cos : Fl → Fl
  /-- `ndtr` -/
  ndtr : Fl → Fl
  /-- `log_ndtr` -/
  logNdtr : Fl → Fl
  /-- `betaln` -/
  betaln : Fl → Fl → Fl
  /-- `i0e` -/
  i0e : Fl → Fl

/-- `logsubexp` (`utils.py:160-161`) in double precision. -/
def logsubexpD (L : SpecialLib) (logP logQ : Fl) : Fl :=
  toDouble (logP + L.log (toDouble (1 - L.exp (toDouble (logQ - logP)))))

/-- The logarithm of the normalisation in `truncnorm` (`utils.py:169-180`) in double precision. -/
def truncLogNormD (L : SpecialLib) (aa bb : Fl) : Fl :=
  if bb ≤ 0 then logsubexpD L (L.logNdtr bb) (L.logNdtr aa)
  else if 0 < aa then logsubexpD L (L.logNdtr (-aa)) (L.logNdtr (-bb))
  else if 0 < bb then L.log1p (toDouble (-(L.ndtr aa) - L.ndtr (-bb)))
  else nan

/-- Body of `truncnorm` (`utils.py:160-183`, see `truncnormBody`) in double precision. `np.log(2.0 * np.pi)` and
`xp.log` are taken to be the same function. -/
def truncnormBodyD (L : SpecialLib) (xx mu sigma high low : Fl) : Fl :=
  let zz := toDouble (toDouble (xx - mu) / sigma)
  let aa := toDouble (toDouble (low - mu) / sigma)
  let bb := toDouble (toDouble (high - mu) / sigma)
  let half := toDouble (-(toDouble (zz * zz)) / 2)
  let const := toDouble (L.log (toDouble (2 * toDouble (fin Real.pi))) / 2)
  let logPdf := toDouble (toDouble (half - const) - L.log sigma)
  let logPdf := toDouble (logPdf - truncLogNormD L aa bb)
  nanToNum (L.exp logPdf) * ind (low ≤ xx) * ind (xx ≤ high)

/-- Body of `beta_dist` (`utils.py:87-94`, see `betaDistBody`) in double precision. -/
def betaDistBodyD (L : SpecialLib) (xx alpha beta scale : Fl) : Fl :=
  let lnBeta := toDouble (toDouble (toDouble (alpha - 1) * L.log xx) +
    toDouble (toDouble (beta - 1) * L.log (toDouble (scale - xx))))
  let lnBeta := toDouble (lnBeta - L.betaln alpha beta)
  let lnBeta := toDouble (lnBeta - toDouble (toDouble (toDouble (alpha + beta) - 1) * L.log scale))
  nanToNum (L.exp lnBeta) * (ind (0 ≤ xx) * ind (xx ≤ scale))

/-- `von_mises` (`utils.py:231-258`, see `vonMises`) in double precision. -/
def vonMisesD (L : SpecialLib) (xx mu kappa : Fl) : Fl :=
  toDouble (L.exp (toDouble (kappa * toDouble (L.cos (toDouble (xx - mu)) - 1))) /
    toDouble (toDouble (2 * toDouble (fin Real.pi)) * L.i0e kappa))

end GW
