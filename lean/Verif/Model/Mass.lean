import Verif.Model.Utils

/-!
# Model of the function part of `gwpopulation/models/mass.py` (lines 38-527)

Every function is modelled at one element of its array arguments (all operations are
elementwise). `py` says whether the hyper-parameters are Python floats (as opposed to numpy
scalars); the data are always arrays. Simplification: for an empty array the Python code
still runs the hyper-parameter checks once; the elementwise model has no element then.
-/

noncomputable section

open Classical

namespace GW

open Fl

/-- `double_power_law_primary_mass` (`mass.py:38-71`). -/
def doublePowerLawPrimaryMass (b : Backend) (py : Bool)
    (mass alpha1 alpha2 mmin mmax breakFraction : Fl) : Except PyErr Fl := do
  let mBreak := mmin + breakFraction * (mmax - mmin)
  let c2 ← powerlaw b py (pos mBreak) (kw (-alpha2)) (kw mmax) (kw mBreak)
  let c1 ← powerlaw b py (pos mBreak) (kw (-alpha1)) (kw mBreak) (kw mmin)
  let correction := c2 / c1
  let lowPart ← powerlaw b py (pos mass) (kw (-alpha1)) (kw mBreak) (kw mmin)
  let highPart ← powerlaw b py (pos mass) (kw (-alpha2)) (kw mmax) (kw mBreak)
  let prob := lowPart * ind (mass < mBreak) * correction + highPart * ind (mBreak ≤ mass)
  return prob / (1 + correction)

/-- `double_power_law_peak_primary_mass` (`mass.py:74-137`). -/
def doublePowerLawPeakPrimaryMass (b : Backend) (py : Bool)
    (mass alpha1 alpha2 mmin mmax breakFraction lam mpp sigpp gaussianMassMaximum : Fl) :
    Except PyErr Fl := do
  let pPow ← doublePowerLawPrimaryMass b py mass alpha1 alpha2 mmin mmax breakFraction
  let pNorm ← truncnorm b (pos mass) (kw mpp) (kw sigpp) (kw gaussianMassMaximum) (kw mmin)
  return (1 - lam) * pPow + lam * pNorm

/-- The conditional mass-ratio factor `powerlaw(mass_ratio, beta, 1, mmin / mass_1)` used at
`mass.py:182`, `:437` and (unsmoothed) `:616`. The last argument is an array, so numpy
arithmetic applies. -/
def massRatioFactor (b : Backend) (q beta mmin m1 : Fl) : Except PyErr Fl :=
  powerlaw b false (pos q) (pos beta) (pos 1) (pos (mmin / m1))

/-- `double_power_law_primary_power_law_mass_ratio` (`mass.py:140-184`). -/
def doublePowerLawPrimaryPowerLawMassRatio (b : Backend) (py : Bool)
    (m1 q alpha1 alpha2 beta mmin mmax breakFraction : Fl) : Except PyErr Fl := do
  let pM1 ← doublePowerLawPrimaryMass b py m1 alpha1 alpha2 mmin mmax breakFraction
  let pQ ← massRatioFactor b q beta mmin m1
  return pM1 * pQ

/-- `power_law_mass` (`mass.py:276-294`). -/
def powerLawMass (b : Backend) (py : Bool) (mass alpha mmin mmax : Fl) : Except PyErr Fl :=
  powerlaw b py (pos mass) (kw (-alpha)) (kw mmax) (kw mmin)

/-- `two_component_single` (`mass.py:297-332`). -/
def twoComponentSingle (b : Backend) (py : Bool)
    (mass alpha mmin mmax lam mpp sigpp gaussianMassMaximum : Fl) : Except PyErr Fl := do
  let pPow ← powerlaw b py (pos mass) (kw (-alpha)) (kw mmax) (kw mmin)
  let pNorm ← truncnorm b (pos mass) (kw mpp) (kw sigpp) (kw gaussianMassMaximum) (kw mmin)
  return (1 - lam) * pPow + lam * pNorm

/-- `three_component_single` (`mass.py:335-394`). -/
def threeComponentSingle (b : Backend) (py : Bool)
    (mass alpha mmin mmax lam lam1 mpp1 sigpp1 mpp2 sigpp2 gaussianMassMaximum : Fl) :
    Except PyErr Fl := do
  let pPow ← powerlaw b py (pos mass) (kw (-alpha)) (kw mmax) (kw mmin)
  let pNorm1 ← truncnorm b (pos mass) (kw mpp1) (kw sigpp1) (kw gaussianMassMaximum) (kw mmin)
  let pNorm2 ← truncnorm b (pos mass) (kw mpp2) (kw sigpp2) (kw gaussianMassMaximum) (kw mmin)
  return (1 - lam) * pPow + lam * lam1 * pNorm1 + lam * (1 - lam1) * pNorm2

/-- `two_component_primary_mass_ratio` (`mass.py:397-439`). -/
def twoComponentPrimaryMassRatio (b : Backend) (py : Bool)
    (m1 q alpha beta mmin mmax lam mpp sigpp gaussianMassMaximum : Fl) : Except PyErr Fl := do
  let pM1 ← twoComponentSingle b py m1 alpha mmin mmax lam mpp sigpp gaussianMassMaximum
  let pQ ← massRatioFactor b q beta mmin m1
  return pM1 * pQ

/-- `power_law_primary_mass_ratio` (`mass.py:187-214`): the previous function with `lam=0`,
`mpp=35`, `sigpp=1` and the default `gaussian_mass_maximum=100`. -/
def powerLawPrimaryMassRatio (b : Backend) (py : Bool) (m1 q alpha beta mmin mmax : Fl) :
    Except PyErr Fl :=
  twoComponentPrimaryMassRatio b py m1 q alpha beta mmin mmax (fin 0) (fin 35) (fin 1) (fin 100)

/-- `_primary_secondary_general` (`mass.py:217-218`). -/
def primarySecondaryGeneral (m1 m2 pM1 pM2 : Fl) : Fl := pM1 * pM2 * ind (m2 ≤ m1) * fin 2

/-- `power_law_primary_secondary_independent` (`mass.py:221-247`). -/
def powerLawPrimarySecondaryIndependent (b : Backend) (py : Bool)
    (m1 m2 alpha beta mmin mmax : Fl) : Except PyErr Fl := do
  let pM1 ← powerlaw b py (pos m1) (pos (-alpha)) (pos mmax) (pos mmin)
  let pM2 ← powerlaw b py (pos m2) (pos (-beta)) (pos mmax) (pos mmin)
  return primarySecondaryGeneral m1 m2 pM1 pM2

/-- `power_law_primary_secondary_identical` (`mass.py:250-273`). -/
def powerLawPrimarySecondaryIdentical (b : Backend) (py : Bool) (m1 m2 alpha mmin mmax : Fl) :
    Except PyErr Fl :=
  powerLawPrimarySecondaryIndependent b py m1 m2 alpha alpha mmin mmax

/-- `two_component_primary_secondary_independent` (`mass.py:442-485`). -/
def twoComponentPrimarySecondaryIndependent (b : Backend) (py : Bool)
    (m1 m2 alpha beta mmin mmax lam mpp sigpp gaussianMassMaximum : Fl) : Except PyErr Fl := do
  let pM1 ← twoComponentSingle b py m1 alpha mmin mmax lam mpp sigpp gaussianMassMaximum
  let pM2 ← twoComponentSingle b py m2 beta mmin mmax lam mpp sigpp gaussianMassMaximum
  return primarySecondaryGeneral m1 m2 pM1 pM2

/-- `two_component_primary_secondary_identical` (`mass.py:488-527`). -/
def twoComponentPrimarySecondaryIdentical (b : Backend) (py : Bool)
    (m1 m2 alpha mmin mmax lam mpp sigpp gaussianMassMaximum : Fl) : Except PyErr Fl :=
  twoComponentPrimarySecondaryIndependent b py m1 m2 alpha alpha mmin mmax lam mpp sigpp
    gaussianMassMaximum

end GW
