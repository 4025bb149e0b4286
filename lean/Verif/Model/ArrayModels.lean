import Verif.Model.ArrayDensities

/-!
# Mass and spin models as functions of arrays

The functions of `models/mass.py` and `models/spin.py` on datasets of arrays of any shape. The models at one element
are in `Model/Mass.lean` and `Model/Spin.lean`.
-/

noncomputable section

open Classical

namespace GW

open Fl NArr

/-- Positional argument. -/
abbrev apos (x : NArr) : AArg := ⟨x, false⟩

/-- Keyword argument. -/
abbrev akw (x : NArr) : AArg := ⟨x, true⟩

/-! ## Masses -/

/-- `power_law_mass` (`mass.py:276-294`). -/
def powerLawMassA (b : Backend) (mass alpha mmin mmax : NArr) : Except PyErr NArr :=
  powerlawA b (apos mass) (akw (neg b alpha)) (akw mmax) (akw mmin)

/-- `double_power_law_primary_mass` (`mass.py:38-71`). -/
def doublePowerLawPrimaryMassA (b : Backend) (mass alpha1 alpha2 mmin mmax breakFraction : NArr) :
    Except PyErr NArr := do
  let mBreak ← add b mmin (← mul b breakFraction (← sub b mmax mmin))
  let c2 ← powerlawA b (apos mBreak) (akw (neg b alpha2)) (akw mmax) (akw mBreak)
  let c1 ← powerlawA b (apos mBreak) (akw (neg b alpha1)) (akw mBreak) (akw mmin)
  let correction ← div b c2 c1
  let lowPart ← powerlawA b (apos mass) (akw (neg b alpha1)) (akw mBreak) (akw mmin)
  let highPart ← powerlawA b (apos mass) (akw (neg b alpha2)) (akw mmax) (akw mBreak)
  let prob ← add b (← mul b (← mul b lowPart (← lt b mass mBreak)) correction)
    (← mul b highPart (← le b mBreak mass))
  div b prob (← add b (pyInt 1) correction)

/-- `two_component_single` (`mass.py:297-332`). -/
def twoComponentSingleA (b : Backend) (mass alpha mmin mmax lam mpp sigpp gaussianMassMaximum : NArr) :
    Except PyErr NArr := do
  let pPow ← powerlawA b (apos mass) (akw (neg b alpha)) (akw mmax) (akw mmin)
  let pNorm ← truncnormA b (apos mass) (akw mpp) (akw sigpp) (akw gaussianMassMaximum) (akw mmin)
  add b (← mul b (← sub b (pyInt 1) lam) pPow) (← mul b lam pNorm)

/-- `double_power_law_peak_primary_mass` (`mass.py:74-137`). -/
def doublePowerLawPeakPrimaryMassA (b : Backend)
    (mass alpha1 alpha2 mmin mmax breakFraction lam mpp sigpp gaussianMassMaximum : NArr) : Except PyErr NArr := do
  let pPow ← doublePowerLawPrimaryMassA b mass alpha1 alpha2 mmin mmax breakFraction
  let pNorm ← truncnormA b (apos mass) (akw mpp) (akw sigpp) (akw gaussianMassMaximum) (akw mmin)
  add b (← mul b (← sub b (pyInt 1) lam) pPow) (← mul b lam pNorm)

/-- `three_component_single` (`mass.py:335-394`). -/
def threeComponentSingleA (b : Backend)
    (mass alpha mmin mmax lam lam1 mpp1 sigpp1 mpp2 sigpp2 gaussianMassMaximum : NArr) : Except PyErr NArr := do
  let pPow ← powerlawA b (apos mass) (akw (neg b alpha)) (akw mmax) (akw mmin)
  let pNorm1 ← truncnormA b (apos mass) (akw mpp1) (akw sigpp1) (akw gaussianMassMaximum) (akw mmin)
  let pNorm2 ← truncnormA b (apos mass) (akw mpp2) (akw sigpp2) (akw gaussianMassMaximum) (akw mmin)
  let first ← mul b (← sub b (pyInt 1) lam) pPow
  let second ← mul b (← mul b lam lam1) pNorm1
  let third ← mul b (← mul b lam (← sub b (pyInt 1) lam1)) pNorm2
  add b (← add b first second) third

/-- `powerlaw(dataset["mass_ratio"], beta, 1, mmin / dataset["mass_1"])` (`mass.py:182`, `:437`). -/
def massRatioFactorA (b : Backend) (q beta mmin m1 : NArr) : Except PyErr NArr := do
  let low ← div b mmin m1
  powerlawA b (apos q) (apos beta) (apos (pyInt 1)) (apos low)

/-- `double_power_law_primary_power_law_mass_ratio` (`mass.py:140-184`). -/
def doublePowerLawPrimaryPowerLawMassRatioA (b : Backend)
    (m1 q alpha1 alpha2 beta mmin mmax breakFraction : NArr) : Except PyErr NArr := do
  let pM1 ← doublePowerLawPrimaryMassA b m1 alpha1 alpha2 mmin mmax breakFraction
  let pQ ← massRatioFactorA b q beta mmin m1
  mul b pM1 pQ

/-- `two_component_primary_mass_ratio` (`mass.py:397-439`). -/
def twoComponentPrimaryMassRatioA (b : Backend)
    (m1 q alpha beta mmin mmax lam mpp sigpp gaussianMassMaximum : NArr) : Except PyErr NArr := do
  let pM1 ← twoComponentSingleA b m1 alpha mmin mmax lam mpp sigpp gaussianMassMaximum
  let pQ ← massRatioFactorA b q beta mmin m1
  mul b pM1 pQ

/-- `power_law_primary_mass_ratio` (`mass.py:187-214`). -/
def powerLawPrimaryMassRatioA (b : Backend) (m1 q alpha beta mmin mmax : NArr) : Except PyErr NArr :=
  twoComponentPrimaryMassRatioA b m1 q alpha beta mmin mmax (pyInt 0) (pyInt 35) (pyInt 1) (pyInt 100)

/-- `_primary_secondary_general` (`mass.py:217-218`). -/
def primarySecondaryGeneralA (b : Backend) (m1 m2 pM1 pM2 : NArr) : Except PyErr NArr := do
  mul b (← mul b (← mul b pM1 pM2) (← le b m2 m1)) (pyInt 2)

/-- `power_law_primary_secondary_independent` (`mass.py:221-247`). -/
def powerLawPrimarySecondaryIndependentA (b : Backend) (m1 m2 alpha beta mmin mmax : NArr) : Except PyErr NArr := do
  let pM1 ← powerlawA b (apos m1) (apos (neg b alpha)) (apos mmax) (apos mmin)
  let pM2 ← powerlawA b (apos m2) (apos (neg b beta)) (apos mmax) (apos mmin)
  primarySecondaryGeneralA b m1 m2 pM1 pM2

/-- `two_component_primary_secondary_independent` (`mass.py:442-485`). -/
def twoComponentPrimarySecondaryIndependentA (b : Backend)
    (m1 m2 alpha beta mmin mmax lam mpp sigpp gaussianMassMaximum : NArr) : Except PyErr NArr := do
  let pM1 ← twoComponentSingleA b m1 alpha mmin mmax lam mpp sigpp gaussianMassMaximum
  let pM2 ← twoComponentSingleA b m2 beta mmin mmax lam mpp sigpp gaussianMassMaximum
  primarySecondaryGeneralA b m1 m2 pM1 pM2

/-! ## Spins -/

/-- `independent_spin_magnitude_beta` (`spin.py:70-92`). -/
def independentSpinMagnitudeBetaA (junk : Fl → Fl → Fl) (b : Backend) (dataset : Dict NArr)
    (alphaChi1 alphaChi2 betaChi1 betaChi2 amax1 amax2 : NArr) : Except PyErr NArr := do
  let a1 ← dataset.get "a_1"
  let p1 ← betaDistA junk b (apos a1) (apos alphaChi1) (apos betaChi1) (akw amax1)
  let a2 ← dataset.get "a_2"
  let p2 ← betaDistA junk b (apos a2) (apos alphaChi2) (apos betaChi2) (akw amax2)
  mul b p1 p2

/-- `independent_spin_orientation_gaussian_isotropic` (`spin.py:127-166`). -/
def independentSpinOrientationA (b : Backend) (dataset : Dict NArr) (xiSpin sigma1 sigma2 mu1 mu2 : NArr) :
    Except PyErr NArr := do
  let first ← div b (← sub b (pyInt 1) xiSpin) (pyInt 4)
  let z1 ← dataset.get "cos_tilt_1"
  let p1 ← truncnormA b (apos z1) (apos mu1) (apos sigma1) (apos (pyInt 1)) (apos (pyInt (-1)))
  let second ← mul b xiSpin p1
  let z2 ← dataset.get "cos_tilt_2"
  let p2 ← truncnormA b (apos z2) (apos mu2) (apos sigma2) (apos (pyInt 1)) (apos (pyInt (-1)))
  add b first (← mul b second p2)

/-- `iid_spin` (`spin.py:24-47`), with `iid_spin_orientation_gaussian_isotropic` (`:95-124`, default
`mu_spin=1`) and `iid_spin_magnitude_beta` (`:50-67`) called. -/
def iidSpinA (junk : Fl → Fl → Fl) (b : Backend) (dataset : Dict NArr)
    (xiSpin sigmaSpin amax alphaChi betaChi : NArr) : Except PyErr NArr := do
  let p ← independentSpinOrientationA b dataset xiSpin sigmaSpin sigmaSpin (pyInt 1) (pyInt 1)
  let q ← independentSpinMagnitudeBetaA junk b dataset alphaChi alphaChi betaChi betaChi amax amax
  mul b p q

/-- `gaussian_chi_eff` (`spin.py:169-197`). -/
def gaussianChiEffA (b : Backend) (dataset : Dict NArr) (muChiEff sigmaChiEff : NArr) : Except PyErr NArr := do
  let x ← dataset.get "chi_eff"
  truncnormA b (apos x) (akw muChiEff) (akw sigmaChiEff) (akw (pyInt 1)) (akw (pyInt (-1)))

/-- `gaussian_chi_p` (`spin.py:200-224`). -/
def gaussianChiPA (b : Backend) (dataset : Dict NArr) (muChiP sigmaChiP : NArr) : Except PyErr NArr := do
  let x ← dataset.get "chi_p"
  truncnormA b (apos x) (akw muChiP) (akw sigmaChiP) (akw (pyInt 1)) (akw (pyInt 0))

end GW
