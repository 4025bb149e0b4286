import Verif.Model.Utils

/-!
# Model of `gwpopulation/models/spin.py` (lines 24-330)

The functions are modelled at one element of the arrays in `dataset` (all operations are
elementwise): `dataset` maps names to the floats of one sample. `junk` is whatever `betaln`
returns outside its domain (see `Model/Utils.lean`).
-/

noncomputable section

open Classical

namespace GW

open Fl

/-- `independent_spin_magnitude_beta` (`spin.py:70-92`). -/
def independentSpinMagnitudeBeta (junk : Fl → Fl → Fl) (b : Backend) (dataset : Dict Fl)
    (alphaChi1 alphaChi2 betaChi1 betaChi2 amax1 amax2 : Fl) : Except PyErr Fl := do
  let a1 ← dataset.get "a_1"
  let p1 ← betaDist junk b (pos a1) (pos alphaChi1) (pos betaChi1) (kw amax1)
  let a2 ← dataset.get "a_2"
  let p2 ← betaDist junk b (pos a2) (pos alphaChi2) (pos betaChi2) (kw amax2)
  return p1 * p2

/-- `iid_spin_magnitude_beta` (`spin.py:50-67`). -/
def iidSpinMagnitudeBeta (junk : Fl → Fl → Fl) (b : Backend) (dataset : Dict Fl)
    (amax : Fl := 1) (alphaChi : Fl := 1) (betaChi : Fl := 1) : Except PyErr Fl :=
  independentSpinMagnitudeBeta junk b dataset alphaChi alphaChi betaChi betaChi amax amax

/-- `independent_spin_orientation_gaussian_isotropic` (`spin.py:127-166`). -/
def independentSpinOrientation (b : Backend) (dataset : Dict Fl)
    (xiSpin sigma1 sigma2 : Fl) (mu1 : Fl := 1) (mu2 : Fl := 1) : Except PyErr Fl := do
  let z1 ← dataset.get "cos_tilt_1"
  let p1 ← truncnorm b (pos z1) (pos mu1) (pos sigma1) (pos 1) (pos (-1))
  let z2 ← dataset.get "cos_tilt_2"
  let p2 ← truncnorm b (pos z2) (pos mu2) (pos sigma2) (pos 1) (pos (-1))
  return (1 - xiSpin) / 4 + xiSpin * p1 * p2

/-- `iid_spin_orientation_gaussian_isotropic` (`spin.py:95-124`). -/
def iidSpinOrientation (b : Backend) (dataset : Dict Fl)
    (xiSpin sigmaSpin : Fl) (muSpin : Fl := 1) : Except PyErr Fl :=
  independentSpinOrientation b dataset xiSpin sigmaSpin sigmaSpin muSpin muSpin

/-- `iid_spin` (`spin.py:24-47`). -/
def iidSpin (junk : Fl → Fl → Fl) (b : Backend) (dataset : Dict Fl)
    (xiSpin sigmaSpin amax alphaChi betaChi : Fl) : Except PyErr Fl := do
  let p ← iidSpinOrientation b dataset xiSpin sigmaSpin
  let q ← iidSpinMagnitudeBeta junk b dataset amax alphaChi betaChi
  return p * q

/-- `gaussian_chi_eff` (`spin.py:169-197`). -/
def gaussianChiEff (b : Backend) (dataset : Dict Fl) (muChiEff sigmaChiEff : Fl) :
    Except PyErr Fl := do
  let x ← dataset.get "chi_eff"
  truncnorm b (pos x) (kw muChiEff) (kw sigmaChiEff) (kw 1) (kw (-1))

/-- `gaussian_chi_p` (`spin.py:200-224`). -/
def gaussianChiP (b : Backend) (dataset : Dict Fl) (muChiP sigmaChiP : Fl) :
    Except PyErr Fl := do
  let x ← dataset.get "chi_p"
  truncnorm b (pos x) (kw muChiP) (kw sigmaChiP) (kw 1) (kw 0)

/-- An instance of `GaussianChiEffChiP`: its two grid axes (`chi_eff_grid` and `chi_p_grid` are the
mesh of these, one row per `chi_p`). -/
structure GaussianChiEffChiP where
  /-- `self.chi_eff` -/
  chiEff : List ℝ
  /-- `self.chi_p` -/
  chiP : List ℝ

namespace GaussianChiEffChiP

/-- `GaussianChiEffChiP.__init__` (`spin.py:264-267`). -/
def init : GaussianChiEffChiP where
  chiEff := Arr.linspaceR (-1) 1 500
  chiP := Arr.linspaceR 0 1 250

/-- `GaussianChiEffChiP._normalization` (`spin.py:294-330`): one trapezoid per row of the mesh,
then one over the rows. -/
def normalization (self : GaussianChiEffChiP)
    (muChiEff sigmaChiEff muChiP sigmaChiP spinCovariance : Fl) : Fl :=
  let prob := self.chiP.map fun p => self.chiEff.map fun e =>
    unnormalized2dGaussian (fin e) (fin p) muChiEff muChiP sigmaChiEff sigmaChiP spinCovariance
  Arr.trapz (prob.map fun row => Arr.trapz row (self.chiEff.map fin)) (self.chiP.map fin)

/-- `GaussianChiEffChiP.__call__` (`spin.py:269-292`). -/
def call (self : GaussianChiEffChiP) (dataset : Dict Fl)
    (muChiEff sigmaChiEff muChiP sigmaChiP spinCovariance : Fl) : Except PyErr Fl := do
  let e ← dataset.get "chi_eff"
  let p ← dataset.get "chi_p"
  let prob := unnormalized2dGaussian e p muChiEff muChiP sigmaChiEff sigmaChiP spinCovariance
  let prob := prob / self.normalization muChiEff sigmaChiEff muChiP sigmaChiP spinCovariance
  let prob := prob * ind (Fl.abs e ≤ 1)
  return prob * (ind (p ≤ 1) * ind (0 ≤ p))

end GaussianChiEffChiP

end GW
