import Verif.Model.Autodiff
import Verif.Model.Spin

/-!
# Recorded computations of the spin models

The computations that jax records (see `Model/Autodiff.lean`) for `gwpopulation/models/spin.py:24-330`.
-/

noncomputable section

open Classical

namespace GW

open Fl Ex

/-- `independent_spin_magnitude_beta` (`spin.py:70-92`). -/
def spinMagnitudeEx (junk junkL junkR : Fl → Fl → Fl) (a1 a2 alpha1 alpha2 beta1 beta2 amax1 amax2 : Ex) : Ex :=
  betaDistEx junk junkL junkR a1 alpha1 beta1 amax1 * betaDistEx junk junkL junkR a2 alpha2 beta2 amax2

/-- `independent_spin_orientation_gaussian_isotropic` (`spin.py:127-166`). -/
def spinOrientationEx (z1 z2 xi sigma1 sigma2 mu1 mu2 : Ex) : Ex :=
  (const 1 - xi) / const 4 + xi * truncnormEx z1 mu1 sigma1 (const 1) (const (-1)) *
    truncnormEx z2 mu2 sigma2 (const 1) (const (-1))

/-- `iid_spin` (`spin.py:24-47`). -/
def iidSpinEx (junk junkL junkR : Fl → Fl → Fl) (a1 a2 z1 z2 xi sigma amax alpha beta : Ex) : Ex :=
  spinOrientationEx z1 z2 xi sigma sigma (const 1) (const 1) *
    spinMagnitudeEx junk junkL junkR a1 a2 alpha alpha beta beta amax amax

/-- `unnormalized_2d_gaussian` (`utils.py:220-228`). -/
def gaussian2dEx (xx yy muX muY sigmaX sigmaY covariance : Ex) : Ex :=
  let determinant := un .square sigmaX * un .square sigmaY * (const 1 - covariance)
  let residualX := (muX - xx) * sigmaY
  let residualY := (muY - yy) * sigmaX
  un .exp (-(un .square residualX + un .square residualY - const 2 * residualX * residualY * covariance) /
    const 2 / determinant)

/-- `GaussianChiEffChiP._normalization` (`spin.py:294-330`). -/
def chiNormEx (s : GaussianChiEffChiP) (muE sigmaE muP sigmaP covariance : Ex) : Ex :=
  trapzEx (s.chiP.map fun p => trapzEx (s.chiEff.map fun e =>
    gaussian2dEx (const (fin e)) (const (fin p)) muE muP sigmaE sigmaP covariance) s.chiEff) s.chiP

/-- `GaussianChiEffChiP.__call__` (`spin.py:269-292`); the masks depend on the data only. -/
def chiEffChiPEx (s : GaussianChiEffChiP) (e p : Fl) (muE sigmaE muP sigmaP covariance : Ex) : Ex :=
  gaussian2dEx (const e) (const p) muE muP sigmaE sigmaP covariance /
    chiNormEx s muE sigmaE muP sigmaP covariance * const (ind (Fl.abs e ≤ 1)) *
    const (ind (p ≤ 1) * ind (0 ≤ p))

end GW
