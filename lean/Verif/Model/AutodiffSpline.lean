import Verif.Model.Autodiff
import Verif.Model.Interped

/-!
# Recorded computations of the spline models

The computations that jax records (see `Model/Autodiff.lean`) for
`gwpopulation/models/interped.py:128-237`. An interpolant of `cached_interpolate` multiplies the node
values by weights that depend on the node positions and on the point; the positions are numbers here, as
they are when the interpolants have been set up.
-/

noncomputable section

open Classical

namespace GW

open Fl Ex

/-- `extract_spline_points` (`interped.py:184-205`): the node values. -/
def nodeValuesEx (s : SplineModel) : List Ex :=
  let f := s.fkeys.map arg
  if s.config.regularize then
    f.map (· * (arg (SplineModel.rmsKey s.base) /
      bin .pow (sumEx (f.map (un .square)) / const (fin f.length)) (const (fin 0.5))))
  else f

/-- The interpolant at a point with weights `w`. -/
def interpolantEx (w : List ℝ) (f : List Ex) : Ex := sumEx (List.zipWith (fun a e => const (fin a) * e) w f)

/-- One value of `p_x_unnormed` or of the integrand of `norm_p_x` (`interped.py:153-159`, `:178-181`); the mask depends
on data and positions only. -/
def splineFactorEx (w : List ℝ) (inside : Prop) (f : List Ex) : Ex :=
  un .exp (interpolantEx w f) * const (ind inside)

/-- `p_x_identical` (`interped.py:207-237`) for one sample with the values `row` of the parameters; `w` are the weights
of a point and `inside` says whether it lies between the outer nodes. -/
def splineModelEx (s : SplineModel) (w : ℝ → List ℝ) (inside : ℝ → Prop) (row : List ℝ) : Ex :=
  let f := nodeValuesEx s
  row.foldl (fun p v => p * splineFactorEx (w v) (inside v) f) (const 1) /
    bin .pow (trapzEx (s.xs.map fun v => splineFactorEx (w v) (inside v) f) s.xs) (const (fin row.length))

end GW
