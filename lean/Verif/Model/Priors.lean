import Verif.Model.Analysis

/-!
# The prior files of the repository (`priors/*.prior`) and the population they are used with

The files are text read by `bilby.core.prior.PriorDict`, one parameter per line. Simplification: of a prior only its
shape and range are kept (not its label); `bilby` is not part of the repository, its priors are drawn by rescaling a
number between 0 and 1, as documented there.
-/

noncomputable section

open Classical

namespace GW

open Fl

/-- The kinds of priors in the files. -/
inductive PriorDist where
  /-- `Uniform(minimum, maximum)` -/
  | uniform (lo hi : ℝ)
  /-- `LogUniform(minimum, maximum)` -/
  | logUniform (lo hi : ℝ)
  /-- a number -/
  | delta (v : ℝ)

/-- `prior.rescale(u)`. -/
def PriorDist.rescale : PriorDist → ℝ → ℝ
  | .uniform lo hi, u => lo + u * (hi - lo)
  | .logUniform lo hi, u => lo * Real.exp (u * Real.log (hi / lo))
  | .delta v, _ => v

/-- A prior file: its lines. -/
abbrev PriorFile := List (String × PriorDist)

/-- `PriorDict(file).sample()` for the random numbers `u`. -/
def PriorFile.sample (file : PriorFile) (u : String → ℝ) : Dict Fl :=
  file.map fun e => (e.1, fin (e.2.rescale (u e.1)))

/-- `priors/bbh_population.prior:1-21`. -/
def bbhPopulationPrior : PriorFile :=
  [("xi_spin", .uniform 0 1), ("amax_1", .uniform 0 1), ("amax_2", .uniform 0 1), ("mu_1", .delta 1),
   ("mu_2", .delta 1), ("sigma_1", .uniform 0.01 4), ("sigma_2", .uniform 0.01 4), ("alpha_chi_1", .uniform 1 5),
   ("alpha_chi_2", .uniform 1 5), ("beta_chi_1", .uniform 1 5), ("beta_chi_2", .uniform 1 5),
   ("alpha", .uniform (-4) 12), ("mmin", .uniform 3 10), ("mmax", .uniform 30 65), ("lam", .uniform 0 1),
   ("mpp", .uniform 20 60), ("sigpp", .uniform 0.5 10), ("beta", .uniform (-4) 12), ("delta_m", .uniform 0 10),
   ("lamb", .uniform (-5) 10), ("rate", .logUniform 0.1 1000)]

/-- `priors/mass_rates.prior:1-18`. -/
def massRatesPrior : PriorFile :=
  [("xi", .delta 0), ("amax_1", .delta 1), ("amax_2", .delta 1), ("sigma_1", .delta 100), ("sigma_2", .delta 100),
   ("alpha_1", .delta 1), ("alpha_2", .delta 1), ("beta_1", .delta 1), ("beta_2", .delta 1),
   ("alpha", .uniform (-4) 6), ("mmin", .uniform 2 10), ("mmax", .uniform 20 65), ("lam", .uniform 0 1),
   ("mpp", .uniform 20 60), ("sigpp", .uniform 0.5 10), ("beta", .uniform (-4) 6), ("delta_m", .uniform 0 10),
   ("rate", .logUniform 0.1 1000)]

/-- `priors/spin.prior:1-11`. -/
def spinPrior : PriorFile :=
  [("xi_spin", .uniform 0 1), ("amax_1", .uniform 0 1), ("amax_2", .uniform 0 1), ("mu_1", .delta 1),
   ("mu_2", .delta 1), ("sigma_1", .uniform 0.01 4), ("sigma_2", .uniform 0.01 4), ("alpha_1", .uniform 1 5),
   ("alpha_2", .uniform 1 5), ("beta_1", .uniform 1 5), ("beta_2", .uniform 1 5)]

/-- `priors/spin_talbot_thrane.prior:1-3`. -/
def spinTalbotThranePrior : PriorFile :=
  [("xi_spin", .uniform 0 1), ("sigma_1", .uniform 0.01 4), ("sigma_2", .uniform 0.01 4)]

/-! ## The functions of the population of `test/example_test.py:27-44` -/

/-- `independent_spin_magnitude_beta` (`spin.py:70-92`) in a population model. -/
def independentMagnitudeFn (junk : Fl → Fl → Fl) (b : Backend) : ModelFn (Dict Fl) Fl where
  select := bySignature ["alpha_chi_1", "alpha_chi_2", "beta_chi_1", "beta_chi_2", "amax_1", "amax_2"]
  call data θ := do
    independentSpinMagnitudeBeta junk b data (← θ.get "alpha_chi_1") (← θ.get "alpha_chi_2")
      (← θ.get "beta_chi_1") (← θ.get "beta_chi_2") (← θ.get "amax_1") (← θ.get "amax_2")

/-- `independent_spin_orientation_gaussian_isotropic` (`spin.py:127-166`) in a population model. -/
def independentOrientationFn (b : Backend) : ModelFn (Dict Fl) Fl where
  select := bySignature ["xi_spin", "sigma_1", "sigma_2", "mu_1", "mu_2"]
  call data θ := do
    independentSpinOrientation b data (← θ.get "xi_spin") (← θ.get "sigma_1") (← θ.get "sigma_2")
      (← θ.get "mu_1") (← θ.get "mu_2")

/-- `independent_spin_orientation_gaussian_isotropic(dataset, **kwargs)` (`spin.py:127-129`): `mu_1` and `mu_2` may be
left out. -/
def orientationByKeywords (b : Backend) (data kwargs : Dict Fl) : Except PyErr Fl := do
  let g ← bindArgs ["xi_spin", "sigma_1", "sigma_2", "mu_1", "mu_2"] [("mu_1", fin 1), ("mu_2", fin 1)] kwargs
  independentSpinOrientation b data (g "xi_spin") (g "sigma_1") (g "sigma_2") (g "mu_1") (g "mu_2")

/-- The parameters of `SinglePeakSmoothedMassDistribution`, its `variable_names` (`mass.py:547-560`). -/
def singlePeakNames : List String := ["alpha", "mmin", "mmax", "lam", "mpp", "sigpp", "beta", "delta_m"]

/-- The population models of `test/example_test.py:27-44`; the mass model is the instance behind `ref`. -/
def examplePopulation (junk : Fl → Fl → Fl) (b : Backend) (z : Redshift) (ref : ℕ) : List PopFn :=
  .smoothed ref singlePeakNames ::
    [independentMagnitudeFn junk b, independentOrientationFn b, redshiftFn z].map .pointwise

end GW
