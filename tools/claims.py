CL={
"C01":("proved","Exact real arithmetic; every call style that is not refused (alpha=1 by keyword is refused, see C66); low=0 covered for numpy scalars."),
"C02":("proved","All condition tables, keyword dictionaries with scalar/array values, all backends; and for powerlaw, truncnorm and beta_dist exactly which arguments are refused."),
"C03":("proved","All three branches, bounded and unbounded windows; ndtr is the standard normal cdf."),
"C04":("proved","All extended floats."),
"C05":("proved","betaln is the logarithm of Mathlib's Beta function."),
"C06":("proved","All extended floats, whatever betaln returns outside its domain."),
"C07":("partial","The property is false (C07_fails): with exponent exactly 1 the end point value is 0. Exact end point values are proved."),
"C66":("partial","The property is false (C66_fails): alpha=1 by keyword is refused; low=0 with Python floats raises ZeroDivisionError. The exact refusal condition is proved."),
"C67":("partial","The property is false (C67_fails): NaN at x=0 for negative alpha. The exact set of points with value 0 / NaN is proved."),
"C08":("partial","The property is false (C08_fails) for correlated Gaussians; exact value proved."),
"C09":("proved","i0e is exp(-|k|) I0(k) with I0 its integral representation; exact arithmetic."),
"C10":("proved","All capability combinations of the array module, any lists of samples, also of different lengths (C10_trapezoid_mismatch; values for a single interval C10_trapezoid_one_interval, C10_trapezoid_two_samples)."),
"C65":("partial","The property is false (C65_fails): cupy/jax objects are only handled when that backend is active. The exact decision table is proved."),
"C11":("proved","Python and numpy floats, exact arithmetic."),
"C12":("proved","All dictionaries with number/None values; exact condition for returning; idempotence."),
"C13":("partial","The property is false (C13_fails) for array valued means/variances with amax != 1: in-place division. Proved for every value that is not such an array; for arrays the values returned and what the arrays hold afterwards are proved (C13_arrays_partial)."),
"C14":("proved","Every registry without an extra function called xp/scs, every call history."),
"C15":("partial","The property is false (C15_fails, C15_retry_fails) if a registered module fails to import. Atomicity is proved for the other failures."),
"C16":("partial","The property is false (C16_fails) for two functions in one module. Proved for the last function of each module."),
"C68":("proved","First and second moments of the density returned by beta_dist."),
"C17":("proved","Exact real arithmetic; alpha=-1 by keyword is refused on numpy/cupy (C17_alpha_neg_one_refused)."),
"C18":("proved","Values and normalisation on the union of the supports of the components."),
"C19":("proved","All points except m1 = mmin, where the code is not finite (C19_boundary_not_finite)."),
"C20":("partial","The property is false (C20_fails) for the independent models; proved for the identical ones, and the exact total mass of the independent ones is proved."),
"C21":("proved","All masses, bounds and widths; never NaN for arbitrary floats."),
"C22":("proved","Four classes, any history with finite masses, numpy/cupy; one-dimensional datasets; m1 != mmin as the property says."),
"C23":("proved","Any grid, any primary model; the norm is shown to be positive for grid masses above mmin."),
"C24":("partial","The property is false (C24_fails) for a caching instance that sees another dataset of the same length (or length 1). Proved for uncached instances and for all other histories."),
"C25":("proved","All instances, dictionaries and datasets."),
"C26":("partial","The property is false (C26_fails) for a primary model with its own variable_names list; the returned set is proved, and the side effect is characterised; all four models of the package return only when given exactly the listed hyper-parameters, except that delta_m may be left out (C26_consumes, C26_lists)."),
"C27":("partial","The property is false (C27_fails): outside [-1,1]^2 the isotropic part stays (1-xi)/4. Normalisation on the square and the exact value outside are proved."),
"C28":("proved","All Beta parameters where the density exists; exact arithmetic."),
"C29":("partial","The property is false (C29_fails): with correlation the value is not proportional to the documented Gaussian. Proved for the one-dimensional models; exact value of the correlated one proved."),
"C30":("proved","All parameters; missing parameter is KeyError."),
"C31":("proved","z_max > 1e-6; below that the code returns negative values (C31_tiny_zmax)."),
"C57":("partial","The property is false (C57_fails): a detector-frame column before the redshift column raises KeyError. Proved for distance data, and for redshift-first data."),
"C58":("partial","The property is false (C58_fails, C58_fails_collision). Order independence proved for distance data without colliding names (C58_distance_partial). For redshift data without colliding names all orders with the redshift before the detector-frame columns agree (C58_redshift_partial) and every other order raises KeyError (C58_raises_partial)."),
"C59":("proved","Any number of redshifted columns, any increasing differentiable distance-redshift relation whose derivative/inverse are what the cosmology object reports."),
"C60":("proved","All dictionaries and cosmologies."),
"C32":("proved","Linearity for all floats; last redshift model of any component list; both branches integrate the same function (grids start at 0 / 1e-6)."),
"C38":("partial","The property is false (C38_fails) if two axes have the same length: then no call returns a number (C38_equal_lengths); for two parameters exactly what comes out instead (C38_square). Proved for any number of axes of pairwise different lengths."),
"C39":("partial","The property is false (C39_fails) for GridVT, which removes 'vt' from the caller's dictionary; exact effect proved; holds for ResamplingVT."),
"C40":("proved","All injection lists; N natural for the variance identity; reordering and zero weights for all floats."),
"C41":("partial","The property is false (C41_fails) for a NaN efficiency (NaN stays NaN); exact result proved for all floats."),
"C42":("partial","The property is false (C42_fails): with the default n_events the efficiency is always +inf (C42_default_partial)."),
"C43":("partial","The property is false (C43_fails): variance 0 raises ZeroDivisionError on numpy/cupy. Proved for positive variance and on jax."),
"C44":("proved","All events, samples, parameters with positive mean weights and positive real selection; exact arithmetic."),
"C45":("proved","All events."),
"C46":("proved","All float results of the estimator; the rounding to doubles in log_likelihood_ratio is modelled (fl64)."),
"C47":("partial","The property is false (C47_fails): the code compares maximum_uncertainty (a standard deviation) with the variance. Rejected, accepted, agreeing and infinite cases characterised exactly, with double rounding."),
"C48":("proved","All parameters and classes."),
"C49":("proved","All rates and events; marginalisation over R with prior 1/R by the Gamma integral."),
"C50":("partial","The property is false (C50_fails, C50_rate_fails): selection_variance is the relative variance, and for RateLikelihood the variance is not that of the likelihood. All entries, and consistency for the other classes, proved."),
"C51":("proved","All frames and every outcome of DataFrame.sample."),
"C52":("partial","The property is false (C52_fails): a column missing from a later frame raises. Proved for shared columns; missing columns characterised."),
"C53":("proved","All weights, all histories of hyper-samples."),
"C54":("partial","The property is false (C54_fails: a selection function returning a tuple raises TypeError; C54_unconverted_fails: the conversion function is not applied). Distribution proved for objects with efficiency and volume and for functions returning a number."),
"C55":("proved","Reordering for all floats incl. special values and all three classes; prior scaling for real weights."),
"C56":("proved","All arguments."),
"C69":("partial","The property is false (C69_fails): the code uses R var / P_det instead of R^2 var; exact value and when they agree proved."),
"C33":("proved","All dictionaries, base names and counts; the search of the code is a well-founded recursion."),
"C34":("partial","The property is false (C34_fails: the range and regularisation flag are reset to the defaults). What happens is characterised for every class: the base class raises TypeError, the two spin classes become the default model with the new node count; without further nodes nothing changes."),
"C35":("partial","The property is false for every interpolation rule that passes through its nodes (C35_fails: the interpolants of the first call are kept). Proved: the exact stale value (C35_frozen_partial), independence for histories with the same data and node positions (C35_same_nodes_partial), and that a call lacking a later column breaks the instance (C35_broken_partial)."),
"C36":("proved","All interpolation rules, grids, nodes and datasets with real entries."),
"C37":("proved","All base names and node counts."),
"C61":("proved","All likelihoods of the base class, all selection functions of ResamplingVT type (marginalisation and convergence enforcement off), all parameters; with and without selection; the varmax rule for all floats."),
"C62":("partial","The property is false (C62_fails): the rate is drawn from Gamma(N) with rate parameter 1/vt instead of vt. The exact law, its mean and when it agrees (vt = 1 only) are proved."),
"C63":("partial","The property is false (C63_fails): the weight matrix is indexed by sample instead of event. The exact probabilities, the samples that can never be drawn, and the correctness for the injections are proved."),
"C64":("partial","The property is false (C64_fails): with use_ratio given every evaluation raises TypeError, because the branch is taken on a traced value (C64_use_ratio_partial), and nan_to_num turns NaN into 0, an ordinary value (C64_nan_fails). All values characterised; proved to hold for the package's own likelihoods with the default arguments."),
"C70":("partial","The property is false (C70_fails): numbers among the injection data raise, as do more events than injections. Both characterised; evaluation proved if the columns to resample are arrays present in both data sets."),
"C71":("partial","The property is false (C71_fails): the norm lacks the cut at the outer nodes that the density has, so outer nodes inside the grid lose probability. The exact integral is proved: cut over uncut, equal to 1 if the grid between mmin and mmax lies between the nodes and below 1 otherwise."),
"C72":("partial","The property is false (C72_fails): interpolants of the first call are kept. Proved: after n samples every other number of samples raises (numpy/cupy); the exact stale value for the same number; independence for histories with the same masses and node positions."),
"C73":("proved","Names, required names with the exception raised, sufficiency and irrelevance of other names, after any history."),
"C74":("partial","The property is false (C74_fails): names defined by the wrapper or its bilby base class, e.g. noise_log_likelihood, are not passed on. Exactly the other names are (C74_transparent_partial), through any number of layers."),
"C75":("partial","The property is false (C75_fails): __getattr__ on an instance without __init__ recurses for every limit, so copying raises RecursionError. Exact condition proved."),
"C76":("partial","The property is false (C76_fails): accepted hyper_prior objects without `models` and cupy arrays after a backend switch raise AttributeError. Exactly when it is readable, and its value, are proved."),
"C77":("proved","All constants, likelihoods with ResamplingVT, hyper-parameters and special floats."),
"C78":("proved","All constants per event and hyper-parameters; for the units theorem the population model may not read the injection prior."),
"C79":("proved","All dictionaries, suffixes and possible moments; iid and independent models."),
"C80":("partial","The property is false (C80_fails): shape parameters and widths are passed by position, where conditions are not checked. Proved: exactly the maximum is checked; values for non-positive shapes; impossible moments lead there; orientations never refuse."),
"C81":("proved","All densities, selections and numbers of injections; the variance part under pairwise independence and a finite second moment. Exact real arithmetic."),
"C82":("proved","Almost surely, samples and injections growing jointly; plain, convergence-enforcing and marginalised selection functions. Exact real arithmetic."),
"C83":("partial","The property is false (C83_fails): with smoothing width 0 jax still computes the window, and the density at a mass equal to the minimum is not that of numpy. Proved for all densities, mass and spin models, the spline models in any state, and the smoothed models and interpolated power law for positive widths and an interpolant cached for as many samples as now."),
"C84":("partial","The property is false (C84_fails): x_1 and x_11 give the same names. Proved: what the names are for every parameter name, and exactly when two models share a name if the trimmed names do not end with a digit."),
"C85":("proved","Exact real arithmetic. Errors for a finite grid: redshift models, primary mass, splines. Limits: the four smoothed mass models at all positive masses other than mmin, inside and outside the mass range, both grids refined jointly; the mass-ratio grid starts at 0.001, so mmin must be at least 0.001 times the upper end of the mass grid."),
"C86":("partial","The property is false (C86_fails): one Model object with its default cache given to both likelihood and selection function. Proved: separate objects, functions and lists, uncached models, CosmoModel; whole histories of the likelihood and of the selection function. bilby's Model is modelled from how the repository documents it."),
"C87":("proved","Product rule for any lists of functions over separate parameters; the concrete seven-parameter population with a fixed cosmology, through a new Model object with or without cache. Exact real arithmetic; the redshift block starts at the first grid point 1e-6 and the single mass m1 = mmin is excluded (there the code is not finite, C19_boundary_not_finite)."),
"C88":("proved","IEEE double precision with overflow and subnormal numbers, from the division by the sampling prior on; the densities themselves are exact. The accuracy of the library's logarithm is a hypothesis, shown to hold for a correctly rounded one. Weights are 0 or between 2^-400 and 2^400."),
"C89":("partial","The property is false in double precision (C89_fails, C89_negative, C89_selection_fails): the two weights 1+2^-52 and 1+2^-51 give negative variances in every order. Proved: reported variances are at least -2^-47, and positive when the exact one is not tiny."),
"C90":("partial","The property is false (C90_fails, C90_infinite): for the spectral index next to -1 the two powers of the normalisation round to the same number and the density is infinite. Proved: the relative error is at most 25*2^-53 times an explicit amplification (C90_error_partial), which is below 10^-8 for the usual parameters (C90_usual_partial). C90_overflow: where the powers overflow the result is NaN, or OverflowError for Python floats."),
"C91":("partial","The property is false (C91_fails): the primary-mass density of a smoothed mass model is divided by a sum over grid points, which jumps when mmax crosses one, for sources nowhere near mmax. Proved: utility densities, both redshift models, the detection efficiency and the likelihood at all parameters; the four smoothed mass models at parameters whose mmin and mmax are off the grid. Exact real arithmetic."),
"C92":("partial","The property is false (C92_fails, C92_betaDist_fails, C92_singlePeak_fails, C92_unsmoothed_fails, C92_likelihood_fails): jax returns NaN for a power law with spectral index -1, for spins outside [0, amax], for primary masses more than a grid cell below mmin, and, without smoothing (delta_m = 0), for mmin at every source, and one such sample makes the gradient of the whole likelihood NaN. Proved: the gradients of utility densities, mass models, spin models, spline models and the four smoothed models are right away from these points and from kinks, those of truncnorm and the redshift models everywhere, and the detection efficiency (where it is converged) and the likelihood pass right gradients on. The derivative rules of jax are part of the model."),
"C93":('proved','C93_missing: arrays or numpy scalars; C93_missing_python: for Python floats a rate may also raise ZeroDivisionError or OverflowError, so the theorem says that a call that returns had all names.'),
"C94":('partial','C94_fails: false of the code. For truncnorm(0, mu=0, sigma=2**60, high=1, low=-1) the probability of the window rounds to 0 and the density comes out as 1.8e308 instead of 1/2 (C94_huge). C94_truncnorm_partial: the error is at most 1850 delta times an amplification that grows with the inverse probability of the window; C94_usual_partial: below 1e-6 for a mean inside a window of 1 to 100 widths. C94_betaDist and C94_vonMises hold in full.'),
"C95":('partial','C95_fails: false of the code. On numpy, powerlaw and truncnorm update an array in place, which raises ValueError if the bounds have axes that the data lack. C95_powerlaw_raises_partial and C95_truncnorm_raises_partial say exactly when. In all other cases, and always on jax, the property holds (C95_powerlaw_partial, C95_truncnorm_partial); it holds for all shapes for beta_dist, von_mises and unnormalized_2d_gaussian.'),
"C96":('partial','C96_fails: false of the code. powerlaw(np.array([10, 11, 12]), alpha=-2, high=50.0, low=5.0) raises ValueError on numpy; for a non-negative integer exponent the in-place update raises TypeError (C96_powerlaw_raises_partial). The property holds for truncnorm and beta_dist, and for powerlaw if the exponent is a float or everything else is.'),
"C97":('partial','C97_fails: false of the code. On numpy, the models of primary mass and mass ratio raise ValueError for a row of masses and a column of mass ratios (exactly when: C97_twoComponentPrimaryMassRatio_raises_partial). For arrays of one common shape the property holds for all models (C97_powerLawMass_partial to C97_gaussianChiP_partial); with different shapes it holds for mass ratios on jax, and on every backend for pairs of masses and spin magnitudes (..._broadcast_partial).'),
"C98":('partial','C98_fails: false of the code. The first call compiled raises TypeError (C98_first_compiled_partial), because the interpolation nodes are then traced values that are converted to numpy arrays; a compiled call with another number of nodes raises and leaves the instance unusable, also for ordinary calls (C98_nodes_changed_partial). After one ordinary call that returned a value, all mixtures of compiled and ordinary calls with that number of nodes agree with the ordinary ones (C98_after_ordinary_partial).'),
"C99":('partial','C99_fails: false of the code. After an ordinary call on one dataset, a function compiled for another dataset of the same length contains the interpolant of the first one for ever (C99_snapshot_partial). If all calls are compiled they are right on all datasets (C99_compiled_partial); mixtures are right if the instance does not cache or the datasets of ordinary calls are harmless for later calls (C99_mixed_partial).'),
"C100":('partial','C100_fails, C100_setting_fails: false of the code. A population model that caches (always the case if a function is given as hyper_prior) cannot be used in both ways: after an ordinary evaluation every compiled one raises TypeError (C100_ordinary_first_partial) and vice versa (C100_jitted_first_partial). Without the cache, compiled evaluations use for ever the settings at the time of the first one with the same names of parameters (C100_frozen_partial), so all evaluations are right if the settings are not changed after it (C100_unchanged_partial). Ordinary evaluations alone are always right (C100_ordinary_partial). C100_attribute: what the attribute reports after any sequence of actions; C100_names: when a compiled computation is used again; C100_product: the reference population probability is the product of the functions.'),
"C101":('proved',"For all primary mass functions (C101_powerLawMass, C101_doublePowerLaw, C101_twoComponent, C101_doublePowerLawPeak, C101_threeComponent), joint ones (C101_*MassRatio, C101_*PrimarySecondary, C101_identical) and the four smoothed classes after any history of calls (C101_smoothed). With peaks the statement is for mmin < gaussian_mass_maximum; gaussian_mass_maximum is a mass and must be passed in the new unit (the functions' default of 100 is in solar masses)."),
"C102":('proved','C102_independent_magnitude, C102_iid_magnitude, C102_independent_orientation, C102_iid_orientation, C102_iid for all floats; C102_spline for the two spline classes (real data with equally many values in both columns, norm not zero).'),
"C103":('partial','C103_fails: false of the correlated model, another consequence of 1 - covariance in place of 1 - covariance**2: for correlations rho and -rho one gets the normalised powers 1 + rho and 1 - rho of one Gaussian (C103_correlated_partial). It holds for gaussian_chi_eff (C103_chi_eff_partial), the orientation models (C103_orientation_partial) and without correlation (C103_uncorrelated_partial).'),
"C104":('partial','C104_fails: false with the default cache=True if there are as many injections as samples per event: C104_stale_partial gives what is returned (each sample is divided by the norm of the injection with the same number), C104_wrong that this differs for every number of events and samples, C104_jax_partial that on jax the injections then get the shape of the posterior samples. Proved for all other sizes and without caching (C104_shared_partial), and that a new instance evaluates arrays of any shape sample by sample (C104_fresh).'),
"C105":('proved','C105_history: the outcome does not depend on the history if the two population models share no caching instance (or the shapes keep them apart). C105_value: the documented estimate for whatever numbers the functions return. C105_limit: the limit for any smoothed mass model with pointwise functions. C105_standard: power law and peak, Beta magnitudes, tilt mixture, power-law redshift; the redshift density is normalised up to the stated grid error. Exact real arithmetic; fixed cosmology; uncertainty not marginalised.'),
"C106":('partial','C106_fails: false on every backend. C106_exclusive_partial: on numpy and cupy an instance that has returned a value for the events raises for every dataset of another shape, for ever. C106_shape_partial: on jax the injections get the shape of the posterior samples if the shapes fit. C106_ignores_partial: with equal shapes the samples of later datasets are not looked at, except for the cut at the outer nodes. Proved: one instance per dataset (C106_one_dataset_partial), arrays of any shape sample by sample (C106_arrays) with the documented density (C106_value).'),
"C107":('proved','C107_resample: any list of hyper-samples; convergence almost surely for the weights and in mean square over the random choice for the draws, which are modelled as independent choices with the returned weights. C107_marginal: the Bayesian identity behind it, with the exact likelihood of C82. C107_hierarchical: hyper-samples drawn from the hyper-posterior, first the posterior samples and then the hyper-samples tend to infinity.'),
"C108":('partial','The conversion (C108_arrays), the values (C108_value), the exact likelihood (C108_exact) and the limit of the computed one (C108_likelihood) hold. Independence of the history is false with the default cache=True of the smoothed mass models (C108_wrong for every backend and number of samples, C108_fails): CosmoModel switches off the cache of bilby because the source-frame quantities change every iteration, but the mass model keeps the mass-ratio norms at the source-frame masses of the first evaluation (C108_stale_partial says what is computed). It is proved for cache=False (C108_history_partial), for histories with the same source-frame masses (C108_same_masses_partial) and for a fixed cosmology (C108_fixed_partial).'),
"C109":('partial','False when the requested mass range contains no grid mass: the norm of the primary density is 0 and the density infinite (C109_fails, for the broken power law). Proved for the four classes if a grid mass lies between mmin and mmax, which is not needed for the models with a peak of positive weight because the peak extends to the last grid mass (C109_singlePeak_partial, C109_multiPeak_partial, C109_brokenPowerLaw_partial, C109_brokenPowerLawPeak_partial). delta_m = 0 is C22.'),
"C110":('partial','False: spin.prior and mass_rates.prior name the parameters of the spin magnitudes alpha_1, beta_1, ..., which the model calls alpha_chi_1, beta_chi_1, ... (KeyError at every draw, C110_spin_names, C110_fails), and spin_talbot_thrane.prior lacks mu_1 and mu_2, which a population model requires (C110_mu_missing). Proved: bbh_population.prior with the whole population and its likelihood, apart from the singular points alpha = -1 (not on jax), amax_1 = 0, amax_2 = 0 and delta_m = 0 (C110_density_partial, C110_likelihood_partial); the mass model for both files with masses, the magnitude model for bbh_population.prior, the orientation model for the files with its parameters, and for spin_talbot_thrane.prior when called directly.'),
"C111":('partial','False at the edges: with break_fraction 0 or 1 the broken power law is NaN at every mass (C111_breakAtEdge_partial, C111_fails), and at the end points of the magnitudes alpha = beta = 1 gives 0 instead of the uniform density (C07). Proved: the reductions for peaks without weight (exceptions included), equal slopes with 0 < break_fraction < 1, the joint models, the smoothed classes with any grids, caches and histories, isotropic orientations, uniform magnitudes inside the limits, and the redshift models.'),
"C112":('proved','The single-mass density with exceptions included (C112_single), and the smoothed class on any grid, with or without cache, after any history of calls in which the labels are exchanged (C112_smoothed).'),
"C113":('proved','The scale of a regularised model is irrelevant as long as calls give as many nodes as the model was built with: with more nodes the regularisation is lost (C34). The rule of the interpolation library is a parameter; the hypothesis MovesWithNodes follows for linear rules with weights summing to one (weighted_moves).'),
"C114":('proved','For the objects after loading the data (C114_hyper, C114_rate) and from the constructor with max_samples not larger than any posterior (C114_constructed); copies of samples in C114_copies. The rate variance is the one the code computes (see C69).'),
"C115":('proved','The data must contain a luminosity distance (see C57 for a redshift among the columns of the detector frame) and finite redshifts greater than -1; the instances have no stale caches (see C108).'),
"C116":('proved','The variance for a mixture is conservative and not exact (C116_mixture): the code does not know which injection came from which density.'),
"C117":('proved',"The exact model is evaluated on the same grid of doubles. The library's pow is assumed correct to one unit in the last place and its cosmology to d roundings."),
"C118":('partial','C118_fails: mu = 1/2 - 2^-28, var = 1/4 - 2^-55, max = 1 are valid moments but the code returns alpha = 0. Proved: the error bound and positivity where the amplification is below 2^46 (C118_error_partial), 12 digits in the usual region (C118_usual_partial), and the inverse unconditionally (C118_moments_partial).'),
"C119":('proved','C119_window, C119_monotone, C119_range for the window and C119_density for p_m1; C21_documented gives the distance exp(-999998) from the documented window in exact arithmetic.'),
"C120":('proved','C120_product, C120_lnBayesFactor, C120_variance, C120_lnLikelihood and, for the computed log likelihood against the documented densities, C120_analysis. Densities are 0 or within 2^-E and 2^E with k E at most 900, weights 0 or within 2^-399 and 2^399.'),
"C121":('proved','C121_grid and C121_limit, against the Lebesgue integral over a box in R^n. For axes with equal numbers of points no number is returned (C38_fails).'),
"C122":('partial',"False of the code: the interpolant is a shared attribute, so another thread may replace it between its set-up and its use, also with cache=False (C122_fails; C122_silent_partial: the density is silently divided by the norms for the other thread's masses; C122_raises_partial: posterior samples and injections raise). Proved: termination for every schedule (C122_terminates), the right outcomes for every schedule of threads whose datasets have the same masses (C122_same_partial), and that nothing else than these errors can happen (C122_outcomes_partial). C122_undisturbed ties the steps to the sequential model."),
"C123":('proved','C123_atomic, C123_history, C123_later.'),
"C124":('partial','False of the code for the first evaluation: setup_interpolant assigns _norm_spline, which marks the set-up as done, before _data_spline. A thread that runs in between raises KeyError (C124_raises_partial, C124_fails), and an evaluation interrupted in between leaves an instance that never returns a value again (C124_interrupted_partial). Proved: once the interpolants exist, every schedule gives every thread its outcome and leaves the instance unchanged (C124_warm_partial); all other points of interruption leave the instance as before or as after a complete evaluation (C124_points_partial).'),
"C125":('partial','False of the code in all three parts (C125_fails), because __backend__ is assigned before the modules are updated and is what later calls look at. C125_early_partial: a second call for the same backend returns while all modules still use the old one. C125_mixed_partial: after two calls for different backends have returned, one backend is recorded and all modules use the other, and repeating the call changes nothing. C125_interrupted_partial: after an interruption the call cannot be repeated. Proved: if all threads ask for one backend it is installed once no call is under way (C125_same_partial), only values that were asked for are installed (C125_values_partial), calls end (C125_terminates), and calls for two different backends one after the other repair every state (C125_recovery_partial). C125_undisturbed ties the steps to set_backend.'),
"C126":('proved','C126_value gives the values on any grids, C126_limit the limit, C126_normalised its normalisation if the outer nodes cover the masses, C126_outside that it vanishes outside the outer nodes. The interpolation rule is a parameter (see the trusted base); delta_m > 0; as in C85 the lower mass limit must be at least 0.001 times the maximum of the instance.'),
"C127":('partial','False of the code: if the selection function raises (or its Python-number estimate is 0), the per-event statistics stay in the sample (C127_sample_fails), and a rejected maximum_uncertainty is stored before the exception, so that later evaluations raise (C127_limit_fails). C127_refines ties the sequence of assignments to the model of the method; proved are the state at every crash point (C127_every_point), that the total variance comes last (C127_last), that running again gives the result of one call (C127_rerun), that the likelihood is unchanged at what a call left (C127_likelihood), and that errors before the selection function change nothing (C127_unchanged_partial).'),
"C128":('proved','C128_coverage is the statement about calls; C128_normal gives the convergence in distribution of the standardised error and that the returned numbers are eventually finite with positive variance, almost surely. For HyperparameterLikelihood without marginalisation over the uncertainty of the selection function (with it the variance of the selection function is not reported).'),
"C129":('partial','False of the code (C129_fails): without the convergence check a population of which nothing is detected gets the highest float, whatever maximum_uncertainty is (C129_highest_partial), and so does an infinite density (C129_infinite_partial). Proved: excluded events (C129_excluded), NaN densities (C129_nan), generally mean weights that are not positive (C129_mean), for the likelihoods with and without rate; NaN, negative and infinite selection functions (C129_selection); with the convergence check, or marginalising over the uncertainty on jax, also for populations without detections (C129_undetected_partial; on the other backends marginalising raises ZeroDivisionError).'),
"C130":('proved','C130_unbiased, for objects constructed by __init__ with any max_samples and each of the equally likely draws without replacement. Densities are exact reals.'),
"C131":('partial','False of the code in all three parts (C131_fails, C131_fails_parts), e.g. for the values of Madau and Dickinson. Proved: the slope lies strictly between gamma - kappa and gamma at every redshift, falls with redshift, is gamma - kappa/2 at z_peak and tends to gamma - kappa (C131_slope_partial); for 0 < gamma < kappa the rate has a single peak at 1 + z = (1 + z_peak) (gamma/(kappa - gamma))^(1/kappa), which is z_peak exactly for kappa = 2 gamma (C131_peak_partial); for kappa <= gamma or gamma <= 0 there is no peak (C131_monotone_partial).'),
"C132":('partial','False of the code (C132_fails): the Gaussians are truncated. C132_fails_parts: the mean is mu only at the centre of the window, the standard deviation is never sigma. Proved: the mean is mu + sigma^2 (p(low) - p(high)), the variance sigma^2 (1 - (m - low) p(low) - (high - m) p(high)), strictly below sigma^2 and below (m - low)(high - m); the mean is pulled towards the centre, by less than sigma for mu in the window; mu is the mode (C132_truncnorm_partial for any window, C132_chiEff_partial, C132_chiP_partial).'),
"C133":('partial','False of the smoothed models (C133_fails; C133_fails_parts: on all fine grids): the window is applied before the mixture is normalised. Proved: the true fraction is lam N1 / ((1 - lam) N0 + lam N1) with N0, N1 the parts of the components left by the window, equal to lam only if lam is 0 or 1 or N0 = N1 (given mmax < self.mmax) and larger than lam iff N0 < N1 (C133_singlePeak_partial, C133_brokenPowerLawPeak_partial); three components (C133_multiPeak_partial: lam_1 is a fraction of those in either Gaussian); the limit of fine grids (C133_limit_partial); exact for the plain functions (C133_unsmoothed_partial).'),
"C134":('proved','C134_direction, C134_concentration (strict, across different means and periods; zero for kappa = 0), C134_mean. Negative kappa: see C09_vonMises_negative_kappa.'),
"C135":('proved','C135_monotone, C135_changes, C135_below_uncut; rounding of the subtraction of the largest double included.'),
"C136":('partial','False (C136_fails: 4/3 instead of 1 with one injection). Proved: the mean of the likelihood is at least that with the true fraction, and so is the mean of the log likelihood, with equality iff the estimated fraction is the true one almost surely (C136_likelihood_partial, C136_logLikelihood_partial), although the fraction itself is estimated without bias (C81). Mode without marginalisation and convergence check, some found injection of positive density.'),
"C137":('partial','False (C137_fails). Proved instead (C137_larger_partial): in every converged draw of positive variance the log likelihood grows by N (3 + n) / (2 n_eff), so the mean of the likelihood, which is already at least the one with the true fraction (C136), becomes strictly larger: the correction always increases the bias. The documentation leaves open whether the factor is correct.'),
"C138":('proved','C138_unbiased, with the equality case of the second inequality and integrability of both means proved, not assumed. Mode without marginalisation and convergence check, some found injection of positive density.'),
"C139":('proved','C139_unbiased and C139_rate, with the equality case for the log likelihood; C139_joint with random injections (if the inverse power of the estimated fraction has a mean). Every draw has some sample with positive population density for every event; different events are sampled independently.'),
"C140":('proved','C140_selection and C140_likelihood, including construction and errors. The only differences of the backends in this code are the conversion to Python numbers, division by zero between them, and the check of the probabilities by numpy.random.choice; rounding is not modelled.'),
"C141":('partial','C141_fails: false of the code. With the cache of the population model (the default of bilby, and always if a function is given as hyper_prior) generate_extra_statistics raises TypeError, compiled or not, once the compiled likelihood has been evaluated (C141_cached_partial). The compiled method leaves the dictionary it is given unchanged (C141_inplace_fails). Proved: all returned values are right without the cache, as in the example, in any order (C141_uncached_partial), and without compilation everything is as documented (C141_ordinary_partial).'),
"C142":('proved',"C142_average: Gibbs' inequality for the data of detected events, any number of events. C142_exact: law of large numbers over events. C142_limit: the package converges to the exact likelihood when detection depends on noisy data (extends C82, where it depends on the parameters). C142_true_population: the combination. The order of limits is: first the catalogue, then samples and injections. Exact arithmetic."),
"C143":('proved','C143_best_rate: inequality and the unique rate of equality. Exact arithmetic.'),
"C144":('proved',"C144_average: Wald's identity and Gibbs' inequality; the law of the number of events need not be Poisson. C144_exact: law of large numbers over events and the growth of their number. C144_limit: RateLikelihood converges to the exact value. C144_true_rate: the combination. The order of limits is: first the catalogue, then samples and injections. Exact arithmetic."),
"C145":('proved','C145_error: bound for one grid. C145_limit: limit of finer grids and more samples, with probability one. Exact arithmetic; for axes of equal lengths GridVT returns no number (C38_fails).'),
"C146":('partial','False of the code (C146_fails): after a call that returned values a smoothed model, a spline model and InterpolatedPowerlaw hold an interpolant which refers to the array module, so that neither pickle nor deepcopy works; a likelihood with the default selection_function or conversion_function holds a lambda and cannot be pickled; a spawned worker uses numpy whatever set_backend selected. Proved: the exact conditions (C146_rule_partial, C146_smoothed_partial, C146_spline_partial, C146_interpolated_partial, C146_likelihood_partial, C146_selection_partial), and that forked workers agree with the main process and spawned workers with numpy (C146_workers_partial). That cached_interpolate keeps the module is a parameter of the model.'),
"C147":('proved','C147_exact: for the exact likelihood. C147_posterior: for the log-likelihoods of the package in the limit of many samples and injections. The populations must be comparable (finite relative entropy) and differ in their detected data. Exact arithmetic.'),
"C148":('proved','C148_likelihood, C148_statistics, C148_predictive: all methods. C148_analysis, C148_history: with the state of the models and mass distributions. C148_conversion: convert_to_beta_parameters keeps the agreement. C148_volume, C148_standard: a ResamplingVT with a redshift model. Names of the arguments of the methods (self, data, dataset, bounds, redshift) count as declared: the calls with ** raise if they are among the hyper-parameters.'),
"C149":('proved','C149_exact: for the exact Poisson likelihood. C149_posterior: for the log-likelihoods of the package in the limit of many samples and injections. C149_rate_known: candidates with different rates of one population can be told apart. Exact arithmetic.'),
"C150":('proved','C150_variance: the identity. C150_accepted: lower bounds on the effective numbers at accepted points. C150_converged: enforce_convergence has no effect below n/4. Exact arithmetic; the log-likelihood must be at most 2^969.'),
"C151":('proved','C151_removed: the selection function. C151_likelihood: what depends on it in the likelihoods. C151_total_needed: the factor by which the efficiency changes without total_generated. Exact arithmetic.'),
"C152":('proved','C152_value, C152_value_rate: the log-likelihood from the estimates under the components. C152_unimodal: quasi-concave. C152_concave: concave at fixed rate. C152_tilts, C152_masses: fractions of models of the package. Exact arithmetic; enforce_convergence and marginalisation off.'),
"C153":('proved','C153_formats: tables, dictionaries and lists. C153_usable: finite log-likelihoods suffice. C153_excluded: one hyper-sample that excludes an event spoils the call. Exact arithmetic.'),
"C154":('proved','C154_zmax: two maximum redshifts, all floats for the other densities. C154_local_rate: the rate that is drawn, in closed form. Exact arithmetic; for HyperparameterLikelihood and the null likelihood (in RateLikelihood the parameter rate absorbs the norm, C77_rate).'),
"C155":('proved','C155_powerlaw, C155_mass, C155_broken, C155_massRatio, C155_truncnorm, C155_beta: monotone ratio and tail probabilities. C155_redshift, C155_lamb, C155_madau: monotone ratio (and hence a single crossing). Exact arithmetic.'),
"C156":('proved','C156_powerlaw, C156_mass, C156_massRatio, C156_broken, C156_truncnorm, C156_beta, C156_lamb, C156_madau; the exceptions are C156_broken_exception and C156_madau_exception. Agreement is only assumed up to sets of measure zero. Exact arithmetic.'),
"C157":('partial','C157_fails: false of the code. On numpy, integer redshifts with a negative integer lamb raise ValueError (C157_integers_raise_partial), and so do numpy integers for z_peak and kappa (C157_peak_raises_partial). In all other cases the property holds on every backend: C157_powerLaw_partial, C157_madauDickinson_partial. Beyond the property: a column of n values of lamb raises ValueError for other numbers of redshifts (C157_column_raises_partial), and with n redshifts it returns numbers normalised with the wrong value of lamb (C157_column_mixes_partial). Cosmological parameters with axes are outside the model.'),
"C158":('proved','C158_differ: two populations of which one is the other tilted give different detected data, however large the errors and whatever the selection. C158_mass, C158_mean, C158_redshift: the posterior of the package is concentrated on the true value, for any finite set of candidates; C158_tilted for any tilted populations. The errors must be ordered (larger data are relatively more probable for larger true values), as Gaussian errors are (gaussian_measurement). The other parameters are known.'),
"C159":('proved','C159_same: two populations with bounded support whose detected data agree are proportional. C159_recovers: the posterior is concentrated on the truth for any finite set of candidates that are different populations. C159_mass, C159_broken, C159_truncnorm, C159_fraction for models of the package; for the broken power law the true indices differ, else the break has no effect (C156). In C159_fraction the other parameters are known.'),
"C160":('proved','C160_recovers for any rates of the package that are different populations; C160_powerLaw (lamb and z_max) and C160_madauDickinson (gamma, kappa, z_peak and z_max). kappa must be positive, since the rate does not change if kappa changes sign and gamma is adapted (C156). The cosmology is fixed and known.'),
"C161":('proved','C161_recovers for any measurement that tells populations apart, in any number of parameters; C161_product for two parameters that are independent in the population; C161_tilts (fraction, two widths, means one), C161_magnitudes (two shapes and a maximum for each spin), C161_massRatio (any primary mass model with the power law in mass ratio) and C161_masses (power law: slope, both ends, and slope in mass ratio). The fraction of aligned spins must lie strictly between 0 and 1: at 0 the widths do not change the population.'),
"C162":('proved','C162_determined (uniqueness), C162_recovers (primary masses), C162_joint (primary masses and mass ratios), C162_no_peak and C162_only_peak (why the fraction must lie strictly between 0 and 1). The models without smoothing at the lower end.'),
"C163":('proved','C163_determined (uniqueness), C163_recovers (recovery from noisy primary masses). The joint density with the mass ratio is C164.'),
"C164":('proved','C164_determined (uniqueness), C164_recovers (recovery from noisy primary masses and mass ratios). New instances, as in a fresh analysis; reuse of instances with a cache is C24 and related.'),
"C165":('proved','C165_same_iff (same population exactly up to the names of the peaks), C165_equal_peaks (the excluded case), C165_recovers (recovery of all ten parameters with ordered means).'),
"C166":('proved','C166_determined (joint density), C166_primary (p_m1), C166_recovers (recovery with ordered means). New instances, as in a fresh analysis; reuse of instances with a cache is C24 and related.'),
"C167":('proved','C167_transfer (any primary model), C167_recovers (any primary model, noisy data), C167_broken, C167_broken_recovers (broken power law). The primary model must be a density normalised between the lower limit and the top of the grid. New instances, as in a fresh analysis; reuse of instances with a cache is C24 and related.'),
"C168":('proved','C168_determined, C168_recovers (masses), C168_smoothed, C168_smoothed_recovers (smoothed model with mass ratios). For the smoothed model the lower limit must not be a mass of the grid and the smoothing must end below the upper limit. New instances, as in a fresh analysis; reuse of instances with a cache is C24 and related.'),
"C169":('proved','C169_powerLaws, C169_powerLaw_identical, C169_peaks, C169_peaks_identical (uniqueness); C169_powerLaws_recovers, C169_peaks_recovers (recovery, for the versions with two indices; the identical versions are the case of equal indices).'),
"C170":('proved','C170_product (any two groups), C170_masses_rate (any smoothed mass model and any rate), C170_masses_redshift (power law in redshift), C170_masses_madauDickinson.'),
"C171":('proved','C171_determined (uniqueness), C171_recovers (recovery). The exception of equal indices is C156_broken_exception.'),
"C172":('proved','C172_full.'),
}
