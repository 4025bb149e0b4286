import json
P=[]
def p(id,title,statement,quantifier,why,anchors):
    P.append(dict(id=id,title=title,statement=statement,quantifier=quantifier,why_tests_cant=why,anchors=anchors))
U="gwpopulation/utils.py"; M="gwpopulation/models/mass.py"; S="gwpopulation/models/spin.py"; R="gwpopulation/models/redshift.py"; I="gwpopulation/models/interped.py"; V="gwpopulation/vt.py"; H="gwpopulation/hyperpe.py"; B="gwpopulation/backend.py"; C="gwpopulation/conversions.py"; CO="gwpopulation/experimental/cosmo_models.py"; N="gwpopulation/experimental/numpyro.py"; J="gwpopulation/experimental/jax.py"
p("C01","powerlaw is a normalised power-law density",
 "For every spectral index alpha and every 0 < low < high, powerlaw(x, alpha, high, low) equals x^alpha divided by the integral of t^alpha over [low, high] when low <= x <= high, equals 0 for every other x > 0, is never negative, and integrates to exactly 1 - including at the removable singularity alpha = -1.",
 "all real alpha, all 0 < low < high, all x > 0 (exact real arithmetic)",
 "A test evaluates finitely many (alpha, low, high) on a finite grid and compares a trapezoid sum to 1 within a tolerance; it cannot establish the integral for every real exponent nor hit alpha = -1 and its neighbourhood.",
 [f"{U}:powerlaw"])
p("C02","Declared parameter conditions are enforced, and only for keywords on non-jax backends",
 "A function decorated with conditions raises ValueError, without evaluating its body, exactly when the active backend is not jax and some conditioned argument that was passed by keyword fails its condition (for every element of an array argument); otherwise it returns exactly what the undecorated function returns. In particular positional arguments are never checked and jax never checks.",
 "all condition tables, all keyword-argument dictionaries with scalar or array values (incl. NaN), all backends",
 "The decision table is over arbitrary sets of conditions, argument-passing styles, backends and element values; tests exercise one failing keyword at a time.",
 [f"{U}:apply_conditions"])
p("C03","truncnorm is the normalised truncated Gaussian in all three tail branches",
 "For every mu, every sigma > 0 and every low < high, truncnorm(x, mu, sigma, high, low) equals exp(-(x-mu)^2/(2 sigma^2)) divided by its integral over [low, high] when low <= x <= high and 0 otherwise, whichever of the three log-normalisation branches is taken, and integrates to exactly 1.",
 "all real mu, x, all sigma > 0, all low < high (exact real arithmetic; ndtr = standard normal cdf)",
 "The branch depends on the signs of the standardised bounds; equality of the three log-space formulas with the same integral is an identity over all reals that sampled comparisons with a tolerance cannot decide.",
 [f"{U}:truncnorm"])
p("C04","truncnorm is total: finite and non-negative for every float input, zero outside the window",
 "For every combination of float inputs whatsoever - including NaN, infinities, sigma <= 0 passed positionally and low >= high - the value returned by truncnorm is a finite non-negative number, and it is 0 whenever x is NaN or not in [low, high].",
 "all five arguments ranging over all extended floats incl. NaN and +-inf",
 "The claim is about every special-value combination of five float arguments (NaN/inf propagation through log, exp, select).",
 [f"{U}:truncnorm"])
p("C05","beta_dist is the normalised scaled Beta density",
 "For every alpha, beta, scale > 0 and every 0 < x < scale, beta_dist(x, alpha, beta, scale) equals x^(alpha-1) (scale-x)^(beta-1) divided by the integral of that expression over [0, scale]; it integrates to exactly 1.",
 "all real alpha, beta, scale > 0 and 0 < x < scale (exact real arithmetic)",
 "Integrable endpoint singularities (alpha<1 or beta<1) defeat grid-based normalisation tests; the identity is over a three-parameter continuum.",
 [f"{U}:beta_dist"])
p("C06","beta_dist is total and vanishes outside [0, scale]",
 "For every float input including NaN and infinities, beta_dist returns a finite non-negative number, and returns 0 whenever x < 0, x > scale or x is NaN.",
 "all extended-float arguments",
 "Requires NaN/inf propagation for every special-value combination.",
 [f"{U}:beta_dist"])
p("C07","beta_dist agrees with its density at the end points of the support",
 "At x = 0 and x = scale, beta_dist returns the density of the Beta distribution whenever that density is finite there (e.g. 1/scale for alpha = beta = 1).",
 "all alpha, beta >= 1, scale > 0, at both end points",
 "A boundary point of measure zero that random sampling never hits.",
 [f"{U}:beta_dist"])
p("C08","The two-dimensional Gaussian uses the documented covariance matrix",
 "For every sigma_x, sigma_y > 0 and |rho| < 1, unnormalized_2d_gaussian equals exp(-r^T Sigma^{-1} r / 2) with Sigma = [[sx^2, rho sx sy],[rho sx sy, sy^2]].",
 "all means, widths, correlations |rho| < 1 and points",
 "An algebraic identity in seven real variables; the existing tests only evaluate the normalised model at rho = 0-like values or check normalisation.",
 [f"{U}:unnormalized_2d_gaussian", f"{S}:GaussianChiEffChiP"])
p("C09","von_mises is a normalised, 2*pi-periodic, symmetric density",
 "For every mu and every kappa >= 0 von_mises is positive, 2*pi-periodic in x, symmetric about mu, maximal at mu, and integrates to exactly 1 over every interval of length 2*pi.",
 "all real mu, x, kappa >= 0, all period intervals",
 "Normalisation over a continuum of kappa, with the exponentially scaled Bessel function.",
 [f"{U}:von_mises"])
p("C10","trapezoid integrates piecewise-linear data exactly and dispatches on the backend",
 "The trapezoid wrapper returns sum (x_{i+1}-x_i)(y_i+y_{i+1})/2 on any backend offering trapezoid or trapz and raises NotImplementedError otherwise; it is linear in y, non-negative for non-negative y on an increasing grid, additive under concatenation at a shared node, and exact for affine integrands on every grid.",
 "all grids and sample lists of any length, all backends",
 "Quantifies over grids of every length and all sample values.",
 [f"{U}:trapezoid"])
p("C11","Beta parameter conversions are mutually inverse",
 "mu_var_max_to_alpha_beta_max(alpha_beta_max_to_mu_var_max(alpha, beta, amax)) = (alpha, beta, amax) for all alpha, beta, amax > 0, and the reverse composition is the identity for all amax > 0, 0 < mu < amax and var > 0 other than var = mu (amax - mu), where alpha = beta = 0 and going back raises ZeroDivisionError for Python floats and gives nan for numpy floats; moreover the resulting alpha and beta are both positive exactly when 0 < mu < amax and 0 < var < mu (amax - mu).",
 "all real parameters in the stated domains (exact arithmetic)",
 "Rational identities over three real variables; the unit tests check three literal triples.",
 [f"{C}:alpha_beta_max_to_mu_var_max", f"{C}:mu_var_max_to_alpha_beta_max"])
p("C12","convert_to_beta_parameters computes exactly the missing shape parameters",
 "For every parameter dictionary and flag remove: the result differs from the input only at alpha_chi{s}/beta_chi{s} of converted suffixes; a suffix is converted exactly when its alpha or beta is missing or None and its mu and sigma are present (the unsuffixed pair is considered only if neither _1 nor _2 is available); converted values are the alpha, beta of the given mu, sigma, amax; added_keys lists exactly the converted keys in order if remove is set and is empty otherwise; KeyError is raised exactly when a converted suffix lacks amax; applying the conversion to its own output changes nothing.",
 "all dictionaries (any keys, None values allowed), both values of remove",
 "The decision table ranges over all subsets of fifteen keys with None/number values; tests cover five dictionaries.",
 [f"{C}:convert_to_beta_parameters"])
p("C13","convert_to_beta_parameters leaves its input untouched",
 "After convert_to_beta_parameters(parameters) every entry of the caller's dictionary has the value it had before the call, for float-valued and for array-valued parameters.",
 "all parameter dictionaries, values either immutable floats or mutable arrays (shared by reference)",
 "Aliasing through a shallow copy combined with in-place division; tests pass Python floats only.",
 [f"{C}:convert_to_beta_parameters", f"{C}:mu_var_max_to_alpha_beta_max"])
p("C14","After set_backend every registered module uses that backend",
 "After any history of set_backend calls whose last call returned normally for backend b, every module registered for xp holds b's array module, every module registered for scs holds b's scipy.special, the active backend name is b, and all registered modules agree; requesting the active backend again changes nothing; switching away and back restores the previous bindings; jax's 64-bit mode is on whenever jax has been selected.",
 "all registries of plugin modules, all finite histories of set_backend calls, all environments in which registered modules import",
 "Quantifies over every call history and every set of entry points.",
 [f"{B}:set_backend", f"{B}:modules_to_update"])
p("C15","A set_backend call that raises leaves the library on the previous backend",
 "If set_backend raises (unsupported name, backend not installed, broken installation, or a registered module that fails to import), the active backend and every module binding are what they were before the call, and a later successful call for the same backend installs it completely.",
 "all environments (which imports fail and how), all registries, all histories",
 "Failure can occur at every registered module; tests mock a single failure at load time.",
 [f"{B}:set_backend", f"{B}:_load_numpy_and_scipy"])
p("C16","Every registered extra function is rebound to the active backend",
 "For every entry module:path.to.function registered in the 'other' group, after a successful set_backend(b) the module's attribute named by the last path component is the function at the path with the leading scipy/numpy translated to b's module.",
 "all lists of 'other' entry points incl. several functions for one module, all backends",
 "Depends on collisions between entries of the same module, for any registry.",
 [f"{B}:modules_to_update", f"{B}:_load_arbitrary", f"{B}:set_backend"])
p("C17","Broken power law is the normalised continuous broken power law",
 "For all exponents alpha_1, alpha_2 different from -1, all 0 < mmin < mmax and 0 < break_fraction < 1, double_power_law_primary_mass equals, for every m > 0, the continuous broken power law (exponent -alpha_1 below and -alpha_2 above m_break = mmin + break_fraction (mmax - mmin)) divided by its integral over [mmin, mmax] inside that interval and 0 outside; it is continuous across the break and integrates to 1.",
 "all exponents, all 0<mmin<mmax, all break fractions in (0,1), all m > 0",
 "A five-parameter continuum; the match at the break point is a single point a grid never hits.",
 [f"{M}:double_power_law_primary_mass"])
p("C18","Power-law-plus-peak mass models are normalised mixtures",
 "two_component_single, three_component_single and double_power_law_peak_primary_mass equal the stated convex mixture of the (broken) power law on [mmin, mmax] and Gaussians truncated to [mmin, gaussian_mass_maximum]; for mixture fractions in [0,1] they are non-negative, vanish for m < mmin and for m > max(mmax, gaussian_mass_maximum), and integrate to exactly 1 over all masses.",
 "all hyper-parameters with 0 < mmin < mmax, mmin < gaussian_mass_maximum, sigma > 0, fractions in [0,1]; all masses m > 0",
 "Seven to eleven continuous hyper-parameters; tests sample ten draws on a grid.",
 [f"{M}:two_component_single", f"{M}:three_component_single", f"{M}:double_power_law_peak_primary_mass", f"{M}:power_law_mass"])
p("C19","Primary-mass / mass-ratio models are normalised joint densities with the physical support",
 "power_law_primary_mass_ratio, two_component_primary_mass_ratio and double_power_law_primary_power_law_mass_ratio factor as p(m1) p(q|m1) with p(q|m1) the normalised power law on [mmin/m1, 1]; they vanish unless mmin <= m1, q <= 1 and m1 q >= mmin; for every m1 > mmin the integral over q is p(m1), hence the joint integral over (m1, q) is 1.",
 "all hyper-parameters in the physical domain, all m1 > 0, q > 0 with m1 != mmin",
 "Two-dimensional normalisation over a continuum of hyper-parameters; the boundary m1 = mmin is a null set.",
 [f"{M}:two_component_primary_mass_ratio", f"{M}:power_law_primary_mass_ratio", f"{M}:double_power_law_primary_power_law_mass_ratio"])
p("C20","Component-mass models with m1 >= m2 are normalised",
 "The primary/secondary models vanish for m1 < m2 and integrate to 1 over the (m1, m2) plane.",
 "all hyper-parameters in the physical domain, for the identical and for the independent variants",
 "A two-dimensional integral over a continuum of exponents; holds by symmetry only when both masses share one distribution.",
 [f"{M}:_primary_secondary_general", f"{M}:power_law_primary_secondary_independent", f"{M}:power_law_primary_secondary_identical", f"{M}:two_component_primary_secondary_independent", f"{M}:two_component_primary_secondary_identical"])
p("C21","The low-mass smoothing window is a monotone taper between 0 and 1",
 "For every delta_m > 0 the smoothing window is 0 outside [mmin, mmax], lies strictly between 0 and 1 inside, is non-decreasing in mass on [mmin, mmax], equals 1/2 at mmin + delta_m/2 and satisfies S(mmin+u)+S(mmin+delta_m-u)=1 for 0 <= u <= delta_m; for delta_m = 0 on numpy/cupy it is identically 1, and it never returns NaN.",
 "all finite masses, mmin, mmax, delta_m > 0",
 "Monotonicity and symmetry over a continuum, incl. the clipped ends of the taper.",
 [f"{M}:BaseSmoothedMassDistribution.smoothing"])
p("C22","With delta_m = 0 a smoothed mass model is the corresponding analytic model",
 "On numpy/cupy, for delta_m = 0 (or absent) and every data point with m1 != mmin, the smoothed single-peak model returns exactly two_component_primary_mass_ratio with gaussian_mass_maximum equal to the instance's mmax (and analogously for the multi-peak, broken-power-law and broken-power-law-peak variants), whatever dataset was cached before.",
 "all hyper-parameters accepted by the model, all datasets of positive masses and mass ratios, all previous call histories of the instance with finite masses",
 "All histories of the caching instance and all datasets; the test compares ten draws on one grid.",
 [f"{M}:BaseSmoothedMassDistribution.__call__", f"{M}:BaseSmoothedMassDistribution.p_m1", f"{M}:BaseSmoothedMassDistribution.p_q"])
p("C23","Smoothed mass models are normalised on their own grid",
 "For every delta_m different from 0 and every hyper-parameter point, if the numerical norm is a positive finite number then the trapezoid sum of p(m1) over the instance's own mass grid is exactly 1, and for each grid mass the trapezoid sum of p(q|m1) over the instance's mass-ratio grid is exactly 1.",
 "all hyper-parameters, all grid shapes (n_m, n_q), all primary models",
 "All grid sizes and hyper-parameters; exactness (not up to tolerance).",
 [f"{M}:BaseSmoothedMassDistribution.norm_p_m1", f"{M}:BaseSmoothedMassDistribution.norm_p_q", f"{M}:BaseSmoothedMassDistribution.p_q"])
p("C24","A smoothed mass model's value does not depend on earlier calls",
 "The value returned by calling a smoothed mass model on a dataset is a function of that dataset and the hyper-parameters only: it is the same as on a fresh instance, whatever sequence of calls preceded it.",
 "all finite histories of calls with arbitrary datasets and hyper-parameters, cache on or off",
 "Requires considering every history; single-call tests never see the stale interpolation cache.",
 [f"{M}:BaseSmoothedMassDistribution.p_q", f"{M}:BaseSmoothedMassDistribution._cache_q_norms"])
p("C25","Smoothed mass models refuse hyper-parameters outside their grid",
 "On numpy/cupy, calling a smoothed mass model raises ValueError with the model left unchanged whenever the requested mmin is below the instance's mmin or the requested mmax is above the instance's mmax; a missing beta raises KeyError first; when both bounds are in range this check never raises, and on jax it is never made.",
 "all instances, hyper-parameter dictionaries and datasets",
 "Decision logic over all dictionaries and both bounds.",
 [f"{M}:BaseSmoothedMassDistribution.__call__"])
p("C26","variable_names lists exactly the hyper-parameters a mass model consumes, and reading it has no side effect",
 "variable_names of a smoothed mass model is the set of its primary model's hyper-parameters plus beta and delta_m minus the ones fixed by the instance; reading the property any number of times yields the same set and modifies nothing.",
 "all primary models (with or without their own variable_names list), any number of reads",
 "Any number of repeated reads and arbitrary user-supplied primary models.",
 [f"{M}:BaseSmoothedMassDistribution.variable_names"])
p("C27","Spin-orientation mixtures are normalised densities on [-1,1]^2",
 "For xi in [0,1] and positive widths, the spin-orientation model is non-negative, integrates to exactly 1 over [-1,1]^2, equals the isotropic density 1/4 at xi = 0 and the product of truncated Gaussians at xi = 1, vanishes outside [-1,1]^2, and the iid model is the independent model with equal parameters.",
 "all xi in [0,1], all means, all widths > 0, all cos-tilt pairs",
 "A two-dimensional integral over a continuum of parameters; support claim is about all points outside the physical range.",
 [f"{S}:independent_spin_orientation_gaussian_isotropic", f"{S}:iid_spin_orientation_gaussian_isotropic"])
p("C28","Spin-magnitude models are normalised and iid is independent with equal parameters",
 "The magnitude model is the product of the two scaled Beta densities (primary parameters with a_1, secondary with a_2), integrates to 1 over [0, amax_1] x [0, amax_2], is invariant under swapping both data and parameters, and iid_spin is the product of the iid orientation and iid magnitude models.",
 "all positive shape parameters and maxima, all data",
 "Continuum of parameters; argument-order mistakes are invisible when tests use equal parameters.",
 [f"{S}:independent_spin_magnitude_beta", f"{S}:iid_spin_magnitude_beta", f"{S}:iid_spin"])
p("C29","The chi_eff/chi_p model is normalised on its grid and supported on the physical rectangle",
 "gaussian_chi_eff and gaussian_chi_p are the Gaussians truncated to [-1,1] and [0,1]; the correlated model is 0 unless |chi_eff| <= 1 and 0 <= chi_p <= 1, non-negative, proportional to the two-dimensional Gaussian inside, and its two-dimensional trapezoid sum over its own grid is exactly 1.",
 "all means, positive widths, |rho| < 1, all data points",
 "Exact discrete normalisation for every parameter value and support for all points.",
 [f"{S}:GaussianChiEffChiP", f"{S}:gaussian_chi_eff", f"{S}:gaussian_chi_p"])
p("C30","Redshift evolution is normalised to the local rate",
 "psi_of_z(0) = 1 for the power-law model for every lamb and for the Madau-Dickinson model for every gamma, kappa and z_peak > -1, and psi is strictly positive for every z > -1.",
 "all rate-evolution parameters, all z > -1",
 "Identity over all real exponents.",
 [f"{R}:PowerLawRedshift.psi_of_z", f"{R}:MadauDickinsonRedshift.psi_of_z"])
p("C31","Redshift probability is a normalised density with cut-off z_max",
 "For every rate model with psi > 0 and positive differential comoving volume, the redshift probability is non-negative, 0 for z > z_max, proportional to psi(z)/(1+z) dVc/dz below, and its trapezoid sum over the instance's own redshift grid is exactly 1; changing only the overall scale of psi or of the volume does not change it.",
 "all rate-evolution parameters, cosmologies, z_max > 1e-6 (the first grid point), all z >= 0",
 "All parameters and cosmologies; exactness on the grid of 2500 points.",
 [f"{R}:_Redshift.probability", f"{R}:_Redshift.normalisation", f"{R}:_Redshift.differential_spacetime_volume"])
p("C32","Surveyed volume is linear in time and consistent between the two code paths",
 "total_four_volume is exactly linear in analysis_time; ResamplingVT.surveyed_hypervolume is that volume with lamb = 0 when no redshift model is present and otherwise the last redshift model's normalisation divided by 1e9 times the analysis time; both code paths compute the same rate-weighted integrand.",
 "all lamb, times, redshift limits, model lists",
 "All model lists (position and number of redshift models) and parameters.",
 [f"{R}:total_four_volume", f"{V}:ResamplingVT.surveyed_hypervolume", f"{V}:ResamplingVT.__init__"])
p("C33","Node-count inference terminates at the first missing node",
 "Inferring the node count from any parameter dictionary terminates and yields the smallest n >= the current count such that the key f{base}{n} is absent; the count never decreases.",
 "all dictionaries, base names and current counts",
 "An unbounded while-True loop over arbitrary dictionaries.",
 [f"{I}:InterpolatedNoBaseModelIdentical.infer_n_nodes"])
p("C34","Changing the number of nodes keeps the rest of the model's configuration",
 "When a spline model discovers extra nodes in the parameters, only its number of nodes changes: its range, interpolation kind, regularisation flag and parameters stay as configured by the user.",
 "all configurations of the spline models and all parameter dictionaries",
 "Re-initialisation with default arguments is only visible for non-default configurations.",
 [f"{I}:InterpolatedNoBaseModelIdentical.infer_n_nodes", f"{S}:SplineSpinMagnitudeIdentical.__init__", f"{S}:SplineSpinTiltIdentical.__init__"])
p("C35","A spline model's value does not depend on earlier calls",
 "The value returned by a spline model is a function of the dataset and hyper-parameters of that call only, whatever sequence of calls preceded it.",
 "all finite call histories with arbitrary datasets and node positions",
 "Requires all histories; the interpolants are frozen at the first call.",
 [f"{I}:InterpolatedNoBaseModelIdentical.p_x_unnormed", f"{I}:InterpolatedNoBaseModelIdentical.setup_interpolant"])
p("C36","Spline models are normalised on their grid, supported between the outer nodes, and regularised to the requested rms",
 "On the first call of a spline model whose grid has a point between the outer nodes (exactly then the norm is not 0): the returned value is the product over its parameters of exp(spline)/norm, is non-negative, 0 if some parameter is outside [first node, last node], and for each parameter the trapezoid sum of the one-dimensional density over the model's grid is 1; with regularisation the node values used have root-mean-square exactly rms and unchanged shape (for rms > 0 and node values that are not all 0).",
 "all node positions and values, grids, datasets, interpolation rules",
 "Exactness for all node values and all interpolation kernels.",
 [f"{I}:InterpolatedNoBaseModelIdentical.p_x_identical", f"{I}:InterpolatedNoBaseModelIdentical.norm_p_x", f"{I}:InterpolatedNoBaseModelIdentical.extract_spline_points"])
p("C37","Spline hyper-parameter names never collide",
 "For every base name and every number of nodes, the node-position keys, node-value keys and the rms key of a spline model are pairwise distinct.",
 "all base names and node counts",
 "All strings and all counts (e.g. base names beginning with f or ending in digits).",
 [f"{I}:InterpolatedNoBaseModelIdentical.__init__", f"{I}:InterpolatedNoBaseModelIdentical.variable_names"])
p("C38","GridVT integrates over every supplied parameter",
 "For data given on a product grid with one array per parameter, calling the grid selection function returns the iterated trapezoid integral of p(theta|Lambda) vt(theta) over all parameters - a single number - each axis being integrated against its own grid values.",
 "all numbers of parameters, all grid lengths, all model functions",
 "Axis identification depends on grid lengths; only equal lengths expose it; tests use one dimension.",
 [f"{V}:GridVT.__init__", f"{V}:GridVT.__call__"])
p("C39","Constructing a selection function does not modify the caller's data",
 "After constructing a selection function from a data dictionary the caller's dictionary has the same keys and values as before, so that a second selection function can be constructed from it.",
 "all data dictionaries",
 "Observable only through a second use of the same dictionary.",
 [f"{V}:GridVT.__init__", f"{V}:_BaseVT.__init__"])
p("C40","The detection-efficiency estimator is unbiased in form and its variance is non-negative",
 "detection_efficiency returns mu = sum(w)/N and var = sum(w^2)/N^2 - mu^2/N with w = p/prior, where N is total_generated if given and the number of found injections otherwise; whenever N is at least the number of found injections, var >= 0, with var = 0 iff all N weights (missing injections counting 0) are equal; both are invariant under reordering injections and under adding injections of weight zero, and scale as c and c^2 when the population model is scaled by c.",
 "all weight lists of any length, all N",
 "Cauchy-Schwarz over lists of every length; invariances over all permutations.",
 [f"{V}:ResamplingVT.detection_efficiency", f"{V}:ResamplingVT.__init__"])
p("C41","Unconverged selection estimates are rejected, converged ones are untouched",
 "With enforce_convergence the returned mu is unchanged exactly when mu^2 > 4 n_events var and is +inf otherwise (also when anything is NaN); without it mu is returned unchanged; var is always returned unchanged.",
 "all mu, var, n_events incl. NaN and infinities",
 "Boundary and special values of three floats.",
 [f"{V}:ResamplingVT.__call__", f"{V}:ResamplingVT.check_convergence"])
p("C42","A default-constructed selection function is usable",
 "With the default n_events a selection function returns finite efficiencies for well-sampled populations.",
 "all injection sets and population models, default constructor arguments",
 "A statement about all injection sets; tests always pass n_events=0.",
 [f"{V}:ResamplingVT.__init__", f"{V}:ResamplingVT.check_convergence"])
p("C43","The uncertainty-marginalised factor never exceeds the plain efficiency and never crashes",
 "With marginalize_uncertainty, for every injection set the call returns mu exp(-(3+n)/(2 n_eff)) (positive and at most mu) when converged and +inf otherwise, without raising.",
 "all injection sets, n_events >= 0",
 "Includes degenerate sets (all weights zero or all equal) that a sampled test never produces.",
 [f"{V}:ResamplingVT.vt_factor"])
p("C44","ln_likelihood_and_variance is the documented Monte Carlo estimator",
 "For every set of events, hyper-prior, sampling prior and selection function, ln_likelihood_and_variance returns sum_i ln(mean_k p/pi) - N ln(P_det) and sum_i (mean w^2 - mean^2)/(K mean^2) + N^2 var/P_det^2, with parameters first passed through the conversion function; a selection function returning a bare number counts as having zero variance.",
 "all numbers of events and samples, all weights, all selection results, all conversion functions",
 "All sizes and all values.",
 [f"{H}:HyperparameterLikelihood.ln_likelihood_and_variance", f"{H}:HyperparameterLikelihood._compute_per_event_ln_bayes_factors", f"{H}:HyperparameterLikelihood._get_selection_factor"])
p("C45","Likelihood variances are non-negative and vanish only for constant weights",
 "For finite non-negative weights with positive mean each per-event variance is >= 0 and < 1, and is 0 iff all weights of the event are equal; the total variance is non-negative if the selection variance is.",
 "all numbers of events, samples and weights",
 "An inequality over lists of every length.",
 [f"{H}:HyperparameterLikelihood._compute_per_event_ln_bayes_factors"])
p("C46","log_likelihood_ratio always returns a finite number",
 "For every data set, hyper-prior value (including NaN, infinities and zeros), selection result and uncertainty limit, log_likelihood_ratio returns a finite number; a NaN estimate yields the lowest finite float.",
 "all extended-float weights, selections, variances and limits",
 "All special-value combinations.",
 [f"{H}:HyperparameterLikelihood.log_likelihood_ratio"])
p("C47","Points whose uncertainty exceeds maximum_uncertainty are rejected, others are not",
 "If the uncertainty (standard deviation) of the log-likelihood estimate is larger than maximum_uncertainty, log_likelihood_ratio returns the 'minus infinity' value; otherwise it returns the estimate unchanged.",
 "all estimates, variances and limits (incl. infinite and NaN)",
 "A threshold comparison over a continuum; the unit test uses values far from the threshold.",
 [f"{H}:HyperparameterLikelihood.log_likelihood_ratio", f"{H}:HyperparameterLikelihood.maximum_uncertainty"])
p("C48","The null likelihood is flat apart from the uncertainty cut",
 "NullHyperparameterLikelihood has the same variance as the ordinary likelihood at every point, ln-likelihood 0, and its log_likelihood_ratio is 0 when the variance does not exceed the limit and exactly the lowest finite float when it does.",
 "all data, models, selection functions, limits",
 "All inputs.",
 [f"{H}:NullHyperparameterLikelihood.ln_likelihood_and_variance"])
p("C49","The rate likelihood is the Poisson likelihood and marginalises to the rate-free one",
 "RateLikelihood's log-likelihood is sum_i ln L_i + N ln R - R P_det; a missing rate raises KeyError; integrating its exponential over R with a 1/R prior gives, for every P_det > 0 and N >= 1, (N-1)! times the exponential of the ordinary hyper-parameter log-likelihood.",
 "all event likelihoods, all P_det > 0, all R > 0, all N >= 1",
 "An integral identity for every N and P_det.",
 [f"{H}:RateLikelihood._get_selection_factor"])
p("C50","generate_extra_statistics is consistent with the likelihood",
 "generate_extra_statistics returns the sample dictionary it was given, extended by ln_bf_i and var_i for every event, selection, selection_variance and variance and with no other entry changed; the sum of ln_bf_i - N ln(selection) and the reported variance are those of ln_likelihood_and_variance, for every likelihood class; selection_variance is the variance of P_det.",
 "all samples, all likelihood classes, all event counts",
 "All classes and values; the unit test has zero variances.",
 [f"{H}:HyperparameterLikelihood.generate_extra_statistics", f"{H}:RateLikelihood"])
p("C51","resample_posteriors takes equally many whole rows from every event",
 "resample_posteriors returns for every column of the first posterior an array of n_events rows and K = min(max_samples, shortest posterior) columns; entry (i, j) of all columns comes from one and the same sample of posterior i, distinct j use distinct samples; samples_per_posterior is K; events keep their order.",
 "all lists of posteriors with any lengths, all max_samples, every outcome of the random subsampling",
 "All random outcomes and sizes.",
 [f"{H}:HyperparameterLikelihood.resample_posteriors"])
p("C52","resample_posteriors keeps exactly the columns shared by all posteriors",
 "The returned dictionary has a key for each column shared by all posteriors.",
 "all lists of posteriors with any column sets",
 "All column sets; tests use identical columns.",
 [f"{H}:HyperparameterLikelihood.resample_posteriors"])
p("C53","Posterior-predictive resampling uses normalised weights and keeps samples intact",
 "For non-negative finite weights with positive per-event sums, the returned weights are non-negative and each event's weights sum to exactly 1, they do not depend on the order of the hyper-samples or on the scale of each population model, and every resampled entry (i, j) takes all its columns from one and the same original sample of event i; shapes are preserved.",
 "all numbers of events, samples and hyper-samples; every outcome of the random choice",
 "All random outcomes and sizes.",
 [f"{H}:HyperparameterLikelihood.posterior_predictive_resample"])
p("C54","Rate posterior samples follow the 1/R-prior posterior",
 "generate_rate_posterior_sample returns a Gamma(N, scale = 1/VT) variate, the posterior of R under a 1/R prior and a Poisson likelihood with N events and exposure VT = efficiency x surveyed volume, for every selection function accepted by the likelihood; RateLikelihood returns the sampled rate.",
 "all N >= 1, all VT > 0, all kinds of selection function",
 "A distributional identity for all N and VT.",
 [f"{H}:HyperparameterLikelihood.generate_rate_posterior_sample", f"{H}:RateLikelihood.generate_rate_posterior_sample"])
p("C55","Likelihoods are invariant under reordering of data",
 "Permuting the events, or permuting the samples within an event (all columns together with the prior), leaves the log-likelihood and its variance unchanged; multiplying an event's sampling prior by c > 0 shifts its ln Bayes factor by -ln c and leaves the variance unchanged.",
 "all permutations, all sizes, all weights incl. special values",
 "All permutations of lists of every length.",
 [f"{H}:HyperparameterLikelihood._compute_per_event_ln_bayes_factors", f"{H}:HyperparameterLikelihood.ln_likelihood_and_variance"])
p("C56","Construction accepts exactly functions and model objects, and separates the sampling prior",
 "The likelihood constructor wraps a plain function into a one-element model, keeps an object with parameters and a callable prob, and raises AttributeError for anything else; a prior column is removed from the data and used as the sampling prior, otherwise the sampling prior is 1; the noise evidence is the sum of ln_evidences or NaN; log_likelihood is the ratio plus that sum.",
 "all kinds of hyper-prior objects, all column sets, all evidence lists",
 "Decision logic over all object kinds.",
 [f"{H}:HyperparameterLikelihood.__init__", f"{H}:HyperparameterLikelihood.log_likelihood"])
p("C57","Detector-frame conversion divides by 1+z and returns the matching Jacobian",
 "With luminosity_distance given (and no redshift column), every column x_detector becomes x = x_detector/(1+z), other columns are copied unchanged, luminosity_distance is replaced by redshift = z(d_L), and the Jacobian is dDL/dz (1+z)^k with k the number of _detector columns; with redshift given it is (1+z)^k; with neither, ValueError is raised; the input dictionary is not modified.",
 "all column sets of any size and all values",
 "Any number of columns with arbitrary names.",
 [f"{CO}:CosmoMixin.detector_frame_to_source_frame"])
p("C58","Detector-frame conversion does not depend on column order",
 "Two data dictionaries with the same columns in a different order are converted to the same source-frame samples and Jacobian.",
 "all dictionaries and all reorderings",
 "All orders of all column sets; tests always put redshift first.",
 [f"{CO}:CosmoMixin.detector_frame_to_source_frame"])
p("C59","The Jacobian makes the detector-frame density integrate to one",
 "For every normalised source-frame population p(m, z) in k masses and redshift and every smooth strictly increasing luminosity-distance relation, the detector-frame density CosmoModel.prob integrates to 1 over detector-frame masses and luminosity distance.",
 "all k, all integrable densities, all strictly increasing differentiable distance relations",
 "A change-of-variables theorem over all densities.",
 [f"{CO}:CosmoModel.prob", f"{CO}:CosmoMixin.detector_frame_to_source_frame"])
p("C60","Cosmological parameters are read exactly when the cosmology is free",
 "FlatwCDM reads exactly H0, Om0, w0, FlatLambdaCDM exactly H0, Om0, every fixed cosmology none; an unknown name raises KeyError at construction; a missing cosmological parameter raises KeyError at evaluation; variable_names of a redshift model is these names followed by its own and repeated reads do not change it.",
 "all cosmology names, parameter dictionaries, repeated reads",
 "All names and dictionaries.",
 [f"{CO}:CosmoMixin.__init__", f"{CO}:CosmoMixin.cosmology", f"{CO}:CosmoMixin.cosmology_variables", f"{R}:_Redshift.variable_names"])
p("C61","The numpyro likelihood equals the bilby likelihood",
 "For a likelihood with a resampling selection function, the numpyro model's ln_l and variance equal those of ln_likelihood_and_variance with convergence enforcement off; without selection they are the event terms only; with a finite varmax it returns the lowest finite float exactly when ln_l is NaN or the variance exceeds varmax.",
 "all weights, injections, limits",
 "All values incl. special ones.",
 [f"{N}:gwpopulation_likelihood_model"])
p("C62","The numpyro model's rate has the same posterior as the bilby one",
 "The rate drawn by the numpyro model has the distribution of generate_rate_posterior_sample: Gamma(N) with mean N/VT.",
 "all N >= 1 and VT > 0",
 "A distributional statement; tests only check that the site exists.",
 [f"{N}:gwpopulation_likelihood_model"])
p("C63","The numpyro model resamples each event from its own samples",
 "For event i the predictive resample draws a sample index among all samples of event i with probability proportional to the weights of event i.",
 "all numbers of events and samples, all weights, every event",
 "Only non-square weight arrays expose an axis mix-up.",
 [f"{N}:posterior_predictive_resample"])
p("C64","The jitted likelihood returns the wrapped likelihood's value",
 "JittedLikelihood.log_likelihood_ratio returns the wrapped log-likelihood-ratio (or log-likelihood with use_ratio=False) whenever that is finite, and an invalid value is never turned into an acceptable one.",
 "all wrapped likelihood values incl. NaN and infinities",
 "Special values.",
 [f"{J}:JittedLikelihood.log_likelihood_ratio", f"{J}:generic_bilby_likelihood_function"])
p("C65","to_numpy and get_name classify every object",
 "to_numpy returns numbers, numpy arrays and pandas objects unchanged, converts cupy and jax arrays, and raises TypeError for everything else; get_name returns __name__ if present and the class name otherwise; to_number applies the conversion on numpy/cupy and astype on jax.",
 "all object kinds and backends",
 "Decision logic over all kinds.",
 [f"{U}:to_numpy", f"{U}:get_name", f"{U}:to_number"])
p("C66","powerlaw refuses only meaningless parameters",
 "With every argument passed by keyword on numpy or cupy, powerlaw raises ValueError exactly when low < 0 (or NaN); every real spectral index, including alpha = 1 and alpha = -1, is accepted and gives the normalised density.",
 "all alpha, low, high, both passing styles, all backends",
 "A single excluded value in a continuum (the guard excludes alpha = 1 although only alpha = -1 is singular).",
 [f"{U}:powerlaw", f"{U}:apply_conditions", f"{M}:power_law_mass"])
p("C67","powerlaw is zero everywhere outside [low, high]",
 "For every real x outside [low, high] - also x = 0 and x < 0 - powerlaw returns 0, so that masking out unphysical samples by the support works.",
 "all real alpha, all 0 < low < high, all real x outside the interval",
 "Special-value propagation (0 * inf, 0 * nan) at non-positive x for every exponent.",
 [f"{U}:powerlaw"])
p("C68","alpha_beta_max_to_mu_var_max returns the mean and variance of beta_dist",
 "For all positive alpha, beta and amax the returned mu and var are the mean and variance of the density that beta_dist returns for the same alpha, beta and scale = amax.",
 "all positive alpha, beta, amax",
 "An integral identity over a continuum of parameters (the documented formula differs from the implemented one).",
 [f"gwpopulation/conversions.py:alpha_beta_max_to_mu_var_max", f"{U}:beta_dist"])
p("C69","The variance of the rate likelihood is the propagated Monte Carlo variance",
 "RateLikelihood's variance is the sum of the per-event variances plus the variance of its selection term -R P_det, i.e. R^2 times the variance of P_det, for every rate and every variance reported by the selection function.",
 "all rates, all real selection values and variances, all events",
 "A formula identity over all real inputs; a wrong power or factor only shows up for particular rates and event counts.",
 [f"{H}:RateLikelihood._get_selection_factor", f"{H}:HyperparameterLikelihood.ln_likelihood_and_variance"])
p("C70","The numpyro model evaluates with default options whenever the likelihood does",
 "With its default options (selection, predictive resampling, all columns) the numpyro model evaluates for every likelihood and ResamplingVT for which ln_likelihood_and_variance evaluates and the surveyed volume is defined.",
 "all likelihoods, injection sets (arrays and numbers), numbers of events and injections",
 "Depends on which entries the injection dictionary holds and on the relative numbers of events and injections.",
 [f"{N}:gwpopulation_likelihood_model", f"{N}:posterior_predictive_resample"])
p("C71","The interpolated power law's primary-mass density is normalised on its grid",
 "For a new InterpolatedPowerlaw instance, hyper-parameters in range and increasing positive node positions, the primary-mass density evaluated on the instance's mass grid integrates to one (trapezoid rule).",
 "all constructor arguments, interpolation rules, node positions and values, power-law indices, mass bounds and smoothing widths",
 "The normalisation is a sum over a grid of exponentials of an arbitrary spline; whether density and norm use the same support depends on where the nodes lie relative to the grid.",
 [f"{M}:InterpolatedPowerlaw.p_m1", f"{M}:InterpolatedPowerlaw.norm_p_m1"])
p("C72","A call of the interpolated power law does not depend on earlier calls",
 "The outcome of a call of an InterpolatedPowerlaw instance is a function of the dataset and hyper-parameters given to it: any history of earlier calls (other datasets, other node positions) leaves it unchanged.",
 "all constructor arguments, all finite histories of calls, all datasets and hyper-parameters",
 "Cached interpolants are hidden state; a test would have to try all histories.",
 [f"{M}:InterpolatedPowerlaw.p_m1", f"{M}:InterpolatedPowerlaw.__call__"])
p("C73","The interpolated power law's variable_names are exactly the hyper-parameters it reads",
 "variable_names lists alpha, mmin, mmax, beta, delta_m, the node positions and values, and the root mean square when regularised; each of them except delta_m is required (KeyError otherwise), they suffice, and no other name has any influence on outcome or instance.",
 "all constructor arguments, histories of calls, datasets and dictionaries of hyper-parameters",
 "Quantifies over all dictionaries, numbers of nodes and histories.",
 [f"{M}:InterpolatedPowerlaw.variable_names", f"{M}:InterpolatedPowerlaw.p_m1"])
p("C74","JittedLikelihood gives access to the attributes of the wrapped likelihood",
 "Reading any attribute of a JittedLikelihood gives the attribute of the likelihood it wraps, also through several layers of wrapping.",
 "all attribute names, all wrapped objects, any number of layers",
 "Quantifies over all attribute names; which of them are shadowed depends on the class hierarchy of an external package.",
 [f"{J}:JittedLikelihood.__getattr__", f"{J}:JittedLikelihood.__init__"])
p("C75","A JittedLikelihood can be copied and sent to other processes",
 "copy.copy, copy.deepcopy and unpickling of a JittedLikelihood give an object equivalent to the original.",
 "all wrapped likelihoods, all recursion limits",
 "Copying creates an instance on which __init__ has not run; whether attribute access on it terminates must be shown for every recursion limit.",
 [f"{J}:JittedLikelihood.__getattr__"])
p("C76","meta_data can be read from every likelihood and describes it",
 "Every constructed likelihood has a meta_data dictionary with the names of the models, the data, the number of events and samples, and the sampling prior as ordinary arrays, whichever backend is active when it is read.",
 "all likelihoods accepted by the constructor, all kinds of hyper_prior, all pairs of backends at construction and reading",
 "A property over all accepted hyper_prior objects and all histories of backend switches.",
 [f"{H}:HyperparameterLikelihood.meta_data"])
p("C77","The likelihood does not depend on the normalisation of the population model",
 "If the population model is multiplied by a positive constant, both in the likelihood and in the selection function, then the rate-marginalised likelihood, its variance, ratio and convergence cut are unchanged for every hyper-parameter; the rate likelihood is unchanged if the rate is divided by the constant; and generated rates are divided by it.",
 "all positive constants, likelihoods, injection sets, hyper-parameters (including special float values)",
 "An invariance over all constants and inputs, relying on cancellation between two Monte Carlo integrals in different modules.",
 [f"{H}:HyperparameterLikelihood.ln_likelihood_and_variance", f"{V}:ResamplingVT.vt_factor", f"{H}:RateLikelihood"])
p("C78","The likelihood does not depend on the units of the sampling prior beyond a constant",
 "Multiplying the sampling prior of event i by c_i > 0 shifts the log likelihood by -sum ln c_i for every hyper-parameter and leaves the variance unchanged; multiplying the priors of all events and of the injections by the same constant leaves log-likelihood and variance unchanged.",
 "all positive constants per event, all likelihoods, hyper-parameters",
 "An invariance over all constants, events and hyper-parameters, including special values.",
 [f"{H}:HyperparameterLikelihood._compute_per_event_ln_bayes_factors", f"{V}:ResamplingVT.detection_efficiency"])
p("C79","A mean and variance given for the spin magnitude are those of the resulting spin model",
 "For every parameter dictionary whose mean, variance and maximum of a spin are possible, the shape parameters computed by convert_to_beta_parameters make the spin-magnitude models probability densities with exactly this mean and variance, for each component and each naming convention.",
 "all parameter dictionaries, all possible means, variances and maxima, all backends",
 "End-to-end through three modules; an integral identity over a continuum of parameters.",
 [f"{C}:convert_to_beta_parameters", f"{S}:iid_spin_magnitude_beta", f"{S}:independent_spin_magnitude_beta", f"{U}:beta_dist"])
p("C80","Spin models refuse meaningless parameters",
 "On backends that check arguments, a spin-magnitude model raises ValueError when a shape parameter is not positive (e.g. because mean and variance are impossible), as beta_dist declares, and likewise for a non-positive maximum.",
 "all shape parameters, maxima, datasets and backends",
 "Whether a check applies depends on the calling convention of every caller; quantifies over all floats.",
 [f"{S}:independent_spin_magnitude_beta", f"{S}:independent_spin_orientation_gaussian_isotropic", f"{U}:apply_conditions"])
p("C81","The selection function is unbiased",
 "If injections are drawn from the density stated as their prior, the detection efficiency ResamplingVT computes has as expectation the probability that a source of the population is found, for every number of injections; and for pairwise independent injections the variance it reports has as expectation (1-1/N) times the actual variance of the estimate.",
 "all population densities, drawing densities absolutely covering them, selections of found injections, numbers of injections, probability spaces",
 "A statement about expectations over random injections: single runs cannot settle it.",
 [f"{V}:ResamplingVT.detection_efficiency", f"{V}:_BaseVT.__init__"])
p("C82","The likelihood converges to the exact one",
 "As the numbers of injections and of posterior samples per event grow, with probability one the log likelihood (and the selection function in each of its modes) eventually is a finite number, converges to the exact hierarchical log likelihood sum_i ln(int L_i p / Z_i) - n ln int_found p, and the reported variance tends to zero.",
 "all populations, event likelihoods, sampling priors, drawing densities with finite second moments, modes of the selection function, numbers of events",
 "An almost-sure limit over infinite sequences of random samples.",
 [f"{V}:ResamplingVT.__call__", f"{V}:ResamplingVT.vt_factor", f"{H}:HyperparameterLikelihood.ln_likelihood_and_variance"])
p("C83","Switching the backend never changes a returned value",
 "For the densities, the mass, spin, smoothed-mass, spline and interpolated power-law models: whenever the computation returns a value on numpy, it returns the same value on cupy and on jax and leaves the model instance in the same state.",
 "all inputs including special floats, all parameter dictionaries, instance states and the three backends",
 "Backends differ in argument checks, in-place broadcasting, division and explicit branches; tests compare a few points.",
 [f"{U}:apply_conditions", f"{M}:BaseSmoothedMassDistribution.smoothing", f"{M}:BaseSmoothedMassDistribution.norm_p_m1", f"{I}:InterpolatedNoBaseModelIdentical"])
p("C84","Spline models of different parameters have different hyper-parameters",
 "The hyper-parameters of a spline model are named after the modelled parameter without its component suffix (a_1 gives a0, a1, ..., fa0, fa1, ..., rmsa), and two spline models for different parameters have no hyper-parameter name in common, so that they can be used in one population model.",
 "all parameter names, node counts and configurations",
 "All strings: the suffix is removed by a character-set strip, and names are built by concatenation.",
 [f"{I}:InterpolatedNoBaseModelIdentical.__init__", f"{I}:InterpolatedNoBaseModelIdentical.variable_names"])
p("C85","Normalising on a grid is normalising, up to the resolution of the grid",
 "Constants of normalisation computed on a grid give densities whose exact integral differs from 1 by at most half a grid cell times the total variation of the density (redshift models, primary mass of the smoothed models, spline models); and as the mass and mass-ratio grids of the four smoothed mass models are refined, the values returned tend at every sample to the documented density, which integrates to exactly 1.",
 "all hyper-parameters in the allowed range, datasets, grid sizes, backends, cosmologies of bounded variation",
 "Error bounds and limits over a continuum of parameters and unboundedly fine grids.",
 [f"{M}:BaseSmoothedMassDistribution", f"{R}:_Redshift.normalisation", f"{I}:InterpolatedNoBaseModelIdentical.norm_spline"])
p("C86","A cached population model never returns probabilities of other data",
 "Whatever has been evaluated before, the likelihood uses the product of the population functions at the posterior samples and the selection function their product at the injections, also when both are given the same population model, and CosmoModel always uses the current data and cosmology.",
 "all histories of evaluations by likelihood and selection function, all population functions, data, parameters, caching flags, ways of passing the model (function, list, object)",
 "The result depends on the order of all earlier calls and on which objects share a cache.",
 [f"{H}:HyperparameterLikelihood.__init__", f"{H}:HyperparameterLikelihood.ln_likelihood_and_variance", f"{V}:_BaseVT.__init__", f"{V}:ResamplingVT.vt_factor", f"{CO}:CosmoModel"])
p("C87","A population model made of normalised functions is normalised",
 "The probability returned by a population model whose functions describe different source parameters integrates, over all parameters together, to the product of the integrals of its functions. For the model of masses, spin magnitudes, spin tilts and redshift it is finite and non-negative at every source and its integral is 1 up to the resolution of the redshift grid.",
 "all lists of population functions over separate parameters; all hyper-parameters in the allowed range, backends, cosmologies of bounded variation",
 "An integral over seven source parameters for a continuum of hyper-parameters.",
 [f"{M}:two_component_primary_mass_ratio", f"{S}:iid_spin_magnitude_beta", f"{S}:iid_spin_orientation_gaussian_isotropic", f"{R}:PowerLawRedshift", f"{CO}:CosmoModel.prob"])
p("C88","Double precision does not spoil the estimates",
 "Computed in double precision, in any order of summation and with any logarithm that is correct to one unit in the last place, the log Bayes factors, their variances, the detection probability, its variance and the total log likelihood differ from the exact Monte Carlo estimates by at most explicit bounds proportional to 2^-53 times the number of samples; so two backends that add in different orders agree up to twice that bound.",
 "all numbers of events, samples and injections up to 2^40 and 2^47, all weights that are zero or of moderate size, all orders of summation, all accurate logarithms",
 "Ranges over every order of summation and every array; tests compare one platform with a fixed tolerance.",
 [f"{H}:HyperparameterLikelihood._compute_per_event_ln_bayes_factors", f"{H}:HyperparameterLikelihood.ln_likelihood_and_variance", f"{V}:ResamplingVT.detection_efficiency"])
p("C89","Reported variances are not negative",
 "The variance reported for the log Bayes factor of an event and for the detection probability is not negative, also in double precision.",
 "all weights that are zero or of moderate size, all orders of summation, all accurate libraries",
 "The sign depends on cancellation in the last bits of sums over arbitrary arrays.",
 [f"{H}:HyperparameterLikelihood._compute_per_event_ln_bayes_factors", f"{V}:ResamplingVT.detection_efficiency"])
p("C90","Power laws are accurate in double precision",
 "Computed in double precision with library functions correct to one unit in the last place, the truncated power law is within one percent of the normalised density wherever nothing overflows.",
 "all double-precision values, spectral indices and limits that cause no overflow or underflow; all accurate libraries; Python floats and arrays",
 "The error depends on cancellation between two powers near one point of a continuum of hyper-parameters, the spectral index -1.",
 [f"{U}:powerlaw"])
p("C91","Densities and likelihood depend continuously on the hyper-parameters",
 "A small change of the hyper-parameters changes the returned densities, the detection efficiency and the estimated log likelihood by a small amount, except where a source lies on a limit of its own distribution.",
 "all hyper-parameters in the allowed range, all sources, grids, backends, numbers of events, samples and injections",
 "Continuity is a statement about all nearby hyper-parameters; a jump sits at single points of a continuum.",
 [f"{U}:powerlaw", f"{U}:truncnorm", f"{U}:beta_dist", f"{M}:BaseSmoothedMassDistribution", f"{M}:SinglePeakSmoothedMassDistribution", f"{R}:PowerLawRedshift", f"{R}:MadauDickinsonRedshift", f"{V}:ResamplingVT.detection_efficiency", f"{H}:HyperparameterLikelihood.ln_likelihood_and_variance"])
p("C92","Gradients of densities and likelihood are right under jax",
 "On the jax backend, wherever a returned density, detection efficiency or log likelihood is a differentiable function of a hyper-parameter, reverse-mode differentiation of the code returns that derivative.",
 "all hyper-parameters, sources, grids, events and samples where the result is differentiable",
 "Wrong gradients (NaN) sit where an unselected branch of a `where` is singular; the values are right there, and tests compare values.",
 [f"{U}:powerlaw", f"{U}:beta_dist", f"{U}:truncnorm", f"{M}:two_component_single", f"{M}:BaseSmoothedMassDistribution", f"{M}:SinglePeakSmoothedMassDistribution", f"{R}:PowerLawRedshift", f"{R}:MadauDickinsonRedshift", f"{V}:ResamplingVT", f"{H}:HyperparameterLikelihood.ln_likelihood_and_variance"])
p("C93","A redshift model's variable_names are exactly the hyper-parameters it reads",
 "Calling a redshift model with hyper-parameters that agree on variable_names gives the same result; a call without one of them raises KeyError; hyper-parameters named like arguments of the methods are refused with TypeError; the base class raises NotImplementedError.",
 "all sets of hyper-parameters, data, cosmologies and redshift limits",
 "Ranges over all dictionaries of hyper-parameters, including every set of missing and additional ones.",
 [f"{R}:_Redshift.variable_names", f"{R}:_Redshift.probability", f"{R}:PowerLawRedshift", f"{R}:MadauDickinsonRedshift", f"{CO}:CosmoMixin.cosmology_variables"])
p("C94","Gaussian, Beta and von Mises densities are accurate in double precision",
 "In IEEE double arithmetic, with accurate special functions, truncnorm, beta_dist and von_mises return the normalised density up to a relative error proportional to the unit roundoff and a stated amplification, and exactly 0 outside the range.",
 "all double arguments that cause no overflow or underflow, and all libraries of a given accuracy",
 "Ranges over all doubles and over all rounding errors of the special functions; cancellation only shows for particular parameters.",
 [f"{U}:truncnorm", f"{U}:beta_dist", f"{U}:von_mises"])
p("C95","Densities act element by element on arrays of any shapes",
 "powerlaw, truncnorm, beta_dist, von_mises and unnormalized_2d_gaussian broadcast their arguments: for arrays of any shapes that can be combined, the result has the combined shape and every element is what the call with the corresponding numbers returns.",
 "all backends, all numbers of axes and lengths of all arguments, all values that pass the parameter checks",
 "Ranges over all combinations of shapes of up to seven arguments; in-place updates only fail for some of them.",
 [f"{U}:powerlaw", f"{U}:truncnorm", f"{U}:beta_dist", f"{U}:von_mises", f"{U}:unnormalized_2d_gaussian"])
p("C96","Integer arguments give the same densities as floating-point ones",
 "A density called with Python integers or integer arrays returns what it returns for the same numbers as floats.",
 "all numeric arguments of any shapes and dtypes that pass the parameter checks",
 "Ranges over all assignments of dtypes to arguments; type promotion and in-place updates depend on the combination.",
 [f"{U}:powerlaw", f"{U}:truncnorm", f"{U}:beta_dist"])
p("C97","Mass and spin models act sample by sample on datasets of any shape",
 "Every mass and spin model, given a dataset whose arrays can be broadcast together, returns one probability per sample, equal to the model evaluated at the numbers of that sample.",
 "all backends, all shapes of datasets, all valid hyper-parameters given as Python numbers, numpy scalars or arrays without axes",
 "Ranges over all shapes and all hyper-parameters.",
 [f"{M}:power_law_primary_mass_ratio", f"{M}:two_component_primary_mass_ratio", f"{M}:double_power_law_primary_mass", f"{M}:three_component_single", f"{M}:power_law_primary_secondary_independent", f"{S}:iid_spin", f"{S}:gaussian_chi_eff"])
p("C98","Compiling a spline model with jax.jit does not change what it returns",
 "With the jax backend, a spline model (InterpolatedNoBaseModelIdentical) may be called through jax.jit: every call, compiled or not, in any order, returns what the same sequence of calls returns without jax.jit.",
 "all instances, all sequences of compiled and ordinary calls with arbitrary datasets and parameters",
 "The model stores arrays on the instance while it is traced; whether that breaks a later call depends on the whole history and on what had been compiled before.",
 [f"{I}:InterpolatedNoBaseModelIdentical.__call__", f"{I}:InterpolatedNoBaseModelIdentical.setup_interpolant", f"{I}:InterpolatedNoBaseModelIdentical.infer_n_nodes"])
p("C99","Compiling a smoothed mass model with jax.jit does not change what it returns",
 "With the jax backend, a smoothed mass model may be called through jax.jit: every call, compiled or not, in any order, returns what an ordinary call of a new instance with the same data and parameters returns.",
 "all constructor arguments, all sequences of compiled and ordinary calls with arbitrary datasets and parameters",
 "The model stores an interpolant of the norms on the instance, also while it is traced; which one a compiled function contains depends on the history before the trace.",
 [f"{M}:BaseSmoothedMassDistribution.__call__", f"{M}:BaseSmoothedMassDistribution.p_q", f"{M}:BaseSmoothedMassDistribution._cache_q_norms"])
p("C100","A likelihood and its compiled version agree, in any order and after changes of settings",
 "A likelihood and its JittedLikelihood may be used in the same program: every evaluation of either returns what a new likelihood returns with the maximum_uncertainty that the evaluated object reports at that time.",
 "all likelihoods, population models, with and without cache, and all sequences of ordinary evaluations, compiled evaluations and assignments of maximum_uncertainty",
 "Compilation freezes attributes at the time of the first evaluation and writes to the cache of the population model; the outcome depends on the whole history.",
 [f"{J}:JittedLikelihood", f"{H}:HyperparameterLikelihood.maximum_uncertainty", f"{H}:HyperparameterLikelihood.log_likelihood_ratio", f"{H}:HyperparameterLikelihood.__init__"])
p("C101","Mass models do not depend on the unit of mass",
 "Masses may be given in any unit. If all masses (data, bounds of the model and hyper-parameters that are masses) are multiplied by c > 0, every mass model returns the density divided by c (c squared if it is a density in two masses), and raises the same exceptions.",
 "all c > 0, all mass functions and smoothed mass distributions with any grids, all floats as masses and as bounds of the power laws, all finite slopes, peaks with mmin below gaussian_mass_maximum, all histories of calls of an instance",
 "A hard-coded mass or a missing factor in one branch, normalisation or smoothing window changes values only in units nobody tests.",
 [f"{M}:power_law_mass", f"{M}:double_power_law_primary_mass", f"{M}:two_component_single", f"{M}:three_component_single", f"{M}:power_law_primary_secondary_independent", f"{M}:BaseSmoothedMassDistribution.__call__", f"{U}:powerlaw", f"{U}:truncnorm"])
p("C102","Spin models do not depend on which component is called the first",
 "If the labels 1 and 2 of the components are exchanged in the dataset (and in the hyper-parameters of the independent models), every spin model returns the same densities, and raises the same exceptions if the columns are there.",
 "all datasets, all floats as spins and hyper-parameters, all backends; spline models of magnitude and tilt: all samples and node values on the first use of an instance",
 "A factor, a key or a hyper-parameter of the wrong component changes values only for unequal components.",
 [f"{S}:iid_spin", f"{S}:iid_spin_magnitude_beta", f"{S}:independent_spin_magnitude_beta", f"{S}:iid_spin_orientation_gaussian_isotropic", f"{S}:independent_spin_orientation_gaussian_isotropic", f"{S}:SplineSpinMagnitudeIdentical", f"{S}:SplineSpinTiltIdentical"])
p("C103","Spin models treat positive and negative projections alike",
 "Reflecting all spin projections (chi_eff and the cosines of the tilts change sign) together with the hyper-parameters that change sign (means, and the correlation of chi_eff and chi_p) does not change any density.",
 "all datasets, all real means and widths, all correlations between -1 and 1",
 "Asymmetric branches or grids show only if a test compares both signs for the same model.",
 [f"{S}:gaussian_chi_eff", f"{S}:independent_spin_orientation_gaussian_isotropic", f"{S}:iid_spin_orientation_gaussian_isotropic", f"{S}:GaussianChiEffChiP.__call__", f"{S}:GaussianChiEffChiP._normalization", f"{U}:truncnorm", f"{U}:unnormalized_2d_gaussian"])
p("C104","One smoothed mass model may serve the posterior samples and the injections",
 "An instance of a smoothed mass distribution that is used for the likelihood (events by samples) and for the selection function (injections) returns on every call what a new instance returns, in any order of the calls and with any hyper-parameters, and evaluates arrays of any shape sample by sample.",
 "all four classes, all shapes, all sequences of calls on the two datasets, all hyper-parameters (also ones that raise), all backends",
 "Whether the cached norms are mistaken for the right ones depends on the sizes of the two datasets; tests evaluate one dataset per instance.",
 [f"{M}:BaseSmoothedMassDistribution.p_q", f"{M}:BaseSmoothedMassDistribution._cache_q_norms", f"{M}:BaseSmoothedMassDistribution.__call__", f"{V}:ResamplingVT.detection_efficiency", f"{H}:HyperparameterLikelihood.ln_likelihood_ratio"])
p("C105","A whole analysis evaluates the documented likelihood of the documented population",
 "With a smoothed mass model (one instance for the samples, one for the injections), spin and redshift models in population objects, a likelihood and a resampling selection function, every evaluation returns, after any history of evaluations (also failed ones), numbers that tend to the documented log likelihood and variance of the documented joint density as the mass grids are refined.",
 "all admissible hyper-parameters, all numbers of events, samples and injections, all samples not exactly at the edge of a support (also outside it), all histories, cached or not, all backends",
 "The caches of the mass model and of the population object, the conversion, the weights and the grids interact; tests check each alone at a few points.",
 [f"{M}:SinglePeakSmoothedMassDistribution", f"{S}:iid_spin_magnitude_beta", f"{S}:iid_spin_orientation_gaussian_isotropic", f"{R}:PowerLawRedshift", f"{V}:ResamplingVT.__call__", f"{H}:HyperparameterLikelihood.ln_likelihood_and_variance"])
p("C106","One spline model may serve the posterior samples and the injections",
 "An instance of a spline model that is used for the likelihood (events by samples) and for the selection function (injections) returns for each dataset what a new instance returns, and evaluates arrays of any shape sample by sample.",
 "base class and both spin classes, all shapes, all sequences of calls on the two datasets with the same node positions and any node values, all interpolation rules, all backends",
 "The interpolants are set up for the samples of the first call; tests evaluate one dataset per instance.",
 [f"{I}:InterpolatedNoBaseModelIdentical.p_x_unnormed", f"{I}:InterpolatedNoBaseModelIdentical.setup_interpolant", f"{I}:InterpolatedNoBaseModelIdentical.p_x_identical", f"{V}:ResamplingVT.detection_efficiency", f"{H}:HyperparameterLikelihood.ln_likelihood_ratio"])
p("C107","Posterior-predictive resampling gives the population-informed posterior of every event",
 "With enough posterior samples the call succeeds; the weighted mean of any quantity, and the plain mean over the resampled draws, converge for every event to its posterior mean with the population as the prior, averaged over the hyper-samples. If the hyper-samples are drawn from the hyper-posterior of the likelihood the package estimates, this tends to the posterior mean under the full hierarchical model, with all other events and selection effects included.",
 "all numbers of events, all likelihood functions, sampling priors, populations and lists of hyper-samples, all square-integrable quantities, every outcome of the random choice, numbers of samples and hyper-samples tending to infinity",
 "Which distribution the draws follow shows only in a limit; tests check keys and shapes.",
 [f"{H}:HyperparameterLikelihood.posterior_predictive_resample", f"{H}:HyperparameterLikelihood.ln_likelihood_ratio", f"{V}:ResamplingVT.detection_efficiency"])
p("C108","A population model with a free cosmology evaluates the detector-frame density, whatever was evaluated before",
 "CosmoModel converts arrays sample by sample and returns, at every sample, the source-frame density divided by dD/dz (1 + z)^n; the value at one point of the hyper-parameters (population and cosmology) does not depend on the points evaluated before; the likelihood built from it tends to the likelihood of the source-frame population.",
 "all backends, array shapes, numbers of detector-frame columns, distance-redshift relations, classes of cosmologies, population models, and histories of calls with other data and parameters",
 "Depends on the history of calls and on every cosmology; the tests call a new object with one cosmology.",
 [f"{CO}:CosmoMixin.detector_frame_to_source_frame", f"{CO}:CosmoModel.prob", f"{M}:BaseSmoothedMassDistribution.p_q"])
p("C109","Smoothed mass models return a finite density with the documented support at any resolution of their grids",
 "A call of a smoothed mass model with accepted hyper-parameters and delta_m > 0 returns a finite number for every binary with positive primary mass; the number is non-negative, and positive exactly where mmin < mass_1 <= the upper end of the primary density, mass_1 * mass_ratio >= mmin and mass_ratio <= 1 (mass_1 = mmin apart).",
 "all four classes, all backends, sizes of both grids, accepted hyper-parameters, arrays of binaries, and histories of calls with the same primary masses (or any history with cache=False)",
 "The norms are sums over grids and are interpolated between grid masses; near mmin the interpolation mixes masses where the norm vanishes. The tests use fine grids and a few points.",
 [f"{M}:BaseSmoothedMassDistribution.p_m1", f"{M}:BaseSmoothedMassDistribution.p_q", f"{M}:BaseSmoothedMassDistribution.norm_p_q"])
p("C110","Every draw from a prior file of the repository can be used with the models it is for",
 "At every draw from a file in priors/ the models the file is for accept the parameters and return finite, non-negative densities: the smoothed mass model with default settings for the files with masses, the independent spin models for the files with spins, and for bbh_population.prior the whole population of the package's example. The likelihood of the example never raises, whatever the events, injections and earlier draws, and is the documented one as soon as every event has a sample, and some injection lies, inside the support.",
 "all draws of the four files, backends, cosmologies, arrays of sources of any shape, numbers of events, samples and injections, and histories of evaluations",
 "The test evaluates one draw from one of the files and otherwise only checks that the files load. A prior has twenty dimensions; parameters missing from a file are only noticed when the models are called.",
 ["priors/bbh_population.prior", "priors/mass_rates.prior", "priors/spin.prior", "priors/spin_talbot_thrane.prior", f"{M}:SinglePeakSmoothedMassDistribution", f"{S}:independent_spin_magnitude_beta", f"{S}:independent_spin_orientation_gaussian_isotropic"])
p("C111","Models that contain simpler ones reduce to them",
 "A peak of zero weight does not matter, in any of the mass models: the models with two peaks return what those with one peak return, those with one peak what the power laws return, and the smoothed classes agree with each other in every call of every history. A broken power law with equal slopes is a power law wherever the break is, and with the break at an edge only one slope matters. Without alignment the spin orientations are isotropic, with alpha = beta = 1 the spin magnitudes are uniform, and the Madau-Dickinson rate with kappa = 0 is the power-law rate with lamb = gamma.",
 "all masses, spins and redshifts, all values of the other parameters (also infinite or NaN where the theorem says so), both kinds of numbers, backends, grids, caches and histories of calls",
 "Analyses compare nested models by their evidences; a test compares two models at a few points of one of them. The statement must hold for all values of the parameters that the reduction makes irrelevant.",
 [f"{M}:two_component_single", f"{M}:three_component_single", f"{M}:double_power_law_primary_mass", f"{M}:double_power_law_peak_primary_mass", f"{M}:MultiPeakSmoothedMassDistribution", f"{M}:BrokenPowerLawPeakSmoothedMassDistribution", f"{S}:iid_spin", f"{S}:independent_spin_orientation_gaussian_isotropic", f"{R}:MadauDickinsonRedshift", f"{R}:PowerLawRedshift"])
p("C112","Mass models with two peaks do not depend on which peak is called the first",
 "Exchanging the positions and widths of the two peaks and replacing lam_1 by 1 - lam_1 changes nothing: three_component_single returns the same at every mass and raises the same exceptions, and every call of MultiPeakSmoothedMassDistribution returns the same, whatever calls came before.",
 "all masses and all values of the other arguments (also infinite or NaN), all finite lam and lam_1, both kinds of numbers, backends, grids, caches and histories of calls",
 "Samplers see two copies of every posterior mode; analyses undo this by relabelling samples, which is valid only if the symmetry is exact for all parameters. A test compares the two labellings at a few points.",
 [f"{M}:three_component_single", f"{M}:MultiPeakSmoothedMassDistribution"])
p("C113","Spline models do not depend on the overall offset, or for regularised models on the scale, of the node values",
 "Adding a constant to all node values of an unregularised spline model changes no result of any call, and multiplying all node values of a regularised one by a positive number changes none either, exceptions and calls that change the number of nodes included (for the offset). The same holds for InterpolatedPowerlaw.",
 "all data, node positions and node values (also infinite or NaN), all constants, chosen anew in each call, all histories of calls, both kinds of numbers, all backends, and for the offset every interpolation rule that moves with its node values, among them all rules linear in the values with weights that sum to one",
 "The degeneracy decides which priors on the node values are proper and whether one of them can be fixed; a test compares two offsets for one spline at a few points and never after a call that changed the nodes.",
 [f"{I}:InterpolatedNoBaseModelIdentical", f"{I}:InterpolatedNoBaseModelIdentical.extract_spline_points", f"{S}:SplineSpinMagnitudeIdentical", f"{S}:SplineSpinTiltIdentical", f"{M}:InterpolatedPowerlaw"])
p("C114","The likelihood of two catalogues put together is the product of their likelihoods",
 "Likelihood objects built from two lists of posteriors and from both together, with the same samples, satisfy: the log likelihoods add and so do the noise evidences, the variances add up to the covariance 2 N M var / P_det^2 of the common selection function, and all three raise the same exceptions. With a rate the expected number of detections enters once. Copying the samples of an event any number of times changes no log likelihood.",
 "all lists of events and samples, all models that evaluate samples by themselves, sampling priors, selection functions, conversion functions and parameters, all values including infinities and NaN, all backends",
 "Observing runs are analysed together or updated one after the other; a test compares one pair of catalogues with finite weights.",
 [f"{H}:HyperparameterLikelihood.__init__", f"{H}:HyperparameterLikelihood.resample_posteriors", f"{H}:HyperparameterLikelihood.ln_likelihood_and_variance", f"{H}:HyperparameterLikelihood._get_selection_factor", f"{H}:RateLikelihood._get_selection_factor"])
p("C115","An analysis in the detector frame equals the analysis in the source frame",
 "Let samples with a redshift and masses be given with their sampling prior, and the same samples with luminosity distance and detector-frame masses, the prior divided by dD_L/dz (1+z)^k. Then CosmoModel on the second gives the same weights, log likelihood, variance and log likelihood ratio as the population model on the first, with the same exceptions; and the same detection efficiency and selection factor for injections.",
 "all numbers k of redshifted columns and of other columns, all column orders, all population models that read columns by name, fixed and free cosmologies (at the hyper-parameters), all events, samples and injections, all values of model and prior including infinities and NaN, all likelihood classes and backends",
 "The answer must not depend on the coordinates the samples were released in; a test compares one sample or a power of (1+z).",
 [f"{CO}:CosmoModel.prob", f"{CO}:CosmoMixin.detector_frame_to_source_frame", f"{H}:HyperparameterLikelihood.ln_likelihood_and_variance", f"{V}:ResamplingVT.detection_efficiency"])
p("C116","Sets of injections can be put together",
 "The detection efficiency of two sets of injections drawn from the same density and put together is the mean of the two weighted by the numbers generated; the variance is the propagated one plus N M (mu_A - mu_B)^2 / (N+M)^3. n copies of a set leave the efficiency unchanged and divide the variance by n. For injections drawn from different densities and all listed with the average density as prior, the efficiency is an unbiased estimate of the fraction of the population that is found, and the reported variance is on average at least 1 - 1/N times the true one.",
 "all population models, injections, sets of found ones, numbers of sets and densities; for the last part all probability spaces with pairwise independent injections",
 "Injection campaigns of several observing runs are released as one file with a mixture prior; a test with one file cannot tell a biased combination from noise.",
 [f"{V}:ResamplingVT.__init__", f"{V}:ResamplingVT.detection_efficiency"])
p("C117","Grid normalisations and redshift models keep their accuracy in double precision",
 "The trapezoid integral of non-negative data over a grid of n doubles, each datum correct to k roundings, has relative error at most 2 (k + n + 2) units of roundoff, in whatever order the library adds. The redshift probability of PowerLawRedshift and MadauDickinsonRedshift computed in double precision therefore agrees with the exact one to a relative error of 2 (2 k + 2 d + n + 15) units of roundoff, where d is the accuracy of the cosmology and k grows linearly with the size of the exponents (m + 3 and 5 m + 13 for exponents of size at most m); above z_max it is exactly 0.",
 "all grids of doubles of any length, data, orders of summation, exponents (up to 21 and 10), peak redshifts and redshifts up to 1000, accurate power functions and cosmologies",
 "The default grid has 2500 points and the order of summation differs between backends; a test sees one order and cannot bound the error for all parameters.",
 [f"{U}:trapezoid", f"{R}:_Redshift.normalisation", f"{R}:_Redshift.probability", f"{R}:PowerLawRedshift.psi_of_z", f"{R}:MadauDickinsonRedshift.psi_of_z"])
p("C118","Conversions of Beta parameters in double precision",
 "mu_var_max_to_alpha_beta_max, given a mean, variance and maximum for which a Beta distribution exists, returns in double precision positive alpha and beta. Their relative error is bounded by 60 units of roundoff times the amplification mu max / (mu (max - mu) - var), as long as that error stays below one half; alpha_beta_max_to_mu_var_max is accurate to 6 and 20 units without any such condition.",
 "all moments (doubles between 2^-100 and 2^100) and, for the inverse, all parameters of that size",
 "The loss of digits appears only near the limits of the allowed region, on a set a sampled test does not hit, and the exact formulas (C14, C33) do not show it.",
 [f"{C}:mu_var_max_to_alpha_beta_max", f"{C}:alpha_beta_max_to_mu_var_max"])
p("C119","Low-mass smoothing in double precision",
 "The smoothing window computed in double precision is a double between 0 and 1 for every input, also infinite or undefined ones. Between the limits it never decreases with the mass. Its absolute error against the documented Planck taper, which is exactly 0 below mmin and exactly 1 above mmin + delta_m, is at most 64 units of roundoff plus that of the logistic function. A smoothed primary-mass density p_m1 differs from the primary model times the documented window, divided by the integral over the grid, by at most 6 kappa (rho + delta + (3n + 50) units of roundoff) times the density without the window; rho and delta are the errors of the primary model and of the logistic function, n is the number of grid points and kappa the ratio of the integrals without and with the window.",
 "all masses and limits up to 2^500, all widths from 2^-500 to 2^500, all primary models, grids of doubles of any length up to 2^40, every order of summation",
 "The window differs from the documented one by clipping and by cancellation between 1/x and 1/(1-x), and its values underflow; a test at a few masses cannot bound the error for all of them, nor show monotonicity on neighbouring doubles.",
 [f"{M}:BaseSmoothedMassDistribution.smoothing", f"{M}:BaseSmoothedMassDistribution.p_m1", f"{M}:BaseSmoothedMassDistribution.norm_p_m1"])
p("C120","Errors of the densities carry over to the likelihood without amplification",
 "If every function of a population model computes its density with relative error at most rho, the population model computes the product of the k densities with relative error at most eps = ((1 + rho)(1 + u))^k - 1, u the unit of roundoff. Relative errors eps of all weights change the log Bayes factor of an event by at most 2 eps, its relative variance V over K samples by at most 16 eps (V + 1/K), and the log likelihood of n events with its Monte Carlo detection probability by at most 4 n eps. So the log likelihood computed in double precision differs from that of the documented densities in exact arithmetic by at most 4 n eps plus the error of the sums and logarithms.",
 "all population models with any number of functions, all datasets and injections, all sampling priors, every order of summation",
 "A test compares two computed log likelihoods at a few points; it has no exact value to compare with, and cannot bound how errors of many samples add up.",
 [f"{H}:HyperparameterLikelihood.ln_likelihood_and_variance", f"{H}:HyperparameterLikelihood._compute_per_event_ln_bayes_factors", f"{V}:ResamplingVT.detection_efficiency"])
p("C121","A selection function on a grid is the integral, up to the resolution of the grid",
 "For a population density p and a sensitivity vt of n parameters given on a product grid whose axes have different numbers of points, the grid selection function returns one number. It differs from the n-dimensional integral of p vt over the box spanned by the grid by at most the volume of the box times the most that p vt changes between points one grid cell apart, and tends to the integral as the spacing of the grid tends to 0.",
 "any number of parameters, all product grids with pairwise different numbers of points, in any order in the dictionary, also unevenly spaced; all densities and sensitivities with a continuous product",
 "A test integrates a known function on one grid; the error for arbitrary sensitivities, grids and dimensions is a statement about integrals.",
 [f"{V}:GridVT.__init__", f"{V}:GridVT.__call__"])
p("C122","A smoothed mass model may be evaluated by several threads at once",
 "Threads that evaluate one instance of a smoothed mass model at the same time each get the outcome they would get alone; every evaluation terminates however the threads are scheduled.",
 "all classes, backends, cache settings, numbers of threads, schedules, datasets of any shape and hyper-parameters (also ones that raise)",
 "Races depend on the schedule; a test sees a few schedules, and the wrong one need not occur.",
 [f"{M}:BaseSmoothedMassDistribution.__call__", f"{M}:BaseSmoothedMassDistribution.p_q", f"{M}:BaseSmoothedMassDistribution._cache_q_norms"])
p("C123","An interrupted evaluation leaves a smoothed mass model consistent",
 "If an evaluation of a smoothed mass model is abandoned at any point (KeyboardInterrupt, a killed thread), the instance is as it was before or as a complete evaluation leaves it. After any history of evaluations, complete or abandoned, an evaluation returns what it returns after some of them, all complete; in particular what a new instance returns if the instance does not cache or the earlier datasets cannot be mistaken for this one.",
 "all classes, backends, cache settings, points of interruption, histories, datasets of any shape and hyper-parameters",
 "The points at which an evaluation may be interrupted cannot be enumerated by a test.",
 [f"{M}:BaseSmoothedMassDistribution.__call__", f"{M}:BaseSmoothedMassDistribution.p_q", f"{M}:BaseSmoothedMassDistribution._cache_q_norms"])
p("C124","A spline model may be evaluated by several threads, and its evaluations may be interrupted",
 "Threads that evaluate one instance of a spline model with the same data and nodes each get the outcome they would get alone, and an evaluation that is abandoned at any point leaves the instance usable.",
 "all spline models, interpolation rules, backends, numbers of threads, schedules and points of interruption",
 "Races and interruptions depend on the schedule; a test sees a few.",
 [f"{I}:InterpolatedNoBaseModelIdentical.p_x_identical", f"{I}:InterpolatedNoBaseModelIdentical.setup_interpolant", f"{I}:InterpolatedNoBaseModelIdentical.p_x_unnormed"])
p("C125","The backend may be switched by several threads, and switching may be interrupted",
 "However calls of set_backend from several threads are interleaved: once all have returned, all registered modules use the recorded backend; if all threads ask for one backend, each call that returns has installed it; after an interruption at any point, a further call that returns has installed its backend. Nothing is installed that was not asked for, and no call waits for ever.",
 "all registries of modules and plugins, environments, backends, numbers of threads, schedules and points of interruption",
 "Races and interruptions depend on the schedule; a test sees a few.",
 [f"{B}:set_backend", f"{B}:_load_numpy_and_scipy", f"{B}:_load_arbitrary", f"{B}:modules_to_update"])
p("C126","An interpolated power law tends to its density as its grids are refined",
 "The first call of an interpolated power law returns, for every mass and mass ratio, the product of the primary density and of the mass-ratio density. As both grids are refined, these values tend to power law times low-mass window times exponentiated spline (zero outside the outer nodes), divided by the integral of that product without the cut over the mass range of the instance, times the normalised mass-ratio density. If the outer nodes cover [mmin, mmax] the limit is a normalised density.",
 "all masses other than mmin and mass ratios, hyper-parameters in range, node positions and values, interpolation rules with bounded variation, backends; limits over both grid sizes",
 "A test compares a few grids at a few points; the limit is over all grids.",
 [f"{M}:InterpolatedPowerlaw.__call__", f"{M}:InterpolatedPowerlaw.p_m1", f"{M}:InterpolatedPowerlaw.norm_p_m1", f"{M}:BaseSmoothedMassDistribution.p_q"])
p("C127","Failed, interrupted and repeated post-processing of a sample",
 "generate_extra_statistics adds entries to the dictionary of the caller. If it raises, the dictionary is as it was, and a rejected assignment to maximum_uncertainty leaves the likelihood as it was. If it is interrupted at any point, the entries of the sample that are not statistics are untouched, every statistic present is the one a completed call writes or the one that was there before, the total variance is present only if everything is, and running the method again gives the entries of one uninterrupted call.",
 "all likelihoods, samples, crash points and exceptions; for repeated calls, conversions, population models and selection functions that do not read the statistics",
 "A test sees completed calls; interruptions may come after any assignment.",
 [f"{H}:HyperparameterLikelihood.generate_extra_statistics", f"{H}:HyperparameterLikelihood.maximum_uncertainty"])
p("C128","The reported uncertainty is the standard error of the log likelihood",
 "If the posterior samples and the injections are drawn independently, then as their numbers grow, at any rates, the difference of the log likelihood from the exact one, divided by the square root of the variance ln_likelihood_and_variance reports with it, tends in distribution to a standard normal variable: the probability that the returned value is within z reported standard deviations of the exact one tends to that of a standard normal variable being in [-z, z].",
 "all populations, event likelihoods, sampling priors and drawing densities with finite second moments and weights that are not all equal, numbers of events, selection functions with and without the convergence check, rates of growth of the two sample sizes",
 "A statement about the distribution of the output over all random catalogues in the limit of many samples.",
 [f"{H}:HyperparameterLikelihood.ln_likelihood_and_variance", f"{H}:HyperparameterLikelihood._compute_per_event_ln_bayes_factors", f"{H}:HyperparameterLikelihood._get_selection_factor", f"{V}:ResamplingVT.detection_efficiency"])
p("C129","Populations that cannot have produced the data are rejected",
 "If the density of the population is 0 at all samples of an event, NaN or infinite at some sample, or 0 at all found injections, log_likelihood_ratio returns the lowest finite float, whatever the other events, the selection function and maximum_uncertainty are.",
 "all likelihoods, datasets, densities of the other events including NaN and infinities, selection functions, limits on the uncertainty",
 "Sampling visits such points rarely; special values of any of the parts can combine.",
 [f"{H}:HyperparameterLikelihood.log_likelihood_ratio", f"{H}:HyperparameterLikelihood._compute_per_event_ln_bayes_factors", f"{H}:HyperparameterLikelihood._get_selection_factor", f"{V}:ResamplingVT.__call__"])
p("C130","Using fewer posterior samples does not bias the likelihood",
 "If max_samples (or the shortest posterior) makes the likelihood use K randomly drawn samples of every event, the average over all draws of the likelihood exp(ln_likelihood) equals the likelihood computed with all samples of all events, whatever the numbers of samples of the events are; the log likelihood is never too high on average; and when nothing is left out the draw has no influence.",
 "all catalogues with any numbers of samples per event, all numbers of samples to keep, all population models that evaluate samples independently with positive densities, all selection functions, all parameters",
 "A test sees a few random draws; the bias is a property of the whole distribution of draws.",
 [f"{H}:HyperparameterLikelihood.resample_posteriors", f"{H}:HyperparameterLikelihood.__init__", f"{H}:HyperparameterLikelihood.ln_likelihood_and_variance"])
p("C131","The parameters of the Madau-Dickinson model mean what is documented",
 "For 0 < gamma < kappa the merger rate psi_of_z of MadauDickinsonRedshift rises today with slope gamma, is highest at the redshift z_peak, and has the slope kappa at high redshift.",
 "all gamma, kappa and z_peak, all redshifts",
 "The location of a maximum and slopes are statements about all redshifts and all parameters; tests evaluate a few.",
 [f"{R}:MadauDickinsonRedshift.psi_of_z"])
p("C132","Documented means and standard deviations are those of the densities",
 "The arguments mu and sigma of gaussian_chi_eff and gaussian_chi_p, documented as the mean and the standard deviation of the distribution, are the mean and the standard deviation of the density that is returned, for every mu inside the allowed range.",
 "all backends, all mu in the window and all sigma > 0",
 "The moments are integrals over all arguments, and the claim is about all parameters; tests evaluate the density at points.",
 [f"{S}:gaussian_chi_eff",f"{S}:gaussian_chi_p",f"{U}:truncnorm"])
p("C133","lam is the fraction of black holes in the Gaussian component",
 "In the mass models with a Gaussian component the primary mass density for a given lam is (1 - lam) times the density for lam = 0 plus lam times the density for lam = 1, so that lam is, as documented, the fraction of black holes in the Gaussian component.",
 "all backends, all hyper-parameters, all fractions, all grids, all masses",
 "An identity between densities for all masses and all hyper-parameters; tests check single parameter values.",
 [f"{M}:SinglePeakSmoothedMassDistribution",f"{M}:MultiPeakSmoothedMassDistribution",f"{M}:BrokenPowerLawPeakSmoothedMassDistribution",f"{M}:two_component_single"])
p("C134","mu is the mean direction of the von Mises distribution and kappa its concentration",
 "The mean direction of an angle with the density von_mises(x, mu, kappa), kappa > 0, is mu, on every interval of one period; over the period centred on mu the ordinary mean is mu as well. The resultant length lies between 0 and 1 and increases strictly with kappa.",
 "all means, all kappa >= 0 (kappa > 0 for the direction), all periods",
 "Moments of a continuous density for all parameters; tests check the norm on a grid.",
 [f"{U}:von_mises"])
p("C135","A looser maximum_uncertainty only re-admits points",
 "Increasing maximum_uncertainty never lowers a value of log_likelihood_ratio, changes it only at points whose reported variance exceeds the smaller limit and not the larger one, and does not change whether or how an evaluation fails. No limit gives a value above the one without a limit.",
 "all likelihood classes, all backends, all data, all hyper-parameters, all pairs of limits, all estimates and variances including NaN and infinities",
 "A relation between evaluations with any two limits, including special values; tests try one limit.",
 [f"{H}:HyperparameterLikelihood.maximum_uncertainty",f"{H}:HyperparameterLikelihood.log_likelihood_ratio"])
p("C136","On average over the injections the likelihood is the exact one",
 "For given events, the mean of the likelihood over the random injections of the selection function is the likelihood with the true found fraction.",
 "all densities of injections and populations, all numbers of injections and events, all probability spaces",
 "A statement about an expectation over all random draws; tests use one draw.",
 [f"{H}:HyperparameterLikelihood.ln_likelihood_and_variance",f"{V}:ResamplingVT.detection_efficiency"])
p("C137","Marginalising over the uncertainty of the selection function does not worsen the likelihood",
 "With marginalize_uncertainty = True the mean of the likelihood over the random injections is not further from the likelihood with the true found fraction than with marginalize_uncertainty = False.",
 "all densities of injections and populations, all numbers of injections and events, all probability spaces, draws that pass the check of convergence",
 "A comparison of expectations over all random draws; tests compare one draw with the formula of the code.",
 [f"{V}:ResamplingVT.vt_factor",f"{V}:ResamplingVT.__call__",f"{H}:HyperparameterLikelihood.ln_likelihood_and_variance"])
p("C138","The log likelihood with a rate is unbiased over the injections",
 "For given events and every rate, the mean over the random injections of the log likelihood of RateLikelihood is the Poisson log likelihood with the true found fraction. The mean of the likelihood itself is at least its exponential.",
 "all densities of injections and populations, all numbers of injections and events, all rates > 0, all probability spaces",
 "A statement about an expectation over all random draws; tests use one draw.",
 [f"{H}:RateLikelihood",f"{V}:ResamplingVT.detection_efficiency"])
p("C139","On average over the posterior samples the likelihood is the exact one",
 "For a given selection function, the mean of the likelihood over the random posterior samples of all events is the product of the exact evidence ratios times the selection factor, for every number of samples per event and also if the samples of an event are correlated; the log likelihood is on average not too high. With random injections, independent of the samples, the samples still contribute nothing to the error of the mean. Both for HyperparameterLikelihood and for RateLikelihood.",
 "all sampling priors, event likelihoods and populations, all numbers of events and samples, all joint laws of the samples of an event, all probability spaces",
 "A statement about an expectation over all random draws; tests use one draw.",
 [f"{H}:HyperparameterLikelihood.ln_likelihood_and_variance",f"{H}:RateLikelihood"])
p("C140","Selection function and likelihoods return the same values on every backend",
 "For population functions that return the same values on every backend (C83), constructing a ResamplingVT and a likelihood of any class and evaluating them (efficiency, marginalised factor, hypervolume, log likelihood with variance, log_likelihood_ratio, extra statistics, rate sample and posterior-predictive resampling for given random draws) returns on cupy what it returns on numpy, and on jax the same value whenever numpy returns one.",
 "all injections, posteriors, population functions, conversion functions, options, hyper-parameters and special floats",
 "Tests compare backends at a few points, and cupy is not tested at all without a GPU.",
 [f"{V}:ResamplingVT",f"{H}:HyperparameterLikelihood",f"{H}:RateLikelihood",f"{U}:to_number"])
p("C141","Post-processing compiled with jax.jit, as in the example, gives the statistics of ordinary post-processing",
 "One likelihood object is evaluated, evaluated through JittedLikelihood, and its method generate_extra_statistics is called directly and as jax.jit(likelihood.generate_extra_statistics), in any order: every evaluation returns the value of a new likelihood, and the statistics of a new likelihood are in the dictionary that was given.",
 "all likelihoods on jax, population models with and without cache, sequences of calls and samples",
 "The example is not run by the tests; the outcome depends on the whole history of calls, compiled and not.",
 [f"{H}:HyperparameterLikelihood.generate_extra_statistics","gwpopulation/experimental/jax.py:JittedLikelihood","examples/GWTC3.ipynb"])
p("C142","With enough events, samples and injections the true population has a larger likelihood than any other",
 "Events are the detected sources of the population with hyperparameters A. Let B be hyperparameters of a population whose detected sources have a different distribution of data. With probability one there is a number of events from which on, for enough posterior samples per event and enough injections, which are found by the same criterion, the log likelihood at A exceeds that at B, although detection favours some sources. The mean over catalogues of the exact log likelihood is largest at A for every number of events.",
 "all parameter and data spaces, noise distributions, detection criteria, pairs of populations that are not infinitely different, sampling priors, injection distributions, and the modes of the selection function that can converge",
 "It is a statement about limits and all random catalogues; the tests use constant densities.",
 [f"{H}:HyperparameterLikelihood.ln_likelihood_and_variance",f"{V}:ResamplingVT.detection_efficiency"])
p("C143","The rate that fits best is the number of events divided by the detected fraction, and fitting it gives the likelihood without a rate",
 "For given events and selection function, the log likelihood of RateLikelihood at any positive rate does not exceed the one of HyperparameterLikelihood plus N ln N - N, where N is the number of events. It equals it at exactly one rate: N divided by the detected fraction that the selection function reports. So maximising over the rate does not change the preference between populations.",
 "all catalogues, populations with finite positive weights, rates and reported detected fractions",
 "It compares two classes for all rates; the tests check each class at one rate.",
 [f"{H}:RateLikelihood._get_selection_factor",f"{H}:HyperparameterLikelihood._get_selection_factor"])
p("C144","With enough exposure, samples and injections the true rate and population have a larger RateLikelihood than any others",
 "The number of detected events is random, with mean equal to the rate times the detected fraction, and independent of the data of the single events. The mean over catalogues of the exact log likelihood with a rate is largest at the true rate and population. If the exposure grows, then with probability one, from some exposure on and for enough posterior samples and injections, RateLikelihood gives the true rate and population the larger value, compared to any rate and population that differ in the data of detected events or in the mean number of detected events.",
 "all parameter and data spaces, noise distributions, detection criteria, pairs of rates and populations that are not infinitely different, laws of the number of events, sampling priors, injection distributions, and the modes of the selection function that can converge",
 "It is a statement about limits and all random catalogues of random size; the tests use constant densities.",
 [f"{H}:RateLikelihood._get_selection_factor",f"{H}:HyperparameterLikelihood.ln_likelihood_and_variance",f"{V}:ResamplingVT.detection_efficiency"])
p("C145","With a selection function on a grid the likelihood is the documented one, up to the resolution of the grid",
 "HyperparameterLikelihood with a GridVT selection function returns the documented log likelihood with the exact sensitive volume of the population, with an error of at most N e / (V - e), where N is the number of events, V the sensitive volume and e the volume of the grid times the most that density times sensitivity changes within a cell. The variance contains no contribution from the selection function. As the grid is refined and the number of samples grows, the log likelihood tends to the exact one.",
 "any number of parameters on the grid, all product grids with pairwise different numbers of points, continuous products of density and sensitivity, all catalogues and sampling priors",
 "It holds for all grids and densities and in the limit; the tests combine the likelihood only with a constant selection function.",
 [f"{V}:GridVT.__call__",f"{H}:HyperparameterLikelihood._selection_function_with_uncertainty"])
p("C146","Models and likelihoods can be pickled, copied and evaluated in worker processes at any time",
 "Population models, selection functions and likelihoods can be written with pickle and copied with copy.deepcopy before and after any use, as samplers do for checkpoints and for worker processes, and an evaluation in a worker process has the outcome it has in the main process.",
 "all histories of calls on smoothed mass models, spline models and InterpolatedPowerlaw, all likelihoods and selection functions built from them, both start methods of worker processes, all backends",
 "It depends on the calls made before the copy and on the start method of the platform; the tests copy nothing and start no processes.",
 [f"{H}:HyperparameterLikelihood.__init__",f"{M}:BaseSmoothedMassDistribution._cache_q_norms",f"{I}:_setup_interpolant",f"{B}:set_backend"])
p("C147","With enough events the posterior is concentrated on the true population",
 "Events are detected from one of finitely many candidate populations, and HyperparameterLikelihood with a ResamplingVT selection function is evaluated for the hyper-parameters of every candidate. With probability one, for every eps > 0 there is a number of events from which on the posterior computed from these log likelihoods and any positive prior weights gives the true candidate a probability larger than 1 - eps, if the numbers of posterior samples and of injections are large enough.",
 "all surveys (densities of the data given the source, sets of detectable data), all finite sets of candidate populations whose detected data differ, all prior weights, all catalogue sizes",
 "It is a statement on the limit of large catalogues for all surveys and populations; the tests evaluate the likelihood for one small catalogue.",
 [f"{H}:HyperparameterLikelihood.ln_likelihood_and_variance",f"{V}:ResamplingVT.__call__"])
p("C148","Hyper-parameters that no model declares, and the order of the dictionary, do not matter",
 "Two dictionaries of hyper-parameters that agree on the names declared by the population models (signatures and variable_names), on those of the redshift model and, for RateLikelihood, on rate, give the same outcome of every method of the likelihood: the same value or the same exception. This includes what the models and mass distributions remember afterwards, so that whole histories of evaluations can be exchanged. generate_extra_statistics gives the same statistics and leaves the other entries as they were.",
 "all pairs of dictionaries that agree on the declared names, all histories of evaluations, all states of the caches, all population models, selection functions and conversions that read declared names",
 "A test passes one dictionary to a new object; the claim is on all pairs of dictionaries and all states in which earlier evaluations left the caches.",
 [f"{H}:HyperparameterLikelihood.ln_likelihood_and_variance",f"{H}:HyperparameterLikelihood.generate_extra_statistics",f"{H}:HyperparameterLikelihood.generate_rate_posterior_sample",f"{V}:ResamplingVT.__call__",f"{V}:ResamplingVT.surveyed_hypervolume",f"{CO}:convert_to_beta_parameters"])
p("C149","With a long enough observation the posterior is concentrated on the true rate and population",
 "Events are detected from one of finitely many candidates, each a population with a rate, in observations of growing exposure. RateLikelihood with a ResamplingVT selection function is evaluated for the hyper-parameters of every candidate. With probability one, for every eps > 0 there is an exposure from which on the posterior computed from these log likelihoods and any positive prior weights gives the true candidate a probability larger than 1 - eps, if the numbers of posterior samples and of injections are large enough. In particular the rate of a known population is found.",
 "all surveys, all finite sets of candidates that differ in the distribution of detected data or in the mean number of detected events, all prior weights, all observations whose number of events per exposure tends to its mean",
 "It is a statement on the limit of long observations for all surveys and candidates; the tests evaluate the likelihood for one small catalogue.",
 [f"{H}:RateLikelihood._get_selection_factor",f"{H}:HyperparameterLikelihood.ln_likelihood_and_variance",f"{V}:ResamplingVT.__call__"])
p("C150","Points accepted by the limit on the uncertainty have enough effective samples",
 "The variance that HyperparameterLikelihood with a ResamplingVT selection function reports is the sum over events of 1/n_eff - 1/K, with Kish's effective number n_eff of the K posterior samples, plus n^2 (1/n_eff - 1/N) for the N generated injections and n events. So with maximum_uncertainty V every point whose log-likelihood is not the rejected value has at least 1/(V + 1/K) effective samples of every event and at least 1/(V/n^2 + 1/N) effective injections. If V < n/4 the check made by enforce_convergence therefore changes nothing.",
 "all numbers of events, samples and injections, all finite weights with positive sums, all limits",
 "It relates the limit to effective sample sizes for all weights; tests look at the variance of single cases.",
 [f"{H}:HyperparameterLikelihood.ln_likelihood_and_variance",f"{H}:HyperparameterLikelihood.log_likelihood_ratio",f"{V}:ResamplingVT.detection_efficiency",f"{V}:ResamplingVT.check_convergence"])
p("C151","Injections that the population excludes can be removed if the number of generated injections is kept",
 "Let a file of found injections list total_generated. Removing injections whose population density is zero at some hyper-parameters leaves detection efficiency, its variance, the value of ResamplingVT and the surveyed volume unchanged at these hyper-parameters, hence the log-likelihood, its variance, the extra statistics and the drawn rate of every likelihood class. Without total_generated the number of listed injections is used instead, and removing injections without weight makes the efficiency larger by the factor by which the list becomes shorter.",
 "all files of injections, all subsets of injections of weight zero, all values of the others including infinities and NaN, all models that evaluate injections one by one, all back ends and options",
 "It compares two analyses for all files of injections; tests use one file.",
 [f"{V}:ResamplingVT.__init__",f"{V}:ResamplingVT.detection_efficiency",f"{V}:ResamplingVT.__call__",f"{H}:HyperparameterLikelihood.ln_likelihood_and_variance"])
p("C152","The likelihood has no separate maxima as a function of a mixing fraction",
 "If the population density is a mixture with the fraction l of one component and 1 - l of another, the estimated evidences of all events and the estimated detection efficiency are the mixtures of those of the components. So between two fractions the log-likelihood of HyperparameterLikelihood is never below the smaller of the two values, and that of RateLikelihood at a fixed rate is concave. xi_spin of the tilt models and lam of two_component_single are such fractions.",
 "all fractions strictly between 0 and 1, all pairs of components, all numbers of events, samples and injections, all finite weights for which every event is possible under one component",
 "It concerns the shape of the likelihood over an interval for all data; tests evaluate single points.",
 [f"{H}:HyperparameterLikelihood.ln_likelihood_and_variance",f"{H}:RateLikelihood._get_selection_factor",f"{V}:ResamplingVT.detection_efficiency",f"{S}:iid_spin_orientation_gaussian_isotropic",f"{M}:two_component_single"])
p("C153","Which hyper-samples can be used for posterior-predictive resampling",
 "A table of hyper-samples gives the same result as the list of its rows, and a dictionary the same as a list with this one sample. Hyper-samples at which the log-likelihood is finite can always be used: the call succeeds for every outcome of the random choice. If a single hyper-sample excludes an event, i.e. gives weight zero to all its samples, the weights of this event are NaN whatever the other hyper-samples are: numpy and cupy raise ValueError and jax returns the NaN weights.",
 "all tables, all numbers of hyper-samples, events and samples, all weights that are not negative, all outcomes of the random choice",
 "It covers all sets of hyper-samples, including those with one exceptional sample; the tests use two ordinary samples.",
 [f"{H}:HyperparameterLikelihood.posterior_predictive_resample",f"{H}:HyperparameterLikelihood.ln_likelihood_and_variance"])
p("C154","The maximum redshift and the norm of the redshift model have no influence",
 "If two analyses differ only in the maximum redshift of the redshift model and all redshifts of the posterior samples and injections lie below both, they give the same estimate of the log-likelihood, variance and log-likelihood ratio, raise the same exceptions, and draw the same merger rates from the same random numbers. The rate drawn is the rate at redshift zero: the random number divided by the number of sources expected to be found per unit rate, estimated from psi(z) / (1 + z) dV_c/dz at the injections; the trapezoid rule for the norm does not enter.",
 "all maximum redshifts above 1e-6, all rate models and cosmologies with positive values, all densities of the other parameters (any floats), all events, samples, injections and random numbers",
 "It relates two different configurations for all data; a test with one maximum redshift cannot see a norm that fails to cancel between events, selection function and surveyed volume.",
 [f"{R}:_Redshift.probability",f"{R}:_Redshift.normalisation",f"{V}:ResamplingVT.surveyed_hypervolume",f"{V}:ResamplingVT.detection_efficiency",f"{H}:HyperparameterLikelihood.generate_rate_posterior_sample",f"{H}:HyperparameterLikelihood.ln_likelihood_and_variance"])
p("C155","Slopes and means move the population in the documented direction",
 "Increasing a hyper-parameter moves the whole population one way: the ratio of the new to the old density is monotone, so above every threshold the population with the larger parameter has at least as much probability. This holds for the index of powerlaw (up), alpha of the power-law mass model and both indices of the broken power law (down), beta of the mass ratio at every primary mass (up, towards equal masses), mu of truncnorm (up), alpha and beta of beta_dist (up and down), lamb of the power-law redshift model and gamma and z_peak (for kappa >= 0) of the Madau-Dickinson model (towards larger redshifts).",
 "all pairs of parameter values, all limits, all thresholds and redshifts, all cosmologies with positive volumes, all backends",
 "It compares whole distributions at all pairs of parameters; a test of a few values would not see a sign error that is compensated by the normalisation in part of the range.",
 [f"{U}:powerlaw",f"{U}:truncnorm",f"{U}:beta_dist",f"{M}:power_law_mass",f"{M}:double_power_law_primary_mass",f"{M}:power_law_primary_mass_ratio",f"{R}:PowerLawRedshift",f"{R}:MadauDickinsonRedshift"])
p("C156","Different hyper-parameters describe different populations, with two known exceptions",
 "If two settings of a model give the same density at almost all points, the settings are equal: index and limits of powerlaw and of the power-law mass model, beta and the minimum mass of the mass ratio, mean, width and limits of truncnorm, both shape parameters and the maximum of beta_dist, both indices and limits of the broken power law, lamb and the maximum redshift of the power-law redshift model, and gamma, kappa, z_peak and the maximum redshift of the Madau-Dickinson model for kappa > 0. Exceptions: with equal indices the break of the broken power law has no influence, and (gamma, kappa) gives exactly the same rate as (gamma - kappa, -kappa), so the sign of kappa has to be fixed by the prior.",
 "all pairs of parameter settings in the domain of the models, all backends, all cosmologies with positive volumes",
 "It is a statement about all pairs of settings and all points at once; tests compare values at given settings.",
 [f"{U}:powerlaw",f"{U}:truncnorm",f"{U}:beta_dist",f"{M}:power_law_mass",f"{M}:double_power_law_primary_mass",f"{M}:power_law_primary_mass_ratio",f"{R}:PowerLawRedshift",f"{R}:MadauDickinsonRedshift"])
p("C157","Redshift models act sample by sample on datasets of any shape",
 "PowerLawRedshift and MadauDickinsonRedshift, given an array of redshifts of any shape and hyper-parameters that are numbers, return one probability per sample, equal to the probability of that sample evaluated alone.",
 "all shapes and data types of redshifts, all cosmologies and maximum redshifts, all hyper-parameters given as Python numbers, numpy scalars or arrays without axes",
 "Ranges over all shapes, data types and hyper-parameters; integer data types only fail for negative exponents.",
 [f"{R}:PowerLawRedshift",f"{R}:MadauDickinsonRedshift",f"{R}:_Redshift.probability",f"{R}:_Redshift.normalisation",f"{R}:_Redshift.differential_spacetime_volume",f"{U}:trapezoid"])
p("C158","Slopes and means are found from noisy data of detected sources",
 "A quantity is measured with errors, and only some data are detected. If the events come from a power law in mass, a truncated Gaussian or a power law in redshift of the package, and the candidates differ in the spectral index, the mean or the exponent lamb, then with enough events, posterior samples and injections the posterior computed with the package gives the true value a probability as close to one as wanted.",
 "all finite sets of candidates and prior weights, all limits and widths, all cosmologies with a continuous positive volume, all ordered measurement errors with a bounded positive density (Gaussian errors are an example), all sets of detectable data, almost all sequences of events",
 "A statement about limits and probabilities; no finite set of simulated catalogues can settle it.",
 [f"{M}:power_law_mass",f"{U}:truncnorm",f"{R}:PowerLawRedshift",f"{H}:HyperparameterLikelihood.ln_likelihood_and_variance",f"{V}:ResamplingVT.detection_efficiency"])
p("C159","With Gaussian errors every parameter that changes the population is found",
 "A quantity is measured with Gaussian errors of any size, and only some data are detected. If two bounded populations give the same detected data they are the same population. So if the events come from a power law in mass, a broken power law, a truncated Gaussian or a power law with a peak of the package, then with enough events, posterior samples and injections the posterior computed with the package gives the true values of all of the index or indices, the limits, the break, the mean and the width, or of the fraction in the peak, a probability as close to one as wanted.",
 "all finite sets of candidates and prior weights, all combinations of the parameters named, all sizes of the errors, all sets of detectable data of positive measure, almost all sequences of events",
 "A statement about limits and probabilities over infinitely many populations; no finite set of simulated catalogues can settle it.",
 [f"{M}:power_law_mass",f"{M}:double_power_law_primary_mass",f"{M}:two_component_single",f"{U}:truncnorm",f"{H}:HyperparameterLikelihood.ln_likelihood_and_variance",f"{V}:ResamplingVT.detection_efficiency"])
p("C160","The history of the merger rate is found from noisy redshifts of detected sources",
 "Redshifts are measured with Gaussian errors of any size, and only some data are detected. If the events come from the power law in redshift or the Madau-Dickinson rate of the package, then with enough events, posterior samples and injections the posterior computed with the package gives the true exponent, or the true rise, fall and peak, and the true largest redshift, a probability as close to one as wanted. The norm of the models is a sum over a grid and not the exact integral, but this does not bias the result.",
 "all finite sets of candidates and prior weights, all combinations of the parameters, all cosmologies with a continuous positive volume, all sizes of the errors, all sets of detectable data, almost all sequences of events",
 "A statement about limits and probabilities over infinitely many catalogues and cosmologies; no finite set of simulated catalogues can settle it.",
 [f"{R}:PowerLawRedshift",f"{R}:MadauDickinsonRedshift",f"{R}:_Redshift.probability",f"{H}:HyperparameterLikelihood.ln_likelihood_and_variance",f"{V}:ResamplingVT.detection_efficiency"])
p("C161","Joint populations of several parameters are found from noisy data of detected sources",
 "Two parameters of each source are measured with independent Gaussian errors of any sizes, and only some data are detected. If the sources come from a joint model of the package (primary mass and mass ratio, two spin magnitudes, or two spin tilts), then with enough events, posterior samples and injections the posterior computed with the package gives the true values of all parameters of the joint model a probability as close to one as wanted.",
 "all finite sets of candidates and prior weights, all combinations of the parameters of the joint models, all sizes of the errors, all sets of detectable data, almost all sequences of events",
 "A statement about limits and probabilities over infinitely many catalogues; no finite set of simulated catalogues can settle it.",
 [f"{S}:independent_spin_orientation_gaussian_isotropic",f"{S}:independent_spin_magnitude_beta",f"{M}:power_law_primary_mass_ratio",f"{H}:HyperparameterLikelihood.ln_likelihood_and_variance",f"{V}:ResamplingVT.detection_efficiency"])
p("C162","The power law with a Gaussian peak: every parameter changes the population and is found from noisy data",
 "If the power law and the Gaussian peak are both present, two sets of values of the index, the two limits of the masses, the fraction in the peak, its mean, its width and its upper end give the same density of primary masses only if they are the same. If events are detected with Gaussian errors in mass, or in primary mass and mass ratio, the posterior computed with the package is concentrated on the true values. At a fraction of 0 the parameters of the peak, and at a fraction of 1 the index and the upper limit of the power law, do not matter.",
 "all pairs of parameter sets, all backends; all finite sets of candidates and prior weights, all sizes of the errors, all sets of detectable data, almost all sequences of events",
 "Uniqueness is a statement about all pairs of points of a seven-dimensional parameter space, and recovery is a limit over infinitely many catalogues; tests compare a few points.",
 [f"{M}:two_component_single",f"{M}:two_component_primary_mass_ratio",f"{H}:HyperparameterLikelihood.ln_likelihood_and_variance",f"{V}:ResamplingVT.detection_efficiency"])
p("C163","The smoothed mass model with one peak: every parameter, also the range of the smoothing, changes the population and is found from noisy data",
 "Take the smoothed power law with one Gaussian peak, built with any grids. If the smoothing ends below the upper limit of the power law and both parts are present, two sets of values of the index, the two limits of the masses, the fraction in the peak, its mean, its width and the range of the smoothing give the same density of primary masses only if they are the same. If events are detected with Gaussian errors in mass, the posterior computed with the package is concentrated on the true values.",
 "all pairs of parameter sets with a mass of the grid between the limits, all sizes of the grids, all backends; all finite sets of candidates and prior weights, all sizes of the errors, all sets of detectable data, almost all sequences of events",
 "Uniqueness is a statement about all pairs of points of a seven-dimensional parameter space, and the density is normalised on a grid by a number with no closed form; recovery is a limit over infinitely many catalogues.",
 [f"{M}:SinglePeakSmoothedMassDistribution",f"{M}:BaseSmoothedMassDistribution.p_m1",f"{M}:BaseSmoothedMassDistribution.smoothing",f"{H}:HyperparameterLikelihood.ln_likelihood_and_variance",f"{V}:ResamplingVT.detection_efficiency"])
p("C164","The smoothed mass model with one peak as a model of both masses: every parameter changes the population and is found from noisy data",
 "Take the smoothed power law with one Gaussian peak, built with any grids, and call it on primary masses and mass ratios. If the smoothing ends below the upper limit of the power law, both parts are present and the lower limit is not itself a mass of the grid, two sets of values of all eight parameters give the same joint density only if they are the same. If events are detected with Gaussian errors in primary mass and mass ratio, the posterior computed with the package is concentrated on the true values. This holds although the density of the mass ratio is divided by a norm that is only interpolated between the masses of the grid.",
 "all pairs of parameter sets with a mass of the grid between the limits, all sizes of the grids, with and without the cache, all backends; all finite sets of candidates and prior weights, all sizes of the errors, all sets of detectable data, almost all sequences of events",
 "Uniqueness is a statement about all pairs of points of an eight-dimensional parameter space; the interpolated norm depends on the grid and could hide or mix parameters; recovery is a limit over infinitely many catalogues.",
 [f"{M}:SinglePeakSmoothedMassDistribution",f"{M}:BaseSmoothedMassDistribution.__call__",f"{M}:BaseSmoothedMassDistribution.p_q",f"{M}:BaseSmoothedMassDistribution.norm_p_q",f"{H}:HyperparameterLikelihood.ln_likelihood_and_variance",f"{V}:ResamplingVT.detection_efficiency"])
p("C165","Exchanging the names of the two peaks is the only ambiguity of the power law with two peaks",
 "Take the power law with two different Gaussian peaks, with all three parts present. Two sets of values of the ten parameters give the same distribution of masses if and only if they are the same, or become the same when the two peaks exchange their names and the fraction of the first becomes that of the second. So a prior that orders the means of the peaks makes every parameter visible in the population: with it, the posterior computed with the package from events detected with Gaussian errors is concentrated on the true values of all ten. If the two peaks are equal, the split between them cannot be found.",
 "all pairs of parameter sets with both peaks and the power law present, all backends; all finite sets of candidates and prior weights, all sizes of the errors, all sets of detectable data, almost all sequences of events",
 "Uniqueness is a statement about all pairs of points of a ten-dimensional parameter space: any sum of a truncated power law and two truncated Gaussians could equal another one; recovery is a limit over infinitely many catalogues.",
 [f"{M}:three_component_single",f"{H}:HyperparameterLikelihood.ln_likelihood_and_variance",f"{V}:ResamplingVT.detection_efficiency"])
p("C166","The smoothed mass model with two peaks: exchanging the peaks is the only ambiguity, and ordered peaks are found from noisy data",
 "Take the smoothed power law with two different Gaussian peaks, built with any grids, and call it on primary masses and mass ratios. If the smoothing ends below the upper limit of the power law, all three parts are present and the lower limit is not itself a mass of the grid, two sets of values of all eleven parameters give the same joint density only if they are the same up to the names of the peaks. The density of the primary mass alone determines all parameters except the index of the mass ratios in the same sense. If the means of the peaks are ordered and events are detected with Gaussian errors in primary mass and mass ratio, the posterior computed with the package is concentrated on the true values of all eleven.",
 "all pairs of parameter sets with a mass of the grid between the limits, all sizes of the grids, with and without the cache, all backends; all finite sets of candidates and prior weights, all sizes of the errors, all sets of detectable data, almost all sequences of events",
 "Uniqueness is a statement about all pairs of points of an eleven-dimensional parameter space; recovery is a limit over infinitely many catalogues.",
 [f"{M}:MultiPeakSmoothedMassDistribution",f"{M}:BaseSmoothedMassDistribution.__call__",f"{M}:BaseSmoothedMassDistribution.p_m1",f"{M}:BaseSmoothedMassDistribution.p_q",f"{H}:HyperparameterLikelihood.ln_likelihood_and_variance",f"{V}:ResamplingVT.detection_efficiency"])
p("C167","Smoothing and mass ratios hide nothing of any primary mass model, and the smoothed broken power law is found from noisy data",
 "Build a smoothed mass model on any primary mass model, including one the user wrote, with any grids. If the smoothing ends below a mass up to which the primary density is positive, and the lower limit is not itself a mass of the grid, the joint density of primary mass and mass ratio determines the index of the mass ratios, the lower limit, the range of the smoothing and the whole primary density before the smoothing. So two sets of parameters are confused only if the primary model itself confuses them. For the smoothed broken power law all seven parameters are determined, except that the break is free when the two indices are equal. Candidates that differ in any of these are told apart by the posterior computed with the package from events detected with Gaussian errors in both quantities.",
 "all primary models that are densities of the mass, all pairs of parameter sets with a mass of the grid between the limits, all sizes of the grids, with and without the cache, all backends; all finite sets of candidates and prior weights, all sizes of the errors, all sets of detectable data, almost all sequences of events",
 "The claim ranges over all primary models and all pairs of their parameter sets; recovery is a limit over infinitely many catalogues.",
 [f"{M}:BaseSmoothedMassDistribution.__call__",f"{M}:BaseSmoothedMassDistribution.p_m1",f"{M}:BaseSmoothedMassDistribution.p_q",f"{M}:BrokenPowerLawSmoothedMassDistribution",f"{M}:double_power_law_primary_mass",f"{H}:HyperparameterLikelihood.ln_likelihood_and_variance",f"{V}:ResamplingVT.detection_efficiency"])
p("C168","The broken power law with a peak, plain and smoothed, is determined by its population and found from noisy data",
 "Take the broken power law with a Gaussian peak, with both parts present and the peak cut no lower than the power law. Two sets of values of all nine parameters give the same population of masses only if they are the same, except that the break is free when the two indices are equal. The same is true of the ten parameters of the smoothed model with mass ratios, built with any grids. If the true indices differ and events are detected with Gaussian errors, the posterior computed with the package is concentrated on the true values of all parameters.",
 "all pairs of parameter sets, all sizes of the grids, with and without the cache, all backends; all finite sets of candidates and prior weights, all sizes of the errors, all sets of detectable data, almost all sequences of events",
 "Uniqueness is a statement about all pairs of points of a nine- or ten-dimensional parameter space; recovery is a limit over infinitely many catalogues.",
 [f"{M}:double_power_law_peak_primary_mass",f"{M}:BrokenPowerLawPeakSmoothedMassDistribution",f"{M}:BaseSmoothedMassDistribution.__call__",f"{H}:HyperparameterLikelihood.ln_likelihood_and_variance",f"{V}:ResamplingVT.detection_efficiency"])
p("C169","The models of both component masses are determined by their populations and found from noisy data",
 "Take the models that describe the heavier and the lighter mass by two power laws, with or without a common Gaussian peak, and with different or identical indices. Two sets of parameters give the same values for almost all pairs of masses only if they are the same, provided the peak and the power law are both present. This holds although the models only see ordered pairs, and although the versions with different indices are not normalised (C20). If events are detected with Gaussian errors in both masses, the posterior computed with the package is concentrated on the true values of all parameters.",
 "all pairs of parameter sets, all backends; all finite sets of candidates and prior weights, all sizes of the errors, all sets of detectable data, almost all sequences of events",
 "Uniqueness is a statement about all pairs of points of the parameter space; recovery is a limit over infinitely many catalogues.",
 [f"{M}:power_law_primary_secondary_independent",f"{M}:power_law_primary_secondary_identical",f"{M}:two_component_primary_secondary_independent",f"{M}:two_component_primary_secondary_identical",f"{H}:HyperparameterLikelihood.ln_likelihood_and_variance",f"{V}:ResamplingVT.detection_efficiency"])
p("C170","Masses and redshifts analysed together are both found, although detection depends on both",
 "Take a population that is the product of models of two groups of parameters, as when a mass model and a redshift model are passed to the package together. Events are detected with separate errors for the groups, and whether an event is detected may depend on all its data at once, as when heavy sources are seen further away. If every other candidate differs from the true one in at least one of the two factors, the posterior computed with the package is concentrated on the true candidate. In particular, for every primary mass model with smoothing and mass ratios and for the power law in redshift or the Madau-Dickinson rate, all parameters of the masses and of the redshifts are found together.",
 "all models of the two groups, all kinds of errors that resolve them, all measurable sets of detectable data, all finite sets of candidates and prior weights, almost all sequences of events",
 "Selection couples the groups, so that no test of one group covers it; recovery is a limit over infinitely many catalogues.",
 [f"{M}:BaseSmoothedMassDistribution.__call__",f"{R}:_Redshift.probability",f"{R}:PowerLawRedshift.psi_of_z",f"{R}:MadauDickinsonRedshift.psi_of_z",f"{H}:HyperparameterLikelihood.ln_likelihood_and_variance",f"{V}:ResamplingVT.detection_efficiency"])
p("C171","The broken power law with mass ratios is determined by its population and found from noisy data",
 "Two sets of parameters of double_power_law_primary_power_law_mass_ratio give the same values for almost all primary masses and mass ratios only if both indices, the index of the mass ratios and both limits are the same, and also the break unless the two indices are equal (then the break has no effect). If events are detected with Gaussian errors in primary mass and mass ratio, the posterior computed with the package is concentrated on the true values of all six parameters, provided the two indices of the true population differ.",
 "all pairs of parameter sets with positive lower limits and indices other than -1 (any index for jax), all backends; all finite sets of candidates and prior weights, all sizes of the errors, all sets of detectable data, almost all sequences of events",
 "Uniqueness is a statement about all pairs of points of the parameter space; recovery is a limit over infinitely many catalogues.",
 [f"{M}:double_power_law_primary_power_law_mass_ratio",f"{M}:double_power_law_primary_mass",f"{H}:HyperparameterLikelihood.ln_likelihood_and_variance",f"{V}:ResamplingVT.detection_efficiency"])
p("C172","Masses, redshifts, tilts and spin magnitudes analysed together are all found",
 "Take a full analysis: a smoothed model of primary mass and mass ratio, a rate in redshift, the model of both tilts and the model of both spin magnitudes, with the population their product. Events are detected with Gaussian errors in all seven quantities, and whether an event is detected may depend on all its data at once. If every other candidate differs from the true one in the masses, in the redshifts, in the fraction of aligned spins or a width of the tilts, or in a shape or maximum of the spin magnitudes, the posterior computed with the package is concentrated on the true candidate.",
 "all smoothed mass models, all rates, all finite sets of candidates and prior weights, all sizes of the errors, all measurable sets of detectable data, almost all sequences of events",
 "Selection couples all groups, so that no test of one group covers it; recovery is a limit over infinitely many catalogues.",
 [f"{M}:BaseSmoothedMassDistribution.__call__",f"{R}:_Redshift.probability",f"{S}:independent_spin_orientation_gaussian_isotropic",f"{S}:independent_spin_magnitude_beta",f"{H}:HyperparameterLikelihood.ln_likelihood_and_variance",f"{V}:ResamplingVT.detection_efficiency"])
with open("/verif/properties.jsonl","w") as f:
    for q in P: f.write(json.dumps(q)+"\n")
print(len(P))
