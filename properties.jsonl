{"id": "C01", "title": "powerlaw is a normalised power-law density", "statement": "For every spectral index alpha and every 0 < low < high, powerlaw(x, alpha, high, low) equals x^alpha divided by the integral of t^alpha over [low, high] when low <= x <= high, equals 0 for every other x > 0, is never negative, and integrates to exactly 1 - including at the removable singularity alpha = -1.", "quantifier": "all real alpha, all 0 < low < high, all x > 0 (exact real arithmetic)", "why_tests_cant": "A test evaluates finitely many (alpha, low, high) on a finite grid and compares a trapezoid sum to 1 within a tolerance; it cannot establish the integral for every real exponent nor hit alpha = -1 and its neighbourhood.", "anchors": ["gwpopulation/utils.py:powerlaw"]}
{"id": "C02", "title": "Declared parameter conditions are enforced, and only for keywords on non-jax backends", "statement": "A function decorated with conditions raises ValueError, without evaluating its body, exactly when the active backend is not jax and some conditioned argument that was passed by keyword fails its condition (for every element of an array argument); otherwise it returns exactly what the undecorated function returns. In particular positional arguments are never checked and jax never checks.", "quantifier": "all condition tables, all keyword-argument dictionaries with scalar or array values (incl. NaN), all backends", "why_tests_cant": "The decision table is over arbitrary sets of conditions, argument-passing styles, backends and element values; tests exercise one failing keyword at a time.", "anchors": ["gwpopulation/utils.py:apply_conditions"]}
{"id": "C03", "title": "truncnorm is the normalised truncated Gaussian in all three tail branches", "statement": "For every mu, every sigma > 0 and every low < high, truncnorm(x, mu, sigma, high, low) equals exp(-(x-mu)^2/(2 sigma^2)) divided by its integral over [low, high] when low <= x <= high and 0 otherwise, whichever of the three log-normalisation branches is taken, and integrates to exactly 1.", "quantifier": "all real mu, x, all sigma > 0, all low < high (exact real arithmetic; ndtr = standard normal cdf)", "why_tests_cant": "The branch depends on the signs of the standardised bounds; equality of the three log-space formulas with the same integral is an identity over all reals that sampled comparisons with a tolerance cannot decide.", "anchors": ["gwpopulation/utils.py:truncnorm"]}
{"id": "C04", "title": "truncnorm is total: finite and non-negative for every float input, zero outside the window", "statement": "For every combination of float inputs whatsoever - including NaN, infinities, sigma <= 0 passed positionally and low >= high - the value returned by truncnorm is a finite non-negative number, and it is 0 whenever x is NaN or not in [low, high].", "quantifier": "all five arguments ranging over all extended floats incl. NaN and +-inf", "why_tests_cant": "The claim is about every special-value combination of five float arguments (NaN/inf propagation through log, exp, select).", "anchors": ["gwpopulation/utils.py:truncnorm"]}
{"id": "C05", "title": "beta_dist is the normalised scaled Beta density", "statement": "For every alpha, beta, scale > 0 and every 0 < x < scale, beta_dist(x, alpha, beta, scale) equals x^(alpha-1) (scale-x)^(beta-1) divided by the integral of that expression over [0, scale]; it integrates to exactly 1.", "quantifier": "all real alpha, beta, scale > 0 and 0 < x < scale (exact real arithmetic)", "why_tests_cant": "Integrable endpoint singularities (alpha<1 or beta<1) defeat grid-based normalisation tests; the identity is over a three-parameter continuum.", "anchors": ["gwpopulation/utils.py:beta_dist"]}
{"id": "C06", "title": "beta_dist is total and vanishes outside [0, scale]", "statement": "For every float input including NaN and infinities, beta_dist returns a finite non-negative number, and returns 0 whenever x < 0, x > scale or x is NaN.", "quantifier": "all extended-float arguments", "why_tests_cant": "Requires NaN/inf propagation for every special-value combination.", "anchors": ["gwpopulation/utils.py:beta_dist"]}
{"id": "C07", "title": "beta_dist agrees with its density at the end points of the support", "statement": "At x = 0 and x = scale, beta_dist returns the density of the Beta distribution whenever that density is finite there (e.g. 1/scale for alpha = beta = 1).", "quantifier": "all alpha, beta >= 1, scale > 0, at both end points", "why_tests_cant": "A boundary point of measure zero that random sampling never hits.", "anchors": ["gwpopulation/utils.py:beta_dist"]}
{"id": "C08", "title": "The two-dimensional Gaussian uses the documented covariance matrix", "statement": "For every sigma_x, sigma_y > 0 and |rho| < 1, unnormalized_2d_gaussian equals exp(-r^T Sigma^{-1} r / 2) with Sigma = [[sx^2, rho sx sy],[rho sx sy, sy^2]].", "quantifier": "all means, widths, correlations |rho| < 1 and points", "why_tests_cant": "An algebraic identity in seven real variables; the existing tests only evaluate the normalised model at rho = 0-like values or check normalisation.", "anchors": ["gwpopulation/utils.py:unnormalized_2d_gaussian", "gwpopulation/models/spin.py:GaussianChiEffChiP"]}
{"id": "C09", "title": "von_mises is a normalised, 2*pi-periodic, symmetric density", "statement": "For every mu and every kappa >= 0 von_mises is positive, 2*pi-periodic in x, symmetric about mu, maximal at mu, and integrates to exactly 1 over every interval of length 2*pi.", "quantifier": "all real mu, x, kappa >= 0, all period intervals", "why_tests_cant": "Normalisation over a continuum of kappa, with the exponentially scaled Bessel function.", "anchors": ["gwpopulation/utils.py:von_mises"]}
{"id": "C10", "title": "trapezoid integrates piecewise-linear data exactly and dispatches on the backend", "statement": "The trapezoid wrapper returns sum (x_{i+1}-x_i)(y_i+y_{i+1})/2 on any backend offering trapezoid or trapz and raises NotImplementedError otherwise; it is linear in y, non-negative for non-negative y on an increasing grid, additive under concatenation at a shared node, and exact for affine integrands on every grid.", "quantifier": "all grids and sample lists of any length, all backends", "why_tests_cant": "Quantifies over grids of every length and all sample values.", "anchors": ["gwpopulation/utils.py:trapezoid"]}
{"id": "C11", "title": "Beta parameter conversions are mutually inverse", "statement": "mu_var_max_to_alpha_beta_max(alpha_beta_max_to_mu_var_max(alpha, beta, amax)) = (alpha, beta, amax) for all alpha, beta, amax > 0, and the reverse composition is the identity for all amax > 0, 0 < mu < amax and var > 0 other than var = mu (amax - mu), where alpha = beta = 0 and going back raises ZeroDivisionError for Python floats and gives nan for numpy floats; moreover the resulting alpha and beta are both positive exactly when 0 < mu < amax and 0 < var < mu (amax - mu).", "quantifier": "all real parameters in the stated domains (exact arithmetic)", "why_tests_cant": "Rational identities over three real variables; the unit tests check three literal triples.", "anchors": ["gwpopulation/conversions.py:alpha_beta_max_to_mu_var_max", "gwpopulation/conversions.py:mu_var_max_to_alpha_beta_max"]}
{"id": "C12", "title": "convert_to_beta_parameters computes exactly the missing shape parameters", "statement": "For every parameter dictionary and flag remove: the result differs from the input only at alpha_chi{s}/beta_chi{s} of converted suffixes; a suffix is converted exactly when its alpha or beta is missing or None and its mu and sigma are present (the unsuffixed pair is considered only if neither _1 nor _2 is available); converted values are the alpha, beta of the given mu, sigma, amax; added_keys lists exactly the converted keys in order if remove is set and is empty otherwise; KeyError is raised exactly when a converted suffix lacks amax; applying the conversion to its own output changes nothing.", "quantifier": "all dictionaries (any keys, None values allowed), both values of remove", "why_tests_cant": "The decision table ranges over all subsets of fifteen keys with None/number values; tests cover five dictionaries.", "anchors": ["gwpopulation/conversions.py:convert_to_beta_parameters"]}
{"id": "C13", "title": "convert_to_beta_parameters leaves its input untouched", "statement": "After convert_to_beta_parameters(parameters) every entry of the caller's dictionary has the value it had before the call, for float-valued and for array-valued parameters.", "quantifier": "all parameter dictionaries, values either immutable floats or mutable arrays (shared by reference)", "why_tests_cant": "Aliasing through a shallow copy combined with in-place division; tests pass Python floats only.", "anchors": ["gwpopulation/conversions.py:convert_to_beta_parameters", "gwpopulation/conversions.py:mu_var_max_to_alpha_beta_max"]}
{"id": "C14", "title": "After set_backend every registered module uses that backend", "statement": "After any history of set_backend calls whose last call returned normally for backend b, every module registered for xp holds b's array module, every module registered for scs holds b's scipy.special, the active backend name is b, and all registered modules agree; requesting the active backend again changes nothing; switching away and back restores the previous bindings; jax's 64-bit mode is on whenever jax has been selected.", "quantifier": "all registries of plugin modules, all finite histories of set_backend calls, all environments in which registered modules import", "why_tests_cant": "Quantifies over every call history and every set of entry points.", "anchors": ["gwpopulation/backend.py:set_backend", "gwpopulation/backend.py:modules_to_update"]}
{"id": "C15", "title": "A set_backend call that raises leaves the library on the previous backend", "statement": "If set_backend raises (unsupported name, backend not installed, broken installation, or a registered module that fails to import), the active backend and every module binding are what they were before the call, and a later successful call for the same backend installs it completely.", "quantifier": "all environments (which imports fail and how), all registries, all histories", "why_tests_cant": "Failure can occur at every registered module; tests mock a single failure at load time.", "anchors": ["gwpopulation/backend.py:set_backend", "gwpopulation/backend.py:_load_numpy_and_scipy"]}
{"id": "C16", "title": "Every registered extra function is rebound to the active backend", "statement": "For every entry module:path.to.function registered in the 'other' group, after a successful set_backend(b) the module's attribute named by the last path component is the function at the path with the leading scipy/numpy translated to b's module.", "quantifier": "all lists of 'other' entry points incl. several functions for one module, all backends", "why_tests_cant": "Depends on collisions between entries of the same module, for any registry.", "anchors": ["gwpopulation/backend.py:modules_to_update", "gwpopulation/backend.py:_load_arbitrary", "gwpopulation/backend.py:set_backend"]}
{"id": "C17", "title": "Broken power law is the normalised continuous broken power law", "statement": "For all exponents alpha_1, alpha_2 different from -1, all 0 < mmin < mmax and 0 < break_fraction < 1, double_power_law_primary_mass equals, for every m > 0, the continuous broken power law (exponent -alpha_1 below and -alpha_2 above m_break = mmin + break_fraction (mmax - mmin)) divided by its integral over [mmin, mmax] inside that interval and 0 outside; it is continuous across the break and integrates to 1.", "quantifier": "all exponents, all 0<mmin<mmax, all break fractions in (0,1), all m > 0", "why_tests_cant": "A five-parameter continuum; the match at the break point is a single point a grid never hits.", "anchors": ["gwpopulation/models/mass.py:double_power_law_primary_mass"]}
{"id": "C18", "title": "Power-law-plus-peak mass models are normalised mixtures", "statement": "two_component_single, three_component_single and double_power_law_peak_primary_mass equal the stated convex mixture of the (broken) power law on [mmin, mmax] and Gaussians truncated to [mmin, gaussian_mass_maximum]; for mixture fractions in [0,1] they are non-negative, vanish for m < mmin and for m > max(mmax, gaussian_mass_maximum), and integrate to exactly 1 over all masses.", "quantifier": "all hyper-parameters with 0 < mmin < mmax, mmin < gaussian_mass_maximum, sigma > 0, fractions in [0,1]; all masses m > 0", "why_tests_cant": "Seven to eleven continuous hyper-parameters; tests sample ten draws on a grid.", "anchors": ["gwpopulation/models/mass.py:two_component_single", "gwpopulation/models/mass.py:three_component_single", "gwpopulation/models/mass.py:double_power_law_peak_primary_mass", "gwpopulation/models/mass.py:power_law_mass"]}
{"id": "C19", "title": "Primary-mass / mass-ratio models are normalised joint densities with the physical support", "statement": "power_law_primary_mass_ratio, two_component_primary_mass_ratio and double_power_law_primary_power_law_mass_ratio factor as p(m1) p(q|m1) with p(q|m1) the normalised power law on [mmin/m1, 1]; they vanish unless mmin <= m1, q <= 1 and m1 q >= mmin; for every m1 > mmin the integral over q is p(m1), hence the joint integral over (m1, q) is 1.", "quantifier": "all hyper-parameters in the physical domain, all m1 > 0, q > 0 with m1 != mmin", "why_tests_cant": "Two-dimensional normalisation over a continuum of hyper-parameters; the boundary m1 = mmin is a null set.", "anchors": ["gwpopulation/models/mass.py:two_component_primary_mass_ratio", "gwpopulation/models/mass.py:power_law_primary_mass_ratio", "gwpopulation/models/mass.py:double_power_law_primary_power_law_mass_ratio"]}
{"id": "C20", "title": "Component-mass models with m1 >= m2 are normalised", "statement": "The primary/secondary models vanish for m1 < m2 and integrate to 1 over the (m1, m2) plane.", "quantifier": "all hyper-parameters in the physical domain, for the identical and for the independent variants", "why_tests_cant": "A two-dimensional integral over a continuum of exponents; holds by symmetry only when both masses share one distribution.", "anchors": ["gwpopulation/models/mass.py:_primary_secondary_general", "gwpopulation/models/mass.py:power_law_primary_secondary_independent", "gwpopulation/models/mass.py:power_law_primary_secondary_identical", "gwpopulation/models/mass.py:two_component_primary_secondary_independent", "gwpopulation/models/mass.py:two_component_primary_secondary_identical"]}
{"id": "C21", "title": "The low-mass smoothing window is a monotone taper between 0 and 1", "statement": "For every delta_m > 0 the smoothing window is 0 outside [mmin, mmax], lies strictly between 0 and 1 inside, is non-decreasing in mass on [mmin, mmax], equals 1/2 at mmin + delta_m/2 and satisfies S(mmin+u)+S(mmin+delta_m-u)=1 for 0 <= u <= delta_m; for delta_m = 0 on numpy/cupy it is identically 1, and it never returns NaN.", "quantifier": "all finite masses, mmin, mmax, delta_m > 0", "why_tests_cant": "Monotonicity and symmetry over a continuum, incl. the clipped ends of the taper.", "anchors": ["gwpopulation/models/mass.py:BaseSmoothedMassDistribution.smoothing"]}
{"id": "C22", "title": "With delta_m = 0 a smoothed mass model is the corresponding analytic model", "statement": "On numpy/cupy, for delta_m = 0 (or absent) and every data point with m1 != mmin, the smoothed single-peak model returns exactly two_component_primary_mass_ratio with gaussian_mass_maximum equal to the instance's mmax (and analogously for the multi-peak, broken-power-law and broken-power-law-peak variants), whatever dataset was cached before.", "quantifier": "all hyper-parameters accepted by the model, all datasets of positive masses and mass ratios, all previous call histories of the instance with finite masses", "why_tests_cant": "All histories of the caching instance and all datasets; the test compares ten draws on one grid.", "anchors": ["gwpopulation/models/mass.py:BaseSmoothedMassDistribution.__call__", "gwpopulation/models/mass.py:BaseSmoothedMassDistribution.p_m1", "gwpopulation/models/mass.py:BaseSmoothedMassDistribution.p_q"]}
{"id": "C23", "title": "Smoothed mass models are normalised on their own grid", "statement": "For every delta_m different from 0 and every hyper-parameter point, if the numerical norm is a positive finite number then the trapezoid sum of p(m1) over the instance's own mass grid is exactly 1, and for each grid mass the trapezoid sum of p(q|m1) over the instance's mass-ratio grid is exactly 1.", "quantifier": "all hyper-parameters, all grid shapes (n_m, n_q), all primary models", "why_tests_cant": "All grid sizes and hyper-parameters; exactness (not up to tolerance).", "anchors": ["gwpopulation/models/mass.py:BaseSmoothedMassDistribution.norm_p_m1", "gwpopulation/models/mass.py:BaseSmoothedMassDistribution.norm_p_q", "gwpopulation/models/mass.py:BaseSmoothedMassDistribution.p_q"]}
{"id": "C24", "title": "A smoothed mass model's value does not depend on earlier calls", "statement": "The value returned by calling a smoothed mass model on a dataset is a function of that dataset and the hyper-parameters only: it is the same as on a fresh instance, whatever sequence of calls preceded it.", "quantifier": "all finite histories of calls with arbitrary datasets and hyper-parameters, cache on or off", "why_tests_cant": "Requires considering every history; single-call tests never see the stale interpolation cache.", "anchors": ["gwpopulation/models/mass.py:BaseSmoothedMassDistribution.p_q", "gwpopulation/models/mass.py:BaseSmoothedMassDistribution._cache_q_norms"]}
{"id": "C25", "title": "Smoothed mass models refuse hyper-parameters outside their grid", "statement": "On numpy/cupy, calling a smoothed mass model raises ValueError with the model left unchanged whenever the requested mmin is below the instance's mmin or the requested mmax is above the instance's mmax; a missing beta raises KeyError first; when both bounds are in range this check never raises, and on jax it is never made.", "quantifier": "all instances, hyper-parameter dictionaries and datasets", "why_tests_cant": "Decision logic over all dictionaries and both bounds.", "anchors": ["gwpopulation/models/mass.py:BaseSmoothedMassDistribution.__call__"]}
{"id": "C26", "title": "variable_names lists exactly the hyper-parameters a mass model consumes, and reading it has no side effect", "statement": "variable_names of a smoothed mass model is the set of its primary model's hyper-parameters plus beta and delta_m minus the ones fixed by the instance; reading the property any number of times yields the same set and modifies nothing.", "quantifier": "all primary models (with or without their own variable_names list), any number of reads", "why_tests_cant": "Any number of repeated reads and arbitrary user-supplied primary models.", "anchors": ["gwpopulation/models/mass.py:BaseSmoothedMassDistribution.variable_names"]}
{"id": "C27", "title": "Spin-orientation mixtures are normalised densities on [-1,1]^2", "statement": "For xi in [0,1] and positive widths, the spin-orientation model is non-negative, integrates to exactly 1 over [-1,1]^2, equals the isotropic density 1/4 at xi = 0 and the product of truncated Gaussians at xi = 1, vanishes outside [-1,1]^2, and the iid model is the independent model with equal parameters.", "quantifier": "all xi in [0,1], all means, all widths > 0, all cos-tilt pairs", "why_tests_cant": "A two-dimensional integral over a continuum of parameters; support claim is about all points outside the physical range.", "anchors": ["gwpopulation/models/spin.py:independent_spin_orientation_gaussian_isotropic", "gwpopulation/models/spin.py:iid_spin_orientation_gaussian_isotropic"]}
{"id": "C28", "title": "Spin-magnitude models are normalised and iid is independent with equal parameters", "statement": "The magnitude model is the product of the two scaled Beta densities (primary parameters with a_1, secondary with a_2), integrates to 1 over [0, amax_1] x [0, amax_2], is invariant under swapping both data and parameters, and iid_spin is the product of the iid orientation and iid magnitude models.", "quantifier": "all positive shape parameters and maxima, all data", "why_tests_cant": "Continuum of parameters; argument-order mistakes are invisible when tests use equal parameters.", "anchors": ["gwpopulation/models/spin.py:independent_spin_magnitude_beta", "gwpopulation/models/spin.py:iid_spin_magnitude_beta", "gwpopulation/models/spin.py:iid_spin"]}
{"id": "C29", "title": "The chi_eff/chi_p model is normalised on its grid and supported on the physical rectangle", "statement": "gaussian_chi_eff and gaussian_chi_p are the Gaussians truncated to [-1,1] and [0,1]; the correlated model is 0 unless |chi_eff| <= 1 and 0 <= chi_p <= 1, non-negative, proportional to the two-dimensional Gaussian inside, and its two-dimensional trapezoid sum over its own grid is exactly 1.", "quantifier": "all means, positive widths, |rho| < 1, all data points", "why_tests_cant": "Exact discrete normalisation for every parameter value and support for all points.", "anchors": ["gwpopulation/models/spin.py:GaussianChiEffChiP", "gwpopulation/models/spin.py:gaussian_chi_eff", "gwpopulation/models/spin.py:gaussian_chi_p"]}
{"id": "C30", "title": "Redshift evolution is normalised to the local rate", "statement": "psi_of_z(0) = 1 for the power-law model for every lamb and for the Madau-Dickinson model for every gamma, kappa and z_peak > -1, and psi is strictly positive for every z > -1.", "quantifier": "all rate-evolution parameters, all z > -1", "why_tests_cant": "Identity over all real exponents.", "anchors": ["gwpopulation/models/redshift.py:PowerLawRedshift.psi_of_z", "gwpopulation/models/redshift.py:MadauDickinsonRedshift.psi_of_z"]}
{"id": "C31", "title": "Redshift probability is a normalised density with cut-off z_max", "statement": "For every rate model with psi > 0 and positive differential comoving volume, the redshift probability is non-negative, 0 for z > z_max, proportional to psi(z)/(1+z) dVc/dz below, and its trapezoid sum over the instance's own redshift grid is exactly 1; changing only the overall scale of psi or of the volume does not change it.", "quantifier": "all rate-evolution parameters, cosmologies, z_max > 1e-6 (the first grid point), all z >= 0", "why_tests_cant": "All parameters and cosmologies; exactness on the grid of 2500 points.", "anchors": ["gwpopulation/models/redshift.py:_Redshift.probability", "gwpopulation/models/redshift.py:_Redshift.normalisation", "gwpopulation/models/redshift.py:_Redshift.differential_spacetime_volume"]}
{"id": "C32", "title": "Surveyed volume is linear in time and consistent between the two code paths", "statement": "total_four_volume is exactly linear in analysis_time; ResamplingVT.surveyed_hypervolume is that volume with lamb = 0 when no redshift model is present and otherwise the last redshift model's normalisation divided by 1e9 times the analysis time; both code paths compute the same rate-weighted integrand.", "quantifier": "all lamb, times, redshift limits, model lists", "why_tests_cant": "All model lists (position and number of redshift models) and parameters.", "anchors": ["gwpopulation/models/redshift.py:total_four_volume", "gwpopulation/vt.py:ResamplingVT.surveyed_hypervolume", "gwpopulation/vt.py:ResamplingVT.__init__"]}
{"id": "C33", "title": "Node-count inference terminates at the first missing node", "statement": "Inferring the node count from any parameter dictionary terminates and yields the smallest n >= the current count such that the key f{base}{n} is absent; the count never decreases.", "quantifier": "all dictionaries, base names and current counts", "why_tests_cant": "An unbounded while-True loop over arbitrary dictionaries.", "anchors": ["gwpopulation/models/interped.py:InterpolatedNoBaseModelIdentical.infer_n_nodes"]}
{"id": "C34", "title": "Changing the number of nodes keeps the rest of the model's configuration", "statement": "When a spline model discovers extra nodes in the parameters, only its number of nodes changes: its range, interpolation kind, regularisation flag and parameters stay as configured by the user.", "quantifier": "all configurations of the spline models and all parameter dictionaries", "why_tests_cant": "Re-initialisation with default arguments is only visible for non-default configurations.", "anchors": ["gwpopulation/models/interped.py:InterpolatedNoBaseModelIdentical.infer_n_nodes", "gwpopulation/models/spin.py:SplineSpinMagnitudeIdentical.__init__", "gwpopulation/models/spin.py:SplineSpinTiltIdentical.__init__"]}
{"id": "C35", "title": "A spline model's value does not depend on earlier calls", "statement": "The value returned by a spline model is a function of the dataset and hyper-parameters of that call only, whatever sequence of calls preceded it.", "quantifier": "all finite call histories with arbitrary datasets and node positions", "why_tests_cant": "Requires all histories; the interpolants are frozen at the first call.", "anchors": ["gwpopulation/models/interped.py:InterpolatedNoBaseModelIdentical.p_x_unnormed", "gwpopulation/models/interped.py:InterpolatedNoBaseModelIdentical.setup_interpolant"]}
{"id": "C36", "title": "Spline models are normalised on their grid, supported between the outer nodes, and regularised to the requested rms", "statement": "On the first call of a spline model whose grid has a point between the outer nodes (exactly then the norm is not 0): the returned value is the product over its parameters of exp(spline)/norm, is non-negative, 0 if some parameter is outside [first node, last node], and for each parameter the trapezoid sum of the one-dimensional density over the model's grid is 1; with regularisation the node values used have root-mean-square exactly rms and unchanged shape (for rms > 0 and node values that are not all 0).", "quantifier": "all node positions and values, grids, datasets, interpolation rules", "why_tests_cant": "Exactness for all node values and all interpolation kernels.", "anchors": ["gwpopulation/models/interped.py:InterpolatedNoBaseModelIdentical.p_x_identical", "gwpopulation/models/interped.py:InterpolatedNoBaseModelIdentical.norm_p_x", "gwpopulation/models/interped.py:InterpolatedNoBaseModelIdentical.extract_spline_points"]}
{"id": "C37", "title": "Spline hyper-parameter names never collide", "statement": "For every base name and every number of nodes, the node-position keys, node-value keys and the rms key of a spline model are pairwise distinct.", "quantifier": "all base names and node counts", "why_tests_cant": "All strings and all counts (e.g. base names beginning with f or ending in digits).", "anchors": ["gwpopulation/models/interped.py:InterpolatedNoBaseModelIdentical.__init__", "gwpopulation/models/interped.py:InterpolatedNoBaseModelIdentical.variable_names"]}
{"id": "C38", "title": "GridVT integrates over every supplied parameter", "statement": "For data given on a product grid with one array per parameter, calling the grid selection function returns the iterated trapezoid integral of p(theta|Lambda) vt(theta) over all parameters - a single number - each axis being integrated against its own grid values.", "quantifier": "all numbers of parameters, all grid lengths, all model functions", "why_tests_cant": "Axis identification depends on grid lengths; only equal lengths expose it; tests use one dimension.", "anchors": ["gwpopulation/vt.py:GridVT.__init__", "gwpopulation/vt.py:GridVT.__call__"]}
{"id": "C39", "title": "Constructing a selection function does not modify the caller's data", "statement": "After constructing a selection function from a data dictionary the caller's dictionary has the same keys and values as before, so that a second selection function can be constructed from it.", "quantifier": "all data dictionaries", "why_tests_cant": "Observable only through a second use of the same dictionary.", "anchors": ["gwpopulation/vt.py:GridVT.__init__", "gwpopulation/vt.py:_BaseVT.__init__"]}
{"id": "C40", "title": "The detection-efficiency estimator is unbiased in form and its variance is non-negative", "statement": "detection_efficiency returns mu = sum(w)/N and var = sum(w^2)/N^2 - mu^2/N with w = p/prior, where N is total_generated if given and the number of found injections otherwise; whenever N is at least the number of found injections, var >= 0, with var = 0 iff all N weights (missing injections counting 0) are equal; both are invariant under reordering injections and under adding injections of weight zero, and scale as c and c^2 when the population model is scaled by c.", "quantifier": "all weight lists of any length, all N", "why_tests_cant": "Cauchy-Schwarz over lists of every length; invariances over all permutations.", "anchors": ["gwpopulation/vt.py:ResamplingVT.detection_efficiency", "gwpopulation/vt.py:ResamplingVT.__init__"]}
{"id": "C41", "title": "Unconverged selection estimates are rejected, converged ones are untouched", "statement": "With enforce_convergence the returned mu is unchanged exactly when mu^2 > 4 n_events var and is +inf otherwise (also when anything is NaN); without it mu is returned unchanged; var is always returned unchanged.", "quantifier": "all mu, var, n_events incl. NaN and infinities", "why_tests_cant": "Boundary and special values of three floats.", "anchors": ["gwpopulation/vt.py:ResamplingVT.__call__", "gwpopulation/vt.py:ResamplingVT.check_convergence"]}
{"id": "C42", "title": "A default-constructed selection function is usable", "statement": "With the default n_events a selection function returns finite efficiencies for well-sampled populations.", "quantifier": "all injection sets and population models, default constructor arguments", "why_tests_cant": "A statement about all injection sets; tests always pass n_events=0.", "anchors": ["gwpopulation/vt.py:ResamplingVT.__init__", "gwpopulation/vt.py:ResamplingVT.check_convergence"]}
{"id": "C43", "title": "The uncertainty-marginalised factor never exceeds the plain efficiency and never crashes", "statement": "With marginalize_uncertainty, for every injection set the call returns mu exp(-(3+n)/(2 n_eff)) (positive and at most mu) when converged and +inf otherwise, without raising.", "quantifier": "all injection sets, n_events >= 0", "why_tests_cant": "Includes degenerate sets (all weights zero or all equal) that a sampled test never produces.", "anchors": ["gwpopulation/vt.py:ResamplingVT.vt_factor"]}
{"id": "C44", "title": "ln_likelihood_and_variance is the documented Monte Carlo estimator", "statement": "For every set of events, hyper-prior, sampling prior and selection function, ln_likelihood_and_variance returns sum_i ln(mean_k p/pi) - N ln(P_det) and sum_i (mean w^2 - mean^2)/(K mean^2) + N^2 var/P_det^2, with parameters first passed through the conversion function; a selection function returning a bare number counts as having zero variance.", "quantifier": "all numbers of events and samples, all weights, all selection results, all conversion functions", "why_tests_cant": "All sizes and all values.", "anchors": ["gwpopulation/hyperpe.py:HyperparameterLikelihood.ln_likelihood_and_variance", "gwpopulation/hyperpe.py:HyperparameterLikelihood._compute_per_event_ln_bayes_factors", "gwpopulation/hyperpe.py:HyperparameterLikelihood._get_selection_factor"]}
{"id": "C45", "title": "Likelihood variances are non-negative and vanish only for constant weights", "statement": "For finite non-negative weights with positive mean each per-event variance is >= 0 and < 1, and is 0 iff all weights of the event are equal; the total variance is non-negative if the selection variance is.", "quantifier": "all numbers of events, samples and weights", "why_tests_cant": "An inequality over lists of every length.", "anchors": ["gwpopulation/hyperpe.py:HyperparameterLikelihood._compute_per_event_ln_bayes_factors"]}
{"id": "C46", "title": "log_likelihood_ratio always returns a finite number", "statement": "For every data set, hyper-prior value (including NaN, infinities and zeros), selection result and uncertainty limit, log_likelihood_ratio returns a finite number; a NaN estimate yields the lowest finite float.", "quantifier": "all extended-float weights, selections, variances and limits", "why_tests_cant": "All special-value combinations.", "anchors": ["gwpopulation/hyperpe.py:HyperparameterLikelihood.log_likelihood_ratio"]}
{"id": "C47", "title": "Points whose uncertainty exceeds maximum_uncertainty are rejected, others are not", "statement": "If the uncertainty (standard deviation) of the log-likelihood estimate is larger than maximum_uncertainty, log_likelihood_ratio returns the 'minus infinity' value; otherwise it returns the estimate unchanged.", "quantifier": "all estimates, variances and limits (incl. infinite and NaN)", "why_tests_cant": "A threshold comparison over a continuum; the unit test uses values far from the threshold.", "anchors": ["gwpopulation/hyperpe.py:HyperparameterLikelihood.log_likelihood_ratio", "gwpopulation/hyperpe.py:HyperparameterLikelihood.maximum_uncertainty"]}
{"id": "C48", "title": "The null likelihood is flat apart from the uncertainty cut", "statement": "NullHyperparameterLikelihood has the same variance as the ordinary likelihood at every point, ln-likelihood 0, and its log_likelihood_ratio is 0 when the variance does not exceed the limit and exactly the lowest finite float when it does.", "quantifier": "all data, models, selection functions, limits", "why_tests_cant": "All inputs.", "anchors": ["gwpopulation/hyperpe.py:NullHyperparameterLikelihood.ln_likelihood_and_variance"]}
{"id": "C49", "title": "The rate likelihood is the Poisson likelihood and marginalises to the rate-free one", "statement": "RateLikelihood's log-likelihood is sum_i ln L_i + N ln R - R P_det; a missing rate raises KeyError; integrating its exponential over R with a 1/R prior gives, for every P_det > 0 and N >= 1, (N-1)! times the exponential of the ordinary hyper-parameter log-likelihood.", "quantifier": "all event likelihoods, all P_det > 0, all R > 0, all N >= 1", "why_tests_cant": "An integral identity for every N and P_det.", "anchors": ["gwpopulation/hyperpe.py:RateLikelihood._get_selection_factor"]}
{"id": "C50", "title": "generate_extra_statistics is consistent with the likelihood", "statement": "generate_extra_statistics returns the sample dictionary it was given, extended by ln_bf_i and var_i for every event, selection, selection_variance and variance and with no other entry changed; the sum of ln_bf_i - N ln(selection) and the reported variance are those of ln_likelihood_and_variance, for every likelihood class; selection_variance is the variance of P_det.", "quantifier": "all samples, all likelihood classes, all event counts", "why_tests_cant": "All classes and values; the unit test has zero variances.", "anchors": ["gwpopulation/hyperpe.py:HyperparameterLikelihood.generate_extra_statistics", "gwpopulation/hyperpe.py:RateLikelihood"]}
{"id": "C51", "title": "resample_posteriors takes equally many whole rows from every event", "statement": "resample_posteriors returns for every column of the first posterior an array of n_events rows and K = min(max_samples, shortest posterior) columns; entry (i, j) of all columns comes from one and the same sample of posterior i, distinct j use distinct samples; samples_per_posterior is K; events keep their order.", "quantifier": "all lists of posteriors with any lengths, all max_samples, every outcome of the random subsampling", "why_tests_cant": "All random outcomes and sizes.", "anchors": ["gwpopulation/hyperpe.py:HyperparameterLikelihood.resample_posteriors"]}
{"id": "C52", "title": "resample_posteriors keeps exactly the columns shared by all posteriors", "statement": "The returned dictionary has a key for each column shared by all posteriors.", "quantifier": "all lists of posteriors with any column sets", "why_tests_cant": "All column sets; tests use identical columns.", "anchors": ["gwpopulation/hyperpe.py:HyperparameterLikelihood.resample_posteriors"]}
{"id": "C53", "title": "Posterior-predictive resampling uses normalised weights and keeps samples intact", "statement": "For non-negative finite weights with positive per-event sums, the returned weights are non-negative and each event's weights sum to exactly 1, they do not depend on the order of the hyper-samples or on the scale of each population model, and every resampled entry (i, j) takes all its columns from one and the same original sample of event i; shapes are preserved.", "quantifier": "all numbers of events, samples and hyper-samples; every outcome of the random choice", "why_tests_cant": "All random outcomes and sizes.", "anchors": ["gwpopulation/hyperpe.py:HyperparameterLikelihood.posterior_predictive_resample"]}
{"id": "C54", "title": "Rate posterior samples follow the 1/R-prior posterior", "statement": "generate_rate_posterior_sample returns a Gamma(N, scale = 1/VT) variate, the posterior of R under a 1/R prior and a Poisson likelihood with N events and exposure VT = efficiency x surveyed volume, for every selection function accepted by the likelihood; RateLikelihood returns the sampled rate.", "quantifier": "all N >= 1, all VT > 0, all kinds of selection function", "why_tests_cant": "A distributional identity for all N and VT.", "anchors": ["gwpopulation/hyperpe.py:HyperparameterLikelihood.generate_rate_posterior_sample", "gwpopulation/hyperpe.py:RateLikelihood.generate_rate_posterior_sample"]}
{"id": "C55", "title": "Likelihoods are invariant under reordering of data", "statement": "Permuting the events, or permuting the samples within an event (all columns together with the prior), leaves the log-likelihood and its variance unchanged; multiplying an event's sampling prior by c > 0 shifts its ln Bayes factor by -ln c and leaves the variance unchanged.", "quantifier": "all permutations, all sizes, all weights incl. special values", "why_tests_cant": "All permutations of lists of every length.", "anchors": ["gwpopulation/hyperpe.py:HyperparameterLikelihood._compute_per_event_ln_bayes_factors", "gwpopulation/hyperpe.py:HyperparameterLikelihood.ln_likelihood_and_variance"]}
{"id": "C56", "title": "Construction accepts exactly functions and model objects, and separates the sampling prior", "statement": "The likelihood constructor wraps a plain function into a one-element model, keeps an object with parameters and a callable prob, and raises AttributeError for anything else; a prior column is removed from the data and used as the sampling prior, otherwise the sampling prior is 1; the noise evidence is the sum of ln_evidences or NaN; log_likelihood is the ratio plus that sum.", "quantifier": "all kinds of hyper-prior objects, all column sets, all evidence lists", "why_tests_cant": "Decision logic over all object kinds.", "anchors": ["gwpopulation/hyperpe.py:HyperparameterLikelihood.__init__", "gwpopulation/hyperpe.py:HyperparameterLikelihood.log_likelihood"]}
{"id": "C57", "title": "Detector-frame conversion divides by 1+z and returns the matching Jacobian", "statement": "With luminosity_distance given (and no redshift column), every column x_detector becomes x = x_detector/(1+z), other columns are copied unchanged, luminosity_distance is replaced by redshift = z(d_L), and the Jacobian is dDL/dz (1+z)^k with k the number of _detector columns; with redshift given it is (1+z)^k; with neither, ValueError is raised; the input dictionary is not modified.", "quantifier": "all column sets of any size and all values", "why_tests_cant": "Any number of columns with arbitrary names.", "anchors": ["gwpopulation/experimental/cosmo_models.py:CosmoMixin.detector_frame_to_source_frame"]}
{"id": "C58", "title": "Detector-frame conversion does not depend on column order", "statement": "Two data dictionaries with the same columns in a different order are converted to the same source-frame samples and Jacobian.", "quantifier": "all dictionaries and all reorderings", "why_tests_cant": "All orders of all column sets; tests always put redshift first.", "anchors": ["gwpopulation/experimental/cosmo_models.py:CosmoMixin.detector_frame_to_source_frame"]}
{"id": "C59", "title": "The Jacobian makes the detector-frame density integrate to one", "statement": "For every normalised source-frame population p(m, z) in k masses and redshift and every smooth strictly increasing luminosity-distance relation, the detector-frame density CosmoModel.prob integrates to 1 over detector-frame masses and luminosity distance.", "quantifier": "all k, all integrable densities, all strictly increasing differentiable distance relations", "why_tests_cant": "A change-of-variables theorem over all densities.", "anchors": ["gwpopulation/experimental/cosmo_models.py:CosmoModel.prob", "gwpopulation/experimental/cosmo_models.py:CosmoMixin.detector_frame_to_source_frame"]}
{"id": "C60", "title": "Cosmological parameters are read exactly when the cosmology is free", "statement": "FlatwCDM reads exactly H0, Om0, w0, FlatLambdaCDM exactly H0, Om0, every fixed cosmology none; an unknown name raises KeyError at construction; a missing cosmological parameter raises KeyError at evaluation; variable_names of a redshift model is these names followed by its own and repeated reads do not change it.", "quantifier": "all cosmology names, parameter dictionaries, repeated reads", "why_tests_cant": "All names and dictionaries.", "anchors": ["gwpopulation/experimental/cosmo_models.py:CosmoMixin.__init__", "gwpopulation/experimental/cosmo_models.py:CosmoMixin.cosmology", "gwpopulation/experimental/cosmo_models.py:CosmoMixin.cosmology_variables", "gwpopulation/models/redshift.py:_Redshift.variable_names"]}
{"id": "C61", "title": "The numpyro likelihood equals the bilby likelihood", "statement": "For a likelihood with a resampling selection function, the numpyro model's ln_l and variance equal those of ln_likelihood_and_variance with convergence enforcement off; without selection they are the event terms only; with a finite varmax it returns the lowest finite float exactly when ln_l is NaN or the variance exceeds varmax.", "quantifier": "all weights, injections, limits", "why_tests_cant": "All values incl. special ones.", "anchors": ["gwpopulation/experimental/numpyro.py:gwpopulation_likelihood_model"]}
{"id": "C62", "title": "The numpyro model's rate has the same posterior as the bilby one", "statement": "The rate drawn by the numpyro model has the distribution of generate_rate_posterior_sample: Gamma(N) with mean N/VT.", "quantifier": "all N >= 1 and VT > 0", "why_tests_cant": "A distributional statement; tests only check that the site exists.", "anchors": ["gwpopulation/experimental/numpyro.py:gwpopulation_likelihood_model"]}
{"id": "C63", "title": "The numpyro model resamples each event from its own samples", "statement": "For event i the predictive resample draws a sample index among all samples of event i with probability proportional to the weights of event i.", "quantifier": "all numbers of events and samples, all weights, every event", "why_tests_cant": "Only non-square weight arrays expose an axis mix-up.", "anchors": ["gwpopulation/experimental/numpyro.py:posterior_predictive_resample"]}
{"id": "C64", "title": "The jitted likelihood returns the wrapped likelihood's value", "statement": "JittedLikelihood.log_likelihood_ratio returns the wrapped log-likelihood-ratio (or log-likelihood with use_ratio=False) whenever that is finite, and an invalid value is never turned into an acceptable one.", "quantifier": "all wrapped likelihood values incl. NaN and infinities", "why_tests_cant": "Special values.", "anchors": ["gwpopulation/experimental/jax.py:JittedLikelihood.log_likelihood_ratio", "gwpopulation/experimental/jax.py:generic_bilby_likelihood_function"]}
{"id": "C65", "title": "to_numpy and get_name classify every object", "statement": "to_numpy returns numbers, numpy arrays and pandas objects unchanged, converts cupy and jax arrays, and raises TypeError for everything else; get_name returns __name__ if present and the class name otherwise; to_number applies the conversion on numpy/cupy and astype on jax.", "quantifier": "all object kinds and backends", "why_tests_cant": "Decision logic over all kinds.", "anchors": ["gwpopulation/utils.py:to_numpy", "gwpopulation/utils.py:get_name", "gwpopulation/utils.py:to_number"]}
{"id": "C66", "title": "powerlaw refuses only meaningless parameters", "statement": "With every argument passed by keyword on numpy or cupy, powerlaw raises ValueError exactly when low < 0 (or NaN); every real spectral index, including alpha = 1 and alpha = -1, is accepted and gives the normalised density.", "quantifier": "all alpha, low, high, both passing styles, all backends", "why_tests_cant": "A single excluded value in a continuum (the guard excludes alpha = 1 although only alpha = -1 is singular).", "anchors": ["gwpopulation/utils.py:powerlaw", "gwpopulation/utils.py:apply_conditions", "gwpopulation/models/mass.py:power_law_mass"]}
{"id": "C67", "title": "powerlaw is zero everywhere outside [low, high]", "statement": "For every real x outside [low, high] - also x = 0 and x < 0 - powerlaw returns 0, so that masking out unphysical samples by the support works.", "quantifier": "all real alpha, all 0 < low < high, all real x outside the interval", "why_tests_cant": "Special-value propagation (0 * inf, 0 * nan) at non-positive x for every exponent.", "anchors": ["gwpopulation/utils.py:powerlaw"]}
{"id": "C68", "title": "alpha_beta_max_to_mu_var_max returns the mean and variance of beta_dist", "statement": "For all positive alpha, beta and amax the returned mu and var are the mean and variance of the density that beta_dist returns for the same alpha, beta and scale = amax.", "quantifier": "all positive alpha, beta, amax", "why_tests_cant": "An integral identity over a continuum of parameters (the documented formula differs from the implemented one).", "anchors": ["gwpopulation/conversions.py:alpha_beta_max_to_mu_var_max", "gwpopulation/utils.py:beta_dist"]}
{"id": "C69", "title": "The variance of the rate likelihood is the propagated Monte Carlo variance", "statement": "RateLikelihood's variance is the sum of the per-event variances plus the variance of its selection term -R P_det, i.e. R^2 times the variance of P_det, for every rate and every variance reported by the selection function.", "quantifier": "all rates, all real selection values and variances, all events", "why_tests_cant": "A formula identity over all real inputs; a wrong power or factor only shows up for particular rates and event counts.", "anchors": ["gwpopulation/hyperpe.py:RateLikelihood._get_selection_factor", "gwpopulation/hyperpe.py:HyperparameterLikelihood.ln_likelihood_and_variance"]}
{"id": "C70", "title": "The numpyro model evaluates with default options whenever the likelihood does", "statement": "With its default options (selection, predictive resampling, all columns) the numpyro model evaluates for every likelihood and ResamplingVT for which ln_likelihood_and_variance evaluates and the surveyed volume is defined.", "quantifier": "all likelihoods, injection sets (arrays and numbers), numbers of events and injections", "why_tests_cant": "Depends on which entries the injection dictionary holds and on the relative numbers of events and injections.", "anchors": ["gwpopulation/experimental/numpyro.py:gwpopulation_likelihood_model", "gwpopulation/experimental/numpyro.py:posterior_predictive_resample"]}
{"id": "C71", "title": "The interpolated power law's primary-mass density is normalised on its grid", "statement": "For a new InterpolatedPowerlaw instance, hyper-parameters in range and increasing positive node positions, the primary-mass density evaluated on the instance's mass grid integrates to one (trapezoid rule).", "quantifier": "all constructor arguments, interpolation rules, node positions and values, power-law indices, mass bounds and smoothing widths", "why_tests_cant": "The normalisation is a sum over a grid of exponentials of an arbitrary spline; whether density and norm use the same support depends on where the nodes lie relative to the grid.", "anchors": ["gwpopulation/models/mass.py:InterpolatedPowerlaw.p_m1", "gwpopulation/models/mass.py:InterpolatedPowerlaw.norm_p_m1"]}
{"id": "C72", "title": "A call of the interpolated power law does not depend on earlier calls", "statement": "The outcome of a call of an InterpolatedPowerlaw instance is a function of the dataset and hyper-parameters given to it: any history of earlier calls (other datasets, other node positions) leaves it unchanged.", "quantifier": "all constructor arguments, all finite histories of calls, all datasets and hyper-parameters", "why_tests_cant": "Cached interpolants are hidden state; a test would have to try all histories.", "anchors": ["gwpopulation/models/mass.py:InterpolatedPowerlaw.p_m1", "gwpopulation/models/mass.py:InterpolatedPowerlaw.__call__"]}
{"id": "C73", "title": "The interpolated power law's variable_names are exactly the hyper-parameters it reads", "statement": "variable_names lists alpha, mmin, mmax, beta, delta_m, the node positions and values, and the root mean square when regularised; each of them except delta_m is required (KeyError otherwise), they suffice, and no other name has any influence on outcome or instance.", "quantifier": "all constructor arguments, histories of calls, datasets and dictionaries of hyper-parameters", "why_tests_cant": "Quantifies over all dictionaries, numbers of nodes and histories.", "anchors": ["gwpopulation/models/mass.py:InterpolatedPowerlaw.variable_names", "gwpopulation/models/mass.py:InterpolatedPowerlaw.p_m1"]}
{"id": "C74", "title": "JittedLikelihood gives access to the attributes of the wrapped likelihood", "statement": "Reading any attribute of a JittedLikelihood gives the attribute of the likelihood it wraps, also through several layers of wrapping.", "quantifier": "all attribute names, all wrapped objects, any number of layers", "why_tests_cant": "Quantifies over all attribute names; which of them are shadowed depends on the class hierarchy of an external package.", "anchors": ["gwpopulation/experimental/jax.py:JittedLikelihood.__getattr__", "gwpopulation/experimental/jax.py:JittedLikelihood.__init__"]}
{"id": "C75", "title": "A JittedLikelihood can be copied and sent to other processes", "statement": "copy.copy, copy.deepcopy and unpickling of a JittedLikelihood give an object equivalent to the original.", "quantifier": "all wrapped likelihoods, all recursion limits", "why_tests_cant": "Copying creates an instance on which __init__ has not run; whether attribute access on it terminates must be shown for every recursion limit.", "anchors": ["gwpopulation/experimental/jax.py:JittedLikelihood.__getattr__"]}
{"id": "C76", "title": "meta_data can be read from every likelihood and describes it", "statement": "Every constructed likelihood has a meta_data dictionary with the names of the models, the data, the number of events and samples, and the sampling prior as ordinary arrays, whichever backend is active when it is read.", "quantifier": "all likelihoods accepted by the constructor, all kinds of hyper_prior, all pairs of backends at construction and reading", "why_tests_cant": "A property over all accepted hyper_prior objects and all histories of backend switches.", "anchors": ["gwpopulation/hyperpe.py:HyperparameterLikelihood.meta_data"]}
{"id": "C77", "title": "The likelihood does not depend on the normalisation of the population model", "statement": "If the population model is multiplied by a positive constant, both in the likelihood and in the selection function, then the rate-marginalised likelihood, its variance, ratio and convergence cut are unchanged for every hyper-parameter; the rate likelihood is unchanged if the rate is divided by the constant; and generated rates are divided by it.", "quantifier": "all positive constants, likelihoods, injection sets, hyper-parameters (including special float values)", "why_tests_cant": "An invariance over all constants and inputs, relying on cancellation between two Monte Carlo integrals in different modules.", "anchors": ["gwpopulation/hyperpe.py:HyperparameterLikelihood.ln_likelihood_and_variance", "gwpopulation/vt.py:ResamplingVT.vt_factor", "gwpopulation/hyperpe.py:RateLikelihood"]}
{"id": "C78", "title": "The likelihood does not depend on the units of the sampling prior beyond a constant", "statement": "Multiplying the sampling prior of event i by c_i > 0 shifts the log likelihood by -sum ln c_i for every hyper-parameter and leaves the variance unchanged; multiplying the priors of all events and of the injections by the same constant leaves log-likelihood and variance unchanged.", "quantifier": "all positive constants per event, all likelihoods, hyper-parameters", "why_tests_cant": "An invariance over all constants, events and hyper-parameters, including special values.", "anchors": ["gwpopulation/hyperpe.py:HyperparameterLikelihood._compute_per_event_ln_bayes_factors", "gwpopulation/vt.py:ResamplingVT.detection_efficiency"]}
{"id": "C79", "title": "A mean and variance given for the spin magnitude are those of the resulting spin model", "statement": "For every parameter dictionary whose mean, variance and maximum of a spin are possible, the shape parameters computed by convert_to_beta_parameters make the spin-magnitude models probability densities with exactly this mean and variance, for each component and each naming convention.", "quantifier": "all parameter dictionaries, all possible means, variances and maxima, all backends", "why_tests_cant": "End-to-end through three modules; an integral identity over a continuum of parameters.", "anchors": ["gwpopulation/conversions.py:convert_to_beta_parameters", "gwpopulation/models/spin.py:iid_spin_magnitude_beta", "gwpopulation/models/spin.py:independent_spin_magnitude_beta", "gwpopulation/utils.py:beta_dist"]}
{"id": "C80", "title": "Spin models refuse meaningless parameters", "statement": "On backends that check arguments, a spin-magnitude model raises ValueError when a shape parameter is not positive (e.g. because mean and variance are impossible), as beta_dist declares, and likewise for a non-positive maximum.", "quantifier": "all shape parameters, maxima, datasets and backends", "why_tests_cant": "Whether a check applies depends on the calling convention of every caller; quantifies over all floats.", "anchors": ["gwpopulation/models/spin.py:independent_spin_magnitude_beta", "gwpopulation/models/spin.py:independent_spin_orientation_gaussian_isotropic", "gwpopulation/utils.py:apply_conditions"]}
{"id": "C81", "title": "The selection function is unbiased", "statement": "If injections are drawn from the density stated as their prior, the detection efficiency ResamplingVT computes has as expectation the probability that a source of the population is found, for every number of injections; and for pairwise independent injections the variance it reports has as expectation (1-1/N) times the actual variance of the estimate.", "quantifier": "all population densities, drawing densities absolutely covering them, selections of found injections, numbers of injections, probability spaces", "why_tests_cant": "A statement about expectations over random injections: single runs cannot settle it.", "anchors": ["gwpopulation/vt.py:ResamplingVT.detection_efficiency", "gwpopulation/vt.py:_BaseVT.__init__"]}
{"id": "C82", "title": "The likelihood converges to the exact one", "statement": "As the numbers of injections and of posterior samples per event grow, with probability one the log likelihood (and the selection function in each of its modes) eventually is a finite number, converges to the exact hierarchical log likelihood sum_i ln(int L_i p / Z_i) - n ln int_found p, and the reported variance tends to zero.", "quantifier": "all populations, event likelihoods, sampling priors, drawing densities with finite second moments, modes of the selection function, numbers of events", "why_tests_cant": "An almost-sure limit over infinite sequences of random samples.", "anchors": ["gwpopulation/vt.py:ResamplingVT.__call__", "gwpopulation/vt.py:ResamplingVT.vt_factor", "gwpopulation/hyperpe.py:HyperparameterLikelihood.ln_likelihood_and_variance"]}
{"id": "C83", "title": "Switching the backend never changes a returned value", "statement": "For the densities, the mass, spin, smoothed-mass, spline and interpolated power-law models: whenever the computation returns a value on numpy, it returns the same value on cupy and on jax and leaves the model instance in the same state.", "quantifier": "all inputs including special floats, all parameter dictionaries, instance states and the three backends", "why_tests_cant": "Backends differ in argument checks, in-place broadcasting, division and explicit branches; tests compare a few points.", "anchors": ["gwpopulation/utils.py:apply_conditions", "gwpopulation/models/mass.py:BaseSmoothedMassDistribution.smoothing", "gwpopulation/models/mass.py:BaseSmoothedMassDistribution.norm_p_m1", "gwpopulation/models/interped.py:InterpolatedNoBaseModelIdentical"]}
{"id": "C84", "title": "Spline models of different parameters have different hyper-parameters", "statement": "The hyper-parameters of a spline model are named after the modelled parameter without its component suffix (a_1 gives a0, a1, ..., fa0, fa1, ..., rmsa), and two spline models for different parameters have no hyper-parameter name in common, so that they can be used in one population model.", "quantifier": "all parameter names, node counts and configurations", "why_tests_cant": "All strings: the suffix is removed by a character-set strip, and names are built by concatenation.", "anchors": ["gwpopulation/models/interped.py:InterpolatedNoBaseModelIdentical.__init__", "gwpopulation/models/interped.py:InterpolatedNoBaseModelIdentical.variable_names"]}
{"id": "C85", "title": "Normalising on a grid is normalising, up to the resolution of the grid", "statement": "Constants of normalisation computed on a grid give densities whose exact integral differs from 1 by at most half a grid cell times the total variation of the density (redshift models, primary mass of the smoothed models, spline models); and as the mass and mass-ratio grids of the four smoothed mass models are refined, the values returned tend at every sample to the documented density, which integrates to exactly 1.", "quantifier": "all hyper-parameters in the allowed range, datasets, grid sizes, backends, cosmologies of bounded variation", "why_tests_cant": "Error bounds and limits over a continuum of parameters and unboundedly fine grids.", "anchors": ["gwpopulation/models/mass.py:BaseSmoothedMassDistribution", "gwpopulation/models/redshift.py:_Redshift.normalisation", "gwpopulation/models/interped.py:InterpolatedNoBaseModelIdentical.norm_spline"]}
{"id": "C86", "title": "A cached population model never returns probabilities of other data", "statement": "Whatever has been evaluated before, the likelihood uses the product of the population functions at the posterior samples and the selection function their product at the injections, also when both are given the same population model, and CosmoModel always uses the current data and cosmology.", "quantifier": "all histories of evaluations by likelihood and selection function, all population functions, data, parameters, caching flags, ways of passing the model (function, list, object)", "why_tests_cant": "The result depends on the order of all earlier calls and on which objects share a cache.", "anchors": ["gwpopulation/hyperpe.py:HyperparameterLikelihood.__init__", "gwpopulation/hyperpe.py:HyperparameterLikelihood.ln_likelihood_and_variance", "gwpopulation/vt.py:_BaseVT.__init__", "gwpopulation/vt.py:ResamplingVT.vt_factor", "gwpopulation/experimental/cosmo_models.py:CosmoModel"]}
{"id": "C87", "title": "A population model made of normalised functions is normalised", "statement": "The probability returned by a population model whose functions describe different source parameters integrates, over all parameters together, to the product of the integrals of its functions. For the model of masses, spin magnitudes, spin tilts and redshift it is finite and non-negative at every source and its integral is 1 up to the resolution of the redshift grid.", "quantifier": "all lists of population functions over separate parameters; all hyper-parameters in the allowed range, backends, cosmologies of bounded variation", "why_tests_cant": "An integral over seven source parameters for a continuum of hyper-parameters.", "anchors": ["gwpopulation/models/mass.py:two_component_primary_mass_ratio", "gwpopulation/models/spin.py:iid_spin_magnitude_beta", "gwpopulation/models/spin.py:iid_spin_orientation_gaussian_isotropic", "gwpopulation/models/redshift.py:PowerLawRedshift", "gwpopulation/experimental/cosmo_models.py:CosmoModel.prob"]}
{"id": "C88", "title": "Double precision does not spoil the estimates", "statement": "Computed in double precision, in any order of summation and with any logarithm that is correct to one unit in the last place, the log Bayes factors, their variances, the detection probability, its variance and the total log likelihood differ from the exact Monte Carlo estimates by at most explicit bounds proportional to 2^-53 times the number of samples; so two backends that add in different orders agree up to twice that bound.", "quantifier": "all numbers of events, samples and injections up to 2^40 and 2^47, all weights that are zero or of moderate size, all orders of summation, all accurate logarithms", "why_tests_cant": "Ranges over every order of summation and every array; tests compare one platform with a fixed tolerance.", "anchors": ["gwpopulation/hyperpe.py:HyperparameterLikelihood._compute_per_event_ln_bayes_factors", "gwpopulation/hyperpe.py:HyperparameterLikelihood.ln_likelihood_and_variance", "gwpopulation/vt.py:ResamplingVT.detection_efficiency"]}
{"id": "C89", "title": "Reported variances are not negative", "statement": "The variance reported for the log Bayes factor of an event and for the detection probability is not negative, also in double precision.", "quantifier": "all weights that are zero or of moderate size, all orders of summation, all accurate libraries", "why_tests_cant": "The sign depends on cancellation in the last bits of sums over arbitrary arrays.", "anchors": ["gwpopulation/hyperpe.py:HyperparameterLikelihood._compute_per_event_ln_bayes_factors", "gwpopulation/vt.py:ResamplingVT.detection_efficiency"]}
{"id": "C90", "title": "Power laws are accurate in double precision", "statement": "Computed in double precision with library functions correct to one unit in the last place, the truncated power law is within one percent of the normalised density wherever nothing overflows.", "quantifier": "all double-precision values, spectral indices and limits that cause no overflow or underflow; all accurate libraries; Python floats and arrays", "why_tests_cant": "The error depends on cancellation between two powers near one point of a continuum of hyper-parameters, the spectral index -1.", "anchors": ["gwpopulation/utils.py:powerlaw"]}
{"id": "C91", "title": "Densities and likelihood depend continuously on the hyper-parameters", "statement": "A small change of the hyper-parameters changes the returned densities, the detection efficiency and the estimated log likelihood by a small amount, except where a source lies on a limit of its own distribution.", "quantifier": "all hyper-parameters in the allowed range, all sources, grids, backends, numbers of events, samples and injections", "why_tests_cant": "Continuity is a statement about all nearby hyper-parameters; a jump sits at single points of a continuum.", "anchors": ["gwpopulation/utils.py:powerlaw", "gwpopulation/utils.py:truncnorm", "gwpopulation/utils.py:beta_dist", "gwpopulation/models/mass.py:BaseSmoothedMassDistribution", "gwpopulation/models/mass.py:SinglePeakSmoothedMassDistribution", "gwpopulation/models/redshift.py:PowerLawRedshift", "gwpopulation/models/redshift.py:MadauDickinsonRedshift", "gwpopulation/vt.py:ResamplingVT.detection_efficiency", "gwpopulation/hyperpe.py:HyperparameterLikelihood.ln_likelihood_and_variance"]}
{"id": "C92", "title": "Gradients of densities and likelihood are right under jax", "statement": "On the jax backend, wherever a returned density, detection efficiency or log likelihood is a differentiable function of a hyper-parameter, reverse-mode differentiation of the code returns that derivative.", "quantifier": "all hyper-parameters, sources, grids, events and samples where the result is differentiable", "why_tests_cant": "Wrong gradients (NaN) sit where an unselected branch of a `where` is singular; the values are right there, and tests compare values.", "anchors": ["gwpopulation/utils.py:powerlaw", "gwpopulation/utils.py:beta_dist", "gwpopulation/utils.py:truncnorm", "gwpopulation/models/mass.py:two_component_single", "gwpopulation/models/mass.py:BaseSmoothedMassDistribution", "gwpopulation/models/mass.py:SinglePeakSmoothedMassDistribution", "gwpopulation/models/redshift.py:PowerLawRedshift", "gwpopulation/models/redshift.py:MadauDickinsonRedshift", "gwpopulation/vt.py:ResamplingVT", "gwpopulation/hyperpe.py:HyperparameterLikelihood.ln_likelihood_and_variance"]}
{"id": "C93", "title": "A redshift model's variable_names are exactly the hyper-parameters it reads", "statement": "Calling a redshift model with hyper-parameters that agree on variable_names gives the same result; a call without one of them raises KeyError; hyper-parameters named like arguments of the methods are refused with TypeError; the base class raises NotImplementedError.", "quantifier": "all sets of hyper-parameters, data, cosmologies and redshift limits", "why_tests_cant": "Ranges over all dictionaries of hyper-parameters, including every set of missing and additional ones.", "anchors": ["gwpopulation/models/redshift.py:_Redshift.variable_names", "gwpopulation/models/redshift.py:_Redshift.probability", "gwpopulation/models/redshift.py:PowerLawRedshift", "gwpopulation/models/redshift.py:MadauDickinsonRedshift", "gwpopulation/experimental/cosmo_models.py:CosmoMixin.cosmology_variables"]}
{"id": "C94", "title": "Gaussian, Beta and von Mises densities are accurate in double precision", "statement": "In IEEE double arithmetic, with accurate special functions, truncnorm, beta_dist and von_mises return the normalised density up to a relative error proportional to the unit roundoff and a stated amplification, and exactly 0 outside the range.", "quantifier": "all double arguments that cause no overflow or underflow, and all libraries of a given accuracy", "why_tests_cant": "Ranges over all doubles and over all rounding errors of the special functions; cancellation only shows for particular parameters.", "anchors": ["gwpopulation/utils.py:truncnorm", "gwpopulation/utils.py:beta_dist", "gwpopulation/utils.py:von_mises"]}
{"id": "C95", "title": "Densities act element by element on arrays of any shapes", "statement": "powerlaw, truncnorm, beta_dist, von_mises and unnormalized_2d_gaussian broadcast their arguments: for arrays of any shapes that can be combined, the result has the combined shape and every element is what the call with the corresponding numbers returns.", "quantifier": "all backends, all numbers of axes and lengths of all arguments, all values that pass the parameter checks", "why_tests_cant": "Ranges over all combinations of shapes of up to seven arguments; in-place updates only fail for some of them.", "anchors": ["gwpopulation/utils.py:powerlaw", "gwpopulation/utils.py:truncnorm", "gwpopulation/utils.py:beta_dist", "gwpopulation/utils.py:von_mises", "gwpopulation/utils.py:unnormalized_2d_gaussian"]}
{"id": "C96", "title": "Integer arguments give the same densities as floating-point ones", "statement": "A density called with Python integers or integer arrays returns what it returns for the same numbers as floats.", "quantifier": "all numeric arguments of any shapes and dtypes that pass the parameter checks", "why_tests_cant": "Ranges over all assignments of dtypes to arguments; type promotion and in-place updates depend on the combination.", "anchors": ["gwpopulation/utils.py:powerlaw", "gwpopulation/utils.py:truncnorm", "gwpopulation/utils.py:beta_dist"]}
{"id": "C97", "title": "Mass and spin models act sample by sample on datasets of any shape", "statement": "Every mass and spin model, given a dataset whose arrays can be broadcast together, returns one probability per sample, equal to the model evaluated at the numbers of that sample.", "quantifier": "all backends, all shapes of datasets, all valid hyper-parameters given as Python numbers, numpy scalars or arrays without axes", "why_tests_cant": "Ranges over all shapes and all hyper-parameters.", "anchors": ["gwpopulation/models/mass.py:power_law_primary_mass_ratio", "gwpopulation/models/mass.py:two_component_primary_mass_ratio", "gwpopulation/models/mass.py:double_power_law_primary_mass", "gwpopulation/models/mass.py:three_component_single", "gwpopulation/models/mass.py:power_law_primary_secondary_independent", "gwpopulation/models/spin.py:iid_spin", "gwpopulation/models/spin.py:gaussian_chi_eff"]}
{"id": "C98", "title": "Compiling a spline model with jax.jit does not change what it returns", "statement": "With the jax backend, a spline model (InterpolatedNoBaseModelIdentical) may be called through jax.jit: every call, compiled or not, in any order, returns what the same sequence of calls returns without jax.jit.", "quantifier": "all instances, all sequences of compiled and ordinary calls with arbitrary datasets and parameters", "why_tests_cant": "The model stores arrays on the instance while it is traced; whether that breaks a later call depends on the whole history and on what had been compiled before.", "anchors": ["gwpopulation/models/interped.py:InterpolatedNoBaseModelIdentical.__call__", "gwpopulation/models/interped.py:InterpolatedNoBaseModelIdentical.setup_interpolant", "gwpopulation/models/interped.py:InterpolatedNoBaseModelIdentical.infer_n_nodes"]}
{"id": "C99", "title": "Compiling a smoothed mass model with jax.jit does not change what it returns", "statement": "With the jax backend, a smoothed mass model may be called through jax.jit: every call, compiled or not, in any order, returns what an ordinary call of a new instance with the same data and parameters returns.", "quantifier": "all constructor arguments, all sequences of compiled and ordinary calls with arbitrary datasets and parameters", "why_tests_cant": "The model stores an interpolant of the norms on the instance, also while it is traced; which one a compiled function contains depends on the history before the trace.", "anchors": ["gwpopulation/models/mass.py:BaseSmoothedMassDistribution.__call__", "gwpopulation/models/mass.py:BaseSmoothedMassDistribution.p_q", "gwpopulation/models/mass.py:BaseSmoothedMassDistribution._cache_q_norms"]}
{"id": "C100", "title": "A likelihood and its compiled version agree, in any order and after changes of settings", "statement": "A likelihood and its JittedLikelihood may be used in the same program: every evaluation of either returns what a new likelihood returns with the maximum_uncertainty that the evaluated object reports at that time.", "quantifier": "all likelihoods, population models, with and without cache, and all sequences of ordinary evaluations, compiled evaluations and assignments of maximum_uncertainty", "why_tests_cant": "Compilation freezes attributes at the time of the first evaluation and writes to the cache of the population model; the outcome depends on the whole history.", "anchors": ["gwpopulation/experimental/jax.py:JittedLikelihood", "gwpopulation/hyperpe.py:HyperparameterLikelihood.maximum_uncertainty", "gwpopulation/hyperpe.py:HyperparameterLikelihood.log_likelihood_ratio", "gwpopulation/hyperpe.py:HyperparameterLikelihood.__init__"]}
{"id": "C101", "title": "Mass models do not depend on the unit of mass", "statement": "Masses may be given in any unit. If all masses (data, bounds of the model and hyper-parameters that are masses) are multiplied by c > 0, every mass model returns the density divided by c (c squared if it is a density in two masses), and raises the same exceptions.", "quantifier": "all c > 0, all mass functions and smoothed mass distributions with any grids, all floats as masses and as bounds of the power laws, all finite slopes, peaks with mmin below gaussian_mass_maximum, all histories of calls of an instance", "why_tests_cant": "A hard-coded mass or a missing factor in one branch, normalisation or smoothing window changes values only in units nobody tests.", "anchors": ["gwpopulation/models/mass.py:power_law_mass", "gwpopulation/models/mass.py:double_power_law_primary_mass", "gwpopulation/models/mass.py:two_component_single", "gwpopulation/models/mass.py:three_component_single", "gwpopulation/models/mass.py:power_law_primary_secondary_independent", "gwpopulation/models/mass.py:BaseSmoothedMassDistribution.__call__", "gwpopulation/utils.py:powerlaw", "gwpopulation/utils.py:truncnorm"]}
{"id": "C102", "title": "Spin models do not depend on which component is called the first", "statement": "If the labels 1 and 2 of the components are exchanged in the dataset (and in the hyper-parameters of the independent models), every spin model returns the same densities, and raises the same exceptions if the columns are there.", "quantifier": "all datasets, all floats as spins and hyper-parameters, all backends; spline models of magnitude and tilt: all samples and node values on the first use of an instance", "why_tests_cant": "A factor, a key or a hyper-parameter of the wrong component changes values only for unequal components.", "anchors": ["gwpopulation/models/spin.py:iid_spin", "gwpopulation/models/spin.py:iid_spin_magnitude_beta", "gwpopulation/models/spin.py:independent_spin_magnitude_beta", "gwpopulation/models/spin.py:iid_spin_orientation_gaussian_isotropic", "gwpopulation/models/spin.py:independent_spin_orientation_gaussian_isotropic", "gwpopulation/models/spin.py:SplineSpinMagnitudeIdentical", "gwpopulation/models/spin.py:SplineSpinTiltIdentical"]}
{"id": "C103", "title": "Spin models treat positive and negative projections alike", "statement": "Reflecting all spin projections (chi_eff and the cosines of the tilts change sign) together with the hyper-parameters that change sign (means, and the correlation of chi_eff and chi_p) does not change any density.", "quantifier": "all datasets, all real means and widths, all correlations between -1 and 1", "why_tests_cant": "Asymmetric branches or grids show only if a test compares both signs for the same model.", "anchors": ["gwpopulation/models/spin.py:gaussian_chi_eff", "gwpopulation/models/spin.py:independent_spin_orientation_gaussian_isotropic", "gwpopulation/models/spin.py:iid_spin_orientation_gaussian_isotropic", "gwpopulation/models/spin.py:GaussianChiEffChiP.__call__", "gwpopulation/models/spin.py:GaussianChiEffChiP._normalization", "gwpopulation/utils.py:truncnorm", "gwpopulation/utils.py:unnormalized_2d_gaussian"]}
{"id": "C104", "title": "One smoothed mass model may serve the posterior samples and the injections", "statement": "An instance of a smoothed mass distribution that is used for the likelihood (events by samples) and for the selection function (injections) returns on every call what a new instance returns, in any order of the calls and with any hyper-parameters, and evaluates arrays of any shape sample by sample.", "quantifier": "all four classes, all shapes, all sequences of calls on the two datasets, all hyper-parameters (also ones that raise), all backends", "why_tests_cant": "Whether the cached norms are mistaken for the right ones depends on the sizes of the two datasets; tests evaluate one dataset per instance.", "anchors": ["gwpopulation/models/mass.py:BaseSmoothedMassDistribution.p_q", "gwpopulation/models/mass.py:BaseSmoothedMassDistribution._cache_q_norms", "gwpopulation/models/mass.py:BaseSmoothedMassDistribution.__call__", "gwpopulation/vt.py:ResamplingVT.detection_efficiency", "gwpopulation/hyperpe.py:HyperparameterLikelihood.ln_likelihood_ratio"]}
{"id": "C105", "title": "A whole analysis evaluates the documented likelihood of the documented population", "statement": "With a smoothed mass model (one instance for the samples, one for the injections), spin and redshift models in population objects, a likelihood and a resampling selection function, every evaluation returns, after any history of evaluations (also failed ones), numbers that tend to the documented log likelihood and variance of the documented joint density as the mass grids are refined.", "quantifier": "all admissible hyper-parameters, all numbers of events, samples and injections, all samples not exactly at the edge of a support (also outside it), all histories, cached or not, all backends", "why_tests_cant": "The caches of the mass model and of the population object, the conversion, the weights and the grids interact; tests check each alone at a few points.", "anchors": ["gwpopulation/models/mass.py:SinglePeakSmoothedMassDistribution", "gwpopulation/models/spin.py:iid_spin_magnitude_beta", "gwpopulation/models/spin.py:iid_spin_orientation_gaussian_isotropic", "gwpopulation/models/redshift.py:PowerLawRedshift", "gwpopulation/vt.py:ResamplingVT.__call__", "gwpopulation/hyperpe.py:HyperparameterLikelihood.ln_likelihood_and_variance"]}
{"id": "C106", "title": "One spline model may serve the posterior samples and the injections", "statement": "An instance of a spline model that is used for the likelihood (events by samples) and for the selection function (injections) returns for each dataset what a new instance returns, and evaluates arrays of any shape sample by sample.", "quantifier": "base class and both spin classes, all shapes, all sequences of calls on the two datasets with the same node positions and any node values, all interpolation rules, all backends", "why_tests_cant": "The interpolants are set up for the samples of the first call; tests evaluate one dataset per instance.", "anchors": ["gwpopulation/models/interped.py:InterpolatedNoBaseModelIdentical.p_x_unnormed", "gwpopulation/models/interped.py:InterpolatedNoBaseModelIdentical.setup_interpolant", "gwpopulation/models/interped.py:InterpolatedNoBaseModelIdentical.p_x_identical", "gwpopulation/vt.py:ResamplingVT.detection_efficiency", "gwpopulation/hyperpe.py:HyperparameterLikelihood.ln_likelihood_ratio"]}
{"id": "C107", "title": "Posterior-predictive resampling gives the population-informed posterior of every event", "statement": "With enough posterior samples the call succeeds; the weighted mean of any quantity, and the plain mean over the resampled draws, converge for every event to its posterior mean with the population as the prior, averaged over the hyper-samples. If the hyper-samples are drawn from the hyper-posterior of the likelihood the package estimates, this tends to the posterior mean under the full hierarchical model, with all other events and selection effects included.", "quantifier": "all numbers of events, all likelihood functions, sampling priors, populations and lists of hyper-samples, all square-integrable quantities, every outcome of the random choice, numbers of samples and hyper-samples tending to infinity", "why_tests_cant": "Which distribution the draws follow shows only in a limit; tests check keys and shapes.", "anchors": ["gwpopulation/hyperpe.py:HyperparameterLikelihood.posterior_predictive_resample", "gwpopulation/hyperpe.py:HyperparameterLikelihood.ln_likelihood_ratio", "gwpopulation/vt.py:ResamplingVT.detection_efficiency"]}
{"id": "C108", "title": "A population model with a free cosmology evaluates the detector-frame density, whatever was evaluated before", "statement": "CosmoModel converts arrays sample by sample and returns, at every sample, the source-frame density divided by dD/dz (1 + z)^n; the value at one point of the hyper-parameters (population and cosmology) does not depend on the points evaluated before; the likelihood built from it tends to the likelihood of the source-frame population.", "quantifier": "all backends, array shapes, numbers of detector-frame columns, distance-redshift relations, classes of cosmologies, population models, and histories of calls with other data and parameters", "why_tests_cant": "Depends on the history of calls and on every cosmology; the tests call a new object with one cosmology.", "anchors": ["gwpopulation/experimental/cosmo_models.py:CosmoMixin.detector_frame_to_source_frame", "gwpopulation/experimental/cosmo_models.py:CosmoModel.prob", "gwpopulation/models/mass.py:BaseSmoothedMassDistribution.p_q"]}
{"id": "C109", "title": "Smoothed mass models return a finite density with the documented support at any resolution of their grids", "statement": "A call of a smoothed mass model with accepted hyper-parameters and delta_m > 0 returns a finite number for every binary with positive primary mass; the number is non-negative, and positive exactly where mmin < mass_1 <= the upper end of the primary density, mass_1 * mass_ratio >= mmin and mass_ratio <= 1 (mass_1 = mmin apart).", "quantifier": "all four classes, all backends, sizes of both grids, accepted hyper-parameters, arrays of binaries, and histories of calls with the same primary masses (or any history with cache=False)", "why_tests_cant": "The norms are sums over grids and are interpolated between grid masses; near mmin the interpolation mixes masses where the norm vanishes. The tests use fine grids and a few points.", "anchors": ["gwpopulation/models/mass.py:BaseSmoothedMassDistribution.p_m1", "gwpopulation/models/mass.py:BaseSmoothedMassDistribution.p_q", "gwpopulation/models/mass.py:BaseSmoothedMassDistribution.norm_p_q"]}
{"id": "C110", "title": "Every draw from a prior file of the repository can be used with the models it is for", "statement": "At every draw from a file in priors/ the models the file is for accept the parameters and return finite, non-negative densities: the smoothed mass model with default settings for the files with masses, the independent spin models for the files with spins, and for bbh_population.prior the whole population of the package's example. The likelihood of the example never raises, whatever the events, injections and earlier draws, and is the documented one as soon as every event has a sample, and some injection lies, inside the support.", "quantifier": "all draws of the four files, backends, cosmologies, arrays of sources of any shape, numbers of events, samples and injections, and histories of evaluations", "why_tests_cant": "The test evaluates one draw from one of the files and otherwise only checks that the files load. A prior has twenty dimensions; parameters missing from a file are only noticed when the models are called.", "anchors": ["priors/bbh_population.prior", "priors/mass_rates.prior", "priors/spin.prior", "priors/spin_talbot_thrane.prior", "gwpopulation/models/mass.py:SinglePeakSmoothedMassDistribution", "gwpopulation/models/spin.py:independent_spin_magnitude_beta", "gwpopulation/models/spin.py:independent_spin_orientation_gaussian_isotropic"]}
{"id": "C111", "title": "Models that contain simpler ones reduce to them", "statement": "A peak of zero weight does not matter, in any of the mass models: the models with two peaks return what those with one peak return, those with one peak what the power laws return, and the smoothed classes agree with each other in every call of every history. A broken power law with equal slopes is a power law wherever the break is, and with the break at an edge only one slope matters. Without alignment the spin orientations are isotropic, with alpha = beta = 1 the spin magnitudes are uniform, and the Madau-Dickinson rate with kappa = 0 is the power-law rate with lamb = gamma.", "quantifier": "all masses, spins and redshifts, all values of the other parameters (also infinite or NaN where the theorem says so), both kinds of numbers, backends, grids, caches and histories of calls", "why_tests_cant": "Analyses compare nested models by their evidences; a test compares two models at a few points of one of them. The statement must hold for all values of the parameters that the reduction makes irrelevant.", "anchors": ["gwpopulation/models/mass.py:two_component_single", "gwpopulation/models/mass.py:three_component_single", "gwpopulation/models/mass.py:double_power_law_primary_mass", "gwpopulation/models/mass.py:double_power_law_peak_primary_mass", "gwpopulation/models/mass.py:MultiPeakSmoothedMassDistribution", "gwpopulation/models/mass.py:BrokenPowerLawPeakSmoothedMassDistribution", "gwpopulation/models/spin.py:iid_spin", "gwpopulation/models/spin.py:independent_spin_orientation_gaussian_isotropic", "gwpopulation/models/redshift.py:MadauDickinsonRedshift", "gwpopulation/models/redshift.py:PowerLawRedshift"]}
{"id": "C112", "title": "Mass models with two peaks do not depend on which peak is called the first", "statement": "Exchanging the positions and widths of the two peaks and replacing lam_1 by 1 - lam_1 changes nothing: three_component_single returns the same at every mass and raises the same exceptions, and every call of MultiPeakSmoothedMassDistribution returns the same, whatever calls came before.", "quantifier": "all masses and all values of the other arguments (also infinite or NaN), all finite lam and lam_1, both kinds of numbers, backends, grids, caches and histories of calls", "why_tests_cant": "Samplers see two copies of every posterior mode; analyses undo this by relabelling samples, which is valid only if the symmetry is exact for all parameters. A test compares the two labellings at a few points.", "anchors": ["gwpopulation/models/mass.py:three_component_single", "gwpopulation/models/mass.py:MultiPeakSmoothedMassDistribution"]}
{"id": "C113", "title": "Spline models do not depend on the overall offset, or for regularised models on the scale, of the node values", "statement": "Adding a constant to all node values of an unregularised spline model changes no result of any call, and multiplying all node values of a regularised one by a positive number changes none either, exceptions and calls that change the number of nodes included (for the offset). The same holds for InterpolatedPowerlaw.", "quantifier": "all data, node positions and node values (also infinite or NaN), all constants, chosen anew in each call, all histories of calls, both kinds of numbers, all backends, and for the offset every interpolation rule that moves with its node values, among them all rules linear in the values with weights that sum to one", "why_tests_cant": "The degeneracy decides which priors on the node values are proper and whether one of them can be fixed; a test compares two offsets for one spline at a few points and never after a call that changed the nodes.", "anchors": ["gwpopulation/models/interped.py:InterpolatedNoBaseModelIdentical", "gwpopulation/models/interped.py:InterpolatedNoBaseModelIdentical.extract_spline_points", "gwpopulation/models/spin.py:SplineSpinMagnitudeIdentical", "gwpopulation/models/spin.py:SplineSpinTiltIdentical", "gwpopulation/models/mass.py:InterpolatedPowerlaw"]}
{"id": "C114", "title": "The likelihood of two catalogues put together is the product of their likelihoods", "statement": "Likelihood objects built from two lists of posteriors and from both together, with the same samples, satisfy: the log likelihoods add and so do the noise evidences, the variances add up to the covariance 2 N M var / P_det^2 of the common selection function, and all three raise the same exceptions. With a rate the expected number of detections enters once. Copying the samples of an event any number of times changes no log likelihood.", "quantifier": "all lists of events and samples, all models that evaluate samples by themselves, sampling priors, selection functions, conversion functions and parameters, all values including infinities and NaN, all backends", "why_tests_cant": "Observing runs are analysed together or updated one after the other; a test compares one pair of catalogues with finite weights.", "anchors": ["gwpopulation/hyperpe.py:HyperparameterLikelihood.__init__", "gwpopulation/hyperpe.py:HyperparameterLikelihood.resample_posteriors", "gwpopulation/hyperpe.py:HyperparameterLikelihood.ln_likelihood_and_variance", "gwpopulation/hyperpe.py:HyperparameterLikelihood._get_selection_factor", "gwpopulation/hyperpe.py:RateLikelihood._get_selection_factor"]}
{"id": "C115", "title": "An analysis in the detector frame equals the analysis in the source frame", "statement": "Let samples with a redshift and masses be given with their sampling prior, and the same samples with luminosity distance and detector-frame masses, the prior divided by dD_L/dz (1+z)^k. Then CosmoModel on the second gives the same weights, log likelihood, variance and log likelihood ratio as the population model on the first, with the same exceptions; and the same detection efficiency and selection factor for injections.", "quantifier": "all numbers k of redshifted columns and of other columns, all column orders, all population models that read columns by name, fixed and free cosmologies (at the hyper-parameters), all events, samples and injections, all values of model and prior including infinities and NaN, all likelihood classes and backends", "why_tests_cant": "The answer must not depend on the coordinates the samples were released in; a test compares one sample or a power of (1+z).", "anchors": ["gwpopulation/experimental/cosmo_models.py:CosmoModel.prob", "gwpopulation/experimental/cosmo_models.py:CosmoMixin.detector_frame_to_source_frame", "gwpopulation/hyperpe.py:HyperparameterLikelihood.ln_likelihood_and_variance", "gwpopulation/vt.py:ResamplingVT.detection_efficiency"]}
{"id": "C116", "title": "Sets of injections can be put together", "statement": "The detection efficiency of two sets of injections drawn from the same density and put together is the mean of the two weighted by the numbers generated; the variance is the propagated one plus N M (mu_A - mu_B)^2 / (N+M)^3. n copies of a set leave the efficiency unchanged and divide the variance by n. For injections drawn from different densities and all listed with the average density as prior, the efficiency is an unbiased estimate of the fraction of the population that is found, and the reported variance is on average at least 1 - 1/N times the true one.", "quantifier": "all population models, injections, sets of found ones, numbers of sets and densities; for the last part all probability spaces with pairwise independent injections", "why_tests_cant": "Injection campaigns of several observing runs are released as one file with a mixture prior; a test with one file cannot tell a biased combination from noise.", "anchors": ["gwpopulation/vt.py:ResamplingVT.__init__", "gwpopulation/vt.py:ResamplingVT.detection_efficiency"]}
{"id": "C117", "title": "Grid normalisations and redshift models keep their accuracy in double precision", "statement": "The trapezoid integral of non-negative data over a grid of n doubles, each datum correct to k roundings, has relative error at most 2 (k + n + 2) units of roundoff, in whatever order the library adds. The redshift probability of PowerLawRedshift and MadauDickinsonRedshift computed in double precision therefore agrees with the exact one to a relative error of 2 (2 k + 2 d + n + 15) units of roundoff, where d is the accuracy of the cosmology and k grows linearly with the size of the exponents (m + 3 and 5 m + 13 for exponents of size at most m); above z_max it is exactly 0.", "quantifier": "all grids of doubles of any length, data, orders of summation, exponents (up to 21 and 10), peak redshifts and redshifts up to 1000, accurate power functions and cosmologies", "why_tests_cant": "The default grid has 2500 points and the order of summation differs between backends; a test sees one order and cannot bound the error for all parameters.", "anchors": ["gwpopulation/utils.py:trapezoid", "gwpopulation/models/redshift.py:_Redshift.normalisation", "gwpopulation/models/redshift.py:_Redshift.probability", "gwpopulation/models/redshift.py:PowerLawRedshift.psi_of_z", "gwpopulation/models/redshift.py:MadauDickinsonRedshift.psi_of_z"]}
{"id": "C118", "title": "Conversions of Beta parameters in double precision", "statement": "mu_var_max_to_alpha_beta_max, given a mean, variance and maximum for which a Beta distribution exists, returns in double precision positive alpha and beta. Their relative error is bounded by 60 units of roundoff times the amplification mu max / (mu (max - mu) - var), as long as that error stays below one half; alpha_beta_max_to_mu_var_max is accurate to 6 and 20 units without any such condition.", "quantifier": "all moments (doubles between 2^-100 and 2^100) and, for the inverse, all parameters of that size", "why_tests_cant": "The loss of digits appears only near the limits of the allowed region, on a set a sampled test does not hit, and the exact formulas (C14, C33) do not show it.", "anchors": ["gwpopulation/conversions.py:mu_var_max_to_alpha_beta_max", "gwpopulation/conversions.py:alpha_beta_max_to_mu_var_max"]}
{"id": "C119", "title": "Low-mass smoothing in double precision", "statement": "The smoothing window computed in double precision is a double between 0 and 1 for every input, also infinite or undefined ones. Between the limits it never decreases with the mass. Its absolute error against the documented Planck taper, which is exactly 0 below mmin and exactly 1 above mmin + delta_m, is at most 64 units of roundoff plus that of the logistic function. A smoothed primary-mass density p_m1 differs from the primary model times the documented window, divided by the integral over the grid, by at most 6 kappa (rho + delta + (3n + 50) units of roundoff) times the density without the window; rho and delta are the errors of the primary model and of the logistic function, n is the number of grid points and kappa the ratio of the integrals without and with the window.", "quantifier": "all masses and limits up to 2^500, all widths from 2^-500 to 2^500, all primary models, grids of doubles of any length up to 2^40, every order of summation", "why_tests_cant": "The window differs from the documented one by clipping and by cancellation between 1/x and 1/(1-x), and its values underflow; a test at a few masses cannot bound the error for all of them, nor show monotonicity on neighbouring doubles.", "anchors": ["gwpopulation/models/mass.py:BaseSmoothedMassDistribution.smoothing", "gwpopulation/models/mass.py:BaseSmoothedMassDistribution.p_m1", "gwpopulation/models/mass.py:BaseSmoothedMassDistribution.norm_p_m1"]}
{"id": "C120", "title": "Errors of the densities carry over to the likelihood without amplification", "statement": "If every function of a population model computes its density with relative error at most rho, the population model computes the product of the k densities with relative error at most eps = ((1 + rho)(1 + u))^k - 1, u the unit of roundoff. Relative errors eps of all weights change the log Bayes factor of an event by at most 2 eps, its relative variance V over K samples by at most 16 eps (V + 1/K), and the log likelihood of n events with its Monte Carlo detection probability by at most 4 n eps. So the log likelihood computed in double precision differs from that of the documented densities in exact arithmetic by at most 4 n eps plus the error of the sums and logarithms.", "quantifier": "all population models with any number of functions, all datasets and injections, all sampling priors, every order of summation", "why_tests_cant": "A test compares two computed log likelihoods at a few points; it has no exact value to compare with, and cannot bound how errors of many samples add up.", "anchors": ["gwpopulation/hyperpe.py:HyperparameterLikelihood.ln_likelihood_and_variance", "gwpopulation/hyperpe.py:HyperparameterLikelihood._compute_per_event_ln_bayes_factors", "gwpopulation/vt.py:ResamplingVT.detection_efficiency"]}
{"id": "C121", "title": "A selection function on a grid is the integral, up to the resolution of the grid", "statement": "For a population density p and a sensitivity vt of n parameters given on a product grid whose axes have different numbers of points, the grid selection function returns one number. It differs from the n-dimensional integral of p vt over the box spanned by the grid by at most the volume of the box times the most that p vt changes between points one grid cell apart, and tends to the integral as the spacing of the grid tends to 0.", "quantifier": "any number of parameters, all product grids with pairwise different numbers of points, in any order in the dictionary, also unevenly spaced; all densities and sensitivities with a continuous product", "why_tests_cant": "A test integrates a known function on one grid; the error for arbitrary sensitivities, grids and dimensions is a statement about integrals.", "anchors": ["gwpopulation/vt.py:GridVT.__init__", "gwpopulation/vt.py:GridVT.__call__"]}
{"id": "C122", "title": "A smoothed mass model may be evaluated by several threads at once", "statement": "Threads that evaluate one instance of a smoothed mass model at the same time each get the outcome they would get alone; every evaluation terminates however the threads are scheduled.", "quantifier": "all classes, backends, cache settings, numbers of threads, schedules, datasets of any shape and hyper-parameters (also ones that raise)", "why_tests_cant": "Races depend on the schedule; a test sees a few schedules, and the wrong one need not occur.", "anchors": ["gwpopulation/models/mass.py:BaseSmoothedMassDistribution.__call__", "gwpopulation/models/mass.py:BaseSmoothedMassDistribution.p_q", "gwpopulation/models/mass.py:BaseSmoothedMassDistribution._cache_q_norms"]}
{"id": "C123", "title": "An interrupted evaluation leaves a smoothed mass model consistent", "statement": "If an evaluation of a smoothed mass model is abandoned at any point (KeyboardInterrupt, a killed thread), the instance is as it was before or as a complete evaluation leaves it. After any history of evaluations, complete or abandoned, an evaluation returns what it returns after some of them, all complete; in particular what a new instance returns if the instance does not cache or the earlier datasets cannot be mistaken for this one.", "quantifier": "all classes, backends, cache settings, points of interruption, histories, datasets of any shape and hyper-parameters", "why_tests_cant": "The points at which an evaluation may be interrupted cannot be enumerated by a test.", "anchors": ["gwpopulation/models/mass.py:BaseSmoothedMassDistribution.__call__", "gwpopulation/models/mass.py:BaseSmoothedMassDistribution.p_q", "gwpopulation/models/mass.py:BaseSmoothedMassDistribution._cache_q_norms"]}
{"id": "C124", "title": "A spline model may be evaluated by several threads, and its evaluations may be interrupted", "statement": "Threads that evaluate one instance of a spline model with the same data and nodes each get the outcome they would get alone, and an evaluation that is abandoned at any point leaves the instance usable.", "quantifier": "all spline models, interpolation rules, backends, numbers of threads, schedules and points of interruption", "why_tests_cant": "Races and interruptions depend on the schedule; a test sees a few.", "anchors": ["gwpopulation/models/interped.py:InterpolatedNoBaseModelIdentical.p_x_identical", "gwpopulation/models/interped.py:InterpolatedNoBaseModelIdentical.setup_interpolant", "gwpopulation/models/interped.py:InterpolatedNoBaseModelIdentical.p_x_unnormed"]}
{"id": "C125", "title": "The backend may be switched by several threads, and switching may be interrupted", "statement": "However calls of set_backend from several threads are interleaved: once all have returned, all registered modules use the recorded backend; if all threads ask for one backend, each call that returns has installed it; after an interruption at any point, a further call that returns has installed its backend. Nothing is installed that was not asked for, and no call waits for ever.", "quantifier": "all registries of modules and plugins, environments, backends, numbers of threads, schedules and points of interruption", "why_tests_cant": "Races and interruptions depend on the schedule; a test sees a few.", "anchors": ["gwpopulation/backend.py:set_backend", "gwpopulation/backend.py:_load_numpy_and_scipy", "gwpopulation/backend.py:_load_arbitrary", "gwpopulation/backend.py:modules_to_update"]}
{"id": "C126", "title": "An interpolated power law tends to its density as its grids are refined", "statement": "The first call of an interpolated power law returns, for every mass and mass ratio, the product of the primary density and of the mass-ratio density. As both grids are refined, these values tend to power law times low-mass window times exponentiated spline (zero outside the outer nodes), divided by the integral of that product without the cut over the mass range of the instance, times the normalised mass-ratio density. If the outer nodes cover [mmin, mmax] the limit is a normalised density.", "quantifier": "all masses other than mmin and mass ratios, hyper-parameters in range, node positions and values, interpolation rules with bounded variation, backends; limits over both grid sizes", "why_tests_cant": "A test compares a few grids at a few points; the limit is over all grids.", "anchors": ["gwpopulation/models/mass.py:InterpolatedPowerlaw.__call__", "gwpopulation/models/mass.py:InterpolatedPowerlaw.p_m1", "gwpopulation/models/mass.py:InterpolatedPowerlaw.norm_p_m1", "gwpopulation/models/mass.py:BaseSmoothedMassDistribution.p_q"]}
{"id": "C127", "title": "Failed, interrupted and repeated post-processing of a sample", "statement": "generate_extra_statistics adds entries to the dictionary of the caller. If it raises, the dictionary is as it was, and a rejected assignment to maximum_uncertainty leaves the likelihood as it was. If it is interrupted at any point, the entries of the sample that are not statistics are untouched, every statistic present is the one a completed call writes or the one that was there before, the total variance is present only if everything is, and running the method again gives the entries of one uninterrupted call.", "quantifier": "all likelihoods, samples, crash points and exceptions; for repeated calls, conversions, population models and selection functions that do not read the statistics", "why_tests_cant": "A test sees completed calls; interruptions may come after any assignment.", "anchors": ["gwpopulation/hyperpe.py:HyperparameterLikelihood.generate_extra_statistics", "gwpopulation/hyperpe.py:HyperparameterLikelihood.maximum_uncertainty"]}
{"id": "C128", "title": "The reported uncertainty is the standard error of the log likelihood", "statement": "If the posterior samples and the injections are drawn independently, then as their numbers grow, at any rates, the difference of the log likelihood from the exact one, divided by the square root of the variance ln_likelihood_and_variance reports with it, tends in distribution to a standard normal variable: the probability that the returned value is within z reported standard deviations of the exact one tends to that of a standard normal variable being in [-z, z].", "quantifier": "all populations, event likelihoods, sampling priors and drawing densities with finite second moments and weights that are not all equal, numbers of events, selection functions with and without the convergence check, rates of growth of the two sample sizes", "why_tests_cant": "A statement about the distribution of the output over all random catalogues in the limit of many samples.", "anchors": ["gwpopulation/hyperpe.py:HyperparameterLikelihood.ln_likelihood_and_variance", "gwpopulation/hyperpe.py:HyperparameterLikelihood._compute_per_event_ln_bayes_factors", "gwpopulation/hyperpe.py:HyperparameterLikelihood._get_selection_factor", "gwpopulation/vt.py:ResamplingVT.detection_efficiency"]}
{"id": "C129", "title": "Populations that cannot have produced the data are rejected", "statement": "If the density of the population is 0 at all samples of an event, NaN or infinite at some sample, or 0 at all found injections, log_likelihood_ratio returns the lowest finite float, whatever the other events, the selection function and maximum_uncertainty are.", "quantifier": "all likelihoods, datasets, densities of the other events including NaN and infinities, selection functions, limits on the uncertainty", "why_tests_cant": "Sampling visits such points rarely; special values of any of the parts can combine.", "anchors": ["gwpopulation/hyperpe.py:HyperparameterLikelihood.log_likelihood_ratio", "gwpopulation/hyperpe.py:HyperparameterLikelihood._compute_per_event_ln_bayes_factors", "gwpopulation/hyperpe.py:HyperparameterLikelihood._get_selection_factor", "gwpopulation/vt.py:ResamplingVT.__call__"]}
{"id": "C130", "title": "Using fewer posterior samples does not bias the likelihood", "statement": "If max_samples (or the shortest posterior) makes the likelihood use K randomly drawn samples of every event, the average over all draws of the likelihood exp(ln_likelihood) equals the likelihood computed with all samples of all events, whatever the numbers of samples of the events are; the log likelihood is never too high on average; and when nothing is left out the draw has no influence.", "quantifier": "all catalogues with any numbers of samples per event, all numbers of samples to keep, all population models that evaluate samples independently with positive densities, all selection functions, all parameters", "why_tests_cant": "A test sees a few random draws; the bias is a property of the whole distribution of draws.", "anchors": ["gwpopulation/hyperpe.py:HyperparameterLikelihood.resample_posteriors", "gwpopulation/hyperpe.py:HyperparameterLikelihood.__init__", "gwpopulation/hyperpe.py:HyperparameterLikelihood.ln_likelihood_and_variance"]}
{"id": "C131", "title": "The parameters of the Madau-Dickinson model mean what is documented", "statement": "For 0 < gamma < kappa the merger rate psi_of_z of MadauDickinsonRedshift rises today with slope gamma, is highest at the redshift z_peak, and has the slope kappa at high redshift.", "quantifier": "all gamma, kappa and z_peak, all redshifts", "why_tests_cant": "The location of a maximum and slopes are statements about all redshifts and all parameters; tests evaluate a few.", "anchors": ["gwpopulation/models/redshift.py:MadauDickinsonRedshift.psi_of_z"]}
{"id": "C132", "title": "Documented means and standard deviations are those of the densities", "statement": "The arguments mu and sigma of gaussian_chi_eff and gaussian_chi_p, documented as the mean and the standard deviation of the distribution, are the mean and the standard deviation of the density that is returned, for every mu inside the allowed range.", "quantifier": "all backends, all mu in the window and all sigma > 0", "why_tests_cant": "The moments are integrals over all arguments, and the claim is about all parameters; tests evaluate the density at points.", "anchors": ["gwpopulation/models/spin.py:gaussian_chi_eff", "gwpopulation/models/spin.py:gaussian_chi_p", "gwpopulation/utils.py:truncnorm"]}
{"id": "C133", "title": "lam is the fraction of black holes in the Gaussian component", "statement": "In the mass models with a Gaussian component the primary mass density for a given lam is (1 - lam) times the density for lam = 0 plus lam times the density for lam = 1, so that lam is, as documented, the fraction of black holes in the Gaussian component.", "quantifier": "all backends, all hyper-parameters, all fractions, all grids, all masses", "why_tests_cant": "An identity between densities for all masses and all hyper-parameters; tests check single parameter values.", "anchors": ["gwpopulation/models/mass.py:SinglePeakSmoothedMassDistribution", "gwpopulation/models/mass.py:MultiPeakSmoothedMassDistribution", "gwpopulation/models/mass.py:BrokenPowerLawPeakSmoothedMassDistribution", "gwpopulation/models/mass.py:two_component_single"]}
{"id": "C134", "title": "mu is the mean direction of the von Mises distribution and kappa its concentration", "statement": "The mean direction of an angle with the density von_mises(x, mu, kappa), kappa > 0, is mu, on every interval of one period; over the period centred on mu the ordinary mean is mu as well. The resultant length lies between 0 and 1 and increases strictly with kappa.", "quantifier": "all means, all kappa >= 0 (kappa > 0 for the direction), all periods", "why_tests_cant": "Moments of a continuous density for all parameters; tests check the norm on a grid.", "anchors": ["gwpopulation/utils.py:von_mises"]}
{"id": "C135", "title": "A looser maximum_uncertainty only re-admits points", "statement": "Increasing maximum_uncertainty never lowers a value of log_likelihood_ratio, changes it only at points whose reported variance exceeds the smaller limit and not the larger one, and does not change whether or how an evaluation fails. No limit gives a value above the one without a limit.", "quantifier": "all likelihood classes, all backends, all data, all hyper-parameters, all pairs of limits, all estimates and variances including NaN and infinities", "why_tests_cant": "A relation between evaluations with any two limits, including special values; tests try one limit.", "anchors": ["gwpopulation/hyperpe.py:HyperparameterLikelihood.maximum_uncertainty", "gwpopulation/hyperpe.py:HyperparameterLikelihood.log_likelihood_ratio"]}
{"id": "C136", "title": "On average over the injections the likelihood is the exact one", "statement": "For given events, the mean of the likelihood over the random injections of the selection function is the likelihood with the true found fraction.", "quantifier": "all densities of injections and populations, all numbers of injections and events, all probability spaces", "why_tests_cant": "A statement about an expectation over all random draws; tests use one draw.", "anchors": ["gwpopulation/hyperpe.py:HyperparameterLikelihood.ln_likelihood_and_variance", "gwpopulation/vt.py:ResamplingVT.detection_efficiency"]}
{"id": "C137", "title": "Marginalising over the uncertainty of the selection function does not worsen the likelihood", "statement": "With marginalize_uncertainty = True the mean of the likelihood over the random injections is not further from the likelihood with the true found fraction than with marginalize_uncertainty = False.", "quantifier": "all densities of injections and populations, all numbers of injections and events, all probability spaces, draws that pass the check of convergence", "why_tests_cant": "A comparison of expectations over all random draws; tests compare one draw with the formula of the code.", "anchors": ["gwpopulation/vt.py:ResamplingVT.vt_factor", "gwpopulation/vt.py:ResamplingVT.__call__", "gwpopulation/hyperpe.py:HyperparameterLikelihood.ln_likelihood_and_variance"]}
{"id": "C138", "title": "The log likelihood with a rate is unbiased over the injections", "statement": "For given events and every rate, the mean over the random injections of the log likelihood of RateLikelihood is the Poisson log likelihood with the true found fraction. The mean of the likelihood itself is at least its exponential.", "quantifier": "all densities of injections and populations, all numbers of injections and events, all rates > 0, all probability spaces", "why_tests_cant": "A statement about an expectation over all random draws; tests use one draw.", "anchors": ["gwpopulation/hyperpe.py:RateLikelihood", "gwpopulation/vt.py:ResamplingVT.detection_efficiency"]}
{"id": "C139", "title": "On average over the posterior samples the likelihood is the exact one", "statement": "For a given selection function, the mean of the likelihood over the random posterior samples of all events is the product of the exact evidence ratios times the selection factor, for every number of samples per event and also if the samples of an event are correlated; the log likelihood is on average not too high. With random injections, independent of the samples, the samples still contribute nothing to the error of the mean. Both for HyperparameterLikelihood and for RateLikelihood.", "quantifier": "all sampling priors, event likelihoods and populations, all numbers of events and samples, all joint laws of the samples of an event, all probability spaces", "why_tests_cant": "A statement about an expectation over all random draws; tests use one draw.", "anchors": ["gwpopulation/hyperpe.py:HyperparameterLikelihood.ln_likelihood_and_variance", "gwpopulation/hyperpe.py:RateLikelihood"]}
{"id": "C140", "title": "Selection function and likelihoods return the same values on every backend", "statement": "For population functions that return the same values on every backend (C83), constructing a ResamplingVT and a likelihood of any class and evaluating them (efficiency, marginalised factor, hypervolume, log likelihood with variance, log_likelihood_ratio, extra statistics, rate sample and posterior-predictive resampling for given random draws) returns on cupy what it returns on numpy, and on jax the same value whenever numpy returns one.", "quantifier": "all injections, posteriors, population functions, conversion functions, options, hyper-parameters and special floats", "why_tests_cant": "Tests compare backends at a few points, and cupy is not tested at all without a GPU.", "anchors": ["gwpopulation/vt.py:ResamplingVT", "gwpopulation/hyperpe.py:HyperparameterLikelihood", "gwpopulation/hyperpe.py:RateLikelihood", "gwpopulation/utils.py:to_number"]}
{"id": "C141", "title": "Post-processing compiled with jax.jit, as in the example, gives the statistics of ordinary post-processing", "statement": "One likelihood object is evaluated, evaluated through JittedLikelihood, and its method generate_extra_statistics is called directly and as jax.jit(likelihood.generate_extra_statistics), in any order: every evaluation returns the value of a new likelihood, and the statistics of a new likelihood are in the dictionary that was given.", "quantifier": "all likelihoods on jax, population models with and without cache, sequences of calls and samples", "why_tests_cant": "The example is not run by the tests; the outcome depends on the whole history of calls, compiled and not.", "anchors": ["gwpopulation/hyperpe.py:HyperparameterLikelihood.generate_extra_statistics", "gwpopulation/experimental/jax.py:JittedLikelihood", "examples/GWTC3.ipynb"]}
{"id": "C142", "title": "With enough events, samples and injections the true population has a larger likelihood than any other", "statement": "Events are the detected sources of the population with hyperparameters A. Let B be hyperparameters of a population whose detected sources have a different distribution of data. With probability one there is a number of events from which on, for enough posterior samples per event and enough injections, which are found by the same criterion, the log likelihood at A exceeds that at B, although detection favours some sources. The mean over catalogues of the exact log likelihood is largest at A for every number of events.", "quantifier": "all parameter and data spaces, noise distributions, detection criteria, pairs of populations that are not infinitely different, sampling priors, injection distributions, and the modes of the selection function that can converge", "why_tests_cant": "It is a statement about limits and all random catalogues; the tests use constant densities.", "anchors": ["gwpopulation/hyperpe.py:HyperparameterLikelihood.ln_likelihood_and_variance", "gwpopulation/vt.py:ResamplingVT.detection_efficiency"]}
{"id": "C143", "title": "The rate that fits best is the number of events divided by the detected fraction, and fitting it gives the likelihood without a rate", "statement": "For given events and selection function, the log likelihood of RateLikelihood at any positive rate does not exceed the one of HyperparameterLikelihood plus N ln N - N, where N is the number of events. It equals it at exactly one rate: N divided by the detected fraction that the selection function reports. So maximising over the rate does not change the preference between populations.", "quantifier": "all catalogues, populations with finite positive weights, rates and reported detected fractions", "why_tests_cant": "It compares two classes for all rates; the tests check each class at one rate.", "anchors": ["gwpopulation/hyperpe.py:RateLikelihood._get_selection_factor", "gwpopulation/hyperpe.py:HyperparameterLikelihood._get_selection_factor"]}
{"id": "C144", "title": "With enough exposure, samples and injections the true rate and population have a larger RateLikelihood than any others", "statement": "The number of detected events is random, with mean equal to the rate times the detected fraction, and independent of the data of the single events. The mean over catalogues of the exact log likelihood with a rate is largest at the true rate and population. If the exposure grows, then with probability one, from some exposure on and for enough posterior samples and injections, RateLikelihood gives the true rate and population the larger value, compared to any rate and population that differ in the data of detected events or in the mean number of detected events.", "quantifier": "all parameter and data spaces, noise distributions, detection criteria, pairs of rates and populations that are not infinitely different, laws of the number of events, sampling priors, injection distributions, and the modes of the selection function that can converge", "why_tests_cant": "It is a statement about limits and all random catalogues of random size; the tests use constant densities.", "anchors": ["gwpopulation/hyperpe.py:RateLikelihood._get_selection_factor", "gwpopulation/hyperpe.py:HyperparameterLikelihood.ln_likelihood_and_variance", "gwpopulation/vt.py:ResamplingVT.detection_efficiency"]}
{"id": "C145", "title": "With a selection function on a grid the likelihood is the documented one, up to the resolution of the grid", "statement": "HyperparameterLikelihood with a GridVT selection function returns the documented log likelihood with the exact sensitive volume of the population, with an error of at most N e / (V - e), where N is the number of events, V the sensitive volume and e the volume of the grid times the most that density times sensitivity changes within a cell. The variance contains no contribution from the selection function. As the grid is refined and the number of samples grows, the log likelihood tends to the exact one.", "quantifier": "any number of parameters on the grid, all product grids with pairwise different numbers of points, continuous products of density and sensitivity, all catalogues and sampling priors", "why_tests_cant": "It holds for all grids and densities and in the limit; the tests combine the likelihood only with a constant selection function.", "anchors": ["gwpopulation/vt.py:GridVT.__call__", "gwpopulation/hyperpe.py:HyperparameterLikelihood._selection_function_with_uncertainty"]}
{"id": "C146", "title": "Models and likelihoods can be pickled, copied and evaluated in worker processes at any time", "statement": "Population models, selection functions and likelihoods can be written with pickle and copied with copy.deepcopy before and after any use, as samplers do for checkpoints and for worker processes, and an evaluation in a worker process has the outcome it has in the main process.", "quantifier": "all histories of calls on smoothed mass models, spline models and InterpolatedPowerlaw, all likelihoods and selection functions built from them, both start methods of worker processes, all backends", "why_tests_cant": "It depends on the calls made before the copy and on the start method of the platform; the tests copy nothing and start no processes.", "anchors": ["gwpopulation/hyperpe.py:HyperparameterLikelihood.__init__", "gwpopulation/models/mass.py:BaseSmoothedMassDistribution._cache_q_norms", "gwpopulation/models/interped.py:_setup_interpolant", "gwpopulation/backend.py:set_backend"]}
{"id": "C147", "title": "With enough events the posterior is concentrated on the true population", "statement": "Events are detected from one of finitely many candidate populations, and HyperparameterLikelihood with a ResamplingVT selection function is evaluated for the hyper-parameters of every candidate. With probability one, for every eps > 0 there is a number of events from which on the posterior computed from these log likelihoods and any positive prior weights gives the true candidate a probability larger than 1 - eps, if the numbers of posterior samples and of injections are large enough.", "quantifier": "all surveys (densities of the data given the source, sets of detectable data), all finite sets of candidate populations whose detected data differ, all prior weights, all catalogue sizes", "why_tests_cant": "It is a statement on the limit of large catalogues for all surveys and populations; the tests evaluate the likelihood for one small catalogue.", "anchors": ["gwpopulation/hyperpe.py:HyperparameterLikelihood.ln_likelihood_and_variance", "gwpopulation/vt.py:ResamplingVT.__call__"]}
{"id": "C148", "title": "Hyper-parameters that no model declares, and the order of the dictionary, do not matter", "statement": "Two dictionaries of hyper-parameters that agree on the names declared by the population models (signatures and variable_names), on those of the redshift model and, for RateLikelihood, on rate, give the same outcome of every method of the likelihood: the same value or the same exception. This includes what the models and mass distributions remember afterwards, so that whole histories of evaluations can be exchanged. generate_extra_statistics gives the same statistics and leaves the other entries as they were.", "quantifier": "all pairs of dictionaries that agree on the declared names, all histories of evaluations, all states of the caches, all population models, selection functions and conversions that read declared names", "why_tests_cant": "A test passes one dictionary to a new object; the claim is on all pairs of dictionaries and all states in which earlier evaluations left the caches.", "anchors": ["gwpopulation/hyperpe.py:HyperparameterLikelihood.ln_likelihood_and_variance", "gwpopulation/hyperpe.py:HyperparameterLikelihood.generate_extra_statistics", "gwpopulation/hyperpe.py:HyperparameterLikelihood.generate_rate_posterior_sample", "gwpopulation/vt.py:ResamplingVT.__call__", "gwpopulation/vt.py:ResamplingVT.surveyed_hypervolume", "gwpopulation/experimental/cosmo_models.py:convert_to_beta_parameters"]}
{"id": "C149", "title": "With a long enough observation the posterior is concentrated on the true rate and population", "statement": "Events are detected from one of finitely many candidates, each a population with a rate, in observations of growing exposure. RateLikelihood with a ResamplingVT selection function is evaluated for the hyper-parameters of every candidate. With probability one, for every eps > 0 there is an exposure from which on the posterior computed from these log likelihoods and any positive prior weights gives the true candidate a probability larger than 1 - eps, if the numbers of posterior samples and of injections are large enough. In particular the rate of a known population is found.", "quantifier": "all surveys, all finite sets of candidates that differ in the distribution of detected data or in the mean number of detected events, all prior weights, all observations whose number of events per exposure tends to its mean", "why_tests_cant": "It is a statement on the limit of long observations for all surveys and candidates; the tests evaluate the likelihood for one small catalogue.", "anchors": ["gwpopulation/hyperpe.py:RateLikelihood._get_selection_factor", "gwpopulation/hyperpe.py:HyperparameterLikelihood.ln_likelihood_and_variance", "gwpopulation/vt.py:ResamplingVT.__call__"]}
{"id": "C150", "title": "Points accepted by the limit on the uncertainty have enough effective samples", "statement": "The variance that HyperparameterLikelihood with a ResamplingVT selection function reports is the sum over events of 1/n_eff - 1/K, with Kish's effective number n_eff of the K posterior samples, plus n^2 (1/n_eff - 1/N) for the N generated injections and n events. So with maximum_uncertainty V every point whose log-likelihood is not the rejected value has at least 1/(V + 1/K) effective samples of every event and at least 1/(V/n^2 + 1/N) effective injections. If V < n/4 the check made by enforce_convergence therefore changes nothing.", "quantifier": "all numbers of events, samples and injections, all finite weights with positive sums, all limits", "why_tests_cant": "It relates the limit to effective sample sizes for all weights; tests look at the variance of single cases.", "anchors": ["gwpopulation/hyperpe.py:HyperparameterLikelihood.ln_likelihood_and_variance", "gwpopulation/hyperpe.py:HyperparameterLikelihood.log_likelihood_ratio", "gwpopulation/vt.py:ResamplingVT.detection_efficiency", "gwpopulation/vt.py:ResamplingVT.check_convergence"]}
{"id": "C151", "title": "Injections that the population excludes can be removed if the number of generated injections is kept", "statement": "Let a file of found injections list total_generated. Removing injections whose population density is zero at some hyper-parameters leaves detection efficiency, its variance, the value of ResamplingVT and the surveyed volume unchanged at these hyper-parameters, hence the log-likelihood, its variance, the extra statistics and the drawn rate of every likelihood class. Without total_generated the number of listed injections is used instead, and removing injections without weight makes the efficiency larger by the factor by which the list becomes shorter.", "quantifier": "all files of injections, all subsets of injections of weight zero, all values of the others including infinities and NaN, all models that evaluate injections one by one, all back ends and options", "why_tests_cant": "It compares two analyses for all files of injections; tests use one file.", "anchors": ["gwpopulation/vt.py:ResamplingVT.__init__", "gwpopulation/vt.py:ResamplingVT.detection_efficiency", "gwpopulation/vt.py:ResamplingVT.__call__", "gwpopulation/hyperpe.py:HyperparameterLikelihood.ln_likelihood_and_variance"]}
{"id": "C152", "title": "The likelihood has no separate maxima as a function of a mixing fraction", "statement": "If the population density is a mixture with the fraction l of one component and 1 - l of another, the estimated evidences of all events and the estimated detection efficiency are the mixtures of those of the components. So between two fractions the log-likelihood of HyperparameterLikelihood is never below the smaller of the two values, and that of RateLikelihood at a fixed rate is concave. xi_spin of the tilt models and lam of two_component_single are such fractions.", "quantifier": "all fractions strictly between 0 and 1, all pairs of components, all numbers of events, samples and injections, all finite weights for which every event is possible under one component", "why_tests_cant": "It concerns the shape of the likelihood over an interval for all data; tests evaluate single points.", "anchors": ["gwpopulation/hyperpe.py:HyperparameterLikelihood.ln_likelihood_and_variance", "gwpopulation/hyperpe.py:RateLikelihood._get_selection_factor", "gwpopulation/vt.py:ResamplingVT.detection_efficiency", "gwpopulation/models/spin.py:iid_spin_orientation_gaussian_isotropic", "gwpopulation/models/mass.py:two_component_single"]}
{"id": "C153", "title": "Which hyper-samples can be used for posterior-predictive resampling", "statement": "A table of hyper-samples gives the same result as the list of its rows, and a dictionary the same as a list with this one sample. Hyper-samples at which the log-likelihood is finite can always be used: the call succeeds for every outcome of the random choice. If a single hyper-sample excludes an event, i.e. gives weight zero to all its samples, the weights of this event are NaN whatever the other hyper-samples are: numpy and cupy raise ValueError and jax returns the NaN weights.", "quantifier": "all tables, all numbers of hyper-samples, events and samples, all weights that are not negative, all outcomes of the random choice", "why_tests_cant": "It covers all sets of hyper-samples, including those with one exceptional sample; the tests use two ordinary samples.", "anchors": ["gwpopulation/hyperpe.py:HyperparameterLikelihood.posterior_predictive_resample", "gwpopulation/hyperpe.py:HyperparameterLikelihood.ln_likelihood_and_variance"]}
{"id": "C154", "title": "The maximum redshift and the norm of the redshift model have no influence", "statement": "If two analyses differ only in the maximum redshift of the redshift model and all redshifts of the posterior samples and injections lie below both, they give the same estimate of the log-likelihood, variance and log-likelihood ratio, raise the same exceptions, and draw the same merger rates from the same random numbers. The rate drawn is the rate at redshift zero: the random number divided by the number of sources expected to be found per unit rate, estimated from psi(z) / (1 + z) dV_c/dz at the injections; the trapezoid rule for the norm does not enter.", "quantifier": "all maximum redshifts above 1e-6, all rate models and cosmologies with positive values, all densities of the other parameters (any floats), all events, samples, injections and random numbers", "why_tests_cant": "It relates two different configurations for all data; a test with one maximum redshift cannot see a norm that fails to cancel between events, selection function and surveyed volume.", "anchors": ["gwpopulation/models/redshift.py:_Redshift.probability", "gwpopulation/models/redshift.py:_Redshift.normalisation", "gwpopulation/vt.py:ResamplingVT.surveyed_hypervolume", "gwpopulation/vt.py:ResamplingVT.detection_efficiency", "gwpopulation/hyperpe.py:HyperparameterLikelihood.generate_rate_posterior_sample", "gwpopulation/hyperpe.py:HyperparameterLikelihood.ln_likelihood_and_variance"]}
{"id": "C155", "title": "Slopes and means move the population in the documented direction", "statement": "Increasing a hyper-parameter moves the whole population one way: the ratio of the new to the old density is monotone, so above every threshold the population with the larger parameter has at least as much probability. This holds for the index of powerlaw (up), alpha of the power-law mass model and both indices of the broken power law (down), beta of the mass ratio at every primary mass (up, towards equal masses), mu of truncnorm (up), alpha and beta of beta_dist (up and down), lamb of the power-law redshift model and gamma and z_peak (for kappa >= 0) of the Madau-Dickinson model (towards larger redshifts).", "quantifier": "all pairs of parameter values, all limits, all thresholds and redshifts, all cosmologies with positive volumes, all backends", "why_tests_cant": "It compares whole distributions at all pairs of parameters; a test of a few values would not see a sign error that is compensated by the normalisation in part of the range.", "anchors": ["gwpopulation/utils.py:powerlaw", "gwpopulation/utils.py:truncnorm", "gwpopulation/utils.py:beta_dist", "gwpopulation/models/mass.py:power_law_mass", "gwpopulation/models/mass.py:double_power_law_primary_mass", "gwpopulation/models/mass.py:power_law_primary_mass_ratio", "gwpopulation/models/redshift.py:PowerLawRedshift", "gwpopulation/models/redshift.py:MadauDickinsonRedshift"]}
{"id": "C156", "title": "Different hyper-parameters describe different populations, with two known exceptions", "statement": "If two settings of a model give the same density at almost all points, the settings are equal: index and limits of powerlaw and of the power-law mass model, beta and the minimum mass of the mass ratio, mean, width and limits of truncnorm, both shape parameters and the maximum of beta_dist, both indices and limits of the broken power law, lamb and the maximum redshift of the power-law redshift model, and gamma, kappa, z_peak and the maximum redshift of the Madau-Dickinson model for kappa > 0. Exceptions: with equal indices the break of the broken power law has no influence, and (gamma, kappa) gives exactly the same rate as (gamma - kappa, -kappa), so the sign of kappa has to be fixed by the prior.", "quantifier": "all pairs of parameter settings in the domain of the models, all backends, all cosmologies with positive volumes", "why_tests_cant": "It is a statement about all pairs of settings and all points at once; tests compare values at given settings.", "anchors": ["gwpopulation/utils.py:powerlaw", "gwpopulation/utils.py:truncnorm", "gwpopulation/utils.py:beta_dist", "gwpopulation/models/mass.py:power_law_mass", "gwpopulation/models/mass.py:double_power_law_primary_mass", "gwpopulation/models/mass.py:power_law_primary_mass_ratio", "gwpopulation/models/redshift.py:PowerLawRedshift", "gwpopulation/models/redshift.py:MadauDickinsonRedshift"]}
{"id": "C157", "title": "Redshift models act sample by sample on datasets of any shape", "statement": "PowerLawRedshift and MadauDickinsonRedshift, given an array of redshifts of any shape and hyper-parameters that are numbers, return one probability per sample, equal to the probability of that sample evaluated alone.", "quantifier": "all shapes and data types of redshifts, all cosmologies and maximum redshifts, all hyper-parameters given as Python numbers, numpy scalars or arrays without axes", "why_tests_cant": "Ranges over all shapes, data types and hyper-parameters; integer data types only fail for negative exponents.", "anchors": ["gwpopulation/models/redshift.py:PowerLawRedshift", "gwpopulation/models/redshift.py:MadauDickinsonRedshift", "gwpopulation/models/redshift.py:_Redshift.probability", "gwpopulation/models/redshift.py:_Redshift.normalisation", "gwpopulation/models/redshift.py:_Redshift.differential_spacetime_volume", "gwpopulation/utils.py:trapezoid"]}
{"id": "C158", "title": "Slopes and means are found from noisy data of detected sources", "statement": "A quantity is measured with errors, and only some data are detected. If the events come from a power law in mass, a truncated Gaussian or a power law in redshift of the package, and the candidates differ in the spectral index, the mean or the exponent lamb, then with enough events, posterior samples and injections the posterior computed with the package gives the true value a probability as close to one as wanted.", "quantifier": "all finite sets of candidates and prior weights, all limits and widths, all cosmologies with a continuous positive volume, all ordered measurement errors with a bounded positive density (Gaussian errors are an example), all sets of detectable data, almost all sequences of events", "why_tests_cant": "A statement about limits and probabilities; no finite set of simulated catalogues can settle it.", "anchors": ["gwpopulation/models/mass.py:power_law_mass", "gwpopulation/utils.py:truncnorm", "gwpopulation/models/redshift.py:PowerLawRedshift", "gwpopulation/hyperpe.py:HyperparameterLikelihood.ln_likelihood_and_variance", "gwpopulation/vt.py:ResamplingVT.detection_efficiency"]}
{"id": "C159", "title": "With Gaussian errors every parameter that changes the population is found", "statement": "A quantity is measured with Gaussian errors of any size, and only some data are detected. If two bounded populations give the same detected data they are the same population. So if the events come from a power law in mass, a broken power law, a truncated Gaussian or a power law with a peak of the package, then with enough events, posterior samples and injections the posterior computed with the package gives the true values of all of the index or indices, the limits, the break, the mean and the width, or of the fraction in the peak, a probability as close to one as wanted.", "quantifier": "all finite sets of candidates and prior weights, all combinations of the parameters named, all sizes of the errors, all sets of detectable data of positive measure, almost all sequences of events", "why_tests_cant": "A statement about limits and probabilities over infinitely many populations; no finite set of simulated catalogues can settle it.", "anchors": ["gwpopulation/models/mass.py:power_law_mass", "gwpopulation/models/mass.py:double_power_law_primary_mass", "gwpopulation/models/mass.py:two_component_single", "gwpopulation/utils.py:truncnorm", "gwpopulation/hyperpe.py:HyperparameterLikelihood.ln_likelihood_and_variance", "gwpopulation/vt.py:ResamplingVT.detection_efficiency"]}
{"id": "C160", "title": "The history of the merger rate is found from noisy redshifts of detected sources", "statement": "Redshifts are measured with Gaussian errors of any size, and only some data are detected. If the events come from the power law in redshift or the Madau-Dickinson rate of the package, then with enough events, posterior samples and injections the posterior computed with the package gives the true exponent, or the true rise, fall and peak, and the true largest redshift, a probability as close to one as wanted. The norm of the models is a sum over a grid and not the exact integral, but this does not bias the result.", "quantifier": "all finite sets of candidates and prior weights, all combinations of the parameters, all cosmologies with a continuous positive volume, all sizes of the errors, all sets of detectable data, almost all sequences of events", "why_tests_cant": "A statement about limits and probabilities over infinitely many catalogues and cosmologies; no finite set of simulated catalogues can settle it.", "anchors": ["gwpopulation/models/redshift.py:PowerLawRedshift", "gwpopulation/models/redshift.py:MadauDickinsonRedshift", "gwpopulation/models/redshift.py:_Redshift.probability", "gwpopulation/hyperpe.py:HyperparameterLikelihood.ln_likelihood_and_variance", "gwpopulation/vt.py:ResamplingVT.detection_efficiency"]}
{"id": "C161", "title": "Joint populations of several parameters are found from noisy data of detected sources", "statement": "Two parameters of each source are measured with independent Gaussian errors of any sizes, and only some data are detected. If the sources come from a joint model of the package (primary mass and mass ratio, two spin magnitudes, or two spin tilts), then with enough events, posterior samples and injections the posterior computed with the package gives the true values of all parameters of the joint model a probability as close to one as wanted.", "quantifier": "all finite sets of candidates and prior weights, all combinations of the parameters of the joint models, all sizes of the errors, all sets of detectable data, almost all sequences of events", "why_tests_cant": "A statement about limits and probabilities over infinitely many catalogues; no finite set of simulated catalogues can settle it.", "anchors": ["gwpopulation/models/spin.py:independent_spin_orientation_gaussian_isotropic", "gwpopulation/models/spin.py:independent_spin_magnitude_beta", "gwpopulation/models/mass.py:power_law_primary_mass_ratio", "gwpopulation/hyperpe.py:HyperparameterLikelihood.ln_likelihood_and_variance", "gwpopulation/vt.py:ResamplingVT.detection_efficiency"]}
{"id": "C162", "title": "The power law with a Gaussian peak: every parameter changes the population and is found from noisy data", "statement": "If the power law and the Gaussian peak are both present, two sets of values of the index, the two limits of the masses, the fraction in the peak, its mean, its width and its upper end give the same density of primary masses only if they are the same. If events are detected with Gaussian errors in mass, or in primary mass and mass ratio, the posterior computed with the package is concentrated on the true values. At a fraction of 0 the parameters of the peak, and at a fraction of 1 the index and the upper limit of the power law, do not matter.", "quantifier": "all pairs of parameter sets, all backends; all finite sets of candidates and prior weights, all sizes of the errors, all sets of detectable data, almost all sequences of events", "why_tests_cant": "Uniqueness is a statement about all pairs of points of a seven-dimensional parameter space, and recovery is a limit over infinitely many catalogues; tests compare a few points.", "anchors": ["gwpopulation/models/mass.py:two_component_single", "gwpopulation/models/mass.py:two_component_primary_mass_ratio", "gwpopulation/hyperpe.py:HyperparameterLikelihood.ln_likelihood_and_variance", "gwpopulation/vt.py:ResamplingVT.detection_efficiency"]}
{"id": "C163", "title": "The smoothed mass model with one peak: every parameter, also the range of the smoothing, changes the population and is found from noisy data", "statement": "Take the smoothed power law with one Gaussian peak, built with any grids. If the smoothing ends below the upper limit of the power law and both parts are present, two sets of values of the index, the two limits of the masses, the fraction in the peak, its mean, its width and the range of the smoothing give the same density of primary masses only if they are the same. If events are detected with Gaussian errors in mass, the posterior computed with the package is concentrated on the true values.", "quantifier": "all pairs of parameter sets with a mass of the grid between the limits, all sizes of the grids, all backends; all finite sets of candidates and prior weights, all sizes of the errors, all sets of detectable data, almost all sequences of events", "why_tests_cant": "Uniqueness is a statement about all pairs of points of a seven-dimensional parameter space, and the density is normalised on a grid by a number with no closed form; recovery is a limit over infinitely many catalogues.", "anchors": ["gwpopulation/models/mass.py:SinglePeakSmoothedMassDistribution", "gwpopulation/models/mass.py:BaseSmoothedMassDistribution.p_m1", "gwpopulation/models/mass.py:BaseSmoothedMassDistribution.smoothing", "gwpopulation/hyperpe.py:HyperparameterLikelihood.ln_likelihood_and_variance", "gwpopulation/vt.py:ResamplingVT.detection_efficiency"]}
{"id": "C164", "title": "The smoothed mass model with one peak as a model of both masses: every parameter changes the population and is found from noisy data", "statement": "Take the smoothed power law with one Gaussian peak, built with any grids, and call it on primary masses and mass ratios. If the smoothing ends below the upper limit of the power law, both parts are present and the lower limit is not itself a mass of the grid, two sets of values of all eight parameters give the same joint density only if they are the same. If events are detected with Gaussian errors in primary mass and mass ratio, the posterior computed with the package is concentrated on the true values. This holds although the density of the mass ratio is divided by a norm that is only interpolated between the masses of the grid.", "quantifier": "all pairs of parameter sets with a mass of the grid between the limits, all sizes of the grids, with and without the cache, all backends; all finite sets of candidates and prior weights, all sizes of the errors, all sets of detectable data, almost all sequences of events", "why_tests_cant": "Uniqueness is a statement about all pairs of points of an eight-dimensional parameter space; the interpolated norm depends on the grid and could hide or mix parameters; recovery is a limit over infinitely many catalogues.", "anchors": ["gwpopulation/models/mass.py:SinglePeakSmoothedMassDistribution", "gwpopulation/models/mass.py:BaseSmoothedMassDistribution.__call__", "gwpopulation/models/mass.py:BaseSmoothedMassDistribution.p_q", "gwpopulation/models/mass.py:BaseSmoothedMassDistribution.norm_p_q", "gwpopulation/hyperpe.py:HyperparameterLikelihood.ln_likelihood_and_variance", "gwpopulation/vt.py:ResamplingVT.detection_efficiency"]}
{"id": "C165", "title": "Exchanging the names of the two peaks is the only ambiguity of the power law with two peaks", "statement": "Take the power law with two different Gaussian peaks, with all three parts present. Two sets of values of the ten parameters give the same distribution of masses if and only if they are the same, or become the same when the two peaks exchange their names and the fraction of the first becomes that of the second. So a prior that orders the means of the peaks makes every parameter visible in the population: with it, the posterior computed with the package from events detected with Gaussian errors is concentrated on the true values of all ten. If the two peaks are equal, the split between them cannot be found.", "quantifier": "all pairs of parameter sets with both peaks and the power law present, all backends; all finite sets of candidates and prior weights, all sizes of the errors, all sets of detectable data, almost all sequences of events", "why_tests_cant": "Uniqueness is a statement about all pairs of points of a ten-dimensional parameter space: any sum of a truncated power law and two truncated Gaussians could equal another one; recovery is a limit over infinitely many catalogues.", "anchors": ["gwpopulation/models/mass.py:three_component_single", "gwpopulation/hyperpe.py:HyperparameterLikelihood.ln_likelihood_and_variance", "gwpopulation/vt.py:ResamplingVT.detection_efficiency"]}
{"id": "C166", "title": "The smoothed mass model with two peaks: exchanging the peaks is the only ambiguity, and ordered peaks are found from noisy data", "statement": "Take the smoothed power law with two different Gaussian peaks, built with any grids, and call it on primary masses and mass ratios. If the smoothing ends below the upper limit of the power law, all three parts are present and the lower limit is not itself a mass of the grid, two sets of values of all eleven parameters give the same joint density only if they are the same up to the names of the peaks. The density of the primary mass alone determines all parameters except the index of the mass ratios in the same sense. If the means of the peaks are ordered and events are detected with Gaussian errors in primary mass and mass ratio, the posterior computed with the package is concentrated on the true values of all eleven.", "quantifier": "all pairs of parameter sets with a mass of the grid between the limits, all sizes of the grids, with and without the cache, all backends; all finite sets of candidates and prior weights, all sizes of the errors, all sets of detectable data, almost all sequences of events", "why_tests_cant": "Uniqueness is a statement about all pairs of points of an eleven-dimensional parameter space; recovery is a limit over infinitely many catalogues.", "anchors": ["gwpopulation/models/mass.py:MultiPeakSmoothedMassDistribution", "gwpopulation/models/mass.py:BaseSmoothedMassDistribution.__call__", "gwpopulation/models/mass.py:BaseSmoothedMassDistribution.p_m1", "gwpopulation/models/mass.py:BaseSmoothedMassDistribution.p_q", "gwpopulation/hyperpe.py:HyperparameterLikelihood.ln_likelihood_and_variance", "gwpopulation/vt.py:ResamplingVT.detection_efficiency"]}
{"id": "C167", "title": "Smoothing and mass ratios hide nothing of any primary mass model, and the smoothed broken power law is found from noisy data", "statement": "Build a smoothed mass model on any primary mass model, including one the user wrote, with any grids. If the smoothing ends below a mass up to which the primary density is positive, and the lower limit is not itself a mass of the grid, the joint density of primary mass and mass ratio determines the index of the mass ratios, the lower limit, the range of the smoothing and the whole primary density before the smoothing. So two sets of parameters are confused only if the primary model itself confuses them. For the smoothed broken power law all seven parameters are determined, except that the break is free when the two indices are equal. Candidates that differ in any of these are told apart by the posterior computed with the package from events detected with Gaussian errors in both quantities.", "quantifier": "all primary models that are densities of the mass, all pairs of parameter sets with a mass of the grid between the limits, all sizes of the grids, with and without the cache, all backends; all finite sets of candidates and prior weights, all sizes of the errors, all sets of detectable data, almost all sequences of events", "why_tests_cant": "The claim ranges over all primary models and all pairs of their parameter sets; recovery is a limit over infinitely many catalogues.", "anchors": ["gwpopulation/models/mass.py:BaseSmoothedMassDistribution.__call__", "gwpopulation/models/mass.py:BaseSmoothedMassDistribution.p_m1", "gwpopulation/models/mass.py:BaseSmoothedMassDistribution.p_q", "gwpopulation/models/mass.py:BrokenPowerLawSmoothedMassDistribution", "gwpopulation/models/mass.py:double_power_law_primary_mass", "gwpopulation/hyperpe.py:HyperparameterLikelihood.ln_likelihood_and_variance", "gwpopulation/vt.py:ResamplingVT.detection_efficiency"]}
{"id": "C168", "title": "The broken power law with a peak, plain and smoothed, is determined by its population and found from noisy data", "statement": "Take the broken power law with a Gaussian peak, with both parts present and the peak cut no lower than the power law. Two sets of values of all nine parameters give the same population of masses only if they are the same, except that the break is free when the two indices are equal. The same is true of the ten parameters of the smoothed model with mass ratios, built with any grids. If the true indices differ and events are detected with Gaussian errors, the posterior computed with the package is concentrated on the true values of all parameters.", "quantifier": "all pairs of parameter sets, all sizes of the grids, with and without the cache, all backends; all finite sets of candidates and prior weights, all sizes of the errors, all sets of detectable data, almost all sequences of events", "why_tests_cant": "Uniqueness is a statement about all pairs of points of a nine- or ten-dimensional parameter space; recovery is a limit over infinitely many catalogues.", "anchors": ["gwpopulation/models/mass.py:double_power_law_peak_primary_mass", "gwpopulation/models/mass.py:BrokenPowerLawPeakSmoothedMassDistribution", "gwpopulation/models/mass.py:BaseSmoothedMassDistribution.__call__", "gwpopulation/hyperpe.py:HyperparameterLikelihood.ln_likelihood_and_variance", "gwpopulation/vt.py:ResamplingVT.detection_efficiency"]}
{"id": "C169", "title": "The models of both component masses are determined by their populations and found from noisy data", "statement": "Take the models that describe the heavier and the lighter mass by two power laws, with or without a common Gaussian peak, and with different or identical indices. Two sets of parameters give the same values for almost all pairs of masses only if they are the same, provided the peak and the power law are both present. This holds although the models only see ordered pairs, and although the versions with different indices are not normalised (C20). If events are detected with Gaussian errors in both masses, the posterior computed with the package is concentrated on the true values of all parameters.", "quantifier": "all pairs of parameter sets, all backends; all finite sets of candidates and prior weights, all sizes of the errors, all sets of detectable data, almost all sequences of events", "why_tests_cant": "Uniqueness is a statement about all pairs of points of the parameter space; recovery is a limit over infinitely many catalogues.", "anchors": ["gwpopulation/models/mass.py:power_law_primary_secondary_independent", "gwpopulation/models/mass.py:power_law_primary_secondary_identical", "gwpopulation/models/mass.py:two_component_primary_secondary_independent", "gwpopulation/models/mass.py:two_component_primary_secondary_identical", "gwpopulation/hyperpe.py:HyperparameterLikelihood.ln_likelihood_and_variance", "gwpopulation/vt.py:ResamplingVT.detection_efficiency"]}
{"id": "C170", "title": "Masses and redshifts analysed together are both found, although detection depends on both", "statement": "Take a population that is the product of models of two groups of parameters, as when a mass model and a redshift model are passed to the package together. Events are detected with separate errors for the groups, and whether an event is detected may depend on all its data at once, as when heavy sources are seen further away. If every other candidate differs from the true one in at least one of the two factors, the posterior computed with the package is concentrated on the true candidate. In particular, for every primary mass model with smoothing and mass ratios and for the power law in redshift or the Madau-Dickinson rate, all parameters of the masses and of the redshifts are found together.", "quantifier": "all models of the two groups, all kinds of errors that resolve them, all measurable sets of detectable data, all finite sets of candidates and prior weights, almost all sequences of events", "why_tests_cant": "Selection couples the groups, so that no test of one group covers it; recovery is a limit over infinitely many catalogues.", "anchors": ["gwpopulation/models/mass.py:BaseSmoothedMassDistribution.__call__", "gwpopulation/models/redshift.py:_Redshift.probability", "gwpopulation/models/redshift.py:PowerLawRedshift.psi_of_z", "gwpopulation/models/redshift.py:MadauDickinsonRedshift.psi_of_z", "gwpopulation/hyperpe.py:HyperparameterLikelihood.ln_likelihood_and_variance", "gwpopulation/vt.py:ResamplingVT.detection_efficiency"]}
{"id": "C171", "title": "The broken power law with mass ratios is determined by its population and found from noisy data", "statement": "Two sets of parameters of double_power_law_primary_power_law_mass_ratio give the same values for almost all primary masses and mass ratios only if both indices, the index of the mass ratios and both limits are the same, and also the break unless the two indices are equal (then the break has no effect). If events are detected with Gaussian errors in primary mass and mass ratio, the posterior computed with the package is concentrated on the true values of all six parameters, provided the two indices of the true population differ.", "quantifier": "all pairs of parameter sets with positive lower limits and indices other than -1 (any index for jax), all backends; all finite sets of candidates and prior weights, all sizes of the errors, all sets of detectable data, almost all sequences of events", "why_tests_cant": "Uniqueness is a statement about all pairs of points of the parameter space; recovery is a limit over infinitely many catalogues.", "anchors": ["gwpopulation/models/mass.py:double_power_law_primary_power_law_mass_ratio", "gwpopulation/models/mass.py:double_power_law_primary_mass", "gwpopulation/hyperpe.py:HyperparameterLikelihood.ln_likelihood_and_variance", "gwpopulation/vt.py:ResamplingVT.detection_efficiency"]}
{"id": "C172", "title": "Masses, redshifts, tilts and spin magnitudes analysed together are all found", "statement": "Take a full analysis: a smoothed model of primary mass and mass ratio, a rate in redshift, the model of both tilts and the model of both spin magnitudes, with the population their product. Events are detected with Gaussian errors in all seven quantities, and whether an event is detected may depend on all its data at once. If every other candidate differs from the true one in the masses, in the redshifts, in the fraction of aligned spins or a width of the tilts, or in a shape or maximum of the spin magnitudes, the posterior computed with the package is concentrated on the true candidate.", "quantifier": "all smoothed mass models, all rates, all finite sets of candidates and prior weights, all sizes of the errors, all measurable sets of detectable data, almost all sequences of events", "why_tests_cant": "Selection couples all groups, so that no test of one group covers it; recovery is a limit over infinitely many catalogues.", "anchors": ["gwpopulation/models/mass.py:BaseSmoothedMassDistribution.__call__", "gwpopulation/models/redshift.py:_Redshift.probability", "gwpopulation/models/spin.py:independent_spin_orientation_gaussian_isotropic", "gwpopulation/models/spin.py:independent_spin_magnitude_beta", "gwpopulation/hyperpe.py:HyperparameterLikelihood.ln_likelihood_and_variance", "gwpopulation/vt.py:ResamplingVT.detection_efficiency"]}
