{
 "claims": [
  {
   "property": "C01",
   "status": "proved",
   "theorems": [
    "GW.C01_powerlaw_value",
    "GW.C01_powerlaw_isDensity",
    "GW.C01_powerlaw_value_low_zero"
   ],
   "note": "Exact real arithmetic; every call style that is not refused (alpha=1 by keyword is refused, see C66); low=0 covered for numpy scalars."
  },
  {
   "property": "C02",
   "status": "proved",
   "theorems": [
    "GW.C02_powerlaw",
    "GW.C02_truncnorm",
    "GW.C02_betaDist",
    "GW.C02_applyConditions_spec",
    "GW.C02_positional_never_checked",
    "GW.C02_array_checked_elementwise"
   ],
   "note": "All condition tables, keyword dictionaries with scalar/array values, all backends; and for powerlaw, truncnorm and beta_dist exactly which arguments are refused."
  },
  {
   "property": "C03",
   "status": "proved",
   "theorems": [
    "GW.C03_truncnorm_value",
    "GW.C03_truncnorm_isDensity",
    "GW.C03_truncnorm_unbounded",
    "GW.C03_truncnorm_unbounded_isDensity"
   ],
   "note": "All three branches, bounded and unbounded windows; ndtr is the standard normal cdf."
  },
  {
   "property": "C04",
   "status": "proved",
   "theorems": [
    "GW.C04_truncnorm_total",
    "GW.C04_truncnorm_only_error"
   ],
   "note": "All extended floats."
  },
  {
   "property": "C05",
   "status": "proved",
   "theorems": [
    "GW.C05_betaDist_value",
    "GW.C05_betaDist_isDensity"
   ],
   "note": "betaln is the logarithm of Mathlib's Beta function."
  },
  {
   "property": "C06",
   "status": "proved",
   "theorems": [
    "GW.C06_betaDist_total",
    "GW.C06_betaDist_only_error"
   ],
   "note": "All extended floats, whatever betaln returns outside its domain."
  },
  {
   "property": "C07",
   "status": "partial",
   "theorems": [
    "GW.C07_fails",
    "GW.C07_endpoints_partial"
   ],
   "note": "The property is false (C07_fails): with exponent exactly 1 the end point value is 0. Exact end point values are proved."
  },
  {
   "property": "C08",
   "status": "partial",
   "theorems": [
    "GW.C08_fails",
    "GW.C08_gauss2d_partial"
   ],
   "note": "The property is false (C08_fails) for correlated Gaussians; exact value proved."
  },
  {
   "property": "C09",
   "status": "proved",
   "theorems": [
    "GW.C09_vonMises_value",
    "GW.C09_vonMises_isDensity",
    "GW.C09_vonMises_shape",
    "GW.C09_vonMises_negative_kappa"
   ],
   "note": "i0e is exp(-|k|) I0(k) with I0 its integral representation; exact arithmetic."
  },
  {
   "property": "C10",
   "status": "proved",
   "theorems": [
    "GW.C10_trapezoid_one_interval",
    "GW.C10_trapezoid_two_samples",
    "GW.C10_trapezoid_value",
    "GW.C10_trapezoid_uniform",
    "GW.C10_trapezoid_linear",
    "GW.C10_trapezoid_nonneg",
    "GW.C10_trapezoid_split",
    "GW.C10_trapezoid_affine_exact",
    "GW.C10_trapezoid_mismatch"
   ],
   "note": "All capability combinations of the array module, any lists of samples, also of different lengths (C10_trapezoid_mismatch; values for a single interval C10_trapezoid_one_interval, C10_trapezoid_two_samples)."
  },
  {
   "property": "C11",
   "status": "proved",
   "theorems": [
    "GW.C11_roundtrip_alphaBeta",
    "GW.C11_roundtrip_muVar",
    "GW.C11_roundtrip_everywhere",
    "GW.C11_roundtrip_boundary"
   ],
   "note": "Python and numpy floats, exact arithmetic."
  },
  {
   "property": "C12",
   "status": "proved",
   "theorems": [
    "GW.C12_convert",
    "GW.C12_convert_returns_iff",
    "GW.C12_missing_amax",
    "GW.C12_convert_idempotent"
   ],
   "note": "All dictionaries with number/None values; exact condition for returning; idempotence."
  },
  {
   "property": "C13",
   "status": "partial",
   "theorems": [
    "GW.C13_fails",
    "GW.C13_input_untouched_partial",
    "GW.C13_arrays_partial"
   ],
   "note": "The property is false (C13_fails) for array valued means/variances with amax != 1: in-place division. Proved for every value that is not such an array; for arrays the values returned and what the arrays hold afterwards are proved (C13_arrays_partial)."
  },
  {
   "property": "C14",
   "status": "proved",
   "theorems": [
    "GW.C14_setBackend_history",
    "GW.C14_setBackend_same",
    "GW.C14_setBackend_back",
    "GW.C14_setBackend_frame"
   ],
   "note": "Every registry without an extra function called xp/scs, every call history."
  },
  {
   "property": "C15",
   "status": "partial",
   "theorems": [
    "GW.C15_fails",
    "GW.C15_retry_fails",
    "GW.C15_not_installed",
    "GW.C15_atomic_partial"
   ],
   "note": "The property is false (C15_fails, C15_retry_fails) if a registered module fails to import. Atomicity is proved for the other failures."
  },
  {
   "property": "C16",
   "status": "partial",
   "theorems": [
    "GW.C16_fails",
    "GW.C16_others_partial"
   ],
   "note": "The property is false (C16_fails) for two functions in one module. Proved for the last function of each module."
  },
  {
   "property": "C17",
   "status": "proved",
   "theorems": [
    "GW.C17_doublePowerLaw_value",
    "GW.C17_doublePowerLaw_isDensity",
    "GW.C17_doublePowerLaw_continuous",
    "GW.C17_alpha_neg_one_refused"
   ],
   "note": "Exact real arithmetic; alpha=-1 by keyword is refused on numpy/cupy (C17_alpha_neg_one_refused)."
  },
  {
   "property": "C18",
   "status": "proved",
   "theorems": [
    "GW.C18_powerLawMass_value",
    "GW.C18_twoComponentSingle_value",
    "GW.C18_threeComponentSingle_value",
    "GW.C18_doublePowerLawPeak_value",
    "GW.C18_twoComponentSingle_isDensity",
    "GW.C18_threeComponentSingle_isDensity",
    "GW.C18_doublePowerLawPeak_isDensity"
   ],
   "note": "Values and normalisation on the union of the supports of the components."
  },
  {
   "property": "C19",
   "status": "proved",
   "theorems": [
    "GW.C19_twoComponentPrimaryMassRatio",
    "GW.C19_powerLawPrimaryMassRatio",
    "GW.C19_doublePowerLawPrimaryPowerLawMassRatio",
    "GW.C19_boundary_not_finite"
   ],
   "note": "All points except m1 = mmin, where the code is not finite (C19_boundary_not_finite)."
  },
  {
   "property": "C20",
   "status": "partial",
   "theorems": [
    "GW.C20_powerLawIdentical",
    "GW.C20_twoComponentIdentical",
    "GW.C20_powerLawIndependent_partial",
    "GW.C20_twoComponentIndependent_partial",
    "GW.C20_fails"
   ],
   "note": "The property is false (C20_fails) for the independent models; proved for the identical ones, and the exact total mass of the independent ones is proved."
  },
  {
   "property": "C21",
   "status": "proved",
   "theorems": [
    "GW.C21_documented",
    "GW.C21_range",
    "GW.C21_monotone",
    "GW.C21_symmetric",
    "GW.C21_half",
    "GW.C21_delta_zero",
    "GW.C21_never_nan",
    "GW.C21_plateau"
   ],
   "note": "All masses, bounds and widths; never NaN for arbitrary floats."
  },
  {
   "property": "C22",
   "status": "proved",
   "theorems": [
    "GW.C22_singlePeak",
    "GW.C22_multiPeak",
    "GW.C22_brokenPowerLaw",
    "GW.C22_brokenPowerLawPeak"
   ],
   "note": "Four classes, any history with finite masses, numpy/cupy; one-dimensional datasets; m1 != mmin as the property says."
  },
  {
   "property": "C23",
   "status": "proved",
   "theorems": [
    "GW.C23_primary",
    "GW.C23_massRatio",
    "GW.C23_primary_of_nonneg",
    "GW.C23_massRatio_above"
   ],
   "note": "Any grid, any primary model; the norm is shown to be positive for grid masses above mmin."
  },
  {
   "property": "C24",
   "status": "partial",
   "theorems": [
    "GW.C24_history_partial",
    "GW.C24_fails"
   ],
   "note": "The property is false (C24_fails) for a caching instance that sees another dataset of the same length (or length 1). Proved for uncached instances and for all other histories."
  },
  {
   "property": "C25",
   "status": "proved",
   "theorems": [
    "GW.C25_missing_beta",
    "GW.C25_out_of_range",
    "GW.C25_accepts"
   ],
   "note": "All instances, dictionaries and datasets."
  },
  {
   "property": "C26",
   "status": "partial",
   "theorems": [
    "GW.C26_consumes",
    "GW.C26_lists",
    "GW.C26_fails",
    "GW.C26_names_partial",
    "GW.C26_side_effect_partial",
    "GW.C26_singlePeak_consumes"
   ],
   "note": "The property is false (C26_fails) for a primary model with its own variable_names list; the returned set is proved, and the side effect is characterised; all four models of the package return only when given exactly the listed hyper-parameters, except that delta_m may be left out (C26_consumes, C26_lists)."
  },
  {
   "property": "C27",
   "status": "partial",
   "theorems": [
    "GW.C27_value",
    "GW.C27_isDensity",
    "GW.C27_isotropic",
    "GW.C27_aligned",
    "GW.C27_iid",
    "GW.C27_swap",
    "GW.C27_outside_partial",
    "GW.C27_fails"
   ],
   "note": "The property is false (C27_fails): outside [-1,1]^2 the isotropic part stays (1-xi)/4. Normalisation on the square and the exact value outside are proved."
  },
  {
   "property": "C28",
   "status": "proved",
   "theorems": [
    "GW.C28_value",
    "GW.C28_outside",
    "GW.C28_isDensity",
    "GW.C28_iid",
    "GW.C28_swap",
    "GW.C28_iidSpin",
    "GW.C28_iidSpin_isDensity"
   ],
   "note": "All Beta parameters where the density exists; exact arithmetic."
  },
  {
   "property": "C29",
   "status": "partial",
   "theorems": [
    "GW.C29_single",
    "GW.C29_single_refuses",
    "GW.C29_fails",
    "GW.C29_correlated_partial"
   ],
   "note": "The property is false (C29_fails): with correlation the value is not proportional to the documented Gaussian. Proved for the one-dimensional models; exact value of the correlated one proved."
  },
  {
   "property": "C30",
   "status": "proved",
   "theorems": [
    "GW.C30_powerLaw",
    "GW.C30_madauDickinson",
    "GW.C30_missing"
   ],
   "note": "All parameters; missing parameter is KeyError."
  },
  {
   "property": "C31",
   "status": "proved",
   "theorems": [
    "GW.C31_probability",
    "GW.C31_scale",
    "GW.C31_tiny_zmax"
   ],
   "note": "z_max > 1e-6; below that the code returns negative values (C31_tiny_zmax)."
  },
  {
   "property": "C32",
   "status": "proved",
   "theorems": [
    "GW.C32_linear_time",
    "GW.C32_total_four_volume",
    "GW.C32_hypervolume",
    "GW.C32_consistent",
    "GW.C32_analysis_time"
   ],
   "note": "Linearity for all floats; last redshift model of any component list; both branches integrate the same function (grids start at 0 / 1e-6)."
  },
  {
   "property": "C33",
   "status": "proved",
   "theorems": [
    "GW.C33_first_missing",
    "GW.C33_terminates",
    "GW.C33_instance"
   ],
   "note": "All dictionaries, base names and counts; the search of the code is a well-founded recursion."
  },
  {
   "property": "C34",
   "status": "partial",
   "theorems": [
    "GW.C34_no_new_partial",
    "GW.C34_base_partial",
    "GW.C34_magnitude_partial",
    "GW.C34_tilt_partial",
    "GW.C34_fails"
   ],
   "note": "The property is false (C34_fails: the range and regularisation flag are reset to the defaults). What happens is characterised for every class: the base class raises TypeError, the two spin classes become the default model with the new node count; without further nodes nothing changes."
  },
  {
   "property": "C35",
   "status": "partial",
   "theorems": [
    "GW.C35_same_nodes_partial",
    "GW.C35_fails",
    "GW.C35_broken_partial",
    "GW.C35_frozen_partial"
   ],
   "note": "The property is false for every interpolation rule that passes through its nodes (C35_fails: the interpolants of the first call are kept). Proved: the exact stale value (C35_frozen_partial), independence for histories with the same data and node positions (C35_same_nodes_partial), and that a call lacking a later column breaks the instance (C35_broken_partial)."
  },
  {
   "property": "C36",
   "status": "proved",
   "theorems": [
    "GW.C36_norm",
    "GW.C36_value",
    "GW.C36_normalised",
    "GW.C36_support",
    "GW.C36_regularised",
    "GW.C36_unregularised"
   ],
   "note": "All interpolation rules, grids, nodes and datasets with real entries."
  },
  {
   "property": "C37",
   "status": "proved",
   "theorems": [
    "GW.C37_distinct",
    "GW.C37_names",
    "GW.C37_required"
   ],
   "note": "All base names and node counts."
  },
  {
   "property": "C38",
   "status": "partial",
   "theorems": [
    "GW.C38_integral_partial",
    "GW.C38_equal_lengths",
    "GW.C38_fails",
    "GW.C38_square"
   ],
   "note": "The property is false (C38_fails) if two axes have the same length: then no call returns a number (C38_equal_lengths); for two parameters exactly what comes out instead (C38_square). Proved for any number of axes of pairwise different lengths."
  },
  {
   "property": "C39",
   "status": "partial",
   "theorems": [
    "GW.C39_grid_partial",
    "GW.C39_fails",
    "GW.C39_resampling_partial"
   ],
   "note": "The property is false (C39_fails) for GridVT, which removes 'vt' from the caller's dictionary; exact effect proved; holds for ResamplingVT."
  },
  {
   "property": "C40",
   "status": "proved",
   "theorems": [
    "GW.C40_value",
    "GW.C40_efficiency",
    "GW.C40_variance_nonneg",
    "GW.C40_reorder",
    "GW.C40_zero_weight",
    "GW.C40_scale",
    "GW.C40_construct"
   ],
   "note": "All injection lists; N natural for the variance identity; reordering and zero weights for all floats."
  },
  {
   "property": "C41",
   "status": "partial",
   "theorems": [
    "GW.C41_fails",
    "GW.C41_partial",
    "GW.C41_error"
   ],
   "note": "The property is false (C41_fails) for a NaN efficiency (NaN stays NaN); exact result proved for all floats."
  },
  {
   "property": "C42",
   "status": "partial",
   "theorems": [
    "GW.C42_default_partial",
    "GW.C42_fails"
   ],
   "note": "The property is false (C42_fails): with the default n_events the efficiency is always +inf (C42_default_partial)."
  },
  {
   "property": "C43",
   "status": "partial",
   "theorems": [
    "GW.C43_fails",
    "GW.C43_factor_partial",
    "GW.C43_zero_variance"
   ],
   "note": "The property is false (C43_fails): variance 0 raises ZeroDivisionError on numpy/cupy. Proved for positive variance and on jax."
  },
  {
   "property": "C44",
   "status": "proved",
   "theorems": [
    "GW.C44_estimator"
   ],
   "note": "All events, samples, parameters with positive mean weights and positive real selection; exact arithmetic."
  },
  {
   "property": "C45",
   "status": "proved",
   "theorems": [
    "GW.C45_per_event",
    "GW.C45_total"
   ],
   "note": "All events."
  },
  {
   "property": "C46",
   "status": "proved",
   "theorems": [
    "GW.C46_finite",
    "GW.C46_nan",
    "GW.C46_ninf"
   ],
   "note": "All float results of the estimator; the rounding to doubles in log_likelihood_ratio is modelled (fl64)."
  },
  {
   "property": "C47",
   "status": "partial",
   "theorems": [
    "GW.C47_rejected_partial",
    "GW.C47_accepted_partial",
    "GW.C47_agreement_partial",
    "GW.C47_infinite_partial",
    "GW.C47_fails"
   ],
   "note": "The property is false (C47_fails): the code compares maximum_uncertainty (a standard deviation) with the variance. Rejected, accepted, agreeing and infinite cases characterised exactly, with double rounding."
  },
  {
   "property": "C48",
   "status": "proved",
   "theorems": [
    "GW.C48_value",
    "GW.C48_ratio"
   ],
   "note": "All parameters and classes."
  },
  {
   "property": "C49",
   "status": "proved",
   "theorems": [
    "GW.C49_value",
    "GW.C49_missing_rate",
    "GW.C49_marginal"
   ],
   "note": "All rates and events; marginalisation over R with prior 1/R by the Gamma integral."
  },
  {
   "property": "C50",
   "status": "partial",
   "theorems": [
    "GW.C50_entries",
    "GW.C50_consistent_partial",
    "GW.C50_fails",
    "GW.C50_rate_fails"
   ],
   "note": "The property is false (C50_fails, C50_rate_fails): selection_variance is the relative variance, and for RateLikelihood the variance is not that of the likelihood. All entries, and consistency for the other classes, proved."
  },
  {
   "property": "C51",
   "status": "proved",
   "theorems": [
    "GW.C51_rows",
    "GW.C51_empty"
   ],
   "note": "All frames and every outcome of DataFrame.sample."
  },
  {
   "property": "C52",
   "status": "partial",
   "theorems": [
    "GW.C52_shared_partial",
    "GW.C52_missing_partial",
    "GW.C52_fails"
   ],
   "note": "The property is false (C52_fails): a column missing from a later frame raises. Proved for shared columns; missing columns characterised."
  },
  {
   "property": "C53",
   "status": "proved",
   "theorems": [
    "GW.C53_weights",
    "GW.C53_normalised",
    "GW.C53_order",
    "GW.C53_scale",
    "GW.C53_samples"
   ],
   "note": "All weights, all histories of hyper-samples."
  },
  {
   "property": "C54",
   "status": "partial",
   "theorems": [
    "GW.C54_distribution_partial",
    "GW.C54_tuple_partial",
    "GW.C54_fails",
    "GW.C54_unconverted_fails",
    "GW.C54_rate"
   ],
   "note": "The property is false (C54_fails: a selection function returning a tuple raises TypeError; C54_unconverted_fails: the conversion function is not applied). Distribution proved for objects with efficiency and volume and for functions returning a number."
  },
  {
   "property": "C55",
   "status": "proved",
   "theorems": [
    "GW.C55_reorder",
    "GW.C55_prior_scale"
   ],
   "note": "Reordering for all floats incl. special values and all three classes; prior scaling for real weights."
  },
  {
   "property": "C56",
   "status": "proved",
   "theorems": [
    "GW.C56_rejects",
    "GW.C56_accepts",
    "GW.C56_log_likelihood",
    "GW.C56_max_variance"
   ],
   "note": "All arguments."
  },
  {
   "property": "C57",
   "status": "partial",
   "theorems": [
    "GW.C57_distance",
    "GW.C57_neither",
    "GW.C57_bad_cosmology",
    "GW.C57_fails",
    "GW.C57_redshift_partial"
   ],
   "note": "The property is false (C57_fails): a detector-frame column before the redshift column raises KeyError. Proved for distance data, and for redshift-first data."
  },
  {
   "property": "C58",
   "status": "partial",
   "theorems": [
    "GW.C58_fails",
    "GW.C58_fails_collision",
    "GW.C58_distance_partial",
    "GW.C58_redshift_partial",
    "GW.C58_raises_partial"
   ],
   "note": "The property is false (C58_fails, C58_fails_collision). Order independence proved for distance data without colliding names (C58_distance_partial). For redshift data without colliding names all orders with the redshift before the detector-frame columns agree (C58_redshift_partial) and every other order raises KeyError (C58_raises_partial)."
  },
  {
   "property": "C59",
   "status": "proved",
   "theorems": [
    "GW.C59_density"
   ],
   "note": "Any number of redshifted columns, any increasing differentiable distance-redshift relation whose derivative/inverse are what the cosmology object reports."
  },
  {
   "property": "C60",
   "status": "proved",
   "theorems": [
    "GW.C60_names",
    "GW.C60_free",
    "GW.C60_missing",
    "GW.C60_fixed",
    "GW.C60_variableNames"
   ],
   "note": "All dictionaries and cosmologies."
  },
  {
   "property": "C61",
   "status": "proved",
   "theorems": [
    "GW.C61_equal",
    "GW.C61_evaluates",
    "GW.C61_no_selection",
    "GW.C61_varmax"
   ],
   "note": "All likelihoods of the base class, all selection functions of ResamplingVT type (marginalisation and convergence enforcement off), all parameters; with and without selection; the varmax rule for all floats."
  },
  {
   "property": "C62",
   "status": "partial",
   "theorems": [
    "GW.C62_gamma_partial",
    "GW.C62_mean_partial",
    "GW.C62_scaled_partial",
    "GW.C62_agree_partial",
    "GW.C62_fails"
   ],
   "note": "The property is false (C62_fails): the rate is drawn from Gamma(N) with rate parameter 1/vt instead of vt. The exact law, its mean and when it agrees (vt = 1 only) are proved."
  },
  {
   "property": "C63",
   "status": "partial",
   "theorems": [
    "GW.C63_column_partial",
    "GW.C63_never_partial",
    "GW.C63_injections_partial",
    "GW.C63_fails"
   ],
   "note": "The property is false (C63_fails): the weight matrix is indexed by sample instead of event. The exact probabilities, the samples that can never be drawn, and the correctness for the injections are proved."
  },
  {
   "property": "C64",
   "status": "partial",
   "theorems": [
    "GW.C64_value_partial",
    "GW.C64_ratio_partial",
    "GW.C64_use_ratio_partial",
    "GW.C64_fails",
    "GW.C64_nan_fails"
   ],
   "note": "The property is false (C64_fails): with use_ratio given every evaluation raises TypeError, because the branch is taken on a traced value (C64_use_ratio_partial), and nan_to_num turns NaN into 0, an ordinary value (C64_nan_fails). All values characterised; proved to hold for the package's own likelihoods with the default arguments."
  },
  {
   "property": "C65",
   "status": "partial",
   "theorems": [
    "GW.C65_fails",
    "GW.C65_toNumpy_partial",
    "GW.C65_getName",
    "GW.C65_toNumber"
   ],
   "note": "The property is false (C65_fails): cupy/jax objects are only handled when that backend is active. The exact decision table is proved."
  },
  {
   "property": "C66",
   "status": "partial",
   "theorems": [
    "GW.C66_alpha_one_refused",
    "GW.C66_low_zero_zeroDivision",
    "GW.C66_fails",
    "GW.C66_refusal_partial"
   ],
   "note": "The property is false (C66_fails): alpha=1 by keyword is refused; low=0 with Python floats raises ZeroDivisionError. The exact refusal condition is proved."
  },
  {
   "property": "C67",
   "status": "partial",
   "theorems": [
    "GW.C67_fails",
    "GW.C67_outside_support_partial"
   ],
   "note": "The property is false (C67_fails): NaN at x=0 for negative alpha. The exact set of points with value 0 / NaN is proved."
  },
  {
   "property": "C68",
   "status": "proved",
   "theorems": [
    "GW.C68_moments"
   ],
   "note": "First and second moments of the density returned by beta_dist."
  },
  {
   "property": "C69",
   "status": "partial",
   "theorems": [
    "GW.C69_value_partial",
    "GW.C69_fails"
   ],
   "note": "The property is false (C69_fails): the code uses R var / P_det instead of R^2 var; exact value and when they agree proved."
  },
  {
   "property": "C70",
   "status": "partial",
   "theorems": [
    "GW.C70_number_partial",
    "GW.C70_few_injections_partial",
    "GW.C70_columns_partial",
    "GW.C70_fails"
   ],
   "note": "The property is false (C70_fails): numbers among the injection data raise, as do more events than injections. Both characterised; evaluation proved if the columns to resample are arrays present in both data sets."
  },
  {
   "property": "C71",
   "status": "partial",
   "theorems": [
    "GW.InterpPowerlaw.C71_value_partial",
    "GW.InterpPowerlaw.C71_integral_partial",
    "GW.InterpPowerlaw.C71_fails"
   ],
   "note": "The property is false (C71_fails): the norm lacks the cut at the outer nodes that the density has, so outer nodes inside the grid lose probability. The exact integral is proved: cut over uncut, equal to 1 if the grid between mmin and mmax lies between the nodes and below 1 otherwise."
  },
  {
   "property": "C72",
   "status": "partial",
   "theorems": [
    "GW.InterpPowerlaw.C72_length_partial",
    "GW.InterpPowerlaw.C72_same_partial",
    "GW.InterpPowerlaw.C72_stale_partial",
    "GW.InterpPowerlaw.C72_fails"
   ],
   "note": "The property is false (C72_fails): interpolants of the first call are kept. Proved: after n samples every other number of samples raises (numpy/cupy); the exact stale value for the same number; independence for histories with the same masses and node positions."
  },
  {
   "property": "C73",
   "status": "proved",
   "theorems": [
    "GW.InterpPowerlaw.C73_names",
    "GW.InterpPowerlaw.C73_missing",
    "GW.InterpPowerlaw.C73_unused",
    "GW.InterpPowerlaw.C73_sufficient"
   ],
   "note": "Names, required names with the exception raised, sufficiency and irrelevance of other names, after any history."
  },
  {
   "property": "C74",
   "status": "partial",
   "theorems": [
    "GW.C74_delegated_partial",
    "GW.C74_hidden_partial",
    "GW.C74_transparent_partial",
    "GW.C74_noise_partial",
    "GW.C74_fails"
   ],
   "note": "The property is false (C74_fails): names defined by the wrapper or its bilby base class, e.g. noise_log_likelihood, are not passed on. Exactly the other names are (C74_transparent_partial), through any number of layers."
  },
  {
   "property": "C75",
   "status": "partial",
   "theorems": [
    "GW.C75_blank_partial",
    "GW.C75_restore_partial",
    "GW.C75_fails"
   ],
   "note": "The property is false (C75_fails): __getattr__ on an instance without __init__ recurses for every limit, so copying raises RecursionError. Exact condition proved."
  },
  {
   "property": "C76",
   "status": "partial",
   "theorems": [
    "GW.C76_value_partial",
    "GW.C76_error_partial",
    "GW.C76_constructed_partial",
    "GW.C76_fails"
   ],
   "note": "The property is false (C76_fails): accepted hyper_prior objects without `models` and cupy arrays after a backend switch raise AttributeError. Exactly when it is readable, and its value, are proved."
  },
  {
   "property": "C77",
   "status": "proved",
   "theorems": [
    "GW.C77_hyper",
    "GW.C77_ratio",
    "GW.C77_rate",
    "GW.C77_rate_sample"
   ],
   "note": "All constants, likelihoods with ResamplingVT, hyper-parameters and special floats."
  },
  {
   "property": "C78",
   "status": "proved",
   "theorems": [
    "GW.C78_priors",
    "GW.C78_units"
   ],
   "note": "All constants per event and hyper-parameters; for the units theorem the population model may not read the injection prior."
  },
  {
   "property": "C79",
   "status": "proved",
   "theorems": [
    "GW.C79_moments",
    "GW.C79_iid",
    "GW.C79_independent"
   ],
   "note": "All dictionaries, suffixes and possible moments; iid and independent models."
  },
  {
   "property": "C80",
   "status": "partial",
   "theorems": [
    "GW.C80_maximum_partial",
    "GW.C80_value_partial",
    "GW.C80_impossible_partial",
    "GW.C80_orientation_partial",
    "GW.C80_fails"
   ],
   "note": "The property is false (C80_fails): shape parameters and widths are passed by position, where conditions are not checked. Proved: exactly the maximum is checked; values for non-positive shapes; impossible moments lead there; orientations never refuse."
  },
  {
   "property": "C81",
   "status": "proved",
   "theorems": [
    "GW.C81_unbiased"
   ],
   "note": "All densities, selections and numbers of injections; the variance part under pairwise independence and a finite second moment. Exact real arithmetic."
  },
  {
   "property": "C82",
   "status": "proved",
   "theorems": [
    "GW.C82_selection",
    "GW.C82_likelihood"
   ],
   "note": "Almost surely, samples and injections growing jointly; plain, convergence-enforcing and marginalised selection functions. Exact real arithmetic."
  },
  {
   "property": "C83",
   "status": "partial",
   "theorems": [
    "GW.C83_utils_partial",
    "GW.C83_mass_partial",
    "GW.C83_spin_partial",
    "GW.C83_smoothed_partial",
    "GW.C83_spline_partial",
    "GW.C83_interpolated_partial",
    "GW.C83_fails"
   ],
   "note": "The property is false (C83_fails): with smoothing width 0 jax still computes the window, and the density at a mass equal to the minimum is not that of numpy. Proved for all densities, mass and spin models, the spline models in any state, and the smoothed models and interpolated power law for positive widths and an interpolant cached for as many samples as now."
  },
  {
   "property": "C84",
   "status": "partial",
   "theorems": [
    "GW.C84_base_partial",
    "GW.C84_names_partial",
    "GW.C84_disjoint_partial",
    "GW.C84_fails"
   ],
   "note": "The property is false (C84_fails): x_1 and x_11 give the same names. Proved: what the names are for every parameter name, and exactly when two models share a name if the trimmed names do not end with a digit."
  },
  {
   "property": "C85",
   "status": "proved",
   "theorems": [
    "GW.C85_redshift",
    "GW.C85_primary_error",
    "GW.C85_primary_limit",
    "GW.C85_powerLaw",
    "GW.C85_madauDickinson",
    "GW.C85_spline",
    "GW.C85_massRatio_limit",
    "GW.C85_singlePeak",
    "GW.C85_multiPeak",
    "GW.C85_brokenPowerLaw",
    "GW.C85_brokenPowerLawPeak",
    "GW.C85_limit_normalised"
   ],
   "note": "Exact real arithmetic. Errors for a finite grid: redshift models, primary mass, splines. Limits: the four smoothed mass models at all positive masses other than mmin, inside and outside the mass range, both grids refined jointly; the mass-ratio grid starts at 0.001, so mmin must be at least 0.001 times the upper end of the mass grid."
  },
  {
   "property": "C86",
   "status": "partial",
   "theorems": [
    "GW.C86_separate_partial",
    "GW.C86_fails",
    "GW.C86_function_partial",
    "GW.C86_list_partial",
    "GW.C86_cosmo",
    "GW.C86_likelihood",
    "GW.C86_selection"
   ],
   "note": "The property is false (C86_fails): one Model object with its default cache given to both likelihood and selection function. Proved: separate objects, functions and lists, uncached models, CosmoModel; whole histories of the likelihood and of the selection function. bilby's Model is modelled from how the repository documents it."
  },
  {
   "property": "C87",
   "status": "proved",
   "theorems": [
    "GW.C87_join",
    "GW.C87_binary",
    "GW.C87_missing"
   ],
   "note": "Product rule for any lists of functions over separate parameters; the concrete seven-parameter population with a fixed cosmology, through a new Model object with or without cache. Exact real arithmetic; the redshift block starts at the first grid point 1e-6 and the single mass m1 = mmin is excluded (there the code is not finite, C19_boundary_not_finite)."
  },
  {
   "property": "C88",
   "status": "proved",
   "theorems": [
    "GW.C88_lnBayesFactor",
    "GW.C88_variance",
    "GW.C88_lnLikelihood",
    "GW.C88_detectionEfficiency",
    "GW.C88_endToEnd",
    "GW.C88_order"
   ],
   "note": "IEEE double precision with overflow and subnormal numbers, from the division by the sampling prior on; the densities themselves are exact. The accuracy of the library's logarithm is a hypothesis, shown to hold for a correctly rounded one. Weights are 0 or between 2^-400 and 2^400."
  },
  {
   "property": "C89",
   "status": "partial",
   "theorems": [
    "GW.C89_negative",
    "GW.C89_fails",
    "GW.C89_selection_fails",
    "GW.C89_nearly_partial"
   ],
   "note": "The property is false in double precision (C89_fails, C89_negative, C89_selection_fails): the two weights 1+2^-52 and 1+2^-51 give negative variances in every order. Proved: reported variances are at least -2^-47, and positive when the exact one is not tiny."
  },
  {
   "property": "C90",
   "status": "partial",
   "theorems": [
    "GW.C90_error_partial",
    "GW.C90_infinite",
    "GW.C90_fails",
    "GW.C90_usual_partial",
    "GW.C90_overflow"
   ],
   "note": "The property is false (C90_fails, C90_infinite): for the spectral index next to -1 the two powers of the normalisation round to the same number and the density is infinite. Proved: the relative error is at most 25*2^-53 times an explicit amplification (C90_error_partial), which is below 10^-8 for the usual parameters (C90_usual_partial). C90_overflow: where the powers overflow the result is NaN, or OverflowError for Python floats."
  },
  {
   "property": "C91",
   "status": "partial",
   "theorems": [
    "GW.C91_powerlaw",
    "GW.C91_truncnorm",
    "GW.C91_betaDist",
    "GW.C91_powerLawRedshift",
    "GW.C91_madauDickinson",
    "GW.C91_selection",
    "GW.C91_likelihood",
    "GW.C91_singlePeak_partial",
    "GW.C91_multiPeak_partial",
    "GW.C91_brokenPowerLaw_partial",
    "GW.C91_brokenPowerLawPeak_partial",
    "GW.C91_fails"
   ],
   "note": "The property is false (C91_fails): the primary-mass density of a smoothed mass model is divided by a sum over grid points, which jumps when mmax crosses one, for sources nowhere near mmax. Proved: utility densities, both redshift models, the detection efficiency and the likelihood at all parameters; the four smoothed mass models at parameters whose mmin and mmax are off the grid. Exact real arithmetic."
  },
  {
   "property": "C92",
   "status": "partial",
   "theorems": [
    "GW.C92_powerlaw_partial",
    "GW.C92_powerlaw_nan",
    "GW.C92_fails",
    "GW.C92_betaDist_partial",
    "GW.C92_betaDist_outside",
    "GW.C92_betaDist_fails",
    "GW.C92_truncnorm",
    "GW.C92_likelihood_partial",
    "GW.C92_likelihood_nan",
    "GW.C92_likelihood_fails",
    "GW.C92_twoComponent_partial",
    "GW.C92_threeComponent_partial",
    "GW.C92_doublePowerLaw_partial",
    "GW.C92_doublePowerLawPeak_partial",
    "GW.C92_singlePeak_partial",
    "GW.C92_singlePeak_below",
    "GW.C92_multiPeak_partial",
    "GW.C92_multiPeak_below",
    "GW.C92_brokenPowerLaw_partial",
    "GW.C92_brokenPowerLaw_below",
    "GW.C92_brokenPowerLawPeak_partial",
    "GW.C92_brokenPowerLawPeak_below",
    "GW.C92_singlePeak_fails",
    "GW.C92_powerLawRedshift",
    "GW.C92_madauDickinson",
    "GW.C92_selection_partial",
    "GW.C92_selection_nan",
    "GW.C92_likelihood_injections_partial",
    "GW.C92_spinMagnitude_partial",
    "GW.C92_spinOrientation",
    "GW.C92_iidSpin_partial",
    "GW.C92_iidSpin_above",
    "GW.C92_chiEff",
    "GW.C92_chiP",
    "GW.C92_chiEffChiP",
    "GW.C92_spline_partial",
    "GW.C92_tie",
    "GW.C92_singlePeak_unsmoothed",
    "GW.C92_multiPeak_unsmoothed",
    "GW.C92_brokenPowerLaw_unsmoothed",
    "GW.C92_brokenPowerLawPeak_unsmoothed",
    "GW.C92_unsmoothed_fails"
   ],
   "note": "The property is false (C92_fails, C92_betaDist_fails, C92_singlePeak_fails, C92_unsmoothed_fails, C92_likelihood_fails): jax returns NaN for a power law with spectral index -1, for spins outside [0, amax], for primary masses more than a grid cell below mmin, and, without smoothing (delta_m = 0), for mmin at every source, and one such sample makes the gradient of the whole likelihood NaN. Proved: the gradients of utility densities, mass models, spin models, spline models and the four smoothed models are right away from these points and from kinks, those of truncnorm and the redshift models everywhere, and the detection efficiency (where it is converged) and the likelihood pass right gradients on. The derivative rules of jax are part of the model."
  },
  {
   "property": "C93",
   "status": "proved",
   "theorems": [
    "GW.C93_reads",
    "GW.C93_missing",
    "GW.C93_missing_python",
    "GW.C93_reserved",
    "GW.C93_base"
   ],
   "note": "C93_missing: arrays or numpy scalars; C93_missing_python: for Python floats a rate may also raise ZeroDivisionError or OverflowError, so the theorem says that a call that returns had all names."
  },
  {
   "property": "C94",
   "status": "partial",
   "theorems": [
    "GW.C94_huge",
    "GW.C94_fails",
    "GW.C94_truncnorm_outside",
    "GW.C94_usual_partial",
    "GW.C94_betaDist",
    "GW.C94_betaDist_outside",
    "GW.C94_vonMises",
    "GW.C94_truncnorm_partial"
   ],
   "note": "C94_fails: false of the code. For truncnorm(0, mu=0, sigma=2**60, high=1, low=-1) the probability of the window rounds to 0 and the density comes out as 1.8e308 instead of 1/2 (C94_huge). C94_truncnorm_partial: the error is at most 1850 delta times an amplification that grows with the inverse probability of the window; C94_usual_partial: below 1e-6 for a mean inside a window of 1 to 100 widths. C94_betaDist and C94_vonMises hold in full."
  },
  {
   "property": "C95",
   "status": "partial",
   "theorems": [
    "GW.C95_betaDist_partial",
    "GW.C95_vonMises_partial",
    "GW.C95_gaussian2d_partial",
    "GW.C95_powerlaw_partial",
    "GW.C95_powerlaw_raises_partial",
    "GW.C95_truncnorm_partial",
    "GW.C95_truncnorm_raises_partial",
    "GW.C95_fails"
   ],
   "note": "C95_fails: false of the code. On numpy, powerlaw and truncnorm update an array in place, which raises ValueError if the bounds have axes that the data lack. C95_powerlaw_raises_partial and C95_truncnorm_raises_partial say exactly when. In all other cases, and always on jax, the property holds (C95_powerlaw_partial, C95_truncnorm_partial); it holds for all shapes for beta_dist, von_mises and unnormalized_2d_gaussian."
  },
  {
   "property": "C96",
   "status": "partial",
   "theorems": [
    "GW.C96_truncnorm_partial",
    "GW.C96_betaDist_partial",
    "GW.C96_powerlaw_partial",
    "GW.C96_powerlaw_raises_partial",
    "GW.C96_fails"
   ],
   "note": "C96_fails: false of the code. powerlaw(np.array([10, 11, 12]), alpha=-2, high=50.0, low=5.0) raises ValueError on numpy; for a non-negative integer exponent the in-place update raises TypeError (C96_powerlaw_raises_partial). The property holds for truncnorm and beta_dist, and for powerlaw if the exponent is a float or everything else is."
  },
  {
   "property": "C97",
   "status": "partial",
   "theorems": [
    "GW.C97_powerLawMass_partial",
    "GW.C97_twoComponentSingle_partial",
    "GW.C97_twoComponentPrimaryMassRatio_partial",
    "GW.C97_powerLawPrimaryMassRatio_partial",
    "GW.C97_threeComponentSingle_partial",
    "GW.C97_powerLawPrimarySecondary_partial",
    "GW.C97_twoComponentPrimarySecondary_partial",
    "GW.C97_doublePowerLaw_partial",
    "GW.C97_doublePowerLawPeak_partial",
    "GW.C97_doublePowerLawMassRatio_partial",
    "GW.C97_spinOrientation_partial",
    "GW.C97_spinMagnitude_partial",
    "GW.C97_iidSpin_partial",
    "GW.C97_gaussianChiEff_partial",
    "GW.C97_gaussianChiP_partial",
    "GW.C97_twoComponentPrimaryMassRatio_broadcast_partial",
    "GW.C97_twoComponentPrimaryMassRatio_raises_partial",
    "GW.C97_doublePowerLawMassRatio_broadcast_partial",
    "GW.C97_powerLawPrimarySecondary_broadcast_partial",
    "GW.C97_iidSpinMagnitude_broadcast_partial",
    "GW.C97_fails"
   ],
   "note": "C97_fails: false of the code. On numpy, the models of primary mass and mass ratio raise ValueError for a row of masses and a column of mass ratios (exactly when: C97_twoComponentPrimaryMassRatio_raises_partial). For arrays of one common shape the property holds for all models (C97_powerLawMass_partial to C97_gaussianChiP_partial); with different shapes it holds for mass ratios on jax, and on every backend for pairs of masses and spin magnitudes (..._broadcast_partial)."
  },
  {
   "property": "C98",
   "status": "partial",
   "theorems": [
    "GW.C98_ordinary_partial",
    "GW.C98_after_ordinary_partial",
    "GW.C98_first_compiled_partial",
    "GW.C98_nodes_changed_partial",
    "GW.C98_fails"
   ],
   "note": "C98_fails: false of the code. The first call compiled raises TypeError (C98_first_compiled_partial), because the interpolation nodes are then traced values that are converted to numpy arrays; a compiled call with another number of nodes raises and leaves the instance unusable, also for ordinary calls (C98_nodes_changed_partial). After one ordinary call that returned a value, all mixtures of compiled and ordinary calls with that number of nodes agree with the ordinary ones (C98_after_ordinary_partial)."
  },
  {
   "property": "C99",
   "status": "partial",
   "theorems": [
    "GW.C99_mixed_partial",
    "GW.C99_compiled_partial",
    "GW.C99_snapshot_partial",
    "GW.C99_fails"
   ],
   "note": "C99_fails: false of the code. After an ordinary call on one dataset, a function compiled for another dataset of the same length contains the interpolant of the first one for ever (C99_snapshot_partial). If all calls are compiled they are right on all datasets (C99_compiled_partial); mixtures are right if the instance does not cache or the datasets of ordinary calls are harmless for later calls (C99_mixed_partial)."
  },
  {
   "property": "C100",
   "status": "partial",
   "theorems": [
    "GW.C100_names",
    "GW.C100_frozen_partial",
    "GW.C100_unchanged_partial",
    "GW.C100_ordinary_partial",
    "GW.C100_ordinary_first_partial",
    "GW.C100_jitted_first_partial",
    "GW.C100_fails",
    "GW.C100_setting_fails",
    "GW.C100_attribute",
    "GW.C100_function_partial",
    "GW.C100_product"
   ],
   "note": "C100_fails, C100_setting_fails: false of the code. A population model that caches (always the case if a function is given as hyper_prior) cannot be used in both ways: after an ordinary evaluation every compiled one raises TypeError (C100_ordinary_first_partial) and vice versa (C100_jitted_first_partial). Without the cache, compiled evaluations use for ever the settings at the time of the first one with the same names of parameters (C100_frozen_partial), so all evaluations are right if the settings are not changed after it (C100_unchanged_partial). Ordinary evaluations alone are always right (C100_ordinary_partial). C100_attribute: what the attribute reports after any sequence of actions; C100_names: when a compiled computation is used again; C100_product: the reference population probability is the product of the functions."
  },
  {
   "property": "C101",
   "status": "proved",
   "theorems": [
    "GW.C101_powerLawMass",
    "GW.C101_doublePowerLaw",
    "GW.C101_twoComponent",
    "GW.C101_doublePowerLawPeak",
    "GW.C101_threeComponent",
    "GW.C101_doublePowerLawMassRatio",
    "GW.C101_twoComponentMassRatio",
    "GW.C101_powerLawMassRatio",
    "GW.C101_powerLawPrimarySecondary",
    "GW.C101_twoComponentPrimarySecondary",
    "GW.C101_identical",
    "GW.C101_smoothed"
   ],
   "note": "For all primary mass functions (C101_powerLawMass, C101_doublePowerLaw, C101_twoComponent, C101_doublePowerLawPeak, C101_threeComponent), joint ones (C101_*MassRatio, C101_*PrimarySecondary, C101_identical) and the four smoothed classes after any history of calls (C101_smoothed). With peaks the statement is for mmin < gaussian_mass_maximum; gaussian_mass_maximum is a mass and must be passed in the new unit (the functions' default of 100 is in solar masses)."
  },
  {
   "property": "C102",
   "status": "proved",
   "theorems": [
    "GW.C102_independent_magnitude",
    "GW.C102_iid_magnitude",
    "GW.C102_independent_orientation",
    "GW.C102_iid_orientation",
    "GW.C102_iid",
    "GW.C102_spline"
   ],
   "note": "C102_independent_magnitude, C102_iid_magnitude, C102_independent_orientation, C102_iid_orientation, C102_iid for all floats; C102_spline for the two spline classes (real data with equally many values in both columns, norm not zero)."
  },
  {
   "property": "C103",
   "status": "partial",
   "theorems": [
    "GW.C103_fails",
    "GW.C103_chi_eff_partial",
    "GW.C103_orientation_partial",
    "GW.C103_uncorrelated_partial",
    "GW.C103_correlated_partial"
   ],
   "note": "C103_fails: false of the correlated model, another consequence of 1 - covariance in place of 1 - covariance**2: for correlations rho and -rho one gets the normalised powers 1 + rho and 1 - rho of one Gaussian (C103_correlated_partial). It holds for gaussian_chi_eff (C103_chi_eff_partial), the orientation models (C103_orientation_partial) and without correlation (C103_uncorrelated_partial)."
  },
  {
   "property": "C104",
   "status": "partial",
   "theorems": [
    "GW.SharedSmoothed.C104_fresh",
    "GW.SharedSmoothed.C104_shared_partial",
    "GW.SharedSmoothed.C104_stale_partial",
    "GW.SharedSmoothed.C104_jax_partial",
    "GW.SharedSmoothed.C104_wrong",
    "GW.SharedSmoothed.C104_fails"
   ],
   "note": "C104_fails: false with the default cache=True if there are as many injections as samples per event: C104_stale_partial gives what is returned (each sample is divided by the norm of the injection with the same number), C104_wrong that this differs for every number of events and samples, C104_jax_partial that on jax the injections then get the shape of the posterior samples. Proved for all other sizes and without caching (C104_shared_partial), and that a new instance evaluates arrays of any shape sample by sample (C104_fresh)."
  },
  {
   "property": "C105",
   "status": "proved",
   "theorems": [
    "GW.Analysis.C105_history",
    "GW.Analysis.C105_limit",
    "GW.Analysis.C105_standard",
    "GW.Analysis.C105_value"
   ],
   "note": "C105_history: the outcome does not depend on the history if the two population models share no caching instance (or the shapes keep them apart). C105_value: the documented estimate for whatever numbers the functions return. C105_limit: the limit for any smoothed mass model with pointwise functions. C105_standard: power law and peak, Beta magnitudes, tilt mixture, power-law redshift; the redshift density is normalised up to the stated grid error. Exact real arithmetic; fixed cosmology; uncertainty not marginalised."
  },
  {
   "property": "C106",
   "status": "partial",
   "theorems": [
    "GW.SharedSpline.C106_arrays",
    "GW.SharedSpline.C106_value",
    "GW.SharedSpline.C106_one_dataset_partial",
    "GW.SharedSpline.C106_exclusive_partial",
    "GW.SharedSpline.C106_ignores_partial",
    "GW.SharedSpline.C106_shape_partial",
    "GW.SharedSpline.C106_fails"
   ],
   "note": "C106_fails: false on every backend. C106_exclusive_partial: on numpy and cupy an instance that has returned a value for the events raises for every dataset of another shape, for ever. C106_shape_partial: on jax the injections get the shape of the posterior samples if the shapes fit. C106_ignores_partial: with equal shapes the samples of later datasets are not looked at, except for the cut at the outer nodes. Proved: one instance per dataset (C106_one_dataset_partial), arrays of any shape sample by sample (C106_arrays) with the documented density (C106_value)."
  },
  {
   "property": "C107",
   "status": "proved",
   "theorems": [
    "GW.C107_marginal",
    "GW.C107_hierarchical",
    "GW.C107_resample"
   ],
   "note": "C107_resample: any list of hyper-samples; convergence almost surely for the weights and in mean square over the random choice for the draws, which are modelled as independent choices with the returned weights. C107_marginal: the Bayesian identity behind it, with the exact likelihood of C82. C107_hierarchical: hyper-samples drawn from the hyper-posterior, first the posterior samples and then the hyper-samples tend to infinity."
  },
  {
   "property": "C108",
   "status": "partial",
   "theorems": [
    "GW.CosmoArrays.C108_arrays",
    "GW.CosmoArrays.C108_history_partial",
    "GW.CosmoArrays.C108_same_masses_partial",
    "GW.CosmoArrays.C108_fixed_partial",
    "GW.CosmoArrays.C108_stale_partial",
    "GW.CosmoArrays.C108_wrong",
    "GW.CosmoArrays.C108_fails",
    "GW.CosmoArrays.C108_value",
    "GW.CosmoArrays.C108_exact",
    "GW.CosmoArrays.C108_likelihood"
   ],
   "note": "The conversion (C108_arrays), the values (C108_value), the exact likelihood (C108_exact) and the limit of the computed one (C108_likelihood) hold. Independence of the history is false with the default cache=True of the smoothed mass models (C108_wrong for every backend and number of samples, C108_fails): CosmoModel switches off the cache of bilby because the source-frame quantities change every iteration, but the mass model keeps the mass-ratio norms at the source-frame masses of the first evaluation (C108_stale_partial says what is computed). It is proved for cache=False (C108_history_partial), for histories with the same source-frame masses (C108_same_masses_partial) and for a fixed cosmology (C108_fixed_partial)."
  },
  {
   "property": "C109",
   "status": "partial",
   "theorems": [
    "GW.C109_singlePeak_partial",
    "GW.C109_multiPeak_partial",
    "GW.C109_brokenPowerLaw_partial",
    "GW.C109_brokenPowerLawPeak_partial",
    "GW.C109_fails"
   ],
   "note": "False when the requested mass range contains no grid mass: the norm of the primary density is 0 and the density infinite (C109_fails, for the broken power law). Proved for the four classes if a grid mass lies between mmin and mmax, which is not needed for the models with a peak of positive weight because the peak extends to the last grid mass (C109_singlePeak_partial, C109_multiPeak_partial, C109_brokenPowerLaw_partial, C109_brokenPowerLawPeak_partial). delta_m = 0 is C22."
  },
  {
   "property": "C110",
   "status": "partial",
   "theorems": [
    "GW.Priors.C110_sample",
    "GW.Priors.C110_density_partial",
    "GW.Priors.C110_likelihood_partial",
    "GW.Priors.C110_mass_partial",
    "GW.Priors.C110_orientation_partial",
    "GW.Priors.C110_magnitude_partial",
    "GW.Priors.C110_spin_names",
    "GW.Priors.C110_mu_missing",
    "GW.Priors.C110_fails"
   ],
   "note": "False: spin.prior and mass_rates.prior name the parameters of the spin magnitudes alpha_1, beta_1, ..., which the model calls alpha_chi_1, beta_chi_1, ... (KeyError at every draw, C110_spin_names, C110_fails), and spin_talbot_thrane.prior lacks mu_1 and mu_2, which a population model requires (C110_mu_missing). Proved: bbh_population.prior with the whole population and its likelihood, apart from the singular points alpha = -1 (not on jax), amax_1 = 0, amax_2 = 0 and delta_m = 0 (C110_density_partial, C110_likelihood_partial); the mass model for both files with masses, the magnitude model for bbh_population.prior, the orientation model for the files with its parameters, and for spin_talbot_thrane.prior when called directly."
  },
  {
   "property": "C111",
   "status": "partial",
   "theorems": [
    "GW.Nested.C111_noPeak",
    "GW.Nested.C111_onlyPeak",
    "GW.Nested.C111_firstPeak",
    "GW.Nested.C111_secondPeak",
    "GW.Nested.C111_equalPeaks",
    "GW.Nested.C111_brokenNoPeak",
    "GW.Nested.C111_equalSlopes_partial",
    "GW.Nested.C111_breakAtEdge_partial",
    "GW.C111_fails",
    "GW.Nested.C111_joint_noPeak",
    "GW.Nested.C111_joint_equalSlopes_partial",
    "GW.Nested.C111_pair_noPeak",
    "GW.Nested.C111_pair_identical",
    "GW.Nested.C111_isotropic",
    "GW.Nested.C111_aligned",
    "GW.Nested.C111_uniformMagnitudes_partial",
    "GW.Nested.C111_uniformSpins_partial",
    "GW.Nested.C111_redshift",
    "GW.Nested.C111_multiPeak",
    "GW.Nested.C111_brokenPeak",
    "GW.Nested.C111_singlePeak"
   ],
   "note": "False at the edges: with break_fraction 0 or 1 the broken power law is NaN at every mass (C111_breakAtEdge_partial, C111_fails), and at the end points of the magnitudes alpha = beta = 1 gives 0 instead of the uniform density (C07). Proved: the reductions for peaks without weight (exceptions included), equal slopes with 0 < break_fraction < 1, the joint models, the smoothed classes with any grids, caches and histories, isotropic orientations, uniform magnitudes inside the limits, and the redshift models."
  },
  {
   "property": "C112",
   "status": "proved",
   "theorems": [
    "GW.PeakLabels.C112_single",
    "GW.PeakLabels.C112_smoothed"
   ],
   "note": "The single-mass density with exceptions included (C112_single), and the smoothed class on any grid, with or without cache, after any history of calls in which the labels are exchanged (C112_smoothed)."
  },
  {
   "property": "C113",
   "status": "proved",
   "theorems": [
    "GW.SplineOffset.C113_offset",
    "GW.SplineOffset.C113_scale",
    "GW.SplineOffset.C113_interpolated_offset",
    "GW.SplineOffset.C113_interpolated_scale"
   ],
   "note": "The scale of a regularised model is irrelevant as long as calls give as many nodes as the model was built with: with more nodes the regularisation is lost (C34). The rule of the interpolation library is a parameter; the hypothesis MovesWithNodes follows for linear rules with weights summing to one (weighted_moves)."
  },
  {
   "property": "C114",
   "status": "proved",
   "theorems": [
    "GW.Catalogue.C114_hyper",
    "GW.Catalogue.C114_rate",
    "GW.Catalogue.C114_constructed",
    "GW.Catalogue.C114_copies"
   ],
   "note": "For the objects after loading the data (C114_hyper, C114_rate) and from the constructor with max_samples not larger than any posterior (C114_constructed); copies of samples in C114_copies. The rate variance is the one the code computes (see C69)."
  },
  {
   "property": "C115",
   "status": "proved",
   "theorems": [
    "GW.Frames.C115_weights",
    "GW.Frames.C115_likelihood",
    "GW.Frames.C115_selection"
   ],
   "note": "The data must contain a luminosity distance (see C57 for a redshift among the columns of the detector frame) and finite redshifts greater than -1; the instances have no stale caches (see C108)."
  },
  {
   "property": "C116",
   "status": "proved",
   "theorems": [
    "GW.PooledInjections.C116_pooled",
    "GW.PooledInjections.C116_copies",
    "GW.PooledInjections.C116_mixture"
   ],
   "note": "The variance for a mixture is conservative and not exact (C116_mixture): the code does not know which injection came from which density."
  },
  {
   "property": "C117",
   "status": "proved",
   "theorems": [
    "GW.C117_grid",
    "GW.C117_probability",
    "GW.C117_powerLaw",
    "GW.C117_madauDickinson"
   ],
   "note": "The exact model is evaluated on the same grid of doubles. The library's pow is assumed correct to one unit in the last place and its cosmology to d roundings."
  },
  {
   "property": "C118",
   "status": "partial",
   "theorems": [
    "GW.C118_error_partial",
    "GW.C118_zero",
    "GW.C118_fails",
    "GW.C118_usual_partial",
    "GW.C118_moments_partial"
   ],
   "note": "C118_fails: mu = 1/2 - 2^-28, var = 1/4 - 2^-55, max = 1 are valid moments but the code returns alpha = 0. Proved: the error bound and positivity where the amplification is below 2^46 (C118_error_partial), 12 digits in the usual region (C118_usual_partial), and the inverse unconditionally (C118_moments_partial)."
  },
  {
   "property": "C119",
   "status": "proved",
   "theorems": [
    "GW.C119_density",
    "GW.C119_range",
    "GW.C119_window",
    "GW.C119_monotone"
   ],
   "note": "C119_window, C119_monotone, C119_range for the window and C119_density for p_m1; C21_documented gives the distance exp(-999998) from the documented window in exact arithmetic."
  },
  {
   "property": "C120",
   "status": "proved",
   "theorems": [
    "GW.C120_product",
    "GW.C120_lnBayesFactor",
    "GW.C120_variance",
    "GW.C120_lnLikelihood",
    "GW.C120_analysis",
    "GW.C120_samples",
    "GW.C120_injections"
   ],
   "note": "C120_product, C120_lnBayesFactor, C120_variance, C120_lnLikelihood and, for the computed log likelihood against the documented densities, C120_analysis. Densities are 0 or within 2^-E and 2^E with k E at most 900, weights 0 or within 2^-399 and 2^399."
  },
  {
   "property": "C121",
   "status": "proved",
   "theorems": [
    "GW.C121_grid",
    "GW.C121_limit"
   ],
   "note": "C121_grid and C121_limit, against the Lebesgue integral over a box in R^n. For axes with equal numbers of points no number is returned (C38_fails)."
  },
  {
   "property": "C122",
   "status": "partial",
   "theorems": [
    "GW.SharedSmoothed.C122_undisturbed",
    "GW.SharedSmoothed.C122_terminates",
    "GW.SharedSmoothed.C122_same_partial",
    "GW.SharedSmoothed.C122_silent_partial",
    "GW.SharedSmoothed.C122_raises_partial",
    "GW.SharedSmoothed.C122_fails",
    "GW.SharedSmoothed.C122_outcomes_partial"
   ],
   "note": "False of the code: the interpolant is a shared attribute, so another thread may replace it between its set-up and its use, also with cache=False (C122_fails; C122_silent_partial: the density is silently divided by the norms for the other thread's masses; C122_raises_partial: posterior samples and injections raise). Proved: termination for every schedule (C122_terminates), the right outcomes for every schedule of threads whose datasets have the same masses (C122_same_partial), and that nothing else than these errors can happen (C122_outcomes_partial). C122_undisturbed ties the steps to the sequential model."
  },
  {
   "property": "C123",
   "status": "proved",
   "theorems": [
    "GW.SharedSmoothed.C123_atomic",
    "GW.SharedSmoothed.C123_history",
    "GW.SharedSmoothed.C123_later"
   ],
   "note": "C123_atomic, C123_history, C123_later."
  },
  {
   "property": "C124",
   "status": "partial",
   "theorems": [
    "GW.SplineThreads.C124_undisturbed",
    "GW.SplineThreads.C124_warm_partial",
    "GW.SplineThreads.C124_raises_partial",
    "GW.SplineThreads.C124_fails",
    "GW.SplineThreads.C124_interrupted_partial",
    "GW.SplineThreads.C124_points_partial"
   ],
   "note": "False of the code for the first evaluation: setup_interpolant assigns _norm_spline, which marks the set-up as done, before _data_spline. A thread that runs in between raises KeyError (C124_raises_partial, C124_fails), and an evaluation interrupted in between leaves an instance that never returns a value again (C124_interrupted_partial). Proved: once the interpolants exist, every schedule gives every thread its outcome and leaves the instance unchanged (C124_warm_partial); all other points of interruption leave the instance as before or as after a complete evaluation (C124_points_partial)."
  },
  {
   "property": "C125",
   "status": "partial",
   "theorems": [
    "GW.BackendThreads.C125_undisturbed",
    "GW.BackendThreads.C125_values_partial",
    "GW.BackendThreads.C125_same_partial",
    "GW.BackendThreads.C125_early_partial",
    "GW.BackendThreads.C125_mixed_partial",
    "GW.BackendThreads.C125_interrupted_partial",
    "GW.BackendThreads.C125_fails",
    "GW.BackendThreads.C125_recovery_partial",
    "GW.BackendThreads.C125_terminates"
   ],
   "note": "False of the code in all three parts (C125_fails), because __backend__ is assigned before the modules are updated and is what later calls look at. C125_early_partial: a second call for the same backend returns while all modules still use the old one. C125_mixed_partial: after two calls for different backends have returned, one backend is recorded and all modules use the other, and repeating the call changes nothing. C125_interrupted_partial: after an interruption the call cannot be repeated. Proved: if all threads ask for one backend it is installed once no call is under way (C125_same_partial), only values that were asked for are installed (C125_values_partial), calls end (C125_terminates), and calls for two different backends one after the other repair every state (C125_recovery_partial). C125_undisturbed ties the steps to set_backend."
  },
  {
   "property": "C126",
   "status": "proved",
   "theorems": [
    "GW.InterpPowerlaw.C126_value",
    "GW.InterpPowerlaw.C126_limit",
    "GW.InterpPowerlaw.C126_normalised",
    "GW.InterpPowerlaw.C126_outside"
   ],
   "note": "C126_value gives the values on any grids, C126_limit the limit, C126_normalised its normalisation if the outer nodes cover the masses, C126_outside that it vanishes outside the outer nodes. The interpolation rule is a parameter (see the trusted base); delta_m > 0; as in C85 the lower mass limit must be at least 0.001 times the maximum of the instance."
  },
  {
   "property": "C127",
   "status": "partial",
   "theorems": [
    "GW.C127_refines",
    "GW.C127_every_point",
    "GW.C127_last",
    "GW.C127_rerun",
    "GW.C127_likelihood",
    "GW.C127_unchanged_partial",
    "GW.C127_limit_accepted",
    "GW.C127_sample_fails",
    "GW.C127_limit_fails",
    "GW.C127_fails"
   ],
   "note": "False of the code: if the selection function raises (or its Python-number estimate is 0), the per-event statistics stay in the sample (C127_sample_fails), and a rejected maximum_uncertainty is stored before the exception, so that later evaluations raise (C127_limit_fails). C127_refines ties the sequence of assignments to the model of the method; proved are the state at every crash point (C127_every_point), that the total variance comes last (C127_last), that running again gives the result of one call (C127_rerun), that the likelihood is unchanged at what a call left (C127_likelihood), and that errors before the selection function change nothing (C127_unchanged_partial)."
  },
  {
   "property": "C128",
   "status": "proved",
   "theorems": [
    "GW.C128_normal",
    "GW.C128_coverage"
   ],
   "note": "C128_coverage is the statement about calls; C128_normal gives the convergence in distribution of the standardised error and that the returned numbers are eventually finite with positive variance, almost surely. For HyperparameterLikelihood without marginalisation over the uncertainty of the selection function (with it the variance of the selection function is not reported)."
  },
  {
   "property": "C129",
   "status": "partial",
   "theorems": [
    "GW.C129_mean",
    "GW.C129_excluded",
    "GW.C129_nan",
    "GW.C129_selection",
    "GW.C129_undetected_partial",
    "GW.C129_highest_partial",
    "GW.C129_infinite_partial",
    "GW.C129_fails"
   ],
   "note": "False of the code (C129_fails): without the convergence check a population of which nothing is detected gets the highest float, whatever maximum_uncertainty is (C129_highest_partial), and so does an infinite density (C129_infinite_partial). Proved: excluded events (C129_excluded), NaN densities (C129_nan), generally mean weights that are not positive (C129_mean), for the likelihoods with and without rate; NaN, negative and infinite selection functions (C129_selection); with the convergence check, or marginalising over the uncertainty on jax, also for populations without detections (C129_undetected_partial; on the other backends marginalising raises ZeroDivisionError)."
  },
  {
   "property": "C130",
   "status": "proved",
   "theorems": [
    "GW.C130_unbiased"
   ],
   "note": "C130_unbiased, for objects constructed by __init__ with any max_samples and each of the equally likely draws without replacement. Densities are exact reals."
  },
  {
   "property": "C131",
   "status": "partial",
   "theorems": [
    "GW.C131_slope_partial",
    "GW.C131_peak_partial",
    "GW.C131_monotone_partial",
    "GW.C131_fails_parts",
    "GW.C131_fails"
   ],
   "note": "False of the code in all three parts (C131_fails, C131_fails_parts), e.g. for the values of Madau and Dickinson. Proved: the slope lies strictly between gamma - kappa and gamma at every redshift, falls with redshift, is gamma - kappa/2 at z_peak and tends to gamma - kappa (C131_slope_partial); for 0 < gamma < kappa the rate has a single peak at 1 + z = (1 + z_peak) (gamma/(kappa - gamma))^(1/kappa), which is z_peak exactly for kappa = 2 gamma (C131_peak_partial); for kappa <= gamma or gamma <= 0 there is no peak (C131_monotone_partial)."
  },
  {
   "property": "C132",
   "status": "partial",
   "theorems": [
    "GW.C132_truncnorm_partial",
    "GW.C132_chiEff_partial",
    "GW.C132_chiP_partial",
    "GW.C132_fails_parts",
    "GW.C132_fails"
   ],
   "note": "False of the code (C132_fails): the Gaussians are truncated. C132_fails_parts: the mean is mu only at the centre of the window, the standard deviation is never sigma. Proved: the mean is mu + sigma^2 (p(low) - p(high)), the variance sigma^2 (1 - (m - low) p(low) - (high - m) p(high)), strictly below sigma^2 and below (m - low)(high - m); the mean is pulled towards the centre, by less than sigma for mu in the window; mu is the mode (C132_truncnorm_partial for any window, C132_chiEff_partial, C132_chiP_partial)."
  },
  {
   "property": "C133",
   "status": "partial",
   "theorems": [
    "GW.C133_singlePeak_partial",
    "GW.C133_brokenPowerLawPeak_partial",
    "GW.C133_multiPeak_partial",
    "GW.C133_unsmoothed_partial",
    "GW.C133_limit_partial",
    "GW.C133_fails_parts",
    "GW.C133_fails"
   ],
   "note": "False of the smoothed models (C133_fails; C133_fails_parts: on all fine grids): the window is applied before the mixture is normalised. Proved: the true fraction is lam N1 / ((1 - lam) N0 + lam N1) with N0, N1 the parts of the components left by the window, equal to lam only if lam is 0 or 1 or N0 = N1 (given mmax < self.mmax) and larger than lam iff N0 < N1 (C133_singlePeak_partial, C133_brokenPowerLawPeak_partial); three components (C133_multiPeak_partial: lam_1 is a fraction of those in either Gaussian); the limit of fine grids (C133_limit_partial); exact for the plain functions (C133_unsmoothed_partial)."
  },
  {
   "property": "C134",
   "status": "proved",
   "theorems": [
    "GW.C134_direction",
    "GW.C134_concentration",
    "GW.C134_mean"
   ],
   "note": "C134_direction, C134_concentration (strict, across different means and periods; zero for kappa = 0), C134_mean. Negative kappa: see C09_vonMises_negative_kappa."
  },
  {
   "property": "C135",
   "status": "proved",
   "theorems": [
    "GW.C135_monotone",
    "GW.C135_changes",
    "GW.C135_below_uncut"
   ],
   "note": "C135_monotone, C135_changes, C135_below_uncut; rounding of the subtraction of the largest double included."
  },
  {
   "property": "C136",
   "status": "partial",
   "theorems": [
    "GW.C136_likelihood_partial",
    "GW.C136_logLikelihood_partial",
    "GW.C136_fails"
   ],
   "note": "False (C136_fails: 4/3 instead of 1 with one injection). Proved: the mean of the likelihood is at least that with the true fraction, and so is the mean of the log likelihood, with equality iff the estimated fraction is the true one almost surely (C136_likelihood_partial, C136_logLikelihood_partial), although the fraction itself is estimated without bias (C81). Mode without marginalisation and convergence check, some found injection of positive density."
  },
  {
   "property": "C137",
   "status": "partial",
   "theorems": [
    "GW.C137_larger_partial",
    "GW.C137_fails"
   ],
   "note": "False (C137_fails). Proved instead (C137_larger_partial): in every converged draw of positive variance the log likelihood grows by N (3 + n) / (2 n_eff), so the mean of the likelihood, which is already at least the one with the true fraction (C136), becomes strictly larger: the correction always increases the bias. The documentation leaves open whether the factor is correct."
  },
  {
   "property": "C138",
   "status": "proved",
   "theorems": [
    "GW.C138_unbiased"
   ],
   "note": "C138_unbiased, with the equality case of the second inequality and integrability of both means proved, not assumed. Mode without marginalisation and convergence check, some found injection of positive density."
  },
  {
   "property": "C139",
   "status": "proved",
   "theorems": [
    "GW.C139_unbiased",
    "GW.C139_rate",
    "GW.C139_joint"
   ],
   "note": "C139_unbiased and C139_rate, with the equality case for the log likelihood; C139_joint with random injections (if the inverse power of the estimated fraction has a mean). Every draw has some sample with positive population density for every event; different events are sampled independently."
  },
  {
   "property": "C140",
   "status": "proved",
   "theorems": [
    "GW.C140_selection",
    "GW.C140_likelihood"
   ],
   "note": "C140_selection and C140_likelihood, including construction and errors. The only differences of the backends in this code are the conversion to Python numbers, division by zero between them, and the check of the probabilities by numpy.random.choice; rounding is not modelled."
  },
  {
   "property": "C141",
   "status": "partial",
   "theorems": [
    "GW.C141_uncached_partial",
    "GW.C141_ordinary_partial",
    "GW.C141_cached_partial",
    "GW.C141_inplace_fails",
    "GW.C141_fails"
   ],
   "note": "C141_fails: false of the code. With the cache of the population model (the default of bilby, and always if a function is given as hyper_prior) generate_extra_statistics raises TypeError, compiled or not, once the compiled likelihood has been evaluated (C141_cached_partial). The compiled method leaves the dictionary it is given unchanged (C141_inplace_fails). Proved: all returned values are right without the cache, as in the example, in any order (C141_uncached_partial), and without compilation everything is as documented (C141_ordinary_partial)."
  },
  {
   "property": "C142",
   "status": "proved",
   "theorems": [
    "GW.C142_average",
    "GW.C142_exact",
    "GW.C142_limit",
    "GW.C142_true_population"
   ],
   "note": "C142_average: Gibbs' inequality for the data of detected events, any number of events. C142_exact: law of large numbers over events. C142_limit: the package converges to the exact likelihood when detection depends on noisy data (extends C82, where it depends on the parameters). C142_true_population: the combination. The order of limits is: first the catalogue, then samples and injections. Exact arithmetic."
  },
  {
   "property": "C143",
   "status": "proved",
   "theorems": [
    "GW.C143_best_rate"
   ],
   "note": "C143_best_rate: inequality and the unique rate of equality. Exact arithmetic."
  },
  {
   "property": "C144",
   "status": "proved",
   "theorems": [
    "GW.C144_average",
    "GW.C144_limit",
    "GW.C144_exact",
    "GW.C144_true_rate"
   ],
   "note": "C144_average: Wald's identity and Gibbs' inequality; the law of the number of events need not be Poisson. C144_exact: law of large numbers over events and the growth of their number. C144_limit: RateLikelihood converges to the exact value. C144_true_rate: the combination. The order of limits is: first the catalogue, then samples and injections. Exact arithmetic."
  },
  {
   "property": "C145",
   "status": "proved",
   "theorems": [
    "GW.C145_error",
    "GW.C145_limit"
   ],
   "note": "C145_error: bound for one grid. C145_limit: limit of finer grids and more samples, with probability one. Exact arithmetic; for axes of equal lengths GridVT returns no number (C38_fails)."
  },
  {
   "property": "C146",
   "status": "partial",
   "theorems": [
    "GW.C146_rule_partial",
    "GW.C146_smoothed_partial",
    "GW.C146_spline_partial",
    "GW.C146_interpolated_partial",
    "GW.C146_likelihood_partial",
    "GW.C146_selection_partial",
    "GW.C146_workers_partial",
    "GW.C146_fails"
   ],
   "note": "False of the code (C146_fails): after a call that returned values a smoothed model, a spline model and InterpolatedPowerlaw hold an interpolant which refers to the array module, so that neither pickle nor deepcopy works; a likelihood with the default selection_function or conversion_function holds a lambda and cannot be pickled; a spawned worker uses numpy whatever set_backend selected. Proved: the exact conditions (C146_rule_partial, C146_smoothed_partial, C146_spline_partial, C146_interpolated_partial, C146_likelihood_partial, C146_selection_partial), and that forked workers agree with the main process and spawned workers with numpy (C146_workers_partial). That cached_interpolate keeps the module is a parameter of the model."
  },
  {
   "property": "C147",
   "status": "proved",
   "theorems": [
    "GW.C147_exact",
    "GW.C147_posterior"
   ],
   "note": "C147_exact: for the exact likelihood. C147_posterior: for the log-likelihoods of the package in the limit of many samples and injections. The populations must be comparable (finite relative entropy) and differ in their detected data. Exact arithmetic."
  },
  {
   "property": "C148",
   "status": "proved",
   "theorems": [
    "GW.C148_likelihood",
    "GW.C148_statistics",
    "GW.C148_predictive",
    "GW.Analysis.C148_analysis",
    "GW.Analysis.C148_history",
    "GW.C148_conversion",
    "GW.C148_volume",
    "GW.C148_standard"
   ],
   "note": "C148_likelihood, C148_statistics, C148_predictive: all methods. C148_analysis, C148_history: with the state of the models and mass distributions. C148_conversion: convert_to_beta_parameters keeps the agreement. C148_volume, C148_standard: a ResamplingVT with a redshift model. Names of the arguments of the methods (self, data, dataset, bounds, redshift) count as declared: the calls with ** raise if they are among the hyper-parameters."
  },
  {
   "property": "C149",
   "status": "proved",
   "theorems": [
    "GW.C149_exact",
    "GW.C149_posterior",
    "GW.C149_rate_known"
   ],
   "note": "C149_exact: for the exact Poisson likelihood. C149_posterior: for the log-likelihoods of the package in the limit of many samples and injections. C149_rate_known: candidates with different rates of one population can be told apart. Exact arithmetic."
  },
  {
   "property": "C150",
   "status": "proved",
   "theorems": [
    "GW.C150_variance",
    "GW.C150_accepted",
    "GW.C150_converged"
   ],
   "note": "C150_variance: the identity. C150_accepted: lower bounds on the effective numbers at accepted points. C150_converged: enforce_convergence has no effect below n/4. Exact arithmetic; the log-likelihood must be at most 2^969."
  },
  {
   "property": "C151",
   "status": "proved",
   "theorems": [
    "GW.C151_removed",
    "GW.C151_likelihood",
    "GW.C151_total_needed"
   ],
   "note": "C151_removed: the selection function. C151_likelihood: what depends on it in the likelihoods. C151_total_needed: the factor by which the efficiency changes without total_generated. Exact arithmetic."
  },
  {
   "property": "C152",
   "status": "proved",
   "theorems": [
    "GW.C152_value",
    "GW.C152_value_rate",
    "GW.C152_unimodal",
    "GW.C152_concave",
    "GW.C152_tilts",
    "GW.C152_masses"
   ],
   "note": "C152_value, C152_value_rate: the log-likelihood from the estimates under the components. C152_unimodal: quasi-concave. C152_concave: concave at fixed rate. C152_tilts, C152_masses: fractions of models of the package. Exact arithmetic; enforce_convergence and marginalisation off."
  },
  {
   "property": "C153",
   "status": "proved",
   "theorems": [
    "GW.C153_formats",
    "GW.C153_usable",
    "GW.C153_excluded"
   ],
   "note": "C153_formats: tables, dictionaries and lists. C153_usable: finite log-likelihoods suffice. C153_excluded: one hyper-sample that excludes an event spoils the call. Exact arithmetic."
  },
  {
   "property": "C154",
   "status": "proved",
   "theorems": [
    "GW.C154_zmax",
    "GW.C154_local_rate"
   ],
   "note": "C154_zmax: two maximum redshifts, all floats for the other densities. C154_local_rate: the rate that is drawn, in closed form. Exact arithmetic; for HyperparameterLikelihood and the null likelihood (in RateLikelihood the parameter rate absorbs the norm, C77_rate)."
  },
  {
   "property": "C155",
   "status": "proved",
   "theorems": [
    "GW.C155_powerlaw",
    "GW.C155_mass",
    "GW.C155_broken",
    "GW.C155_massRatio",
    "GW.C155_truncnorm",
    "GW.C155_beta",
    "GW.C155_redshift",
    "GW.C155_lamb",
    "GW.C155_madau"
   ],
   "note": "C155_powerlaw, C155_mass, C155_broken, C155_massRatio, C155_truncnorm, C155_beta: monotone ratio and tail probabilities. C155_redshift, C155_lamb, C155_madau: monotone ratio (and hence a single crossing). Exact arithmetic."
  },
  {
   "property": "C156",
   "status": "proved",
   "theorems": [
    "GW.C156_powerlaw",
    "GW.C156_mass",
    "GW.C156_massRatio",
    "GW.C156_broken",
    "GW.C156_broken_exception",
    "GW.C156_truncnorm",
    "GW.C156_beta",
    "GW.C156_lamb",
    "GW.C156_madau",
    "GW.C156_madau_exception"
   ],
   "note": "C156_powerlaw, C156_mass, C156_massRatio, C156_broken, C156_truncnorm, C156_beta, C156_lamb, C156_madau; the exceptions are C156_broken_exception and C156_madau_exception. Agreement is only assumed up to sets of measure zero. Exact arithmetic."
  },
  {
   "property": "C157",
   "status": "partial",
   "theorems": [
    "GW.C157_powerLaw_partial",
    "GW.C157_madauDickinson_partial",
    "GW.C157_integers_raise_partial",
    "GW.C157_peak_raises_partial",
    "GW.C157_column_mixes_partial",
    "GW.C157_column_raises_partial",
    "GW.C157_default",
    "GW.C157_fails"
   ],
   "note": "C157_fails: false of the code. On numpy, integer redshifts with a negative integer lamb raise ValueError (C157_integers_raise_partial), and so do numpy integers for z_peak and kappa (C157_peak_raises_partial). In all other cases the property holds on every backend: C157_powerLaw_partial, C157_madauDickinson_partial. Beyond the property: a column of n values of lamb raises ValueError for other numbers of redshifts (C157_column_raises_partial), and with n redshifts it returns numbers normalised with the wrong value of lamb (C157_column_mixes_partial). Cosmological parameters with axes are outside the model."
  },
  {
   "property": "C158",
   "status": "proved",
   "theorems": [
    "GW.C158_differ",
    "GW.C158_tilted",
    "GW.C158_mass",
    "GW.C158_mean",
    "GW.C158_redshift"
   ],
   "note": "C158_differ: two populations of which one is the other tilted give different detected data, however large the errors and whatever the selection. C158_mass, C158_mean, C158_redshift: the posterior of the package is concentrated on the true value, for any finite set of candidates; C158_tilted for any tilted populations. The errors must be ordered (larger data are relatively more probable for larger true values), as Gaussian errors are (gaussian_measurement). The other parameters are known."
  },
  {
   "property": "C159",
   "status": "proved",
   "theorems": [
    "GW.C159_same",
    "GW.C159_recovers",
    "GW.C159_mass",
    "GW.C159_broken",
    "GW.C159_truncnorm",
    "GW.C159_fraction"
   ],
   "note": "C159_same: two populations with bounded support whose detected data agree are proportional. C159_recovers: the posterior is concentrated on the truth for any finite set of candidates that are different populations. C159_mass, C159_broken, C159_truncnorm, C159_fraction for models of the package; for the broken power law the true indices differ, else the break has no effect (C156). In C159_fraction the other parameters are known."
  },
  {
   "property": "C160",
   "status": "proved",
   "theorems": [
    "GW.C160_recovers",
    "GW.C160_powerLaw",
    "GW.C160_madauDickinson"
   ],
   "note": "C160_recovers for any rates of the package that are different populations; C160_powerLaw (lamb and z_max) and C160_madauDickinson (gamma, kappa, z_peak and z_max). kappa must be positive, since the rate does not change if kappa changes sign and gamma is adapted (C156). The cosmology is fixed and known."
  },
  {
   "property": "C161",
   "status": "proved",
   "theorems": [
    "GW.C161_recovers",
    "GW.C161_product",
    "GW.C161_tilts",
    "GW.C161_magnitudes",
    "GW.C161_massRatio",
    "GW.C161_masses"
   ],
   "note": "C161_recovers for any measurement that tells populations apart, in any number of parameters; C161_product for two parameters that are independent in the population; C161_tilts (fraction, two widths, means one), C161_magnitudes (two shapes and a maximum for each spin), C161_massRatio (any primary mass model with the power law in mass ratio) and C161_masses (power law: slope, both ends, and slope in mass ratio). The fraction of aligned spins must lie strictly between 0 and 1: at 0 the widths do not change the population."
  },
  {
   "property": "C162",
   "status": "proved",
   "theorems": [
    "GW.C162_determined",
    "GW.C162_no_peak",
    "GW.C162_only_peak",
    "GW.C162_recovers",
    "GW.C162_joint"
   ],
   "note": "C162_determined (uniqueness), C162_recovers (primary masses), C162_joint (primary masses and mass ratios), C162_no_peak and C162_only_peak (why the fraction must lie strictly between 0 and 1). The models without smoothing at the lower end."
  },
  {
   "property": "C163",
   "status": "proved",
   "theorems": [
    "GW.C163_determined",
    "GW.C163_recovers"
   ],
   "note": "C163_determined (uniqueness), C163_recovers (recovery from noisy primary masses). The joint density with the mass ratio is C164."
  },
  {
   "property": "C164",
   "status": "proved",
   "theorems": [
    "GW.C164_determined",
    "GW.C164_recovers"
   ],
   "note": "C164_determined (uniqueness), C164_recovers (recovery from noisy primary masses and mass ratios). New instances, as in a fresh analysis; reuse of instances with a cache is C24 and related."
  },
  {
   "property": "C165",
   "status": "proved",
   "theorems": [
    "GW.C165_same_iff",
    "GW.C165_equal_peaks",
    "GW.C165_recovers"
   ],
   "note": "C165_same_iff (same population exactly up to the names of the peaks), C165_equal_peaks (the excluded case), C165_recovers (recovery of all ten parameters with ordered means)."
  },
  {
   "property": "C166",
   "status": "proved",
   "theorems": [
    "GW.C166_determined",
    "GW.C166_primary",
    "GW.C166_recovers"
   ],
   "note": "C166_determined (joint density), C166_primary (p_m1), C166_recovers (recovery with ordered means). New instances, as in a fresh analysis; reuse of instances with a cache is C24 and related."
  },
  {
   "property": "C167",
   "status": "proved",
   "theorems": [
    "GW.C167_transfer",
    "GW.C167_recovers",
    "GW.C167_broken",
    "GW.C167_broken_recovers"
   ],
   "note": "C167_transfer (any primary model), C167_recovers (any primary model, noisy data), C167_broken, C167_broken_recovers (broken power law). The primary model must be a density normalised between the lower limit and the top of the grid. New instances, as in a fresh analysis; reuse of instances with a cache is C24 and related."
  },
  {
   "property": "C168",
   "status": "proved",
   "theorems": [
    "GW.C168_determined",
    "GW.C168_recovers",
    "GW.C168_smoothed",
    "GW.C168_smoothed_recovers"
   ],
   "note": "C168_determined, C168_recovers (masses), C168_smoothed, C168_smoothed_recovers (smoothed model with mass ratios). For the smoothed model the lower limit must not be a mass of the grid and the smoothing must end below the upper limit. New instances, as in a fresh analysis; reuse of instances with a cache is C24 and related."
  },
  {
   "property": "C169",
   "status": "proved",
   "theorems": [
    "GW.C169_powerLaws",
    "GW.C169_powerLaw_identical",
    "GW.C169_peaks",
    "GW.C169_peaks_identical",
    "GW.C169_powerLaws_recovers",
    "GW.C169_peaks_recovers"
   ],
   "note": "C169_powerLaws, C169_powerLaw_identical, C169_peaks, C169_peaks_identical (uniqueness); C169_powerLaws_recovers, C169_peaks_recovers (recovery, for the versions with two indices; the identical versions are the case of equal indices)."
  },
  {
   "property": "C170",
   "status": "proved",
   "theorems": [
    "GW.C170_product",
    "GW.C170_masses_rate",
    "GW.C170_masses_redshift",
    "GW.C170_masses_madauDickinson"
   ],
   "note": "C170_product (any two groups), C170_masses_rate (any smoothed mass model and any rate), C170_masses_redshift (power law in redshift), C170_masses_madauDickinson."
  },
  {
   "property": "C171",
   "status": "proved",
   "theorems": [
    "GW.C171_determined",
    "GW.C171_recovers"
   ],
   "note": "C171_determined (uniqueness), C171_recovers (recovery). The exception of equal indices is C156_broken_exception."
  },
  {
   "property": "C172",
   "status": "proved",
   "theorems": [
    "GW.C172_full"
   ],
   "note": "C172_full."
  }
 ]
}