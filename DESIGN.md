# Formal model of gwpopulation in Lean 4 - design

The subject is the Python package in `/repo/gwpopulation` at the pinned commit.
The model is a shallow embedding: each Python function becomes a Lean definition
that follows the Python body statement by statement; exceptions are values
(`Except PyErr`), instance and module state is passed explicitly, dictionaries
are insertion-ordered association lists, and randomness and third-party
libraries are parameters of the definitions.

## 1. Numbers

`Verif/Num/Fl.lean` defines

    inductive Fl | fin (r : Real) | pinf | ninf | nan

with IEEE-754 *special value* semantics (`0/0 = nan`, `x/0 = ±inf`, `0*inf = nan`,
`inf-inf = nan`, comparisons with nan are false, `log 0 = -inf`, `log x = nan` for
`x<0`, `pow x 0 = 1`, `pow` of a negative base with non-integer exponent is nan, ...)
and **exact real arithmetic on finite values**.

Simplifications (recorded here and at the definitions):

* no rounding, hence no overflow/underflow: a theorem "the density integrates to one"
  is a statement about the formula the code evaluates, not about the last bits;
  (exception: `log_likelihood_ratio` subtracts the largest double, where rounding decides the
  result; there `Verif/Num/Round.lean` defines true round-to-nearest-even binary64 rounding
  with overflow, `fl64`, and the model rounds the estimate and the difference);
* no signed zeros: `0` behaves as `+0` (`x/0` has the sign of `x`);
* most models are of one sample at a time with floats, and broadcasting is `map`/`zipWith` over lists
  where shapes matter. C95-C97 and C157 justify this for the densities and the mass, spin and redshift models: `Verif/Num/NArr.lean`
  models arrays of any shape with dtypes, promotion, broadcasting and in-place updates as numpy and jax have them, and
  the functions are shown to act element by element (or to raise). In that model integers are unbounded (no overflow
  of `int64`), and `int ** int` on jax is left out.

`numpy.nan_to_num` uses the true largest double `(2 - 2^-52) * 2^1023`.

## 2. External components

| component | treatment |
|---|---|
| `scipy.special.ndtr`, `log_ndtr` | defined: the cdf of Mathlib's `gaussianReal 0 1` and its log |
| `scipy.special.betaln` | defined: log of Mathlib's Beta function |
| `scipy.special.i0e` | defined: `exp(-|k|)` times the integral representation of `I0` |
| `expit` | defined |
| `numpy.trapz/trapezoid`, `linspace`, `select`, `where`, `clip`, `unique` | defined |
| `cached_interpolate` | parameter with stated laws + a concrete linear interpolant as witness |
| `wcosmo` cosmologies | parameter (functions of redshift) with the hypotheses listed in each theorem |
| `bilby.hyper.model.Model` | modelled in `Verif/Model/Bilby.lean` as the repository documents it (`cosmo_models.py:120-165`, `examples/GWTC3.ipynb`): `prob` is the product of the model functions, each with the parameters it asks for, and values are reused for unchanged parameters unless `cache=False`; elsewhere a parameter |
| `pandas.DataFrame.sample`, `numpy.random.choice`, `gamma.rvs`, `dist.Gamma` | parameter: theorems quantify over every possible outcome, or over the named distribution |
| `bilby.core.prior.PriorDict` | the four files in `priors/` are transcribed in `Verif/Model/Priors.lean`; theorems quantify over every value in the ranges |
| import system (`importlib`, entry points) | parameter `Env`: which imports succeed |

## 3. Layout

* `Verif/Num/*`   numbers and array primitives
* `Verif/Py.lean` exceptions, dictionaries, backends, keyword arguments
* `Verif/Model/*` the code, one file per Python module
* `Verif/Spec/*`  small independent specifications, not importing `Model`
* `Verif/Lemmas/*` proof machinery
* `Verif/Props/*` the property theorems, named `Cxx_...`, each followed by an
  `example` showing that its hypotheses are met by a concrete case.
* `Verif/Tests/*` evaluations of the model on inputs of the repository's unit tests (tests, not proofs)

When the code does **not** have a property, the negation is proved with an explicit
witness (`Cxx_..._fails`), and the part that does hold is proved as
`Cxx_..._partial`. Such properties are `partial` in `MANIFEST.json`.

## 4. Per-property plan

| id | modelled | proof idea |
|---|---|---|
| C01 | `powerlaw` | `integral_rpow`, `integral_one_div`; case split on alpha = -1 |
| C02 | `apply_conditions` as a higher-order wrapper over keyword dictionaries | induction on the condition table |
| C03 | `truncnorm` incl. `xp.select` | all three branches equal log(Phi(b)-Phi(a)) via Phi(-x)=1-Phi(x); substitution in the Gaussian integral |
| C04 | same, all `Fl` inputs | case analysis: exp is never negative, nan_to_num is finite |
| C05 | `beta_dist` | Mathlib beta integral, rescaled |
| C06 | same, all `Fl` inputs | as C04 |
| C07 | same at end points | negation at alpha=1: `0*log 0 = nan -> 0`; partial: characterisation of the end-point values |
| C08 | `unnormalized_2d_gaussian` | negation with witness; partial: value = true^(1+rho), correct iff rho=0 or at the mean |
| C09 | `von_mises` | periodic integral of exp(k cos) |
| C10 | `trapezoid` with backend capability record | list induction |
| C11 | conversions | `field_simp` |
| C12 | `convert_to_beta_parameters` on option-valued dicts | case analysis over suffixes |
| C13 | the same function on a heap of cells (floats immutable, arrays by reference) | negation with witness for arrays; partial: floats, any dict |
| C14-C16 | `backend.py` as a state machine over module bindings | induction over call histories; negations for failure in the update loop and for two functions in one module |
| C17-C20 | `mass.py` functions | piecewise integrals, Fubini and symmetry for C20; negation for the independent variants |
| C21-C26 | `BaseSmoothedMassDistribution` as a state machine with its interpolation cache | trapezoid linearity; invariants over call histories; negation for stale caches, list aliasing |
| C27-C29 | `spin.py` | product integrals; negation for support of the isotropic part |
| C30-C32 | `redshift.py`, hypervolume in `vt.py` | trapezoid linearity |
| C33-C37 | `interped.py` as a state machine | well-founded search; negations for re-initialisation and stale interpolants |
| C38-C39 | `GridVT` with nested arrays | induction over axes; negations for equal lengths and `pop` |
| C40-C43 | `ResamplingVT` | Cauchy-Schwarz over lists; negations for n_events=inf and ZeroDivisionError |
| C44-C56 | `hyperpe.py` | lists of lists; Gamma integral for C49/C54; negations for C47, C50, C52 |
| C57-C60 | `cosmo_models.py` | dict induction; negation for order; change of variables |
| C61-C64 | `experimental/numpyro.py`, `experimental/jax.py` | equality with the hyperpe model; negations for C62-C64 |
| C70 | the numpyro model with default options | negation (a number among the injections); exact sufficient condition |
| C65 | `get_name`, `to_number`, `to_numpy` | case analysis |
| C66, C67 | `powerlaw` wrapped | negation with alpha = 1 / x = 0; exact characterisation otherwise |
| C69 | `RateLikelihood` variance | derivative of the log-likelihood; negation with witness |
| C71 | `InterpolatedPowerlaw.p_m1`, `norm_p_m1` on a new instance | closed form with and without the cut at the outer nodes; sums over the grid compared; negation with witness |
| C72 | call histories of `InterpolatedPowerlaw` | invariant on the stored interpolants over arbitrary histories; negation with witness (two samples, then three) |
| C73 | `InterpolatedPowerlaw.variable_names` | membership; lookups in program order; congruence in the dictionary |
| C74 | attribute lookup on `JittedLikelihood` and its layers, with a recursion limit | induction on layers; exact set of shadowed names; counterexample |
| C75 | the same lookup on an instance without `__init__`, as in `copy` and `pickle` | induction on the limit; counterexample |
| C76 | `meta_data`, `to_numpy`, kinds of arrays | case analysis over accepted priors and backends; counterexample |
| C77 | likelihoods + `ResamplingVT` + rate | scaling by a positive real commutes with every float operation |
| C78 | likelihoods + `ResamplingVT` | the same |
| C79 | `convert_to_beta_parameters` + spin models | C11, C12, C68 composed |
| C80 | spin models' calling convention | condition table of C02; counterexample |
| C81 | `ResamplingVT` on random injections | change of measure; expectation and variance of sums of pairwise independent variables |
| C82 | `ResamplingVT` and the likelihood on growing random samples | strong law of large numbers; the code's formulas are continuous in the sample means |
| C83 | all functional models and the stateful ones, on the three backends | closure of "same values" under the model's combinators (bind, map, broadcasting, in-place operations, argument checks); counterexample at width 0 |
| C84 | `__init__`, `variable_names` of the spline models | `strip` characterised; a string splits uniquely into a part without final digit and a number; counterexample |
| C85 | redshift norm, `norm_p_m1`, `norm_p_q`, spline norm | trapezoid error bounded by total variation cell by cell; interpolation of the cached mass-ratio norm between grid masses is squeezed; limit along the product filter |
| C86 | `HyperparameterLikelihood`, `ResamplingVT`, `CosmoModel`, bilby's `Model` with its cache, references to objects | invariant: every cache entry is the value at the data of the one holder; induction over histories; shared object as counterexample |
| C87 | `Model.prob` over the mass, spin and redshift functions | Fubini for functions over separate blocks, by induction on the list; blocks from C19, C27, C28, C85 |
| C88 | the estimators of `hyperpe.py` and `vt.py` with every operation rounded (`Model/Rounded.lean`), the order of summation an arbitrary binary tree | relative error `(1-2^-53)^k` carried through sums, products, quotients and logarithms; induction on the tree |
| C89 | the same | bound from C88; two adjacent doubles as counterexample |
| C90 | `powerlaw` with every operation rounded and the library's `pow` and `log` arbitrary functions of known accuracy (`Model/RoundedDensities.lean`) | relative errors carried through the cancellation in the normalisation; the double next to -1 as counterexample |
| C91 | existing models of the densities, grids, selection function and likelihood | continuity of integrals in their limits and parameters, of finite sums over grids and samples; a grid point crossed by mmax as counterexample |
| C92 | `Model/Autodiff`, `Model/AutodiffSpin`, `Model/AutodiffSpline`: expressions recorded by jax and their backward pass with special values | soundness of the backward pass by induction on expressions; traces equal to the modelled functions; NaN from unselected branches as counterexamples |
| C93 | existing models of the redshift classes and cosmologies | congruence of every step in the dictionary; first failing lookup on the grid |
| C94 | RoundedDensities: every operation rounded, special functions from an arbitrary library of stated accuracy | error propagation with Lipschitz bounds of the logarithm of the normal distribution function; counterexample with a correctly rounded library |
| C95 | NArr: arrays with kind, dtype, shape and elements, broadcasting, in-place updates; ArrayDensities: the functions statement by statement | a representation invariant preserved by every array operation; the combined shape as least upper bound |
| C96 | NArr with dtypes and promotion, ArrayDensities | both calls are element-wise equal to the same scalar function (C95) |
| C97 | ArrayModels: the models on arrays, calling ArrayDensities | composition of the element-wise densities of C95 through every arithmetic operation |
| C98 | Jit: values known or traced (functions of the arguments of the compiled call), the cache of compiled computations by signature, leaked tracers raise TypeError | exact refinement of eager execution, a simulation between traced and ordinary execution, invariants over histories |
| C99 | Jit (StagedSmoothed): the norm interpolant of C24 as known or traced value, leaked tracers are caught and the interpolant rebuilt | refinement of eager calls, simulation of traced calls, invariant over histories |
| C100 | JitLikelihood: population model with a cache of known or traced values, likelihood attributes, compiled computations by names of parameters | simulation between traced and ordinary evaluation, invariants over histories |
| C101 | Mass, Smoothed: no new definitions | scaling lemmas through powerlaw, truncnorm, smoothing, interpolation and quadrature; induction over the history of calls |
| C102 | Spin, Interped: no new definitions | case analysis of keys and conditions, commutativity; closed form of the spline models |
| C103 | Spin, Utils: no new definitions | substitution in the integral, reversal of the trapezoid sum |
| C104 | SharedSmoothed: arrays of any shape, cached interpolant with the shape of its masses | invariant over histories of calls, broadcasting of the shapes, refinement to the list model |
| C105 | Analysis: population objects, instances by reference, likelihood and selection function in one state | invariant over histories; value by composition of C40, C44, C27, C28, C31; limit by C85 |
| C106 | SharedSpline: arrays of any shape, interpolants with the shape of the first samples | refinement to the list model, invariant over histories, broadcasting of the shapes |
| C107 | HyperPE.posteriorPredictiveResample | strong law of large numbers for self-normalised importance weights, moments of independent choices, Fubini for the other events |
| C108 | CosmoMixin.convertColumns, CosmoObject.prob, CosmoObject.run | induction over columns and histories, change of variables with parameters |
| C109 | Smoothed.call, interpLinear, qNorms | positivity of the interpolated norm in every cell, also the one containing mmin |
| C110 | PriorFile, examplePopulation, orientationByKeywords, Analysis | C109 on the default grid, which has a mass between every mmin and mmax of the priors; C105 for the likelihood |
| C111 | twoComponentSingle, threeComponentSingle, doublePowerLawPrimaryMass, Smoothed, independentSpinOrientation, Redshift | zero times a finite density vanishes; the density of an equal broken shape is the rescaled power law; congruence of the smoothed call in its primary model |
| C112 | threeComponentSingle, Smoothed.multiPeak | commutativity of the two weighted normals, congruence of the smoothed call in its primary model |
| C113 | SplineModel.call, InterpPowerlaw.call | the density and its norm carry the same factor, also for special values; induction over the history |
| C114 | Likelihood.init, Likelihood.lnLikelihoodAndVariance | sums over appended lists and distributivity of positive factors, also for special values |
| C115 | cosmoModelProb, Likelihood.lnLikelihoodAndVariance, ResamplingVT.call | C57 for the converted names, cancellation of a positive Jacobian in the weights |
| C116 | ResamplingVT.init, ResamplingVT.detectionEfficiency | sums over appended lists, change of measure, variance of sums of pairwise independent variables |
| C117 | trapzD, Redshift.normalisationD, Redshift.probabilityD, psiPowerLawD, psiMadauDickinsonD (Model/RoundedRedshift.lean) | relative errors of sums, products and powers of positive numbers; sums in any order as binary trees |
| C118 | muVarMaxToAlphaBetaMaxD, alphaBetaMaxToMuVarMaxD (Model/RoundedConversions.lean) | relative errors of differences, products and quotients; a counterexample with a tie in rounding |
| C119 | smoothingD, Smoothed.pMRawD, normPM1D, pM1D (Model/RoundedSmoothing.lean) | Lipschitz bounds of the taper, monotone rounding, trapezoid rule with underflow |
| C120 | sampleProbD, populationD, injectedD (Model/RoundedPopulation.lean) | relative errors of products by induction over the functions, of sums and logarithms; C88 |
| C121 | GridVT (Model/VT.lean) | induction over the axes with Fubini's theorem; uniform continuity |
| C122 | small-step semantics of evaluations with interleavings (Model/Threads.lean) | invariants over schedules, refinement to SharedSmoothed.call; negation by a schedule |
| C123 | small-step semantics with a step count (Model/Threads.lean) | induction over steps and histories |
| C124 | small-step semantics of evaluations with interleavings (Model/SplineThreads.lean) | invariants over schedules, refinement to SplineModel.call; negation by a schedule |
| C125 | small-step semantics of set_backend with interleavings (Model/BackendThreads.lean) | invariants over schedules, refinement to setBackend; negation by schedules |
| C126 | values and limits of the joint density (Model/InterpPowerlaw.lean) | trapezoid limit for bounded variation; limit of the mass-ratio norm |
| C127 | the assignments of `generate_extra_statistics` in order (Model/ExtraStatisticsSteps.lean) | prefix of the list of names at every crash point; refinement to the completed call; counterexamples |
| C128 | `HyperparameterLikelihood` with `ResamplingVT` on growing random samples | central limit theorem for the pooled averages (characteristic functions), delta method and Slutsky; portmanteau for the probabilities |
| C129 | `log_likelihood_ratio` at special values | minus infinity and NaN are absorbing for the sum; cases of the selection function; counterexample |
| C130 | `__init__` with every draw of `resample_posteriors` | sum over all families of injections by symmetry under rotation; product over events; Jensen |
| C131 | `psi_of_z` | derivative of ln psi with respect to ln(1+z), sign of the derivative; counterexample |
| C132 | `truncnorm`, `gaussian_chi_eff`, `gaussian_chi_p` | integration by parts; counterexample |
| C133 | `SinglePeakSmoothedMassDistribution.p_m1` and the other smoothed models | linearity of the grid norm; counterexample by bounds on integrals |
| C134 | `von_mises` | periodicity, symmetry and a covariance inequality |
| C135 | `log_likelihood_ratio`, setter of `maximum_uncertainty` | monotony of rounding to double and of `nan_to_num` |
| C136 | `HyperparameterLikelihood` with `ResamplingVT` and random injections | convexity (tangents), equality case; two-point counterexample |
| C137 | `ResamplingVT.vt_factor` in `HyperparameterLikelihood` with random injections | value of the factor (C43) and C136; antithetic pair of injections as counterexample |
| C138 | `RateLikelihood` with `ResamplingVT` and random injections | linearity; convexity of the exponential |
| C139 | `ln_likelihood_and_variance` with random samples | expectation of a product of independent averages; tangents of the logarithm |
| C140 | `ResamplingVT` and `Likelihood` with a backend as argument | closure of agreement under composition |
| C141 | `generate_extra_statistics` under `jax.jit` | simulation of traces as for C100; invariants of the cache; counterexample |
| C142 | the likelihood with selection function, for random catalogues | Gibbs' inequality, strong law of large numbers over events, C82 on the space of sources with their data |
| C143 | the selection factors of both likelihoods | ln x <= x - 1 with equality only at 1 |
| C144 | RateLikelihood with selection function, for random catalogues of random size | Wald's identity, Gibbs' inequality, strong law of large numbers, reduction to the limit of C142 |
| C145 | GridVT as selection function of the likelihood | C121 for the grid, C44 and the law of large numbers for the samples |
| C146 | what each object refers to, `pickle` and `deepcopy` on it, worker processes | induction over references; the attributes after any history of calls; C83 for workers |
| C147 | surveys and analyses of C142 with several candidates | the strong law of large numbers with Gibbs' inequality gives likelihood ratios tending to zero; continuity of Bayes' theorem |
| C148 | whole analyses (Model/Analysis) and likelihoods that read some names only | the selected parameters are equal, so the loops run through the same states; induction on the functions and on the history |
| C149 | surveys and rate analyses of C144 with several candidates | the log-likelihood ratio per exposure tends to a negative number, so the ratios tend to zero; continuity of Bayes' theorem |
| C150 | log_likelihood_ratio with ResamplingVT (Model/HyperPE, Model/VT) | the relative variances in terms of Kish's formula; every term of the variance is at most the sum |
| C151 | ResamplingVT built from a table of injections (Model/VT) | terms that are zero do not contribute to the sums; induction over the list |
| C152 | likelihoods with ResamplingVT and mixture densities (Model/HyperPE, Model/VT, Model/Spin, Model/Mass) | sums are linear; the ratios of evidence and efficiency are mixtures with the fraction among detected events, and the logarithm is concave |
| C153 | posterior_predictive_resample with its formats (Model/Predictive) | a finite sum has finite terms and a finite logarithm a positive argument; a NaN stays in the accumulated weights, induction over the hyper-samples |
| C154 | Redshift, ResamplingVT and the likelihood | the densities differ by the ratio of the norms, which cancels between events and efficiency (C77) and between efficiency and surveyed volume |
| C155 | densities and redshift models of C01-C31 | monotone likelihood ratios, integrated over both variables |
| C156 | densities and redshift models of C01-C31 | supports agree, shapes are proportional on them; logarithms, and for the Madau-Dickinson model uniqueness of sums of two exponentials (analyticity and growth) |
| C157 | ArrayRedshift: the methods of the redshift models on arrays with shapes, data types and in-place updates | composition of element-wise operations as in C97; the trapezoidal rule over the last axis |
| C158 | LnLikelihood, ResamplingVT, powerLawMass, truncnorm, PowerLawRedshift as before | the ratio of the densities of the data rises by a symmetrised double integral (composition of totally positive kernels), then C147 |
| C159 | LnLikelihood, ResamplingVT, powerLawMass, doublePowerLawPrimaryMass, twoComponentSingle, truncnorm as before | the data density is a Gaussian times a moment generating function; equality on a set of positive measure extends by analyticity and determines the population; then C147 and C156 |
| C160 | LnLikelihood, ResamplingVT, Redshift.probability, PowerLawRedshift, MadauDickinsonRedshift as before | proportional rates are equal because the trapezoidal norm is linear; then C159_same, C147 and C156 |
| C161 | LnLikelihood, ResamplingVT, independentSpinOrientation, independentSpinMagnitudeBeta, powerLawPrimaryMassRatio as before | products of measurements that tell populations apart do so too (Fubini and the one-parameter case C159_same); then marginals and slices with C156, C27, C28, C19 |
| C162 | twoComponentSingle, twoComponentPrimaryMassRatio as before | both parts are analytic, so equality on an interval extends to all masses, where the Gaussian decays faster than any power; the limits follow because no power law is a Gaussian on an interval; then C159_recovers and C161_massRatio |
| C163 | Smoothed.pM1, singlePeak as before | the smoothing is 1 past its range, so there the population is the one of C162 and the argument with analytic functions gives all but the lower limit and the range; the support gives the lower limit and the strictly increasing smoothing gives the range; recovery by the argument of C160 |
| C164 | Smoothed.call, singlePeak as before | above the lower limit the interpolated norm is at least a positive number; at one primary mass the mass ratios give the index, the lower limit and the range of the smoothing, so the norms agree and cancel, and C163 gives the rest; recovery by C161_recovers |
| C165 | threeComponentSingle as before | Gaussians with distinct means or widths are linearly independent, by induction on the dominating one; power laws decay slower than all of them; analytic continuation from an interval; the upper ends from the jumps; recovery by C159_recovers |
| C166 | Smoothed.call, multiPeak as before | any smoothed primary mass: the mass ratios give their index, the lower limit and the range of the smoothing, the norms cancel; the primary mass above the smoothing is a power law with two Gaussians, unique as in C165; recovery by C161_recovers |
| C167 | Smoothed.call with an arbitrary Primary, brokenPowerLaw as before | the values of call for any primary density; the mass ratios give their index, the lower limit and the range of the smoothing; the window is positive so the primary densities are proportional, and equal because both integrate to one; C156_broken for the broken power law |
| C168 | doublePowerLawPeakPrimaryMass, brokenPowerLawPeak as before | below both breaks the density is a power law with a Gaussian, unique as in C162, which gives the peak and its fraction; the broken power laws that remain are unique by C156_broken; the smoothed model by C167_transfer and C167_recovers |
| C169 | powerLawPrimarySecondaryIndependent, twoComponentPrimarySecondaryIndependent and the identical versions as before | slices through a mass between the limits: above it the density of the heavier mass is determined up to a constant, below it that of the lighter mass; power laws by their slopes, mixtures by analytic continuation as in C162; recovery by C161_recovers, which does not need a norm |
| C170 | Smoothed.call and Redshift.probability as before; the joint population is the product of their values | errors of the groups resolve the product (SeveralErrors.resolves_prod); proportional products have proportional factors by integrating one group out; then C167 for the masses and C156/C160 for the redshifts |
| C171 | doublePowerLawPrimaryPowerLawMassRatio as before | integrating out the mass ratios (C19) leaves the primary masses, determined by C156_broken; a slice determines the index of the mass ratios; recovery by C161_massRatio |
| C172 | Smoothed.call, Redshift.probability, independentSpinOrientation, independentSpinMagnitudeBeta as before | C170_product twice: proportional products have proportional factors; masses by C167, rates by C160, tilts and magnitudes by the uniqueness lemmas of C161 |
| C68 | `alpha_beta_max_to_mu_var_max` and `beta_dist` | moments via the Beta recursion |

## 5. Trusted base

Lean 4.33 kernel; axioms `propext`, `Quot.sound`, `Classical.choice` only;
Mathlib definitions used in statements (integrals, `gaussianReal`, Beta/Gamma functions);
the reading of the Python source recorded in the comments of `Verif/Model/*`;
for C92 the derivative rules of jax (`where` passes zero cotangents to the branch that is not taken, comparisons have no derivative,
`x**y` and division have the usual rules), written down in `Verif/Model/Autodiff.lean` from its documentation;
for C98, C99, C100 and C141 the behaviour of `jax.jit` (one trace per signature, array operations in a trace return tracers, converting a tracer to numpy or using it
after its trace raises a `TypeError`, later calls replay the recorded operations), written down in `Verif/Model/Jit.lean` from its documentation.

Not modelled: plotting/CLI (none), documentation, tests, GPU execution, compilation (except `jax.jit` of the models with state and of the likelihood), threads (except evaluations of one smoothed mass model or spline model and switches of the backend),
floating point rounding (except in the Monte Carlo estimates, C88 and C89, in `powerlaw`, C90, in `truncnorm`, `beta_dist` and `von_mises`, C94, and in the overflow of `log_likelihood_ratio`), the format of pickles (which objects can be pickled is C146; attribute lookup on a copied `JittedLikelihood` is C75), `print`/logging output, units in wcosmo.

## 6. The repository's tests

What the unit tests in `/repo/test` sample is covered for all inputs by these claims. `Verif/Tests/Conformance.lean` evaluates the model on the literal
inputs of some of them; it is a test of the reading of the source and is listed under no claim.

| Tests | Claims |
| --- | --- |
| `utils_test.py`, Beta | C02, C05, C06 |
| `utils_test.py`, power law | C01, C02, C66, C67 |
| `utils_test.py`, truncated Gaussian | C02, C03, C04 |
| `utils_test.py`, von Mises | C09, C134 |
| `utils_test.py`, `to_numpy` | C65 |
| `utils_test.py`, conditions | C02 |
| `utils_test.py`, trapezoid | C10 |
| `conversion_test.py` | C11, C12, C13, C118 |
| `backend_test.py` | C14, C15, C16 |
| `mass_test.py`, supports | C18, C19, C109 |
| `mass_test.py`, `delta_m = 0` | C22 |
| `mass_test.py`, normalisation | C23, C85 |
| `mass_test.py`, limits of the grid | C25 |
| `mass_test.py`, interpolated power law | C71, C73 |
| `redshift_test.py` | C30, C31, C32 |
| `spin_test.py`, orientation and magnitude | C27, C28, C80 |
| `spin_test.py`, effective spins | C29, C132 |
| `spin_test.py`, `interped_test.py`, splines | C33 to C37 |
| `vt_test.py` | C38 to C43 |
| `likelihood_test.py`, construction | C51, C52, C56, C76 |
| `likelihood_test.py`, values | C44 to C49 |
| `likelihood_test.py`, post-processing | C50, C53, C54 |
| `cosmo_test.py` | C57 to C60 |
| `numpyro_test.py` | C61 |
| `example_test.py` | C64, C105, C110 |

Two tests do not check what their names say.

- `conversion_test.py:20` asserts `abs(beta == known) < 1e-6`. It passes exactly when the two numbers differ, and it does pass because of a rounding error:
  computed in double precision, the three values are not those of the table.
- `vt_test.py:60-69`: the expected values of the tests with and without marginalisation are exchanged. They differ by less than the tolerance of 1e-6,
  so the tests cannot tell the two modes apart. C43 proves the value of each mode.
