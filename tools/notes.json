{
 "C06": {
  "status": "partial",
  "note": "False of the code: exponential_gamma adds n to the rate and the total to the shape. C06_exponential_gamma_rate_iff/_mean_false give the exact failure; the partial theorem shows that the swapped update is the Bayes posterior."
 },
 "C17": {
  "status": "partial",
  "note": "False of the code: the number of draws n is ignored. Negation with the true posterior proved; partial theorem says what the returned distribution is."
 },
 "C19": {
  "status": "partial",
  "note": "False of the code: concentration uses the sine total instead of the resultant length. Exact iff proved; the direction is right (partial)."
 },
 "C26": {
  "status": "partial",
  "note": "False of the code: the pmf of BetaGeometric is shifted by one. Negation and the shifted identity (partial) proved."
 },
 "C27": {
  "status": "partial",
  "note": "Holds iff n = 1; proved as iff, partial theorem for n = 1."
 },
 "C28": {
  "status": "partial",
  "note": "Predictive is right for the swapped parameters only; exact iff, partial, and the whole pipeline proved."
 },
 "C53": {
  "status": "partial",
  "note": "False of the code unless low = 0: .dist is uniform on [low, low + high]. Exact iff proved; the partial theorem gives the density of .dist."
 },
 "C54": {
  "status": "partial",
  "note": "False of the code: Exponential.dist uses scale=lam, LogNormal.dist uses loc=mu; exact iff's and partial theorems proved."
 },
 "C55": {
  "status": "partial",
  "note": "CompoundGamma is proved normalised; BetaGeometric is not normalised on its stated support (off by one), proved, with the shifted total as partial."
 },
 "C76": {
  "status": "partial",
  "note": "False of the code: log_likelihood is a + cos instead of a * cos; exact iff and partial proved."
 },
 "C37": {
  "status": "partial",
  "note": "Proved for every scalar model except hypergeometric_beta_binomial and von_mises_known_concentration, for which its negation is proved (_fails). normal/log_normal need nonempty batches (n=0 raises, see C40)."
 },
 "C39": {
  "status": "partial",
  "note": "Proved for every scalar model and every matrix model; false of von_mises_known_concentration (_fails)."
 },
 "C40": {
  "status": "partial",
  "note": "Proved for every model except normal and log_normal, which raise ZeroDivisionError at n=0, and multivariate_normal, which gives nan on no rows (all proved in the semantics with exceptions)."
 },
 "C41": {
  "status": "partial",
  "note": "Proved for all models but von_mises_known_concentration, whose posterior concentration can be negative (_fails)."
 },
 "C56": {
  "status": "partial",
  "note": "Proved for MultivariateNormal (int and list) and MultivariateStudentT (list). False for MultivariateStudentT[int]: scale lacks the square root; exact iff (sigma_ii = 1), a counterexample and the true marginal (_partial) are proved."
 },
 "C74": {
  "status": "partial",
  "note": "False of multivariate_normal_known_covariance/_precision: the mean helper ignores inv (counterexamples proved). linear_regression and the known-precision predictive honour inv; with a correct inverse every result equals the default one."
 },
 "C58": {
  "status": "partial",
  "note": "False of the code: SliceMixin swallows every exception, so an out-of-range index returns the parameters unsliced (C58_bad_index_returns_whole) or mixes elements and whole vectors (C58_bad_index_mixes). C58_bad_index_partial: the parameter array itself raises exactly when the index is out of range."
 },
 "C62": {
  "status": "partial",
  "note": "Proved when the bounds differ by an integer; C62_discrete_grid_overshoots_iff shows the grid otherwise leaves the bounds. Completeness holds for all bounds."
 },
 "C64": {
  "status": "partial",
  "note": "Holds for one distribution; false for several (C64_conditional_pmf_iff) and for the cdf (C64_conditional_cdf_wrong)."
 },
 "C79": {
  "status": "partial",
  "note": "Proved for Beta, Binomial, BetaBinomial, Hypergeometric; false for BetaNegativeBinomial and, because of Uniform.dist, for Uniform with low > 0 (iff proved)."
 },
 "C66": {
  "status": "partial",
  "note": "Proved for every function annotated with one class. False for the five functions annotated with a union: C66_union_attribute_error proves they raise AttributeError."
 },
 "C73": {
  "status": "partial",
  "note": "Proved for arrays, and for an array with a list or tuple. False for two lists or tuples: C73_lists_right_iff, C73_two_categories_become_four, C73_unequal_lengths_truncate."
 },
 "C68": {
  "status": "partial",
  "note": "Proved for every sampling method and hand-written rvs. Vectorised Dirichlet sampling takes no random_state, so it cannot be seeded."
 },
 "C69": {
  "status": "partial",
  "note": "Proved for a Generator. False for an integer seed: C69_seed_restarts, C69_seeded_samples_on_a_line."
 },
 "C71": {
  "status": "partial",
  "note": "Proved for NormalInverseGamma. For the other three the samples are divided by lam or kappa; right iff that is 1 (C71_normal_gamma_iff, C71_normal_inverse_wishart_iff)."
 },
 "C70": {
  "status": "partial",
  "note": "Proved for two features or more and one sample or more; the number of samples for every size. False for one feature (C70_one_feature: missing axis, LinAlgError) and for size 0 (C70_no_samples: ValueError)."
 },
 "C72": {
  "status": "partial",
  "note": "False for size=0, which is taken for no size (C72_size_zero), and for compound_gamma whenever the shape has an axis of length one in front, such as size=1: it is dropped (C72_compound_gamma_size_one). Proved: beta_geometric for every other size, and the exact shape compound_gamma returns (C72_compound_gamma_shape)."
 },
 "C75": {
  "status": "partial",
  "note": "Proved for every posterior function as injectivity in each data argument; for the models that take the rows themselves, as an equivalence: the posteriors agree exactly when the sufficient statistics do. False for n of hypergeometric_beta_binomial, beta of gamma_known_rate, n of von_mises_known_concentration, which are ignored (three *_ignored theorems)."
 },
 "C77": {
  "status": "partial",
  "note": "C77_gate_iff is the full characterisation: right except for a release written 1.12 with two components, where it is false (C77_two_components_false)."
 },
 "C83": {
  "status": "partial",
  "note": "Row-by-row sampling and means proved. Seeding and plotting a matrix raise TypeError: C83_no_seed_no_plot."
 },
 "C84": {
  "status": "partial",
  "note": "Proved for 14 of the 17 model/predictive pairs. False for geometric data (C84_geometric_beta_false, every point), Poisson exposure other than 1 (C84_poisson_gamma_iff) and exponential data unless the prior parameters are equal (C84_exponential_gamma_iff)."
 },
 "C85": {
  "status": "partial",
  "note": "Proved for 15 pairs (Poisson with the default exposure). False for geometric data (C85_geometric_beta_false) and for exponential data unless the prior parameters are equal (C85_exponential_gamma_iff)."
 },
 "C87": {
  "status": "partial",
  "note": "Proved for the compound gamma. For the beta geometric rvs draws k with the probability pmf reports for k - 1 (C87_beta_geometric_shifted_partial); it never has the law pmf describes (C87_beta_geometric_false)."
 },
 "C88": {
  "status": "partial",
  "note": "Proved for the listed models from the strong law of large numbers. Limits of the claim: exponential_gamma concentrates at the value its own Exponential class calls lam, but for data with rate r only when r = 1 (C88_exponential_gamma_rate_partial); uniform_pareto concentrates at max(prior x_m, theta), so at theta only when the prior allows it (C88_uniform_pareto_limit); for von Mises data the posterior direction is right between 0 and pi (C88_von_mises_known_concentration_partial) and points the opposite way between -pi and 0 (C88_von_mises_opposite). For the distributions known up to a constant (C88_gamma, C88_gamma_known_rate, C88_beta, C88_von_mises_known_direction) the kernel can be normalised from some n on and the normalised law concentrates; gamma needs s <= r in the prior (C95_gamma_never_normalisable)."
 },
 "C90": {
  "status": "proved",
  "note": "Stream bounds for the additive, multiplicative and subtracting updates (binomial, Bernoulli, negative binomial, geometric both starts, Poisson, exponential, gamma, inverse gamma, Weibull, uniform, Pareto, Dirichlet, beta, gamma_known_rate, von Mises direction, normal with known mean and InverseGamma prior); one-call bounds for the predictive distributions, normal, log_normal, normal with known variance/precision and normal_known_mean with ScaledInverseChiSquared prior. The matrix models are not covered."
 },
 "C91": {
  "status": "partial",
  "note": "Proved for the updates that only add. The unconditional claim is false of normal, normal_known_mean, geometric_beta with one_start and pareto_gamma: Python-float witnesses C91_normal_false, C91_normal_known_mean_false, C91_geometric_beta_false, C91_pareto_gamma_false. C91_*_positive give the condition under which the computed parameter is positive; C91_normal_partial: lam and alpha stay positive."
 },
 "C92": {
  "status": "partial",
  "note": "Proved for the listed models; for a vector of parameters the statement is about each coordinate's marginal. As for C88: exponential_gamma recovers the value its own Exponential class calls lam, and a rate r only when r = 1 (C92_exponential_gamma_rate_partial); uniform_pareto recovers max(prior x_m, theta). Random covariance matrices are covered entry by entry, off-diagonal entries included. The hypergeometric example of the script (marked TODO there) does not recover anything: almost surely the second parameter of what hypergeometric_beta_binomial returns is negative from some sample size on (C92_hypergeometric_breaks), and with no marked items the result never changes (C92_hypergeometric_stuck)."
 },
 "C93": {
  "status": "partial",
  "note": "Proved for all listed models, including regression and the multivariate normal models, except the geometric, where the claim is false (C93_geometric_beta_false): the probability given to k tends to that of k + 1 (C93_geometric_beta_shifted_partial). For Poisson counts it holds for every exposure, although the exact predictive is only right at exposure one (C27); for exponential data it holds although the posterior is inverted (C06, C88)."
 },
 "C94": {
  "status": "partial",
  "note": "Proved for the four models without a predictive function and for the predictive functions that are right. poisson_gamma_predictive is the law of the samples exactly for exposure one (C94_poisson_gamma_iff; the law for every exposure is C94_poisson_gamma_law), exponential_gamma_predictive only with its fields exchanged (C94_exponential_gamma_swapped_partial). An integer seed passed to both calls correlates the two stages (C94_seed_restarts, C94_seed_restarts_too_wide). The geometric samples have the law C94_geometric_beta_law and never that of geometric_beta_predictive (C94_geometric_beta_false, cf. C26). Normal with a NormalInverseGamma, multivariate normal with known covariance or precision and linear regression are proved. With a NormalGamma or normal inverse-Wishart posterior the reported variance is that of the mean: the samples have the laws C94_normal_ng_law and C94_multivariate_normal_law, the predictive exactly for lam = 1 and kappa = 1 (the _iff theorems), and always after multiplying by lam or kappa (the _partial theorems)."
 },
 "C95": {
  "status": "proved",
  "note": "The converse boundary is proved too: a GammaProportional with s > r can never be normalised, and since both grow by n, neither can any of its posteriors (C95_gamma_never_normalisable)."
 },
 "C96": {
  "status": "partial",
  "note": "Proved for NormalInverseGamma posteriors (normal, log-normal, linear regression) and for dist.rvs of the Beta, Gamma and Normal posteriors. False of the code for NormalGamma and NormalInverseWishart: the variance they report is divided by lam or kappa, which grow with the data, so the reported variances gather at zero (C96_normal_ng_law, C96_normal_ng_false, C96_multivariate_normal_law, C96_multivariate_normal_false); multiplied by lam or kappa they gather at the true variance (_partial theorems). exponential_gamma samples gather at the reciprocal of the rate (C96_exponential_gamma_law)."
 },
 "C97": {
  "status": "partial",
  "note": "Proved for every distribution class with parameters of real, vector and matrix type. False of: BetaBinomial and DirichletMultinomial with one trial (only the shares matter), BetaNegativeBinomial (exchanging n and beta gives the same distribution; the theorem shows this is the only ambiguity), Hypergeometric (exchanging success states and draws), VonMises (directions a whole turn apart; unique in (-pi, pi]), and Binomial/Multinomial with no trials; the iff theorems and the _false theorems say so."
 },
 "C98": {
  "status": "partial",
  "note": "Proved as an iff for every model function listed, with two exceptions. von_mises_known_concentration: false when the sine total is zero (the posterior concentration is computed from the sine total alone), C98_von_mises_known_concentration_false, iff proved otherwise. hypergeometric_beta_binomial: false for samples of different sizes (the size is ignored), C98_hypergeometric_beta_binomial_false, iff proved for samples of one size."
 },
 "C99": {
  "status": "partial",
  "note": "Proved for the listed functions. False for exponential_gamma with the documented arguments (longer waits raise the rate: C99_exponential_gamma_false, for every prior and all data; it holds with the two arguments exchanged) and for the number of draws in hypergeometric_beta_binomial, which has no effect (C99_hypergeometric_draws_false). For uniform_pareto the thresholds are those above the smaller support bound, below which both probabilities are 1."
 },
 "C100": {
  "note": "For poisson_gamma_predictive the next interval has length 1, where the predictive is right (C27). geometric_beta_predictive is left out: its probabilities do not sum to one (C55)."
 },
 "C101": {
  "status": "partial",
  "note": "Priors and posteriors are compared by the change-of-variables formula for densities (UnitsSpec); the parameters of the rescaled prior are derived from the density, not assumed. False for exponential_gamma with the documented arguments, for every prior, all data and every change of unit (C101_exponential_gamma_false; it holds with the arguments exchanged), and for von_mises_known_concentration (C101_von_mises_known_concentration_false; its direction does turn with the angles). The Jacobian |det A|^(d+1) of S -> A S A^T on symmetric matrices is part of the specification."
 },
 "C102": {
  "status": "partial",
  "note": "The prior over the groups is characterised by its probabilities (Merged, shareProb in RelabelSpec), not by its parameters; at least two groups (with one group there is nothing to say). False for hypergeometric_beta_binomial unless the whole population is sampled (C102_hypergeometric_false, C102_hypergeometric_partial): it counts prior.n - x failures instead of n - x."
 },
 "C103": {
  "status": "partial",
  "note": "DrawThenObserve, Calibrated and IntervalCoverage are in CalibrationSpec; each theorem holds on every probability space carrying the draw, and exists_draw shows there is one. False for exponential_gamma: no valid prior and no n >= 1 gives a calibrated posterior, whether the parameter is read as the rate (C103_exponential_gamma_rate_false) or as the mean that Exponential(...).dist and scripts/parameter-recovery.py use (C103_exponential_gamma_mean_false); with n and x_total exchanged it holds for the rate (C103_exponential_gamma_swapped_partial). The quantile interval is stated for one-dimensional unknowns, for the mean, variance or precision of the (log-)normal models, for every regression coefficient, for the probability of a set of categories, for every entry of a mean vector (with posterior[j].dist.ppf when the covariance or precision is known) and for every entry of a covariance matrix."
 },
 "C104": {
  "status": "partial",
  "note": "True for n_new = 1 (C104_bootstrap_maximum_partial, C104_one_observation_partial). False for every posterior and every n_new >= 2 (C104_bootstrap_maximum_false, C104_max_too_large, C104_bootstrap_iff): independent predictive draws do not share one rate, so the maximum is overstated; for any model it is never understated (C104_max_of_predictions_le). The samples the page's function returns have exactly that law (C104_bootstrap_samples). Updating between draws is right (C85), and so is drawing one rate and then n_new counts (C104_two_stage_samples)."
 },
 "C105": {
  "status": "partial",
  "note": "Proved for binomial, negative binomial, geometric, Poisson, gamma, inverse gamma, Pareto, uniform, Weibull and the three normal models with one known parameter (C105_<model>), with the consequences for the charts (C105_most_engaged, C105_difference, C105_best_total). For exponential_gamma, the model of docs/examples/thompson.md, the rate reading holds exactly when every group's sum is its number of observations (C105_exponential_gamma_rate_iff) and the mean reading never (C105_exponential_gamma_mean_false). The call in scripts/post-engagement.py passes beta_prior and is a ValueError (C105_script_call). Samplers are specified by their contract (CorrectFrozen)."
 },
 "C106": {
  "status": "partial",
  "note": "Proved for a database that divides numbers as numbers, for inputs whose text does not begin with a minus sign (a prior mean may): C106_operators, C106_<model>, C106_documented_text, C106_documented_query. False for normal_known_mean with a negative known mean and columns for data: PyPika writes two minus signs, which start a comment, and the column is a syntax error (C106_normal_known_mean_negative). Where integers are divided to integers (PostgreSQL, SQLite, SQL Server) the documented degrees of freedom are right exactly for groups of even size (C106_integer_division), the documented location always (C106_integer_division_mu). PyPika's get_sql is modelled from its source."
 },
 "C107": {
  "status": "proved",
  "note": "C107_thompson, for any correct samplers of the frozen distributions. Real arithmetic; estimate.dist.rvs(random_state=rng) draws one value per entry."
 },
 "C108": {
  "status": "proved",
  "note": "C108_long_run for all positive waits with a variance; C108_documented for exponential waits from Gamma(1, 1). The estimates are those of exponential_gamma as it is (not a Bayes posterior, see C06); they recover the mean wait all the same."
 },
 "C109": {
  "status": "proved",
  "note": "F64 in Ieee.lean models np.float64 with round-to-nearest-even, subnormals, infinities, nan. Powers with literal exponents are taken as correctly rounded; log in pareto_gamma and the sines of von Mises are inputs."
 },
 "C110": {
  "status": "partial",
  "note": "False for normal_known_variance: with sigma = 2^512 the prior's variance overflows and is silently dropped (C110_normal_known_variance_false). normal with no data gives nan (C110_normal_no_data_nan). For normal and normal_known_variance the true part is in the _partial theorems; for the models with products only finiteness of the inputs is claimed, as a product may underflow."
 },
 "C111": {
  "status": "partial",
  "note": "poisson_gamma_predictive has the right mean for every n and the right variance only for n = 1 (C111_poisson_gamma_variance_iff). exponential_gamma_predictive and geometric_beta_predictive are not predictive distributions at all (C28, C26). The full statement is proved for the other models. For counts of categories it is stated for every set of categories, for vectors with known covariance coordinate by coordinate, for multivariate_normal_predictive for every combination of coordinates with the exact mean of the covariance matrix; the regression is in C112."
 },
 "C113": {
  "status": "partial",
  "note": "With Python's own filters no history of calls prints anything (C113_silent_by_default): stacklevel=1 attributes the warning to conjugate.models, and those filters show a DeprecationWarning of __main__ only. Proved for every list of filters: what is printed and raised, and that the results are those of the replacements."
 },
 "C114": {
  "status": "partial",
  "note": "The last sentence is false. A number n alone is accepted for a vector of length n and gives one draw per entry (C114_number_silent); C114_number_partial says exactly when it raises. Without a size, axes of length one in front of the parameters are dropped (C114_no_size_partial, C114_row_without_size). The rest is proved."
 },
 "C115": {
  "status": "partial",
  "note": "False of exponential_gamma as documented (C115_exponential_gamma_rate_false); with its data arguments exchanged it is proved. Proved in full for the other models with independent observations of one law; the intervals are for one real unknown, or for the mean, the variance and the precision, or for an entry of a mean vector with known covariance or precision, or for the probability of a set of categories."
 },
 "C116": {
  "status": "partial",
  "note": "False of geometric_beta_predictive (every value gets too little probability: C116_geometric_beta_too_low), of poisson_gamma_predictive unless n = 1 (C116_poisson_gamma_iff, C116_poisson_gamma_limit_broken: the use in docs/examples/limit.md) and of exponential_gamma followed by exponential_gamma_predictive unless the two prior parameters are equal (C116_exponential_gamma_iff, C116_exponential_gamma_waiting). Proved in full for every other predictive function."
 },
 "C117": {
  "status": "partial",
  "note": "plot_pdf and plot_pmf: proved for every plotted class (C117_plot_pdf, C117_plot_pmf). plot_cdf as probabilities: 12 continuous and 7 discrete classes (all but BetaGeometric, which has no cdf). False of BetaGeometric and CompoundGamma, whose plot_cdf raises AttributeError (C117_no_cdf_*). Not stated: VonMises (SciPy's cdf is circular). Tables of parameters raise ValueError (C117_table_error, C117_cube_error) unless they have exactly 100 rows, when points of different distributions are joined to one line (C117_table_mixed). conditional=True with several distributions divides by the total of all of them (C117_plot_pmf_conditional; disagreement recorded under C64). matplotlib's ax.plot and SciPy's cdf are modelled by their documented rules."
 },
 "C118": {
  "status": "partial",
  "note": "Proved for all posterior functions with numeric parameters except hypergeometric_beta_binomial, for poisson_gamma_predictive, Poisson +, Poisson *, Normal * (C118_*_independent), and for whole histories of updates (C118_*_history). False of hypergeometric_beta_binomial, whose posterior holds the prior's own n, and of most predictive functions and Gamma *, NegativeBinomial *, which hand on arrays of their arguments: these leave the arguments alone and have the right parameters (C118_*_harmless_partial) but changing the source array in place changes them (C118_*_shares, C118_predictive_not_independent, C118_hypergeometric_not_independent). The Dirichlet models: proved for counts and prior that + accepts (C118_*_dirichlet_independent_partial, C118_*_dirichlet_history_partial); missing are arguments that + rejects, for which the posterior is a Python list. Not stated: the matrix models. Trusted: numpy operators and ufuncs without out= allocate their result."
 },
 "C119": {
  "status": "partial",
  "note": "Either order, arrays on either side, all Poisson expressions, sum with a start and the refusals are proved. False: sum() of Poisson distributions without a start raises AttributeError for every non-empty list (C119_sum_raises; proved with a start: C119_sum_with_start); Poisson + Exponential, in either order, returns a Poisson distribution that is never that of the sum (C119_mixed_sum, C119_mixed_sum_wrong); Gamma * Gamma and Poisson * Poisson return objects with a distribution for a parameter (C119_product_accepted). Python's operator dispatch and numpy's elementwise application to objects are modelled from their documentation."
 },
 "C120": {
  "status": "partial",
  "note": "Proved for parameters that are numbers: C120_numbers, and for 18 classes that == is True exactly when density or pmf agree (C120_<class>, with C97). BetaNegativeBinomial with n and beta exchanged and BetaBinomial with one trial have the same pmf and are not equal (C120_beta_negative_binomial, C120_beta_binomial_one_trial). False for arrays: equal arrays raise ValueError unless they are one object or have one entry (C120_same_arrays, an iff; C120_same_arrays_since313; C120_poisson_array_since313). False for SQL terms: always equal (C120_sql_terms). nan: C120_nan. The method written by @dataclass, numpy's == and pypika's == are modelled from their documentation. Hashing is not modelled."
 },
 "C121": {
  "status": "partial",
  "note": "The claim is false in general. C121_draw_iff: for any model the draws are right exactly if the predictive probability of the data does not depend on the prior's parameters; C121_binomial_beta_iff for the documented model. Right for known parameters (C121_known_parameters) and without data (C121_no_trials). False for every law that charges all open sets and n >= 1 (C121_uncertain_false), in particular the documented Gamma(1, 20), N = 10, X = 4 (C121_documented_false). The drawn parameters keep the law they had before the data (C121_parameters_unchanged); the right weights are the beta-binomial probabilities (C121_reweighted, C121_binomial_beta_reweighted). Two candidate priors: C121_two_priors_iff. PyMC is modelled from its documentation: pm.draw draws the named variables jointly. All laws here are on the positive pairs."
 },
 "C122": {
  "status": "partial",
  "note": "True for SliceMixin: C122_slice_copies (asdict deep-copies the parameters), C122_slice_harmless, C122_params_copies. For the multivariate classes true for an int (C122_mvn_int, C122_mvt_int) and a list (C122_mvn_list, C122_mvt_list); false for a slice: the result follows the original arrays (C122_mvn_slice_partial, C122_mvt_slice_partial: right values at the time of the call and whatever the originals become later) and writing to it writes to the original (C122_mvn_slice_false, C122_mvt_slice_false). A numpy integer always raises (C122_mvn_numpy_int); out of range raises (C122_mvn_bad_index). Slices with a step and boolean masks are not modelled; writes are modelled per buffer place."
 },
 "C123": {
  "status": "partial",
  "note": "Wider (BandSpec) compares the probability within every distance of the mean, so also the length of intervals of equal probability (C123_intervals). For any features the wider prediction is the one with larger leverage (C123_wider_iff). With an intercept and one covariate the band is narrowest at bandCentre and widens exactly with the distance from it (C123_band). Widening from the mean of the data holds exactly if the prior is centred there (C123_widens_iff); for the documented prior exactly if the points sum to zero (C123_documented_prior_iff), as the documented points do (C123_documented_partial); false for training points all positive (C123_one_sided_false). Beyond zero and all training points it always widens (C123_beyond). C112 orders the variances, which need alpha > 1; this needs no moments."
 },
 "C124": {
  "status": "partial",
  "note": "LossesKept, DecidesWell, StockByQuantile, GuessByMean (DecisionSpec) for every model for which C103 is proved: 13 models with one unknown number (RightChoices, and GuessByMean for all of them, given a finite posterior variance for Pareto and inverse gamma priors; normal_known_mean with an InverseGamma prior only for GuessByMean) and 9 with several unknowns (LossesKept and DecidesWell). False of exponential_gamma with the arguments as documented, for either reading of the unknown (C124_exponential_gamma_rate_false, C124_exponential_gamma_mean_false); true with its arguments exchanged (_swapped_partial). That the variance shrinks for every data set, not only on average, is false (C124_variance_grows_false). Missing: hypergeometric_beta_binomial (a discrete unknown), von_mises models, gamma, gamma_known_rate and beta, whose posteriors are proportional only."
 },
 "C125": {
  "status": "partial",
  "note": "RightChoices (losses, decisions, quantile as stock) for the 10 predictive functions with a real outcome for which C116 is proved, GoodChoices (losses and decisions) for the 6 with several outcomes; the mean as best guess, with the announced error, for all of them (coordinate by coordinate for vectors, for every set of categories for counts); heavy-tailed predictives need a variance, so that the hypotheses ask for it. False of poisson_gamma_predictive for n other than 1 (C125_poisson_gamma_iff), although its mean is the best guess for every n (C125_poisson_gamma_guess_partial); false of exponential_gamma as documented unless the parameters of the prior are equal (C125_exponential_gamma_iff), where it costs strictly more at every quantile level (C125_exponential_gamma_costs_more); false of geometric_beta_predictive always (C125_geometric_beta_wrong). Missing: hypergeometric and compound models without a proved predictive."
 },
 "C126": {
  "status": "partial",
  "note": "Proved when the prior or the first batch is an array, the rest being of any kind (C126_array_first_partial). False without arrays: the loop runs to its end but .dist is an AttributeError (C126_no_arrays). For one update exactly the cases with .dist are known (C126_usable_iff, C126_categorical_usable_iff, C126_unusable_attribute_error). Not modelled: the checks inside SciPy."
 },
 "C127": {
  "status": "partial",
  "note": "Proved for parameters that are numbers, flags or None (C127_in, C127_index, C127_count, C127_remove). False for arrays: an equal distribution with arrays of its own that comes first makes all four raise ValueError up to Python 3.12, even if the object itself is in the list (C127_arrays_raise); an object at the head of the list is always found (C127_first_partial). Trusted: Python's list methods ask the elements in order, identity before ==."
 }
}