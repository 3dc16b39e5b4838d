{
 "claims": [
  {
   "property": "C01",
   "status": "proved",
   "theorems": [
    "Conj.C01_binomial_beta_posterior",
    "Conj.C01_binomial_beta_posterior_list"
   ],
   "note": ""
  },
  {
   "property": "C02",
   "status": "proved",
   "theorems": [
    "Conj.C02_bernoulli_beta_posterior",
    "Conj.C02_bernoulli_beta_eq_binomial_beta"
   ],
   "note": ""
  },
  {
   "property": "C03",
   "status": "proved",
   "theorems": [
    "Conj.C03_negative_binomial_beta_posterior"
   ],
   "note": ""
  },
  {
   "property": "C04",
   "status": "proved",
   "theorems": [
    "Conj.C04_geometric_beta_posterior"
   ],
   "note": ""
  },
  {
   "property": "C05",
   "status": "proved",
   "theorems": [
    "Conj.C05_poisson_gamma_posterior"
   ],
   "note": ""
  },
  {
   "property": "C06",
   "status": "partial",
   "theorems": [
    "Conj.C06_exponential_gamma_swapped_partial",
    "Conj.C06_exponential_gamma_rate_iff",
    "Conj.C06_exponential_gamma_mean_false",
    "Conj.C06_exponential_gamma_is_poisson_gamma"
   ],
   "note": "False of the code: exponential_gamma adds n to the rate and the total to the shape. C06_exponential_gamma_rate_iff/_mean_false give the exact failure; the partial theorem shows that the swapped update is the Bayes posterior."
  },
  {
   "property": "C07",
   "status": "proved",
   "theorems": [
    "Conj.C07_gamma_known_shape_posterior"
   ],
   "note": ""
  },
  {
   "property": "C08",
   "status": "proved",
   "theorems": [
    "Conj.C08_inverse_gamma_known_rate_posterior"
   ],
   "note": ""
  },
  {
   "property": "C09",
   "status": "proved",
   "theorems": [
    "Conj.C09_pareto_gamma_posterior"
   ],
   "note": ""
  },
  {
   "property": "C10",
   "status": "proved",
   "theorems": [
    "Conj.C10_uniform_pareto_posterior"
   ],
   "note": ""
  },
  {
   "property": "C11",
   "status": "proved",
   "theorems": [
    "Conj.C11_weibull_posterior"
   ],
   "note": ""
  },
  {
   "property": "C12",
   "status": "proved",
   "theorems": [
    "Conj.C12_normal_known_variance_posterior",
    "Conj.C12_normal_known_precision_posterior"
   ],
   "note": ""
  },
  {
   "property": "C13",
   "status": "proved",
   "theorems": [
    "Conj.C13_inverse_gamma",
    "Conj.C13_normal_known_mean_posterior",
    "Conj.C13_normal_known_mean_class"
   ],
   "note": ""
  },
  {
   "property": "C14",
   "status": "proved",
   "theorems": [
    "Conj.C14_normal_posterior_nig",
    "Conj.C14_normal_posterior_ng"
   ],
   "note": ""
  },
  {
   "property": "C15",
   "status": "proved",
   "theorems": [
    "Conj.C15_log_normal_posterior_nig",
    "Conj.C15_log_normal_posterior_ng"
   ],
   "note": ""
  },
  {
   "property": "C16",
   "status": "proved",
   "theorems": [
    "Conj.C16_categorical_dirichlet_posterior",
    "Conj.C16_multinomial_dirichlet_posterior"
   ],
   "note": ""
  },
  {
   "property": "C17",
   "status": "partial",
   "theorems": [
    "Conj.C17_true_posterior",
    "Conj.C17_hypergeometric_beta_binomial_false",
    "Conj.C17_hypergeometric_is_binomial_predictive_partial"
   ],
   "note": "False of the code: the number of draws n is ignored. Negation with the true posterior proved; partial theorem says what the returned distribution is."
  },
  {
   "property": "C18",
   "status": "proved",
   "theorems": [
    "Conj.C18_gamma_posterior",
    "Conj.C18_gamma_known_rate_posterior",
    "Conj.C18_beta_posterior",
    "Conj.C18_von_mises_known_direction_posterior"
   ],
   "note": ""
  },
  {
   "property": "C19",
   "status": "partial",
   "theorems": [
    "Conj.C19_iff_vector",
    "Conj.C19_von_mises_known_concentration_iff",
    "Conj.C19_von_mises_unit_kappa_iff",
    "Conj.C19_von_mises_direction_partial"
   ],
   "note": "False of the code: concentration uses the sine total instead of the resultant length. Exact iff proved; the direction is right (partial)."
  },
  {
   "property": "C20",
   "status": "proved",
   "theorems": [
    "Conj.C20_linear_regression_posterior"
   ],
   "note": ""
  },
  {
   "property": "C21",
   "status": "proved",
   "theorems": [
    "Conj.C21_multivariate_normal_known_covariance_posterior",
    "Conj.C21_multivariate_normal_known_precision_posterior"
   ],
   "note": ""
  },
  {
   "property": "C22",
   "status": "proved",
   "theorems": [
    "Conj.C22_multivariate_normal_known_mean_kernel",
    "Conj.C22_multivariate_normal_known_mean_posterior"
   ],
   "note": ""
  },
  {
   "property": "C23",
   "status": "proved",
   "theorems": [
    "Conj.C23_multivariate_normal_kernel",
    "Conj.C23_multivariate_normal_posterior"
   ],
   "note": ""
  },
  {
   "property": "C24",
   "status": "proved",
   "theorems": [
    "Conj.C24_binomial_beta_predictive",
    "Conj.C24_bernoulli_beta_predictive",
    "Conj.C24_bernoulli_beta_predictive_one"
   ],
   "note": ""
  },
  {
   "property": "C25",
   "status": "proved",
   "theorems": [
    "Conj.C25_negative_binomial_beta_predictive"
   ],
   "note": ""
  },
  {
   "property": "C26",
   "status": "partial",
   "theorems": [
    "Conj.C26_geometric_beta_predictive_shifted_partial",
    "Conj.C26_geometric_beta_predictive_false"
   ],
   "note": "False of the code: the pmf of BetaGeometric is shifted by one. Negation and the shifted identity (partial) proved."
  },
  {
   "property": "C27",
   "status": "partial",
   "theorems": [
    "Conj.C27_poisson_gamma_predictive_partial",
    "Conj.C27_poisson_gamma_predictive_iff"
   ],
   "note": "Holds iff n = 1; proved as iff, partial theorem for n = 1."
  },
  {
   "property": "C28",
   "status": "partial",
   "theorems": [
    "Conj.C28_exponential_gamma_predictive_iff",
    "Conj.C28_exponential_gamma_predictive_swapped_partial",
    "Conj.C28_exponential_pipeline"
   ],
   "note": "Predictive is right for the swapped parameters only; exact iff, partial, and the whole pipeline proved."
  },
  {
   "property": "C29",
   "status": "proved",
   "theorems": [
    "Conj.C29_gamma_known_shape_predictive"
   ],
   "note": ""
  },
  {
   "property": "C30",
   "status": "proved",
   "theorems": [
    "Conj.C30_normal_known_variance_predictive",
    "Conj.C30_normal_known_precision_predictive"
   ],
   "note": ""
  },
  {
   "property": "C31",
   "status": "proved",
   "theorems": [
    "Conj.C31_normal_known_mean_predictive"
   ],
   "note": ""
  },
  {
   "property": "C32",
   "status": "proved",
   "theorems": [
    "Conj.C32_normal_predictive_nig",
    "Conj.C32_normal_predictive_ng",
    "Conj.C32_normal_predictive_no_nu"
   ],
   "note": ""
  },
  {
   "property": "C33",
   "status": "proved",
   "theorems": [
    "Conj.C33_linear_regression_predictive"
   ],
   "note": ""
  },
  {
   "property": "C34",
   "status": "proved",
   "theorems": [
    "Conj.C34_multivariate_normal_known_covariance_predictive",
    "Conj.C34_multivariate_normal_known_precision_predictive"
   ],
   "note": ""
  },
  {
   "property": "C35",
   "status": "proved",
   "theorems": [
    "Conj.C35_multivariate_normal_predictive"
   ],
   "note": ""
  },
  {
   "property": "C36",
   "status": "proved",
   "theorems": [
    "Conj.C36_multinomial_dirichlet_predictive",
    "Conj.C36_categorical_dirichlet_predictive",
    "Conj.C36_one_trial"
   ],
   "note": ""
  },
  {
   "property": "C37",
   "status": "partial",
   "theorems": [
    "Conj.C37_binomial_beta",
    "Conj.C37_bernoulli_beta",
    "Conj.C37_negative_binomial_beta",
    "Conj.C37_geometric_beta",
    "Conj.C37_poisson_gamma",
    "Conj.C37_exponential_gamma",
    "Conj.C37_gamma_known_shape",
    "Conj.C37_inverse_gamma_known_rate",
    "Conj.C37_pareto_gamma",
    "Conj.C37_weibull",
    "Conj.C37_gamma",
    "Conj.C37_gamma_known_rate",
    "Conj.C37_beta",
    "Conj.C37_von_mises_known_direction",
    "Conj.C37_categorical_dirichlet",
    "Conj.C37_multinomial_dirichlet",
    "Conj.C37_uniform_pareto",
    "Conj.C37_normal_known_variance",
    "Conj.C37_normal_known_precision",
    "Conj.C37_normal_known_mean_inverse_gamma",
    "Conj.C37_normal_known_mean_scaled_inverse_chi_squared",
    "Conj.C37_normal_nig",
    "Conj.C37_normal_ng",
    "Conj.C37_log_normal",
    "Conj.C37_log_normal_ng",
    "Conj.C37_hypergeometric_fails",
    "Conj.C37_von_mises_known_concentration_fails"
   ],
   "note": "Proved for every scalar model except hypergeometric_beta_binomial and von_mises_known_concentration, for which its negation is proved (_fails). normal/log_normal need nonempty batches (n=0 raises, see C40)."
  },
  {
   "property": "C38",
   "status": "proved",
   "theorems": [
    "Conj.C38_linear_regression",
    "Conj.C38_multivariate_normal_known_covariance",
    "Conj.C38_multivariate_normal_known_precision",
    "Conj.C38_multivariate_normal_known_mean",
    "Conj.C38_multivariate_normal"
   ],
   "note": ""
  },
  {
   "property": "C39",
   "status": "partial",
   "theorems": [
    "Conj.C39_binomial_beta",
    "Conj.C39_negative_binomial_beta",
    "Conj.C39_geometric_beta",
    "Conj.C39_poisson_gamma",
    "Conj.C39_exponential_gamma",
    "Conj.C39_gamma_known_shape",
    "Conj.C39_inverse_gamma_known_rate",
    "Conj.C39_pareto_gamma",
    "Conj.C39_weibull",
    "Conj.C39_von_mises_known_direction",
    "Conj.C39_bernoulli_beta",
    "Conj.C39_gamma",
    "Conj.C39_gamma_known_rate",
    "Conj.C39_beta",
    "Conj.C39_categorical_dirichlet",
    "Conj.C39_multinomial_dirichlet",
    "Conj.C39_uniform_pareto",
    "Conj.C39_hypergeometric_beta_binomial",
    "Conj.C39_normal_known_variance",
    "Conj.C39_normal_known_precision",
    "Conj.C39_normal_known_mean_inverse_gamma",
    "Conj.C39_normal_known_mean_scaled_inverse_chi_squared",
    "Conj.C39_normal_nig",
    "Conj.C39_normal_ng",
    "Conj.C39_log_normal",
    "Conj.C39_von_mises_known_concentration_fails",
    "Conj.C39_linear_regression",
    "Conj.C39_linear_regression_batches",
    "Conj.C39_multivariate_normal_known_mean",
    "Conj.C39_multivariate_normal_known_mean_batches",
    "Conj.C39_multivariate_normal",
    "Conj.C39_multivariate_normal_batches",
    "Conj.C39_multivariate_normal_known_covariance"
   ],
   "note": "Proved for every scalar model and every matrix model; false of von_mises_known_concentration (_fails)."
  },
  {
   "property": "C40",
   "status": "partial",
   "theorems": [
    "Conj.C40_additive_models",
    "Conj.C40_proportional_models",
    "Conj.C40_uniform_pareto",
    "Conj.C40_dirichlet",
    "Conj.C40_normal_known_variance",
    "Conj.C40_normal_known_mean",
    "Conj.C40_normal_no_data_raises",
    "Conj.C40_linear_regression",
    "Conj.C40_multivariate_normal_known_covariance",
    "Conj.C40_multivariate_normal_known_mean",
    "Conj.C40_multivariate_normal_no_rows_nan"
   ],
   "note": "Proved for every model except normal and log_normal, which raise ZeroDivisionError at n=0, and multivariate_normal, which gives nan on no rows (all proved in the semantics with exceptions)."
  },
  {
   "property": "C41",
   "status": "partial",
   "theorems": [
    "Conj.C41_linear_regression",
    "Conj.C41_multivariate_normal_known_covariance",
    "Conj.C41_multivariate_normal_known_mean",
    "Conj.C41_binomial_beta",
    "Conj.C41_bernoulli_beta",
    "Conj.C41_negative_binomial_beta",
    "Conj.C41_geometric_beta",
    "Conj.C41_hypergeometric_beta_binomial",
    "Conj.C41_gamma_posteriors",
    "Conj.C41_pareto_gamma",
    "Conj.C41_uniform_pareto",
    "Conj.C41_weibull",
    "Conj.C41_normal_known_variance",
    "Conj.C41_normal_known_mean",
    "Conj.C41_normal",
    "Conj.C41_dirichlet",
    "Conj.C41_gamma",
    "Conj.C41_gamma_known_rate",
    "Conj.C41_beta",
    "Conj.C41_von_mises_known_direction",
    "Conj.C41_von_mises_known_concentration_fails",
    "Conj.C41_multivariate_normal"
   ],
   "note": "Proved for all models but von_mises_known_concentration, whose posterior concentration can be negative (_fails)."
  },
  {
   "property": "C42",
   "status": "proved",
   "theorems": [
    "Conj.C42_multivariate_normal_known_covariance",
    "Conj.C42_multivariate_normal_known_precision",
    "Conj.C42_linear_regression",
    "Conj.C42_multivariate_normal_known_mean",
    "Conj.C42_binomial_beta",
    "Conj.C42_poisson_gamma",
    "Conj.C42_normal_known_variance_mean",
    "Conj.C42_normal_known_variance_variance",
    "Conj.C42_normal_known_variance_decreasing",
    "Conj.C42_normal"
   ],
   "note": ""
  },
  {
   "property": "C43",
   "status": "proved",
   "theorems": [
    "Conj.C43_precision_is_variance",
    "Conj.C43_precision_closed_form",
    "Conj.C43_normal_gamma_inverse_gamma",
    "Conj.C43_normal_predictive_gamma_inverse_gamma",
    "Conj.C43_known_mean_classes",
    "Conj.C43_known_mean_predictive_classes",
    "Conj.C43_log_normal",
    "Conj.C43_deprecated",
    "Conj.C43_categorical_multinomial",
    "Conj.C43_bernoulli_binomial"
   ],
   "note": ""
  },
  {
   "property": "C44",
   "status": "proved",
   "theorems": [
    "Conj.C44_multivariate_normal_known_covariance",
    "Conj.C44_multivariate_normal_known_precision",
    "Conj.C44_known_covariance_predictive",
    "Conj.C44_known_precision_predictive",
    "Conj.C44_multivariate_normal_known_mean",
    "Conj.C44_multivariate_normal",
    "Conj.C44_multivariate_normal_predictive",
    "Conj.C44_linear_regression_ones",
    "Conj.C44_linear_regression_ones_predictive"
   ],
   "note": ""
  },
  {
   "property": "C45",
   "status": "proved",
   "theorems": [
    "Conj.C45_beta_from_mean",
    "Conj.C45_from_successes_and_failures",
    "Conj.C45_normal_from_mean_and_variance",
    "Conj.C45_normal_from_mean_and_precision",
    "Conj.C45_normal_uninformative",
    "Conj.C45_gamma_from_occurrences",
    "Conj.C45_nig_new_iff",
    "Conj.C45_nig_new_errors",
    "Conj.C45_nig_inverse_gamma",
    "Conj.C45_scaled_inverse_chi_squared",
    "Conj.C45_niw_inverse_wishart",
    "Conj.C45_dirichlet_uninformative"
   ],
   "note": ""
  },
  {
   "property": "C46",
   "status": "proved",
   "theorems": [
    "Conj.C46_binomial_beta",
    "Conj.C46_binomial_beta_shapes",
    "Conj.C46_binomial_beta_predictive",
    "Conj.C46_binomial_beta_predictive_shapes",
    "Conj.C46_bernoulli_beta",
    "Conj.C46_bernoulli_beta_shapes",
    "Conj.C46_bernoulli_beta_predictive",
    "Conj.C46_bernoulli_beta_predictive_shapes",
    "Conj.C46_negative_binomial_beta",
    "Conj.C46_negative_binomial_beta_shapes",
    "Conj.C46_negative_binomial_beta_predictive",
    "Conj.C46_negative_binomial_beta_predictive_shapes",
    "Conj.C46_hypergeometric_beta_binomial",
    "Conj.C46_hypergeometric_beta_binomial_shapes",
    "Conj.C46_geometric_beta",
    "Conj.C46_geometric_beta_shapes",
    "Conj.C46_geometric_beta_predictive",
    "Conj.C46_geometric_beta_predictive_shapes",
    "Conj.C46_poisson_gamma",
    "Conj.C46_poisson_gamma_shapes",
    "Conj.C46_poisson_gamma_predictive",
    "Conj.C46_poisson_gamma_predictive_shapes",
    "Conj.C46_exponential_gamma",
    "Conj.C46_exponential_gamma_shapes",
    "Conj.C46_exponential_gamma_predictive",
    "Conj.C46_exponential_gamma_predictive_shapes",
    "Conj.C46_gamma_known_shape",
    "Conj.C46_gamma_known_shape_shapes",
    "Conj.C46_gamma_known_shape_predictive",
    "Conj.C46_gamma_known_shape_predictive_shapes",
    "Conj.C46_inverse_gamma_known_rate",
    "Conj.C46_inverse_gamma_known_rate_shapes",
    "Conj.C46_normal_known_variance",
    "Conj.C46_normal_known_variance_shapes",
    "Conj.C46_normal_known_variance_predictive",
    "Conj.C46_normal_known_variance_predictive_shapes",
    "Conj.C46_normal_known_precision",
    "Conj.C46_normal_known_precision_shapes",
    "Conj.C46_normal_known_precision_predictive",
    "Conj.C46_normal_known_precision_predictive_shapes",
    "Conj.C46_uniform_pareto",
    "Conj.C46_uniform_pareto_shapes",
    "Conj.C46_pareto_gamma",
    "Conj.C46_pareto_gamma_shapes",
    "Conj.C46_gamma",
    "Conj.C46_gamma_shapes",
    "Conj.C46_gamma_known_rate",
    "Conj.C46_gamma_known_rate_shapes",
    "Conj.C46_beta",
    "Conj.C46_beta_shapes",
    "Conj.C46_von_mises_known_concentration",
    "Conj.C46_von_mises_known_concentration_shapes",
    "Conj.C46_von_mises_known_direction",
    "Conj.C46_von_mises_known_direction_shapes",
    "Conj.C46_weibull_inverse_gamma_known_shape",
    "Conj.C46_weibull_inverse_gamma_known_shape_shapes",
    "Conj.C46_normal_known_mean",
    "Conj.C46_normal_known_mean_predictive",
    "Conj.C46_normal_normal_gamma",
    "Conj.C46_normal_normal_inverse_gamma",
    "Conj.C46_normal_shapes",
    "Conj.C46_normal_predictive_normal_gamma",
    "Conj.C46_uncombined_shapes_not_compared"
   ],
   "note": ""
  },
  {
   "property": "C47",
   "status": "proved",
   "theorems": [
    "Conj.C47_binomial_beta",
    "Conj.C47_binomial_beta_predictive",
    "Conj.C47_bernoulli_beta",
    "Conj.C47_bernoulli_beta_predictive",
    "Conj.C47_negative_binomial_beta",
    "Conj.C47_negative_binomial_beta_predictive",
    "Conj.C47_hypergeometric_beta_binomial",
    "Conj.C47_geometric_beta",
    "Conj.C47_geometric_beta_predictive",
    "Conj.C47_poisson_gamma",
    "Conj.C47_poisson_gamma_predictive",
    "Conj.C47_exponential_gamma",
    "Conj.C47_exponential_gamma_predictive",
    "Conj.C47_gamma_known_shape",
    "Conj.C47_gamma_known_shape_predictive",
    "Conj.C47_inverse_gamma_known_rate",
    "Conj.C47_normal_known_variance",
    "Conj.C47_normal_known_variance_predictive",
    "Conj.C47_normal_known_precision",
    "Conj.C47_normal_known_precision_predictive",
    "Conj.C47_uniform_pareto",
    "Conj.C47_pareto_gamma",
    "Conj.C47_gamma",
    "Conj.C47_gamma_known_rate",
    "Conj.C47_beta",
    "Conj.C47_von_mises_known_concentration",
    "Conj.C47_von_mises_known_direction",
    "Conj.C47_weibull_inverse_gamma_known_shape",
    "Conj.C47_normal_known_mean",
    "Conj.C47_normal_known_mean_predictive",
    "Conj.C47_normal",
    "Conj.C47_log_normal",
    "Conj.C47_normal_predictive"
   ],
   "note": ""
  },
  {
   "property": "C48",
   "status": "proved",
   "theorems": [
    "Conj.C48_binomial_beta",
    "Conj.C48_bernoulli_beta",
    "Conj.C48_negative_binomial_beta",
    "Conj.C48_hypergeometric_beta_binomial",
    "Conj.C48_geometric_beta",
    "Conj.C48_poisson_gamma",
    "Conj.C48_exponential_gamma",
    "Conj.C48_gamma_known_shape",
    "Conj.C48_inverse_gamma_known_rate",
    "Conj.C48_pareto_gamma",
    "Conj.C48_uniform_pareto",
    "Conj.C48_gamma",
    "Conj.C48_gamma_known_rate",
    "Conj.C48_beta",
    "Conj.C48_von_mises_known_direction",
    "Conj.C48_weibull_inverse_gamma_known_shape",
    "Conj.C48_poisson_gamma_predictive",
    "Conj.C48_normal_known_variance",
    "Conj.C48_normal_known_precision",
    "Conj.C48_normal_known_variance_predictive",
    "Conj.C48_normal_known_precision_predictive",
    "Conj.C48_normal_known_mean_inverse_gamma",
    "Conj.C48_normal_known_mean_scaled_inverse_chi_squared",
    "Conj.C48_normal_known_mean_predictive_inverse_gamma",
    "Conj.C48_normal_known_mean_predictive_scaled_inverse_chi_squared",
    "Conj.C48_normal_nig",
    "Conj.C48_normal_ng",
    "Conj.C48_log_normal",
    "Conj.C48_normal_predictive_nig",
    "Conj.C48_normal_predictive_ng",
    "Conj.C48_beta_from_mean",
    "Conj.C48_normal_from_mean_and_variance",
    "Conj.C48_normal_from_mean_and_precision",
    "Conj.C48_exponential_mul",
    "Conj.C48_normal_mul"
   ],
   "note": ""
  },
  {
   "property": "C49",
   "status": "proved",
   "theorems": [
    "Conj.C49_poisson_add",
    "Conj.C49_poisson_mul",
    "Conj.C49_poisson_algebra"
   ],
   "note": ""
  },
  {
   "property": "C50",
   "status": "proved",
   "theorems": [
    "Conj.C50_gamma_mul",
    "Conj.C50_negative_binomial_mul",
    "Conj.C50_exponential_mul",
    "Conj.C50_mul_composes"
   ],
   "note": ""
  },
  {
   "property": "C51",
   "status": "proved",
   "theorems": [
    "Conj.C51_normal_mul",
    "Conj.C51_normal_parameters",
    "Conj.C51_normal_composes"
   ],
   "note": ""
  },
  {
   "property": "C52",
   "status": "proved",
   "theorems": [
    "Conj.C52_gamma",
    "Conj.C52_beta",
    "Conj.C52_normal",
    "Conj.C52_pareto",
    "Conj.C52_inverse_gamma",
    "Conj.C52_scaled_inverse_chi_squared",
    "Conj.C52_student_t",
    "Conj.C52_lomax",
    "Conj.C52_weibull",
    "Conj.C52_poisson",
    "Conj.C52_geometric",
    "Conj.C52_binomial",
    "Conj.C52_negative_binomial",
    "Conj.C52_hypergeometric",
    "Conj.C52_hypergeometric_law"
   ],
   "note": ""
  },
  {
   "property": "C53",
   "status": "partial",
   "theorems": [
    "Conj.C53_uniform_dist_partial",
    "Conj.C53_uniform_dist_iff"
   ],
   "note": "False of the code unless low = 0: .dist is uniform on [low, low + high]. Exact iff proved; the partial theorem gives the density of .dist."
  },
  {
   "property": "C54",
   "status": "partial",
   "theorems": [
    "Conj.C54_exponential_dist_partial",
    "Conj.C54_exponential_dist_iff",
    "Conj.C54_log_normal_dist_partial",
    "Conj.C54_log_normal_dist_iff"
   ],
   "note": "False of the code: Exponential.dist uses scale=lam, LogNormal.dist uses loc=mu; exact iff's and partial theorems proved."
  },
  {
   "property": "C55",
   "status": "partial",
   "theorems": [
    "Conj.C55_compound_gamma_normalised",
    "Conj.C55_beta_geometric_total",
    "Conj.C55_beta_geometric_not_normalised",
    "Conj.C55_beta_geometric_shifted_partial"
   ],
   "note": "CompoundGamma is proved normalised; BetaGeometric is not normalised on its stated support (off by one), proved, with the shifted total as partial."
  },
  {
   "property": "C56",
   "status": "partial",
   "theorems": [
    "Conj.C56_multivariate_normal_list",
    "Conj.C56_multivariate_student_t_list",
    "Conj.C56_index_composes",
    "Conj.C56_multivariate_normal_int",
    "Conj.C56_multivariate_student_t_int_partial",
    "Conj.C56_multivariate_student_t_int_iff",
    "Conj.C56_multivariate_student_t_int_false"
   ],
   "note": "Proved for MultivariateNormal (int and list) and MultivariateStudentT (list). False for MultivariateStudentT[int]: scale lacks the square root; exact iff (sigma_ii = 1), a counterexample and the true marginal (_partial) are proved."
  },
  {
   "property": "C57",
   "status": "proved",
   "theorems": [
    "Conj.C57_binomial_beta",
    "Conj.C57_binomial_beta_predictive",
    "Conj.C57_bernoulli_beta",
    "Conj.C57_bernoulli_beta_predictive",
    "Conj.C57_negative_binomial_beta",
    "Conj.C57_negative_binomial_beta_predictive",
    "Conj.C57_hypergeometric_beta_binomial",
    "Conj.C57_geometric_beta",
    "Conj.C57_geometric_beta_predictive",
    "Conj.C57_poisson_gamma",
    "Conj.C57_poisson_gamma_predictive",
    "Conj.C57_exponential_gamma",
    "Conj.C57_exponential_gamma_predictive",
    "Conj.C57_gamma_known_shape",
    "Conj.C57_gamma_known_shape_predictive",
    "Conj.C57_inverse_gamma_known_rate",
    "Conj.C57_normal_known_variance",
    "Conj.C57_normal_known_variance_predictive",
    "Conj.C57_normal_known_precision",
    "Conj.C57_normal_known_precision_predictive",
    "Conj.C57_uniform_pareto",
    "Conj.C57_pareto_gamma",
    "Conj.C57_weibull_inverse_gamma_known_shape",
    "Conj.C57_normal_known_mean",
    "Conj.C57_normal_known_mean_predictive",
    "Conj.C57_indexing"
   ],
   "note": ""
  },
  {
   "property": "C58",
   "status": "partial",
   "theorems": [
    "Conj.C58_bad_index_partial",
    "Conj.C58_bad_index_returns_whole",
    "Conj.C58_bad_index_mixes"
   ],
   "note": "False of the code: SliceMixin swallows every exception, so an out-of-range index returns the parameters unsliced (C58_bad_index_returns_whole) or mixes elements and whole vectors (C58_bad_index_mixes). C58_bad_index_partial: the parameter array itself raises exactly when the index is out of range."
  },
  {
   "property": "C59",
   "status": "proved",
   "theorems": [
    "Conj.C59_Beta_slice",
    "Conj.C59_Gamma_slice",
    "Conj.C59_InverseGamma_slice",
    "Conj.C59_Normal_slice",
    "Conj.C59_BetaBinomial_slice",
    "Conj.C59_BetaNegativeBinomial_slice",
    "Conj.C59_BetaGeometric_slice",
    "Conj.C59_NegativeBinomial_slice",
    "Conj.C59_Lomax_slice",
    "Conj.C59_CompoundGamma_slice",
    "Conj.C59_StudentT_slice",
    "Conj.C59_ScaledInverseChiSquared_slice",
    "Conj.C59_Pareto_slice",
    "Conj.C59_Binomial_slice",
    "Conj.C59_Exponential_slice",
    "Conj.C59_Hypergeometric_slice",
    "Conj.C59_Poisson_slice",
    "Conj.C59_Geometric_slice",
    "Conj.C59_Uniform_slice",
    "Conj.C59_VonMises_slice",
    "Conj.C59_LogNormal_slice",
    "Conj.C59_Weibull_slice",
    "Conj.C59_class_and_fields_kept",
    "Conj.C59_flags_and_numbers_kept",
    "Conj.C59_arrays_indexed",
    "Conj.C59_plot_bounds_dropped",
    "Conj.C59_slice_of_slice_int",
    "Conj.C59_slice_of_slice_ints",
    "Conj.C59_slice_selects_positions",
    "Conj.C59_slice_positions",
    "Conj.C59_slice_positions_ends"
   ],
   "note": ""
  },
  {
   "property": "C60",
   "status": "proved",
   "theorems": [
    "Conj.C60_max_value",
    "Conj.C60_min_value",
    "Conj.C60_plot_needs_max"
   ],
   "note": ""
  },
  {
   "property": "C61",
   "status": "proved",
   "theorems": [
    "Conj.C61_continuous_grid",
    "Conj.C61_continuous_grid_inside",
    "Conj.C61_continuous_plot"
   ],
   "note": ""
  },
  {
   "property": "C62",
   "status": "partial",
   "theorems": [
    "Conj.C62_discrete_grid_complete",
    "Conj.C62_discrete_grid_partial",
    "Conj.C62_discrete_grid_overshoots_iff",
    "Conj.C62_discrete_grid_outside_bounds",
    "Conj.C62_discrete_plot_partial"
   ],
   "note": "Proved when the bounds differ by an integer; C62_discrete_grid_overshoots_iff shows the grid otherwise leaves the bounds. Completeness holds for all bounds."
  },
  {
   "property": "C63",
   "status": "proved",
   "theorems": [
    "Conj.C63_label_single_line",
    "Conj.C63_label_per_line",
    "Conj.C63_lines_of_parameters",
    "Conj.C63_dirichlet_lines",
    "Conj.C63_dirichlet_iterable"
   ],
   "note": ""
  },
  {
   "property": "C64",
   "status": "partial",
   "theorems": [
    "Conj.C64_conditional_pmf_partial",
    "Conj.C64_unconditional",
    "Conj.C64_conditional_pmf_iff",
    "Conj.C64_conditional_cdf_wrong",
    "Conj.C64_two_coins_drawn_with_half_mass"
   ],
   "note": "Holds for one distribution; false for several (C64_conditional_pmf_iff) and for the cdf (C64_conditional_cdf_wrong)."
  },
  {
   "property": "C65",
   "status": "proved",
   "theorems": [
    "Conj.C65_ticks_short",
    "Conj.C65_ticks_long"
   ],
   "note": ""
  },
  {
   "property": "C66",
   "status": "partial",
   "theorems": [
    "Conj.C66_wrong_type_partial",
    "Conj.C66_union_attribute_error",
    "Conj.C66_decorated_functions"
   ],
   "note": "Proved for every function annotated with one class. False for the five functions annotated with a union: C66_union_attribute_error proves they raise AttributeError."
  },
  {
   "property": "C67",
   "status": "proved",
   "theorems": [
    "Conj.C67_call_binomial_beta",
    "Conj.C67_call_binomial_beta_predictive",
    "Conj.C67_call_bernoulli_beta",
    "Conj.C67_call_bernoulli_beta_predictive",
    "Conj.C67_call_negative_binomial_beta",
    "Conj.C67_call_negative_binomial_beta_predictive",
    "Conj.C67_call_hypergeometric_beta_binomial",
    "Conj.C67_call_geometric_beta",
    "Conj.C67_call_geometric_beta_predictive",
    "Conj.C67_call_categorical_dirichlet",
    "Conj.C67_call_categorical_dirichlet_predictive",
    "Conj.C67_call_multinomial_dirichlet",
    "Conj.C67_call_multinomial_dirichlet_predictive",
    "Conj.C67_call_poisson_gamma",
    "Conj.C67_call_poisson_gamma_predictive",
    "Conj.C67_call_exponential_gamma",
    "Conj.C67_call_exponential_gamma_predictive",
    "Conj.C67_call_gamma_known_shape",
    "Conj.C67_call_gamma_known_shape_predictive",
    "Conj.C67_call_inverse_gamma_known_rate",
    "Conj.C67_call_normal_known_variance",
    "Conj.C67_call_normal_known_variance_predictive",
    "Conj.C67_call_normal_known_precision",
    "Conj.C67_call_normal_known_precision_predictive",
    "Conj.C67_call_normal_known_mean",
    "Conj.C67_call_normal_known_mean_predictive",
    "Conj.C67_call_normal",
    "Conj.C67_call_normal_normal_inverse_gamma",
    "Conj.C67_call_normal_predictive",
    "Conj.C67_call_normal_normal_inverse_gamma_predictive",
    "Conj.C67_call_uniform_pareto",
    "Conj.C67_call_pareto_gamma",
    "Conj.C67_call_gamma",
    "Conj.C67_call_gamma_known_rate",
    "Conj.C67_call_beta",
    "Conj.C67_call_von_mises_known_concentration",
    "Conj.C67_call_von_mises_known_direction",
    "Conj.C67_call_log_normal",
    "Conj.C67_call_weibull_inverse_gamma_known_shape",
    "Conj.C67_right_type"
   ],
   "note": ""
  },
  {
   "property": "C68",
   "status": "partial",
   "theorems": [
    "Conj.C68_seeded_normal_inverse_gamma",
    "Conj.C68_seeded_normal_inverse_gamma_nd",
    "Conj.C68_seeded_normal_gamma",
    "Conj.C68_seeded_normal_wishart",
    "Conj.C68_seeded_normal_inverse_wishart",
    "Conj.C68_seeded_rvs",
    "Conj.C68_return_variance"
   ],
   "note": "Proved for every sampling method and hand-written rvs. Vectorised Dirichlet sampling takes no random_state, so it cannot be seeded."
  },
  {
   "property": "C69",
   "status": "partial",
   "theorems": [
    "Conj.C69_generator_fresh_partial",
    "Conj.C69_generator_fresh_wishart_partial",
    "Conj.C69_seed_restarts",
    "Conj.C69_seeded_samples_on_a_line"
   ],
   "note": "Proved for a Generator. False for an integer seed: C69_seed_restarts, C69_seeded_samples_on_a_line."
  },
  {
   "property": "C70",
   "status": "partial",
   "theorems": [
    "Conj.C70_shapes_partial",
    "Conj.C70_number_of_samples",
    "Conj.C70_one_feature",
    "Conj.C70_no_samples"
   ],
   "note": "Proved for two features or more and one sample or more; the number of samples for every size. False for one feature (C70_one_feature: missing axis, LinAlgError) and for size 0 (C70_no_samples: ValueError)."
  },
  {
   "property": "C71",
   "status": "partial",
   "theorems": [
    "Conj.C71_normal_inverse_gamma_partial",
    "Conj.C71_normal_gamma_iff",
    "Conj.C71_wishart_scaled",
    "Conj.C71_normal_inverse_wishart_iff"
   ],
   "note": "Proved for NormalInverseGamma. For the other three the samples are divided by lam or kappa; right iff that is 1 (C71_normal_gamma_iff, C71_normal_inverse_wishart_iff)."
  },
  {
   "property": "C72",
   "status": "partial",
   "theorems": [
    "Conj.C72_beta_geometric_partial",
    "Conj.C72_compound_gamma_shape",
    "Conj.C72_compound_gamma_partial",
    "Conj.C72_compound_gamma_size_one",
    "Conj.C72_size_zero"
   ],
   "note": "False for size=0, which is taken for no size (C72_size_zero), and for compound_gamma whenever the shape has an axis of length one in front, such as size=1: it is dropped (C72_compound_gamma_size_one). Proved: beta_geometric for every other size, and the exact shape compound_gamma returns (C72_compound_gamma_shape)."
  },
  {
   "property": "C73",
   "status": "partial",
   "theorems": [
    "Conj.C73_lists_concatenate",
    "Conj.C73_lists_right_iff",
    "Conj.C73_mixed_partial",
    "Conj.C73_arrays_partial",
    "Conj.C73_unequal_lengths_truncate",
    "Conj.C73_no_error_for_sequences",
    "Conj.C73_two_categories_become_four"
   ],
   "note": "Proved for arrays, and for an array with a list or tuple. False for two lists or tuples: C73_lists_right_iff, C73_two_categories_become_four, C73_unequal_lengths_truncate."
  },
  {
   "property": "C74",
   "status": "partial",
   "theorems": [
    "Conj.C74_linear_regression_honours",
    "Conj.C74_linear_regression_correct",
    "Conj.C74_known_precision_predictive_honours",
    "Conj.C74_known_precision_predictive_correct",
    "Conj.C74_known_covariance_correct",
    "Conj.C74_known_precision_correct",
    "Conj.C74_known_covariance_ignores_inv",
    "Conj.C74_known_precision_ignores_inv",
    "Conj.C74_known_covariance_honours_partial",
    "Conj.C74_known_precision_honours_partial"
   ],
   "note": "False of multivariate_normal_known_covariance/_precision: the mean helper ignores inv (counterexamples proved). linear_regression and the known-precision predictive honour inv; with a correct inverse every result equals the default one."
  },
  {
   "property": "C75",
   "status": "partial",
   "theorems": [
    "Conj.C75_binomial_beta",
    "Conj.C75_bernoulli_beta",
    "Conj.C75_negative_binomial_beta",
    "Conj.C75_hypergeometric_beta_binomial_partial",
    "Conj.C75_hypergeometric_n_ignored",
    "Conj.C75_geometric_beta",
    "Conj.C75_dirichlet",
    "Conj.C75_poisson_gamma",
    "Conj.C75_exponential_gamma",
    "Conj.C75_gamma_known_shape",
    "Conj.C75_inverse_gamma_known_rate",
    "Conj.C75_normal_known_variance",
    "Conj.C75_normal_known_precision",
    "Conj.C75_normal_known_mean",
    "Conj.C75_normal",
    "Conj.C75_normal_posterior",
    "Conj.C75_uniform_pareto",
    "Conj.C75_pareto_gamma",
    "Conj.C75_gamma",
    "Conj.C75_gamma_known_rate_partial",
    "Conj.C75_gamma_known_rate_beta_ignored",
    "Conj.C75_beta",
    "Conj.C75_von_mises_known_concentration_partial",
    "Conj.C75_von_mises_n_ignored",
    "Conj.C75_von_mises_known_direction",
    "Conj.C75_weibull_inverse_gamma_known_shape",
    "Conj.C75_multivariate_normal_known_precision_iff",
    "Conj.C75_multivariate_normal_known_precision",
    "Conj.C75_multivariate_normal_known_covariance",
    "Conj.C75_linear_regression",
    "Conj.C75_multivariate_normal_known_mean",
    "Conj.C75_multivariate_normal_known_mean_mu",
    "Conj.C75_multivariate_normal"
   ],
   "note": "Proved for every posterior function as injectivity in each data argument; for the models that take the rows themselves, as an equivalence: the posteriors agree exactly when the sufficient statistics do. False for n of hypergeometric_beta_binomial, beta of gamma_known_rate, n of von_mises_known_concentration, which are ignored (three *_ignored theorems)."
  },
  {
   "property": "C76",
   "status": "partial",
   "theorems": [
    "Conj.C76_von_mises_log_likelihood_iff",
    "Conj.C76_von_mises_log_likelihood_partial"
   ],
   "note": "False of the code: log_likelihood is a + cos instead of a * cos; exact iff and partial proved."
  },
  {
   "property": "C77",
   "status": "partial",
   "theorems": [
    "Conj.C77_gate_iff",
    "Conj.C77_gate_partial",
    "Conj.C77_two_components_false",
    "Conj.C77_pre_release"
   ],
   "note": "C77_gate_iff is the full characterisation: right except for a release written 1.12 with two components, where it is false (C77_two_components_false)."
  },
  {
   "property": "C78",
   "status": "proved",
   "theorems": [
    "Conj.C78_step",
    "Conj.C78_history",
    "Conj.C78_times_sampled"
   ],
   "note": ""
  },
  {
   "property": "C79",
   "status": "partial",
   "theorems": [
    "Conj.C79_default_bounds_partial",
    "Conj.C79_default_bounds_vector_partial",
    "Conj.C79_beta_bounds",
    "Conj.C79_uniform_bounds_iff",
    "Conj.C79_von_mises_bounds",
    "Conj.C79_beta_negative_binomial_false"
   ],
   "note": "Proved for Beta, Binomial, BetaBinomial, Hypergeometric; false for BetaNegativeBinomial and, because of Uniform.dist, for Uniform with low > 0 (iff proved)."
  },
  {
   "property": "C80",
   "status": "proved",
   "theorems": [
    "Conj.C80_keyword_order"
   ],
   "note": ""
  },
  {
   "property": "C81",
   "status": "proved",
   "theorems": [
    "Conj.C81_defaults_geometric_beta",
    "Conj.C81_defaults_geometric_beta_predictive",
    "Conj.C81_defaults_categorical_dirichlet_predictive",
    "Conj.C81_defaults_multinomial_dirichlet_predictive",
    "Conj.C81_defaults_poisson_gamma_predictive",
    "Conj.C81_defaults_uniform_pareto",
    "Conj.C81_defaults_pareto_gamma",
    "Conj.C81_defaults_von_mises_known_concentration",
    "Conj.C81_defaults",
    "Conj.C81_parameters_distinct"
   ],
   "note": ""
  },
  {
   "property": "C82",
   "status": "proved",
   "theorems": [
    "Conj.C82_malformed_call"
   ],
   "note": ""
  },
  {
   "property": "C83",
   "status": "partial",
   "theorems": [
    "Conj.C83_rows_partial",
    "Conj.C83_means",
    "Conj.C83_no_seed_no_plot",
    "Conj.C83_vector_plot"
   ],
   "note": "Row-by-row sampling and means proved. Seeding and plotting a matrix raise TypeError: C83_no_seed_no_plot."
  },
  {
   "property": "C84",
   "status": "partial",
   "theorems": [
    "Conj.C84_binomial_beta",
    "Conj.C84_bernoulli_beta",
    "Conj.C84_negative_binomial_beta",
    "Conj.C84_geometric_beta_false",
    "Conj.C84_geometric_beta_shifted_partial",
    "Conj.C84_poisson_gamma_iff",
    "Conj.C84_exponential_gamma_iff",
    "Conj.C84_gamma_known_shape",
    "Conj.C84_normal_known_variance",
    "Conj.C84_normal_known_precision",
    "Conj.C84_normal_known_mean",
    "Conj.C84_normal_nig",
    "Conj.C84_normal_ng",
    "Conj.C84_linear_regression",
    "Conj.C84_multivariate_normal_known_covariance",
    "Conj.C84_multivariate_normal_known_precision",
    "Conj.C84_multivariate_normal",
    "Conj.C84_categorical_dirichlet",
    "Conj.C84_multinomial_dirichlet"
   ],
   "note": "Proved for 14 of the 17 model/predictive pairs. False for geometric data (C84_geometric_beta_false, every point), Poisson exposure other than 1 (C84_poisson_gamma_iff) and exponential data unless the prior parameters are equal (C84_exponential_gamma_iff)."
  },
  {
   "property": "C85",
   "status": "partial",
   "theorems": [
    "Conj.C85_binomial_beta",
    "Conj.C85_bernoulli_beta",
    "Conj.C85_negative_binomial_beta",
    "Conj.C85_poisson_gamma",
    "Conj.C85_gamma_known_shape",
    "Conj.C85_normal_known_variance",
    "Conj.C85_normal_known_precision",
    "Conj.C85_normal_known_mean",
    "Conj.C85_normal_nig",
    "Conj.C85_normal_ng",
    "Conj.C85_geometric_beta_false",
    "Conj.C85_exponential_gamma_iff",
    "Conj.C85_linear_regression",
    "Conj.C85_multivariate_normal_known_covariance",
    "Conj.C85_multivariate_normal_known_precision",
    "Conj.C85_multivariate_normal",
    "Conj.C85_categorical_dirichlet",
    "Conj.C85_multinomial_dirichlet"
   ],
   "note": "Proved for 15 pairs (Poisson with the default exposure). False for geometric data (C85_geometric_beta_false) and for exponential data unless the prior parameters are equal (C85_exponential_gamma_iff)."
  },
  {
   "property": "C86",
   "status": "proved",
   "theorems": [
    "Conj.C86_normal_inverse_gamma",
    "Conj.C86_normal_inverse_gamma_variance",
    "Conj.C86_normal_inverse_gamma_nd",
    "Conj.C86_normal_gamma",
    "Conj.C86_normal_gamma_variance",
    "Conj.C86_normal_inverse_wishart",
    "Conj.C86_normal_inverse_wishart_variance",
    "Conj.C86_exact_draws_possible",
    "Conj.C86_normal_wishart",
    "Conj.C86_normal_wishart_variance"
   ],
   "note": ""
  },
  {
   "property": "C87",
   "status": "partial",
   "theorems": [
    "Conj.C87_compound_gamma",
    "Conj.C87_beta_geometric_shifted_partial",
    "Conj.C87_beta_geometric_false"
   ],
   "note": "Proved for the compound gamma. For the beta geometric rvs draws k with the probability pmf reports for k - 1 (C87_beta_geometric_shifted_partial); it never has the law pmf describes (C87_beta_geometric_false)."
  },
  {
   "property": "C88",
   "status": "partial",
   "theorems": [
    "Conj.C88_binomial_beta",
    "Conj.C88_bernoulli_beta",
    "Conj.C88_negative_binomial_beta",
    "Conj.C88_geometric_beta",
    "Conj.C88_poisson_gamma",
    "Conj.C88_exponential_gamma_own_class",
    "Conj.C88_exponential_gamma_rate_partial",
    "Conj.C88_gamma_known_shape",
    "Conj.C88_inverse_gamma_known_rate",
    "Conj.C88_pareto_gamma",
    "Conj.C88_weibull_inverse_gamma_known_shape",
    "Conj.C88_normal_known_variance",
    "Conj.C88_normal_known_precision",
    "Conj.C88_categorical_dirichlet",
    "Conj.C88_multinomial_dirichlet",
    "Conj.C88_gamma",
    "Conj.C88_gamma_known_rate",
    "Conj.C88_beta",
    "Conj.C88_von_mises_known_direction",
    "Conj.C88_multivariate_normal_known_covariance",
    "Conj.C88_multivariate_normal_known_precision",
    "Conj.C88_linear_regression",
    "Conj.C88_uniform_pareto_limit",
    "Conj.C88_uniform_pareto",
    "Conj.C88_normal_known_mean",
    "Conj.C88_normal_nig",
    "Conj.C88_normal_ng",
    "Conj.C88_log_normal_nig",
    "Conj.C88_log_normal_ng",
    "Conj.C88_von_mises_direction_field",
    "Conj.C88_von_mises_known_concentration_partial",
    "Conj.C88_von_mises_opposite",
    "Conj.C88_multivariate_normal_known_mean",
    "Conj.C88_multivariate_normal"
   ],
   "note": "Proved for the listed models from the strong law of large numbers. Limits of the claim: exponential_gamma concentrates at the value its own Exponential class calls lam, but for data with rate r only when r = 1 (C88_exponential_gamma_rate_partial); uniform_pareto concentrates at max(prior x_m, theta), so at theta only when the prior allows it (C88_uniform_pareto_limit); for von Mises data the posterior direction is right between 0 and pi (C88_von_mises_known_concentration_partial) and points the opposite way between -pi and 0 (C88_von_mises_opposite). For the distributions known up to a constant (C88_gamma, C88_gamma_known_rate, C88_beta, C88_von_mises_known_direction) the kernel can be normalised from some n on and the normalised law concentrates; gamma needs s <= r in the prior (C95_gamma_never_normalisable)."
  },
  {
   "property": "C89",
   "status": "proved",
   "theorems": [
    "Conj.C89_binomial_beta",
    "Conj.C89_bernoulli_beta",
    "Conj.C89_negative_binomial_beta",
    "Conj.C89_geometric_beta",
    "Conj.C89_poisson_gamma",
    "Conj.C89_exponential_gamma",
    "Conj.C89_weibull_inverse_gamma_known_shape",
    "Conj.C89_gamma_known_shape",
    "Conj.C89_multinomial_dirichlet",
    "Conj.C89_categorical_dirichlet",
    "Conj.C89_poisson_gamma_stuck",
    "Conj.C89_batches_disagree"
   ],
   "note": ""
  },
  {
   "property": "C90",
   "status": "proved",
   "theorems": [
    "Conj.C90_geometric_beta_one_start",
    "Conj.C90_pareto_gamma",
    "Conj.C90_normal_known_mean",
    "Conj.C90_normal_known_mean_chi_squared",
    "Conj.C90_normal",
    "Conj.C90_normal_inverse_gamma",
    "Conj.C90_normal_known_precision",
    "Conj.C90_bernoulli_beta",
    "Conj.C90_gamma_known_rate",
    "Conj.C90_beta",
    "Conj.C90_von_mises_known_direction",
    "Conj.C90_uniform_pareto",
    "Conj.C90_log_normal",
    "Conj.C90_binomial_beta",
    "Conj.C90_negative_binomial_beta",
    "Conj.C90_geometric_beta_zero_start",
    "Conj.C90_poisson_gamma",
    "Conj.C90_exponential_gamma",
    "Conj.C90_gamma_known_shape",
    "Conj.C90_inverse_gamma_known_rate",
    "Conj.C90_weibull_inverse_gamma_known_shape",
    "Conj.C90_gamma",
    "Conj.C90_poisson_gamma_predictive",
    "Conj.C90_normal_known_variance_sigma",
    "Conj.C90_normal_known_variance_mu",
    "Conj.C90_normal_known_variance_predictive",
    "Conj.C90_normal_predictive",
    "Conj.C90_normal_known_mean_predictive",
    "Conj.C90_multinomial_dirichlet",
    "Conj.C90_categorical_dirichlet"
   ],
   "note": "Stream bounds for the additive, multiplicative and subtracting updates (binomial, Bernoulli, negative binomial, geometric both starts, Poisson, exponential, gamma, inverse gamma, Weibull, uniform, Pareto, Dirichlet, beta, gamma_known_rate, von Mises direction, normal with known mean and InverseGamma prior); one-call bounds for the predictive distributions, normal, log_normal, normal with known variance/precision and normal_known_mean with ScaledInverseChiSquared prior. The matrix models are not covered."
  },
  {
   "property": "C91",
   "status": "partial",
   "theorems": [
    "Conj.C91_normal_positive",
    "Conj.C91_geometric_beta_positive",
    "Conj.C91_pareto_gamma_positive",
    "Conj.C91_normal_known_mean_positive",
    "Conj.C91_binomial_beta",
    "Conj.C91_negative_binomial_beta",
    "Conj.C91_geometric_beta_zero_start",
    "Conj.C91_poisson_gamma",
    "Conj.C91_exponential_gamma",
    "Conj.C91_gamma_known_shape",
    "Conj.C91_inverse_gamma_known_rate",
    "Conj.C91_weibull_inverse_gamma_known_shape",
    "Conj.C91_uniform_pareto",
    "Conj.C91_multinomial_dirichlet",
    "Conj.C91_normal_known_variance",
    "Conj.C91_normal_known_precision",
    "Conj.C91_normal_predictive",
    "Conj.C91_normal_partial",
    "Conj.C91_normal_false",
    "Conj.C91_normal_known_mean_false",
    "Conj.C91_geometric_beta_false",
    "Conj.C91_pareto_gamma_false"
   ],
   "note": "Proved for the updates that only add. The unconditional claim is false of normal, normal_known_mean, geometric_beta with one_start and pareto_gamma: Python-float witnesses C91_normal_false, C91_normal_known_mean_false, C91_geometric_beta_false, C91_pareto_gamma_false. C91_*_positive give the condition under which the computed parameter is positive; C91_normal_partial: lam and alpha stay positive."
  },
  {
   "property": "C92",
   "status": "partial",
   "theorems": [
    "Conj.C92_binomial_beta",
    "Conj.C92_bernoulli_beta",
    "Conj.C92_negative_binomial_beta",
    "Conj.C92_geometric_beta",
    "Conj.C92_poisson_gamma",
    "Conj.C92_exponential_gamma_own_class",
    "Conj.C92_exponential_gamma_rate_partial",
    "Conj.C92_gamma_known_shape",
    "Conj.C92_inverse_gamma_known_rate",
    "Conj.C92_pareto_gamma",
    "Conj.C92_weibull_inverse_gamma_known_shape",
    "Conj.C92_normal_known_variance",
    "Conj.C92_normal_known_precision",
    "Conj.C92_categorical_dirichlet",
    "Conj.C92_multinomial_dirichlet",
    "Conj.C92_uniform_pareto_limit",
    "Conj.C92_uniform_pareto",
    "Conj.C92_normal_known_mean",
    "Conj.C92_normal_ng_gamma",
    "Conj.C92_normal_nig_inverse_gamma",
    "Conj.C92_normal_nig_mean",
    "Conj.C92_normal_ng_mean",
    "Conj.C92_log_normal_nig_mean",
    "Conj.C92_log_normal_nig_inverse_gamma",
    "Conj.C92_log_normal_ng_mean",
    "Conj.C92_log_normal_ng_gamma",
    "Conj.C92_hypergeometric_breaks",
    "Conj.C92_hypergeometric_stuck",
    "Conj.C92_multivariate_normal_known_covariance",
    "Conj.C92_multivariate_normal_known_precision",
    "Conj.C92_linear_regression",
    "Conj.C92_multivariate_normal_known_mean",
    "Conj.C92_multivariate_normal"
   ],
   "note": "Proved for the listed models; for a vector of parameters the statement is about each coordinate's marginal. As for C88: exponential_gamma recovers the value its own Exponential class calls lam, and a rate r only when r = 1 (C92_exponential_gamma_rate_partial); uniform_pareto recovers max(prior x_m, theta). Random covariance matrices are covered entry by entry, off-diagonal entries included. The hypergeometric example of the script (marked TODO there) does not recover anything: almost surely the second parameter of what hypergeometric_beta_binomial returns is negative from some sample size on (C92_hypergeometric_breaks), and with no marked items the result never changes (C92_hypergeometric_stuck)."
  },
  {
   "property": "C93",
   "status": "partial",
   "theorems": [
    "Conj.C93_multivariate_normal_known_covariance",
    "Conj.C93_multivariate_normal_known_precision",
    "Conj.C93_linear_regression",
    "Conj.C93_multivariate_normal",
    "Conj.C93_binomial_beta",
    "Conj.C93_bernoulli_beta",
    "Conj.C93_negative_binomial_beta",
    "Conj.C93_geometric_beta_shifted_partial",
    "Conj.C93_geometric_beta_false",
    "Conj.C93_poisson_gamma",
    "Conj.C93_gamma_known_shape",
    "Conj.C93_exponential_gamma",
    "Conj.C93_normal_known_variance",
    "Conj.C93_normal_known_precision",
    "Conj.C93_normal_known_mean",
    "Conj.C93_normal_nig",
    "Conj.C93_normal_ng",
    "Conj.C93_categorical_dirichlet",
    "Conj.C93_multinomial_dirichlet"
   ],
   "note": "Proved for all listed models, including regression and the multivariate normal models, except the geometric, where the claim is false (C93_geometric_beta_false): the probability given to k tends to that of k + 1 (C93_geometric_beta_shifted_partial). For Poisson counts it holds for every exposure, although the exact predictive is only right at exposure one (C27); for exponential data it holds although the posterior is inverted (C06, C88)."
  },
  {
   "property": "C94",
   "status": "partial",
   "theorems": [
    "Conj.C94_pareto_gamma",
    "Conj.C94_uniform_pareto",
    "Conj.C94_weibull_inverse_gamma",
    "Conj.C94_inverse_gamma_known_rate",
    "Conj.C94_binomial_beta",
    "Conj.C94_bernoulli_beta",
    "Conj.C94_negative_binomial_beta",
    "Conj.C94_geometric_beta_law",
    "Conj.C94_geometric_beta_false",
    "Conj.C94_poisson_gamma_law",
    "Conj.C94_poisson_gamma_iff",
    "Conj.C94_gamma_known_shape",
    "Conj.C94_exponential_gamma_swapped_partial",
    "Conj.C94_normal_known_variance",
    "Conj.C94_normal_known_precision",
    "Conj.C94_normal_known_mean",
    "Conj.C94_normal_known_mean_scaled_inverse_chi_squared",
    "Conj.C94_seed_restarts",
    "Conj.C94_seed_restarts_too_wide",
    "Conj.C94_multivariate_normal_known_covariance",
    "Conj.C94_multivariate_normal_known_precision",
    "Conj.C94_linear_regression",
    "Conj.C94_multivariate_normal_law",
    "Conj.C94_multivariate_normal_partial",
    "Conj.C94_multivariate_normal_iff",
    "Conj.C94_normal_nig",
    "Conj.C94_normal_ng_law",
    "Conj.C94_normal_ng_partial",
    "Conj.C94_normal_ng_iff"
   ],
   "note": "Proved for the four models without a predictive function and for the predictive functions that are right. poisson_gamma_predictive is the law of the samples exactly for exposure one (C94_poisson_gamma_iff; the law for every exposure is C94_poisson_gamma_law), exponential_gamma_predictive only with its fields exchanged (C94_exponential_gamma_swapped_partial). An integer seed passed to both calls correlates the two stages (C94_seed_restarts, C94_seed_restarts_too_wide). The geometric samples have the law C94_geometric_beta_law and never that of geometric_beta_predictive (C94_geometric_beta_false, cf. C26). Normal with a NormalInverseGamma, multivariate normal with known covariance or precision and linear regression are proved. With a NormalGamma or normal inverse-Wishart posterior the reported variance is that of the mean: the samples have the laws C94_normal_ng_law and C94_multivariate_normal_law, the predictive exactly for lam = 1 and kappa = 1 (the _iff theorems), and always after multiplying by lam or kappa (the _partial theorems)."
  },
  {
   "property": "C95",
   "status": "proved",
   "theorems": [
    "Conj.C95_gamma_never_normalisable",
    "Conj.C95_gamma",
    "Conj.C95_gamma_known_rate",
    "Conj.C95_beta",
    "Conj.C95_von_mises_known_direction"
   ],
   "note": "The converse boundary is proved too: a GammaProportional with s > r can never be normalised, and since both grow by n, neither can any of its posteriors (C95_gamma_never_normalisable)."
  },
  {
   "property": "C96",
   "status": "partial",
   "theorems": [
    "Conj.C96_normal_nig",
    "Conj.C96_log_normal_nig",
    "Conj.C96_linear_regression",
    "Conj.C96_normal_ng_law",
    "Conj.C96_normal_ng_false",
    "Conj.C96_normal_ng_partial",
    "Conj.C96_multivariate_normal_law",
    "Conj.C96_multivariate_normal_false",
    "Conj.C96_multivariate_normal_partial",
    "Conj.C96_rvs",
    "Conj.C96_binomial_beta",
    "Conj.C96_bernoulli_beta",
    "Conj.C96_negative_binomial_beta",
    "Conj.C96_geometric_beta",
    "Conj.C96_poisson_gamma",
    "Conj.C96_gamma_known_shape",
    "Conj.C96_inverse_gamma_known_rate",
    "Conj.C96_pareto_gamma",
    "Conj.C96_normal_known_variance",
    "Conj.C96_normal_known_precision",
    "Conj.C96_exponential_gamma_law"
   ],
   "note": "Proved for NormalInverseGamma posteriors (normal, log-normal, linear regression) and for dist.rvs of the Beta, Gamma and Normal posteriors. False of the code for NormalGamma and NormalInverseWishart: the variance they report is divided by lam or kappa, which grow with the data, so the reported variances gather at zero (C96_normal_ng_law, C96_normal_ng_false, C96_multivariate_normal_law, C96_multivariate_normal_false); multiplied by lam or kappa they gather at the true variance (_partial theorems). exponential_gamma samples gather at the reciprocal of the rate (C96_exponential_gamma_law)."
  },
  {
   "property": "C97",
   "status": "partial",
   "theorems": [
    "Conj.C97_beta",
    "Conj.C97_gamma",
    "Conj.C97_inverse_gamma",
    "Conj.C97_scaled_inverse_chi_squared",
    "Conj.C97_normal",
    "Conj.C97_exponential",
    "Conj.C97_uniform",
    "Conj.C97_pareto",
    "Conj.C97_lomax",
    "Conj.C97_student_t",
    "Conj.C97_compound_gamma",
    "Conj.C97_weibull",
    "Conj.C97_log_normal",
    "Conj.C97_von_mises",
    "Conj.C97_von_mises_principal",
    "Conj.C97_poisson",
    "Conj.C97_binomial",
    "Conj.C97_geometric",
    "Conj.C97_negative_binomial",
    "Conj.C97_beta_binomial",
    "Conj.C97_beta_binomial_one_trial_false",
    "Conj.C97_beta_negative_binomial",
    "Conj.C97_hypergeometric_false",
    "Conj.C97_beta_geometric",
    "Conj.C97_dirichlet",
    "Conj.C97_multinomial",
    "Conj.C97_dirichlet_multinomial",
    "Conj.C97_dirichlet_multinomial_one_trial_false",
    "Conj.C97_multivariate_normal",
    "Conj.C97_multivariate_student_t",
    "Conj.C97_inverse_wishart",
    "Conj.C97_wishart",
    "Conj.C97_normal_inverse_wishart",
    "Conj.C97_normal_wishart",
    "Conj.C97_normal_inverse_gamma",
    "Conj.C97_normal_inverse_gamma_nd",
    "Conj.C97_normal_gamma",
    "Conj.C97_gamma_proportional",
    "Conj.C97_beta_proportional",
    "Conj.C97_von_mises_known_direction_proportional"
   ],
   "note": "Proved for every distribution class with parameters of real, vector and matrix type. False of: BetaBinomial and DirichletMultinomial with one trial (only the shares matter), BetaNegativeBinomial (exchanging n and beta gives the same distribution; the theorem shows this is the only ambiguity), Hypergeometric (exchanging success states and draws), VonMises (directions a whole turn apart; unique in (-pi, pi]), and Binomial/Multinomial with no trials; the iff theorems and the _false theorems say so."
  },
  {
   "property": "C98",
   "status": "partial",
   "theorems": [
    "Conj.C98_binomial_beta",
    "Conj.C98_bernoulli_beta",
    "Conj.C98_negative_binomial_beta",
    "Conj.C98_geometric_beta",
    "Conj.C98_binomial_negative_binomial",
    "Conj.C98_stopping_rule",
    "Conj.C98_poisson_gamma",
    "Conj.C98_exponential_gamma",
    "Conj.C98_gamma_known_shape",
    "Conj.C98_inverse_gamma_known_rate",
    "Conj.C98_pareto_gamma",
    "Conj.C98_uniform_pareto",
    "Conj.C98_weibull",
    "Conj.C98_normal_known_mean",
    "Conj.C98_normal_known_variance",
    "Conj.C98_normal_known_precision",
    "Conj.C98_normal_nig",
    "Conj.C98_normal_ng",
    "Conj.C98_log_normal_nig",
    "Conj.C98_log_normal_ng",
    "Conj.C98_categorical_dirichlet",
    "Conj.C98_multinomial_dirichlet",
    "Conj.C98_linear_regression",
    "Conj.C98_multivariate_normal_known_covariance",
    "Conj.C98_multivariate_normal_known_precision",
    "Conj.C98_multivariate_normal_known_mean",
    "Conj.C98_multivariate_normal",
    "Conj.C98_gamma",
    "Conj.C98_gamma_known_rate",
    "Conj.C98_beta",
    "Conj.C98_von_mises_known_direction",
    "Conj.C98_von_mises_known_concentration_false",
    "Conj.C98_von_mises_known_concentration_partial",
    "Conj.C98_hypergeometric_beta_binomial_false",
    "Conj.C98_hypergeometric_beta_binomial_partial"
   ],
   "note": "Proved as an iff for every model function listed, with two exceptions. von_mises_known_concentration: false when the sine total is zero (the posterior concentration is computed from the sine total alone), C98_von_mises_known_concentration_false, iff proved otherwise. hypergeometric_beta_binomial: false for samples of different sizes (the size is ignored), C98_hypergeometric_beta_binomial_false, iff proved for samples of one size."
  },
  {
   "property": "C99",
   "status": "partial",
   "theorems": [
    "Conj.C99_binomial_beta_successes",
    "Conj.C99_binomial_beta_trials",
    "Conj.C99_bernoulli_beta",
    "Conj.C99_negative_binomial_beta",
    "Conj.C99_geometric_beta",
    "Conj.C99_poisson_gamma_events",
    "Conj.C99_poisson_gamma_exposure",
    "Conj.C99_exponential_gamma_false",
    "Conj.C99_exponential_gamma_partial",
    "Conj.C99_gamma_known_shape_total",
    "Conj.C99_gamma_known_shape_count",
    "Conj.C99_inverse_gamma_known_rate",
    "Conj.C99_pareto_gamma",
    "Conj.C99_weibull",
    "Conj.C99_normal_known_mean_inverse_gamma",
    "Conj.C99_normal_known_variance",
    "Conj.C99_normal_known_precision",
    "Conj.C99_uniform_pareto_max",
    "Conj.C99_uniform_pareto_count",
    "Conj.C99_hypergeometric_beta_binomial_successes",
    "Conj.C99_hypergeometric_draws_false",
    "Conj.C99_multinomial_dirichlet",
    "Conj.C99_categorical_dirichlet"
   ],
   "note": "Proved for the listed functions. False for exponential_gamma with the documented arguments (longer waits raise the rate: C99_exponential_gamma_false, for every prior and all data; it holds with the two arguments exchanged) and for the number of draws in hypergeometric_beta_binomial, which has no effect (C99_hypergeometric_draws_false). For uniform_pareto the thresholds are those above the smaller support bound, below which both probabilities are 1."
  },
  {
   "property": "C100",
   "status": "proved",
   "theorems": [
    "Conj.C100_binomial_beta_predictive",
    "Conj.C100_poisson_gamma_events",
    "Conj.C100_poisson_gamma_exposure",
    "Conj.C100_negative_binomial_beta_predictive",
    "Conj.C100_gamma_known_shape_total",
    "Conj.C100_gamma_known_shape_count",
    "Conj.C100_exponential_gamma_total",
    "Conj.C100_exponential_gamma_count",
    "Conj.C100_normal_known_variance",
    "Conj.C100_normal_known_precision"
   ],
   "note": "For poisson_gamma_predictive the next interval has length 1, where the predictive is right (C27). geometric_beta_predictive is left out: its probabilities do not sum to one (C55)."
  },
  {
   "property": "C101",
   "status": "partial",
   "theorems": [
    "Conj.C101_poisson_gamma",
    "Conj.C101_gamma_known_shape",
    "Conj.C101_gamma_known_shape_predictive",
    "Conj.C101_inverse_gamma_known_rate",
    "Conj.C101_exponential_gamma_false",
    "Conj.C101_exponential_gamma_partial",
    "Conj.C101_pareto_gamma",
    "Conj.C101_uniform_pareto",
    "Conj.C101_weibull",
    "Conj.C101_normal_known_variance",
    "Conj.C101_normal_known_precision",
    "Conj.C101_normal_known_variance_predictive",
    "Conj.C101_normal_known_mean_inverse_gamma",
    "Conj.C101_normal_known_mean_scaled_inverse_chi_squared",
    "Conj.C101_normal_known_mean_predictive",
    "Conj.C101_normal_nig",
    "Conj.C101_normal_ng",
    "Conj.C101_log_normal_nig",
    "Conj.C101_normal_predictive_nig",
    "Conj.C101_multivariate_normal_known_covariance",
    "Conj.C101_multivariate_normal_known_precision",
    "Conj.C101_multivariate_normal_known_covariance_predictive",
    "Conj.C101_multivariate_normal_known_mean",
    "Conj.C101_multivariate_normal",
    "Conj.C101_multivariate_normal_predictive",
    "Conj.C101_linear_regression",
    "Conj.C101_linear_regression_predictive",
    "Conj.C101_von_mises_known_concentration_partial",
    "Conj.C101_von_mises_known_concentration_false",
    "Conj.C101_von_mises_known_direction"
   ],
   "note": "Priors and posteriors are compared by the change-of-variables formula for densities (UnitsSpec); the parameters of the rescaled prior are derived from the density, not assumed. False for exponential_gamma with the documented arguments, for every prior, all data and every change of unit (C101_exponential_gamma_false; it holds with the arguments exchanged), and for von_mises_known_concentration (C101_von_mises_known_concentration_false; its direction does turn with the angles). The Jacobian |det A|^(d+1) of S -> A S A^T on symmetric matrices is part of the specification."
  },
  {
   "property": "C102",
   "status": "partial",
   "theorems": [
    "Conj.C102_dirichlet",
    "Conj.C102_categorical_dirichlet",
    "Conj.C102_multinomial_dirichlet",
    "Conj.C102_dirichlet_multinomial",
    "Conj.C102_multinomial_dirichlet_predictive",
    "Conj.C102_categorical_dirichlet_predictive",
    "Conj.C102_multinomial_dirichlet_share",
    "Conj.C102_categorical_dirichlet_share",
    "Conj.C102_multinomial_dirichlet_share_predictive",
    "Conj.C102_binomial_beta",
    "Conj.C102_bernoulli_beta",
    "Conj.C102_binomial_beta_predictive",
    "Conj.C102_bernoulli_beta_predictive",
    "Conj.C102_hypergeometric_partial",
    "Conj.C102_hypergeometric_false"
   ],
   "note": "The prior over the groups is characterised by its probabilities (Merged, shareProb in RelabelSpec), not by its parameters; at least two groups (with one group there is nothing to say). False for hypergeometric_beta_binomial unless the whole population is sampled (C102_hypergeometric_false, C102_hypergeometric_partial): it counts prior.n - x failures instead of n - x."
  },
  {
   "property": "C103",
   "status": "partial",
   "theorems": [
    "Conj.C103_binomial_beta",
    "Conj.C103_bernoulli_beta",
    "Conj.C103_negative_binomial_beta",
    "Conj.C103_geometric_beta",
    "Conj.C103_poisson_gamma",
    "Conj.C103_gamma_known_shape",
    "Conj.C103_inverse_gamma_known_rate",
    "Conj.C103_pareto_gamma",
    "Conj.C103_uniform_pareto",
    "Conj.C103_weibull_inverse_gamma",
    "Conj.C103_normal_known_variance",
    "Conj.C103_normal_known_precision",
    "Conj.C103_normal_known_mean",
    "Conj.C103_exponential_gamma_swapped_partial",
    "Conj.C103_exponential_gamma_rate_false",
    "Conj.C103_exponential_gamma_mean_false",
    "Conj.C103_log_normal_nig_intervals",
    "Conj.C103_log_normal_ng_intervals",
    "Conj.C103_multivariate_normal_known_covariance_intervals",
    "Conj.C103_multivariate_normal_known_precision_intervals",
    "Conj.C103_multivariate_normal_known_mean_intervals",
    "Conj.C103_multivariate_normal_intervals",
    "Conj.C103_normal_nig_intervals",
    "Conj.C103_normal_ng_intervals",
    "Conj.C103_linear_regression_intervals",
    "Conj.C103_categorical_dirichlet_intervals",
    "Conj.C103_multinomial_dirichlet_intervals",
    "Conj.C103_normal_nig",
    "Conj.C103_normal_ng",
    "Conj.C103_log_normal_nig",
    "Conj.C103_log_normal_ng",
    "Conj.C103_linear_regression",
    "Conj.C103_multivariate_normal_known_covariance",
    "Conj.C103_multivariate_normal_known_precision",
    "Conj.C103_multivariate_normal_known_mean",
    "Conj.C103_multivariate_normal",
    "Conj.C103_categorical_dirichlet",
    "Conj.C103_multinomial_dirichlet"
   ],
   "note": "DrawThenObserve, Calibrated and IntervalCoverage are in CalibrationSpec; each theorem holds on every probability space carrying the draw, and exists_draw shows there is one. False for exponential_gamma: no valid prior and no n >= 1 gives a calibrated posterior, whether the parameter is read as the rate (C103_exponential_gamma_rate_false) or as the mean that Exponential(...).dist and scripts/parameter-recovery.py use (C103_exponential_gamma_mean_false); with n and x_total exchanged it holds for the rate (C103_exponential_gamma_swapped_partial). The quantile interval is stated for one-dimensional unknowns, for the mean, variance or precision of the (log-)normal models, for every regression coefficient, for the probability of a set of categories, for every entry of a mean vector (with posterior[j].dist.ppf when the covariance or precision is known) and for every entry of a covariance matrix."
  },
  {
   "property": "C104",
   "status": "partial",
   "theorems": [
    "Conj.C104_max_of_predictions_le",
    "Conj.C104_max_too_large",
    "Conj.C104_bootstrap_samples",
    "Conj.C104_bootstrap_empty",
    "Conj.C104_new_max_exists",
    "Conj.C104_two_stage_samples",
    "Conj.C104_one_observation_partial",
    "Conj.C104_bootstrap_iff",
    "Conj.C104_bootstrap_maximum_false",
    "Conj.C104_bootstrap_maximum_partial"
   ],
   "note": "True for n_new = 1 (C104_bootstrap_maximum_partial, C104_one_observation_partial). False for every posterior and every n_new >= 2 (C104_bootstrap_maximum_false, C104_max_too_large, C104_bootstrap_iff): independent predictive draws do not share one rate, so the maximum is overstated; for any model it is never understated (C104_max_of_predictions_le). The samples the page's function returns have exactly that law (C104_bootstrap_samples). Updating between draws is right (C85), and so is drawing one rate and then n_new counts (C104_two_stage_samples)."
  },
  {
   "property": "C105",
   "status": "partial",
   "theorems": [
    "Conj.C105_binomial_beta",
    "Conj.C105_negative_binomial_beta",
    "Conj.C105_geometric_beta",
    "Conj.C105_poisson_gamma",
    "Conj.C105_gamma_known_shape",
    "Conj.C105_inverse_gamma_known_rate",
    "Conj.C105_pareto_gamma",
    "Conj.C105_uniform_pareto",
    "Conj.C105_weibull_inverse_gamma",
    "Conj.C105_normal_known_variance",
    "Conj.C105_normal_known_precision",
    "Conj.C105_normal_known_mean",
    "Conj.C105_most_engaged",
    "Conj.C105_difference",
    "Conj.C105_best_total",
    "Conj.C105_exponential_gamma_rate_iff",
    "Conj.C105_exponential_gamma_mean_false",
    "Conj.C105_script_call"
   ],
   "note": "Proved for binomial, negative binomial, geometric, Poisson, gamma, inverse gamma, Pareto, uniform, Weibull and the three normal models with one known parameter (C105_<model>), with the consequences for the charts (C105_most_engaged, C105_difference, C105_best_total). For exponential_gamma, the model of docs/examples/thompson.md, the rate reading holds exactly when every group's sum is its number of observations (C105_exponential_gamma_rate_iff) and the mean reading never (C105_exponential_gamma_mean_false). The call in scripts/post-engagement.py passes beta_prior and is a ValueError (C105_script_call). Samplers are specified by their contract (CorrectFrozen)."
  },
  {
   "property": "C106",
   "status": "partial",
   "theorems": [
    "Conj.C106_operators",
    "Conj.C106_binomial_beta",
    "Conj.C106_negative_binomial_beta",
    "Conj.C106_geometric_beta",
    "Conj.C106_hypergeometric_beta_binomial",
    "Conj.C106_poisson_gamma",
    "Conj.C106_gamma_known_shape",
    "Conj.C106_inverse_gamma_known_rate",
    "Conj.C106_weibull_inverse_gamma",
    "Conj.C106_normal_known_variance",
    "Conj.C106_normal_known_precision",
    "Conj.C106_normal_known_mean_partial",
    "Conj.C106_normal",
    "Conj.C106_documented_text",
    "Conj.C106_documented_query",
    "Conj.C106_normal_known_mean_negative",
    "Conj.C106_integer_division",
    "Conj.C106_integer_division_mu",
    "Conj.C106_integer_division_numbers",
    "Conj.C106_integer_division_shape"
   ],
   "note": "Proved for a database that divides numbers as numbers, for inputs whose text does not begin with a minus sign (a prior mean may): C106_operators, C106_<model>, C106_documented_text, C106_documented_query. False for normal_known_mean with a negative known mean and columns for data: PyPika writes two minus signs, which start a comment, and the column is a syntax error (C106_normal_known_mean_negative). Where integers are divided to integers (PostgreSQL, SQLite, SQL Server) the documented degrees of freedom are right exactly for groups of even size (C106_integer_division), the documented location always (C106_integer_division_mu). PyPika's get_sql is modelled from its source."
  },
  {
   "property": "C107",
   "status": "proved",
   "theorems": [
    "Conj.C107_thompson"
   ],
   "note": "C107_thompson, for any correct samplers of the frozen distributions. Real arithmetic; estimate.dist.rvs(random_state=rng) draws one value per entry."
  },
  {
   "property": "C108",
   "status": "proved",
   "theorems": [
    "Conj.C108_long_run",
    "Conj.C108_documented"
   ],
   "note": "C108_long_run for all positive waits with a variance; C108_documented for exponential waits from Gamma(1, 1). The estimates are those of exponential_gamma as it is (not a Bayes posterior, see C06); they recover the mean wait all the same."
  },
  {
   "property": "C109",
   "status": "proved",
   "theorems": [
    "Conj.C109_binomial_beta",
    "Conj.C109_bernoulli_beta",
    "Conj.C109_negative_binomial_beta",
    "Conj.C109_hypergeometric_beta_binomial",
    "Conj.C109_geometric_beta",
    "Conj.C109_poisson_gamma",
    "Conj.C109_poisson_gamma_predictive",
    "Conj.C109_exponential_gamma",
    "Conj.C109_gamma_known_shape",
    "Conj.C109_inverse_gamma_known_rate",
    "Conj.C109_weibull_inverse_gamma_known_shape",
    "Conj.C109_pareto_gamma",
    "Conj.C109_uniform_pareto",
    "Conj.C109_gamma",
    "Conj.C109_gamma_known_rate",
    "Conj.C109_beta",
    "Conj.C109_von_mises_known_direction",
    "Conj.C109_multinomial_dirichlet",
    "Conj.C109_categorical_dirichlet",
    "Conj.C109_normal_known_variance",
    "Conj.C109_normal_known_precision",
    "Conj.C109_normal_known_variance_predictive",
    "Conj.C109_normal_known_precision_predictive",
    "Conj.C109_normal_known_mean",
    "Conj.C109_normal_known_mean_predictive",
    "Conj.C109_normal_ng",
    "Conj.C109_normal_nig",
    "Conj.C109_normal_predictive",
    "Conj.C109_poisson_gamma_batches",
    "Conj.C109_exponential_gamma_batches",
    "Conj.C109_binomial_beta_batches"
   ],
   "note": "F64 in Ieee.lean models np.float64 with round-to-nearest-even, subnormals, infinities, nan. Powers with literal exponents are taken as correctly rounded; log in pareto_gamma and the sines of von Mises are inputs."
  },
  {
   "property": "C110",
   "status": "partial",
   "theorems": [
    "Conj.C110_poisson_gamma",
    "Conj.C110_exponential_gamma",
    "Conj.C110_weibull_inverse_gamma_known_shape",
    "Conj.C110_von_mises_known_direction",
    "Conj.C110_multinomial_dirichlet",
    "Conj.C110_categorical_dirichlet",
    "Conj.C110_uniform_pareto",
    "Conj.C110_binomial_beta",
    "Conj.C110_bernoulli_beta",
    "Conj.C110_negative_binomial_beta",
    "Conj.C110_hypergeometric_beta_binomial",
    "Conj.C110_geometric_beta",
    "Conj.C110_gamma_known_shape",
    "Conj.C110_inverse_gamma_known_rate",
    "Conj.C110_pareto_gamma",
    "Conj.C110_gamma",
    "Conj.C110_gamma_known_rate",
    "Conj.C110_beta",
    "Conj.C110_normal_known_variance_partial",
    "Conj.C110_normal_known_mean",
    "Conj.C110_normal_partial",
    "Conj.C110_normal_known_variance_false",
    "Conj.C110_normal_no_data_nan"
   ],
   "note": "False for normal_known_variance: with sigma = 2^512 the prior's variance overflows and is silently dropped (C110_normal_known_variance_false). normal with no data gives nan (C110_normal_no_data_nan). For normal and normal_known_variance the true part is in the _partial theorems; for the models with products only finiteness of the inputs is claimed, as a product may underflow."
  },
  {
   "property": "C111",
   "status": "partial",
   "theorems": [
    "Conj.C111_multivariate_normal",
    "Conj.C111_binomial_beta",
    "Conj.C111_bernoulli_beta",
    "Conj.C111_poisson_gamma_mean_partial",
    "Conj.C111_poisson_gamma_variance_iff",
    "Conj.C111_negative_binomial_beta",
    "Conj.C111_normal_known_variance",
    "Conj.C111_normal_known_precision",
    "Conj.C111_normal_known_mean",
    "Conj.C111_normal_known_mean_scaled_inverse_chi_squared",
    "Conj.C111_normal_nig",
    "Conj.C111_normal_ng",
    "Conj.C111_gamma_known_shape",
    "Conj.C111_multinomial_dirichlet",
    "Conj.C111_categorical_dirichlet",
    "Conj.C111_multivariate_normal_known_covariance",
    "Conj.C111_multivariate_normal_known_precision"
   ],
   "note": "poisson_gamma_predictive has the right mean for every n and the right variance only for n = 1 (C111_poisson_gamma_variance_iff). exponential_gamma_predictive and geometric_beta_predictive are not predictive distributions at all (C28, C26). The full statement is proved for the other models. For counts of categories it is stated for every set of categories, for vectors with known covariance coordinate by coordinate, for multivariate_normal_predictive for every combination of coordinates with the exact mean of the covariance matrix; the regression is in C112."
  },
  {
   "property": "C112",
   "status": "proved",
   "theorems": [
    "Conj.C112_prediction_variance",
    "Conj.C112_data_narrows",
    "Conj.C112_wider_away",
    "Conj.C112_simple_regression"
   ],
   "note": ""
  },
  {
   "property": "C113",
   "status": "partial",
   "theorems": [
    "Conj.C113_same_result",
    "Conj.C113_same_result_predictive",
    "Conj.C113_messages_partial",
    "Conj.C113_after_new_filters",
    "Conj.C113_silent_by_default",
    "Conj.C113_stacklevel",
    "Conj.C113_decides",
    "Conj.C113_error",
    "Conj.C113_error_predictive"
   ],
   "note": "With Python's own filters no history of calls prints anything (C113_silent_by_default): stacklevel=1 attributes the warning to conjugate.models, and those filters show a DeprecationWarning of __main__ only. Proved for every list of filters: what is printed and raised, and that the results are those of the replacements."
  },
  {
   "property": "C114",
   "status": "partial",
   "theorems": [
    "Conj.C114_size",
    "Conj.C114_no_broadcast",
    "Conj.C114_documented_size",
    "Conj.C114_number_partial",
    "Conj.C114_no_size_partial",
    "Conj.C114_law",
    "Conj.C114_law_counts",
    "Conj.C114_exponential",
    "Conj.C114_normal",
    "Conj.C114_number_silent",
    "Conj.C114_row_without_size"
   ],
   "note": "The last sentence is false. A number n alone is accepted for a vector of length n and gives one draw per entry (C114_number_silent); C114_number_partial says exactly when it raises. Without a size, axes of length one in front of the parameters are dropped (C114_no_size_partial, C114_row_without_size). The rest is proved."
  },
  {
   "property": "C115",
   "status": "partial",
   "theorems": [
    "Conj.C115_binomial_beta",
    "Conj.C115_bernoulli_beta",
    "Conj.C115_negative_binomial_beta",
    "Conj.C115_geometric_beta",
    "Conj.C115_poisson_gamma",
    "Conj.C115_gamma_known_shape",
    "Conj.C115_inverse_gamma_known_rate",
    "Conj.C115_pareto_gamma",
    "Conj.C115_exponential_gamma_swapped_partial",
    "Conj.C115_uniform_pareto",
    "Conj.C115_weibull_inverse_gamma",
    "Conj.C115_normal_known_variance",
    "Conj.C115_normal_known_precision",
    "Conj.C115_normal_known_mean",
    "Conj.C115_normal_nig",
    "Conj.C115_normal_ng",
    "Conj.C115_multivariate_normal_known_covariance",
    "Conj.C115_multivariate_normal_known_mean",
    "Conj.C115_multivariate_normal",
    "Conj.C115_categorical_dirichlet",
    "Conj.C115_multinomial_dirichlet",
    "Conj.C115_exponential_gamma_rate_false",
    "Conj.C115_running_binomial_beta",
    "Conj.C115_log_normal_nig",
    "Conj.C115_log_normal_ng",
    "Conj.C115_multivariate_normal_known_covariance_intervals",
    "Conj.C115_multivariate_normal_known_precision"
   ],
   "note": "False of exponential_gamma as documented (C115_exponential_gamma_rate_false); with its data arguments exchanged it is proved. Proved in full for the other models with independent observations of one law; the intervals are for one real unknown, or for the mean, the variance and the precision, or for an entry of a mean vector with known covariance or precision, or for the probability of a set of categories."
  },
  {
   "property": "C116",
   "status": "partial",
   "theorems": [
    "Conj.C116_binomial_beta",
    "Conj.C116_bernoulli_beta",
    "Conj.C116_negative_binomial_beta",
    "Conj.C116_poisson_gamma_partial",
    "Conj.C116_gamma_known_shape",
    "Conj.C116_exponential_gamma_swapped_partial",
    "Conj.C116_normal_known_variance",
    "Conj.C116_normal_known_precision",
    "Conj.C116_normal_known_mean",
    "Conj.C116_normal_nig",
    "Conj.C116_normal_ng",
    "Conj.C116_linear_regression",
    "Conj.C116_multivariate_normal_known_covariance",
    "Conj.C116_multivariate_normal_known_precision",
    "Conj.C116_multivariate_normal",
    "Conj.C116_categorical_dirichlet",
    "Conj.C116_multinomial_dirichlet",
    "Conj.C116_geometric_beta_shifted_partial",
    "Conj.C116_geometric_beta_too_low",
    "Conj.C116_poisson_gamma_iff",
    "Conj.C116_poisson_gamma_limit_broken",
    "Conj.C116_exponential_gamma_waiting",
    "Conj.C116_exponential_gamma_iff"
   ],
   "note": "False of geometric_beta_predictive (every value gets too little probability: C116_geometric_beta_too_low), of poisson_gamma_predictive unless n = 1 (C116_poisson_gamma_iff, C116_poisson_gamma_limit_broken: the use in docs/examples/limit.md) and of exponential_gamma followed by exponential_gamma_predictive unless the two prior parameters are equal (C116_exponential_gamma_iff, C116_exponential_gamma_waiting). Proved in full for every other predictive function."
  },
  {
   "property": "C117",
   "status": "partial",
   "theorems": [
    "Conj.C117_cdf_hypergeometric",
    "Conj.C117_cdf_beta_negative_binomial",
    "Conj.C117_plot_pdf",
    "Conj.C117_plot_pmf",
    "Conj.C117_cdf_beta",
    "Conj.C117_cdf_gamma",
    "Conj.C117_cdf_inverse_gamma",
    "Conj.C117_cdf_exponential",
    "Conj.C117_cdf_normal",
    "Conj.C117_cdf_pareto",
    "Conj.C117_cdf_weibull",
    "Conj.C117_cdf_uniform",
    "Conj.C117_cdf_lomax",
    "Conj.C117_cdf_student_t",
    "Conj.C117_cdf_log_normal",
    "Conj.C117_cdf_scaled_inverse_chi_squared",
    "Conj.C117_cdf_poisson",
    "Conj.C117_cdf_geometric",
    "Conj.C117_cdf_negative_binomial",
    "Conj.C117_cdf_binomial",
    "Conj.C117_cdf_beta_binomial",
    "Conj.C117_plot_pmf_conditional",
    "Conj.C117_conditional_one",
    "Conj.C117_binomial_total",
    "Conj.C117_table_error",
    "Conj.C117_cube_error",
    "Conj.C117_table_mixed",
    "Conj.C117_no_cdf_beta_geometric",
    "Conj.C117_no_cdf_compound_gamma"
   ],
   "note": "plot_pdf and plot_pmf: proved for every plotted class (C117_plot_pdf, C117_plot_pmf). plot_cdf as probabilities: 12 continuous and 7 discrete classes (all but BetaGeometric, which has no cdf). False of BetaGeometric and CompoundGamma, whose plot_cdf raises AttributeError (C117_no_cdf_*). Not stated: VonMises (SciPy's cdf is circular). Tables of parameters raise ValueError (C117_table_error, C117_cube_error) unless they have exactly 100 rows, when points of different distributions are joined to one line (C117_table_mixed). conditional=True with several distributions divides by the total of all of them (C117_plot_pmf_conditional; disagreement recorded under C64). matplotlib's ax.plot and SciPy's cdf are modelled by their documented rules."
  },
  {
   "property": "C118",
   "status": "partial",
   "theorems": [
    "Conj.C118_binomial_beta_independent",
    "Conj.C118_bernoulli_beta_independent",
    "Conj.C118_negative_binomial_beta_independent",
    "Conj.C118_geometric_beta_independent",
    "Conj.C118_poisson_gamma_independent",
    "Conj.C118_exponential_gamma_independent",
    "Conj.C118_gamma_known_shape_independent",
    "Conj.C118_inverse_gamma_known_rate_independent",
    "Conj.C118_normal_known_variance_independent",
    "Conj.C118_normal_known_precision_independent",
    "Conj.C118_normal_known_mean_independent",
    "Conj.C118_uniform_pareto_independent",
    "Conj.C118_pareto_gamma_independent",
    "Conj.C118_gamma_independent",
    "Conj.C118_gamma_known_rate_independent",
    "Conj.C118_beta_independent",
    "Conj.C118_von_mises_known_concentration_independent",
    "Conj.C118_von_mises_known_direction_independent",
    "Conj.C118_weibull_inverse_gamma_known_shape_independent",
    "Conj.C118_poisson_gamma_predictive_independent",
    "Conj.C118_poisson_mul_independent",
    "Conj.C118_normal_mul_independent",
    "Conj.C118_binomial_beta_predictive_harmless_partial",
    "Conj.C118_binomial_beta_predictive_shares",
    "Conj.C118_bernoulli_beta_predictive_harmless_partial",
    "Conj.C118_bernoulli_beta_predictive_shares",
    "Conj.C118_negative_binomial_beta_predictive_harmless_partial",
    "Conj.C118_negative_binomial_beta_predictive_shares",
    "Conj.C118_geometric_beta_predictive_harmless_partial",
    "Conj.C118_geometric_beta_predictive_shares",
    "Conj.C118_hypergeometric_beta_binomial_harmless_partial",
    "Conj.C118_hypergeometric_beta_binomial_shares",
    "Conj.C118_exponential_gamma_predictive_harmless_partial",
    "Conj.C118_exponential_gamma_predictive_shares",
    "Conj.C118_gamma_known_shape_predictive_harmless_partial",
    "Conj.C118_gamma_known_shape_predictive_shares",
    "Conj.C118_normal_known_variance_predictive_harmless_partial",
    "Conj.C118_normal_known_variance_predictive_shares",
    "Conj.C118_normal_known_precision_predictive_harmless_partial",
    "Conj.C118_normal_known_precision_predictive_shares",
    "Conj.C118_normal_known_mean_predictive_harmless_partial",
    "Conj.C118_normal_known_mean_predictive_shares",
    "Conj.C118_gamma_mul_harmless_partial",
    "Conj.C118_gamma_mul_shares",
    "Conj.C118_negative_binomial_mul_harmless_partial",
    "Conj.C118_negative_binomial_mul_shares",
    "Conj.C118_binomial_beta_history",
    "Conj.C118_bernoulli_beta_history",
    "Conj.C118_negative_binomial_beta_history",
    "Conj.C118_geometric_beta_history",
    "Conj.C118_poisson_gamma_history",
    "Conj.C118_exponential_gamma_history",
    "Conj.C118_gamma_known_shape_history",
    "Conj.C118_inverse_gamma_known_rate_history",
    "Conj.C118_normal_known_variance_history",
    "Conj.C118_normal_known_precision_history",
    "Conj.C118_normal_known_mean_history",
    "Conj.C118_uniform_pareto_history",
    "Conj.C118_pareto_gamma_history",
    "Conj.C118_gamma_history",
    "Conj.C118_gamma_known_rate_history",
    "Conj.C118_beta_history",
    "Conj.C118_von_mises_known_concentration_history",
    "Conj.C118_von_mises_known_direction_history",
    "Conj.C118_weibull_inverse_gamma_known_shape_history",
    "Conj.C118_poisson_add_independent",
    "Conj.C118_normal_independent",
    "Conj.C118_log_normal_independent",
    "Conj.C118_normal_history",
    "Conj.C118_normal_predictive_harmless_partial",
    "Conj.C118_normal_predictive_shares",
    "Conj.C118_predictive_not_independent",
    "Conj.C118_hypergeometric_not_independent",
    "Conj.C118_categorical_dirichlet_independent_partial",
    "Conj.C118_multinomial_dirichlet_independent_partial",
    "Conj.C118_categorical_dirichlet_history_partial",
    "Conj.C118_multinomial_dirichlet_history_partial",
    "Conj.C118_categorical_dirichlet_predictive_shares",
    "Conj.C118_multinomial_dirichlet_predictive_shares"
   ],
   "note": "Proved for all posterior functions with numeric parameters except hypergeometric_beta_binomial, for poisson_gamma_predictive, Poisson +, Poisson *, Normal * (C118_*_independent), and for whole histories of updates (C118_*_history). False of hypergeometric_beta_binomial, whose posterior holds the prior's own n, and of most predictive functions and Gamma *, NegativeBinomial *, which hand on arrays of their arguments: these leave the arguments alone and have the right parameters (C118_*_harmless_partial) but changing the source array in place changes them (C118_*_shares, C118_predictive_not_independent, C118_hypergeometric_not_independent). The Dirichlet models: proved for counts and prior that + accepts (C118_*_dirichlet_independent_partial, C118_*_dirichlet_history_partial); missing are arguments that + rejects, for which the posterior is a Python list. Not stated: the matrix models. Trusted: numpy operators and ufuncs without out= allocate their result."
  },
  {
   "property": "C119",
   "status": "partial",
   "theorems": [
    "Conj.C119_either_order",
    "Conj.C119_array_left",
    "Conj.C119_array_either_side",
    "Conj.C119_gamma_multiple",
    "Conj.C119_negative_binomial_multiple",
    "Conj.C119_exponential_multiple",
    "Conj.C119_normal_multiple",
    "Conj.C119_poisson_expressions",
    "Conj.C119_sum_raises",
    "Conj.C119_sum_with_start",
    "Conj.C119_sum_with_start_law",
    "Conj.C119_poisson_plus_number",
    "Conj.C119_no_operators",
    "Conj.C119_mixed_sum",
    "Conj.C119_mixed_sum_wrong",
    "Conj.C119_product_accepted",
    "Conj.C119_normal_product"
   ],
   "note": "Either order, arrays on either side, all Poisson expressions, sum with a start and the refusals are proved. False: sum() of Poisson distributions without a start raises AttributeError for every non-empty list (C119_sum_raises; proved with a start: C119_sum_with_start); Poisson + Exponential, in either order, returns a Poisson distribution that is never that of the sum (C119_mixed_sum, C119_mixed_sum_wrong); Gamma * Gamma and Poisson * Poisson return objects with a distribution for a parameter (C119_product_accepted). Python's operator dispatch and numpy's elementwise application to objects are modelled from their documentation."
  },
  {
   "property": "C120",
   "status": "partial",
   "theorems": [
    "Conj.C120_numbers",
    "Conj.C120_bounds_ignored",
    "Conj.C120_self",
    "Conj.C120_same_arrays",
    "Conj.C120_same_arrays_since313",
    "Conj.C120_poisson_array_since313",
    "Conj.C120_nan",
    "Conj.C120_sql_terms",
    "Conj.C120_beta",
    "Conj.C120_gamma",
    "Conj.C120_inverse_gamma",
    "Conj.C120_scaled_inverse_chi_squared",
    "Conj.C120_normal",
    "Conj.C120_exponential",
    "Conj.C120_uniform",
    "Conj.C120_pareto",
    "Conj.C120_lomax",
    "Conj.C120_student_t",
    "Conj.C120_compound_gamma",
    "Conj.C120_weibull",
    "Conj.C120_log_normal",
    "Conj.C120_poisson",
    "Conj.C120_geometric",
    "Conj.C120_negative_binomial",
    "Conj.C120_beta_geometric",
    "Conj.C120_von_mises",
    "Conj.C120_beta_negative_binomial",
    "Conj.C120_beta_binomial_one_trial",
    "Conj.C120_classes",
    "Conj.C120_entry"
   ],
   "note": "Proved for parameters that are numbers: C120_numbers, and for 18 classes that == is True exactly when density or pmf agree (C120_<class>, with C97). BetaNegativeBinomial with n and beta exchanged and BetaBinomial with one trial have the same pmf and are not equal (C120_beta_negative_binomial, C120_beta_binomial_one_trial). False for arrays: equal arrays raise ValueError unless they are one object or have one entry (C120_same_arrays, an iff; C120_same_arrays_since313; C120_poisson_array_since313). False for SQL terms: always equal (C120_sql_terms). nan: C120_nan. The method written by @dataclass, numpy's == and pypika's == are modelled from their documentation. Hashing is not modelled."
  },
  {
   "property": "C121",
   "status": "partial",
   "theorems": [
    "Conj.C121_draw_iff",
    "Conj.C121_reweighted",
    "Conj.C121_binomial_beta_iff",
    "Conj.C121_binomial_beta_reweighted",
    "Conj.C121_known_parameters",
    "Conj.C121_no_trials",
    "Conj.C121_uncertain_false",
    "Conj.C121_documented_false",
    "Conj.C121_parameters_unchanged",
    "Conj.C121_two_priors_iff",
    "Conj.C121_two_priors_false"
   ],
   "note": "The claim is false in general. C121_draw_iff: for any model the draws are right exactly if the predictive probability of the data does not depend on the prior's parameters; C121_binomial_beta_iff for the documented model. Right for known parameters (C121_known_parameters) and without data (C121_no_trials). False for every law that charges all open sets and n >= 1 (C121_uncertain_false), in particular the documented Gamma(1, 20), N = 10, X = 4 (C121_documented_false). The drawn parameters keep the law they had before the data (C121_parameters_unchanged); the right weights are the beta-binomial probabilities (C121_reweighted, C121_binomial_beta_reweighted). Two candidate priors: C121_two_priors_iff. PyMC is modelled from its documentation: pm.draw draws the named variables jointly. All laws here are on the positive pairs."
  },
  {
   "property": "C122",
   "status": "partial",
   "theorems": [
    "Conj.C122_slice_copies",
    "Conj.C122_slice_harmless",
    "Conj.C122_params_copies",
    "Conj.C122_mvn_int",
    "Conj.C122_mvt_int",
    "Conj.C122_mvn_list",
    "Conj.C122_mvt_list",
    "Conj.C122_mvn_slice_partial",
    "Conj.C122_mvn_slice_false",
    "Conj.C122_mvt_slice_partial",
    "Conj.C122_mvt_slice_false",
    "Conj.C122_mvn_bad_index",
    "Conj.C122_mvn_numpy_int"
   ],
   "note": "True for SliceMixin: C122_slice_copies (asdict deep-copies the parameters), C122_slice_harmless, C122_params_copies. For the multivariate classes true for an int (C122_mvn_int, C122_mvt_int) and a list (C122_mvn_list, C122_mvt_list); false for a slice: the result follows the original arrays (C122_mvn_slice_partial, C122_mvt_slice_partial: right values at the time of the call and whatever the originals become later) and writing to it writes to the original (C122_mvn_slice_false, C122_mvt_slice_false). A numpy integer always raises (C122_mvn_numpy_int); out of range raises (C122_mvn_bad_index). Slices with a step and boolean masks are not modelled; writes are modelled per buffer place."
  },
  {
   "property": "C123",
   "status": "partial",
   "theorems": [
    "Conj.C123_wider_iff",
    "Conj.C123_intervals",
    "Conj.C123_band",
    "Conj.C123_widens_iff",
    "Conj.C123_documented_prior_iff",
    "Conj.C123_documented_partial",
    "Conj.C123_one_sided_false",
    "Conj.C123_beyond"
   ],
   "note": "Wider (BandSpec) compares the probability within every distance of the mean, so also the length of intervals of equal probability (C123_intervals). For any features the wider prediction is the one with larger leverage (C123_wider_iff). With an intercept and one covariate the band is narrowest at bandCentre and widens exactly with the distance from it (C123_band). Widening from the mean of the data holds exactly if the prior is centred there (C123_widens_iff); for the documented prior exactly if the points sum to zero (C123_documented_prior_iff), as the documented points do (C123_documented_partial); false for training points all positive (C123_one_sided_false). Beyond zero and all training points it always widens (C123_beyond). C112 orders the variances, which need alpha > 1; this needs no moments."
  },
  {
   "property": "C124",
   "status": "partial",
   "theorems": [
    "Conj.C124_binomial_beta",
    "Conj.C124_binomial_beta_mean",
    "Conj.C124_bernoulli_beta",
    "Conj.C124_bernoulli_beta_mean",
    "Conj.C124_negative_binomial_beta",
    "Conj.C124_negative_binomial_beta_mean",
    "Conj.C124_geometric_beta",
    "Conj.C124_geometric_beta_mean",
    "Conj.C124_poisson_gamma",
    "Conj.C124_poisson_gamma_mean",
    "Conj.C124_gamma_known_shape",
    "Conj.C124_gamma_known_shape_mean",
    "Conj.C124_inverse_gamma_known_rate",
    "Conj.C124_inverse_gamma_known_rate_mean",
    "Conj.C124_pareto_gamma",
    "Conj.C124_pareto_gamma_mean",
    "Conj.C124_exponential_gamma_swapped_partial",
    "Conj.C124_exponential_gamma_swapped_mean_partial",
    "Conj.C124_uniform_pareto",
    "Conj.C124_weibull_inverse_gamma",
    "Conj.C124_normal_known_variance",
    "Conj.C124_normal_known_precision",
    "Conj.C124_normal_known_mean",
    "Conj.C124_weibull_inverse_gamma_mean",
    "Conj.C124_uniform_pareto_mean",
    "Conj.C124_normal_known_variance_mean",
    "Conj.C124_normal_known_mean_mean",
    "Conj.C124_normal_known_precision_mean",
    "Conj.C124_normal_nig",
    "Conj.C124_normal_ng",
    "Conj.C124_log_normal_nig",
    "Conj.C124_log_normal_ng",
    "Conj.C124_linear_regression",
    "Conj.C124_multivariate_normal_known_covariance",
    "Conj.C124_multivariate_normal_known_precision",
    "Conj.C124_multivariate_normal_known_mean",
    "Conj.C124_multivariate_normal",
    "Conj.C124_categorical_dirichlet",
    "Conj.C124_multinomial_dirichlet",
    "Conj.C124_exponential_gamma_rate_false",
    "Conj.C124_exponential_gamma_mean_false",
    "Conj.C124_variance_grows_false"
   ],
   "note": "LossesKept, DecidesWell, StockByQuantile, GuessByMean (DecisionSpec) for every model for which C103 is proved: 13 models with one unknown number (RightChoices, and GuessByMean for all of them, given a finite posterior variance for Pareto and inverse gamma priors; normal_known_mean with an InverseGamma prior only for GuessByMean) and 9 with several unknowns (LossesKept and DecidesWell). False of exponential_gamma with the arguments as documented, for either reading of the unknown (C124_exponential_gamma_rate_false, C124_exponential_gamma_mean_false); true with its arguments exchanged (_swapped_partial). That the variance shrinks for every data set, not only on average, is false (C124_variance_grows_false). Missing: hypergeometric_beta_binomial (a discrete unknown), von_mises models, gamma, gamma_known_rate and beta, whose posteriors are proportional only."
  },
  {
   "property": "C125",
   "status": "partial",
   "theorems": [
    "Conj.C125_binomial_beta",
    "Conj.C125_bernoulli_beta",
    "Conj.C125_negative_binomial_beta",
    "Conj.C125_poisson_gamma_partial",
    "Conj.C125_gamma_known_shape",
    "Conj.C125_exponential_gamma_swapped_partial",
    "Conj.C125_normal_known_variance",
    "Conj.C125_normal_known_precision",
    "Conj.C125_normal_known_mean",
    "Conj.C125_bernoulli_beta_guess",
    "Conj.C125_negative_binomial_beta_guess",
    "Conj.C125_normal_known_precision_guess",
    "Conj.C125_normal_known_mean_guess",
    "Conj.C125_gamma_known_shape_guess",
    "Conj.C125_normal_nig_guess",
    "Conj.C125_normal_ng_guess",
    "Conj.C125_linear_regression_guess",
    "Conj.C125_multivariate_normal_known_covariance_guess",
    "Conj.C125_multivariate_normal_guess",
    "Conj.C125_multivariate_normal_known_precision_guess",
    "Conj.C125_binomial_beta_guess",
    "Conj.C125_poisson_gamma_guess_partial",
    "Conj.C125_normal_known_variance_guess",
    "Conj.C125_normal_nig",
    "Conj.C125_normal_ng",
    "Conj.C125_linear_regression",
    "Conj.C125_multivariate_normal_known_covariance",
    "Conj.C125_multivariate_normal_known_precision",
    "Conj.C125_multivariate_normal",
    "Conj.C125_categorical_dirichlet",
    "Conj.C125_multinomial_dirichlet",
    "Conj.C125_geometric_beta_wrong",
    "Conj.C125_poisson_gamma_iff",
    "Conj.C125_exponential_gamma_iff",
    "Conj.C125_exponential_gamma_costs_more",
    "Conj.C125_multinomial_dirichlet_guess",
    "Conj.C125_categorical_dirichlet_guess"
   ],
   "note": "RightChoices (losses, decisions, quantile as stock) for the 10 predictive functions with a real outcome for which C116 is proved, GoodChoices (losses and decisions) for the 6 with several outcomes; the mean as best guess, with the announced error, for all of them (coordinate by coordinate for vectors, for every set of categories for counts); heavy-tailed predictives need a variance, so that the hypotheses ask for it. False of poisson_gamma_predictive for n other than 1 (C125_poisson_gamma_iff), although its mean is the best guess for every n (C125_poisson_gamma_guess_partial); false of exponential_gamma as documented unless the parameters of the prior are equal (C125_exponential_gamma_iff), where it costs strictly more at every quantile level (C125_exponential_gamma_costs_more); false of geometric_beta_predictive always (C125_geometric_beta_wrong). Missing: hypergeometric and compound models without a proved predictive."
  },
  {
   "property": "C126",
   "status": "partial",
   "theorems": [
    "Conj.C126_usable_iff",
    "Conj.C126_categorical_usable_iff",
    "Conj.C126_unusable_attribute_error",
    "Conj.C126_array_first_partial",
    "Conj.C126_no_arrays"
   ],
   "note": "Proved when the prior or the first batch is an array, the rest being of any kind (C126_array_first_partial). False without arrays: the loop runs to its end but .dist is an AttributeError (C126_no_arrays). For one update exactly the cases with .dist are known (C126_usable_iff, C126_categorical_usable_iff, C126_unusable_attribute_error). Not modelled: the checks inside SciPy."
  },
  {
   "property": "C127",
   "status": "partial",
   "theorems": [
    "Conj.C127_in",
    "Conj.C127_index",
    "Conj.C127_count",
    "Conj.C127_remove",
    "Conj.C127_first_partial",
    "Conj.C127_arrays_raise"
   ],
   "note": "Proved for parameters that are numbers, flags or None (C127_in, C127_index, C127_count, C127_remove). False for arrays: an equal distribution with arrays of its own that comes first makes all four raise ValueError up to Python 3.12, even if the object itself is in the list (C127_arrays_raise); an object at the head of the list is always found (C127_first_partial). Trusted: Python's list methods ask the elements in order, identity before ==."
  }
 ]
}
