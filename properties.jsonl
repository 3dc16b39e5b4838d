{"id": "C01", "title": "binomial_beta is Bayes' rule", "statement": "binomial_beta(n=n, x=x, prior=Beta(a,b)) returns the Beta distribution whose density (as given by .dist) is the prior density times the Binomial(n,p) likelihood of x, divided by its integral over 0<p<1.", "quantifier": "every a,b>0, every n and x<=n, every p in (0,1)", "why_tests_cant": "A test fixes one prior and one data set; the claim is an identity between functions of the unknown parameter for every prior and every data set.", "anchors": ["conjugate/models.py:binomial_beta", "conjugate/models.py:get_binomial_beta_posterior_params", "conjugate/distributions.py:Beta.dist"]}
{"id": "C02", "title": "bernoulli_beta, flip by flip", "statement": "Feeding any sequence of 0/1 outcomes one at a time through bernoulli_beta gives the Bayes posterior of the whole sequence, and the same object as one binomial_beta call with n = number of flips and x = number of ones.", "quantifier": "every outcome sequence of every length, every prior a,b>0", "why_tests_cant": "the claim is over all histories of outcomes", "anchors": ["conjugate/models.py:bernoulli_beta", "conjugate/models.py:binomial_beta"]}
{"id": "C03", "title": "negative_binomial_beta is Bayes' rule", "statement": "negative_binomial_beta(r=r, n=number of observations, x=sum of observations, prior) has the density prior x product of NegativeBinomial(r,p) pmfs, normalised.", "quantifier": "every r>0, every list of counts, every prior a,b>0", "why_tests_cant": "A test fixes one prior and one data set; the claim is an identity between functions of the unknown parameter for every prior and every data set.", "anchors": ["conjugate/models.py:negative_binomial_beta", "conjugate/distributions.py:NegativeBinomial.dist"]}
{"id": "C04", "title": "geometric_beta is Bayes' rule in both conventions", "statement": "geometric_beta(x_total=sum, n=count, prior, one_start) has the density prior x product of Geometric(p, one_start) pmfs, normalised, for one_start True (outcomes from 1) and False (outcomes from 0).", "quantifier": "every list of outcomes in the support, both conventions, every prior", "why_tests_cant": "A test fixes one prior and one data set; the claim is an identity between functions of the unknown parameter for every prior and every data set.", "anchors": ["conjugate/models.py:geometric_beta", "conjugate/distributions.py:Geometric.dist"]}
{"id": "C05", "title": "poisson_gamma is Bayes' rule", "statement": "poisson_gamma(x_total=sum, n=count, prior=Gamma(a,b)) has the density of the Gamma prior on the rate times the product of Poisson pmfs, normalised.", "quantifier": "every list of counts, every prior a,b>0", "why_tests_cant": "A test fixes one prior and one data set; the claim is an identity between functions of the unknown parameter for every prior and every data set.", "anchors": ["conjugate/models.py:poisson_gamma", "conjugate/models.py:get_poisson_gamma_posterior_params", "conjugate/distributions.py:Gamma.dist", "conjugate/distributions.py:Poisson.dist"]}
{"id": "C06", "title": "exponential_gamma is Bayes' rule", "statement": "exponential_gamma(x_total=sum, n=count, prior=Gamma(a,b)) has the density of the Gamma prior times the product of exponential densities of the data, normalised, the Gamma being a distribution of the exponential rate (or of its mean, the other reading of Exponential(lam)).", "quantifier": "every list of positive observations, every prior", "why_tests_cant": "A test fixes one prior and one data set; the claim is an identity between functions of the unknown parameter for every prior and every data set.", "anchors": ["conjugate/models.py:exponential_gamma", "conjugate/models.py:get_exponential_gamma_posterior_params", "conjugate/distributions.py:Exponential.dist", "conjugate/distributions.py:Gamma.dist"]}
{"id": "C07", "title": "gamma_known_shape is Bayes' rule", "statement": "gamma_known_shape(x_total=sum, n=count, alpha=k, prior) has the density of the Gamma prior on the rate times the product of Gamma(k, rate) densities of the data, normalised.", "quantifier": "every list of positive observations, k>0, every prior", "why_tests_cant": "A test fixes one prior and one data set; the claim is an identity between functions of the unknown parameter for every prior and every data set.", "anchors": ["conjugate/models.py:gamma_known_shape"]}
{"id": "C08", "title": "inverse_gamma_known_rate is Bayes' rule", "statement": "inverse_gamma_known_rate(reciprocal_x_total=sum of 1/x, n, alpha, prior) has the density of the Gamma prior on the InverseGamma scale times the product of InverseGamma(alpha, scale) densities, normalised.", "quantifier": "every list of positive observations, alpha>0, every prior", "why_tests_cant": "A test fixes one prior and one data set; the claim is an identity between functions of the unknown parameter for every prior and every data set.", "anchors": ["conjugate/models.py:inverse_gamma_known_rate", "conjugate/distributions.py:InverseGamma.dist"]}
{"id": "C09", "title": "pareto_gamma is Bayes' rule", "statement": "pareto_gamma(n, ln_x_total=sum of logs, x_m, prior) has the density of the Gamma prior on the Pareto exponent times the product of Pareto(x_m, exponent) densities, normalised.", "quantifier": "every list of observations >= x_m > 0, every prior", "why_tests_cant": "A test fixes one prior and one data set; the claim is an identity between functions of the unknown parameter for every prior and every data set.", "anchors": ["conjugate/models.py:pareto_gamma", "conjugate/distributions.py:Pareto.dist"]}
{"id": "C10", "title": "uniform_pareto is Bayes' rule", "statement": "uniform_pareto(x_max=max, n=count, prior=Pareto) has the density of the Pareto prior on the upper end point times the product of Uniform(0, end point) densities, normalised.", "quantifier": "every nonempty list of positive observations, every prior", "why_tests_cant": "A test fixes one prior and one data set; the claim is an identity between functions of the unknown parameter for every prior and every data set.", "anchors": ["conjugate/models.py:uniform_pareto"]}
{"id": "C11", "title": "weibull_inverse_gamma_known_shape is Bayes' rule", "statement": "weibull_inverse_gamma_known_shape(n, x_beta_total=sum of x^k, prior) has the density of the InverseGamma prior on theta times the product of Weibull(beta=k, theta) densities (as given by Weibull.dist), normalised.", "quantifier": "every list of positive observations, every k>0, every prior", "why_tests_cant": "A test fixes one prior and one data set; the claim is an identity between functions of the unknown parameter for every prior and every data set.", "anchors": ["conjugate/models.py:weibull_inverse_gamma_known_shape", "conjugate/distributions.py:Weibull.dist"]}
{"id": "C12", "title": "normal_known_variance and normal_known_precision are Bayes' rule", "statement": "normal_known_variance(x_total, n, var, prior=Normal) has the density of the prior on the mean times the product of Normal(mean, sqrt(var)) densities of the data, normalised; normal_known_precision likewise with variance 1/precision.", "quantifier": "every list of reals, var>0, every prior with sigma>0", "why_tests_cant": "A test fixes one prior and one data set; the claim is an identity between functions of the unknown parameter for every prior and every data set.", "anchors": ["conjugate/models.py:normal_known_variance", "conjugate/models.py:normal_known_precision", "conjugate/distributions.py:Normal.dist"]}
{"id": "C13", "title": "normal_known_mean is Bayes' rule for both prior classes", "statement": "normal_known_mean(x_total, x2_total, n, mu, prior) has the density of the prior on the variance times the product of Normal(mu, sqrt(variance)) densities, normalised, for an InverseGamma prior and for a ScaledInverseChiSquared prior, and returns the class it was given.", "quantifier": "every list of reals, every mu, every prior of either class", "why_tests_cant": "A test fixes one prior and one data set; the claim is an identity between functions of the unknown parameter for every prior and every data set.", "anchors": ["conjugate/models.py:normal_known_mean", "conjugate/models.py:_normal_known_mean_inverse_gamma_prior", "conjugate/distributions.py:ScaledInverseChiSquared"]}
{"id": "C14", "title": "normal is Bayes' rule for both prior classes", "statement": "normal(x_total, x2_total, n, prior) has the joint density of (mean, variance) (NormalInverseGamma) or (mean, precision) (NormalGamma) given by prior times the product of normal densities, normalised.", "quantifier": "every nonempty list of reals, every valid prior of either class", "why_tests_cant": "A test fixes one prior and one data set; the claim is an identity between functions of the unknown parameter for every prior and every data set.", "anchors": ["conjugate/models.py:normal", "conjugate/models.py:_normal", "conjugate/distributions.py:NormalInverseGamma", "conjugate/distributions.py:NormalGamma"]}
{"id": "C15", "title": "log_normal is Bayes' rule", "statement": "log_normal(ln_x_total, ln_x2_total, n, prior) has the joint density of prior times product of log-normal densities of the data, normalised.", "quantifier": "every nonempty list of positive observations, every valid prior", "why_tests_cant": "A test fixes one prior and one data set; the claim is an identity between functions of the unknown parameter for every prior and every data set.", "anchors": ["conjugate/models.py:log_normal"]}
{"id": "C16", "title": "categorical_dirichlet and multinomial_dirichlet are Bayes' rule", "statement": "categorical_dirichlet(x=counts, prior=Dirichlet(alpha)) and multinomial_dirichlet have the Dirichlet density proportional to prior times likelihood of the observations, the factor not depending on the probabilities.", "quantifier": "every number of categories, every count vector / every sequence of category observations, every point of the open simplex", "why_tests_cant": "A test fixes one prior and one data set; the claim is an identity between functions of the unknown parameter for every prior and every data set.", "anchors": ["conjugate/models.py:categorical_dirichlet", "conjugate/models.py:multinomial_dirichlet", "conjugate/models.py:get_dirichlet_posterior_params"]}
{"id": "C17", "title": "hypergeometric_beta_binomial is Bayes' rule", "statement": "hypergeometric_beta_binomial(x_total=x, n=draws, prior=BetaBinomial(N,a,b)) has the pmf of the number of successes in the population given x successes in a draw of n without replacement.", "quantifier": "every N, n<=N, x, prior", "why_tests_cant": "A test fixes one prior and one data set; the claim is an identity between functions of the unknown parameter for every prior and every data set.", "anchors": ["conjugate/models.py:hypergeometric_beta_binomial", "conjugate/distributions.py:BetaBinomial.dist", "conjugate/distributions.py:Hypergeometric.dist"]}
{"id": "C18", "title": "Proportional families update by Bayes' rule", "statement": "For gamma, gamma_known_rate, beta and von_mises_known_direction, exp(approx_log_likelihood) of the posterior equals exp(approx_log_likelihood) of the prior times the likelihood of the data, up to a factor that does not depend on the unknown parameters.", "quantifier": "every data list in the support, every prior, every parameter value", "why_tests_cant": "A test fixes one prior and one data set; the claim is an identity between functions of the unknown parameter for every prior and every data set.", "anchors": ["conjugate/models.py:gamma", "conjugate/models.py:gamma_known_rate", "conjugate/models.py:beta", "conjugate/models.py:von_mises_known_direction", "conjugate/distributions.py:GammaProportional.approx_log_likelihood", "conjugate/distributions.py:BetaProportional.approx_log_likelihood"]}
{"id": "C19", "title": "von_mises_known_concentration is Bayes' rule", "statement": "The posterior returned by von_mises_known_concentration represents the prior on the direction times the Von Mises likelihood of the data with the known concentration, up to a constant factor.", "quantifier": "every data list, every prior a>0 and b, every kappa>0", "why_tests_cant": "A test fixes one prior and one data set; the claim is an identity between functions of the unknown parameter for every prior and every data set.", "anchors": ["conjugate/models.py:von_mises_known_concentration", "conjugate/distributions.py:VonMisesKnownConcentration"]}
{"id": "C20", "title": "linear_regression is Bayes' rule", "statement": "linear_regression(X, y, prior=NormalInverseGamma(mu, delta_inverse, alpha, beta)) has the joint density of (coefficients, variance) given by prior times N(y | X b, variance I), normalised.", "quantifier": "every number of rows and columns, every X, y, every positive definite delta_inverse, alpha, beta>0", "why_tests_cant": "A test fixes one prior and one data set; the claim is an identity between functions of the unknown parameter for every prior and every data set.", "anchors": ["conjugate/models.py:linear_regression", "conjugate/distributions.py:NormalInverseGamma"]}
{"id": "C21", "title": "multivariate_normal_known_covariance / _precision are Bayes' rule", "statement": "The returned MultivariateNormal has the density of prior times product of N(x_i | mean, cov), normalised; the _precision variant with cov the inverse of the precision.", "quantifier": "every dimension, every data list with sample mean x_bar, every positive definite prior covariance and known covariance", "why_tests_cant": "A test fixes one prior and one data set; the claim is an identity between functions of the unknown parameter for every prior and every data set.", "anchors": ["conjugate/models.py:multivariate_normal_known_covariance", "conjugate/models.py:multivariate_normal_known_precision", "conjugate/models.py:_multivariate_normal_known_precision"]}
{"id": "C22", "title": "multivariate_normal_known_mean is Bayes' rule", "statement": "The returned InverseWishart density is proportional to the prior density times the product of N(x_i | mu, Sigma), as a function of Sigma.", "quantifier": "every dimension, every data matrix, every positive definite Sigma", "why_tests_cant": "A test fixes one prior and one data set; the claim is an identity between functions of the unknown parameter for every prior and every data set.", "anchors": ["conjugate/models.py:multivariate_normal_known_mean", "conjugate/distributions.py:InverseWishart"]}
{"id": "C23", "title": "multivariate_normal is Bayes' rule", "statement": "The returned NormalInverseWishart joint density of (mean, Sigma) is proportional to prior times product of N(x_i | mean, Sigma).", "quantifier": "every dimension, every nonempty data matrix, every mean and positive definite Sigma", "why_tests_cant": "A test fixes one prior and one data set; the claim is an identity between functions of the unknown parameter for every prior and every data set.", "anchors": ["conjugate/models.py:multivariate_normal", "conjugate/distributions.py:NormalInverseWishart"]}
{"id": "C24", "title": "binomial_beta_predictive and bernoulli_beta_predictive are the predictive", "statement": "The BetaBinomial pmf returned equals the integral over p of the Binomial(n,p) pmf against the Beta density.", "quantifier": "every n, k<=n, a,b>0", "why_tests_cant": "The predictive is an integral over the unknown parameter; tests can only compare it numerically at a few points.", "anchors": ["conjugate/models.py:binomial_beta_predictive", "conjugate/models.py:bernoulli_beta_predictive"]}
{"id": "C25", "title": "negative_binomial_beta_predictive is the predictive", "statement": "The BetaNegativeBinomial pmf returned equals the integral over p of the NegativeBinomial(r,p) pmf against the Beta density.", "quantifier": "every r>0, k, a,b>0", "why_tests_cant": "The predictive is an integral over the unknown parameter; tests can only compare it numerically at a few points.", "anchors": ["conjugate/models.py:negative_binomial_beta_predictive"]}
{"id": "C26", "title": "geometric_beta_predictive is the predictive", "statement": "BetaGeometric.dist.pmf of the returned distribution equals the integral over p of the Geometric(p, one_start) pmf against the Beta density.", "quantifier": "every k in the support, both conventions, a,b>0", "why_tests_cant": "The predictive is an integral over the unknown parameter; tests can only compare it numerically at a few points.", "anchors": ["conjugate/models.py:geometric_beta_predictive", "conjugate/_beta_geometric.py:beta_geometric_pmf"]}
{"id": "C27", "title": "poisson_gamma_predictive is the predictive", "statement": "poisson_gamma_predictive(distribution, n) has the pmf of a Poisson count over n intervals averaged over the Gamma distribution of the rate.", "quantifier": "every n>0, k, Gamma parameters", "why_tests_cant": "The predictive is an integral over the unknown parameter; tests can only compare it numerically at a few points.", "anchors": ["conjugate/models.py:poisson_gamma_predictive"]}
{"id": "C28", "title": "exponential_gamma_predictive is the predictive", "statement": "exponential_gamma_predictive(distribution) has the density of an exponential observation averaged over the Gamma distribution of the rate.", "quantifier": "every x>0, Gamma parameters", "why_tests_cant": "The predictive is an integral over the unknown parameter; tests can only compare it numerically at a few points.", "anchors": ["conjugate/models.py:exponential_gamma_predictive", "conjugate/distributions.py:Lomax.dist"]}
{"id": "C29", "title": "gamma_known_shape_predictive is the predictive", "statement": "The CompoundGamma density returned equals the integral over the rate of the Gamma(alpha, rate) density against the Gamma density of the rate.", "quantifier": "every x>0, alpha>0, Gamma parameters", "why_tests_cant": "The predictive is an integral over the unknown parameter; tests can only compare it numerically at a few points.", "anchors": ["conjugate/models.py:gamma_known_shape_predictive", "conjugate/_compound_gamma.py:compound_gamma_pdf"]}
{"id": "C30", "title": "normal_known_variance_predictive / _precision_predictive are the predictive", "statement": "The Normal density returned equals the integral over the mean of Normal(mean, sqrt(var)) against the Normal density of the mean.", "quantifier": "every x, var>0, Normal parameters", "why_tests_cant": "The predictive is an integral over the unknown parameter; tests can only compare it numerically at a few points.", "anchors": ["conjugate/models.py:normal_known_variance_predictive", "conjugate/models.py:normal_known_precision_predictive"]}
{"id": "C31", "title": "normal_known_mean_predictive is the predictive", "statement": "The StudentT density returned equals the integral over the variance of Normal(mu, sqrt(variance)) against the InverseGamma (or ScaledInverseChiSquared) density.", "quantifier": "every x, mu, parameters, both classes", "why_tests_cant": "The predictive is an integral over the unknown parameter; tests can only compare it numerically at a few points.", "anchors": ["conjugate/models.py:normal_known_mean_predictive", "conjugate/distributions.py:StudentT.dist"]}
{"id": "C32", "title": "normal_predictive is the predictive", "statement": "The StudentT density returned equals the integral of the Normal density against the NormalInverseGamma / NormalGamma joint density.", "quantifier": "every x, all valid parameters, both classes", "why_tests_cant": "The predictive is an integral over the unknown parameter; tests can only compare it numerically at a few points.", "anchors": ["conjugate/models.py:normal_predictive"]}
{"id": "C33", "title": "linear_regression_predictive is the predictive", "statement": "The MultivariateStudentT density returned equals the integral over coefficients and variance of N(y | X b, variance I) against the NormalInverseGamma density.", "quantifier": "every number of rows/columns, X, y, valid parameters", "why_tests_cant": "The predictive is an integral over the unknown parameter; tests can only compare it numerically at a few points.", "anchors": ["conjugate/models.py:linear_regression_predictive", "conjugate/distributions.py:MultivariateStudentT.dist"]}
{"id": "C34", "title": "multivariate_normal_known_covariance_predictive / _precision_predictive are the predictive", "statement": "The MultivariateNormal density returned equals the integral over the mean of N(x | mean, cov) against the MultivariateNormal density of the mean.", "quantifier": "every dimension, x, positive definite matrices", "why_tests_cant": "The predictive is an integral over the unknown parameter; tests can only compare it numerically at a few points.", "anchors": ["conjugate/models.py:multivariate_normal_known_covariance_predictive", "conjugate/models.py:multivariate_normal_known_precision_predictive"]}
{"id": "C35", "title": "multivariate_normal_predictive is the predictive", "statement": "The MultivariateStudentT returned is the distribution of a new observation under the NormalInverseWishart distribution.", "quantifier": "every dimension, x, valid parameters", "why_tests_cant": "The predictive is an integral over the unknown parameter; tests can only compare it numerically at a few points.", "anchors": ["conjugate/models.py:multivariate_normal_predictive"]}
{"id": "C36", "title": "categorical/multinomial_dirichlet_predictive are the predictive", "statement": "The DirichletMultinomial pmf returned equals the integral of the Multinomial(n, p) pmf against the Dirichlet density.", "quantifier": "every number of categories, n, count vector, alpha", "why_tests_cant": "The predictive is an integral over the unknown parameter; tests can only compare it numerically at a few points.", "anchors": ["conjugate/models.py:categorical_dirichlet_predictive", "conjugate/models.py:multinomial_dirichlet_predictive"]}
{"id": "C37", "title": "Batch updating equals pooled updating (scalar models)", "statement": "For every scalar-statistic model, feeding batches one after another (posterior becomes the next prior, as in docs/examples/bayesian-update.md) gives the same posterior as one call with the pooled statistics.", "quantifier": "every list of batches, every prior, every model of the list", "why_tests_cant": "A test can only split one data set in one way; the claim is over every way of cutting every data stream into batches.", "anchors": ["docs/examples/bayesian-update.md", "conjugate/models.py:binomial_beta", "conjugate/models.py:poisson_gamma", "conjugate/models.py:normal_known_variance", "conjugate/models.py:normal", "conjugate/models.py:hypergeometric_beta_binomial", "conjugate/models.py:von_mises_known_concentration"]}
{"id": "C38", "title": "Batch updating equals pooled updating (matrix models)", "statement": "The same for linear_regression, multivariate_normal_known_covariance, multivariate_normal_known_precision, multivariate_normal_known_mean and multivariate_normal: rows arriving in two or more batches give the posterior of the stacked rows.", "quantifier": "every split of the rows into batches, every dimension, every valid prior", "why_tests_cant": "A test can only split one data set in one way; the claim is over every way of cutting every data stream into batches.", "anchors": ["conjugate/models.py:linear_regression", "conjugate/models.py:multivariate_normal", "conjugate/models.py:multivariate_normal_known_mean", "conjugate/models.py:multivariate_normal_known_covariance"]}
{"id": "C39", "title": "Order of the data does not matter", "statement": "Permuting the batches (or the observations) leaves the final posterior unchanged.", "quantifier": "every permutation of every batch list, every model", "why_tests_cant": "A test can only split one data set in one way; the claim is over every way of cutting every data stream into batches.", "anchors": ["docs/examples/bayesian-update.md"]}
{"id": "C40", "title": "No data leaves the prior unchanged", "statement": "Updating with n=0 and zero totals (empty product 1, no rows) returns the prior.", "quantifier": "every prior of every model", "why_tests_cant": "the boundary n=0 is where formulas that divide by n break; the claim covers every prior", "anchors": ["conjugate/models.py:normal", "conjugate/models.py:_normal", "conjugate/models.py:binomial_beta", "conjugate/models.py:poisson_gamma"]}
{"id": "C41", "title": "Valid priors give valid posteriors", "statement": "If the prior's parameters are in the distribution's parameter space and the statistics come from data in the support, the posterior's parameters are too (positive shapes/rates/scales, positive definite matrices).", "quantifier": "every prior, every data set", "why_tests_cant": "needs inequalities such as n*sum(x^2) >= (sum x)^2 for all data", "anchors": ["conjugate/models.py:normal", "conjugate/models.py:linear_regression", "conjugate/models.py:multivariate_normal", "conjugate/models.py:pareto_gamma", "conjugate/models.py:binomial_beta"]}
{"id": "C42", "title": "Shrinkage", "statement": "The posterior mean lies between the prior mean and the data mean (binomial_beta, poisson_gamma, normal_known_variance, normal), and the posterior variance of normal_known_variance is below both the prior variance and var/n and decreases in n. For vectors and matrices: the posterior variance of every combination of the coordinates of the mean is below its prior variance and below that of the same combination of the data averages (multivariate_normal_known_covariance, _precision), no combination of regression coefficients becomes less certain given the noise variance (linear_regression), and the posterior mean of every entry of the covariance matrix lies between its prior mean and the average product of deviations in the data (multivariate_normal_known_mean).", "quantifier": "every prior and data set, every combination of coordinates, every entry", "why_tests_cant": "inequality over all priors and data", "anchors": ["conjugate/models.py:normal_known_variance", "conjugate/models.py:binomial_beta", "conjugate/models.py:poisson_gamma", "conjugate/models.py:normal", "conjugate/models.py:multivariate_normal_known_covariance", "conjugate/models.py:multivariate_normal_known_precision", "conjugate/models.py:multivariate_normal_known_mean", "conjugate/models.py:linear_regression"]}
{"id": "C43", "title": "Equivalent entry points agree", "statement": "normal_known_precision(precision) = normal_known_variance(1/precision); NormalGamma and NormalInverseGamma priors with equal numbers give equal numbers from normal and normal_predictive; InverseGamma and the equivalent ScaledInverseChiSquared give equivalent posteriors and equal predictives; log_normal is normal on logs; the deprecated functions equal their replacements; categorical = multinomial.", "quantifier": "every argument", "why_tests_cant": "equality of two functions on all arguments", "anchors": ["conjugate/models.py:normal_known_precision", "conjugate/models.py:normal", "conjugate/models.py:normal_predictive", "conjugate/models.py:normal_known_mean", "conjugate/models.py:normal_normal_inverse_gamma", "conjugate/distributions.py:ScaledInverseChiSquared.from_inverse_gamma"]}
{"id": "C44", "title": "Multivariate models in one dimension agree with the univariate ones", "statement": "In dimension 1, multivariate_normal_known_covariance agrees with normal_known_variance, multivariate_normal with normal, multivariate_normal_known_mean with normal_known_mean, linear_regression on a column of ones with normal (nu = 1/delta_inverse), and the predictives agree likewise.", "quantifier": "every data set and prior in dimension one", "why_tests_cant": "agreement of separately written formulas on all inputs", "anchors": ["conjugate/models.py:multivariate_normal", "conjugate/models.py:linear_regression", "conjugate/models.py:multivariate_normal_known_covariance", "conjugate/models.py:multivariate_normal_predictive"]}
{"id": "C45", "title": "Alternative constructors mean what they say", "statement": "Beta.from_mean(mean, alpha) has mean `mean`; Beta.from_successes_and_failures(s,f) is the posterior of the uninformative prior; Normal.from_mean_and_variance / from_mean_and_precision give that variance / precision; NormalInverseGamma.from_inverse_gamma and .inverse_gamma, NormalInverseWishart.from_inverse_wishart and .inverse_wishart, ScaledInverseChiSquared to/from InverseGamma are mutually inverse; NormalInverseGamma rejects both-or-neither of delta_inverse and nu.", "quantifier": "every argument in the parameter space", "why_tests_cant": "round trips over all values", "anchors": ["conjugate/distributions.py:Beta.from_mean", "conjugate/distributions.py:Normal.from_mean_and_variance", "conjugate/distributions.py:NormalInverseGamma.__post_init__", "conjugate/distributions.py:ScaledInverseChiSquared"]}
{"id": "C46", "title": "Vectorised inputs act element by element", "statement": "With numpy-broadcastable arrays for data and prior parameters, the call succeeds, every parameter of the posterior (or predictive) has the broadcast of the shapes it is computed from, and each of its elements is the scalar result of the corresponding elements; incompatible shapes among the inputs a parameter is computed from are a ValueError. Prior parameters that no formula combines are not compared.", "quantifier": "every mix of shapes, every array, every elementwise model", "why_tests_cant": "all shapes of all ranks", "anchors": ["docs/examples/vectorized-inputs.md", "conjugate/models.py:binomial_beta", "conjugate/models.py:poisson_gamma", "conjugate/models.py:normal"]}
{"id": "C47", "title": "Symbolic inputs: build first, evaluate later", "statement": "Calling a model with expression objects (SQL fields) and evaluating the resulting expressions on a row gives the same numbers as calling the model with that row's numbers.", "quantifier": "every expression tree, every row, every elementwise model", "why_tests_cant": "all expressions and all rows", "anchors": ["docs/examples/generalized-inputs.md", "docs/examples/sql.md", "conjugate/_typing.py:NUMERIC"]}
{"id": "C48", "title": "Exactly which scalar calls fail", "statement": "With plain Python floats, each model call fails (ZeroDivisionError, or a complex result) exactly when a stated divisor is zero or a variance is negative, and otherwise returns the real-number result.", "quantifier": "every scalar input of every model with a division or a root", "why_tests_cant": "the failing inputs form a measure-zero set that sampling misses", "anchors": ["conjugate/models.py:_normal", "conjugate/models.py:normal_known_variance", "conjugate/models.py:poisson_gamma_predictive", "conjugate/models.py:normal_predictive", "conjugate/distributions.py:Beta.from_mean", "conjugate/distributions.py:ScaledInverseChiSquared.from_inverse_gamma"]}
{"id": "C49", "title": "Poisson arithmetic", "statement": "Poisson(a)+Poisson(b) is the distribution of the sum of independent counts, k*Poisson(a) the distribution of the sum of k independent copies; addition is commutative and associative and k*(p+q)=k*p+k*q.", "quantifier": "every rate, every k", "why_tests_cant": "distributional identity at every point", "anchors": ["conjugate/distributions.py:Poisson.__add__", "conjugate/distributions.py:Poisson.__mul__"]}
{"id": "C50", "title": "Gamma, NegativeBinomial and Exponential scaling", "statement": "k*Gamma, k*NegativeBinomial and k*Exponential are the distributions of the sum of k independent copies.", "quantifier": "every k>=1, every parameter", "why_tests_cant": "k-fold convolution identity at every point", "anchors": ["conjugate/distributions.py:Gamma.__mul__", "conjugate/distributions.py:NegativeBinomial.__mul__", "conjugate/distributions.py:Exponential.__mul__"]}
{"id": "C51", "title": "Normal scaling", "statement": "k*Normal(mu,sigma) is the distribution of the sum of k independent copies (mean k*mu, variance k*sigma^2); left and right multiplication agree; scaling composes.", "quantifier": "every k>=0, mu, sigma", "why_tests_cant": "identity for all arguments", "anchors": ["conjugate/distributions.py:Normal.__mul__", "docs/examples/scaling-distributions.md"]}
{"id": "C52", "title": ".dist is the documented distribution", "statement": "For Gamma (rate), InverseGamma, ScaledInverseChiSquared, Normal, StudentT, Pareto, Lomax, Weibull, Beta, Poisson, Geometric, NegativeBinomial the density / pmf of .dist is the textbook density for the documented parameters.", "quantifier": "every point and every parameter", "why_tests_cant": "function equality", "anchors": ["conjugate/distributions.py:Gamma.dist", "conjugate/distributions.py:Weibull.dist", "conjugate/distributions.py:ScaledInverseChiSquared.dist", "conjugate/distributions.py:Geometric.dist"]}
{"id": "C53", "title": "Uniform(low, high).dist is uniform on [low, high]", "statement": "The density of Uniform(low, high).dist is 1/(high-low) on [low, high] and 0 elsewhere.", "quantifier": "every low < high", "why_tests_cant": "function equality for all bounds", "anchors": ["conjugate/distributions.py:Uniform.dist"]}
{"id": "C54", "title": "LogNormal and Exponential .dist match their documentation", "statement": "LogNormal(mu, sigma).dist is the distribution of exp(Normal(mu, sigma)); Exponential(lam).dist has rate lam.", "quantifier": "every mu, sigma, lam", "why_tests_cant": "function equality for all parameters", "anchors": ["conjugate/distributions.py:LogNormal.dist", "conjugate/distributions.py:Exponential.dist"]}
{"id": "C55", "title": "Hand-written distributions are normalised", "statement": "BetaGeometric.dist.pmf sums to one over its support and CompoundGamma.dist.pdf integrates to one.", "quantifier": "every parameter", "why_tests_cant": "infinite sums and integrals", "anchors": ["conjugate/_beta_geometric.py:beta_geometric_pmf", "conjugate/_compound_gamma.py:compound_gamma_pdf"]}
{"id": "C56", "title": "Indexing a multivariate distribution gives the marginal", "statement": "MultivariateNormal[i] and MultivariateStudentT[i] (int i) are the distributions of coordinate i; [list of indices] is the joint distribution of those coordinates, and indexing composes.", "quantifier": "every dimension, index, matrix", "why_tests_cant": "all matrices and index lists", "anchors": ["conjugate/distributions.py:MultivariateNormal.__getitem__", "conjugate/distributions.py:MultivariateStudentT.__getitem__"]}
{"id": "C57", "title": "Slicing commutes with updating", "statement": "model(n, x, prior)[i] equals model(n[i], x[i], prior[i]) for vectorised parameters (scalars kept as they are).", "quantifier": "every vector length, every in-range index (negative too), every elementwise model", "why_tests_cant": "all lengths and indices", "anchors": ["conjugate/slice.py:SliceMixin.__getitem__", "docs/examples/indexing.md"]}
{"id": "C58", "title": "A bad index is an error", "statement": "Indexing a vectorised distribution out of range raises IndexError.", "quantifier": "every length and out-of-range index", "why_tests_cant": "every out-of-range index on every distribution", "anchors": ["conjugate/slice.py:SliceMixin.__getitem__"]}
{"id": "C59", "title": "Slicing keeps class and flags", "statement": "Slicing keeps the class, the number and order of fields and every non-indexable field (scalars, one_start), leaves the original untouched, and a slice of a slice is the slice by the composed index; custom plot bounds are not carried over.", "quantifier": "every distribution with SliceMixin, every key", "why_tests_cant": "all keys on all parameter values", "anchors": ["conjugate/slice.py:SliceMixin", "conjugate/distributions.py:Geometric"]}
{"id": "C60", "title": "Plot bounds state machine", "statement": "max_value raises ValueError until a maximum is set (by the constructor or a setter); afterwards min_value/max_value return the last values set by set_min_value, set_max_value, set_bounds in any order; min_value defaults to 0.", "quantifier": "every sequence of setter and getter calls", "why_tests_cant": "all call histories", "anchors": ["conjugate/plot.py:PlotDistMixin"]}
{"id": "C61", "title": "Continuous plotting grid", "statement": "The continuous plots evaluate the density at 100 equally spaced points from min_value to max_value inclusive.", "quantifier": "every pair of bounds", "why_tests_cant": "all bounds", "anchors": ["conjugate/plot.py:ContinuousPlotDistMixin._create_x_values"]}
{"id": "C62", "title": "Discrete plotting grid", "statement": "The discrete plots evaluate the pmf at min_value, min_value+1, ..., max_value: every such point, nothing outside the bounds.", "quantifier": "every pair of bounds", "why_tests_cant": "all bounds, non-integral ones included", "anchors": ["conjugate/plot.py:DiscretePlotMixin._create_x_values"]}
{"id": "C63", "title": "Labels", "statement": "resolve_label gives one label per plotted line: the label itself for a single line, 'name i' with i from 1 for a string, label(i) with i from 0 for a function, None for None.", "quantifier": "every label and every number of columns", "why_tests_cant": "all column counts", "anchors": ["conjugate/plot.py:label_to_iterable", "conjugate/plot.py:resolve_label", "conjugate/plot.py:DirichletPlotDistMixin.plot_pdf"]}
{"id": "C64", "title": "conditional=True gives conditional probabilities", "statement": "plot_pmf(conditional=True) draws, for each plotted distribution, probabilities that sum to one over the bounds, proportional to the pmf; plot_cdf(conditional=True) draws the conditional cdf.", "quantifier": "every pmf table, every number of vectorised distributions", "why_tests_cant": "all tables", "anchors": ["conjugate/plot.py:DiscretePlotMixin._create_plot_on_axis"]}
{"id": "C65", "title": "Ticks of discrete plots", "statement": "Below a span of 15 every grid point is a major tick; otherwise every fifth point is major and every point is a minor tick.", "quantifier": "every pair of bounds", "why_tests_cant": "all bounds", "anchors": ["conjugate/plot.py:DiscretePlotMixin._create_plot_on_axis"]}
{"id": "C66", "title": "Wrong prior or distribution type is a ValueError", "statement": "Calling a model or predictive with a prior/distribution of the wrong class (or none, or positionally) raises ValueError naming the expected and received types, before any computation.", "quantifier": "every public model function, every object", "why_tests_cant": "all functions times all classes", "anchors": ["conjugate/models.py:validate_type", "conjugate/models.py:validate_prior_type", "conjugate/models.py:validate_distribution_type"]}
{"id": "C67", "title": "Right type is never rejected", "statement": "With a keyword prior/distribution of an accepted class the wrapper returns exactly what the function body returns.", "quantifier": "every public model function, every object of an accepted class", "why_tests_cant": "all functions times all classes", "anchors": ["conjugate/models.py:validate_type"]}
{"id": "C68", "title": "Seeded sampling is reproducible", "statement": "The same random_state seed gives the same samples from sample_variance / sample_mean / sample_beta / rvs; sample_mean equals sample_beta; return_variance only adds the variances.", "quantifier": "every seed, size and parameter", "why_tests_cant": "all seeds", "anchors": ["conjugate/distributions.py:NormalInverseGamma.sample_beta", "conjugate/distributions.py:NormalGamma.sample_beta", "conjugate/distributions.py:NormalInverseWishart.sample_mean", "conjugate/distributions.py:NormalWishart.sample_mean"]}
{"id": "C69", "title": "Seeded samples are independent draws", "statement": "With an integer random_state, the samples of sample_beta (multivariate), NormalInverseWishart.sample_mean, NormalWishart.sample_mean use fresh randomness for every sample.", "quantifier": "every seed and size", "why_tests_cant": "a property of the stream positions used, for every size", "anchors": ["conjugate/distributions.py:NormalInverseGamma._sample_beta_nd", "conjugate/distributions.py:NormalInverseWishart.sample_mean", "conjugate/distributions.py:NormalWishart.sample_mean", "conjugate/_compound_gamma.py:compound_gamma.rvs"]}
{"id": "C70", "title": "Sample shapes", "statement": "The sampling methods return `size` samples with the documented shapes, size 1 included.", "quantifier": "every size and number of features", "why_tests_cant": "all sizes", "anchors": ["conjugate/distributions.py:NormalInverseGamma.sample_beta", "conjugate/distributions.py:NormalWishart.sample_variance", "conjugate/distributions.py:VectorizedDist"]}
{"id": "C71", "title": "sample_variance samples the variance", "statement": "sample_variance of NormalInverseGamma, NormalGamma, NormalInverseWishart, NormalWishart returns samples of the observation variance, and the equivalent NormalGamma / NormalInverseGamma agree on the same randomness.", "quantifier": "every parameter and randomness", "why_tests_cant": "all parameters", "anchors": ["conjugate/distributions.py:NormalInverseGamma.sample_variance", "conjugate/distributions.py:NormalGamma.sample_variance", "conjugate/distributions.py:NormalInverseWishart.sample_variance", "conjugate/distributions.py:NormalWishart.sample_variance"]}
{"id": "C72", "title": "rvs sizes of the hand-written distributions", "statement": "beta_geometric.rvs and compound_gamma.rvs return an array of the broadcast of the parameter shapes and size, fail exactly when these do not broadcast, and size=0 gives an empty sample.", "quantifier": "every shape and size", "why_tests_cant": "all shapes", "anchors": ["conjugate/_beta_geometric.py:beta_geometric.rvs", "conjugate/_compound_gamma.py:compound_gamma.rvs"]}
{"id": "C73", "title": "Dirichlet update accepts lists", "statement": "With plain Python lists (or tuples) of equal length the Dirichlet posterior parameters are the elementwise sums, and unequal lengths are an error.", "quantifier": "every pair of sequences", "why_tests_cant": "all lengths", "anchors": ["conjugate/models.py:get_dirichlet_posterior_params"]}
{"id": "C74", "title": "A custom inv is honoured", "statement": "The inv argument of the matrix models is used for every inversion; with a correct inverse the result does not depend on which inverse function is supplied.", "quantifier": "every inv function and matrices", "why_tests_cant": "all functions", "anchors": ["conjugate/models.py:linear_regression", "conjugate/models.py:multivariate_normal_known_covariance", "conjugate/models.py:multivariate_normal_known_precision"]}
{"id": "C75", "title": "Every documented data argument matters", "statement": "Each data argument of a model (n, beta, ...) influences the posterior.", "quantifier": "every model and argument", "why_tests_cant": "non-interference is a for-all-inputs statement", "anchors": ["conjugate/models.py:hypergeometric_beta_binomial", "conjugate/models.py:gamma_known_rate", "conjugate/models.py:von_mises_known_concentration"]}
{"id": "C76", "title": "log_likelihood methods", "statement": "VonMisesKnownConcentration.log_likelihood is, up to a constant in mu, the log density of a Von Mises distribution with concentration a and direction b.", "quantifier": "every a, b, mu", "why_tests_cant": "function equality", "anchors": ["conjugate/distributions.py:VonMisesKnownConcentration.log_likelihood"]}
{"id": "C77", "title": "SciPy version gate", "statement": "BetaNegativeBinomial.dist raises NotImplementedError exactly for scipy releases before 1.12.0.", "quantifier": "every version number", "why_tests_cant": "all versions", "anchors": ["conjugate/distributions.py:BetaNegativeBinomial.dist"]}
{"id": "C78", "title": "Bandit updates touch only the arm played", "statement": "In the Thompson sampling pattern of the docs (zero data except at the arm played), every other arm's distribution is unchanged and arm i's parameters are the prior plus that arm's history.", "quantifier": "every number of arms, every play history", "why_tests_cant": "all histories", "anchors": ["docs/examples/thompson.md", "conjugate/models.py:exponential_gamma"]}
{"id": "C79", "title": "Default plot bounds cover the support", "statement": "For the distributions whose constructor sets plot bounds (Beta, Binomial, Hypergeometric, BetaBinomial, BetaNegativeBinomial, Uniform, VonMises), a plot without further calls covers every point of positive probability, also for vectors of sizes.", "quantifier": "every parameter value, every vector of sizes, every point", "why_tests_cant": "all parameters and all points", "anchors": ["conjugate/distributions.py:Binomial.__post_init__", "conjugate/distributions.py:BetaNegativeBinomial.__post_init__", "conjugate/distributions.py:Uniform.__post_init__", "conjugate/distributions.py:VonMises.__post_init__"]}
{"id": "C80", "title": "Keyword order does not matter", "statement": "Passing the same keyword arguments to a model or predictive function in another order gives the same result (value or exception).", "quantifier": "every function checked by the decorators, every list of positional arguments, every permutation of every list of distinct keyword arguments", "why_tests_cant": "the orders and the values are unbounded; a test fixes one order", "anchors": ["conjugate/models.py:validate_type", "conjugate/models.py:validate_prior_type", "conjugate/models.py:validate_distribution_type"]}
{"id": "C81", "title": "Defaults are what the documentation says", "statement": "Omitting an argument with a default (prior, n, ...) gives the same result as passing the documented default.", "quantifier": "every function with defaults, every value of the other arguments", "why_tests_cant": "holds for every value of the remaining arguments", "anchors": ["conjugate/models.py:validate_type", "conjugate/models.py:validate_prior_type", "conjugate/models.py:validate_distribution_type"]}
{"id": "C82", "title": "Malformed calls are TypeErrors", "statement": "A call of a model function with a right prior but with a positional argument, a missing required keyword or an unknown keyword raises TypeError and computes nothing.", "quantifier": "every function, every positional and keyword argument list", "why_tests_cant": "ranges over all argument lists", "anchors": ["conjugate/models.py:validate_type", "conjugate/models.py:validate_prior_type", "conjugate/models.py:validate_distribution_type"]}
{"id": "C83", "title": "Vectorised Dirichlet distributions", "statement": "A Dirichlet whose alpha is a matrix samples and averages row by row, can be sampled reproducibly with random_state, and can be plotted like a vector one.", "quantifier": "every number of rows and categories, size, random_state", "why_tests_cant": "ranges over all matrices and all generator states", "anchors": ["conjugate/distributions.py:VectorizedDist", "conjugate/distributions.py:Dirichlet.dist", "conjugate/plot.py:DirichletPlotDistMixin.plot_pdf"]}
{"id": "C84", "title": "Posterior predictive", "statement": "Calling a model function on the data and the matching predictive function on its result gives the distribution of a new observation given the data, i.e. the ratio of the marginal likelihood of data and new observation to that of the data.", "quantifier": "every model with a predictive function, every prior in the parameter space, every data list, every new observation", "why_tests_cant": "an equality of ratios of integrals for all data, priors and points", "anchors": ["conjugate/models.py:binomial_beta", "conjugate/models.py:binomial_beta_predictive", "conjugate/models.py:linear_regression_predictive", "conjugate/models.py:multivariate_normal_predictive"]}
{"id": "C85", "title": "Chained predictives are the evidence", "statement": "Scoring a stream by predicting each observation with the predictive function and then updating with the model function gives, as the product of the predictive values, the marginal likelihood of the whole stream under the prior.", "quantifier": "every model with a predictive function, every prior in the parameter space, every stream of any length", "why_tests_cant": "streams of unbounded length, value is an integral", "anchors": ["conjugate/models.py:bernoulli_beta", "conjugate/models.py:bernoulli_beta_predictive", "conjugate/models.py:normal", "conjugate/models.py:normal_predictive"]}
{"id": "C86", "title": "Samples follow the distribution object", "statement": "sample_mean / sample_beta / sample_variance of NormalInverseGamma, NormalGamma, NormalInverseWishart and NormalWishart return independent draws from the joint distribution the object stands for, and the variance returned with a mean is the one that mean was drawn with, whenever the underlying generator produces exact draws. What is drawn later from the same generator is independent of the samples and distributed as if they had not been taken.", "quantifier": "every parameter in the parameter space, every sample size, with a Generator or with random_state=None, every dimension", "why_tests_cant": "equality of probability laws; a test sees finitely many draws", "anchors": ["conjugate/distributions.py:NormalInverseGamma.sample_mean", "conjugate/distributions.py:NormalInverseGamma.sample_beta", "conjugate/distributions.py:NormalGamma.sample_mean", "conjugate/distributions.py:NormalInverseWishart.sample_mean", "conjugate/distributions.py:NormalWishart.sample_mean"]}
{"id": "C87", "title": "Hand-written rvs against pdf/pmf", "statement": "rvs of the distributions the library implements itself (compound gamma, beta geometric) returns independent draws from the distribution whose pdf / pmf the same object reports. What is drawn later from the same generator is independent of the samples and distributed as if they had not been taken.", "quantifier": "every parameter in the parameter space, every sample size", "why_tests_cant": "equality of probability laws; a test sees finitely many draws", "anchors": ["conjugate/_compound_gamma.py:compound_gamma.rvs", "conjugate/_compound_gamma.py:compound_gamma_pdf", "conjugate/_beta_geometric.py:beta_geometric.rvs", "conjugate/_beta_geometric.py:beta_geometric_pmf"]}
{"id": "C88", "title": "More data leads to the true parameter", "statement": "If the observations are independent draws from the likelihood with some true parameter value, then with probability one the posterior returned after n observations puts probability tending to one on every neighbourhood of the true value.", "quantifier": "every prior in the parameter space, every true parameter value, every probability space carrying the data; beta, gamma, inverse gamma, normal, Pareto, normal-inverse-gamma, normal-gamma, Dirichlet, multivariate normal, inverse Wishart, normal-inverse-Wishart and von Mises posteriors, the gamma, beta and von Mises posteriors known up to a constant, and regression with random predictors", "why_tests_cant": "a limit statement over infinite data sequences, holding almost surely", "anchors": ["conjugate/models.py:binomial_beta", "conjugate/models.py:bernoulli_beta", "conjugate/models.py:negative_binomial_beta", "conjugate/models.py:geometric_beta", "conjugate/models.py:categorical_dirichlet", "conjugate/models.py:multinomial_dirichlet", "conjugate/models.py:poisson_gamma", "conjugate/models.py:exponential_gamma", "conjugate/models.py:gamma_known_shape", "conjugate/models.py:inverse_gamma_known_rate", "conjugate/models.py:pareto_gamma", "conjugate/models.py:uniform_pareto", "conjugate/models.py:weibull_inverse_gamma_known_shape", "conjugate/models.py:normal_known_variance", "conjugate/models.py:normal_known_precision", "conjugate/models.py:normal_known_mean", "conjugate/models.py:normal", "conjugate/models.py:log_normal", "conjugate/models.py:multivariate_normal", "conjugate/models.py:multivariate_normal_known_covariance", "conjugate/models.py:multivariate_normal_known_precision", "conjugate/models.py:multivariate_normal_known_mean", "conjugate/models.py:linear_regression", "conjugate/models.py:von_mises_known_concentration", "conjugate/models.py:gamma", "conjugate/models.py:gamma_known_rate", "conjugate/models.py:beta", "conjugate/models.py:von_mises_known_direction"]}
{"id": "C89", "title": "Counts are updated without rounding error", "statement": "With floats of p significant bits (53 in Python), if prior parameters and data have at most k bits after the binary point and the totals stay at or below 2^(p-k), then updating batch by batch in floating point returns exactly the ideal posterior of the pooled data. Past that bound counts are lost.", "quantifier": "every precision p, every k, every sequence of batches of any length, every rounding rule that leaves p-bit numbers alone", "why_tests_cant": "streams of unbounded length; tests compare with a tolerance", "anchors": ["conjugate/models.py:binomial_beta", "conjugate/models.py:bernoulli_beta", "conjugate/models.py:negative_binomial_beta", "conjugate/models.py:geometric_beta", "conjugate/models.py:poisson_gamma", "conjugate/models.py:exponential_gamma", "conjugate/models.py:weibull_inverse_gamma_known_shape", "conjugate/models.py:gamma_known_shape", "conjugate/models.py:multinomial_dirichlet", "conjugate/models.py:categorical_dirichlet"]}
{"id": "C90", "title": "Rounding errors stay small", "statement": "When every operation has relative error at most u, the parameters computed by updates that only add and multiply, from a stream of batches, are within a fraction proportional to u and the number of batches of the ideal ones, whatever the data; predictive parameters are within a fixed number of u. A parameter computed with a subtraction (geometric counting from one, Pareto, normal with known mean, normal, log-normal, mean of the normal with known variance) is off by at most a small multiple of u times the sizes of what was added and subtracted, not of the result.", "quantifier": "every unit roundoff u up to 1/4, every stream of batches, every prior, every rounding rule with relative error u", "why_tests_cant": "a bound over all data and all stream lengths", "anchors": ["conjugate/models.py:binomial_beta", "conjugate/models.py:negative_binomial_beta", "conjugate/models.py:geometric_beta", "conjugate/models.py:poisson_gamma", "conjugate/models.py:exponential_gamma", "conjugate/models.py:gamma_known_shape", "conjugate/models.py:inverse_gamma_known_rate", "conjugate/models.py:weibull_inverse_gamma_known_shape", "conjugate/models.py:gamma", "conjugate/models.py:multinomial_dirichlet", "conjugate/models.py:categorical_dirichlet", "conjugate/models.py:poisson_gamma_predictive", "conjugate/models.py:normal_known_variance", "conjugate/models.py:normal_known_variance_predictive", "conjugate/models.py:normal_predictive", "conjugate/models.py:normal_known_mean_predictive", "conjugate/models.py:bernoulli_beta", "conjugate/models.py:pareto_gamma", "conjugate/models.py:normal_known_mean", "conjugate/models.py:normal", "conjugate/models.py:log_normal", "conjugate/models.py:normal_known_precision", "conjugate/models.py:gamma_known_rate", "conjugate/models.py:beta", "conjugate/models.py:von_mises_known_direction", "conjugate/models.py:uniform_pareto"]}
{"id": "C91", "title": "Floating point posteriors are valid distributions", "statement": "Valid float prior parameters and valid data give a posterior whose parameters are valid (positive), so the result can be used as the next prior or handed to SciPy. Where the update subtracts, this holds whenever the exact parameter exceeds the rounding error of the sizes involved.", "quantifier": "every float prior, every float data, every rounding rule with relative error u", "why_tests_cant": "cancellation only shows for particular magnitudes of data", "anchors": ["conjugate/models.py:binomial_beta", "conjugate/models.py:negative_binomial_beta", "conjugate/models.py:geometric_beta", "conjugate/models.py:poisson_gamma", "conjugate/models.py:exponential_gamma", "conjugate/models.py:gamma_known_shape", "conjugate/models.py:inverse_gamma_known_rate", "conjugate/models.py:weibull_inverse_gamma_known_shape", "conjugate/models.py:uniform_pareto", "conjugate/models.py:pareto_gamma", "conjugate/models.py:multinomial_dirichlet", "conjugate/models.py:categorical_dirichlet", "conjugate/models.py:normal_known_variance", "conjugate/models.py:normal_known_precision", "conjugate/models.py:normal_known_mean", "conjugate/models.py:normal", "conjugate/models.py:normal_predictive"]}
{"id": "C92", "title": "Posterior mean and credible intervals recover the true parameter", "statement": "Feed the statistics of the first n independent draws from the model with its true parameter to the model function: almost surely, as n grows, the posterior mean exists and tends to the true parameter, and so do both ends of every credible interval (every ppf(q), 0<q<1).", "quantifier": "every valid prior, every true parameter, every coordinate of a vector of parameters and every entry of a covariance matrix, almost every infinite data stream, every q strictly between 0 and 1", "why_tests_cant": "a limit along infinite random streams; the script only plots a few sample sizes", "anchors": ["scripts/parameter-recovery.py", "conjugate/models.py:binomial_beta", "conjugate/models.py:bernoulli_beta", "conjugate/models.py:negative_binomial_beta", "conjugate/models.py:geometric_beta", "conjugate/models.py:poisson_gamma", "conjugate/models.py:gamma_known_shape", "conjugate/models.py:inverse_gamma_known_rate", "conjugate/models.py:pareto_gamma", "conjugate/models.py:weibull_inverse_gamma_known_shape", "conjugate/models.py:normal_known_variance", "conjugate/models.py:normal_known_precision", "conjugate/models.py:exponential_gamma", "conjugate/models.py:uniform_pareto", "conjugate/models.py:normal_known_mean", "conjugate/models.py:normal", "conjugate/models.py:log_normal", "conjugate/models.py:categorical_dirichlet", "conjugate/models.py:multinomial_dirichlet", "conjugate/models.py:multivariate_normal_known_covariance", "conjugate/models.py:multivariate_normal_known_precision", "conjugate/models.py:linear_regression", "conjugate/models.py:multivariate_normal_known_mean", "conjugate/models.py:multivariate_normal"]}
{"id": "C93", "title": "Predictions converge to the true law of the data", "statement": "Feed the first n independent draws from the model with its true parameter to the model function and the result to the predictive function: almost surely, as n grows, the predictive probability (density) of every possible next observation tends to its true probability.", "quantifier": "every valid prior, every true parameter, almost every infinite data stream, every possible next observation, every number of trials / exposure of the next observation", "why_tests_cant": "a limit along infinite random streams, at every point of the sample space", "anchors": ["conjugate/models.py:binomial_beta_predictive", "conjugate/models.py:bernoulli_beta_predictive", "conjugate/models.py:negative_binomial_beta_predictive", "conjugate/models.py:geometric_beta_predictive", "conjugate/models.py:poisson_gamma_predictive", "conjugate/models.py:exponential_gamma_predictive", "conjugate/models.py:gamma_known_shape_predictive", "conjugate/models.py:normal_known_variance_predictive", "conjugate/models.py:normal_known_precision_predictive", "conjugate/models.py:normal_known_mean_predictive", "conjugate/models.py:normal_predictive", "conjugate/models.py:categorical_dirichlet_predictive", "conjugate/models.py:multinomial_dirichlet_predictive", "conjugate/models.py:multivariate_normal_predictive", "conjugate/models.py:multivariate_normal_known_covariance_predictive", "conjugate/models.py:multivariate_normal_known_precision_predictive", "conjugate/models.py:linear_regression_predictive"]}
{"id": "C94", "title": "Sampling the posterior and then the model gives posterior predictive samples", "statement": "Draw n parameters from a posterior with .dist.rvs and then one observation for each of them with Model(param=samples).dist.rvs, from one generator: the result is an independent sample from the posterior predictive distribution. For models without a predictive function this is the only way to get one; for the others it is the distribution the predictive function returns. For models with several parameters the samples come from sample_mean or sample_beta with return_variance=True, the standard deviation being variance ** 0.5 as in the docs. Whatever is drawn later from the same generator is independent of the samples.", "quantifier": "every valid posterior, every known parameter of the model, every number of samples, every library of samplers that draw from the frozen distributions they are asked for, every state of the generator", "why_tests_cant": "a statement about joint laws of random samples of every size, for all parameters", "anchors": ["docs/examples/unsupported-distributions.md", "conjugate/models.py:pareto_gamma", "conjugate/models.py:uniform_pareto", "conjugate/models.py:weibull_inverse_gamma_known_shape", "conjugate/models.py:gamma", "conjugate/models.py:binomial_beta_predictive", "conjugate/models.py:bernoulli_beta_predictive", "conjugate/models.py:negative_binomial_beta_predictive", "conjugate/models.py:poisson_gamma_predictive", "conjugate/models.py:gamma_known_shape_predictive", "conjugate/models.py:exponential_gamma_predictive", "conjugate/models.py:normal_known_variance_predictive", "conjugate/models.py:normal_known_precision_predictive", "conjugate/models.py:normal_known_mean_predictive", "conjugate/models.py:geometric_beta_predictive", "docs/examples/bayesian-update.md", "conjugate/models.py:normal_predictive", "conjugate/models.py:multivariate_normal_known_covariance_predictive", "conjugate/models.py:multivariate_normal_known_precision_predictive", "conjugate/models.py:multivariate_normal_predictive", "conjugate/models.py:linear_regression_predictive", "conjugate/distributions.py:NormalInverseGamma.sample_beta", "conjugate/distributions.py:NormalGamma.sample_beta", "conjugate/distributions.py:NormalInverseWishart.sample_mean"]}
{"id": "C95", "title": "A prior known up to a constant that can be normalised gives a posterior that can be normalised", "statement": "The distributions known only up to a constant (approx_log_likelihood) describe a probability distribution exactly when the exponential of that function can be integrated. If that holds for the prior, it holds for the posterior returned by the model function, whatever the data.", "quantifier": "every prior with a positive product parameter (and, for beta and von_mises_known_direction, a non-negative prior count) whose kernel is integrable, every list of observations in the support", "why_tests_cant": "integrability over an unbounded region cannot be observed from values; it must hold for every data set", "anchors": ["conjugate/models.py:gamma", "conjugate/models.py:gamma_known_rate", "conjugate/models.py:beta", "conjugate/models.py:von_mises_known_direction", "conjugate/distributions.py:GammaProportional.approx_log_likelihood", "conjugate/distributions.py:GammaKnownRateProportional.approx_log_likelihood", "conjugate/distributions.py:BetaProportional.approx_log_likelihood", "conjugate/distributions.py:VonMisesKnownDirectionProportional.approx_log_likelihood"]}
{"id": "C96", "title": "Posterior samples gather at the true parameters as data accumulate", "statement": "Draw any fixed number of samples from the posterior after n observations: sample_beta/sample_mean with return_variance=True for a mean and a variance, dist.rvs for a single parameter. As n grows, the probability that every sampled mean is close to the true mean and every sampled variance close to the true variance (every sampled parameter close to the true parameter) tends to one. This is what the documentation's scatter plot of samples around the true parameters shows.", "quantifier": "every true parameter, every proper prior, almost every infinite sequence of independent observations, every number of samples, every closeness, the caller's Generator or numpy's global generator in a random state", "why_tests_cant": "a limit over all data sequences of a probability over all generator states", "anchors": ["conjugate/models.py:normal", "conjugate/models.py:log_normal", "conjugate/models.py:linear_regression", "conjugate/models.py:multivariate_normal", "conjugate/models.py:poisson_gamma", "conjugate/models.py:binomial_beta", "conjugate/distributions.py:NormalInverseGamma.sample_beta", "conjugate/distributions.py:NormalGamma.sample_beta", "conjugate/distributions.py:NormalInverseWishart.sample_mean", "docs/examples/bayesian-update.md"]}
{"id": "C97", "title": "Different parameters mean different distributions", "statement": "Two valid distribution objects of the same class whose densities (or probabilities, or joint densities) agree everywhere on the support have the same parameters: nothing a user can vary is without effect on the distribution, and a posterior can be compared with another one by comparing parameters.", "quantifier": "every pair of valid parameter sets of every class; agreement at every point of the support", "why_tests_cant": "pairs of real parameters and agreement at infinitely many points", "anchors": ["conjugate/distributions.py:Beta", "conjugate/distributions.py:Gamma", "conjugate/distributions.py:InverseGamma", "conjugate/distributions.py:ScaledInverseChiSquared", "conjugate/distributions.py:Normal", "conjugate/distributions.py:Exponential", "conjugate/distributions.py:Uniform", "conjugate/distributions.py:Pareto", "conjugate/distributions.py:Lomax", "conjugate/distributions.py:StudentT", "conjugate/distributions.py:CompoundGamma", "conjugate/distributions.py:Weibull", "conjugate/distributions.py:LogNormal", "conjugate/distributions.py:VonMises", "conjugate/distributions.py:Poisson", "conjugate/distributions.py:Binomial", "conjugate/distributions.py:Geometric", "conjugate/distributions.py:NegativeBinomial", "conjugate/distributions.py:BetaBinomial", "conjugate/distributions.py:BetaNegativeBinomial", "conjugate/distributions.py:Hypergeometric", "conjugate/distributions.py:BetaGeometric", "conjugate/distributions.py:Dirichlet", "conjugate/distributions.py:Multinomial", "conjugate/distributions.py:DirichletMultinomial", "conjugate/distributions.py:MultivariateNormal", "conjugate/distributions.py:MultivariateStudentT", "conjugate/distributions.py:InverseWishart", "conjugate/distributions.py:Wishart", "conjugate/distributions.py:NormalInverseWishart", "conjugate/distributions.py:NormalWishart", "conjugate/distributions.py:NormalInverseGamma", "conjugate/distributions.py:NormalGamma"]}
{"id": "C98", "title": "The posterior depends on the data exactly through the likelihood", "statement": "With the same prior, two data sets give the same posterior object if and only if their likelihood functions are proportional: information is neither lost nor invented, how sampling was stopped does not matter (x successes in n Bernoulli trials and n-x failures before the x-th success give the same Beta), and data that speak differently about the parameter never collapse to one posterior.", "quantifier": "every valid prior and every pair of data sets of any sizes (where the model has a known quantity, also any two values of it)", "why_tests_cant": "pairs of data sets of any size and proportionality over a continuum of parameters", "anchors": ["conjugate/models.py:binomial_beta", "conjugate/models.py:bernoulli_beta", "conjugate/models.py:negative_binomial_beta", "conjugate/models.py:geometric_beta", "conjugate/models.py:poisson_gamma", "conjugate/models.py:exponential_gamma", "conjugate/models.py:gamma_known_shape", "conjugate/models.py:inverse_gamma_known_rate", "conjugate/models.py:pareto_gamma", "conjugate/models.py:uniform_pareto", "conjugate/models.py:weibull_inverse_gamma_known_shape", "conjugate/models.py:normal_known_mean", "conjugate/models.py:normal_known_variance", "conjugate/models.py:normal_known_precision", "conjugate/models.py:normal", "conjugate/models.py:log_normal", "conjugate/models.py:categorical_dirichlet", "conjugate/models.py:multinomial_dirichlet", "conjugate/models.py:linear_regression", "conjugate/models.py:multivariate_normal_known_covariance", "conjugate/models.py:multivariate_normal_known_precision", "conjugate/models.py:multivariate_normal_known_mean", "conjugate/models.py:multivariate_normal", "conjugate/models.py:gamma", "conjugate/models.py:gamma_known_rate", "conjugate/models.py:beta", "conjugate/models.py:von_mises_known_direction", "conjugate/models.py:von_mises_known_concentration", "conjugate/models.py:hypergeometric_beta_binomial"]}
{"id": "C99", "title": "Data that point higher move the posterior up", "statement": "When the data change in a direction that speaks for a larger parameter (more successes in the same trials, more events in the same exposure, a smaller total for the same number of waiting times, a larger total or a wider spread), the posterior gives every threshold a strictly larger probability of being exceeded; when they change the other way, a strictly smaller one.", "quantifier": "every valid prior, all data allowed by the model, every pair of data summaries that differ in the given direction, and every threshold inside the parameter's range", "why_tests_cant": "all pairs of data sets and all thresholds of a continuum; the probabilities are integrals without closed form", "anchors": ["conjugate/models.py:binomial_beta", "conjugate/models.py:bernoulli_beta", "conjugate/models.py:negative_binomial_beta", "conjugate/models.py:geometric_beta", "conjugate/models.py:hypergeometric_beta_binomial", "conjugate/models.py:poisson_gamma", "conjugate/models.py:exponential_gamma", "conjugate/models.py:gamma_known_shape", "conjugate/models.py:inverse_gamma_known_rate", "conjugate/models.py:pareto_gamma", "conjugate/models.py:uniform_pareto", "conjugate/models.py:weibull_inverse_gamma_known_shape", "conjugate/models.py:normal_known_mean", "conjugate/models.py:normal_known_variance", "conjugate/models.py:normal_known_precision"]}
{"id": "C100", "title": "Data that point higher move the predictive up", "statement": "Composing the update with the predictive function keeps the direction: data that speak for larger future observations give every count or threshold a strictly larger predictive probability of being exceeded.", "quantifier": "every valid prior, all data allowed by the model, every pair of data summaries that differ in the given direction, and every count or threshold", "why_tests_cant": "all pairs of data sets and all thresholds; the tail probabilities are infinite sums and integrals", "anchors": ["conjugate/models.py:binomial_beta_predictive", "conjugate/models.py:negative_binomial_beta_predictive", "conjugate/models.py:poisson_gamma_predictive", "conjugate/models.py:exponential_gamma_predictive", "conjugate/models.py:gamma_known_shape_predictive", "conjugate/models.py:normal_known_variance_predictive", "conjugate/models.py:normal_known_precision_predictive"]}
{"id": "C101", "title": "The units of the data do not change the answer", "statement": "Writing the same data, known constants and prior in other units (seconds for minutes, Fahrenheit for Celsius, other linear combinations of the features, another zero direction for angles) gives the same posterior and predictive distribution written in those units.", "quantifier": "every change of unit (positive factor, affine map, invertible matrix and shift, rotation), every valid prior and every data set", "why_tests_cant": "all changes of unit, priors and data sets; the claim is about whole densities", "anchors": ["conjugate/models.py:poisson_gamma", "conjugate/models.py:gamma_known_shape", "conjugate/models.py:gamma_known_shape_predictive", "conjugate/models.py:inverse_gamma_known_rate", "conjugate/models.py:exponential_gamma", "conjugate/models.py:pareto_gamma", "conjugate/models.py:uniform_pareto", "conjugate/models.py:weibull_inverse_gamma_known_shape", "conjugate/models.py:normal_known_variance", "conjugate/models.py:normal_known_variance_predictive", "conjugate/models.py:normal_known_precision", "conjugate/models.py:normal_known_mean", "conjugate/models.py:normal_known_mean_predictive", "conjugate/models.py:normal", "conjugate/models.py:normal_predictive", "conjugate/models.py:log_normal", "conjugate/models.py:linear_regression", "conjugate/models.py:linear_regression_predictive", "conjugate/models.py:multivariate_normal_known_covariance", "conjugate/models.py:multivariate_normal_known_precision", "conjugate/models.py:multivariate_normal_known_covariance_predictive", "conjugate/models.py:multivariate_normal_known_mean", "conjugate/models.py:multivariate_normal", "conjugate/models.py:multivariate_normal_predictive", "conjugate/models.py:von_mises_known_concentration", "conjugate/models.py:von_mises_known_direction"]}
{"id": "C102", "title": "Renaming and merging categories does not change the answer", "statement": "Renaming categories, or merging them into fewer groups, before the update gives the same posterior and predictive for the groups as updating with the original categories and merging afterwards. In particular the probability of any set of categories under the Dirichlet models is what the Beta models give for being inside or outside the set, and counting failures instead of successes gives the mirrored Beta posterior and beta-binomial predictive.", "quantifier": "every number of categories and groups, every way of sorting categories into groups (each group non-empty), every positive prior, every data set, every event about the groups", "why_tests_cant": "all group maps, priors, data sets and measurable events; equality of probability distributions", "anchors": ["conjugate/models.py:categorical_dirichlet", "conjugate/models.py:categorical_dirichlet_predictive", "conjugate/models.py:multinomial_dirichlet", "conjugate/models.py:multinomial_dirichlet_predictive", "conjugate/models.py:binomial_beta", "conjugate/models.py:binomial_beta_predictive", "conjugate/models.py:bernoulli_beta", "conjugate/models.py:bernoulli_beta_predictive", "conjugate/models.py:hypergeometric_beta_binomial"]}
{"id": "C103", "title": "Announced posterior probabilities are kept in repeated use", "statement": "Draw the unknown from the prior, draw independent observations from the model with that unknown, and update. Any rule that turns the data into a region contains the unknown exactly as often as the posterior probability of the announced region says, on average. In particular the interval from posterior.dist.ppf(a) to posterior.dist.ppf(b) contains the unknown with probability b - a, for every number of observations.", "quantifier": "every valid prior, every number of observations, every measurable rule from data to regions, every pair of quantile levels", "why_tests_cant": "a simulation checks one prior, one sample size and one region with sampling error; the claim is an exact probability for all of them", "anchors": ["conjugate/models.py:binomial_beta", "conjugate/models.py:bernoulli_beta", "conjugate/models.py:negative_binomial_beta", "conjugate/models.py:geometric_beta", "conjugate/models.py:poisson_gamma", "conjugate/models.py:exponential_gamma", "conjugate/models.py:gamma_known_shape", "conjugate/models.py:inverse_gamma_known_rate", "conjugate/models.py:pareto_gamma", "conjugate/models.py:uniform_pareto", "conjugate/models.py:weibull_inverse_gamma_known_shape", "conjugate/models.py:normal_known_variance", "conjugate/models.py:normal_known_precision", "conjugate/models.py:normal_known_mean", "conjugate/models.py:normal", "conjugate/models.py:log_normal", "conjugate/models.py:linear_regression", "conjugate/models.py:multivariate_normal_known_covariance", "conjugate/models.py:multivariate_normal_known_precision", "conjugate/models.py:multivariate_normal_known_mean", "conjugate/models.py:multivariate_normal", "conjugate/models.py:categorical_dirichlet", "conjugate/models.py:multinomial_dirichlet", "conjugate/distributions.py:dist", "scripts/parameter-recovery.py"]}
{"id": "C104", "title": "Predictive draws stand for future observations", "statement": "The largest of n_new draws from the predictive distribution, as computed in docs/examples/bootstrap.md, has the distribution of the largest of n_new future counts given the data.", "quantifier": "every posterior, every n_new, every threshold", "why_tests_cant": "equality of two distributions for all posteriors; a simulated comparison cannot tell a small systematic gap from noise", "anchors": ["docs/examples/bootstrap.md", "conjugate/models.py:poisson_gamma_predictive", "conjugate/distributions.py:NegativeBinomial"]}
{"id": "C105", "title": "The entries of a vectorised posterior are jointly the posterior; comparing groups", "statement": "If the unknowns of k groups are independent a priori, the entries a vectorised update returns are together the posterior of all unknowns given the whole history, whichever way the next group to observe was chosen; size rows of samples are independent draws of it, and the charts of scripts/post-engagement.py (share of rows in which a group is the greatest, differences of two columns) are within eps of the posterior probabilities except with chance 1/(4 size eps^2).", "quantifier": "every number of groups, all priors and known parameters (one per group), every history, every measurable question, every sample size", "why_tests_cant": "an identity of k-dimensional densities for all histories, and a probability bound over all random streams", "anchors": ["scripts/post-engagement.py", "docs/examples/thompson.md", "conjugate/models.py:binomial_beta", "conjugate/models.py:exponential_gamma", "conjugate/distributions.py:Beta"]}
{"id": "C106", "title": "Model functions on SQL terms: the text a database computes", "statement": "Called with PyPika terms for data or prior, a model function returns terms whose SQL text, read by the rules of SQL, has for every row (every group) the value the function computes from the row's numbers. In particular the query of docs/examples/sql.md computes the posterior predictive of every group.", "quantifier": "every row, all input terms (columns, aggregates, compound terms, numbers), all priors", "why_tests_cant": "the rendered text has to be right for all terms and rows; the tests compare two strings and run no database", "anchors": ["docs/examples/sql.md", "docs/examples/generalized-inputs.md", "conjugate/_typing.py", "conjugate/models.py:normal", "conjugate/models.py:normal_predictive", "conjugate/models.py:normal_known_mean", "conjugate/models.py:binomial_beta"]}
{"id": "C107", "title": "The documented loop is Thompson sampling", "statement": "Run on a generator, the loop of docs/examples/thompson.md never fails. After any number of steps its estimate holds, for every group, the prior plus the group's total wait and number of plays. Given everything that happened before, the next group played is each group with exactly the probability that it has the least mean wait under the current estimates, and the wait comes from the true distribution of the group played, independent of the past.", "quantifier": "every number of groups, positive priors, distributions of positive waits, number of steps, and every event about the past plays", "why_tests_cant": "it is a statement about the joint law of all plays of an adaptive loop; a run with a seed shows one history", "anchors": ["docs/examples/thompson.md", "conjugate/models.py:exponential_gamma", "conjugate/distributions.py:Gamma", "conjugate/distributions.py:Exponential"]}
{"id": "C108", "title": "Thompson sampling finds and exploits the best group", "statement": "Run for long enough, with probability one: every group is sampled again and again, every group's estimate finds its true mean wait, the group with the lowest mean wait takes all but a vanishing share of the samples (docs: 'the group with the lowest wait time was actually exploited the most!'), a group that another one beats takes a vanishing share, and the average wait tends to the lowest mean wait.", "quantifier": "every number of groups, positive priors, distributions of positive waits with a variance, almost every random history", "why_tests_cant": "it is about the limit of an infinite random history; 250 steps with one seed can go either way", "anchors": ["docs/examples/thompson.md", "conjugate/models.py:exponential_gamma", "conjugate/distributions.py:Gamma", "conjugate/distributions.py:Exponential"]}
{"id": "C109", "title": "Double precision in range", "statement": "With numpy doubles of moderate size (zero or 1e-25 to 1e25 in magnitude) no model function overflows, underflows or gives nan: every parameter of the result is finite and is bit for bit the number that 53-bit arithmetic without exponent limits gives, so the exactness and error bounds of C89 and C90 hold for np.float64. For the sums of Poisson, exponential and binomial models this holds batch after batch for up to 2^52 batches of doubles of any size, as long as the totals stay below 2^1022.", "quantifier": "every double of moderate size as data and prior, every model function with scalar parameters; every list of batches", "why_tests_cant": "under- and overflow in intermediate results depend on all inputs together; tests use small round numbers", "anchors": ["conjugate/models.py", "conjugate/_typing.py:NUMERIC"]}
{"id": "C110", "title": "Overflow and missing values show", "statement": "A nan or an infinity among the inputs, or an overflow on the way, is never turned into an ordinary number: if a parameter of the posterior is finite, every input it depends on was finite and, for sums, the parameter is the correctly rounded sum.", "quantifier": "all doubles, including infinities, nan, subnormal numbers and signed zeros", "why_tests_cant": "it ranges over all 2^64 values of each input", "anchors": ["conjugate/models.py", "conjugate/_typing.py:NUMERIC"]}
{"id": "C111", "title": "Mean and variance of predictions", "statement": "A predictive distribution has the mean and the variance of a new observation: its mean is the posterior average of the model's mean, and its variance is the posterior average of the model's variance plus the posterior variance of the model's mean, so that it is never narrower than the model with the parameters known.", "quantifier": "all posteriors of every parameter value for which the mean and variance exist, all numbers of trials, intervals, shapes and known variances", "why_tests_cant": "the moments are integrals over the posterior for each of a continuum of parameter values", "anchors": ["conjugate/models.py:binomial_beta_predictive", "conjugate/models.py:poisson_gamma_predictive", "conjugate/models.py:negative_binomial_beta_predictive", "conjugate/models.py:gamma_known_shape_predictive", "conjugate/models.py:normal_known_variance_predictive", "conjugate/models.py:normal_known_mean_predictive", "conjugate/models.py:normal_predictive", "docs/examples/limit.md", "conjugate/models.py:multinomial_dirichlet_predictive", "conjugate/models.py:multivariate_normal_known_covariance_predictive", "conjugate/models.py:multivariate_normal_predictive"]}
{"id": "C112", "title": "Regression predictions widen away from the data", "statement": "The prediction of a linear regression at an input has the value of the mean line there and variance e (1 + x' D x), with e the posterior mean of the noise variance. Along a line of inputs it is narrowest at one place and wider the further away; with an intercept and one input that place is the mean of the inputs shrunk towards the prior's. More data never makes the line less certain anywhere.", "quantifier": "all priors with a positive definite delta_inverse, all data sets and all inputs to predict at", "why_tests_cant": "it compares the widths at every pair of inputs for every data set", "anchors": ["conjugate/models.py:linear_regression", "conjugate/models.py:linear_regression_predictive", "docs/examples/linear-regression.md"]}
{"id": "C113", "title": "Deprecated functions warn and still work", "statement": "normal_normal_inverse_gamma and normal_normal_inverse_gamma_predictive do what their replacements do, and tell the user to use those: in a script run with Python's own filters the first call of each prints its message; under other filters the message is printed as often as they say, the two functions do not suppress each other's message, and under an error filter the call raises the warning at every call.", "quantifier": "all lists of warning filters, all histories of calls of the two functions with all arguments from all callers", "why_tests_cant": "what a call prints depends on all filters and on every earlier call of the process", "anchors": ["conjugate/models.py:normal_normal_inverse_gamma", "conjugate/models.py:normal_normal_inverse_gamma_predictive"]}
{"id": "C114", "title": "Sampling from arrays of distributions", "statement": "rvs(size=(n, *shape)) of an object whose parameters are arrays, shape being what they broadcast to, returns n independent samples of every entry, each from the distribution with the parameters at its place; any other size either gives an array of exactly that size whose entries follow the parameters they line up with, or raises a ValueError and draws nothing. A number n alone raises for every array that is not a scalar, and without a size there is one draw per entry in the shape of the parameters.", "quantifier": "all shapes and values of the parameters, all sizes, all states of the generator", "why_tests_cant": "the rule ranges over all shapes, and the laws over all outcomes of the generator", "anchors": ["docs/examples/sampling-distributions.md", "conjugate/distributions.py:Exponential.dist", "conjugate/distributions.py:Normal.dist"]}
{"id": "C115", "title": "Posteriors stay honest while the data arrive", "statement": "If the unknown is drawn from the prior and observations arrive one after the other, then a user who looks at the posterior after every observation and stops by any rule they like is not misled: of the runs that stop, the region announced at that moment contains the unknown as often as its posterior probability says, and the interval from ppf(a) to ppf(b) contains it in the proportion b - a. One call with n = arange(N) + 1 and x = samples.cumsum() gives the parameters of all N moments, entry i those after the first i + 1 trials.", "quantifier": "all models with independent observations, all valid priors, all stopping rules, all rules for announcing regions, all quantile levels, all lengths N", "why_tests_cant": "stopping rules and announcements range over all measurable functions of an unbounded history, and honesty is an equality of probabilities", "anchors": ["docs/index.md", "conjugate/models.py:binomial_beta", "conjugate/models.py:poisson_gamma", "conjugate/models.py:normal_known_variance", "conjugate/models.py:normal", "conjugate/models.py:categorical_dirichlet"]}
{"id": "C116", "title": "Announced predictions are kept", "statement": "If the unknown is drawn from the prior, observations from the model and then a new value, a user who announces regions for the new value from the predictive distribution at the posterior is not misled: the announced region contains the new value as often as its predictive probability says, whatever the rule for choosing the region. In particular the limit ppf(p) of the predictive distribution is exceeded with probability at most 1 - p, with equality for measured values.", "quantifier": "all models with a predictive function, all valid priors, all numbers of observations, all rules for announcing regions, all quantile levels, any number of new trials, rows or categories", "why_tests_cant": "rules for announcing regions range over all measurable functions of the data, and the claim is an equality of probabilities over prior, data and new value", "anchors": ["docs/examples/limit.md", "conjugate/models.py:poisson_gamma_predictive", "conjugate/models.py:binomial_beta_predictive", "conjugate/models.py:geometric_beta_predictive", "conjugate/models.py:exponential_gamma_predictive", "conjugate/models.py:linear_regression_predictive", "conjugate/models.py:normal_predictive", "conjugate/models.py:multivariate_normal_predictive"]}
{"id": "C117", "title": "What is drawn is the distribution", "statement": "plot_pdf, plot_pmf and plot_cdf of an object that stands for k distributions (numbers, vectors, rows, in any mixture) draw exactly k lines; line j is the density, the probabilities or the cumulative probabilities of distribution j at every point of the grid between the bounds, and carries the j-th label. plot_cdf heights are probabilities of values up to x; plot_pmf of a count over its range has total height one; with conditional=True and one distribution the heights are conditional probabilities given the bounds. Every plotted class has a cdf plot.", "quantifier": "all plotted classes, all parameter values, all numbers of distributions, all bounds, all labels", "why_tests_cant": "number of distributions, mixture of shapes, bounds and labels are unbounded, and the heights are real functions and probabilities", "anchors": ["docs/examples/plotting.md", "docs/examples/scipy-connection.md", "docs/examples/limit.md", "conjugate/plot.py:ContinuousPlotDistMixin.plot_pdf", "conjugate/plot.py:ContinuousPlotDistMixin.plot_cdf", "conjugate/plot.py:DiscretePlotMixin.plot_pmf", "conjugate/plot.py:DiscretePlotMixin.plot_cdf", "conjugate/_beta_geometric.py:beta_geometric", "conjugate/_compound_gamma.py:compound_gamma"]}
{"id": "C118", "title": "Updating leaves its arguments alone and shares nothing with them", "statement": "A posterior computed from numbers or numpy arrays has the parameters the formulas give for the contents of the arguments at the time of the call; the call changes no array that existed; later in-place changes of the data or the prior do not change the posterior, and in-place changes of the posterior change neither. Over any sequence of updates every earlier posterior keeps its parameters and no two posteriors share an array.", "quantifier": "all memories, all mixtures of numbers and arrays (also the same array passed several times, also arrays that do not broadcast), all later sequences of in-place changes, all sequences of batches", "why_tests_cant": "aliasing shows only after some later write; the patterns of shared arguments and the histories of writes are unbounded", "anchors": ["conjugate/models.py", "conjugate/_typing.py", "conjugate/distributions.py", "docs/examples/generalized-inputs.md", "docs/examples/bayesian-update.md"]}
{"id": "C119", "title": "Arithmetic with distributions in either order", "statement": "A number may stand on either side of *; an array on the left gives the array of the multiples, an array on the right one vectorised distribution with the same entries. Every expression built from Poisson distributions with + and whole-number multiples evaluates to the distribution of the total of independent counts; sum() of distributions does too. Operands for which there is no such distribution raise.", "quantifier": "all numbers, arrays of all shapes, all parameters, all expressions (any depth), all lists", "why_tests_cant": "expressions, lists and shapes are unbounded; the tests check one sum and one product", "anchors": ["docs/examples/scaling-distributions.md", "conjugate/distributions.py:Poisson.__add__", "conjugate/distributions.py:Poisson.__mul__", "conjugate/distributions.py:Gamma.__mul__", "conjugate/distributions.py:NegativeBinomial.__mul__", "conjugate/distributions.py:Exponential.__mul__", "conjugate/distributions.py:Normal.__mul__"]}
{"id": "C120", "title": "Comparing distributions with ==", "statement": "d1 == d2 is True exactly when both are the same distribution: same class and same parameters, flags included, plot bounds not; it returns a bool and does not raise. A distribution equals itself; dist[i] equals the distribution with the i-th parameters.", "quantifier": "all classes, all parameters (numbers, arrays, nan, SQL terms), all addresses, both ways dataclasses compare fields", "why_tests_cant": "the tests compare a handful of pairs; the claim is about all pairs of parameters and arrays of all shapes", "anchors": ["conjugate/distributions.py:@dataclass", "conjugate/slice.py:SliceMixin.__getitem__", "tests/test_models.py:576", "tests/test_distributions.py:188"]}
{"id": "C121", "title": "Random variables for the parameters of the prior", "statement": "Giving the parameters of a prior distributions (docs: PyMC, 'sampling with additional uncertainty'), updating with them and drawing from the resulting posterior gives draws of the parameters and the unknown from their joint posterior.", "quantifier": "every law of the parameters of the prior, all data, every conjugate model for the general statement, binomial_beta for the documented one", "why_tests_cant": "a statement about laws of random draws for every law of the parameters; the example in the docs is not run", "anchors": ["docs/examples/generalized-inputs.md:PyMC", "conjugate/models.py:binomial_beta", "conjugate/models.py:binomial_beta_predictive"]}
{"id": "C122", "title": "A part of a distribution taken by indexing keeps its values", "statement": "d[key] for a vectorised distribution, and for MultivariateNormal and MultivariateStudentT, is the distribution of the selected entries, leaves d as it was, and keeps its parameters when the arrays of d are changed later.", "quantifier": "every class with SliceMixin and any number of array fields, the two multivariate classes of any dimension, every int, numpy integer, list of ints and slice as key, every memory and every sequence of later writes", "why_tests_cant": "ranges over all memories, keys and histories of later writes; views and copies look the same in a test that only compares values", "anchors": ["conjugate/slice.py:SliceMixin", "conjugate/distributions.py:MultivariateNormal.__getitem__", "conjugate/distributions.py:MultivariateStudentT.__getitem__"]}
{"id": "C123", "title": "Predictive intervals of a regression are longer further from the data", "statement": "docs/examples/linear-regression.md, 'the posterior predictive distribution begins to widen as we move away from the data': of two new points the one further from the mean of the training points has the longer predictive interval, at every level. (C112 is about variances and the place where they are smallest.)", "quantifier": "all training points, observations, valid priors and pairs of new points, every number of rows; for the general statement any design matrix", "why_tests_cant": "a comparison of probabilities for all pairs of points and all designs; the documentation shows one picture", "anchors": ["docs/examples/linear-regression.md:create_X", "conjugate/models.py:linear_regression", "conjugate/models.py:linear_regression_predictive"]}
{"id": "C124", "title": "Decisions by the posterior are the best decisions", "statement": "If the unknown comes from the prior and the data from the model, expected losses computed from the posterior are the losses suffered on average, and whoever minimises them suffers on average no more than with any other rule based on the data. In particular posterior.dist.mean() has the smallest average squared error, posterior.dist.var() announces that error and on average is at most prior.dist.var(), and posterior.dist.ppf(q) is the best stock when every unit too little costs q and every unit too much 1 - q.", "quantifier": "all valid priors, sample sizes, loss functions, decision rules and quantile levels, every model with a posterior", "why_tests_cant": "a statement about averages over all data sets and all competing rules; a test can only compare a few rules on a few simulated data sets", "anchors": ["conjugate/models.py:binomial_beta", "conjugate/models.py:poisson_gamma", "conjugate/models.py:normal_known_variance", "conjugate/models.py:uniform_pareto", "conjugate/models.py:linear_regression", "conjugate/models.py:multivariate_normal", "conjugate/models.py:exponential_gamma"]}
{"id": "C125", "title": "Decisions about a new observation by the predictive distribution are the best decisions", "statement": "If the unknown comes from the prior, and the data and one new observation from the model, expected losses computed from the predictive distribution of the posterior are the losses suffered on average, and whoever minimises them suffers on average no more than with any other rule based on the data. In particular predictive.dist.ppf(q) is the best limit or stock when every unit too little costs q and every unit too much 1 - q, for counts as for measured values, and the predictive mean is the guess of the new observation with the smallest average squared error.", "quantifier": "all valid priors, sample sizes, loss functions, decision rules and quantile levels, every *_predictive function with a known posterior", "why_tests_cant": "a statement about averages over all data sets, all new observations and all competing rules; a test can only compare a few rules on a few simulated data sets", "anchors": ["conjugate/models.py:binomial_beta_predictive", "conjugate/models.py:poisson_gamma_predictive", "conjugate/models.py:exponential_gamma_predictive", "conjugate/models.py:geometric_beta_predictive", "conjugate/models.py:linear_regression_predictive", "conjugate/models.py:multivariate_normal_predictive", "docs/examples/limit.md"]}
{"id": "C126", "title": "Dirichlet posteriors can be used", "statement": "After updating a Dirichlet prior with any number of batches of counts, prior and counts given as lists, tuples or arrays of the same length, .dist of the posterior is the Dirichlet distribution whose parameters are the prior's plus all counts, category by category.", "quantifier": "every prior and every sequence of batches, as list, tuple or array of any length", "why_tests_cant": "all lengths, all mixtures of kinds and all numbers of batches; the kind of the parameter depends on the whole history", "anchors": ["conjugate/models.py:get_dirichlet_posterior_params", "conjugate/models.py:multinomial_dirichlet", "conjugate/models.py:categorical_dirichlet", "conjugate/distributions.py:Dirichlet.dist"]}
{"id": "C127", "title": "Finding a distribution in a list", "statement": "For a list of distributions, d in ds, ds.index(d), ds.count(d) and ds.remove(d) find exactly the distributions with the class and the parameters of d: membership, first position, number and removal of the first, without raising because of the other elements.", "quantifier": "all lists of distributions of all classes, all parameters (numbers, flags, arrays), all addresses, both ways dataclasses compare fields", "why_tests_cant": "lists of every length, with equal and unequal neighbours in every order; an exception depends on what comes before", "anchors": ["conjugate/distributions.py:@dataclass", "docs/examples/bayesian-update.md"]}
