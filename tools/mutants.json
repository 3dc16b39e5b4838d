[
{
"id": "S001",
"file": "Models.lean",
"def": "getBinomialBetaPosteriorParams",
"old": "alpha_prior + x",
"new": "alpha_prior + n",
"claims": [
"C01",
"C02",
"C42",
"C45"
],
"bug": "successes replaced by trials",
"count": 1
},
{
"id": "S002",
"file": "Models.lean",
"def": "getBinomialBetaPosteriorParams",
"old": "beta_prior + (n - x)",
"new": "beta_prior + n",
"claims": [
"C01",
"C02",
"C42",
"C45"
],
"bug": "failures not subtracted",
"count": 1
},
{
"id": "S003",
"file": "Models.lean",
"def": "binomial_beta",
"old": "alpha := p.1, beta := p.2",
"new": "alpha := p.2, beta := p.1",
"claims": [
"C01",
"C02",
"C37",
"C40",
"C42",
"C45"
],
"bug": "swapped results",
"count": 1
},
{
"id": "S004",
"file": "Models.lean",
"def": "binomial_beta_predictive",
"old": "alpha := distribution.alpha, beta := distribution.beta",
"new": "alpha := distribution.beta, beta := distribution.alpha",
"claims": [
"C24"
],
"bug": "swapped arguments",
"count": 1
},
{
"id": "S005",
"file": "Models.lean",
"def": "bernoulli_beta",
"old": "lit 1",
"new": "lit 2",
"claims": [
"C02"
],
"bug": "one trial counted as two",
"count": 1
},
{
"id": "S006",
"file": "Models.lean",
"def": "negative_binomial_beta",
"old": "prior.alpha + (r * n)",
"new": "prior.alpha + r",
"claims": [
"C03",
"C37",
"C40"
],
"bug": "number of observations dropped",
"count": 1
},
{
"id": "S007",
"file": "Models.lean",
"def": "negative_binomial_beta_predictive",
"old": "alpha := distribution.alpha, beta := distribution.beta",
"new": "alpha := distribution.beta, beta := distribution.alpha",
"claims": [
"C25"
],
"bug": "swapped arguments",
"count": 1
},
{
"id": "S008",
"file": "Models.lean",
"def": "hypergeometric_beta_binomial",
"old": "let n := prior.n",
"new": "let n := _n",
"claims": [
"C17"
],
"bug": "sample size used in place of the population size",
"count": 1
},
{
"id": "S009",
"file": "Models.lean",
"def": "geometric_beta",
"old": "if one_start then beta_post - n",
"new": "if one_start then beta_post",
"claims": [
"C04"
],
"bug": "missing one-start correction",
"count": 1
},
{
"id": "S010",
"file": "Models.lean",
"def": "geometric_beta",
"old": "if one_start",
"new": "if !one_start",
"claims": [
"C04"
],
"bug": "inverted flag",
"count": 1
},
{
"id": "S011",
"file": "Models.lean",
"def": "geometric_beta_predictive",
"old": "one_start := one_start",
"new": "one_start := true",
"claims": [
"C26"
],
"bug": "flag not passed on",
"count": 1
},
{
"id": "S012",
"file": "Models.lean",
"def": "getDirichletPosteriorParams",
"old": "| .error _ => PySeq.zipAdd",
"new": "| .error e => .error e --",
"claims": [
"C73"
],
"bug": "fallback dropped",
"count": 1
},
{
"id": "S013",
"file": "Models.lean",
"def": "multinomial_dirichlet_predictive",
"old": "n := n",
"new": "n := lit 1",
"claims": [
"C36"
],
"bug": "number of trials ignored",
"count": 1
},
{
"id": "S014",
"file": "Models.lean",
"def": "getPoissonGammaPosteriorParams",
"old": "alpha + x_total",
"new": "alpha + n",
"claims": [
"C05",
"C06"
],
"bug": "swapped statistics",
"count": 1
},
{
"id": "S015",
"file": "Models.lean",
"def": "poisson_gamma_predictive",
"old": "n * distribution.alpha",
"new": "distribution.alpha",
"claims": [
"C27"
],
"bug": "number of copies dropped",
"count": 1
},
{
"id": "S016",
"file": "Models.lean",
"def": "poisson_gamma_predictive",
"old": "distribution.beta / (lit 1 + distribution.beta)",
"new": "lit 1 / (lit 1 + distribution.beta)",
"claims": [
"C27"
],
"bug": "complementary probability",
"count": 1
},
{
"id": "S017",
"file": "Models.lean",
"def": "exponential_gamma_predictive",
"old": "alpha := distribution.beta, lam := distribution.alpha",
"new": "alpha := distribution.alpha, lam := distribution.beta",
"claims": [
"C28"
],
"bug": "(the fix of the reported defect) swapped arguments",
"count": 1
},
{
"id": "S018",
"file": "Models.lean",
"def": "gamma_known_shape",
"old": "prior.alpha + n * alpha",
"new": "prior.alpha + alpha",
"claims": [
"C07",
"C37",
"C40"
],
"bug": "number of observations dropped",
"count": 1
},
{
"id": "S019",
"file": "Models.lean",
"def": "gamma_known_shape_predictive",
"old": "beta := distribution.alpha, lam := distribution.beta",
"new": "beta := distribution.beta, lam := distribution.alpha",
"claims": [
"C29"
],
"bug": "swapped arguments",
"count": 1
},
{
"id": "S020",
"file": "Models.lean",
"def": "inverse_gamma_known_rate",
"old": "prior.alpha + n * alpha",
"new": "prior.alpha + n",
"claims": [
"C08"
],
"bug": "known shape dropped",
"count": 1
},
{
"id": "S021",
"file": "Models.lean",
"def": "normal_known_variance",
"old": "lit 1 / ((lit 1 / powq prior.sigma 2) + (n / var))",
"new": "lit 1 / ((lit 1 / powq prior.sigma 2) + (lit 1 / var))",
"claims": [
"C12",
"C37",
"C40"
],
"bug": "number of observations dropped from the variance",
"count": 1
},
{
"id": "S022",
"file": "Models.lean",
"def": "normal_known_variance",
"old": "powq var_post (1 / 2)",
"new": "var_post",
"claims": [
"C12",
"C37"
],
"bug": "variance returned as standard deviation",
"count": 1
},
{
"id": "S023",
"file": "Models.lean",
"def": "normal_known_variance_predictive",
"old": "powq distribution.sigma 2",
"new": "distribution.sigma",
"claims": [
"C30"
],
"bug": "standard deviation added to a variance",
"count": 1
},
{
"id": "S024",
"file": "Models.lean",
"def": "normal_known_precision",
"old": "lit 1 / precision",
"new": "precision",
"claims": [
"C12",
"C43"
],
"bug": "precision taken for a variance",
"count": 1
},
{
"id": "S025",
"file": "Models.lean",
"def": "normalKnownMeanInverseGammaPrior",
"old": "n / lit 2",
"new": "n",
"claims": [
"C13"
],
"bug": "half dropped",
"count": 1
},
{
"id": "S026",
"file": "Models.lean",
"def": "normalKnownMeanInverseGammaPrior",
"old": "(lit 2 * mu * x_total)",
"new": "(mu * x_total)",
"claims": [
"C13"
],
"bug": "cross term halved",
"count": 1
},
{
"id": "S027",
"file": "Models.lean",
"def": "normal_known_mean",
"old": "prior.to_inverse_gamma",
"new": "⟨prior.nu, prior.sigma2⟩",
"claims": [
"C13"
],
"bug": "conversion skipped",
"count": 1
},
{
"id": "S028",
"file": "Models.lean",
"def": "normal_known_mean_predictive",
"old": "distribution.beta / distribution.alpha",
"new": "distribution.alpha / distribution.beta",
"claims": [
"C31"
],
"bug": "ratio inverted",
"count": 1
},
{
"id": "S029",
"file": "Models.lean",
"def": "normal_known_mean_predictive",
"old": "lit 2 * distribution.alpha",
"new": "distribution.alpha",
"claims": [
"C31"
],
"bug": "degrees of freedom halved",
"count": 1
},
{
"id": "S030",
"file": "Models.lean",
"def": "normalUpdate",
"old": "powq mu_post 2 * nu_post",
"new": "powq mu_post 2 * nu",
"claims": [
"C14",
"C37"
],
"bug": "prior weight in place of posterior weight",
"count": 1
},
{
"id": "S031",
"file": "Models.lean",
"def": "normalUpdate",
"old": "((nu * mu_0) + (n * x_mean)) / nu_post",
"new": "((nu * mu_0) + x_mean) / nu_post",
"claims": [
"C14"
],
"bug": "mean in place of total",
"count": 1
},
{
"id": "S032",
"file": "Models.lean",
"def": "normal",
"old": ".error (.valueError \"nu must be provided for the prior\")",
"new": ".error .typeError",
"claims": [
"C48"
],
"bug": "other exception",
"count": 1
},
{
"id": "S033",
"file": "Models.lean",
"def": "normal",
"old": "mu := r.1, lam := r.2.1, alpha := r.2.2.1, beta := r.2.2.2",
"new": "mu := r.1, lam := r.2.1, alpha := r.2.2.2, beta := r.2.2.1",
"claims": [
"C14"
],
"bug": "swapped results",
"count": 1
},
{
"id": "S034",
"file": "Models.lean",
"def": "normal_predictive",
"old": "beta * (nu + lit 1) / (nu * alpha)",
"new": "beta * (nu + lit 1) / nu * alpha",
"claims": [
"C32"
],
"bug": "precedence slip",
"count": 1
},
{
"id": "S035",
"file": "Models.lean",
"def": "normal_predictive",
"old": "lit 2 * alpha",
"new": "alpha",
"claims": [
"C32"
],
"bug": "degrees of freedom halved",
"count": 1
},
{
"id": "S036",
"file": "Models.lean",
"def": "uniform_pareto",
"old": "max_fn prior.x_m x_max",
"new": "x_max",
"claims": [
"C10",
"C37",
"C40"
],
"bug": "prior bound forgotten",
"count": 1
},
{
"id": "S037",
"file": "Models.lean",
"def": "uniform_pareto",
"old": "prior.alpha + n",
"new": "prior.alpha + lit 1",
"claims": [
"C10",
"C37",
"C40"
],
"bug": "number of observations dropped",
"count": 1
},
{
"id": "S038",
"file": "Models.lean",
"def": "pareto_gamma",
"old": "- n * ln x_m",
"new": "- ln x_m",
"claims": [
"C09",
"C37",
"C40"
],
"bug": "number of observations dropped",
"count": 1
},
{
"id": "S039",
"file": "Models.lean",
"def": "gamma",
"old": "prior.s + n",
"new": "prior.s",
"claims": [
"C18"
],
"bug": "dropped update",
"count": 1
},
{
"id": "S040",
"file": "Models.lean",
"def": "gamma",
"old": "prior.p * x_prod",
"new": "prior.p + x_prod",
"claims": [
"C18",
"C40"
],
"bug": "sum in place of product",
"count": 1
},
{
"id": "S041",
"file": "Models.lean",
"def": "gamma_known_rate",
"old": "prior.c + n",
"new": "prior.c + _beta",
"claims": [
"C18"
],
"bug": "wrong statistic",
"count": 1
},
{
"id": "S042",
"file": "Models.lean",
"def": "beta",
"old": "prior.q * one_minus_x_prod",
"new": "prior.q * x_prod",
"claims": [
"C18"
],
"bug": "wrong statistic",
"count": 1
},
{
"id": "S043",
"file": "Models.lean",
"def": "von_mises_known_concentration",
"old": "kappa * sin_total_post",
"new": "sin_total_post",
"claims": [
"C19"
],
"bug": "kappa forgotten",
"count": 1
},
{
"id": "S044",
"file": "Models.lean",
"def": "von_mises_known_direction",
"old": "prior.c + n",
"new": "prior.c + centered_cos_total",
"claims": [
"C18"
],
"bug": "wrong statistic",
"count": 1
},
{
"id": "S045",
"file": "Models.lean",
"def": "log_normal",
"old": "ln_x_total ln_x2_total",
"new": "ln_x2_total ln_x_total",
"claims": [
"C15"
],
"bug": "swapped statistics",
"count": 1
},
{
"id": "S046",
"file": "Models.lean",
"def": "weibull_inverse_gamma_known_shape",
"old": "prior.beta + x_beta_total",
"new": "prior.beta * x_beta_total",
"claims": [
"C11",
"C40"
],
"bug": "product in place of sum",
"count": 1
},
{
"id": "S047",
"file": "Dist.lean",
"def": "getBetaParamFromMeanAndAlpha",
"old": "(lit 1 / mean) - lit 1",
"new": "lit 1 / mean",
"claims": [
"C45"
],
"bug": "minus one dropped",
"count": 1
},
{
"id": "S048",
"file": "Dist.lean",
"def": "Beta.from_successes_and_failures",
"old": "failures + lit 1",
"new": "failures",
"claims": [
"C45"
],
"bug": "prior pseudo count dropped",
"count": 1
},
{
"id": "S049",
"file": "Dist.lean",
"def": "Exponential.mul",
"old": "lit 1 / self.lam",
"new": "self.lam",
"claims": [
"C50"
],
"bug": "rate in place of scale",
"count": 1
},
{
"id": "S050",
"file": "Dist.lean",
"def": "Gamma.mul",
"old": "beta := self.beta",
"new": "beta := self.beta * other",
"claims": [
"C50"
],
"bug": "rate scaled as well",
"count": 1
},
{
"id": "S051",
"file": "Dist.lean",
"def": "NegativeBinomial.mul",
"old": "self.n * other",
"new": "self.n",
"claims": [
"C50"
],
"bug": "copies ignored",
"count": 1
},
{
"id": "S052",
"file": "Dist.lean",
"def": "Poisson.add",
"old": "self.lam + other.lam",
"new": "self.lam + self.lam",
"claims": [
"C49"
],
"bug": "own rate added twice",
"count": 1
},
{
"id": "S053",
"file": "Dist.lean",
"def": "Normal.mul",
"old": "powq (powq self.sigma 2 * other) (1 / 2)",
"new": "self.sigma * other",
"claims": [
"C51"
],
"bug": "scaling in place of a sum",
"count": 1
},
{
"id": "S054",
"file": "Dist.lean",
"def": "Normal.from_mean_and_precision",
"old": "(-1 / 2)",
"new": "(1 / 2)",
"claims": [
"C45"
],
"bug": "sign of the exponent",
"count": 1
},
{
"id": "S055",
"file": "Dist.lean",
"def": "NormalInverseGamma.new",
"old": "delta_inverse.isSome && nu.isSome",
"new": "delta_inverse.isSome && nu.isNone",
"claims": [
"C20",
"C45"
],
"bug": "wrong condition",
"count": 1
},
{
"id": "S056",
"file": "Dist.lean",
"def": "NormalInverseGamma.new",
"old": "delta_inverse.isNone && nu.isNone",
"new": "delta_inverse.isNone && nu.isSome",
"claims": [
"C14"
],
"bug": "wrong condition",
"count": 1
},
{
"id": "S057",
"file": "Dist.lean",
"def": "ScaledInverseChiSquared.from_inverse_gamma",
"old": "inverse_gamma.beta * lit 2 / nu",
"new": "inverse_gamma.beta / nu",
"claims": [
"C13",
"C43"
],
"bug": "factor two dropped",
"count": 1
},
{
"id": "S058",
"file": "Dist.lean",
"def": "ScaledInverseChiSquared.to_inverse_gamma",
"old": "self.nu * self.sigma2 / lit 2",
"new": "self.sigma2 / lit 2",
"claims": [
"C13",
"C43",
"C31"
],
"bug": "nu dropped",
"count": 1
},
{
"id": "S059",
"file": "Dist.lean",
"def": "GammaKnownRateProportional.approx_log_likelihood",
"old": "self.b * gammaln alpha",
"new": "gammaln alpha",
"claims": [
"C18"
],
"bug": "weight dropped",
"count": 1
},
{
"id": "S060",
"file": "Dist.lean",
"def": "GammaProportional.approx_log_likelihood",
"old": "self.s * alpha * ln beta",
"new": "self.s * ln beta",
"claims": [
"C18"
],
"bug": "factor dropped",
"count": 1
},
{
"id": "S061",
"file": "Dist.lean",
"def": "BetaProportional.approx_log_likelihood",
"old": "self.k * gammaln (alpha + beta)",
"new": "gammaln (alpha + beta)",
"claims": [
"C18"
],
"bug": "weight dropped",
"count": 1
},
{
"id": "S062",
"file": "Dist.lean",
"def": "VonMisesKnownDirectionProportional.approx_log_likelihood",
"old": "kappa * self.r - self.c * ln (i0 kappa)",
"new": "kappa * self.r + self.c * ln (i0 kappa)",
"claims": [
"C18"
],
"bug": "sign",
"count": 1
},
{
"id": "S063",
"file": "Dist.lean",
"def": "NormalWishart.wishart",
"old": "nu := self.nu",
"new": "nu := self.lam",
"claims": [
"C86"
],
"bug": "wrong field",
"count": 1
},
{
"id": "S064",
"file": "Dist.lean",
"def": "NormalInverseWishart.inverse_wishart",
"old": "nu := self.nu",
"new": "nu := self.kappa",
"claims": [
"C23"
],
"bug": "wrong field",
"count": 1
},
{
"id": "S065",
"file": "Dist.lean",
"def": "NormalInverseWishart.from_inverse_wishart",
"old": "kappa := kappa, nu := inverse_wishart.nu",
"new": "kappa := inverse_wishart.nu, nu := kappa",
"claims": [
"C45"
],
"bug": "swapped fields",
"count": 1
},
{
"id": "S066",
"file": "Dist.lean",
"def": "NormalInverseGamma.inverse_gamma",
"old": "alpha := self.alpha, beta := self.beta",
"new": "alpha := self.beta, beta := self.alpha",
"claims": [
"C14",
"C45"
],
"bug": "swapped fields",
"count": 1
},
{
"id": "S067",
"file": "DistMap.lean",
"def": "Beta.dist",
"old": "self.alpha self.beta",
"new": "self.beta self.alpha",
"claims": [
"C01",
"C52"
],
"bug": "swapped shapes",
"count": 1
},
{
"id": "S068",
"file": "DistMap.lean",
"def": "Gamma.dist",
"old": "1 / self.beta",
"new": "self.beta",
"claims": [
"C05",
"C52"
],
"bug": "rate taken for scale",
"count": 1
},
{
"id": "S069",
"file": "DistMap.lean",
"def": "Geometric.dist",
"old": "then 0 else -1",
"new": "then -1 else 0",
"claims": [
"C04",
"C52"
],
"bug": "inverted shift",
"count": 1
},
{
"id": "S070",
"file": "DistMap.lean",
"def": "StudentT.dist",
"old": ".t self.nu",
"new": ".t self.sigma",
"claims": [
"C31",
"C32",
"C52"
],
"bug": "wrong parameter",
"count": 1
},
{
"id": "S071",
"file": "DistMap.lean",
"def": "Pareto.dist",
"old": "scale := self.x_m",
"new": "scale := 1",
"claims": [
"C10",
"C52"
],
"bug": "scale dropped",
"count": 1
},
{
"id": "S072",
"file": "DistMap.lean",
"def": "InverseGamma.dist",
"old": "scale := self.beta",
"new": "scale := 1 / self.beta",
"claims": [
"C13",
"C52"
],
"bug": "rate in place of scale",
"count": 1
},
{
"id": "S073",
"file": "DistMap.lean",
"def": "ScaledInverseChiSquared.dist",
"old": "self.nu * self.sigma2 / 2",
"new": "self.sigma2 / 2",
"claims": [
"C52"
],
"bug": "nu dropped",
"count": 1
},
{
"id": "S074",
"file": "DistMap.lean",
"def": "Weibull.dist",
"old": "self.theta ^ (1 / self.beta)",
"new": "self.theta",
"claims": [
"C11",
"C52"
],
"bug": "theta used as the scale",
"count": 1
},
{
"id": "S075",
"file": "DistMap.lean",
"def": "Exponential.dist",
"old": "scale := self.lam",
"new": "scale := 1 / self.lam",
"claims": [
"C54"
],
"bug": "(the other reading of lam)",
"count": 1
},
{
"id": "S076",
"file": "DistMap.lean",
"def": "Uniform.dist",
"old": "scale := self.high",
"new": "scale := self.high - self.low",
"claims": [
"C53"
],
"bug": "(the fix of the reported defect)",
"count": 1
},
{
"id": "S077",
"file": "DistMap.lean",
"def": "Hypergeometric.dist",
"old": "self.N self.k self.n",
"new": "self.N self.n self.k",
"claims": [],
"bug": "swapped arguments",
"count": 1
},
{
"id": "S078",
"file": "DistMap.lean",
"def": "LogNormal.dist",
"old": "loc := self.mu",
"new": "loc := 0",
"claims": [
"C54"
],
"bug": "mean dropped",
"count": 1
},
{
"id": "S079",
"file": "DistMap.lean",
"def": "betaGeometricPmf",
"old": "x + 1 else x",
"new": "x else x",
"claims": [
"C26"
],
"bug": "zero-start shift dropped",
"count": 1
},
{
"id": "S080",
"file": "DistMap.lean",
"def": "betaGeometricPmf",
"old": "(x + b)",
"new": "(x + b - 1)",
"claims": [
"C26",
"C55"
],
"bug": "(the fix of the reported defect)",
"count": 1
},
{
"id": "S081",
"file": "DistMap.lean",
"def": "compoundGammaPdf",
"old": "(-a - b)",
"new": "(-a)",
"claims": [
"C29",
"C55"
],
"bug": "exponent",
"count": 1
},
{
"id": "S082",
"file": "DistMap.lean",
"def": "NormalGamma.jointPdf",
"old": "self.lam * precision",
"new": "precision",
"claims": [
"C14"
],
"bug": "lam dropped",
"count": 1
},
{
"id": "S083",
"file": "MatModels.lean",
"def": "linear_regression",
"old": "(Xᵀ * X) + delta",
"new": "(Xᵀ * X)",
"claims": [
"C20",
"C38"
],
"bug": "prior precision dropped",
"count": 1
},
{
"id": "S084",
"file": "MatModels.lean",
"def": "linear_regression",
"old": "1 / 2 * N",
"new": "N",
"claims": [
"C20"
],
"bug": "half dropped",
"count": 1
},
{
"id": "S085",
"file": "MatModels.lean",
"def": "linear_regression",
"old": "- (mu_post ⬝ᵥ delta_post *ᵥ mu_post)",
"new": "+ (mu_post ⬝ᵥ delta_post *ᵥ mu_post)",
"claims": [
"C20"
],
"bug": "sign",
"count": 1
},
{
"id": "S086",
"file": "MatModels.lean",
"def": "linear_regression",
"old": "some delta_post_inverse",
"new": "some delta_post",
"claims": [
"C20"
],
"bug": "matrix in place of its inverse",
"count": 1
},
{
"id": "S087",
"file": "MatModels.lean",
"def": "linear_regression_predictive",
"old": "1 + (X * di * Xᵀ)",
"new": "X * di * Xᵀ",
"claims": [
"C33"
],
"bug": "noise term dropped",
"count": 1
},
{
"id": "S088",
"file": "MatModels.lean",
"def": "linear_regression_predictive",
"old": "2 * distribution.alpha",
"new": "distribution.alpha",
"claims": [
"C33"
],
"bug": "degrees of freedom halved",
"count": 1
},
{
"id": "S089",
"file": "MatModels.lean",
"def": "multivariateNormalKnownPrecisionParams",
"old": "precision_0 + (n • precision)",
"new": "precision_0 + precision",
"claims": [
"C21",
"C38"
],
"bug": "number of observations dropped",
"count": 1
},
{
"id": "S090",
"file": "MatModels.lean",
"def": "multivariateNormalKnownPrecisionParams",
"old": "(n • (precision *ᵥ x_bar))",
"new": "(precision *ᵥ x_bar)",
"claims": [
"C21"
],
"bug": "number of observations dropped from the mean",
"count": 1
},
{
"id": "S091",
"file": "MatModels.lean",
"def": "multivariate_normal_known_covariance",
"old": "let precision ← inv cov",
"new": "let precision : Matrix p p ℝ ← pure cov",
"claims": [
"C21"
],
"bug": "inversion forgotten",
"count": 1
},
{
"id": "S092",
"file": "MatModels.lean",
"def": "multivariate_normal_known_covariance",
"old": "x_bar precision\n",
"new": "x_bar precision inv\n",
"claims": [
"C74"
],
"bug": "(the fix of the reported defect)",
"count": 1
},
{
"id": "S093",
"file": "MatModels.lean",
"def": "multivariate_normal_known_covariance_predictive",
"old": "distribution.cov + cov",
"new": "cov",
"claims": [
"C34"
],
"bug": "parameter uncertainty dropped",
"count": 1
},
{
"id": "S094",
"file": "MatModels.lean",
"def": "multivariate_normal_known_precision_predictive",
"old": "distribution.cov + i",
"new": "distribution.cov + precision",
"claims": [
"C34"
],
"bug": "inversion forgotten",
"count": 1
},
{
"id": "S095",
"file": "MatModels.lean",
"def": "multivariate_normal_known_mean",
"old": "(subRow X mu)ᵀ * (subRow X mu)",
"new": "Xᵀ * X",
"claims": [
"C22"
],
"bug": "centring dropped",
"count": 1
},
{
"id": "S096",
"file": "MatModels.lean",
"def": "multivariate_normal_known_mean",
"old": "prior.nu + (Fintype.card m : ℝ)",
"new": "prior.nu + (Fintype.card p : ℝ)",
"claims": [
"C22",
"C38"
],
"bug": "columns counted in place of rows",
"count": 1
},
{
"id": "S097",
"file": "MatModels.lean",
"def": "multivariate_normal",
"old": "* n * prior.kappa / kappa_post",
"new": "* n / kappa_post",
"claims": [
"C23",
"C38"
],
"bug": "kappa dropped",
"count": 1
},
{
"id": "S098",
"file": "MatModels.lean",
"def": "multivariate_normal",
"old": "let kappa_post := prior.kappa + n",
"new": "let kappa_post := prior.kappa",
"claims": [
"C23",
"C38"
],
"bug": "dropped update",
"count": 1
},
{
"id": "S099",
"file": "MatModels.lean",
"def": "multivariate_normal_predictive",
"old": "distribution.nu - np + 1\n",
"new": "distribution.nu - np\n",
"claims": [
"C35",
"C44"
],
"bug": "off by one",
"count": 1
},
{
"id": "S100",
"file": "MatModels.lean",
"def": "MultivariateNormal.getInt",
"old": "powq (self.cov i i) (1 / 2)",
"new": "self.cov i i",
"claims": [
"C56"
],
"bug": "variance as standard deviation",
"count": 1
},
{
"id": "S101",
"file": "MatModels.lean",
"def": "MultivariateNormal.getList",
"old": "self.cov.submatrix key key",
"new": "self.cov.submatrix key key + 0 • (self.cov.submatrix key key)ᵀ + (self.cov.submatrix key key)",
"claims": [
"C56"
],
"bug": "covariance doubled",
"count": 1
},
{
"id": "S102",
"file": "MatModels.lean",
"def": "MultivariateStudentT.getInt",
"old": "self.sigma i i",
"new": "powq (self.sigma i i) (1 / 2)",
"claims": [
"C56"
],
"bug": "(the fix of the reported defect)",
"count": 1
},
{
"id": "S103",
"file": "MatScipy.lean",
"def": "NormalInverseWishart.jointPdf",
"old": "(1 / self.kappa) • cov",
"new": "cov",
"claims": [
"C23"
],
"bug": "kappa dropped",
"count": 1
},
{
"id": "S104",
"file": "MatScipy.lean",
"def": "NormalInverseGamma.jointPdfNd",
"old": "variance • delta_inverse",
"new": "delta_inverse",
"claims": [
"C20"
],
"bug": "variance dropped",
"count": 1
},
{
"id": "S105",
"file": "Slice.lean",
"def": "normIndex",
"old": "i < n",
"new": "i ≤ n",
"claims": [
"C58"
],
"bug": "boundary",
"count": 1
},
{
"id": "S106",
"file": "Slice.lean",
"def": "normIndex",
"old": "-(n : ℤ) ≤ i",
"new": "-(n : ℤ) < i",
"claims": [
"C58"
],
"bug": "boundary",
"count": 1
},
{
"id": "S107",
"file": "Slice.lean",
"def": "clipIndex",
"old": "min i.toNat n",
"new": "i.toNat",
"claims": [
"C59"
],
"bug": "clipping dropped",
"count": 1
},
{
"id": "S108",
"file": "Slice.lean",
"def": "slicePositions",
"old": "hi - lo",
"new": "hi",
"claims": [
"C59"
],
"bug": "length of the slice",
"count": 1
},
{
"id": "S109",
"file": "Slice.lean",
"def": "takeSlice",
"old": "| .error _ => value",
"new": "| .error _ => { value with rshape := [] }",
"claims": [
"C59"
],
"bug": "failed index destroys the value",
"count": 1
},
{
"id": "S110",
"file": "Slice.lean",
"def": "Value.takeSlice",
"old": "| .error _ => v",
"new": "| .error _ => .flag false",
"claims": [
"C59"
],
"bug": "failed index destroys the value",
"count": 1
},
{
"id": "S111",
"file": "Slice.lean",
"def": "Obj.getitem",
"old": "Obj.construct self.cls new_params",
"new": "{ Obj.construct self.cls new_params with attrs := self.attrs }",
"claims": [
"C59"
],
"bug": "plot bounds copied",
"count": 1
},
{
"id": "S112",
"file": "Slice.lean",
"def": "Obj.getitem",
"old": "self.fields.map",
"new": "self.fields.tail.map",
"claims": [
"C59"
],
"bug": "first field lost",
"count": 1
},
{
"id": "S113",
"file": "Plot.lean",
"def": "maxValue",
"old": "| none => .error (.valueError \"Set the max value before plotting.\")",
"new": "| none => .ok (lit 1)",
"claims": [
"C60"
],
"bug": "default maximum",
"count": 1
},
{
"id": "S114",
"file": "Plot.lean",
"def": "minValue",
"old": "{ s with min := some (lit 0) }",
"new": "s",
"claims": [],
"bug": "default not stored",
"count": 1
},
{
"id": "S115",
"file": "Plot.lean",
"def": "setBounds",
"old": "(s.setMinValue lower).setMaxValue upper",
"new": "(s.setMinValue upper).setMaxValue lower",
"claims": [
"C60"
],
"bug": "swapped bounds",
"count": 1
},
{
"id": "S116",
"file": "Plot.lean",
"def": "PlotCall.step",
"old": ".setMin v => s.setMinValue v",
"new": ".setMin v => s.setMaxValue v",
"claims": [
"C60"
],
"bug": "wrong bound",
"count": 1
},
{
"id": "S117",
"file": "Plot.lean",
"def": "linspace",
"old": "if i + 1 = num then stop else ",
"new": "",
"claims": [],
"bug": "(exact arithmetic: no change expected)",
"count": 1
},
{
"id": "S118",
"file": "Plot.lean",
"def": "linspace",
"old": "(num - 1 : ℕ)",
"new": "(num : ℕ)",
"claims": [
"C61"
],
"bug": "off by one step",
"count": 1
},
{
"id": "S119",
"file": "Plot.lean",
"def": "arange",
"old": "⌈stop - start⌉₊",
"new": "⌊stop - start⌋₊",
"claims": [
"C62"
],
"bug": "rounding",
"count": 1
},
{
"id": "S120",
"file": "Plot.lean",
"def": "continuousXValues",
"old": "100",
"new": "99",
"claims": [
"C61"
],
"bug": "number of points",
"count": 1
},
{
"id": "S121",
"file": "Plot.lean",
"def": "discreteXValues",
"old": "max_value + 1",
"new": "max_value",
"claims": [
"C62"
],
"bug": "last point lost",
"count": 1
},
{
"id": "S122",
"file": "Plot.lean",
"def": "reshapedX",
"old": "!f.isFloat",
"new": "f.isFloat",
"claims": [
"C63"
],
"bug": "inverted test",
"count": 1
},
{
"id": "S123",
"file": "Plot.lean",
"def": "labelToIterable",
"old": "List.range' 1 ncols",
"new": "List.range' 0 ncols",
"claims": [
"C63"
],
"bug": "labels start at zero",
"count": 1
},
{
"id": "S124",
"file": "Plot.lean",
"def": "labelToIterable",
"old": "List.replicate ncols Option.none",
"new": "[]",
"claims": [
"C63"
],
"bug": "no labels",
"count": 1
},
{
"id": "S125",
"file": "Plot.lean",
"def": "resolveLabel",
"old": "yrshape.reverse[1]?",
"new": "yrshape.reverse[0]?",
"claims": [
"C63"
],
"bug": "wrong axis",
"count": 1
},
{
"id": "S126",
"file": "Plot.lean",
"def": "resolveLabel",
"old": "ncols ≠ 1",
"new": "ncols ≠ 0",
"claims": [
"C63"
],
"bug": "boundary",
"count": 1
},
{
"id": "S127",
"file": "Plot.lean",
"def": "zipLongest",
"old": "| l, [] => l.map (fun a => (some a, none))",
"new": "| _, [] => []",
"claims": [
"C63"
],
"bug": "truncation",
"count": 1
},
{
"id": "S128",
"file": "Plot.lean",
"def": "plotTable",
"old": "(yy.map List.sum).sum",
"new": "(yy.map List.length).sum",
"claims": [
"C64"
],
"bug": "wrong total",
"count": 1
},
{
"id": "S129",
"file": "Plot.lean",
"def": "plotTable",
"old": "if conditional",
"new": "if !conditional",
"claims": [
"C64"
],
"bug": "inverted flag",
"count": 1
},
{
"id": "S130",
"file": "Plot.lean",
"def": "everyFifth",
"old": "5 * i",
"new": "5 * i + 1",
"claims": [
"C65"
],
"bug": "shifted ticks",
"count": 1
},
{
"id": "S131",
"file": "Plot.lean",
"def": "ticks",
"old": "< 15",
"new": "≤ 15",
"claims": [
"C65"
],
"bug": "boundary",
"count": 1
},
{
"id": "S132",
"file": "Plot.lean",
"def": "countPostInit",
"old": "| .num n => .ok { max := some n }",
"new": "| .num n => .ok { max := some (n + 1) }",
"claims": [
"C79"
],
"bug": "off by one",
"count": 1
},
{
"id": "S133",
"file": "Plot.lean",
"def": "arrMax",
"old": "l.foldl max x",
"new": "x",
"claims": [
"C79"
],
"bug": "first entry only",
"count": 1
},
{
"id": "S134",
"file": "Plot.lean",
"def": "unitPostInit",
"old": "some 1",
"new": "some 2",
"claims": [],
"bug": "wrong bound",
"count": 1
},
{
"id": "S135",
"file": "Plot.lean",
"def": "uniformPostInit",
"old": "min := some low, max := some high",
"new": "min := some high, max := some low",
"claims": [
"C79"
],
"bug": "swapped bounds",
"count": 1
},
{
"id": "S136",
"file": "Calls.lean",
"def": "isInstance",
"old": "c ∈ t.supers",
"new": "t.supers = [c]",
"claims": [
"C67"
],
"bug": "exact class in place of subclass test",
"count": 1
},
{
"id": "S137",
"file": "Calls.lean",
"def": "FnSig.pyCall",
"old": "if args ≠ [] then .error .typeError",
"new": "if args.length > 1 then .error .typeError",
"claims": [
"C82"
],
"bug": "one positional argument accepted",
"count": 1
},
{
"id": "S138",
"file": "Calls.lean",
"def": "FnSig.pyCall",
"old": "p.2.isNone && (kwargs.lookup p.1).isNone",
"new": "(kwargs.lookup p.1).isNone",
"claims": [
"C81"
],
"bug": "defaults ignored",
"count": 1
},
{
"id": "S139",
"file": "Calls.lean",
"def": "FnSig.pyCall",
"old": "(kwargs.lookup name).or ((sig.params.lookup name).join)",
"new": "((sig.params.lookup name).join).or (kwargs.lookup name)",
"claims": [
"C81",
"C67"
],
"bug": "default overrides the argument",
"count": 1
},
{
"id": "S140",
"file": "Calls.lean",
"def": "FnSig.invoke",
"old": "\"Expected \" ++ sig.checked",
"new": "\"Expected \" ++ sig.name",
"claims": [
"C66"
],
"bug": "wrong name in the message",
"count": 1
},
{
"id": "S141",
"file": "Calls.lean",
"def": "FnSig.invoke",
"old": "if !isInstance received sig.annotation then",
"new": "if isInstance noneType sig.annotation then",
"claims": [
"C66"
],
"bug": "check never fires",
"count": 1
},
{
"id": "S142",
"file": "Calls.lean",
"def": "Annotation.accepted",
"old": "| .union cs => cs",
"new": "| .union cs => cs.take 1",
"claims": [
"C67"
],
"bug": "only the first member of a union",
"count": 1
},
{
"id": "S143",
"file": "Sampling.lean",
"def": "rvs",
"old": "| .generator => let r := drawAll draws w.gen; (r.1, { w with gen := r.2 })",
"new": "| .generator => let r := drawAll draws w.gen; (r.1, w)",
"claims": [
"C69"
],
"bug": "generator not advanced",
"count": 1
},
{
"id": "S144",
"file": "Sampling.lean",
"def": "rvs",
"old": "((drawAll draws (lib.seeded k)).1, w)",
"new": "((drawAll draws (lib.seeded k)).1, { w with global := lib.seeded k })",
"claims": [
"C68"
],
"bug": "global generator reseeded",
"count": 1
},
{
"id": "S145",
"file": "Sampling.lean",
"def": "drawAll",
"old": "drawAll l r.2",
"new": "drawAll l s",
"claims": [
"C69"
],
"bug": "stream reused",
"count": 1
},
{
"id": "S146",
"file": "Sampling.lean",
"def": "NormalInverseGamma.sample_variance",
"old": "lib.invgamma self.inverse_gamma.alpha self.inverse_gamma.beta",
"new": "lib.invgamma self.inverse_gamma.beta self.inverse_gamma.alpha",
"claims": [
"C71"
],
"bug": "swapped parameters",
"count": 1
},
{
"id": "S147",
"file": "Sampling.lean",
"def": "NormalInverseGamma.sample_variance",
"old": "List.replicate size",
"new": "List.replicate (size - 1)",
"claims": [
"C71"
],
"bug": "one sample too few",
"count": 1
},
{
"id": "S148",
"file": "Sampling.lean",
"def": "NormalInverseGamma.sampleBeta1d",
"old": "Real.sqrt (v / nu)",
"new": "Real.sqrt (v * nu)",
"claims": [
"C86"
],
"bug": "product in place of quotient",
"count": 1
},
{
"id": "S149",
"file": "Sampling.lean",
"def": "scaledCovariances",
"old": "delta_inverse j i * v",
"new": "delta_inverse j i",
"claims": [
"C86"
],
"bug": "variance dropped",
"count": 1
},
{
"id": "S150",
"file": "Sampling.lean",
"def": "NormalInverseGamma.sampleBeta1d",
"old": "random_state (variance",
"new": "RandomState.none (variance",
"claims": [
"C68"
],
"bug": "random_state not passed on",
"count": 1
},
{
"id": "S151",
"file": "Sampling.lean",
"def": "NormalInverseGamma.sampleBothNd",
"old": "((beta.1, variance.1), beta.2)",
"new": "((beta.1, variance.1.reverse), beta.2)",
"claims": [
"C68"
],
"bug": "variances in the wrong order",
"count": 1
},
{
"id": "S152",
"file": "Sampling.lean",
"def": "Sampled.of",
"old": "if return_variance",
"new": "if !return_variance",
"claims": [
"C68"
],
"bug": "inverted flag",
"count": 1
},
{
"id": "S153",
"file": "Sampling.lean",
"def": "NormalGamma.sample_variance",
"old": "1 / self.gamma.beta",
"new": "self.gamma.beta",
"claims": [
"C71"
],
"bug": "rate in place of scale",
"count": 1
},
{
"id": "S154",
"file": "Sampling.lean",
"def": "NormalGamma.sample_variance",
"old": "self.lam * g",
"new": "g",
"claims": [
"C71"
],
"bug": "lam dropped",
"count": 1
},
{
"id": "S155",
"file": "Sampling.lean",
"def": "NormalGamma.sample_beta",
"old": "variance.1.map Real.sqrt",
"new": "variance.1",
"claims": [
"C86"
],
"bug": "variance as standard deviation",
"count": 1
},
{
"id": "S156",
"file": "Sampling.lean",
"def": "NormalWishart.sample_variance",
"old": "(self.lam • x)⁻¹",
"new": "self.lam • x⁻¹",
"claims": [
"C71"
],
"bug": "lam on the wrong side",
"count": 1
},
{
"id": "S157",
"file": "Sampling.lean",
"def": "NormalInverseWishart.sample_variance",
"old": "(1 / self.kappa) • x",
"new": "self.kappa • x",
"claims": [
"C71"
],
"bug": "product in place of quotient",
"count": 1
},
{
"id": "S158",
"file": "Sampling.lean",
"def": "NormalInverseWishart.sample_mean",
"old": "random_state (variance",
"new": "RandomState.none (variance",
"claims": [
"C68"
],
"bug": "random_state not passed on",
"count": 1
},
{
"id": "S159",
"file": "Sampling.lean",
"def": "BetaGeometric.rvs",
"old": "x - 1",
"new": "x + 1",
"claims": [
"C87"
],
"bug": "shift in the wrong direction",
"count": 1
},
{
"id": "S160",
"file": "Sampling.lean",
"def": "CompoundGamma.rvs",
"old": "lib.gamma self.beta (1 / self.lam)",
"new": "lib.gamma self.alpha (1 / self.lam)",
"claims": [
"C87"
],
"bug": "wrong shape",
"count": 1
},
{
"id": "S161",
"file": "SampleShapes.lean",
"def": "NIG.scaledShape",
"old": "[1, d, d]",
"new": "[d, d]",
"claims": [
"C70"
],
"bug": "added axis forgotten",
"count": 1
},
{
"id": "S162",
"file": "SampleShapes.lean",
"def": "NW.varianceShape",
"old": "if size = 1 then 1 :: variance else variance",
"new": "variance",
"claims": [
"C70"
],
"bug": "axis not restored",
"count": 1
},
{
"id": "S163",
"file": "SampleShapes.lean",
"def": "stackShape",
"old": "(l.length + 1) :: s",
"new": "l.length :: s",
"claims": [
"C70"
],
"bug": "off by one",
"count": 1
},
{
"id": "S164",
"file": "SampleShapes.lean",
"def": "SizeArg.orEmpty",
"old": "| .int (k + 1) => [k + 1]",
"new": "| .int (k + 1) => [k]",
"claims": [
"C72"
],
"bug": "off by one",
"count": 1
},
{
"id": "S165",
"file": "SampleShapes.lean",
"def": "CompoundGamma.rvsShape",
"old": "broadcastShapes [abq, random_b]",
"new": "broadcastShapes [abq]",
"claims": [
"C72"
],
"bug": "draws collapsed",
"count": 1
},
{
"id": "S166",
"file": "SampleShapes.lean",
"def": "squeeze",
"old": "s.filter (· ≠ 1)",
"new": "s",
"claims": [
"C70"
],
"bug": "no squeeze (another SciPy)",
"count": 1
},
{
"id": "S167",
"file": "Version.lean",
"def": "tupleLt",
"old": "| _, [] => false",
"new": "| _, [] => true",
"claims": [
"C77"
],
"bug": "prefix order",
"count": 1
},
{
"id": "S168",
"file": "Version.lean",
"def": "tupleLt",
"old": "if x < y then true else if x = y then tupleLt l m else false",
"new": "if x < y then true else tupleLt l m",
"claims": [
"C77"
],
"bug": "later components decide",
"count": 1
},
{
"id": "S169",
"file": "Version.lean",
"def": "BetaNegativeBinomial.distProperty",
"old": "[1, 12, 0]",
"new": "[1, 11, 0]",
"claims": [
"C77"
],
"bug": "boundary",
"count": 1
},
{
"id": "S170",
"file": "Thompson.lean",
"def": "argmin",
"old": "x ≤ l.getD j 0",
"new": "l.getD j 0 ≤ x",
"claims": [
"C78"
],
"bug": "argmax",
"count": 1
},
{
"id": "S171",
"file": "Thompson.lean",
"def": "bayesian_update_stats",
"old": "group_sampled 1",
"new": "group_sampled group_sample",
"claims": [
"C78"
],
"bug": "count replaced by the value",
"count": 1
},
{
"id": "S172",
"file": "Thompson.lean",
"def": "thompson_step",
"old": "trueSample group_to_sample",
"new": "trueSample 0",
"claims": [
"C78"
],
"bug": "wrong group sampled",
"count": 1
},
{
"id": "S173",
"file": "Thompson.lean",
"def": "thompson_run",
"old": "thompson_run n_groups e draws",
"new": "thompson_run n_groups estimate draws",
"claims": [
"C78"
],
"bug": "estimate not carried over",
"count": 1
},
{
"id": "S174",
"file": "Thompson.lean",
"def": "NdArr.set1",
"old": "if idx = [i] then v",
"new": "if idx = [0] then v",
"claims": [
"C78"
],
"bug": "wrong position",
"count": 1
},
{
"id": "S175",
"file": "VectorDirichlet.lean",
"def": "AlphaArr.dist",
"old": "| .mat rows => .vectorized rows",
"new": "| .mat rows => .frozen rows.flatten",
"claims": [
"C83"
],
"bug": "rows merged",
"count": 1
},
{
"id": "S176",
"file": "VectorDirichlet.lean",
"def": "DirichletDist.mean",
"old": ".ok (params.map lib.mean)",
"new": ".ok (params.reverse.map lib.mean)",
"claims": [
"C83"
],
"bug": "row order",
"count": 1
},
{
"id": "S177",
"file": "VectorDirichlet.lean",
"def": "columns",
"old": "r.getD j 0",
"new": "r.getD (j + 1) 0",
"claims": [
"C83"
],
"bug": "columns shifted",
"count": 1
},
{
"id": "S178",
"file": "VectorDirichlet.lean",
"def": "DirichletDist.rvs",
"old": "| some _ => .error .typeError",
"new": "| some _ => .ok (.stack [], w)",
"claims": [
"C83"
],
"bug": "silently empty",
"count": 1
},
{
"id": "S179",
"file": "PyVal.lean",
"def": "npAdd",
"old": "if a.length = b.length then",
"new": "if a.length ≤ b.length then",
"claims": [
"C73"
],
"bug": "boundary",
"count": 1
},
{
"id": "S180",
"file": "PyVal.lean",
"def": "add",
"old": "| list l, list m => .ok (list (l ++ m))",
"new": "| list l, list m => .ok (list (m ++ l))",
"claims": [
"C73"
],
"bug": "order",
"count": 1
},
{
"id": "S181",
"file": "PyVal.lean",
"def": "zipAdd",
"old": "return list (List.zipWith (· + ·) l m)",
"new": "return list (List.zipWith (· + ·) l l)",
"claims": [
"C73"
],
"bug": "counts ignored",
"count": 1
},
{
"id": "S182",
"file": "NdArr.lean",
"def": "bdim",
"old": "if a = 1 then some b else if b = 1 then some a else none",
"new": "if a = 1 then some b else some a",
"claims": [
"C46"
],
"bug": "incompatible shapes accepted",
"count": 1
},
{
"id": "S183",
"file": "NdArr.lean",
"def": "proj",
"old": "(if d = 1 then 0 else i)",
"new": "i",
"claims": [
"C46"
],
"bug": "broadcast axis not repeated",
"count": 1
},
{
"id": "S184",
"file": "NdArr.lean",
"def": "op",
"old": "(b.get (proj b.rshape idx))",
"new": "(a.get (proj a.rshape idx))",
"claims": [
"C46"
],
"bug": "second operand lost",
"count": 1
},
{
"id": "S185",
"file": "Expr.lean",
"def": "Expr.eval",
"old": "| .sub a b => a.eval row - b.eval row",
"new": "| .sub a b => b.eval row - a.eval row",
"claims": [
"C47"
],
"bug": "operands swapped",
"count": 1
},
{
"id": "S186",
"file": "Checked.lean",
"def": "pow'",
"old": "x = 0 ∧ c < 0",
"new": "x = 0 ∧ c ≤ 0",
"claims": [
"C48"
],
"bug": "boundary",
"count": 1
},
{
"id": "S187",
"file": "Checked.lean",
"def": "div'",
"old": "if y = 0 then .error .zeroDivision else .ok (x / y)",
"new": "if y ≤ 0 then .error .zeroDivision else .ok (x / y)",
"claims": [
"C48"
],
"bug": "boundary",
"count": 1
},
{
"id": "S188",
"file": "DirichletScipy.lean",
"def": "Dirichlet.pdf",
"old": "self.alpha q",
"new": "(fun i => self.alpha i + 1) q",
"claims": [
"C16",
"C36"
],
"bug": "parameters shifted",
"count": 1
},
{
"id": "S189",
"file": "Bandit.lean",
"def": "thompsonStep",
"old": "(.ok x) (.ok n) estimate",
"new": "(.ok n) (.ok x) estimate",
"claims": [
"C107",
"C108"
],
"bug": "total and number of waits swapped in the update call",
"count": 1
},
{
"id": "S190",
"file": "Bandit.lean",
"def": "thompsonStep",
"old": "(true_dist group_to_sample)).run sample.2",
"new": "(true_dist group_to_sample)).run rng",
"claims": [
"C107"
],
"bug": "the wait is drawn from the generator state before the posterior draws, so it depends on them",
"count": 1
},
{
"id": "S191",
"file": "Bandit.lean",
"def": "thompsonStep",
"old": "estimate, group_sample.2)",
"new": "estimate, sample.2)",
"claims": [
"C107"
],
"bug": "generator state not advanced past the wait",
"count": 1
},
{
"id": "S192",
"file": "Bandit.lean",
"def": "thompsonStep",
"old": "(true_dist group_to_sample)",
"new": "(true_dist 0)",
"claims": [
"C107",
"C108"
],
"bug": "waits always sampled from the first group",
"count": 1
},
{
"id": "S193",
"file": "Bandit.lean",
"def": "thompsonStep",
"old": "(estimate.entry i).dist",
"new": "(estimate.entry 0).dist",
"claims": [
"C107",
"C108"
],
"bug": "every group sampled from the estimate of the first",
"count": 1
},
{
"id": "S194",
"file": "Bandit.lean",
"def": "thompsonLoop",
"old": "let (estimate, rng) ← thompsonLoop",
"new": "let (_, rng) ← thompsonLoop",
"claims": [
"C107",
"C108"
],
"bug": "the updated estimate is thrown away",
"count": 1
},
{
"id": "S195",
"file": "Bandit.lean",
"def": "thompsonLoop",
"old": "let (estimate, rng) ← thompsonLoop",
"new": "let (estimate, _) ← thompsonLoop",
"claims": [
"C107"
],
"bug": "every step starts from the same generator state",
"count": 1
},
{
"id": "S196",
"file": "Sql.lean",
"def": "rightNeedsParens",
"old": "if curr = .div then true else op.isAddOrder",
"new": "op.isAddOrder",
"claims": [
"C106"
],
"bug": "a / (b * c) written without parentheses",
"count": 1
},
{
"id": "S197",
"file": "Sql.lean",
"def": "leftNeedsParens",
"old": "if curr.isAddOrder then false else op.isAddOrder",
"new": "false",
"claims": [
"C106"
],
"bug": "(a + b) * c written without parentheses",
"count": 1
},
{
"id": "S198",
"file": "Sql.lean",
"def": "rightNeedsParens",
"old": "if curr = .add then false",
"new": "if curr.isAddOrder then false",
"claims": [
"C106"
],
"bug": "a - (b - c) written without parentheses",
"count": 1
},
{
"id": "S199",
"file": "Sql.lean",
"def": "ArithOp.text",
"old": ".sub => .minus",
"new": ".sub => .plus",
"claims": [
"C106"
],
"bug": "minus written as plus",
"count": 1
},
{
"id": "S200",
"file": "Sql.lean",
"def": "SqlVal.op",
"old": "l.wrap r.wrap",
"new": "r.wrap l.wrap",
"claims": [
"C106"
],
"bug": "operands of a term swapped (reflected operator)",
"count": 1
},
{
"id": "S201",
"file": "Sql.lean",
"def": "SqlVal.pow",
"old": ".term (.pow t q",
"new": ".term (.pow t (q + 1)",
"claims": [
"C106"
],
"bug": "wrong exponent in POW",
"count": 1
},
{
"id": "S202",
"file": "Sql.lean",
"def": "numText",
"old": "[.minus, .num (-x) isFloat]",
"new": "[.num (-x) isFloat]",
"claims": [
"C106"
],
"bug": "sign of a negative literal lost",
"count": 1
},
{
"id": "S203",
"file": "Sql.lean",
"def": "SqlVal.op",
"old": "(a || b || o = .div)",
"new": "(a || b)",
"claims": [
"C106"
],
"bug": "quotient of Python integers kept an integer literal",
"count": 1
},
{
"id": "S204",
"file": "Engagement.lean",
"def": "difference",
"old": "r i - r j",
"new": "r j - r i",
"claims": [
"C105"
],
"bug": "columns of the difference swapped",
"count": 1
},
{
"id": "S205",
"file": "Engagement.lean",
"def": "argmax",
"old": "l.getD j 0 ≤ x then",
"new": "x ≤ l.getD j 0 then",
"claims": [
"C105"
],
"bug": "position of the smallest",
"count": 1
},
{
"id": "S206",
"file": "Engagement.lean",
"def": "mostEngaged",
"old": "some (count / best.length)",
"new": "some count",
"claims": [
"C105"
],
"bug": "counts instead of shares",
"count": 1
},
{
"id": "S207",
"file": "Engagement.lean",
"def": "mostEngaged",
"old": "then none",
"new": "then some 1",
"claims": [
"C105"
],
"bug": "a group that is never best reported as certain",
"count": 1
},
{
"id": "S208",
"file": "Engagement.lean",
"def": "rvsRows",
"old": "List.replicate size",
"new": "List.replicate (size + 1)",
"claims": [
"C105"
],
"bug": "one row too many",
"count": 1
},
{
"id": "S209",
"file": "Models.lean",
"def": "uniform_pareto",
"old": "max_fn prior.x_m x_max",
"new": "x_max",
"claims": [
"C39",
"C41",
"C88",
"C91"
],
"bug": "bound of the prior dropped",
"count": 1
},
{
"id": "S210",
"file": "Models.lean",
"def": "geometric_beta",
"old": "then beta_post - n",
"new": "then beta_post - n - n",
"claims": [
"C41",
"C91",
"C90"
],
"bug": "the shift of a one-start count taken off twice",
"count": 1
},
{
"id": "S211",
"file": "Models.lean",
"def": "pareto_gamma",
"old": "- n * ln x_m",
"new": "+ n * ln x_m",
"claims": [
"C41",
"C98",
"C99"
],
"bug": "sign of the known minimum",
"count": 1
},
{
"id": "S212",
"file": "Models.lean",
"def": "negative_binomial_beta",
"old": "(r * n)",
"new": "n",
"claims": [
"C75",
"C98",
"C103"
],
"bug": "number of failures dropped from the update",
"count": 1
},
{
"id": "S213",
"file": "Models.lean",
"def": "gamma_known_shape_predictive",
"old": "{ alpha := alpha,",
"new": "{ alpha := distribution.alpha,",
"claims": [
"C84",
"C85",
"C93",
"C94"
],
"bug": "known shape replaced by the shape of the posterior",
"count": 1
},
{
"id": "S214",
"file": "Models.lean",
"def": "poisson_gamma_predictive",
"old": "distribution.beta / (lit 1 + distribution.beta)",
"new": "lit 1 / (lit 1 + distribution.beta)",
"claims": [
"C84",
"C85",
"C93",
"C104"
],
"bug": "complementary success probability",
"count": 1
},
{
"id": "S215",
"file": "Models.lean",
"def": "normal_known_variance_predictive",
"old": "var + powq distribution.sigma 2",
"new": "powq distribution.sigma 2",
"claims": [
"C84",
"C85",
"C93"
],
"bug": "known variance dropped from the predictive",
"count": 1
},
{
"id": "S216",
"file": "Models.lean",
"def": "weibull_inverse_gamma_known_shape",
"old": "prior.alpha + n",
"new": "prior.alpha + n + n",
"claims": [
"C88",
"C92"
],
"bug": "count added twice",
"count": 1
},
{
"id": "S217",
"file": "Models.lean",
"def": "geometric_beta",
"old": "prior.alpha + n",
"new": "prior.alpha + x_total",
"claims": [
"C88",
"C92",
"C98"
],
"bug": "total in place of the count",
"count": 1
},
{
"id": "S218",
"file": "Models.lean",
"def": "pareto_gamma",
"old": "prior.beta + ln_x_total - n",
"new": "prior.beta - n",
"claims": [
"C98",
"C99",
"C88"
],
"bug": "log total dropped",
"count": 1
},
{
"id": "S219",
"file": "Models.lean",
"def": "binomial_beta",
"old": "{ alpha := p.1, beta := p.2 }",
"new": "{ alpha := p.2, beta := p.1 }",
"claims": [
"C99",
"C100",
"C88",
"C103"
],
"bug": "parameters swapped",
"count": 1
},
{
"id": "S220",
"file": "Models.lean",
"def": "negative_binomial_beta_predictive",
"old": "alpha := distribution.alpha, beta := distribution.beta",
"new": "alpha := distribution.beta, beta := distribution.alpha",
"claims": [
"C100",
"C84",
"C93"
],
"bug": "parameters swapped in the predictive",
"count": 1
},
{
"id": "S221",
"file": "Models.lean",
"def": "normalKnownMeanInverseGammaPrior",
"old": "(n * powq mu 2)",
"new": "powq mu 2",
"claims": [
"C101",
"C88",
"C92"
],
"bug": "count missing in the square of the known mean",
"count": 1
},
{
"id": "S222",
"file": "Models.lean",
"def": "instPySeqPi",
"old": "tryAdd a x := .ok (fun i => a i + x i)",
"new": "tryAdd a x := .ok (fun i => a i * x i)",
"claims": [
"C102",
"C99",
"C103"
],
"bug": "counts multiplied into the prior",
"count": 1
},
{
"id": "S223",
"file": "Models.lean",
"def": "getPoissonGammaPosteriorParams",
"old": "alpha + x_total",
"new": "alpha + lit 1",
"claims": [
"C103",
"C99",
"C88"
],
"bug": "count of calls in place of the total",
"count": 1
},
{
"id": "S224",
"file": "Models.lean",
"def": "gamma",
"old": "prior.r + n",
"new": "prior.r",
"claims": [
"C95"
],
"bug": "count not added to r",
"count": 1
},
{
"id": "S225",
"file": "Models.lean",
"def": "beta",
"old": "prior.k + n",
"new": "prior.k",
"claims": [
"C95"
],
"bug": "count not added to k",
"count": 1
},
{
"id": "S226",
"file": "Models.lean",
"def": "von_mises_known_direction",
"old": "prior.r + centered_cos_total",
"new": "prior.r",
"claims": [
"C101",
"C95",
"C75"
],
"bug": "cosine total dropped",
"count": 1
},
{
"id": "S227",
"file": "Dist.lean",
"def": "VonMisesKnownConcentration.log_likelihood",
"old": "cos (mu - self.b)",
"new": "cos (self.b)",
"claims": [
"C76"
],
"bug": "parameter not used",
"count": 1
},
{
"id": "S228",
"file": "Rvs.lean",
"def": "posteriorPredictiveSamples",
"old": "random_state samples.2",
"new": "random_state w",
"claims": [
"C94"
],
"bug": "second call on the generator state of the first: model draws depend on the parameters drawn",
"count": 1
},
{
"id": "S229",
"file": "Calls.lean",
"def": "FnSig.pyCall",
"old": "(kwargs.lookup name).or ((sig.params.lookup name).join)",
"new": "((kwargs.head?).map (·.2)).or ((sig.params.lookup name).join)",
"claims": [
"C80"
],
"bug": "arguments bound by position",
"count": 1
},
{
"id": "S230",
"file": "Float.lean",
"def": "roundHalfEven",
"old": "if Int.fract x < 1 / 2 then ⌊x⌋",
"new": "if Int.fract x < 1 / 2 then ⌊x⌋ + 1",
"claims": [
"C89",
"C91"
],
"bug": "rounding up below a half",
"count": 1
},
{
"id": "S231",
"file": "Float.lean",
"def": "roundBits",
"old": "Int.log 2 |x| - (p - 1)",
"new": "Int.log 2 |x| + (p - 1)",
"claims": [
"C89"
],
"bug": "exponent of the last bit with the wrong sign",
"count": 1
},
{
"id": "S232",
"file": "Float.lean",
"def": "instPyNumFl",
"old": "sub a b := ⟨F.rnd (a.val - b.val)⟩",
"new": "sub a b := ⟨F.rnd (a.val + b.val)⟩",
"claims": [
"C89",
"C90",
"C91"
],
"bug": "subtraction adds",
"count": 1
},
{
"id": "S233",
"file": "Float.lean",
"def": "instPyNumFl",
"old": "mul a b := ⟨F.rnd (a.val * b.val)⟩",
"new": "mul a b := ⟨F.rnd (F.rnd (a.val * b.val) + b.val)⟩",
"claims": [
"C90"
],
"bug": "product with an extra term",
"count": 1
},
{
"id": "S234",
"file": "MatModels.lean",
"def": "linear_regression",
"old": "(delta *ᵥ prior.mu + Xᵀ *ᵥ y)",
"new": "(prior.mu + Xᵀ *ᵥ y)",
"claims": [
"C96",
"C93",
"C101"
],
"bug": "prior mean not weighted by the prior precision",
"count": 1
},
{
"id": "S235",
"file": "MatModels.lean",
"def": "linear_regression",
"old": "(1 / 2 * N)",
"new": "N",
"claims": [
"C96",
"C103",
"C93"
],
"bug": "half of the count missing",
"count": 1
},
{
"id": "S236",
"file": "Slice.lean",
"def": "clipIndex",
"old": "min i.toNat n else (n + i).toNat",
"new": "min i.toNat n else i.toNat",
"claims": [
"C59"
],
"bug": "negative slice ends not counted from the end",
"count": 1
},
{
"id": "S237",
"file": "Slice.lean",
"def": "Value.takeSlice",
"old": "| .error _ => v",
"new": "| .error _ => .flag true",
"claims": [
"C57"
],
"bug": "fields that cannot be sliced replaced",
"count": 1
},
{
"id": "S238",
"file": "Ieee.lean",
"def": "lastBit",
"old": "Int.log 2 |x| - 52",
"new": "Int.log 2 |x| - 51",
"claims": [
"C109"
],
"bug": "52 bits of precision instead of 53",
"count": 1
},
{
"id": "S239",
"file": "Ieee.lean",
"def": "lastBit",
"old": "(-1074)",
"new": "(-1022)",
"claims": [
"C109"
],
"bug": "subnormal sums flushed to zero",
"count": 1
},
{
"id": "S240",
"file": "Ieee.lean",
"def": "round",
"old": "if 2 ^ 1024 ≤",
"new": "if 2 ^ 1023 ≤",
"claims": [
"C109"
],
"bug": "doubles above 2^1023 taken for infinities",
"count": 1
},
{
"id": "S241",
"file": "Ieee.lean",
"def": "add",
"old": "| .inf s, _ => .inf s",
"new": "| .inf _, y => y",
"claims": [
"C110"
],
"bug": "an infinite prior parameter is lost in a sum",
"count": 1
},
{
"id": "S242",
"file": "Ieee.lean",
"def": "add",
"old": "| .zero _, .num y => .num y",
"new": "| .zero _, .num y => .num (-y)",
"claims": [
"C109",
"C110"
],
"bug": "0 + y has the wrong sign",
"count": 1
},
{
"id": "S243",
"file": "Ieee.lean",
"def": "mul",
"old": "| .nan, _ => .nan\n  | _, .nan => .nan\n  | .inf _, .zero _ => .nan",
"new": "| .nan, _ => .nan\n  | _, .nan => .nan\n  | .inf _, .zero _ => .zero false",
"claims": [
"C110"
],
"bug": "inf * 0 is zero",
"count": 1
},
{
"id": "S244",
"file": "Ieee.lean",
"def": "div",
"old": "| .zero _, .zero _ => .nan",
"new": "| .zero _, .zero _ => .zero false",
"claims": [
"C110"
],
"bug": "0 / 0 is zero",
"count": 1
},
{
"id": "S245",
"file": "Ieee.lean",
"def": "div",
"old": "| .num x, .num y => round (x / y)",
"new": "| .num x, .num y => round (y / x)",
"claims": [
"C109"
],
"bug": "division swapped",
"count": 1
},
{
"id": "S246",
"file": "Ieee.lean",
"def": "pow",
"old": "| .inf _ => if 0 < c then .inf s else .zero s",
"new": "| .inf _ => .zero s",
"claims": [
"C110"
],
"bug": "square of an infinity is zero",
"count": 1
},
{
"id": "S247",
"file": "Ieee.lean",
"def": "pow",
"old": "| .zero _ => if 0 < c then .zero s else .inf s",
"new": "| .zero _ => .inf s",
"claims": [
"C109"
],
"bug": "square of zero is infinite",
"count": 1
},
{
"id": "S248",
"file": "Ieee.lean",
"def": "maximum",
"old": "| _, .nan => .nan\n  | .inf false",
"new": "| a, .nan => a\n  | .inf false",
"claims": [
"C110"
],
"bug": "fmax instead of maximum: missing values ignored",
"count": 1
},
{
"id": "S249",
"file": "Ieee.lean",
"def": "maximum",
"old": "then b else a",
"new": "then a else b",
"claims": [
"C109",
"C110"
],
"bug": "minimum instead of maximum",
"count": 1
},
{
"id": "S250",
"file": "Ieee.lean",
"def": "instPyNumF64",
"old": "sub a b := F64.add a b.neg",
"new": "sub a b := F64.add a b",
"claims": [
"C109"
],
"bug": "difference computed as a sum",
"count": 1
},
{
"id": "S252",
"file": "Ieee.lean",
"def": "neg",
"old": ".num x => .num (-x)",
"new": ".num x => .num x",
"claims": [
"C109"
],
"bug": "negation keeps the sign",
"count": 1
},
{
"id": "S253",
"file": "Models.lean",
"def": "normal_known_variance_predictive",
"old": "var + powq distribution.sigma 2",
"new": "powq distribution.sigma 2",
"claims": [
"C111"
],
"bug": "noise of the new observation forgotten",
"count": 1
},
{
"id": "S254",
"file": "Models.lean",
"def": "normal_known_variance_predictive",
"old": "var + powq distribution.sigma 2",
"new": "var + distribution.sigma",
"claims": [
"C111"
],
"bug": "standard deviation added to a variance",
"count": 1
},
{
"id": "S255",
"file": "Models.lean",
"def": "normal_predictive",
"old": "(nu * alpha)",
"new": "alpha",
"claims": [
"C111"
],
"bug": "prior count missing from the width",
"count": 1
},
{
"id": "S256",
"file": "Models.lean",
"def": "gamma_known_shape_predictive",
"old": "beta := distribution.alpha, lam := distribution.beta",
"new": "beta := distribution.beta, lam := distribution.alpha",
"claims": [
"C111"
],
"bug": "shape and rate of the posterior swapped",
"count": 1
},
{
"id": "S257",
"file": "Models.lean",
"def": "negative_binomial_beta_predictive",
"old": "alpha := distribution.alpha, beta := distribution.beta",
"new": "alpha := distribution.beta, beta := distribution.alpha",
"claims": [
"C111"
],
"bug": "successes and failures swapped",
"count": 1
},
{
"id": "S258",
"file": "MatModels.lean",
"def": "linear_regression_predictive",
"old": "(1 + (X * di * Xᵀ))",
"new": "(X * di * Xᵀ)",
"claims": [
"C112"
],
"bug": "width of the line in place of the width of a new observation",
"count": 1
},
{
"id": "S259",
"file": "MatModels.lean",
"def": "linear_regression_predictive",
"old": "distribution.beta / distribution.alpha",
"new": "distribution.alpha / distribution.beta",
"claims": [
"C112"
],
"bug": "noise variance inverted",
"count": 1
},
{
"id": "S260",
"file": "MatModels.lean",
"def": "linear_regression",
"old": "(Xᵀ * X) + delta",
"new": "delta",
"claims": [
"C112"
],
"bug": "the inputs do not narrow the posterior",
"count": 1
},
{
"id": "S262",
"file": "Maxima.lean",
"def": "maxAxis0",
"old": "(List.range rows).map fun i",
"new": "(List.range (rows - 1)).map fun i",
"claims": [
"C104"
],
"bug": "the last row is left out of the maximum",
"count": 1
},
{
"id": "S263",
"file": "Maxima.lean",
"def": "maxAxis0",
"old": "rows = 0 ∧ cols ≠ 0",
"new": "rows = 0 ∧ cols = 0",
"claims": [
"C104"
],
"bug": "the maximum of nothing is zero",
"count": 1
},
{
"id": "S264",
"file": "Maxima.lean",
"def": "getPosteriorPredictive",
"old": "(data.length : ℕ)",
"new": "(data.sum : ℕ)",
"claims": [
"C104"
],
"bug": "total in place of the number of observations",
"count": 1
},
{
"id": "S265",
"file": "Maxima.lean",
"def": "conjugateStat",
"old": "(n_new * samples) random_state w",
"new": "samples random_state w",
"claims": [
"C104"
],
"bug": "one draw for each sample",
"count": 1
},
{
"id": "S261",
"file": "Maxima.lean",
"def": "maxAxis0",
"old": "i * cols + j",
"new": "i + j",
"claims": [
"C104"
],
"bug": "wrong stride: overlapping columns are not independent",
"count": 1
},
{
"id": "S266",
"file": "Warnings.lean",
"def": "deprecated",
"old": "(.ok _, s) => (replacement.mapError .exception, s)",
"new": "(.ok _, _) => (replacement.mapError .exception, s)",
"claims": [
"C113"
],
"bug": "the shadowed state: nothing is ever recorded or shown",
"count": 1
},
{
"id": "S267",
"file": "Warnings.lean",
"def": "normal_normal_inverse_gamma_warns",
"old": "1 1312 (normal x_total x2_total n (.nig prior))",
"new": "1 1312 (normal x2_total x_total n (.nig prior))",
"claims": [
"C113"
],
"bug": "totals swapped when forwarding to the replacement",
"count": 1
},
{
"id": "S268",
"file": "Warnings.lean",
"def": "normal_normal_inverse_gamma_predictive_warns",
"old": "\"This function is deprecated. Use 'normal_predictive' instead.\" 1 1362",
"new": "\"This function is deprecated. Use 'normal' instead.\" 1 1312",
"claims": [
"C113"
],
"bug": "the two functions share a message and line, so that one suppresses the other",
"count": 1
},
{
"id": "S269",
"file": "Warnings.lean",
"def": "warnExplicit",
"old": "| .default => (.ok (), display (record [(text, lineno)] s))",
"new": "| .default => (.ok (), display s)",
"claims": [
"C113"
],
"bug": "the shown warning is not recorded: printed at every call",
"count": 1
},
{
"id": "S270",
"file": "Warnings.lean",
"def": "WarnFilter.applies",
"old": "(f.lineno = 0 || f.lineno = lineno)",
"new": "(f.lineno = lineno)",
"claims": [
"C113"
],
"bug": "line 0 no longer matches every line: filters are ignored",
"count": 1
},
{
"id": "S271",
"file": "Warnings.lean",
"def": "warn",
"old": "frames[stacklevel - 1]?",
"new": "frames[stacklevel]?",
"claims": [
"C113"
],
"bug": "stack level off by one: attributed to the decorator",
"count": 1
},
{
"id": "S272",
"file": "Warnings.lean",
"def": "warnExplicit",
"old": "if seen then (.ok (), s) else (.ok (), display (record [(text, 0)] s))",
"new": "if seen then (.ok (), s) else (.ok (), s)",
"claims": [
"C113"
],
"bug": "a module filter never shows the warning",
"count": 1
},
{
"id": "S273",
"file": "Warnings.lean",
"def": "setFilters",
"old": "version := s.version + 1",
"new": "version := s.version",
"claims": [
"C113"
],
"bug": "changed filters do not renew the records",
"count": 1
},
{
"id": "S274",
"file": "Warnings.lean",
"def": "WarnCategory.coversDeprecation",
"old": "c = .warning || c = .deprecationWarning",
"new": "c = .deprecationWarning",
"claims": [
"C113"
],
"bug": "a filter for all warnings misses deprecations",
"count": 1
},
{
"id": "S275",
"file": "SampleShapes.lean",
"def": "sizeMatches",
"old": "(b = 1 || b = s)",
"new": "(b = 1 || b ≤ s)",
"claims": [
"C114"
],
"bug": "parameters shorter than the size accepted",
"count": 1
},
{
"id": "S276",
"file": "SampleShapes.lean",
"def": "squeezeLeft",
"old": "if d = 1 ∧ squeezeLeft s = [] then [] else d :: squeezeLeft s",
"new": "d :: squeezeLeft s",
"claims": [
"C114"
],
"bug": "leading axes of length one are not dropped: a row is rejected for a vector size",
"count": 1
},
{
"id": "S277",
"file": "SampleShapes.lean",
"def": "scipyRvsShape",
"old": "let size := size.getD bcast",
"new": "let size := size.getD []",
"claims": [
"C114"
],
"bug": "no size means a scalar",
"count": 1
},
{
"id": "S278",
"file": "RvsArray.lean",
"def": "indices",
"old": "(indices s).flatMap fun rest => (List.range d).map (· :: rest)",
"new": "(indices s).flatMap fun rest => (List.range (d - 1)).map (· :: rest)",
"claims": [
"C114"
],
"bug": "the last entry of each axis is not drawn",
"count": 1
},
{
"id": "S279",
"file": "RvsArray.lean",
"def": "Exponential.rvsArray",
"old": "lam := lam.atIdx idx",
"new": "lam := lam.get []",
"claims": [
"C114"
],
"bug": "every entry drawn with the first parameter",
"count": 1
},
{
"id": "S280",
"file": "RvsArray.lean",
"def": "Normal.rvsArray",
"old": "mu := mu.atIdx idx, sigma := sigma.atIdx idx",
"new": "mu := mu.get idx, sigma := sigma.get idx",
"claims": [
"C114"
],
"bug": "parameters not broadcast",
"count": 1
},
{
"id": "S281",
"file": "RvsArray.lean",
"def": "rvsArray",
"old": "| .error e => (.error e, w)",
"new": "| .error _ => (.ok { rshape := [], get := fun _ => 0 }, w)",
"claims": [
"C114"
],
"bug": "a shape error swallowed",
"count": 1
},
{
"id": "S282",
"file": "RvsArray.lean",
"def": "SizeArg.scipy",
"old": "| .int k => some [k]",
"new": "| .int k => some [1, k]",
"claims": [
"C114"
],
"bug": "a number of samples prepended to nothing: shape (n, 1)",
"count": 1
},
{
"id": "S283",
"file": "SampleShapes.lean",
"def": "CompoundGamma.rvsShape",
"old": "scipyRvsShape [abq, random_b] none",
"new": "scipyRvsShape [abq] none",
"claims": [
"C72"
],
"bug": "the second draw forgets the first",
"count": 1
},
{
"id": "S284",
"file": "RvsArray.lean",
"def": "rvsArray",
"old": "(indices shape).idxOf idx",
"new": "(indices shape).idxOf idx - 1",
"claims": [
"C114"
],
"bug": "entries shifted by one",
"count": 1
},
{
"id": "S285",
"file": "Models.lean",
"def": "exponential_gamma",
"old": "{ alpha := p.1, beta := p.2 }",
"new": "{ alpha := p.2, beta := p.1 }",
"claims": [
"C06",
"C115"
],
"bug": "posterior parameters swapped",
"count": 1
},
{
"id": "S286",
"file": "Models.lean",
"def": "poisson_gamma",
"old": "prior.alpha prior.beta x_total n",
"new": "prior.alpha prior.beta n x_total",
"claims": [
"C05",
"C115"
],
"bug": "count and sum swapped",
"count": 1
},
{
"id": "S287",
"file": "Models.lean",
"def": "bernoulli_beta_predictive",
"old": "(lit 1)",
"new": "(lit 2)",
"claims": [
"C24",
"C116"
],
"bug": "predicts two flips",
"count": 1
},
{
"id": "S288",
"file": "Models.lean",
"def": "normal_known_precision_predictive",
"old": "(lit 1 / precision)",
"new": "precision",
"claims": [
"C30",
"C116"
],
"bug": "precision used as a variance",
"count": 1
},
{
"id": "S289",
"file": "Models.lean",
"def": "categorical_dirichlet",
"old": "prior.alpha x",
"new": "x x",
"claims": [
"C16",
"C116"
],
"bug": "prior dropped",
"count": 1
},
{
"id": "S290",
"file": "Models.lean",
"def": "normal_normal_inverse_gamma",
"old": "x_total x2_total n (.nig prior)",
"new": "x2_total x_total n (.nig prior)",
"claims": [
"C43"
],
"bug": "deprecated alias swaps its arguments",
"count": 1
},
{
"id": "S291",
"file": "Dist.lean",
"def": "Beta.uninformative",
"old": "beta := lit 1",
"new": "beta := lit 0",
"claims": [
"C45"
],
"bug": "improper default prior",
"count": 1
},
{
"id": "S292",
"file": "Dist.lean",
"def": "Gamma.from_occurrences_in_intervals",
"old": "{ alpha := occurrences, beta := intervals }",
"new": "{ alpha := intervals, beta := occurrences }",
"claims": [
"C45"
],
"bug": "arguments swapped",
"count": 1
},
{
"id": "S293",
"file": "Dist.lean",
"def": "Normal.from_mean_and_variance",
"old": "powq variance (1 / 2)",
"new": "variance",
"claims": [
"C45"
],
"bug": "variance stored as the standard deviation",
"count": 1
},
{
"id": "S294",
"file": "Dist.lean",
"def": "Dirichlet.uninformative",
"old": "lit 1",
"new": "lit 2",
"claims": [
"C45"
],
"bug": "concentration 2 instead of 1",
"count": 1
},
{
"id": "S295",
"file": "Dist.lean",
"def": "Normal.uninformative",
"old": "mu := lit 0",
"new": "mu := sigma",
"claims": [
"C45"
],
"bug": "centre moved",
"count": 1
},
{
"id": "S296",
"file": "MatModels.lean",
"def": "meanAxis0",
"old": "(∑ i, X i j) / (Fintype.card m : ℝ)",
"new": "(∑ i, X i j) / ((Fintype.card m : ℝ) - 1)",
"claims": [
"C23",
"C44"
],
"bug": "divides by n - 1",
"count": 1
},
{
"id": "S297",
"file": "MatModels.lean",
"def": "multivariate_normal_known_precision",
"old": "let precision_0 ← inv prior.cov",
"new": "let precision_0 ← Except.ok prior.cov",
"claims": [
"C21"
],
"bug": "prior covariance used as a precision",
"count": 1
},
{
"id": "S298",
"file": "MatModels.lean",
"def": "subRow",
"old": "X i j - v j",
"new": "X i j + v j",
"claims": [
"C22"
],
"bug": "adds the mean",
"count": 1
},
{
"id": "S299",
"file": "Plot.lean",
"def": "PlotState.xValues",
"old": "return grid lo hi",
"new": "return grid hi lo",
"claims": [
"C61"
],
"bug": "ends of the grid swapped",
"count": 1
},
{
"id": "S300",
"file": "Plot.lean",
"def": "setMinValue",
"old": "{ s with min := some value }",
"new": "{ s with min := some value, max := none }",
"claims": [
"C60"
],
"bug": "setting the minimum forgets the maximum",
"count": 1
},
{
"id": "S301",
"file": "Plot.lean",
"def": "setMaxValue",
"old": "{ s with max := some value }",
"new": "{ s with max := s.max.or (some value) }",
"claims": [
"C60"
],
"bug": "a second maximum is ignored",
"count": 1
},
{
"id": "S302",
"file": "Plot.lean",
"def": "dirichletLines",
"old": "| some c => .ok (c, p.2.join)",
"new": "| some c => .ok (c, none)",
"claims": [
"C63"
],
"bug": "labels of a Dirichlet plot dropped",
"count": 1
},
{
"id": "S303",
"file": "Plot.lean",
"def": "vonMisesPostInit",
"old": "max := some Real.pi",
"new": "max := some (2 * Real.pi)",
"claims": [
"C79"
],
"bug": "upper bound doubled",
"count": 1
},
{
"id": "S304",
"file": "Plot.lean",
"def": "yShape",
"old": "(some (reshapedX fields N))",
"new": "(some [N])",
"claims": [
"C61",
"C63"
],
"bug": "x values are not reshaped",
"count": 1
},
{
"id": "S305",
"file": "Rvs.lean",
"def": "posteriorPredictiveSamples",
"old": "rvsEachParam lib model samples.1 random_state samples.2",
"new": "rvsEachParam lib model samples.1 random_state w",
"claims": [
"C94"
],
"bug": "the generator is not advanced between the two calls",
"count": 1
},
{
"id": "S306",
"file": "Rvs.lean",
"def": "rvsEachParam",
"old": "(samples.map model)",
"new": "(samples.reverse.map model)",
"claims": [
"C94"
],
"bug": "samples used in reverse order",
"count": 1
},
{
"id": "S307",
"file": "Rvs.lean",
"def": "predictiveFromSamplesEach",
"old": "rvsEach lib.toSamplers random_state (List.zipWith model mean variance) w'",
"new": "rvsEach lib.toSamplers random_state (List.zipWith model mean variance) w",
"claims": [
"C94"
],
"bug": "the generator is not advanced",
"count": 1
},
{
"id": "S308",
"file": "Rvs.lean",
"def": "valuesOf",
"old": "(s.drop ((d 0).used s))",
"new": "s",
"claims": [
"C94"
],
"bug": "every row reads the same deviates",
"count": 1
},
{
"id": "S309",
"file": "Sampling.lean",
"def": "NormalInverseGamma.sampleBoth1d",
"old": "((beta.1, variance.1), beta.2)",
"new": "((variance.1, beta.1), beta.2)",
"claims": [
"C86",
"C71"
],
"bug": "mean and variance swapped in the result",
"count": 1
},
{
"id": "S310",
"file": "Sampling.lean",
"def": "NormalInverseGamma.sampleBetaNd",
"old": "(scaledCovariances delta_inverse variance)",
"new": "(variance.map fun _ => delta_inverse)",
"claims": [
"C86"
],
"bug": "covariance not scaled by the sampled variance",
"count": 1
},
{
"id": "S311",
"file": "Sampling.lean",
"def": "rvsEach",
"old": "rvsEach lib random_state l r.2",
"new": "rvsEach lib random_state l w",
"claims": [
"C69",
"C86"
],
"bug": "generator not advanced between the entries",
"count": 1
},
{
"id": "S312",
"file": "Sampling.lean",
"def": "Draw.run",
"old": "s.drop (d.used s)",
"new": "s",
"claims": [
"C69",
"C86"
],
"bug": "a draw does not consume the stream",
"count": 1
},
{
"id": "S313",
"file": "SampleShapes.lean",
"def": "mvnOneShape",
"old": "squeeze [1, d]",
"new": "[1, d]",
"claims": [
"C70"
],
"bug": "no squeeze",
"count": 1
},
{
"id": "S314",
"file": "SampleShapes.lean",
"def": "wishartShape",
"old": "squeeze [size, d, d]",
"new": "[size, d, d]",
"claims": [
"C70"
],
"bug": "no squeeze",
"count": 1
},
{
"id": "S315",
"file": "SampleShapes.lean",
"def": "NIG.beta1dShape",
"old": "[size]",
"new": "squeeze [size]",
"claims": [
"C70"
],
"bug": "a single sample loses its axis",
"count": 1
},
{
"id": "S316",
"file": "SampleShapes.lean",
"def": "invShape",
"old": "2 ≤ s.length",
"new": "3 ≤ s.length",
"claims": [
"C70"
],
"bug": "a matrix is refused",
"count": 1
},
{
"id": "S317",
"file": "Slice.lean",
"def": "Obj.construct",
"old": "fields := params, attrs := []",
"new": "fields := params.reverse, attrs := []",
"claims": [
"C59"
],
"bug": "fields in another order",
"count": 1
},
{
"id": "S318",
"file": "Sql.lean",
"def": "parens",
"old": ".lparen :: (text ++ [.rparen])",
"new": "text",
"claims": [
"C106"
],
"bug": "parentheses dropped",
"count": 1
},
{
"id": "S319",
"file": "Thompson.lean",
"def": "NdArr.zeros",
"old": "fun _ => 0",
"new": "fun _ => 1",
"claims": [
"C78",
"C107"
],
"bug": "every arm counts as played",
"count": 1
},
{
"id": "S320",
"file": "Bandit.lean",
"def": "Gamma.entry",
"old": "entryAt d.beta i",
"new": "entryAt d.beta 0",
"claims": [
"C107"
],
"bug": "rate of the first arm used for all",
"count": 1
},
{
"id": "S321",
"file": "CallTable.lean",
"def": "argNormalPrior",
"old": "| .ok (.normalGamma d) => .ok (.ng d)\n",
"new": "",
"claims": [
"C67"
],
"bug": "one class of the union is not handled",
"count": 1
},
{
"id": "S322",
"file": "CallTable.lean",
"def": "uniform_pareto_sig",
"old": "[(\"x_max\", none), (\"n\", none), (\"prior\", none), (\"max_fn\", some (.fn2 max))]",
"new": "[(\"x_max\", none), (\"n\", none), (\"prior\", none), (\"max_fn\", some (.fn2 min))]",
"claims": [
"C81"
],
"bug": "default is the minimum",
"count": 1
},
{
"id": "S323",
"file": "CallTable.lean",
"def": "binomial_beta_body",
"old": "Conj.binomial_beta n' x' prior'",
"new": "Conj.binomial_beta x' n' prior'",
"claims": [
"C67"
],
"bug": "positional mix-up of trials and successes",
"count": 1
},
{
"id": "S324",
"file": "CallTable.lean",
"def": "normal_predictive_sig",
"old": ".union [.NormalInverseGamma, .NormalGamma]",
"new": ".cls .NormalInverseGamma",
"claims": [
"C67"
],
"bug": "documented class refused",
"count": 1
},
{
"id": "S325",
"file": "Calls.lean",
"def": "isInstance",
"old": "any",
"new": "all",
"claims": [
"C66",
"C67"
],
"bug": "must be an instance of every class of the union",
"count": 1
},
{
"id": "S326",
"file": "Rows.lean",
"def": "designY",
"old": "(l.get i).2",
"new": "(l.get i).2 + 1",
"claims": [
"C44"
],
"bug": "specification edit: responses shifted",
"count": 1
},
{
"id": "S327",
"file": "PlotRun.lean",
"def": "evalOn",
"old": "F.arr.atIdx idx",
"new": "F.arr.atIdx idx.reverse",
"claims": [
"C117"
],
"bug": "parameters indexed with the axes swapped",
"count": 1
},
{
"id": "S328",
"file": "PlotRun.lean",
"def": "xArray",
"old": "idx.getLastD 0",
"new": "idx.headD 0",
"claims": [
"C117"
],
"bug": "grid laid out along the first axis",
"count": 1
},
{
"id": "S329",
"file": "PlotRun.lean",
"def": "plot_cdf",
"old": "ContPlot.cdf s d",
"new": "(.ok ContPlot.pdf) s d",
"claims": [
"C117"
],
"bug": "plot_cdf draws the density",
"count": 1
},
{
"id": "S330",
"file": "PlotRun.lean",
"def": "plot_pmf",
"old": "s d conditional label",
"new": "s d false label",
"claims": [
"C117"
],
"bug": "conditional flag not passed on",
"count": 1
},
{
"id": "S331",
"file": "PlotRun.lean",
"def": "plotDiscrete",
"old": "· / npSum yy",
"new": "· / npSum (xArray d xs)",
"claims": [
"C117"
],
"bug": "divided by the sum of the grid",
"count": 1
},
{
"id": "S332",
"file": "PlotRun.lean",
"def": "plotDiscrete",
"old": "discreteXValues",
"new": "continuousXValues",
"claims": [
"C117"
],
"bug": "discrete plot on the continuous grid",
"count": 1
},
{
"id": "S333",
"file": "PlotRun.lean",
"def": "plotContinuous",
"old": "let l ← labelArg label yy",
"new": "let l ← labelArg label (xArray d xs)",
"claims": [
"C117"
],
"bug": "labels resolved from x instead of y",
"count": 1
},
{
"id": "S334",
"file": "PlotRun.lean",
"def": "labelArg",
"old": "| none => .ok (.single .none)",
"new": "| none => .ok (.single (.str \"_\"))",
"claims": [
"C117"
],
"bug": "default label",
"count": 1
},
{
"id": "S335",
"file": "PlotRun.lean",
"def": "Field.isFloat",
"old": "| _ => false",
"new": "| .number _ => true\n  | _ => false",
"claims": [
"C117"
],
"bug": "ints treated as floats (harmless: same lines)",
"count": 1
},
{
"id": "S336",
"file": "PlotRun.lean",
"def": "colOf",
"old": "[j, i]",
"new": "[i, j]",
"claims": [
"C117"
],
"bug": "columns and rows swapped by ax.plot",
"count": 1
},
{
"id": "S337",
"file": "PlotRun.lean",
"def": "Scipy.Disc.cdf",
"old": "(k : ℝ) ≤ x",
"new": "(k : ℝ) < x",
"claims": [
"C117"
],
"bug": "cdf with a strict inequality",
"count": 1
},
{
"id": "S338",
"file": "PlotRun.lean",
"def": "Scipy.Cont.cdf",
"old": "Set.Iic x",
"new": "Set.Ioi x",
"claims": [
"C117"
],
"bug": "survival function instead of the cdf",
"count": 1
},
{
"id": "S339",
"file": "Memory.lean",
"def": "ufunc2",
"old": "  | x, y => fun h => (NdArr.op f (h.read x) (h.read y)).map h.alloc",
"new": "  | .ref i, y => fun h => (NdArr.op f (h.cells i) (h.read y)).map fun r => (.ref i, { h with cells := Function.update h.cells i r })\n  | x, y => fun h => (NdArr.op f (h.read x) (h.read y)).map h.alloc",
"claims": [
"C118"
],
"bug": "operators work in place on the left operand (`+=`): the prior's arrays are overwritten",
"count": 1
},
{
"id": "S340",
"file": "Memory.lean",
"def": "Heap.alloc",
"old": "next := h.next + 1",
"new": "next := h.next",
"claims": [
"C118"
],
"bug": "result buffers are reused: two parameters end up in one array",
"count": 1
},
{
"id": "S341",
"file": "Memory.lean",
"def": "ufunc1",
"old": "  | x => fun h => .ok (h.alloc ((h.read x).map f))",
"new": "  | .ref i => fun h => .ok (.ref i, { h with cells := Function.update h.cells i ((h.cells i).map f) })",
"claims": [
"C118"
],
"bug": "ufuncs are called with `out=` their argument",
"count": 1
},
{
"id": "S342",
"file": "Memory.lean",
"def": ": Trav BetaGeometric",
"old": "one_start := d.one_start",
"new": "one_start := true",
"claims": [
"C118"
],
"bug": "the built predictive distribution forgets one_start",
"count": 1
},
{
"id": "S343",
"file": "Memory.lean",
"def": "{M : Type} : Trav (UnivariateNIG M)",
"old": "      return { mu := mu, alpha := alpha, beta := beta, delta_inverse := d.delta_inverse, nu := some nu }",
"new": "      return { mu := mu, alpha := alpha, beta := beta, delta_inverse := d.delta_inverse, nu := some alpha }",
"claims": [
"C118"
],
"bug": "the constructor stores alpha as nu",
"count": 1
},
{
"id": "S344",
"file": "Memory.lean",
"def": "buildOrRaise",
"old": "  | .error e => throw e",
"new": "  | .error _ => throw .typeError",
"claims": [
"C118"
],
"bug": "the reason of the refusal is lost",
"count": 1
},
{
"id": "S345",
"file": "Models.lean",
"def": "uniform_pareto",
"old": "let x_m_post := max_fn prior.x_m x_max",
"new": "let x_m_post := prior.x_m",
"claims": [
"C118"
],
"bug": "the minimum of the posterior is the prior's own array",
"count": 1
},
{
"id": "S346",
"file": "Models.lean",
"def": "von_mises_known_direction",
"old": "r := prior.r + centered_cos_total",
"new": "r := prior.r",
"claims": [
"C118"
],
"bug": "the resultant of the posterior is the prior's own array",
"count": 1
},
{
"id": "S347",
"file": "Memory.lean",
"def": "Heap.alloc",
"old": "(.ref h.next, { cells := Function.update h.cells h.next a,",
"new": "(.ref 0, { cells := Function.update h.cells 0 a,",
"claims": [
"C118"
],
"bug": "every result is stored in the first array",
"count": 1
},
{
"id": "S348",
"file": "Operators.lean",
"def": "DistObj.rmulMethod",
"old": "(d : DistObj) : Option (Except PyErr DistObj) := d.mulMethod other",
"new": "(_d : DistObj) : Option (Except PyErr DistObj) := none",
"claims": [
"C119"
],
"bug": "`__rmul__` missing: `7 * daily_pois` is a TypeError",
"count": 1
},
{
"id": "S349",
"file": "Operators.lean",
"def": "DistObj.mulMethod",
"old": "(Poisson.mul (Spec.exprs d) (.ok other))",
"new": "(Poisson.mul (Spec.exprs d) (.ok d.lam))",
"claims": [
"C119"
],
"bug": "the factor is ignored",
"count": 1
},
{
"id": "S350",
"file": "Operators.lean",
"def": "pyAdd",
"old": "  | .dist (.poisson p), .dist d => poissonAdd p d.lam?",
"new": "  | .dist (.poisson p), .dist _ => poissonAdd p (some p.lam)",
"claims": [
"C119"
],
"bug": "`__add__` doubles the left operand",
"count": 1
},
{
"id": "S351",
"file": "Operators.lean",
"def": "pySum",
"old": "things.foldlM pyAdd start",
"new": "things.foldlM pyAdd (.num 0)",
"claims": [
"C119"
],
"bug": "the start of `sum` is ignored",
"count": 1
},
{
"id": "S352",
"file": "Operators.lean",
"def": "pyMul",
"old": "  | .arr a, .dist d => arrayTimes a d",
"new": "  | .arr a, .dist d => (d.rmulMethod a).elim (.error .typeError) (·.map .dist)",
"claims": [
"C119"
],
"bug": "an array on the left is taken to be handed on whole",
"count": 1
},
{
"id": "S353",
"file": "Operators.lean",
"def": "arrayTimes",
"old": "fun i => numberTimes (a.get i) d",
"new": "fun _ => numberTimes (a.get []) d",
"claims": [
"C119"
],
"bug": "every entry is multiplied by the first factor",
"count": 1
},
{
"id": "S354",
"file": "Operators.lean",
"def": "pyAdd",
"old": "  | .num _, .dist (.poisson p) => poissonAdd p none",
"new": "  | .num x, .dist (.poisson p) => poissonAdd p (some (.scalar x))",
"claims": [
"C119"
],
"bug": "a number added on the left is taken for a rate",
"count": 1
},
{
"id": "S355",
"file": "Operators.lean",
"def": "DistObj.mulDist",
"old": "  | .normal d => some (\n      -- `** 0.5` of a distribution, or of an array of them, is a `TypeError`\n      if 0 ∈ d.sigma.rshape then (paramTimes d.mu other).map (.holds \"Normal\") else .error .typeError)",
"new": "  | .normal d => some ((paramTimes d.mu other).map (.holds \"Normal\"))",
"claims": [
"C119"
],
"bug": "products of Normal distributions are accepted",
"count": 1
},
{
"id": "S356",
"file": "Equality.lean",
"def": "tupleCompare",
"old": "    if x.is y then tupleCompare xs ys\n    else if",
"new": "    if",
"claims": [
"C120"
],
"bug": "identity is not asked first: a distribution with nan is not equal to itself",
"count": 1
},
{
"id": "S357",
"file": "Equality.lean",
"def": "Compared.truth",
"old": "    if rshape.prod = 1 then .ok (get (rshape.map fun _ => 0))\n    else .error (.valueError \"The truth value of an array with more than one element is ambiguous\")",
"new": "    .ok (get (rshape.map fun _ => 0))",
"claims": [
"C120"
],
"bug": "arrays are compared by their first entry",
"count": 1
},
{
"id": "S358",
"file": "Equality.lean",
"def": "pyEq",
"old": "if x.cls = y.cls then",
"new": "if x.fields.length = y.fields.length then",
"claims": [
"C120"
],
"bug": "the class is not compared: Beta(1, 1) == Gamma(1, 1)",
"count": 1
},
{
"id": "S359",
"file": "Equality.lean",
"def": "tupleCompare",
"old": "    else return false",
"new": "    else tupleCompare xs ys",
"claims": [
"C120"
],
"bug": "only errors count: fields that differ are skipped",
"count": 1
},
{
"id": "S360",
"file": "Equality.lean",
"def": "Value.cell",
"old": "  | .flag b => .flag b",
"new": "  | .flag _ => .none",
"claims": [
"C120"
],
"bug": "flags declared with compare=False: one_start is ignored",
"count": 1
},
{
"id": "S361",
"file": "Equality.lean",
"def": "chainCompare",
"old": "  | [x], [y] => x.compare y",
"new": "  | [_], [_] => .ok (.bool true)",
"claims": [
"C120"
],
"bug": "the last field is not compared",
"count": 1
},
{
"id": "S362",
"file": "Hyper.lean",
"def": "pymcDraw",
"old": "(binomial_beta n x (priorAt h)).dist.pdf",
"new": "(priorAt h).dist.pdf",
"claims": [
"C121"
],
"bug": "pm.Beta.dist built from the prior instead of the posterior",
"count": 1
},
{
"id": "S363",
"file": "Hyper.lean",
"def": "pymcDraw",
"old": "(binomial_beta n x (priorAt h)).dist.pdf",
"new": "(binomial_beta n x ⟨h.2, h.1⟩).dist.pdf",
"claims": [
"C121"
],
"bug": "alpha and beta exchanged in the prior that is updated",
"count": 1
},
{
"id": "S364",
"file": "Hyper.lean",
"def": "pymcDraw",
"old": "Spec.twoStage ν (Ioo 0 1)",
"new": "Spec.twoStage (Measure.dirac (⟨1, Set.mem_Ioi.2 one_pos⟩, ⟨1, Set.mem_Ioi.2 one_pos⟩)) (Ioo 0 1)",
"claims": [
"C121"
],
"bug": "the parameters are fixed at one value instead of drawn",
"count": 1
},
{
"id": "S365",
"file": "Views.lean",
"def": "params",
"old": "do return (kv.1, ← deepcopy kv.2)",
"new": "do return (kv.1, kv.2)",
"claims": [
"C122"
],
"bug": "params returns vars(self), without copying",
"count": 1
},
{
"id": "S366",
"file": "Views.lean",
"def": "takeItem",
"old": "    | .error _ => .ok (.arr a, m)",
"new": "    | .error e => .error e",
"claims": [
"C122"
],
"bug": "take_slice lets the exception out",
"count": 1
},
{
"id": "S367",
"file": "Views.lean",
"def": "takeItem",
"old": "    | .ok r => .ok r\n",
"new": "    | .ok r => .ok (.arr a, r.2)\n",
"claims": [
"C122"
],
"bug": "take_slice returns the whole array although the slice worked",
"count": 1
},
{
"id": "S368",
"file": "Views.lean",
"def": "getitem",
"old": "return { cls := self.cls, fields := new_params }",
"new": "return { cls := \"Distribution\", fields := new_params }",
"claims": [
"C122"
],
"bug": "__getitem__ builds another class",
"count": 1
},
{
"id": "S369",
"file": "Views.lean",
"def": "mvnGetitem",
"old": "let block ← columns rows key.toKey\n    return { cls := \"MultivariateNormal\", fields := [(\"mu\", m), (\"cov\", .arr block)] }",
"new": "let block := rows\n    return { cls := \"MultivariateNormal\", fields := [(\"mu\", m), (\"cov\", .arr block)] }",
"claims": [
"C122"
],
"bug": "cov[key] instead of cov[key][:, key]",
"count": 1
},
{
"id": "S370",
"file": "Views.lean",
"def": "mvnGetitem",
"old": "(powq s (1 / 2))",
"new": "s",
"claims": [
"C122"
],
"bug": "variance passed as the standard deviation of Normal",
"count": 1
},
{
"id": "S371",
"file": "Views.lean",
"def": "mvtGetitem",
"old": "let m ← subscript mu key.toKey\n    let rows ← (← subscript sigma key.toKey).array\n    let block ← columns rows key.toKey\n    return { cls := \"MultivariateStudentT\"",
"new": "let m := Item.arr mu\n    let rows ← (← subscript sigma key.toKey).array\n    let block ← columns rows key.toKey\n    return { cls := \"MultivariateStudentT\"",
"claims": [
"C122"
],
"bug": "mean not indexed in MultivariateStudentT",
"count": 1
},
{
"id": "S372",
"file": "Views.lean",
"def": "diagonal",
"old": "let v ← (row.getitem (.int i) : Except PyErr _)",
"new": "let v ← (row.getitem (.int 0) : Except PyErr _)",
"claims": [
"C122"
],
"bug": "cov[i, 0] instead of cov[i, i]",
"count": 1
},
{
"id": "S373",
"file": "Views.lean",
"def": "subscript",
"old": "  | .ints _ => return .arr (← newArray ((← get).read { base := a.base, place := v }))\n",
"new": "  | .ints _ => return .arr { base := a.base, place := v }\n",
"claims": [
"C122"
],
"bug": "list indexing gives a view",
"count": 1
},
{
"id": "S374",
"file": "Band.lean",
"def": "create_X",
"old": "![1, x i]",
"new": "![x i, 1]",
"claims": [
"C123"
],
"bug": "intercept and slope columns exchanged in create_X",
"count": 1
},
{
"id": "S375",
"file": "MatModels.lean",
"def": "linear_regression_predictive",
"old": "• (1 + (X * di * Xᵀ))",
"new": "• (1 : Matrix m m ℝ)",
"claims": [
"C123",
"C33"
],
"bug": "predictive variance without the uncertainty of the coefficients",
"count": 1
},
{
"id": "S376",
"file": "MatModels.lean",
"def": "linear_regression",
"old": "let delta_post := (Xᵀ * X) + delta\n",
"new": "let delta_post := delta\n",
"claims": [
"C123",
"C20"
],
"bug": "the data does not enter the posterior precision",
"count": 1
},
{
"id": "S377",
"file": "Band.lean",
"def": "documentedPoints",
"old": "linspace (-x_lim) x_lim n_points).length → ℝ :=\n  fun k => (linspace (-x_lim) x_lim n_points)[k]",
"new": "linspace 0 x_lim n_points).length → ℝ :=\n  fun k => (linspace 0 x_lim n_points)[k]",
"claims": [
"C123"
],
"bug": "points from 0 to x_lim: band no longer centred at the data",
"count": 1
},
{
"id": "S378",
"file": "Models.lean",
"def": "geometric_beta",
"old": "let beta_post := if one_start then beta_post - n else beta_post",
"new": "let beta_post := if one_start then beta_post else beta_post - n",
"claims": [
"C124",
"C103"
],
"bug": "trials counted from 0 and from 1 exchanged",
"count": 1
},
{
"id": "S379",
"file": "Models.lean",
"def": "normalKnownMeanInverseGammaPrior",
"old": "let alpha_post := prior.alpha + (n / lit 2)",
"new": "let alpha_post := prior.alpha + n",
"claims": [
"C124",
"C103",
"C13"
],
"bug": "every observation counted twice in the shape",
"count": 1
},
{
"id": "S380",
"file": "Models.lean",
"def": "uniform_pareto",
"old": "let x_m_post := max_fn prior.x_m x_max",
"new": "let x_m_post := x_max",
"claims": [
"C124",
"C103"
],
"bug": "the prior's bound is forgotten",
"count": 1
},
{
"id": "S381",
"file": "Models.lean",
"def": "weibull_inverse_gamma_known_shape",
"old": "let beta_post := prior.beta + x_beta_total",
"new": "let beta_post := prior.beta + n * x_beta_total",
"claims": [
"C124",
"C103"
],
"bug": "total multiplied by the number of observations",
"count": 1
},
{
"id": "S382",
"file": "Models.lean",
"def": "poisson_gamma_predictive",
"old": "let p := distribution.beta / (lit 1 + distribution.beta)",
"new": "let p := lit 1 / (lit 1 + distribution.beta)",
"claims": [
"C125",
"C116",
"C27"
],
"bug": "the complement of the success probability",
"count": 1
},
{
"id": "S383",
"file": "Models.lean",
"def": "gamma_known_shape_predictive",
"old": "{ alpha := alpha, beta := distribution.alpha, lam := distribution.beta }",
"new": "{ alpha := distribution.alpha, beta := alpha, lam := distribution.beta }",
"claims": [
"C125",
"C116",
"C29"
],
"bug": "the two shapes exchanged",
"count": 1
},
{
"id": "S384",
"file": "Models.lean",
"def": "normal_known_variance_predictive",
"old": "let var_posterior_predictive := var + powq distribution.sigma 2",
"new": "let var_posterior_predictive := var",
"claims": [
"C125",
"C116",
"C30"
],
"bug": "the uncertainty about the mean is forgotten",
"count": 1
},
{
"id": "S385",
"file": "MatModels.lean",
"def": "multivariate_normal_predictive",
"old": "let sigma := Matrix.of fun i j => (distribution.kappa + 1) * distribution.psi i j /",
"new": "let sigma := Matrix.of fun i j => distribution.kappa * distribution.psi i j /",
"claims": [
"C125",
"C116",
"C35"
],
"bug": "the uncertainty about the mean is forgotten",
"count": 1
},
{
"id": "S386",
"file": "Models.lean",
"def": "exponential_gamma_predictive",
"old": "{ alpha := distribution.beta, lam := distribution.alpha }",
"new": "{ alpha := distribution.alpha, lam := distribution.beta }",
"claims": [
"C125",
"C116"
],
"bug": "the fields in the order of the documentation",
"count": 1
},
{
"id": "S387",
"file": "DistMap.lean",
"def": "Hypergeometric.dist",
"old": ".hypergeom self.N self.k self.n",
"new": ".hypergeom self.N self.n self.n",
"claims": [
"C52"
],
"bug": "wrong argument in the SciPy call",
"count": 1
},
{
"id": "S388",
"file": "MatModels.lean",
"def": "multivariate_normal_known_covariance_predictive",
"old": "cov := distribution.cov + cov",
"new": "cov := distribution.cov",
"claims": [
"C111",
"C34"
],
"bug": "the noise is left out of the prediction",
"count": 1
},
{
"id": "S389",
"file": "MatModels.lean",
"def": "multivariateNormalKnownPrecisionParams",
"old": "let precision_post := precision_0 + (n • precision)",
"new": "let precision_post := precision_0 + precision",
"claims": [
"C42",
"C21"
],
"bug": "the number of observations is ignored in the precision",
"count": 1
},
{
"id": "S390",
"file": "MatModels.lean",
"def": "multivariate_normal_known_mean",
"old": "let nu_post := prior.nu + (Fintype.card m : ℝ)",
"new": "let nu_post := prior.nu",
"claims": [
"C42",
"C22"
],
"bug": "the degrees of freedom are not updated",
"count": 1
},
{
"id": "S391",
"file": "MatModels.lean",
"def": "multivariate_normal_predictive",
"old": "    (distribution.kappa * (distribution.nu - np + 1))",
"new": "    (distribution.nu - np + 1)",
"claims": [
"C111",
"C35"
],
"bug": "kappa dropped from the denominator",
"count": 1
},
{
"id": "S392",
"file": "MatModels.lean",
"def": "MultivariateNormal.getInt",
"old": "powq (self.cov i i) (1 / 2)",
"new": "self.cov i i",
"claims": [
"C103",
"C115",
"C56"
],
"bug": "variance used as the standard deviation of an entry",
"count": 1
},
{
"id": "S393",
"file": "MemoryDirichlet.lean",
"def": "instPySeqMemory",
"old": "  tryAdd a x := .ok (a + x)",
"new": "  tryAdd a x := .ok (do\n    let v ← a\n    let s ← v.arg + x\n    match v with\n    | .num _ => return s\n    | .ref i => fun h => .ok (v, { h with cells := Function.update h.cells i (h.read s) }))",
"claims": [
"C118"
],
"bug": "alpha_prior += x: the counts are added to the prior in place",
"count": 1
},
{
"id": "S394",
"file": "MemoryDirichlet.lean",
"def": "instPySeqMemory",
"old": "  tryAdd a x := .ok (a + x)",
"new": "  tryAdd a _ := .ok a",
"claims": [
"C118"
],
"bug": "the Dirichlet posterior is the prior's own array",
"count": 1
},
{
"id": "S395",
"file": "Models.lean",
"def": "getDirichletPosteriorParams",
"old": "  | .error _ => PySeq.zipAdd alpha_prior x",
"new": "  | .error e => .error e",
"claims": [
"C126",
"C73"
],
"bug": "no list comprehension after a failed sum",
"count": 1
},
{
"id": "S396",
"file": "DirichletUse.lean",
"def": "Dirichlet.distParams",
"old": "  | .arr l => .ok l",
"new": "  | .arr l => .ok l\n  | .list l => .ok l",
"claims": [
"C126"
],
"bug": "lists are accepted by .dist",
"count": 1
},
{
"id": "S397",
"file": "DirichletUse.lean",
"def": "dirichletLoop",
"old": "    dirichletLoop rest post",
"new": "    dirichletLoop rest (match rest with | [] => post | _ => prior)",
"claims": [
"C126"
],
"bug": "only the last batch is used",
"count": 1
},
{
"id": "S398",
"file": "ListSearch.lean",
"def": "listRemove",
"old": "then return ys else",
"new": "then listRemove v x ys else",
"claims": [
"C127"
],
"bug": "all matches are removed, and the end of the list is an error",
"count": 1
},
{
"id": "S400",
"file": "ListSearch.lean",
"def": "listIndex",
"old": "then return 0 else return (← listIndex v x ys) + 1",
"new": "then return 0 else listIndex v x ys",
"claims": [
"C127"
],
"bug": "positions are not counted",
"count": 1
},
{
"id": "S401",
"file": "Equality.lean",
"def": "pyEq",
"old": "  if x.cls = y.cls then",
"new": "  if x.fields.length = y.fields.length then",
"claims": [
"C127",
"C120"
],
"bug": "the class is not compared",
"count": 1
}
]