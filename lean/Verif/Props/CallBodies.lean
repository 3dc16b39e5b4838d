import Verif.CallTable
import Verif.Lemmas.CallRules

/-!
# C67, C81: a correct call returns what the function computes

Generated by `tools/gen_calls.py`: one theorem per scalar model function, with keyword arguments
in any order and an instance of the accepted class or of any subclass of it, and one for the
documented defaults.
-/

namespace Conj

local notation "invoke" => FnSig.invoke PyVal.typeOf

/-- `binomial_beta(n, x, prior)` with the keywords in any order -/
theorem C67_call_binomial_beta (n' : ℝ) (x' : ℝ) (prior' : Beta ℝ) (t : String) (kw : List (String × PyVal))
    (h : kw.Perm [("n", .num n'), ("x", .num x'), ("prior", .inst t (.beta prior'))]) :
    invoke binomial_beta_sig binomial_beta_body [] kw = .ok (DistVal.beta (Conj.binomial_beta n' x' prior')).toPy := by
  rw [invoke_perm _ _ _ h (by simp)]
  call_body binomial_beta_sig binomial_beta_body

/-- `binomial_beta_predictive(n, distribution)` with the keywords in any order -/
theorem C67_call_binomial_beta_predictive (n' : ℝ) (distribution' : Beta ℝ) (t : String) (kw : List (String × PyVal))
    (h : kw.Perm [("n", .num n'), ("distribution", .inst t (.beta distribution'))]) :
    invoke binomial_beta_predictive_sig binomial_beta_predictive_body [] kw = .ok (DistVal.betaBinomial (Conj.binomial_beta_predictive n' distribution')).toPy := by
  rw [invoke_perm _ _ _ h (by simp)]
  call_body binomial_beta_predictive_sig binomial_beta_predictive_body

/-- `bernoulli_beta(x, prior)` with the keywords in any order -/
theorem C67_call_bernoulli_beta (x' : ℝ) (prior' : Beta ℝ) (t : String) (kw : List (String × PyVal))
    (h : kw.Perm [("x", .num x'), ("prior", .inst t (.beta prior'))]) :
    invoke bernoulli_beta_sig bernoulli_beta_body [] kw = .ok (DistVal.beta (Conj.bernoulli_beta x' prior')).toPy := by
  rw [invoke_perm _ _ _ h (by simp)]
  call_body bernoulli_beta_sig bernoulli_beta_body

/-- `bernoulli_beta_predictive(distribution)` with the keywords in any order -/
theorem C67_call_bernoulli_beta_predictive (distribution' : Beta ℝ) (t : String) (kw : List (String × PyVal))
    (h : kw.Perm [("distribution", .inst t (.beta distribution'))]) :
    invoke bernoulli_beta_predictive_sig bernoulli_beta_predictive_body [] kw = .ok (DistVal.betaBinomial (Conj.bernoulli_beta_predictive distribution')).toPy := by
  rw [invoke_perm _ _ _ h (by simp)]
  call_body bernoulli_beta_predictive_sig bernoulli_beta_predictive_body

/-- `negative_binomial_beta(r, n, x, prior)` with the keywords in any order -/
theorem C67_call_negative_binomial_beta (r' : ℝ) (n' : ℝ) (x' : ℝ) (prior' : Beta ℝ) (t : String) (kw : List (String × PyVal))
    (h : kw.Perm [("r", .num r'), ("n", .num n'), ("x", .num x'), ("prior", .inst t (.beta prior'))]) :
    invoke negative_binomial_beta_sig negative_binomial_beta_body [] kw = .ok (DistVal.beta (Conj.negative_binomial_beta r' n' x' prior')).toPy := by
  rw [invoke_perm _ _ _ h (by simp)]
  call_body negative_binomial_beta_sig negative_binomial_beta_body

/-- `negative_binomial_beta_predictive(r, distribution)` with the keywords in any order -/
theorem C67_call_negative_binomial_beta_predictive (r' : ℝ) (distribution' : Beta ℝ) (t : String) (kw : List (String × PyVal))
    (h : kw.Perm [("r", .num r'), ("distribution", .inst t (.beta distribution'))]) :
    invoke negative_binomial_beta_predictive_sig negative_binomial_beta_predictive_body [] kw = .ok (DistVal.betaNegativeBinomial (Conj.negative_binomial_beta_predictive r' distribution')).toPy := by
  rw [invoke_perm _ _ _ h (by simp)]
  call_body negative_binomial_beta_predictive_sig negative_binomial_beta_predictive_body

/-- `hypergeometric_beta_binomial(x_total, n, prior)` with the keywords in any order -/
theorem C67_call_hypergeometric_beta_binomial (x_total' : ℝ) (n' : ℝ) (prior' : BetaBinomial ℝ) (t : String) (kw : List (String × PyVal))
    (h : kw.Perm [("x_total", .num x_total'), ("n", .num n'), ("prior", .inst t (.betaBinomial prior'))]) :
    invoke hypergeometric_beta_binomial_sig hypergeometric_beta_binomial_body [] kw = .ok (DistVal.betaBinomial (Conj.hypergeometric_beta_binomial x_total' n' prior')).toPy := by
  rw [invoke_perm _ _ _ h (by simp)]
  call_body hypergeometric_beta_binomial_sig hypergeometric_beta_binomial_body

/-- `geometric_beta(x_total, n, prior, one_start)` with the keywords in any order -/
theorem C67_call_geometric_beta (x_total' : ℝ) (n' : ℝ) (prior' : Beta ℝ) (one_start' : Bool) (t : String) (kw : List (String × PyVal))
    (h : kw.Perm [("x_total", .num x_total'), ("n", .num n'), ("prior", .inst t (.beta prior')), ("one_start", .bool one_start')]) :
    invoke geometric_beta_sig geometric_beta_body [] kw = .ok (DistVal.beta (Conj.geometric_beta x_total' n' prior' one_start')).toPy := by
  rw [invoke_perm _ _ _ h (by simp)]
  call_body geometric_beta_sig geometric_beta_body

/-- `geometric_beta` without its optional arguments uses the documented defaults -/
theorem C81_defaults_geometric_beta (x_total' : ℝ) (n' : ℝ) (prior' : Beta ℝ) (t : String) (kw : List (String × PyVal))
    (h : kw.Perm [("x_total", .num x_total'), ("n", .num n'), ("prior", .inst t (.beta prior'))]) :
    invoke geometric_beta_sig geometric_beta_body [] kw = .ok (DistVal.beta (Conj.geometric_beta x_total' n' prior' (true))).toPy := by
  rw [invoke_perm _ _ _ h (by simp)]
  call_body geometric_beta_sig geometric_beta_body

/-- `geometric_beta_predictive(distribution, one_start)` with the keywords in any order -/
theorem C67_call_geometric_beta_predictive (distribution' : Beta ℝ) (one_start' : Bool) (t : String) (kw : List (String × PyVal))
    (h : kw.Perm [("distribution", .inst t (.beta distribution')), ("one_start", .bool one_start')]) :
    invoke geometric_beta_predictive_sig geometric_beta_predictive_body [] kw = .ok (DistVal.betaGeometric (Conj.geometric_beta_predictive distribution' one_start')).toPy := by
  rw [invoke_perm _ _ _ h (by simp)]
  call_body geometric_beta_predictive_sig geometric_beta_predictive_body

/-- `geometric_beta_predictive` without its optional arguments uses the documented defaults -/
theorem C81_defaults_geometric_beta_predictive (distribution' : Beta ℝ) (t : String) (kw : List (String × PyVal))
    (h : kw.Perm [("distribution", .inst t (.beta distribution'))]) :
    invoke geometric_beta_predictive_sig geometric_beta_predictive_body [] kw = .ok (DistVal.betaGeometric (Conj.geometric_beta_predictive distribution' (true))).toPy := by
  rw [invoke_perm _ _ _ h (by simp)]
  call_body geometric_beta_predictive_sig geometric_beta_predictive_body

/-- `categorical_dirichlet(x, prior)` with the keywords in any order -/
theorem C67_call_categorical_dirichlet (x' : SeqVal ℝ) (prior' : Dirichlet (SeqVal ℝ)) (t : String) (kw : List (String × PyVal))
    (h : kw.Perm [("x", .seq x'), ("prior", .inst t (.dirichlet prior'))]) :
    invoke categorical_dirichlet_sig categorical_dirichlet_body [] kw = (Conj.categorical_dirichlet x' prior').map (fun r => (DistVal.dirichlet (r)).toPy) := by
  rw [invoke_perm _ _ _ h (by simp)]
  call_body categorical_dirichlet_sig categorical_dirichlet_body

/-- `categorical_dirichlet_predictive(distribution, n)` with the keywords in any order -/
theorem C67_call_categorical_dirichlet_predictive (distribution' : Dirichlet (SeqVal ℝ)) (n' : ℝ) (t : String) (kw : List (String × PyVal))
    (h : kw.Perm [("distribution", .inst t (.dirichlet distribution')), ("n", .num n')]) :
    invoke categorical_dirichlet_predictive_sig categorical_dirichlet_predictive_body [] kw = .ok (DistVal.dirichletMultinomial (Conj.categorical_dirichlet_predictive distribution' n')).toPy := by
  rw [invoke_perm _ _ _ h (by simp)]
  call_body categorical_dirichlet_predictive_sig categorical_dirichlet_predictive_body

/-- `categorical_dirichlet_predictive` without its optional arguments uses the documented defaults -/
theorem C81_defaults_categorical_dirichlet_predictive (distribution' : Dirichlet (SeqVal ℝ)) (t : String) (kw : List (String × PyVal))
    (h : kw.Perm [("distribution", .inst t (.dirichlet distribution'))]) :
    invoke categorical_dirichlet_predictive_sig categorical_dirichlet_predictive_body [] kw = .ok (DistVal.dirichletMultinomial (Conj.categorical_dirichlet_predictive distribution' (1))).toPy := by
  rw [invoke_perm _ _ _ h (by simp)]
  call_body categorical_dirichlet_predictive_sig categorical_dirichlet_predictive_body

/-- `multinomial_dirichlet(x, prior)` with the keywords in any order -/
theorem C67_call_multinomial_dirichlet (x' : SeqVal ℝ) (prior' : Dirichlet (SeqVal ℝ)) (t : String) (kw : List (String × PyVal))
    (h : kw.Perm [("x", .seq x'), ("prior", .inst t (.dirichlet prior'))]) :
    invoke multinomial_dirichlet_sig multinomial_dirichlet_body [] kw = (Conj.multinomial_dirichlet x' prior').map (fun r => (DistVal.dirichlet (r)).toPy) := by
  rw [invoke_perm _ _ _ h (by simp)]
  call_body multinomial_dirichlet_sig multinomial_dirichlet_body

/-- `multinomial_dirichlet_predictive(distribution, n)` with the keywords in any order -/
theorem C67_call_multinomial_dirichlet_predictive (distribution' : Dirichlet (SeqVal ℝ)) (n' : ℝ) (t : String) (kw : List (String × PyVal))
    (h : kw.Perm [("distribution", .inst t (.dirichlet distribution')), ("n", .num n')]) :
    invoke multinomial_dirichlet_predictive_sig multinomial_dirichlet_predictive_body [] kw = .ok (DistVal.dirichletMultinomial (Conj.multinomial_dirichlet_predictive distribution' n')).toPy := by
  rw [invoke_perm _ _ _ h (by simp)]
  call_body multinomial_dirichlet_predictive_sig multinomial_dirichlet_predictive_body

/-- `multinomial_dirichlet_predictive` without its optional arguments uses the documented defaults -/
theorem C81_defaults_multinomial_dirichlet_predictive (distribution' : Dirichlet (SeqVal ℝ)) (t : String) (kw : List (String × PyVal))
    (h : kw.Perm [("distribution", .inst t (.dirichlet distribution'))]) :
    invoke multinomial_dirichlet_predictive_sig multinomial_dirichlet_predictive_body [] kw = .ok (DistVal.dirichletMultinomial (Conj.multinomial_dirichlet_predictive distribution' (1))).toPy := by
  rw [invoke_perm _ _ _ h (by simp)]
  call_body multinomial_dirichlet_predictive_sig multinomial_dirichlet_predictive_body

/-- `poisson_gamma(x_total, n, prior)` with the keywords in any order -/
theorem C67_call_poisson_gamma (x_total' : ℝ) (n' : ℝ) (prior' : Gamma ℝ) (t : String) (kw : List (String × PyVal))
    (h : kw.Perm [("x_total", .num x_total'), ("n", .num n'), ("prior", .inst t (.gamma prior'))]) :
    invoke poisson_gamma_sig poisson_gamma_body [] kw = .ok (DistVal.gamma (Conj.poisson_gamma x_total' n' prior')).toPy := by
  rw [invoke_perm _ _ _ h (by simp)]
  call_body poisson_gamma_sig poisson_gamma_body

/-- `poisson_gamma_predictive(distribution, n)` with the keywords in any order -/
theorem C67_call_poisson_gamma_predictive (distribution' : Gamma ℝ) (n' : ℝ) (t : String) (kw : List (String × PyVal))
    (h : kw.Perm [("distribution", .inst t (.gamma distribution')), ("n", .num n')]) :
    invoke poisson_gamma_predictive_sig poisson_gamma_predictive_body [] kw = .ok (DistVal.negativeBinomial (Conj.poisson_gamma_predictive distribution' n')).toPy := by
  rw [invoke_perm _ _ _ h (by simp)]
  call_body poisson_gamma_predictive_sig poisson_gamma_predictive_body

/-- `poisson_gamma_predictive` without its optional arguments uses the documented defaults -/
theorem C81_defaults_poisson_gamma_predictive (distribution' : Gamma ℝ) (t : String) (kw : List (String × PyVal))
    (h : kw.Perm [("distribution", .inst t (.gamma distribution'))]) :
    invoke poisson_gamma_predictive_sig poisson_gamma_predictive_body [] kw = .ok (DistVal.negativeBinomial (Conj.poisson_gamma_predictive distribution' (1))).toPy := by
  rw [invoke_perm _ _ _ h (by simp)]
  call_body poisson_gamma_predictive_sig poisson_gamma_predictive_body

/-- `exponential_gamma(x_total, n, prior)` with the keywords in any order -/
theorem C67_call_exponential_gamma (x_total' : ℝ) (n' : ℝ) (prior' : Gamma ℝ) (t : String) (kw : List (String × PyVal))
    (h : kw.Perm [("x_total", .num x_total'), ("n", .num n'), ("prior", .inst t (.gamma prior'))]) :
    invoke exponential_gamma_sig exponential_gamma_body [] kw = .ok (DistVal.gamma (Conj.exponential_gamma x_total' n' prior')).toPy := by
  rw [invoke_perm _ _ _ h (by simp)]
  call_body exponential_gamma_sig exponential_gamma_body

/-- `exponential_gamma_predictive(distribution)` with the keywords in any order -/
theorem C67_call_exponential_gamma_predictive (distribution' : Gamma ℝ) (t : String) (kw : List (String × PyVal))
    (h : kw.Perm [("distribution", .inst t (.gamma distribution'))]) :
    invoke exponential_gamma_predictive_sig exponential_gamma_predictive_body [] kw = .ok (DistVal.lomax (Conj.exponential_gamma_predictive distribution')).toPy := by
  rw [invoke_perm _ _ _ h (by simp)]
  call_body exponential_gamma_predictive_sig exponential_gamma_predictive_body

/-- `gamma_known_shape(x_total, n, alpha, prior)` with the keywords in any order -/
theorem C67_call_gamma_known_shape (x_total' : ℝ) (n' : ℝ) (alpha' : ℝ) (prior' : Gamma ℝ) (t : String) (kw : List (String × PyVal))
    (h : kw.Perm [("x_total", .num x_total'), ("n", .num n'), ("alpha", .num alpha'), ("prior", .inst t (.gamma prior'))]) :
    invoke gamma_known_shape_sig gamma_known_shape_body [] kw = .ok (DistVal.gamma (Conj.gamma_known_shape x_total' n' alpha' prior')).toPy := by
  rw [invoke_perm _ _ _ h (by simp)]
  call_body gamma_known_shape_sig gamma_known_shape_body

/-- `gamma_known_shape_predictive(distribution, alpha)` with the keywords in any order -/
theorem C67_call_gamma_known_shape_predictive (distribution' : Gamma ℝ) (alpha' : ℝ) (t : String) (kw : List (String × PyVal))
    (h : kw.Perm [("distribution", .inst t (.gamma distribution')), ("alpha", .num alpha')]) :
    invoke gamma_known_shape_predictive_sig gamma_known_shape_predictive_body [] kw = .ok (DistVal.compoundGamma (Conj.gamma_known_shape_predictive distribution' alpha')).toPy := by
  rw [invoke_perm _ _ _ h (by simp)]
  call_body gamma_known_shape_predictive_sig gamma_known_shape_predictive_body

/-- `inverse_gamma_known_rate(reciprocal_x_total, n, alpha, prior)` with the keywords in any order -/
theorem C67_call_inverse_gamma_known_rate (reciprocal_x_total' : ℝ) (n' : ℝ) (alpha' : ℝ) (prior' : Gamma ℝ) (t : String) (kw : List (String × PyVal))
    (h : kw.Perm [("reciprocal_x_total", .num reciprocal_x_total'), ("n", .num n'), ("alpha", .num alpha'), ("prior", .inst t (.gamma prior'))]) :
    invoke inverse_gamma_known_rate_sig inverse_gamma_known_rate_body [] kw = .ok (DistVal.gamma (Conj.inverse_gamma_known_rate reciprocal_x_total' n' alpha' prior')).toPy := by
  rw [invoke_perm _ _ _ h (by simp)]
  call_body inverse_gamma_known_rate_sig inverse_gamma_known_rate_body

/-- `normal_known_variance(x_total, n, var, prior)` with the keywords in any order -/
theorem C67_call_normal_known_variance (x_total' : ℝ) (n' : ℝ) (var' : ℝ) (prior' : Normal ℝ) (t : String) (kw : List (String × PyVal))
    (h : kw.Perm [("x_total", .num x_total'), ("n", .num n'), ("var", .num var'), ("prior", .inst t (.normal prior'))]) :
    invoke normal_known_variance_sig normal_known_variance_body [] kw = .ok (DistVal.normal (Conj.normal_known_variance x_total' n' var' prior')).toPy := by
  rw [invoke_perm _ _ _ h (by simp)]
  call_body normal_known_variance_sig normal_known_variance_body

/-- `normal_known_variance_predictive(var, distribution)` with the keywords in any order -/
theorem C67_call_normal_known_variance_predictive (var' : ℝ) (distribution' : Normal ℝ) (t : String) (kw : List (String × PyVal))
    (h : kw.Perm [("var", .num var'), ("distribution", .inst t (.normal distribution'))]) :
    invoke normal_known_variance_predictive_sig normal_known_variance_predictive_body [] kw = .ok (DistVal.normal (Conj.normal_known_variance_predictive var' distribution')).toPy := by
  rw [invoke_perm _ _ _ h (by simp)]
  call_body normal_known_variance_predictive_sig normal_known_variance_predictive_body

/-- `normal_known_precision(x_total, n, precision, prior)` with the keywords in any order -/
theorem C67_call_normal_known_precision (x_total' : ℝ) (n' : ℝ) (precision' : ℝ) (prior' : Normal ℝ) (t : String) (kw : List (String × PyVal))
    (h : kw.Perm [("x_total", .num x_total'), ("n", .num n'), ("precision", .num precision'), ("prior", .inst t (.normal prior'))]) :
    invoke normal_known_precision_sig normal_known_precision_body [] kw = .ok (DistVal.normal (Conj.normal_known_precision x_total' n' precision' prior')).toPy := by
  rw [invoke_perm _ _ _ h (by simp)]
  call_body normal_known_precision_sig normal_known_precision_body

/-- `normal_known_precision_predictive(precision, distribution)` with the keywords in any order -/
theorem C67_call_normal_known_precision_predictive (precision' : ℝ) (distribution' : Normal ℝ) (t : String) (kw : List (String × PyVal))
    (h : kw.Perm [("precision", .num precision'), ("distribution", .inst t (.normal distribution'))]) :
    invoke normal_known_precision_predictive_sig normal_known_precision_predictive_body [] kw = .ok (DistVal.normal (Conj.normal_known_precision_predictive precision' distribution')).toPy := by
  rw [invoke_perm _ _ _ h (by simp)]
  call_body normal_known_precision_predictive_sig normal_known_precision_predictive_body

/-- `normal_known_mean(x_total, x2_total, n, mu, prior)` with the keywords in any order -/
theorem C67_call_normal_known_mean (x_total' : ℝ) (x2_total' : ℝ) (n' : ℝ) (mu' : ℝ) (prior' : VariancePrior ℝ) (t : String) (kw : List (String × PyVal))
    (h : kw.Perm [("x_total", .num x_total'), ("x2_total", .num x2_total'), ("n", .num n'), ("mu", .num mu'), ("prior", .inst t prior'.toDist)]) :
    invoke normal_known_mean_sig normal_known_mean_body [] kw = .ok (Conj.normal_known_mean x_total' x2_total' n' mu' prior').toDist.toPy := by
  rw [invoke_perm _ _ _ h (by simp)]
  cases prior' <;> call_body normal_known_mean_sig normal_known_mean_body

/-- `normal_known_mean_predictive(mu, distribution)` with the keywords in any order -/
theorem C67_call_normal_known_mean_predictive (mu' : ℝ) (distribution' : VariancePrior ℝ) (t : String) (kw : List (String × PyVal))
    (h : kw.Perm [("mu", .num mu'), ("distribution", .inst t distribution'.toDist)]) :
    invoke normal_known_mean_predictive_sig normal_known_mean_predictive_body [] kw = .ok (DistVal.studentT (Conj.normal_known_mean_predictive mu' distribution')).toPy := by
  rw [invoke_perm _ _ _ h (by simp)]
  cases distribution' <;> call_body normal_known_mean_predictive_sig normal_known_mean_predictive_body

/-- `normal(x_total, x2_total, n, prior)` with the keywords in any order -/
theorem C67_call_normal (x_total' : ℝ) (x2_total' : ℝ) (n' : ℝ) (prior' : NormalPrior ℝ Unit) (t : String) (kw : List (String × PyVal))
    (h : kw.Perm [("x_total", .num x_total'), ("x2_total", .num x2_total'), ("n", .num n'), ("prior", .inst t prior'.toDist)]) :
    invoke normal_sig normal_body [] kw = (Conj.normal x_total' x2_total' n' prior').map (fun r => (r).toDist.toPy) := by
  rw [invoke_perm _ _ _ h (by simp)]
  cases prior' <;> call_body normal_sig normal_body

/-- `normal_normal_inverse_gamma(x_total, x2_total, n, prior)` with the keywords in any order -/
theorem C67_call_normal_normal_inverse_gamma (x_total' : ℝ) (x2_total' : ℝ) (n' : ℝ) (prior' : NormalInverseGamma ℝ ℝ Unit) (t : String) (kw : List (String × PyVal))
    (h : kw.Perm [("x_total", .num x_total'), ("x2_total", .num x2_total'), ("n", .num n'), ("prior", .inst t (.normalInverseGamma prior'))]) :
    invoke normal_normal_inverse_gamma_sig normal_normal_inverse_gamma_body [] kw = (Conj.normal_normal_inverse_gamma x_total' x2_total' n' prior').map (fun r => (r).toDist.toPy) := by
  rw [invoke_perm _ _ _ h (by simp)]
  call_body normal_normal_inverse_gamma_sig normal_normal_inverse_gamma_body

/-- `normal_predictive(distribution)` with the keywords in any order -/
theorem C67_call_normal_predictive (distribution' : NormalPrior ℝ Unit) (t : String) (kw : List (String × PyVal))
    (h : kw.Perm [("distribution", .inst t distribution'.toDist)]) :
    invoke normal_predictive_sig normal_predictive_body [] kw = (Conj.normal_predictive distribution').map (fun r => (DistVal.studentT (r)).toPy) := by
  rw [invoke_perm _ _ _ h (by simp)]
  cases distribution' <;> call_body normal_predictive_sig normal_predictive_body

/-- `normal_normal_inverse_gamma_predictive(distribution)` with the keywords in any order -/
theorem C67_call_normal_normal_inverse_gamma_predictive (distribution' : NormalInverseGamma ℝ ℝ Unit) (t : String) (kw : List (String × PyVal))
    (h : kw.Perm [("distribution", .inst t (.normalInverseGamma distribution'))]) :
    invoke normal_normal_inverse_gamma_predictive_sig normal_normal_inverse_gamma_predictive_body [] kw = (Conj.normal_normal_inverse_gamma_predictive distribution').map (fun r => (DistVal.studentT (r)).toPy) := by
  rw [invoke_perm _ _ _ h (by simp)]
  call_body normal_normal_inverse_gamma_predictive_sig normal_normal_inverse_gamma_predictive_body

/-- `uniform_pareto(x_max, n, prior, max_fn)` with the keywords in any order -/
theorem C67_call_uniform_pareto (x_max' : ℝ) (n' : ℝ) (prior' : Pareto ℝ) (max_fn' : ℝ → ℝ → ℝ) (t : String) (kw : List (String × PyVal))
    (h : kw.Perm [("x_max", .num x_max'), ("n", .num n'), ("prior", .inst t (.pareto prior')), ("max_fn", .fn2 max_fn')]) :
    invoke uniform_pareto_sig uniform_pareto_body [] kw = .ok (DistVal.pareto (Conj.uniform_pareto x_max' n' prior' max_fn')).toPy := by
  rw [invoke_perm _ _ _ h (by simp)]
  call_body uniform_pareto_sig uniform_pareto_body

/-- `uniform_pareto` without its optional arguments uses the documented defaults -/
theorem C81_defaults_uniform_pareto (x_max' : ℝ) (n' : ℝ) (prior' : Pareto ℝ) (t : String) (kw : List (String × PyVal))
    (h : kw.Perm [("x_max", .num x_max'), ("n", .num n'), ("prior", .inst t (.pareto prior'))]) :
    invoke uniform_pareto_sig uniform_pareto_body [] kw = .ok (DistVal.pareto (Conj.uniform_pareto x_max' n' prior' (max))).toPy := by
  rw [invoke_perm _ _ _ h (by simp)]
  call_body uniform_pareto_sig uniform_pareto_body

/-- `pareto_gamma(n, ln_x_total, x_m, prior, ln)` with the keywords in any order -/
theorem C67_call_pareto_gamma (n' : ℝ) (ln_x_total' : ℝ) (x_m' : ℝ) (prior' : Gamma ℝ) (ln' : ℝ → ℝ) (t : String) (kw : List (String × PyVal))
    (h : kw.Perm [("n", .num n'), ("ln_x_total", .num ln_x_total'), ("x_m", .num x_m'), ("prior", .inst t (.gamma prior')), ("ln", .fn1 ln')]) :
    invoke pareto_gamma_sig pareto_gamma_body [] kw = .ok (DistVal.gamma (Conj.pareto_gamma n' ln_x_total' x_m' prior' ln')).toPy := by
  rw [invoke_perm _ _ _ h (by simp)]
  call_body pareto_gamma_sig pareto_gamma_body

/-- `pareto_gamma` without its optional arguments uses the documented defaults -/
theorem C81_defaults_pareto_gamma (n' : ℝ) (ln_x_total' : ℝ) (x_m' : ℝ) (prior' : Gamma ℝ) (t : String) (kw : List (String × PyVal))
    (h : kw.Perm [("n", .num n'), ("ln_x_total", .num ln_x_total'), ("x_m", .num x_m'), ("prior", .inst t (.gamma prior'))]) :
    invoke pareto_gamma_sig pareto_gamma_body [] kw = .ok (DistVal.gamma (Conj.pareto_gamma n' ln_x_total' x_m' prior' (Real.log))).toPy := by
  rw [invoke_perm _ _ _ h (by simp)]
  call_body pareto_gamma_sig pareto_gamma_body

/-- `gamma(x_total, x_prod, n, prior)` with the keywords in any order -/
theorem C67_call_gamma (x_total' : ℝ) (x_prod' : ℝ) (n' : ℝ) (prior' : GammaProportional ℝ) (t : String) (kw : List (String × PyVal))
    (h : kw.Perm [("x_total", .num x_total'), ("x_prod", .num x_prod'), ("n", .num n'), ("prior", .inst t (.gammaProportional prior'))]) :
    invoke gamma_sig gamma_body [] kw = .ok (DistVal.gammaProportional (Conj.gamma x_total' x_prod' n' prior')).toPy := by
  rw [invoke_perm _ _ _ h (by simp)]
  call_body gamma_sig gamma_body

/-- `gamma_known_rate(x_prod, n, beta, prior)` with the keywords in any order -/
theorem C67_call_gamma_known_rate (x_prod' : ℝ) (n' : ℝ) (beta' : ℝ) (prior' : GammaKnownRateProportional ℝ) (t : String) (kw : List (String × PyVal))
    (h : kw.Perm [("x_prod", .num x_prod'), ("n", .num n'), ("beta", .num beta'), ("prior", .inst t (.gammaKnownRateProportional prior'))]) :
    invoke gamma_known_rate_sig gamma_known_rate_body [] kw = .ok (DistVal.gammaKnownRateProportional (Conj.gamma_known_rate x_prod' n' beta' prior')).toPy := by
  rw [invoke_perm _ _ _ h (by simp)]
  call_body gamma_known_rate_sig gamma_known_rate_body

/-- `beta(x_prod, one_minus_x_prod, n, prior)` with the keywords in any order -/
theorem C67_call_beta (x_prod' : ℝ) (one_minus_x_prod' : ℝ) (n' : ℝ) (prior' : BetaProportional ℝ) (t : String) (kw : List (String × PyVal))
    (h : kw.Perm [("x_prod", .num x_prod'), ("one_minus_x_prod", .num one_minus_x_prod'), ("n", .num n'), ("prior", .inst t (.betaProportional prior'))]) :
    invoke beta_sig beta_body [] kw = .ok (DistVal.betaProportional (Conj.beta x_prod' one_minus_x_prod' n' prior')).toPy := by
  rw [invoke_perm _ _ _ h (by simp)]
  call_body beta_sig beta_body

/-- `von_mises_known_concentration(cos_total, sin_total, n, kappa, prior, sin, cos, arctan2)` with the keywords in any order -/
theorem C67_call_von_mises_known_concentration (cos_total' : ℝ) (sin_total' : ℝ) (n' : ℝ) (kappa' : ℝ) (prior' : VonMisesKnownConcentration ℝ) (sin' : ℝ → ℝ) (cos' : ℝ → ℝ) (arctan2' : ℝ → ℝ → ℝ) (t : String) (kw : List (String × PyVal))
    (h : kw.Perm [("cos_total", .num cos_total'), ("sin_total", .num sin_total'), ("n", .num n'), ("kappa", .num kappa'), ("prior", .inst t (.vonMisesKnownConcentration prior')), ("sin", .fn1 sin'), ("cos", .fn1 cos'), ("arctan2", .fn2 arctan2')]) :
    invoke von_mises_known_concentration_sig von_mises_known_concentration_body [] kw = .ok (DistVal.vonMisesKnownConcentration (Conj.von_mises_known_concentration cos_total' sin_total' n' kappa' prior' sin' cos' arctan2')).toPy := by
  rw [invoke_perm _ _ _ h (by simp)]
  call_body von_mises_known_concentration_sig von_mises_known_concentration_body

/-- `von_mises_known_concentration` without its optional arguments uses the documented defaults -/
theorem C81_defaults_von_mises_known_concentration (cos_total' : ℝ) (sin_total' : ℝ) (n' : ℝ) (kappa' : ℝ) (prior' : VonMisesKnownConcentration ℝ) (t : String) (kw : List (String × PyVal))
    (h : kw.Perm [("cos_total", .num cos_total'), ("sin_total", .num sin_total'), ("n", .num n'), ("kappa", .num kappa'), ("prior", .inst t (.vonMisesKnownConcentration prior'))]) :
    invoke von_mises_known_concentration_sig von_mises_known_concentration_body [] kw = .ok (DistVal.vonMisesKnownConcentration (Conj.von_mises_known_concentration cos_total' sin_total' n' kappa' prior' (Real.sin) (Real.cos) (Scipy.arctan2))).toPy := by
  rw [invoke_perm _ _ _ h (by simp)]
  call_body von_mises_known_concentration_sig von_mises_known_concentration_body

/-- `von_mises_known_direction(centered_cos_total, n, prior)` with the keywords in any order -/
theorem C67_call_von_mises_known_direction (centered_cos_total' : ℝ) (n' : ℝ) (prior' : VonMisesKnownDirectionProportional ℝ) (t : String) (kw : List (String × PyVal))
    (h : kw.Perm [("centered_cos_total", .num centered_cos_total'), ("n", .num n'), ("prior", .inst t (.vonMisesKnownDirectionProportional prior'))]) :
    invoke von_mises_known_direction_sig von_mises_known_direction_body [] kw = .ok (DistVal.vonMisesKnownDirectionProportional (Conj.von_mises_known_direction centered_cos_total' n' prior')).toPy := by
  rw [invoke_perm _ _ _ h (by simp)]
  call_body von_mises_known_direction_sig von_mises_known_direction_body

/-- `log_normal(ln_x_total, ln_x2_total, n, prior)` with the keywords in any order -/
theorem C67_call_log_normal (ln_x_total' : ℝ) (ln_x2_total' : ℝ) (n' : ℝ) (prior' : NormalPrior ℝ Unit) (t : String) (kw : List (String × PyVal))
    (h : kw.Perm [("ln_x_total", .num ln_x_total'), ("ln_x2_total", .num ln_x2_total'), ("n", .num n'), ("prior", .inst t prior'.toDist)]) :
    invoke log_normal_sig log_normal_body [] kw = (Conj.log_normal ln_x_total' ln_x2_total' n' prior').map (fun r => (r).toDist.toPy) := by
  rw [invoke_perm _ _ _ h (by simp)]
  cases prior' <;> call_body log_normal_sig log_normal_body

/-- `weibull_inverse_gamma_known_shape(n, x_beta_total, prior)` with the keywords in any order -/
theorem C67_call_weibull_inverse_gamma_known_shape (n' : ℝ) (x_beta_total' : ℝ) (prior' : InverseGamma ℝ) (t : String) (kw : List (String × PyVal))
    (h : kw.Perm [("n", .num n'), ("x_beta_total", .num x_beta_total'), ("prior", .inst t (.inverseGamma prior'))]) :
    invoke weibull_inverse_gamma_known_shape_sig weibull_inverse_gamma_known_shape_body [] kw = .ok (DistVal.inverseGamma (Conj.weibull_inverse_gamma_known_shape n' x_beta_total' prior')).toPy := by
  rw [invoke_perm _ _ _ h (by simp)]
  call_body weibull_inverse_gamma_known_shape_sig weibull_inverse_gamma_known_shape_body

end Conj
