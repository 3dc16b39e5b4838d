import Verif.Expr
import Verif.Params
import Mathlib.Tactic.NormNum

set_option linter.unusedVariables false
set_option linter.unusedSectionVars false

/-! Written by `tools/gen_elementwise.py`. -/

/-!
# C47: symbolic inputs, build first and evaluate later

For every elementwise model: calling it with expression objects for data and prior parameters
and evaluating the resulting expressions on a row gives the result of calling it with the row's
values.  `β` is any number type, the row and the meaning of the functions are arbitrary.
-/

namespace Conj

variable {β : Type} [PyNum β]

theorem C47_binomial_beta (row : Row β) (n x : Expr) (prior : Beta Expr) :
    fmap (Expr.eval row) (Conj.binomial_beta n x prior) =
      Conj.binomial_beta (n.eval row) (x.eval row) (fmap (Expr.eval row) prior) := by
  rfl

theorem C47_binomial_beta_predictive (row : Row β) (n : Expr) (distribution : Beta Expr) :
    fmap (Expr.eval row) (Conj.binomial_beta_predictive n distribution) =
      Conj.binomial_beta_predictive (n.eval row) (fmap (Expr.eval row) distribution) := by
  rfl

theorem C47_bernoulli_beta (row : Row β) (x : Expr) (prior : Beta Expr) :
    fmap (Expr.eval row) (Conj.bernoulli_beta x prior) =
      Conj.bernoulli_beta (x.eval row) (fmap (Expr.eval row) prior) := by
  rfl

theorem C47_bernoulli_beta_predictive (row : Row β) (distribution : Beta Expr) :
    fmap (Expr.eval row) (Conj.bernoulli_beta_predictive distribution) =
      Conj.bernoulli_beta_predictive (fmap (Expr.eval row) distribution) := by
  rfl

theorem C47_negative_binomial_beta (row : Row β) (r n x : Expr) (prior : Beta Expr) :
    fmap (Expr.eval row) (Conj.negative_binomial_beta r n x prior) =
      Conj.negative_binomial_beta (r.eval row) (n.eval row) (x.eval row) (fmap (Expr.eval row) prior) := by
  rfl

theorem C47_negative_binomial_beta_predictive (row : Row β) (r : Expr) (distribution : Beta Expr) :
    fmap (Expr.eval row) (Conj.negative_binomial_beta_predictive r distribution) =
      Conj.negative_binomial_beta_predictive (r.eval row) (fmap (Expr.eval row) distribution) := by
  rfl

theorem C47_hypergeometric_beta_binomial (row : Row β) (x_total n : Expr) (prior : BetaBinomial Expr) :
    fmap (Expr.eval row) (Conj.hypergeometric_beta_binomial x_total n prior) =
      Conj.hypergeometric_beta_binomial (x_total.eval row) (n.eval row) (fmap (Expr.eval row) prior) := by
  rfl

theorem C47_geometric_beta (row : Row β) (x_total n : Expr) (prior : Beta Expr) (one_start : Bool) :
    fmap (Expr.eval row) (Conj.geometric_beta x_total n prior one_start) =
      Conj.geometric_beta (x_total.eval row) (n.eval row) (fmap (Expr.eval row) prior) one_start := by
  cases one_start <;> rfl

theorem C47_geometric_beta_predictive (row : Row β) (distribution : Beta Expr) (one_start : Bool) :
    fmap (Expr.eval row) (Conj.geometric_beta_predictive distribution one_start) =
      Conj.geometric_beta_predictive (fmap (Expr.eval row) distribution) one_start := by
  cases one_start <;> rfl

theorem C47_poisson_gamma (row : Row β) (x_total n : Expr) (prior : Gamma Expr) :
    fmap (Expr.eval row) (Conj.poisson_gamma x_total n prior) =
      Conj.poisson_gamma (x_total.eval row) (n.eval row) (fmap (Expr.eval row) prior) := by
  rfl

theorem C47_poisson_gamma_predictive (row : Row β) (n : Expr) (distribution : Gamma Expr) :
    fmap (Expr.eval row) (Conj.poisson_gamma_predictive distribution n) =
      Conj.poisson_gamma_predictive (fmap (Expr.eval row) distribution) (n.eval row) := by
  rfl

theorem C47_exponential_gamma (row : Row β) (x_total n : Expr) (prior : Gamma Expr) :
    fmap (Expr.eval row) (Conj.exponential_gamma x_total n prior) =
      Conj.exponential_gamma (x_total.eval row) (n.eval row) (fmap (Expr.eval row) prior) := by
  rfl

theorem C47_exponential_gamma_predictive (row : Row β) (distribution : Gamma Expr) :
    fmap (Expr.eval row) (Conj.exponential_gamma_predictive distribution) =
      Conj.exponential_gamma_predictive (fmap (Expr.eval row) distribution) := by
  rfl

theorem C47_gamma_known_shape (row : Row β) (x_total n alpha : Expr) (prior : Gamma Expr) :
    fmap (Expr.eval row) (Conj.gamma_known_shape x_total n alpha prior) =
      Conj.gamma_known_shape (x_total.eval row) (n.eval row) (alpha.eval row) (fmap (Expr.eval row) prior) := by
  rfl

theorem C47_gamma_known_shape_predictive (row : Row β) (alpha : Expr) (distribution : Gamma Expr) :
    fmap (Expr.eval row) (Conj.gamma_known_shape_predictive distribution alpha) =
      Conj.gamma_known_shape_predictive (fmap (Expr.eval row) distribution) (alpha.eval row) := by
  rfl

theorem C47_inverse_gamma_known_rate (row : Row β) (reciprocal_x_total n alpha : Expr) (prior : Gamma Expr) :
    fmap (Expr.eval row) (Conj.inverse_gamma_known_rate reciprocal_x_total n alpha prior) =
      Conj.inverse_gamma_known_rate (reciprocal_x_total.eval row) (n.eval row) (alpha.eval row) (fmap (Expr.eval row) prior) := by
  rfl

theorem C47_normal_known_variance (row : Row β) (x_total n var : Expr) (prior : Normal Expr) :
    fmap (Expr.eval row) (Conj.normal_known_variance x_total n var prior) =
      Conj.normal_known_variance (x_total.eval row) (n.eval row) (var.eval row) (fmap (Expr.eval row) prior) := by
  rfl

theorem C47_normal_known_variance_predictive (row : Row β) (var : Expr) (distribution : Normal Expr) :
    fmap (Expr.eval row) (Conj.normal_known_variance_predictive var distribution) =
      Conj.normal_known_variance_predictive (var.eval row) (fmap (Expr.eval row) distribution) := by
  rfl

theorem C47_normal_known_precision (row : Row β) (x_total n precision : Expr) (prior : Normal Expr) :
    fmap (Expr.eval row) (Conj.normal_known_precision x_total n precision prior) =
      Conj.normal_known_precision (x_total.eval row) (n.eval row) (precision.eval row) (fmap (Expr.eval row) prior) := by
  rfl

theorem C47_normal_known_precision_predictive (row : Row β) (precision : Expr) (distribution : Normal Expr) :
    fmap (Expr.eval row) (Conj.normal_known_precision_predictive precision distribution) =
      Conj.normal_known_precision_predictive (precision.eval row) (fmap (Expr.eval row) distribution) := by
  rfl

theorem C47_uniform_pareto (row : Row β) (x_max n : Expr) (prior : Pareto Expr) (max_fn : String) :
    fmap (Expr.eval row) (Conj.uniform_pareto x_max n prior (Expr.call2 max_fn)) =
      Conj.uniform_pareto (x_max.eval row) (n.eval row) (fmap (Expr.eval row) prior) (row.fn2 max_fn) := by
  rfl

theorem C47_pareto_gamma (row : Row β) (n ln_x_total x_m : Expr) (prior : Gamma Expr) (ln : String) :
    fmap (Expr.eval row) (Conj.pareto_gamma n ln_x_total x_m prior (Expr.call1 ln)) =
      Conj.pareto_gamma (n.eval row) (ln_x_total.eval row) (x_m.eval row) (fmap (Expr.eval row) prior) (row.fn1 ln) := by
  rfl

theorem C47_gamma (row : Row β) (x_total x_prod n : Expr) (prior : GammaProportional Expr) :
    fmap (Expr.eval row) (Conj.gamma x_total x_prod n prior) =
      Conj.gamma (x_total.eval row) (x_prod.eval row) (n.eval row) (fmap (Expr.eval row) prior) := by
  rfl

theorem C47_gamma_known_rate (row : Row β) (x_prod n beta : Expr) (prior : GammaKnownRateProportional Expr) :
    fmap (Expr.eval row) (Conj.gamma_known_rate x_prod n beta prior) =
      Conj.gamma_known_rate (x_prod.eval row) (n.eval row) (beta.eval row) (fmap (Expr.eval row) prior) := by
  rfl

theorem C47_beta (row : Row β) (x_prod one_minus_x_prod n : Expr) (prior : BetaProportional Expr) :
    fmap (Expr.eval row) (Conj.beta x_prod one_minus_x_prod n prior) =
      Conj.beta (x_prod.eval row) (one_minus_x_prod.eval row) (n.eval row) (fmap (Expr.eval row) prior) := by
  rfl

theorem C47_von_mises_known_concentration (row : Row β) (cos_total sin_total n kappa : Expr) (prior : VonMisesKnownConcentration Expr) (sin : String) (cos : String) (arctan2 : String) :
    fmap (Expr.eval row) (Conj.von_mises_known_concentration cos_total sin_total n kappa prior (Expr.call1 sin) (Expr.call1 cos) (Expr.call2 arctan2)) =
      Conj.von_mises_known_concentration (cos_total.eval row) (sin_total.eval row) (n.eval row) (kappa.eval row) (fmap (Expr.eval row) prior) (row.fn1 sin) (row.fn1 cos) (row.fn2 arctan2) := by
  rfl

theorem C47_von_mises_known_direction (row : Row β) (centered_cos_total n : Expr) (prior : VonMisesKnownDirectionProportional Expr) :
    fmap (Expr.eval row) (Conj.von_mises_known_direction centered_cos_total n prior) =
      Conj.von_mises_known_direction (centered_cos_total.eval row) (n.eval row) (fmap (Expr.eval row) prior) := by
  rfl

theorem C47_weibull_inverse_gamma_known_shape (row : Row β) (n x_beta_total : Expr) (prior : InverseGamma Expr) :
    fmap (Expr.eval row) (Conj.weibull_inverse_gamma_known_shape n x_beta_total prior) =
      Conj.weibull_inverse_gamma_known_shape (n.eval row) (x_beta_total.eval row) (fmap (Expr.eval row) prior) := by
  rfl

theorem C47_normal_known_mean (row : Row β) (x_total x2_total n mu : Expr) (prior : VariancePrior Expr) :
    fmap (Expr.eval row) (normal_known_mean x_total x2_total n mu prior) =
      normal_known_mean (x_total.eval row) (x2_total.eval row) (n.eval row) (mu.eval row)
        (fmap (Expr.eval row) prior) := by
  cases prior <;> rfl

theorem C47_normal_known_mean_predictive (row : Row β) (mu : Expr) (d : VariancePrior Expr) :
    fmap (Expr.eval row) (normal_known_mean_predictive mu d) =
      normal_known_mean_predictive (mu.eval row) (fmap (Expr.eval row) d) := by
  cases d <;> rfl

/-- exceptions included: a prior without `nu` is the same `ValueError` either way -/
theorem C47_normal {M : Type} (row : Row β) (x_total x2_total n : Expr) (prior : NormalPrior Expr M) :
    (normal x_total x2_total n prior).map (fmap (D := UnivariateNormalPrior M) (Expr.eval row)) =
      normal (x_total.eval row) (x2_total.eval row) (n.eval row)
        (fmap (D := UnivariateNormalPrior M) (Expr.eval row) prior) := by
  match prior with
  | .ng d => rfl
  | .nig ⟨mu, al, be, de, none⟩ => rfl
  | .nig ⟨mu, al, be, de, some nu⟩ => rfl

theorem C47_log_normal {M : Type} (row : Row β) (x_total x2_total n : Expr) (prior : NormalPrior Expr M) :
    (log_normal x_total x2_total n prior).map (fmap (D := UnivariateNormalPrior M) (Expr.eval row)) =
      log_normal (x_total.eval row) (x2_total.eval row) (n.eval row)
        (fmap (D := UnivariateNormalPrior M) (Expr.eval row) prior) :=
  C47_normal row x_total x2_total n prior

theorem C47_normal_predictive {M : Type} (row : Row β) (d : NormalPrior Expr M) :
    (normal_predictive d).map (fmap (Expr.eval row)) =
      normal_predictive (fmap (D := UnivariateNormalPrior M) (Expr.eval row) d) := by
  match d with
  | .ng d => rfl
  | .nig ⟨mu, al, be, de, none⟩ => rfl
  | .nig ⟨mu, al, be, de, some nu⟩ => rfl

/-- The SQL example of the documentation: `binomial_beta(n=Field("trials"), x=Field("successes"),
prior=Beta(1, 1))` on a row with 10 trials and 3 successes. -/
example : fmap (Expr.eval { field := fun s => if s = "trials" then 10 else 3, fn1 := fun _ x => x, fn2 := fun _ x _ => x : Row ℝ })
    (binomial_beta (.field "trials") (.field "successes") ⟨.literal 1, .literal 1⟩) = (⟨4, 8⟩ : Beta ℝ) := by
  rw [C47_binomial_beta]
  have : ("successes" : String) ≠ "trials" := by decide
  simp only [binomial_beta, getBinomialBetaPosteriorParams, fmap, Expr.eval, lit_real, Beta.mk.injEq, if_neg this]
  norm_num

/-- and the expression itself is not a number: it still names the columns -/
example : (binomial_beta (.field "trials") (.field "successes") ⟨.literal 1, .literal 1⟩ : Beta Expr) =
    ⟨.add (.literal 1) (.field "successes"), .add (.literal 1) (.sub (.field "trials") (.field "successes"))⟩ := rfl

end Conj
