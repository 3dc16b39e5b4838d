import Verif.Lemmas.Memory
import Verif.Models

/-!
# The model functions on memory and on array expressions
-/

namespace Conj

open Spec

theorem binomial_beta_rel {h : Heap} {n x : Val} {prior : Beta Val} (h_n : InHeap h n) (h_x : InHeap h x) (h_prior :
    Params.All (InHeap h) prior) :
Params.Rel (Fresh h) (binomial_beta n.arg x.arg (args prior)) (binomial_beta (arr h n) (arr h x) (contents h prior))
    := by
  obtain ⟨p0, p1⟩ := h_prior
  refine ⟨?_, ?_⟩ <;> dsimp only [binomial_beta, getBinomialBetaPosteriorParams, args, contents, fmap, arr] <;> mem_fresh

theorem bernoulli_beta_rel {h : Heap} {x : Val} {prior : Beta Val} (h_x : InHeap h x) (h_prior : Params.All (InHeap h)
    prior) :
Params.Rel (Fresh h) (bernoulli_beta x.arg (args prior)) (bernoulli_beta (arr h x) (contents h prior)) := by
  obtain ⟨p0, p1⟩ := h_prior
  refine ⟨?_, ?_⟩ <;> dsimp only [bernoulli_beta, binomial_beta, getBinomialBetaPosteriorParams, args, contents, fmap, arr] <;> mem_fresh

theorem negative_binomial_beta_rel {h : Heap} {r n x : Val} {prior : Beta Val} (h_r : InHeap h r) (h_n : InHeap h n)
    (h_x : InHeap h x) (h_prior : Params.All (InHeap h) prior) :
Params.Rel (Fresh h) (negative_binomial_beta r.arg n.arg x.arg (args prior)) (negative_binomial_beta (arr h r) (arr h
    n) (arr h x) (contents h prior)) := by
  obtain ⟨p0, p1⟩ := h_prior
  refine ⟨?_, ?_⟩ <;> dsimp only [negative_binomial_beta, args, contents, fmap, arr] <;> mem_fresh

theorem geometric_beta_rel {h : Heap} {x_total n : Val} {prior : Beta Val} {one_start : Bool} (h_x_total : InHeap h
    x_total) (h_n : InHeap h n) (h_prior : Params.All (InHeap h) prior) :
Params.Rel (Fresh h) (geometric_beta x_total.arg n.arg (args prior) one_start) (geometric_beta (arr h x_total) (arr h
    n) (contents h prior) one_start) := by
  obtain ⟨p0, p1⟩ := h_prior
  cases one_start <;>
  refine ⟨?_, ?_⟩ <;> simp only [geometric_beta, args, contents, fmap, arr, Bool.false_eq_true, ↓reduceIte] <;> mem_fresh

theorem poisson_gamma_rel {h : Heap} {x_total n : Val} {prior : Gamma Val} (h_x_total : InHeap h x_total) (h_n :
    InHeap h n) (h_prior : Params.All (InHeap h) prior) :
Params.Rel (Fresh h) (poisson_gamma x_total.arg n.arg (args prior)) (poisson_gamma (arr h x_total) (arr h n) (contents
    h prior)) := by
  obtain ⟨p0, p1⟩ := h_prior
  refine ⟨?_, ?_⟩ <;> dsimp only [poisson_gamma, getPoissonGammaPosteriorParams, args, contents, fmap, arr] <;> mem_fresh

theorem exponential_gamma_rel {h : Heap} {x_total n : Val} {prior : Gamma Val} (h_x_total : InHeap h x_total) (h_n :
    InHeap h n) (h_prior : Params.All (InHeap h) prior) :
Params.Rel (Fresh h) (exponential_gamma x_total.arg n.arg (args prior)) (exponential_gamma (arr h x_total) (arr h n)
    (contents h prior)) := by
  obtain ⟨p0, p1⟩ := h_prior
  refine ⟨?_, ?_⟩ <;> dsimp only [exponential_gamma, getExponentialGammaPosteriorParams, getPoissonGammaPosteriorParams, args, contents, fmap, arr] <;> mem_fresh

theorem gamma_known_shape_rel {h : Heap} {x_total n alpha : Val} {prior : Gamma Val} (h_x_total : InHeap h x_total)
    (h_n : InHeap h n) (h_alpha : InHeap h alpha) (h_prior : Params.All (InHeap h) prior) :
Params.Rel (Fresh h) (gamma_known_shape x_total.arg n.arg alpha.arg (args prior)) (gamma_known_shape (arr h x_total)
    (arr h n) (arr h alpha) (contents h prior)) := by
  obtain ⟨p0, p1⟩ := h_prior
  refine ⟨?_, ?_⟩ <;> dsimp only [gamma_known_shape, args, contents, fmap, arr] <;> mem_fresh

theorem inverse_gamma_known_rate_rel {h : Heap} {reciprocal_x_total n alpha : Val} {prior : Gamma Val}
    (h_reciprocal_x_total : InHeap h reciprocal_x_total) (h_n : InHeap h n) (h_alpha : InHeap h alpha) (h_prior :
    Params.All (InHeap h) prior) :
Params.Rel (Fresh h) (inverse_gamma_known_rate reciprocal_x_total.arg n.arg alpha.arg (args prior))
    (inverse_gamma_known_rate (arr h reciprocal_x_total) (arr h n) (arr h alpha) (contents h prior)) := by
  obtain ⟨p0, p1⟩ := h_prior
  refine ⟨?_, ?_⟩ <;> dsimp only [inverse_gamma_known_rate, args, contents, fmap, arr] <;> mem_fresh

theorem normal_known_variance_rel {h : Heap} {x_total n var : Val} {prior : Normal Val} (h_x_total : InHeap h x_total)
    (h_n : InHeap h n) (h_var : InHeap h var) (h_prior : Params.All (InHeap h) prior) :
Params.Rel (Fresh h) (normal_known_variance x_total.arg n.arg var.arg (args prior)) (normal_known_variance (arr h
    x_total) (arr h n) (arr h var) (contents h prior)) := by
  obtain ⟨p0, p1⟩ := h_prior
  refine ⟨?_, ?_⟩ <;> dsimp only [normal_known_variance, args, contents, fmap, arr] <;> mem_fresh

theorem normal_known_precision_rel {h : Heap} {x_total n precision : Val} {prior : Normal Val} (h_x_total : InHeap h
    x_total) (h_n : InHeap h n) (h_precision : InHeap h precision) (h_prior : Params.All (InHeap h) prior) :
Params.Rel (Fresh h) (normal_known_precision x_total.arg n.arg precision.arg (args prior)) (normal_known_precision
    (arr h x_total) (arr h n) (arr h precision) (contents h prior)) := by
  obtain ⟨p0, p1⟩ := h_prior
  refine ⟨?_, ?_⟩ <;> dsimp only [normal_known_precision, normal_known_variance, args, contents, fmap, arr] <;> mem_fresh

theorem normal_known_mean_rel {h : Heap} {x_total x2_total n mu : Val} {prior : VariancePrior Val} (h_x_total : InHeap
    h x_total) (h_x2_total : InHeap h x2_total) (h_n : InHeap h n) (h_mu : InHeap h mu) (h_prior : Params.All (InHeap
    h) prior) :
Params.Rel (Fresh h) (normal_known_mean x_total.arg x2_total.arg n.arg mu.arg (args prior)) (normal_known_mean (arr h
    x_total) (arr h x2_total) (arr h n) (arr h mu) (contents h prior)) := by
  cases prior with
  | inverseGamma prior =>
    obtain ⟨p0, p1⟩ := h_prior
    refine ⟨?_, ?_⟩ <;> dsimp only [normal_known_mean, normalKnownMeanInverseGammaPrior, ScaledInverseChiSquared.to_inverse_gamma, ScaledInverseChiSquared.from_inverse_gamma, args, contents, fmap, arr] <;> mem_fresh
  | scaledInverseChiSquared prior =>
    obtain ⟨p0, p1⟩ := h_prior
    refine ⟨?_, ?_⟩ <;> dsimp only [normal_known_mean, normalKnownMeanInverseGammaPrior, ScaledInverseChiSquared.to_inverse_gamma, ScaledInverseChiSquared.from_inverse_gamma, args, contents, fmap, arr] <;> mem_fresh

theorem uniform_pareto_rel {h : Heap} {x_max n : Val} {prior : Pareto Val} {max_fn : ℝ → ℝ → ℝ} (h_x_max : InHeap h
    x_max) (h_n : InHeap h n) (h_prior : Params.All (InHeap h) prior) :
Params.Rel (Fresh h) (uniform_pareto x_max.arg n.arg (args prior) (ufunc2 max_fn)) (uniform_pareto (arr h x_max) (arr
    h n) (contents h prior) (np2 max_fn)) := by
  obtain ⟨p0, p1⟩ := h_prior
  refine ⟨?_, ?_⟩ <;> dsimp only [uniform_pareto, args, contents, fmap, arr] <;> mem_fresh

theorem pareto_gamma_rel {h : Heap} {n ln_x_total x_m : Val} {prior : Gamma Val} {ln : ℝ → ℝ} (h_n : InHeap h n)
    (h_ln_x_total : InHeap h ln_x_total) (h_x_m : InHeap h x_m) (h_prior : Params.All (InHeap h) prior) :
Params.Rel (Fresh h) (pareto_gamma n.arg ln_x_total.arg x_m.arg (args prior) (ufunc1 ln)) (pareto_gamma (arr h n) (arr
    h ln_x_total) (arr h x_m) (contents h prior) (np1 ln)) := by
  obtain ⟨p0, p1⟩ := h_prior
  refine ⟨?_, ?_⟩ <;> dsimp only [pareto_gamma, args, contents, fmap, arr] <;> mem_fresh

theorem gamma_rel {h : Heap} {x_total x_prod n : Val} {prior : GammaProportional Val} (h_x_total : InHeap h x_total)
    (h_x_prod : InHeap h x_prod) (h_n : InHeap h n) (h_prior : Params.All (InHeap h) prior) :
Params.Rel (Fresh h) (gamma x_total.arg x_prod.arg n.arg (args prior)) (gamma (arr h x_total) (arr h x_prod) (arr h n)
    (contents h prior)) := by
  obtain ⟨p0, p1, p2, p3⟩ := h_prior
  refine ⟨?_, ?_, ?_, ?_⟩ <;> dsimp only [gamma, args, contents, fmap, arr] <;> mem_fresh

theorem gamma_known_rate_rel {h : Heap} {x_prod n beta : Val} {prior : GammaKnownRateProportional Val} (h_x_prod :
    InHeap h x_prod) (h_n : InHeap h n) (h_beta : InHeap h beta) (h_prior : Params.All (InHeap h) prior) :
Params.Rel (Fresh h) (gamma_known_rate x_prod.arg n.arg beta.arg (args prior)) (gamma_known_rate (arr h x_prod) (arr h
    n) (arr h beta) (contents h prior)) := by
  obtain ⟨p0, p1, p2⟩ := h_prior
  refine ⟨?_, ?_, ?_⟩ <;> dsimp only [gamma_known_rate, args, contents, fmap, arr] <;> mem_fresh

theorem beta_rel {h : Heap} {x_prod one_minus_x_prod n : Val} {prior : BetaProportional Val} (h_x_prod : InHeap h
    x_prod) (h_one_minus_x_prod : InHeap h one_minus_x_prod) (h_n : InHeap h n) (h_prior : Params.All (InHeap h)
    prior) :
Params.Rel (Fresh h) (beta x_prod.arg one_minus_x_prod.arg n.arg (args prior)) (beta (arr h x_prod) (arr h
    one_minus_x_prod) (arr h n) (contents h prior)) := by
  obtain ⟨p0, p1, p2⟩ := h_prior
  refine ⟨?_, ?_, ?_⟩ <;> dsimp only [beta, args, contents, fmap, arr] <;> mem_fresh

theorem von_mises_known_concentration_rel {h : Heap} {cos_total sin_total n kappa : Val} {prior :
    VonMisesKnownConcentration Val} {sin cos : ℝ → ℝ} {arctan2 : ℝ → ℝ → ℝ} (h_cos_total : InHeap h cos_total)
    (h_sin_total : InHeap h sin_total) (h_n : InHeap h n) (h_kappa : InHeap h kappa) (h_prior : Params.All (InHeap h)
    prior) :
Params.Rel (Fresh h) (von_mises_known_concentration cos_total.arg sin_total.arg n.arg kappa.arg (args prior) (ufunc1
    sin) (ufunc1 cos) (ufunc2 arctan2)) (von_mises_known_concentration (arr h cos_total) (arr h sin_total) (arr h n)
    (arr h kappa) (contents h prior) (np1 sin) (np1 cos) (np2 arctan2)) := by
  obtain ⟨p0, p1⟩ := h_prior
  refine ⟨?_, ?_⟩ <;> dsimp only [von_mises_known_concentration, args, contents, fmap, arr] <;> mem_fresh

theorem von_mises_known_direction_rel {h : Heap} {centered_cos_total n : Val} {prior :
    VonMisesKnownDirectionProportional Val} (h_centered_cos_total : InHeap h centered_cos_total) (h_n : InHeap h n)
    (h_prior : Params.All (InHeap h) prior) :
Params.Rel (Fresh h) (von_mises_known_direction centered_cos_total.arg n.arg (args prior)) (von_mises_known_direction
    (arr h centered_cos_total) (arr h n) (contents h prior)) := by
  obtain ⟨p0, p1⟩ := h_prior
  refine ⟨?_, ?_⟩ <;> dsimp only [von_mises_known_direction, args, contents, fmap, arr] <;> mem_fresh

theorem weibull_inverse_gamma_known_shape_rel {h : Heap} {n x_beta_total : Val} {prior : InverseGamma Val} (h_n :
    InHeap h n) (h_x_beta_total : InHeap h x_beta_total) (h_prior : Params.All (InHeap h) prior) :
Params.Rel (Fresh h) (weibull_inverse_gamma_known_shape n.arg x_beta_total.arg (args prior))
    (weibull_inverse_gamma_known_shape (arr h n) (arr h x_beta_total) (contents h prior)) := by
  obtain ⟨p0, p1⟩ := h_prior
  refine ⟨?_, ?_⟩ <;> dsimp only [weibull_inverse_gamma_known_shape, args, contents, fmap, arr] <;> mem_fresh

theorem poisson_gamma_predictive_rel {h : Heap} {n : Val} {prior : Gamma Val} (h_n : InHeap h n) (h_prior : Params.All
    (InHeap h) prior) :
Params.Rel (Fresh h) (poisson_gamma_predictive (args prior) n.arg) (poisson_gamma_predictive (contents h prior) (arr h
    n)) := by
  obtain ⟨p0, p1⟩ := h_prior
  refine ⟨?_, ?_⟩ <;> dsimp only [poisson_gamma_predictive, args, contents, fmap, arr] <;> mem_fresh

theorem Poisson.mul_rel {h : Heap} {other : Val} {prior : Poisson Val} (h_other : InHeap h other) (h_prior :
    Params.All (InHeap h) prior) :
Params.Rel (Fresh h) (Poisson.mul (args prior) other.arg) (Poisson.mul (contents h prior) (arr h other)) := by
  have p0 : InHeap h prior.lam := h_prior
  change Fresh h _ _
  dsimp only [Poisson.mul, args, contents, fmap, arr]
  mem_fresh

theorem Normal.mul_rel {h : Heap} {other : Val} {prior : Normal Val} (h_other : InHeap h other) (h_prior : Params.All
    (InHeap h) prior) :
Params.Rel (Fresh h) (Normal.mul (args prior) other.arg) (Normal.mul (contents h prior) (arr h other)) := by
  obtain ⟨p0, p1⟩ := h_prior
  refine ⟨?_, ?_⟩ <;> dsimp only [Normal.mul, args, contents, fmap, arr] <;> mem_fresh

theorem binomial_beta_predictive_rel {h : Heap} {n : Val} {prior : Beta Val} (h_n : InHeap h n) (h_prior : Params.All
    (InHeap h) prior) :
Params.Rel (Sim h) (binomial_beta_predictive n.arg (args prior)) (binomial_beta_predictive (arr h n) (contents h
    prior)) := by
  obtain ⟨p0, p1⟩ := h_prior
  refine ⟨?_, ?_, ?_⟩ <;> dsimp only [binomial_beta_predictive, args, contents, fmap, arr] <;> mem_sim

theorem bernoulli_beta_predictive_rel {h : Heap} {prior : Beta Val} (h_prior : Params.All (InHeap h) prior) :
Params.Rel (Sim h) (bernoulli_beta_predictive (args prior)) (bernoulli_beta_predictive (contents h prior)) := by
  obtain ⟨p0, p1⟩ := h_prior
  refine ⟨?_, ?_, ?_⟩ <;> dsimp only [bernoulli_beta_predictive, binomial_beta_predictive, args, contents, fmap, arr] <;> mem_sim

theorem negative_binomial_beta_predictive_rel {h : Heap} {r : Val} {prior : Beta Val} (h_r : InHeap h r) (h_prior :
    Params.All (InHeap h) prior) :
Params.Rel (Sim h) (negative_binomial_beta_predictive r.arg (args prior)) (negative_binomial_beta_predictive (arr h r)
    (contents h prior)) := by
  obtain ⟨p0, p1⟩ := h_prior
  refine ⟨?_, ?_, ?_⟩ <;> dsimp only [negative_binomial_beta_predictive, args, contents, fmap, arr] <;> mem_sim

theorem geometric_beta_predictive_rel {h : Heap} {prior : Beta Val} {one_start : Bool} (h_prior : Params.All (InHeap
    h) prior) :
Params.Rel (Sim h) (geometric_beta_predictive (args prior) one_start) (geometric_beta_predictive (contents h prior)
    one_start) := by
  obtain ⟨p0, p1⟩ := h_prior
  refine ⟨?_, ?_, rfl⟩ <;> dsimp only [geometric_beta_predictive, args, contents, fmap, arr] <;> mem_sim

theorem hypergeometric_beta_binomial_rel {h : Heap} {x_total n : Val} {prior : BetaBinomial Val} (h_x_total : InHeap h
    x_total) (h_n : InHeap h n) (h_prior : Params.All (InHeap h) prior) :
Params.Rel (Sim h) (hypergeometric_beta_binomial x_total.arg n.arg (args prior)) (hypergeometric_beta_binomial (arr h
    x_total) (arr h n) (contents h prior)) := by
  obtain ⟨p0, p1, p2⟩ := h_prior
  refine ⟨?_, ?_, ?_⟩ <;> dsimp only [hypergeometric_beta_binomial, args, contents, fmap, arr] <;> mem_sim

theorem exponential_gamma_predictive_rel {h : Heap} {prior : Gamma Val} (h_prior : Params.All (InHeap h) prior) :
Params.Rel (Sim h) (exponential_gamma_predictive (args prior)) (exponential_gamma_predictive (contents h prior)) := by
  obtain ⟨p0, p1⟩ := h_prior
  refine ⟨?_, ?_⟩ <;> dsimp only [exponential_gamma_predictive, args, contents, fmap, arr] <;> mem_sim

theorem gamma_known_shape_predictive_rel {h : Heap} {alpha : Val} {prior : Gamma Val} (h_alpha : InHeap h alpha)
    (h_prior : Params.All (InHeap h) prior) :
Params.Rel (Sim h) (gamma_known_shape_predictive (args prior) alpha.arg) (gamma_known_shape_predictive (contents h
    prior) (arr h alpha)) := by
  obtain ⟨p0, p1⟩ := h_prior
  refine ⟨?_, ?_, ?_⟩ <;> dsimp only [gamma_known_shape_predictive, args, contents, fmap, arr] <;> mem_sim

theorem normal_known_variance_predictive_rel {h : Heap} {var : Val} {prior : Normal Val} (h_var : InHeap h var)
    (h_prior : Params.All (InHeap h) prior) :
Params.Rel (Sim h) (normal_known_variance_predictive var.arg (args prior)) (normal_known_variance_predictive (arr h
    var) (contents h prior)) := by
  obtain ⟨p0, p1⟩ := h_prior
  refine ⟨?_, ?_⟩ <;> dsimp only [normal_known_variance_predictive, args, contents, fmap, arr] <;> mem_sim

theorem normal_known_precision_predictive_rel {h : Heap} {precision : Val} {prior : Normal Val} (h_precision : InHeap
    h precision) (h_prior : Params.All (InHeap h) prior) :
Params.Rel (Sim h) (normal_known_precision_predictive precision.arg (args prior)) (normal_known_precision_predictive
    (arr h precision) (contents h prior)) := by
  obtain ⟨p0, p1⟩ := h_prior
  refine ⟨?_, ?_⟩ <;> dsimp only [normal_known_precision_predictive, normal_known_variance_predictive, args, contents, fmap, arr] <;> mem_sim

theorem normal_known_mean_predictive_rel {h : Heap} {mu : Val} {prior : VariancePrior Val} (h_mu : InHeap h mu)
    (h_prior : Params.All (InHeap h) prior) :
Params.Rel (Sim h) (normal_known_mean_predictive mu.arg (args prior)) (normal_known_mean_predictive (arr h mu)
    (contents h prior)) := by
  cases prior with
  | inverseGamma prior =>
    obtain ⟨p0, p1⟩ := h_prior
    refine ⟨?_, ?_, ?_⟩ <;> dsimp only [normal_known_mean_predictive, ScaledInverseChiSquared.to_inverse_gamma, args, contents, fmap, arr] <;> mem_sim
  | scaledInverseChiSquared prior =>
    obtain ⟨p0, p1⟩ := h_prior
    refine ⟨?_, ?_, ?_⟩ <;> dsimp only [normal_known_mean_predictive, ScaledInverseChiSquared.to_inverse_gamma, args, contents, fmap, arr] <;> mem_sim

theorem Gamma.mul_rel {h : Heap} {other : Val} {prior : Gamma Val} (h_other : InHeap h other) (h_prior : Params.All
    (InHeap h) prior) :
Params.Rel (Sim h) (Gamma.mul (args prior) other.arg) (Gamma.mul (contents h prior) (arr h other)) := by
  obtain ⟨p0, p1⟩ := h_prior
  refine ⟨?_, ?_⟩ <;> dsimp only [Gamma.mul, args, contents, fmap, arr] <;> mem_sim

theorem NegativeBinomial.mul_rel {h : Heap} {other : Val} {prior : NegativeBinomial Val} (h_other : InHeap h other)
    (h_prior : Params.All (InHeap h) prior) :
Params.Rel (Sim h) (NegativeBinomial.mul (args prior) other.arg) (NegativeBinomial.mul (contents h prior) (arr h
    other)) := by
  obtain ⟨p0, p1⟩ := h_prior
  refine ⟨?_, ?_⟩ <;> dsimp only [NegativeBinomial.mul, args, contents, fmap, arr] <;> mem_sim


theorem Poisson.add_rel {h : Heap} {self other : Poisson Val} (h_self : Params.All (InHeap h) self)
    (h_other : Params.All (InHeap h) other) :
    Params.Rel (Fresh h) (Poisson.add (args self) (args other)) (Poisson.add (contents h self) (contents h other)) := by
  have p0 : InHeap h self.lam := h_self
  have p1 : InHeap h other.lam := h_other
  change Fresh h _ _
  dsimp only [Poisson.add, args, contents, fmap, arr]
  mem_fresh

section normal
variable {M : Type} {h : Heap} {x_total x2_total n : Val} {prior : UnivariateNormalPrior M Val}

theorem normal_rel (h_x : InHeap h x_total) (h_x2 : InHeap h x2_total) (h_n : InHeap h n)
    (h_prior : Params.All (InHeap h) prior) :
    ExceptRel (Params.Rel (D := UnivariateNormalPrior M) (Fresh h))
      (normal x_total.arg x2_total.arg n.arg (args (D := UnivariateNormalPrior M) prior))
      (normal (arr h x_total) (arr h x2_total) (arr h n) (contents (D := UnivariateNormalPrior M) h prior)) := by
  cases prior with
  | nig d =>
    obtain ⟨mu, al, be, de, nu⟩ := d
    obtain ⟨p0, p1, p2, p3⟩ := h_prior
    cases nu with
    | none => exact rfl
    | some nu =>
      have p3 := p3 nu rfl
      refine ⟨?_, ?_, ?_, .some ?_, rfl⟩ <;> dsimp only [normalUpdate, arr] <;> mem_fresh
  | ng d =>
    obtain ⟨p0, p1, p2, p3⟩ := h_prior
    refine ⟨?_, ?_, ?_, ?_⟩ <;> dsimp only [normalUpdate, fmap, arr] <;> mem_fresh

theorem normal_predictive_rel (h_prior : Params.All (InHeap h) prior) :
    ExceptRel (Params.Rel (D := StudentT) (Sim h))
      (normal_predictive (args (D := UnivariateNormalPrior M) prior))
      (normal_predictive (contents (D := UnivariateNormalPrior M) h prior)) := by
  cases prior with
  | nig d =>
    obtain ⟨mu, al, be, de, nu⟩ := d
    obtain ⟨p0, p1, p2, p3⟩ := h_prior
    cases nu with
    | none => exact rfl
    | some nu =>
      have p3 := p3 nu rfl
      refine ⟨?_, ?_, ?_⟩ <;> dsimp only [fmap, arr] <;> mem_sim
  | ng d =>
    obtain ⟨p0, p1, p2, p3⟩ := h_prior
    refine ⟨?_, ?_, ?_⟩ <;> dsimp only [fmap, arr] <;> mem_sim

end normal

section orRaise
variable {D : Type → Type} [LawfulParams D] [Trav D] [LawfulTrav D] {h : Heap}

/-- what is proved of every call -/
abbrev Good (h : Heap) (P : Val → Prop) : Py (D Val) → Except PyErr (D (NdArr ℝ)) → Prop :=
  Outcome h fun h d e => Params.All (InHeap h) d ∧ Params.All P d ∧ fmap h.read d = e

theorem good_orRaise {P : Val → Prop} {c : Except PyErr (D (Py Val))} {e : Except PyErr (D (ArrExpr ℝ))}
    (r : ExceptRel (Params.Rel (Outcome h (Is P))) c e) : Good h P (buildOrRaise c) (e >>= object) := by
  match c, e, r with
  | .ok _, .ok _, r => exact LawfulTrav.seq_outcome r
  | .error x, .error _, rfl => exact fun _ _ => rfl

omit [Trav D] [LawfulTrav D] in
theorem exprs_read (h : Heap) (d : D Val) : exprs (fmap h.read d) = contents h d := by
  rw [exprs, LawfulParams.fmap_fmap]
  rfl

omit [Trav D] [LawfulTrav D] in
theorem history_outcome {B C : Type} {read : Heap → B → C} {ok : Heap → B → Prop}
    (hread : ∀ h h' b, h.Le h' → ok h b → ok h' b ∧ read h' b = read h b)
    {step : B → D Val → Py (D Val)} {stepE : C → D (NdArr ℝ) → Except PyErr (D (NdArr ℝ))}
    (hs : ∀ h b d, ok h b → Params.All (InHeap h) d → Good h (New h) (step b d) (stepE (read h b) (fmap h.read d))) :
    ∀ (bs : List B) (h : Heap) (d : D Val), (∀ b ∈ bs, ok h b) → Params.All (InHeap h) d →
      Outcome h (fun h' ds es => (∀ d ∈ ds, Params.All (InHeap h') d ∧ Params.All (New h) d) ∧ ds.map (fmap h'.read) = es ∧
        ds.Pairwise fun d d' => ∀ a, HoldsArray d a → ¬ HoldsArray d' a)
        (posteriors step bs d) (posteriors stepE (bs.map (read h)) (fmap h.read d)) := by
  intro bs
  induction bs with
  | nil => exact fun h d _ _ => Outcome.pure fun h' l => ⟨by simp, rfl, .nil⟩
  | cons b bs ih =>
    intro h d hb hd
    refine (hs h b d (hb b List.mem_cons_self) hd).bind fun p x h1 l1 q => ?_
    have ihp := ih h1 p (fun b' m => (hread h h1 b' l1 (hb b' (List.mem_cons_of_mem _ m))).1) q.1
    have e : bs.map (read h1) = bs.map (read h) :=
      List.map_congr_left fun b' m => (hread h h1 b' l1 (hb b' (List.mem_cons_of_mem _ m))).2
    rw [e, q.2.2] at ihp
    refine ihp.bind fun ps xs h2 l2 r => Outcome.pure fun h3 l3 => ?_
    refine ⟨?_, ?_, ?_⟩
    · intro d' m
      rcases List.mem_cons.1 m with rfl | m
      · exact ⟨all_inHeap l3 (all_inHeap l2 q.1), q.2.1⟩
      · refine ⟨all_inHeap l3 (r.1 d' m).1, all_imp (r.1 d' m).2 fun v hv => ?_⟩
        cases v with
        | num x => trivial
        | ref a => exact l1.next.trans hv
    · rw [List.map_cons, fmap_read l3 (all_inHeap l2 q.1), fmap_read l2 q.1, q.2.2]
      congr 1
      rw [← r.2.1]
      exact List.map_congr_left fun d' m => fmap_read l3 (r.1 d' m).1
    · refine List.pairwise_cons.2 ⟨fun d' m a ha ha' => ?_, r.2.2⟩
      have lt : a < h1.next := by
        by_contra c
        refine ha (all_imp q.1 fun v hv e => ?_)
        subst e
        exact c hv
      refine ha' (all_imp (r.1 d' m).2 fun v hv e => ?_)
      subst e
      exact absurd lt (not_lt.2 hv)

omit [Trav D] [LawfulTrav D] in
theorem history_kept {ds : Py (List (D Val))} {es : Except PyErr (List (D (NdArr ℝ)))}
    (o : Outcome h (fun h' ds es => (∀ d ∈ ds, Params.All (InHeap h') d ∧ Params.All (New h) d) ∧
      ds.map (fmap h'.read) = es ∧ ds.Pairwise fun d d' => ∀ a, HoldsArray d a → ¬ HoldsArray d' a) ds es) :
    HistoryKept h ds es := by
  have := o h (.refl h)
  unfold HistoryKept
  revert this
  cases ds h <;> cases es <;> simp only [imp_self]
  rintro ⟨l, a, e, p⟩
  refine ⟨e, fun v hv => l.read hv, fun d m i hi => ?_, p⟩
  by_contra c
  refine hi (all_imp (a d m).2 fun v hv e => ?_)
  subst e
  exact c hv

end orRaise

theorem bind_inv {B C : Type} {c : Py B} {k : B → Py C} {h : Heap} {r : C × Heap} (e : (c >>= k) h = .ok r) :
    ∃ v h1, c h = .ok (v, h1) ∧ k v h1 = .ok r := by
  change (c h >>= fun p => k p.1 p.2) = .ok r at e
  cases hc : c h with
  | error x => rw [hc] at e; cases e
  | ok p => rw [hc] at e; exact ⟨p.1, p.2, rfl, e⟩

theorem tied_self (h : Heap) (v : Val) : Tied h v v := by
  rintro a rfl new
  exact Function.update_self _ _ _

theorem batch_read {k : ℕ} (h h' : Heap) (b : Fin k → Val) (l : h.Le h') (hb : ∀ i, InHeap h (b i)) :
    (∀ i, InHeap h' (b i)) ∧ (fun i => h'.read (b i)) = fun i => h.read (b i) :=
  ⟨fun i => l.inHeap (hb i), funext fun i => l.read (hb i)⟩

end Conj
