import Verif.Lemmas.MemoryModels
import Verif.Scipy

/-!
# C118: updating leaves its arguments alone and shares nothing with them
-/

namespace Conj

open Spec

/-- ten arrays with two entries each -/
noncomputable def exampleHeap : Heap := { cells := fun a => { rshape := [2], get := fun i => a + 1 + i.sum }, next := 10 }

theorem C118_binomial_beta_independent {h : Heap} {n x : Val} {prior : Beta Val} (h_n : InHeap h n) (h_x : InHeap h x)
    (h_prior : Params.All (InHeap h) prior) :
    Independent h (build (binomial_beta n.arg x.arg (args prior))) (object (binomial_beta (arr h n) (arr h x)
    (contents h prior))) :=
  independent_of_rel (binomial_beta_rel h_n h_x h_prior)

example : ∃ d h', build (binomial_beta (Val.ref 0).arg (Val.ref 1).arg (args ((⟨.ref 2, .ref 3⟩ : Beta Val))))
    exampleHeap = .ok (d, h') := ⟨_, _, rfl⟩

theorem C118_bernoulli_beta_independent {h : Heap} {x : Val} {prior : Beta Val} (h_x : InHeap h x) (h_prior :
    Params.All (InHeap h) prior) :
    Independent h (build (bernoulli_beta x.arg (args prior))) (object (bernoulli_beta (arr h x) (contents h prior)))
    :=
  independent_of_rel (bernoulli_beta_rel h_x h_prior)

example : ∃ d h', build (bernoulli_beta (Val.ref 0).arg (args ((⟨.ref 1, .ref 2⟩ : Beta Val)))) exampleHeap = .ok (d,
    h') := ⟨_, _, rfl⟩

theorem C118_negative_binomial_beta_independent {h : Heap} {r n x : Val} {prior : Beta Val} (h_r : InHeap h r) (h_n :
    InHeap h n) (h_x : InHeap h x) (h_prior : Params.All (InHeap h) prior) :
    Independent h (build (negative_binomial_beta r.arg n.arg x.arg (args prior))) (object (negative_binomial_beta (arr
    h r) (arr h n) (arr h x) (contents h prior))) :=
  independent_of_rel (negative_binomial_beta_rel h_r h_n h_x h_prior)

example : ∃ d h', build (negative_binomial_beta (Val.ref 0).arg (Val.ref 1).arg (Val.ref 2).arg (args ((⟨.ref 3, .ref
    4⟩ : Beta Val)))) exampleHeap = .ok (d, h') := ⟨_, _, rfl⟩

theorem C118_geometric_beta_independent {h : Heap} {x_total n : Val} {prior : Beta Val} {one_start : Bool} (h_x_total
    : InHeap h x_total) (h_n : InHeap h n) (h_prior : Params.All (InHeap h) prior) :
    Independent h (build (geometric_beta x_total.arg n.arg (args prior) one_start)) (object (geometric_beta (arr h
    x_total) (arr h n) (contents h prior) one_start)) :=
  independent_of_rel (geometric_beta_rel h_x_total h_n h_prior)

example : ∃ d h', build (geometric_beta (Val.ref 0).arg (Val.ref 1).arg (args ((⟨.ref 2, .ref 3⟩ : Beta Val))) true)
    exampleHeap = .ok (d, h') := ⟨_, _, rfl⟩

theorem C118_poisson_gamma_independent {h : Heap} {x_total n : Val} {prior : Gamma Val} (h_x_total : InHeap h x_total)
    (h_n : InHeap h n) (h_prior : Params.All (InHeap h) prior) :
    Independent h (build (poisson_gamma x_total.arg n.arg (args prior))) (object (poisson_gamma (arr h x_total) (arr h
    n) (contents h prior))) :=
  independent_of_rel (poisson_gamma_rel h_x_total h_n h_prior)

example : ∃ d h', build (poisson_gamma (Val.ref 0).arg (Val.ref 1).arg (args ((⟨.ref 2, .ref 3⟩ : Gamma Val))))
    exampleHeap = .ok (d, h') := ⟨_, _, rfl⟩

theorem C118_exponential_gamma_independent {h : Heap} {x_total n : Val} {prior : Gamma Val} (h_x_total : InHeap h
    x_total) (h_n : InHeap h n) (h_prior : Params.All (InHeap h) prior) :
    Independent h (build (exponential_gamma x_total.arg n.arg (args prior))) (object (exponential_gamma (arr h
    x_total) (arr h n) (contents h prior))) :=
  independent_of_rel (exponential_gamma_rel h_x_total h_n h_prior)

example : ∃ d h', build (exponential_gamma (Val.ref 0).arg (Val.ref 1).arg (args ((⟨.ref 2, .ref 3⟩ : Gamma Val))))
    exampleHeap = .ok (d, h') := ⟨_, _, rfl⟩

theorem C118_gamma_known_shape_independent {h : Heap} {x_total n alpha : Val} {prior : Gamma Val} (h_x_total : InHeap
    h x_total) (h_n : InHeap h n) (h_alpha : InHeap h alpha) (h_prior : Params.All (InHeap h) prior) :
    Independent h (build (gamma_known_shape x_total.arg n.arg alpha.arg (args prior))) (object (gamma_known_shape (arr
    h x_total) (arr h n) (arr h alpha) (contents h prior))) :=
  independent_of_rel (gamma_known_shape_rel h_x_total h_n h_alpha h_prior)

example : ∃ d h', build (gamma_known_shape (Val.ref 0).arg (Val.ref 1).arg (Val.ref 2).arg (args ((⟨.ref 3, .ref 4⟩ :
    Gamma Val)))) exampleHeap = .ok (d, h') := ⟨_, _, rfl⟩

theorem C118_inverse_gamma_known_rate_independent {h : Heap} {reciprocal_x_total n alpha : Val} {prior : Gamma Val}
    (h_reciprocal_x_total : InHeap h reciprocal_x_total) (h_n : InHeap h n) (h_alpha : InHeap h alpha) (h_prior :
    Params.All (InHeap h) prior) :
    Independent h (build (inverse_gamma_known_rate reciprocal_x_total.arg n.arg alpha.arg (args prior))) (object
    (inverse_gamma_known_rate (arr h reciprocal_x_total) (arr h n) (arr h alpha) (contents h prior))) :=
  independent_of_rel (inverse_gamma_known_rate_rel h_reciprocal_x_total h_n h_alpha h_prior)

example : ∃ d h', build (inverse_gamma_known_rate (Val.ref 0).arg (Val.ref 1).arg (Val.ref 2).arg (args ((⟨.ref 3,
    .ref 4⟩ : Gamma Val)))) exampleHeap = .ok (d, h') := ⟨_, _, rfl⟩

theorem C118_normal_known_variance_independent {h : Heap} {x_total n var : Val} {prior : Normal Val} (h_x_total :
    InHeap h x_total) (h_n : InHeap h n) (h_var : InHeap h var) (h_prior : Params.All (InHeap h) prior) :
    Independent h (build (normal_known_variance x_total.arg n.arg var.arg (args prior))) (object
    (normal_known_variance (arr h x_total) (arr h n) (arr h var) (contents h prior))) :=
  independent_of_rel (normal_known_variance_rel h_x_total h_n h_var h_prior)

example : ∃ d h', build (normal_known_variance (Val.ref 0).arg (Val.ref 1).arg (Val.ref 2).arg (args ((⟨.ref 3, .ref
    4⟩ : Normal Val)))) exampleHeap = .ok (d, h') := ⟨_, _, rfl⟩

theorem C118_normal_known_precision_independent {h : Heap} {x_total n precision : Val} {prior : Normal Val} (h_x_total
    : InHeap h x_total) (h_n : InHeap h n) (h_precision : InHeap h precision) (h_prior : Params.All (InHeap h) prior)
    :
    Independent h (build (normal_known_precision x_total.arg n.arg precision.arg (args prior))) (object
    (normal_known_precision (arr h x_total) (arr h n) (arr h precision) (contents h prior))) :=
  independent_of_rel (normal_known_precision_rel h_x_total h_n h_precision h_prior)

example : ∃ d h', build (normal_known_precision (Val.ref 0).arg (Val.ref 1).arg (Val.ref 2).arg (args ((⟨.ref 3, .ref
    4⟩ : Normal Val)))) exampleHeap = .ok (d, h') := ⟨_, _, rfl⟩

theorem C118_normal_known_mean_independent {h : Heap} {x_total x2_total n mu : Val} {prior : VariancePrior Val}
    (h_x_total : InHeap h x_total) (h_x2_total : InHeap h x2_total) (h_n : InHeap h n) (h_mu : InHeap h mu) (h_prior :
    Params.All (InHeap h) prior) :
    Independent h (build (normal_known_mean x_total.arg x2_total.arg n.arg mu.arg (args prior))) (object
    (normal_known_mean (arr h x_total) (arr h x2_total) (arr h n) (arr h mu) (contents h prior))) :=
  independent_of_rel (normal_known_mean_rel h_x_total h_x2_total h_n h_mu h_prior)

example : ∃ d h', build (normal_known_mean (Val.ref 0).arg (Val.ref 1).arg (Val.ref 2).arg (Val.ref 3).arg (args
    (((.inverseGamma ⟨.ref 4, .ref 5⟩) : VariancePrior Val)))) exampleHeap = .ok (d, h') := ⟨_, _, rfl⟩

theorem C118_uniform_pareto_independent {h : Heap} {x_max n : Val} {prior : Pareto Val} {max_fn : ℝ → ℝ → ℝ} (h_x_max
    : InHeap h x_max) (h_n : InHeap h n) (h_prior : Params.All (InHeap h) prior) :
    Independent h (build (uniform_pareto x_max.arg n.arg (args prior) (ufunc2 max_fn))) (object (uniform_pareto (arr h
    x_max) (arr h n) (contents h prior) (np2 max_fn))) :=
  independent_of_rel (uniform_pareto_rel h_x_max h_n h_prior)

example : ∃ d h', build (uniform_pareto (Val.ref 0).arg (Val.ref 1).arg (args ((⟨.ref 2, .ref 3⟩ : Pareto Val)))
    (ufunc2 max)) exampleHeap = .ok (d, h') := ⟨_, _, rfl⟩

theorem C118_pareto_gamma_independent {h : Heap} {n ln_x_total x_m : Val} {prior : Gamma Val} {ln : ℝ → ℝ} (h_n :
    InHeap h n) (h_ln_x_total : InHeap h ln_x_total) (h_x_m : InHeap h x_m) (h_prior : Params.All (InHeap h) prior) :
    Independent h (build (pareto_gamma n.arg ln_x_total.arg x_m.arg (args prior) (ufunc1 ln))) (object (pareto_gamma
    (arr h n) (arr h ln_x_total) (arr h x_m) (contents h prior) (np1 ln))) :=
  independent_of_rel (pareto_gamma_rel h_n h_ln_x_total h_x_m h_prior)

example : ∃ d h', build (pareto_gamma (Val.ref 0).arg (Val.ref 1).arg (Val.ref 2).arg (args ((⟨.ref 3, .ref 4⟩ : Gamma
    Val))) (ufunc1 Real.log)) exampleHeap = .ok (d, h') := ⟨_, _, rfl⟩

theorem C118_gamma_independent {h : Heap} {x_total x_prod n : Val} {prior : GammaProportional Val} (h_x_total : InHeap
    h x_total) (h_x_prod : InHeap h x_prod) (h_n : InHeap h n) (h_prior : Params.All (InHeap h) prior) :
    Independent h (build (gamma x_total.arg x_prod.arg n.arg (args prior))) (object (gamma (arr h x_total) (arr h
    x_prod) (arr h n) (contents h prior))) :=
  independent_of_rel (gamma_rel h_x_total h_x_prod h_n h_prior)

example : ∃ d h', build (gamma (Val.ref 0).arg (Val.ref 1).arg (Val.ref 2).arg (args ((⟨.ref 3, .ref 4, .ref 5, .ref
    6⟩ : GammaProportional Val)))) exampleHeap = .ok (d, h') := ⟨_, _, rfl⟩

theorem C118_gamma_known_rate_independent {h : Heap} {x_prod n beta : Val} {prior : GammaKnownRateProportional Val}
    (h_x_prod : InHeap h x_prod) (h_n : InHeap h n) (h_beta : InHeap h beta) (h_prior : Params.All (InHeap h) prior) :
    Independent h (build (gamma_known_rate x_prod.arg n.arg beta.arg (args prior))) (object (gamma_known_rate (arr h
    x_prod) (arr h n) (arr h beta) (contents h prior))) :=
  independent_of_rel (gamma_known_rate_rel h_x_prod h_n h_beta h_prior)

example : ∃ d h', build (gamma_known_rate (Val.ref 0).arg (Val.ref 1).arg (Val.ref 2).arg (args ((⟨.ref 3, .ref 4,
    .ref 5⟩ : GammaKnownRateProportional Val)))) exampleHeap = .ok (d, h') := ⟨_, _, rfl⟩

theorem C118_beta_independent {h : Heap} {x_prod one_minus_x_prod n : Val} {prior : BetaProportional Val} (h_x_prod :
    InHeap h x_prod) (h_one_minus_x_prod : InHeap h one_minus_x_prod) (h_n : InHeap h n) (h_prior : Params.All (InHeap
    h) prior) :
    Independent h (build (beta x_prod.arg one_minus_x_prod.arg n.arg (args prior))) (object (beta (arr h x_prod) (arr
    h one_minus_x_prod) (arr h n) (contents h prior))) :=
  independent_of_rel (beta_rel h_x_prod h_one_minus_x_prod h_n h_prior)

example : ∃ d h', build (beta (Val.ref 0).arg (Val.ref 1).arg (Val.ref 2).arg (args ((⟨.ref 3, .ref 4, .ref 5⟩ :
    BetaProportional Val)))) exampleHeap = .ok (d, h') := ⟨_, _, rfl⟩

theorem C118_von_mises_known_concentration_independent {h : Heap} {cos_total sin_total n kappa : Val} {prior :
    VonMisesKnownConcentration Val} {sin cos : ℝ → ℝ} {arctan2 : ℝ → ℝ → ℝ} (h_cos_total : InHeap h cos_total)
    (h_sin_total : InHeap h sin_total) (h_n : InHeap h n) (h_kappa : InHeap h kappa) (h_prior : Params.All (InHeap h)
    prior) :
    Independent h (build (von_mises_known_concentration cos_total.arg sin_total.arg n.arg kappa.arg (args prior)
    (ufunc1 sin) (ufunc1 cos) (ufunc2 arctan2))) (object (von_mises_known_concentration (arr h cos_total) (arr h
    sin_total) (arr h n) (arr h kappa) (contents h prior) (np1 sin) (np1 cos) (np2 arctan2))) :=
  independent_of_rel (von_mises_known_concentration_rel h_cos_total h_sin_total h_n h_kappa h_prior)

example : ∃ d h', build (von_mises_known_concentration (Val.ref 0).arg (Val.ref 1).arg (Val.ref 2).arg (Val.ref 3).arg
    (args ((⟨.ref 4, .ref 5⟩ : VonMisesKnownConcentration Val))) (ufunc1 Real.sin) (ufunc1 Real.cos) (ufunc2
    Scipy.arctan2)) exampleHeap = .ok (d, h') := ⟨_, _, rfl⟩

theorem C118_von_mises_known_direction_independent {h : Heap} {centered_cos_total n : Val} {prior :
    VonMisesKnownDirectionProportional Val} (h_centered_cos_total : InHeap h centered_cos_total) (h_n : InHeap h n)
    (h_prior : Params.All (InHeap h) prior) :
    Independent h (build (von_mises_known_direction centered_cos_total.arg n.arg (args prior))) (object
    (von_mises_known_direction (arr h centered_cos_total) (arr h n) (contents h prior))) :=
  independent_of_rel (von_mises_known_direction_rel h_centered_cos_total h_n h_prior)

example : ∃ d h', build (von_mises_known_direction (Val.ref 0).arg (Val.ref 1).arg (args ((⟨.ref 2, .ref 3⟩ :
    VonMisesKnownDirectionProportional Val)))) exampleHeap = .ok (d, h') := ⟨_, _, rfl⟩

theorem C118_weibull_inverse_gamma_known_shape_independent {h : Heap} {n x_beta_total : Val} {prior : InverseGamma
    Val} (h_n : InHeap h n) (h_x_beta_total : InHeap h x_beta_total) (h_prior : Params.All (InHeap h) prior) :
    Independent h (build (weibull_inverse_gamma_known_shape n.arg x_beta_total.arg (args prior))) (object
    (weibull_inverse_gamma_known_shape (arr h n) (arr h x_beta_total) (contents h prior))) :=
  independent_of_rel (weibull_inverse_gamma_known_shape_rel h_n h_x_beta_total h_prior)

example : ∃ d h', build (weibull_inverse_gamma_known_shape (Val.ref 0).arg (Val.ref 1).arg (args ((⟨.ref 2, .ref 3⟩ :
    InverseGamma Val)))) exampleHeap = .ok (d, h') := ⟨_, _, rfl⟩

theorem C118_poisson_gamma_predictive_independent {h : Heap} {n : Val} {prior : Gamma Val} (h_n : InHeap h n) (h_prior
    : Params.All (InHeap h) prior) :
    Independent h (build (poisson_gamma_predictive (args prior) n.arg)) (object (poisson_gamma_predictive (contents h
    prior) (arr h n))) :=
  independent_of_rel (poisson_gamma_predictive_rel h_n h_prior)

example : ∃ d h', build (poisson_gamma_predictive (args ((⟨.ref 1, .ref 2⟩ : Gamma Val))) (Val.ref 0).arg) exampleHeap
    = .ok (d, h') := ⟨_, _, rfl⟩

theorem C118_poisson_mul_independent {h : Heap} {other : Val} {prior : Poisson Val} (h_other : InHeap h other)
    (h_prior : Params.All (InHeap h) prior) :
    Independent h (build (Poisson.mul (args prior) other.arg)) (object (Poisson.mul (contents h prior) (arr h other)))
    :=
  independent_of_rel (Poisson.mul_rel h_other h_prior)

example : ∃ d h', build (Poisson.mul (args ((⟨.ref 1⟩ : Poisson Val))) (Val.ref 0).arg) exampleHeap = .ok (d, h') :=
    ⟨_, _, rfl⟩

theorem C118_normal_mul_independent {h : Heap} {other : Val} {prior : Normal Val} (h_other : InHeap h other) (h_prior
    : Params.All (InHeap h) prior) :
    Independent h (build (Normal.mul (args prior) other.arg)) (object (Normal.mul (contents h prior) (arr h other)))
    :=
  independent_of_rel (Normal.mul_rel h_other h_prior)

example : ∃ d h', build (Normal.mul (args ((⟨.ref 1, .ref 2⟩ : Normal Val))) (Val.ref 0).arg) exampleHeap = .ok (d,
    h') := ⟨_, _, rfl⟩

theorem C118_binomial_beta_predictive_harmless_partial {h : Heap} {n : Val} {prior : Beta Val} (h_n : InHeap h n)
    (h_prior : Params.All (InHeap h) prior) :
    Harmless h (build (binomial_beta_predictive n.arg (args prior))) (object (binomial_beta_predictive (arr h n)
    (contents h prior))) :=
  harmless_of_rel (binomial_beta_predictive_rel h_n h_prior)

example : ∃ d h', build (binomial_beta_predictive (Val.ref 0).arg (args ((⟨.ref 1, .ref 2⟩ : Beta Val)))) exampleHeap
    = .ok (d, h') := ⟨_, _, rfl⟩

theorem C118_binomial_beta_predictive_shares {h h' : Heap} {n : Val} {prior : Beta Val} {d : BetaBinomial Val} (e :
    build (binomial_beta_predictive n.arg (args prior)) h = .ok (d, h')) :
    Tied h' d.n n ∧ Tied h' d.alpha prior.alpha ∧ Tied h' d.beta prior.beta := by
  cases e
  exact ⟨tied_self _ _, tied_self _ _, tied_self _ _⟩

theorem C118_bernoulli_beta_predictive_harmless_partial {h : Heap} {prior : Beta Val} (h_prior : Params.All (InHeap h)
    prior) :
    Harmless h (build (bernoulli_beta_predictive (args prior))) (object (bernoulli_beta_predictive (contents h
    prior))) :=
  harmless_of_rel (bernoulli_beta_predictive_rel h_prior)

example : ∃ d h', build (bernoulli_beta_predictive (args ((⟨.ref 0, .ref 1⟩ : Beta Val)))) exampleHeap = .ok (d, h')
    := ⟨_, _, rfl⟩

theorem C118_bernoulli_beta_predictive_shares {h h' : Heap} {prior : Beta Val} {d : BetaBinomial Val} (e : build
    (bernoulli_beta_predictive (args prior)) h = .ok (d, h')) :
    Tied h' d.alpha prior.alpha ∧ Tied h' d.beta prior.beta := by
  cases e
  exact ⟨tied_self _ _, tied_self _ _⟩

theorem C118_negative_binomial_beta_predictive_harmless_partial {h : Heap} {r : Val} {prior : Beta Val} (h_r : InHeap
    h r) (h_prior : Params.All (InHeap h) prior) :
    Harmless h (build (negative_binomial_beta_predictive r.arg (args prior))) (object
    (negative_binomial_beta_predictive (arr h r) (contents h prior))) :=
  harmless_of_rel (negative_binomial_beta_predictive_rel h_r h_prior)

example : ∃ d h', build (negative_binomial_beta_predictive (Val.ref 0).arg (args ((⟨.ref 1, .ref 2⟩ : Beta Val))))
    exampleHeap = .ok (d, h') := ⟨_, _, rfl⟩

theorem C118_negative_binomial_beta_predictive_shares {h h' : Heap} {r : Val} {prior : Beta Val} {d :
    BetaNegativeBinomial Val} (e : build (negative_binomial_beta_predictive r.arg (args prior)) h = .ok (d, h')) :
    Tied h' d.n r ∧ Tied h' d.alpha prior.alpha ∧ Tied h' d.beta prior.beta := by
  cases e
  exact ⟨tied_self _ _, tied_self _ _, tied_self _ _⟩

theorem C118_geometric_beta_predictive_harmless_partial {h : Heap} {prior : Beta Val} {one_start : Bool} (h_prior :
    Params.All (InHeap h) prior) :
    Harmless h (build (geometric_beta_predictive (args prior) one_start)) (object (geometric_beta_predictive (contents
    h prior) one_start)) :=
  harmless_of_rel (geometric_beta_predictive_rel h_prior)

example : ∃ d h', build (geometric_beta_predictive (args ((⟨.ref 0, .ref 1⟩ : Beta Val))) true) exampleHeap = .ok (d,
    h') := ⟨_, _, rfl⟩

theorem C118_geometric_beta_predictive_shares {h h' : Heap} {prior : Beta Val} {one_start : Bool} {d : BetaGeometric
    Val} (e : build (geometric_beta_predictive (args prior) one_start) h = .ok (d, h')) :
    Tied h' d.alpha prior.alpha ∧ Tied h' d.beta prior.beta := by
  cases e
  exact ⟨tied_self _ _, tied_self _ _⟩

theorem C118_hypergeometric_beta_binomial_harmless_partial {h : Heap} {x_total n : Val} {prior : BetaBinomial Val}
    (h_x_total : InHeap h x_total) (h_n : InHeap h n) (h_prior : Params.All (InHeap h) prior) :
    Harmless h (build (hypergeometric_beta_binomial x_total.arg n.arg (args prior))) (object
    (hypergeometric_beta_binomial (arr h x_total) (arr h n) (contents h prior))) :=
  harmless_of_rel (hypergeometric_beta_binomial_rel h_x_total h_n h_prior)

example : ∃ d h', build (hypergeometric_beta_binomial (Val.ref 0).arg (Val.ref 1).arg (args ((⟨.ref 2, .ref 3, .ref 4⟩
    : BetaBinomial Val)))) exampleHeap = .ok (d, h') := ⟨_, _, rfl⟩

theorem C118_hypergeometric_beta_binomial_shares {h h' : Heap} {x_total n : Val} {prior : BetaBinomial Val} {d :
    BetaBinomial Val} (e : build (hypergeometric_beta_binomial x_total.arg n.arg (args prior)) h = .ok (d, h')) :
    Tied h' d.n prior.n := by
  obtain ⟨v, h1, e1, e⟩ := bind_inv (show (Bind.bind (m := Py) _ _) _ = _ from e)
  cases e1
  obtain ⟨v, h1, e1, e⟩ := bind_inv (show (Bind.bind (m := Py) _ _) _ = _ from e)
  obtain ⟨v, h1, e1, e⟩ := bind_inv (show (Bind.bind (m := Py) _ _) _ = _ from e)
  cases e
  exact tied_self _ _

theorem C118_exponential_gamma_predictive_harmless_partial {h : Heap} {prior : Gamma Val} (h_prior : Params.All
    (InHeap h) prior) :
    Harmless h (build (exponential_gamma_predictive (args prior))) (object (exponential_gamma_predictive (contents h
    prior))) :=
  harmless_of_rel (exponential_gamma_predictive_rel h_prior)

example : ∃ d h', build (exponential_gamma_predictive (args ((⟨.ref 0, .ref 1⟩ : Gamma Val)))) exampleHeap = .ok (d,
    h') := ⟨_, _, rfl⟩

theorem C118_exponential_gamma_predictive_shares {h h' : Heap} {prior : Gamma Val} {d : Lomax Val} (e : build
    (exponential_gamma_predictive (args prior)) h = .ok (d, h')) :
    Tied h' d.alpha prior.beta ∧ Tied h' d.lam prior.alpha := by
  cases e
  exact ⟨tied_self _ _, tied_self _ _⟩

theorem C118_gamma_known_shape_predictive_harmless_partial {h : Heap} {alpha : Val} {prior : Gamma Val} (h_alpha :
    InHeap h alpha) (h_prior : Params.All (InHeap h) prior) :
    Harmless h (build (gamma_known_shape_predictive (args prior) alpha.arg)) (object (gamma_known_shape_predictive
    (contents h prior) (arr h alpha))) :=
  harmless_of_rel (gamma_known_shape_predictive_rel h_alpha h_prior)

example : ∃ d h', build (gamma_known_shape_predictive (args ((⟨.ref 1, .ref 2⟩ : Gamma Val))) (Val.ref 0).arg)
    exampleHeap = .ok (d, h') := ⟨_, _, rfl⟩

theorem C118_gamma_known_shape_predictive_shares {h h' : Heap} {alpha : Val} {prior : Gamma Val} {d : CompoundGamma
    Val} (e : build (gamma_known_shape_predictive (args prior) alpha.arg) h = .ok (d, h')) :
    Tied h' d.alpha alpha ∧ Tied h' d.beta prior.alpha ∧ Tied h' d.lam prior.beta := by
  cases e
  exact ⟨tied_self _ _, tied_self _ _, tied_self _ _⟩

theorem C118_normal_known_variance_predictive_harmless_partial {h : Heap} {var : Val} {prior : Normal Val} (h_var :
    InHeap h var) (h_prior : Params.All (InHeap h) prior) :
    Harmless h (build (normal_known_variance_predictive var.arg (args prior))) (object
    (normal_known_variance_predictive (arr h var) (contents h prior))) :=
  harmless_of_rel (normal_known_variance_predictive_rel h_var h_prior)

example : ∃ d h', build (normal_known_variance_predictive (Val.ref 0).arg (args ((⟨.ref 1, .ref 2⟩ : Normal Val))))
    exampleHeap = .ok (d, h') := ⟨_, _, rfl⟩

theorem C118_normal_known_variance_predictive_shares {h h' : Heap} {var : Val} {prior : Normal Val} {d : Normal Val}
    (e : build (normal_known_variance_predictive var.arg (args prior)) h = .ok (d, h')) :
    Tied h' d.mu prior.mu := by
  obtain ⟨v, h1, e1, e⟩ := bind_inv (show (Bind.bind (m := Py) _ _) _ = _ from e)
  cases e1
  obtain ⟨v, h1, e1, e⟩ := bind_inv (show (Bind.bind (m := Py) _ _) _ = _ from e)
  cases e
  exact tied_self _ _

theorem C118_normal_known_precision_predictive_harmless_partial {h : Heap} {precision : Val} {prior : Normal Val}
    (h_precision : InHeap h precision) (h_prior : Params.All (InHeap h) prior) :
    Harmless h (build (normal_known_precision_predictive precision.arg (args prior))) (object
    (normal_known_precision_predictive (arr h precision) (contents h prior))) :=
  harmless_of_rel (normal_known_precision_predictive_rel h_precision h_prior)

example : ∃ d h', build (normal_known_precision_predictive (Val.ref 0).arg (args ((⟨.ref 1, .ref 2⟩ : Normal Val))))
    exampleHeap = .ok (d, h') := ⟨_, _, rfl⟩

theorem C118_normal_known_precision_predictive_shares {h h' : Heap} {precision : Val} {prior : Normal Val} {d : Normal
    Val} (e : build (normal_known_precision_predictive precision.arg (args prior)) h = .ok (d, h')) :
    Tied h' d.mu prior.mu := by
  obtain ⟨v, h1, e1, e⟩ := bind_inv (show (Bind.bind (m := Py) _ _) _ = _ from e)
  cases e1
  obtain ⟨v, h1, e1, e⟩ := bind_inv (show (Bind.bind (m := Py) _ _) _ = _ from e)
  cases e
  exact tied_self _ _

theorem C118_normal_known_mean_predictive_harmless_partial {h : Heap} {mu : Val} {prior : VariancePrior Val} (h_mu :
    InHeap h mu) (h_prior : Params.All (InHeap h) prior) :
    Harmless h (build (normal_known_mean_predictive mu.arg (args prior))) (object (normal_known_mean_predictive (arr h
    mu) (contents h prior))) :=
  harmless_of_rel (normal_known_mean_predictive_rel h_mu h_prior)

example : ∃ d h', build (normal_known_mean_predictive (Val.ref 0).arg (args (((.inverseGamma ⟨.ref 1, .ref 2⟩) :
    VariancePrior Val)))) exampleHeap = .ok (d, h') := ⟨_, _, rfl⟩

theorem C118_normal_known_mean_predictive_shares {h h' : Heap} {mu : Val} {prior : VariancePrior Val} {d : StudentT
    Val} (e : build (normal_known_mean_predictive mu.arg (args prior)) h = .ok (d, h')) :
    Tied h' d.mu mu := by
  cases prior
  all_goals
    obtain ⟨v, h1, e1, e⟩ := bind_inv (show (Bind.bind (m := Py) _ _) _ = _ from e)
    cases e1
    obtain ⟨v, h1, e1, e⟩ := bind_inv (show (Bind.bind (m := Py) _ _) _ = _ from e)
    obtain ⟨v, h1, e1, e⟩ := bind_inv (show (Bind.bind (m := Py) _ _) _ = _ from e)
    cases e
    exact tied_self _ _

theorem C118_gamma_mul_harmless_partial {h : Heap} {other : Val} {prior : Gamma Val} (h_other : InHeap h other)
    (h_prior : Params.All (InHeap h) prior) :
    Harmless h (build (Gamma.mul (args prior) other.arg)) (object (Gamma.mul (contents h prior) (arr h other))) :=
  harmless_of_rel (Gamma.mul_rel h_other h_prior)

example : ∃ d h', build (Gamma.mul (args ((⟨.ref 1, .ref 2⟩ : Gamma Val))) (Val.ref 0).arg) exampleHeap = .ok (d, h')
    := ⟨_, _, rfl⟩

theorem C118_gamma_mul_shares {h h' : Heap} {other : Val} {prior : Gamma Val} {d : Gamma Val} (e : build (Gamma.mul
    (args prior) other.arg) h = .ok (d, h')) :
    Tied h' d.beta prior.beta := by
  obtain ⟨v, h1, e1, e⟩ := bind_inv (show (Bind.bind (m := Py) _ _) _ = _ from e)
  obtain ⟨v, h1, e1, e⟩ := bind_inv (show (Bind.bind (m := Py) _ _) _ = _ from e)
  cases e1
  cases e
  exact tied_self _ _

theorem C118_negative_binomial_mul_harmless_partial {h : Heap} {other : Val} {prior : NegativeBinomial Val} (h_other :
    InHeap h other) (h_prior : Params.All (InHeap h) prior) :
    Harmless h (build (NegativeBinomial.mul (args prior) other.arg)) (object (NegativeBinomial.mul (contents h prior)
    (arr h other))) :=
  harmless_of_rel (NegativeBinomial.mul_rel h_other h_prior)

example : ∃ d h', build (NegativeBinomial.mul (args ((⟨.ref 1, .ref 2⟩ : NegativeBinomial Val))) (Val.ref 0).arg)
    exampleHeap = .ok (d, h') := ⟨_, _, rfl⟩

theorem C118_negative_binomial_mul_shares {h h' : Heap} {other : Val} {prior : NegativeBinomial Val} {d :
    NegativeBinomial Val} (e : build (NegativeBinomial.mul (args prior) other.arg) h = .ok (d, h')) :
    Tied h' d.p prior.p := by
  obtain ⟨v, h1, e1, e⟩ := bind_inv (show (Bind.bind (m := Py) _ _) _ = _ from e)
  obtain ⟨v, h1, e1, e⟩ := bind_inv (show (Bind.bind (m := Py) _ _) _ = _ from e)
  cases e1
  cases e
  exact tied_self _ _

theorem C118_binomial_beta_history {h : Heap} {batches : List (Fin 2 → Val)} {prior : Beta Val} (h_batches : ∀ b ∈
    batches, ∀ i, InHeap h (b i)) (h_prior : Params.All (InHeap h) prior) :
    HistoryKept h (posteriors (fun b d => build (binomial_beta (b 0).arg (b 1).arg (args d))) batches prior)
      (posteriors (fun b d => object (binomial_beta (.ok (b 0)) (.ok (b 1)) (exprs d))) (batches.map fun b i => h.read
      (b i)) (fmap h.read prior)) := by
  refine history_kept (history_outcome batch_read ?_ batches h prior h_batches h_prior)
  intro h b d hb hd
  rw [exprs_read]
  exact LawfulTrav.seq_outcome (binomial_beta_rel (hb 0) (hb 1) hd)

theorem C118_bernoulli_beta_history {h : Heap} {batches : List (Fin 1 → Val)} {prior : Beta Val} (h_batches : ∀ b ∈
    batches, ∀ i, InHeap h (b i)) (h_prior : Params.All (InHeap h) prior) :
    HistoryKept h (posteriors (fun b d => build (bernoulli_beta (b 0).arg (args d))) batches prior) (posteriors (fun b
      d => object (bernoulli_beta (.ok (b 0)) (exprs d))) (batches.map fun b i => h.read (b i)) (fmap h.read prior))
      := by
  refine history_kept (history_outcome batch_read ?_ batches h prior h_batches h_prior)
  intro h b d hb hd
  rw [exprs_read]
  exact LawfulTrav.seq_outcome (bernoulli_beta_rel (hb 0) hd)

theorem C118_negative_binomial_beta_history {h : Heap} {batches : List (Fin 3 → Val)} {prior : Beta Val} (h_batches :
    ∀ b ∈ batches, ∀ i, InHeap h (b i)) (h_prior : Params.All (InHeap h) prior) :
    HistoryKept h (posteriors (fun b d => build (negative_binomial_beta (b 0).arg (b 1).arg (b 2).arg (args d)))
      batches prior) (posteriors (fun b d => object (negative_binomial_beta (.ok (b 0)) (.ok (b 1)) (.ok (b 2)) (exprs
      d))) (batches.map fun b i => h.read (b i)) (fmap h.read prior)) := by
  refine history_kept (history_outcome batch_read ?_ batches h prior h_batches h_prior)
  intro h b d hb hd
  rw [exprs_read]
  exact LawfulTrav.seq_outcome (negative_binomial_beta_rel (hb 0) (hb 1) (hb 2) hd)

theorem C118_geometric_beta_history {h : Heap} {batches : List (Fin 2 → Val)} {prior : Beta Val} {one_start : Bool}
    (h_batches : ∀ b ∈ batches, ∀ i, InHeap h (b i)) (h_prior : Params.All (InHeap h) prior) :
    HistoryKept h (posteriors (fun b d => build (geometric_beta (b 0).arg (b 1).arg (args d) one_start)) batches
      prior) (posteriors (fun b d => object (geometric_beta (.ok (b 0)) (.ok (b 1)) (exprs d) one_start)) (batches.map
      fun b i => h.read (b i)) (fmap h.read prior)) := by
  refine history_kept (history_outcome batch_read ?_ batches h prior h_batches h_prior)
  intro h b d hb hd
  rw [exprs_read]
  exact LawfulTrav.seq_outcome (geometric_beta_rel (hb 0) (hb 1) hd)

theorem C118_poisson_gamma_history {h : Heap} {batches : List (Fin 2 → Val)} {prior : Gamma Val} (h_batches : ∀ b ∈
    batches, ∀ i, InHeap h (b i)) (h_prior : Params.All (InHeap h) prior) :
    HistoryKept h (posteriors (fun b d => build (poisson_gamma (b 0).arg (b 1).arg (args d))) batches prior)
      (posteriors (fun b d => object (poisson_gamma (.ok (b 0)) (.ok (b 1)) (exprs d))) (batches.map fun b i => h.read
      (b i)) (fmap h.read prior)) := by
  refine history_kept (history_outcome batch_read ?_ batches h prior h_batches h_prior)
  intro h b d hb hd
  rw [exprs_read]
  exact LawfulTrav.seq_outcome (poisson_gamma_rel (hb 0) (hb 1) hd)

theorem C118_exponential_gamma_history {h : Heap} {batches : List (Fin 2 → Val)} {prior : Gamma Val} (h_batches : ∀ b
    ∈ batches, ∀ i, InHeap h (b i)) (h_prior : Params.All (InHeap h) prior) :
    HistoryKept h (posteriors (fun b d => build (exponential_gamma (b 0).arg (b 1).arg (args d))) batches prior)
      (posteriors (fun b d => object (exponential_gamma (.ok (b 0)) (.ok (b 1)) (exprs d))) (batches.map fun b i =>
      h.read (b i)) (fmap h.read prior)) := by
  refine history_kept (history_outcome batch_read ?_ batches h prior h_batches h_prior)
  intro h b d hb hd
  rw [exprs_read]
  exact LawfulTrav.seq_outcome (exponential_gamma_rel (hb 0) (hb 1) hd)

theorem C118_gamma_known_shape_history {h : Heap} {batches : List (Fin 3 → Val)} {prior : Gamma Val} (h_batches : ∀ b
    ∈ batches, ∀ i, InHeap h (b i)) (h_prior : Params.All (InHeap h) prior) :
    HistoryKept h (posteriors (fun b d => build (gamma_known_shape (b 0).arg (b 1).arg (b 2).arg (args d))) batches
      prior) (posteriors (fun b d => object (gamma_known_shape (.ok (b 0)) (.ok (b 1)) (.ok (b 2)) (exprs d)))
      (batches.map fun b i => h.read (b i)) (fmap h.read prior)) := by
  refine history_kept (history_outcome batch_read ?_ batches h prior h_batches h_prior)
  intro h b d hb hd
  rw [exprs_read]
  exact LawfulTrav.seq_outcome (gamma_known_shape_rel (hb 0) (hb 1) (hb 2) hd)

theorem C118_inverse_gamma_known_rate_history {h : Heap} {batches : List (Fin 3 → Val)} {prior : Gamma Val} (h_batches
    : ∀ b ∈ batches, ∀ i, InHeap h (b i)) (h_prior : Params.All (InHeap h) prior) :
    HistoryKept h (posteriors (fun b d => build (inverse_gamma_known_rate (b 0).arg (b 1).arg (b 2).arg (args d)))
      batches prior) (posteriors (fun b d => object (inverse_gamma_known_rate (.ok (b 0)) (.ok (b 1)) (.ok (b 2))
      (exprs d))) (batches.map fun b i => h.read (b i)) (fmap h.read prior)) := by
  refine history_kept (history_outcome batch_read ?_ batches h prior h_batches h_prior)
  intro h b d hb hd
  rw [exprs_read]
  exact LawfulTrav.seq_outcome (inverse_gamma_known_rate_rel (hb 0) (hb 1) (hb 2) hd)

theorem C118_normal_known_variance_history {h : Heap} {batches : List (Fin 3 → Val)} {prior : Normal Val} (h_batches :
    ∀ b ∈ batches, ∀ i, InHeap h (b i)) (h_prior : Params.All (InHeap h) prior) :
    HistoryKept h (posteriors (fun b d => build (normal_known_variance (b 0).arg (b 1).arg (b 2).arg (args d)))
      batches prior) (posteriors (fun b d => object (normal_known_variance (.ok (b 0)) (.ok (b 1)) (.ok (b 2)) (exprs
      d))) (batches.map fun b i => h.read (b i)) (fmap h.read prior)) := by
  refine history_kept (history_outcome batch_read ?_ batches h prior h_batches h_prior)
  intro h b d hb hd
  rw [exprs_read]
  exact LawfulTrav.seq_outcome (normal_known_variance_rel (hb 0) (hb 1) (hb 2) hd)

theorem C118_normal_known_precision_history {h : Heap} {batches : List (Fin 3 → Val)} {prior : Normal Val} (h_batches
    : ∀ b ∈ batches, ∀ i, InHeap h (b i)) (h_prior : Params.All (InHeap h) prior) :
    HistoryKept h (posteriors (fun b d => build (normal_known_precision (b 0).arg (b 1).arg (b 2).arg (args d)))
      batches prior) (posteriors (fun b d => object (normal_known_precision (.ok (b 0)) (.ok (b 1)) (.ok (b 2)) (exprs
      d))) (batches.map fun b i => h.read (b i)) (fmap h.read prior)) := by
  refine history_kept (history_outcome batch_read ?_ batches h prior h_batches h_prior)
  intro h b d hb hd
  rw [exprs_read]
  exact LawfulTrav.seq_outcome (normal_known_precision_rel (hb 0) (hb 1) (hb 2) hd)

theorem C118_normal_known_mean_history {h : Heap} {batches : List (Fin 4 → Val)} {prior : VariancePrior Val}
    (h_batches : ∀ b ∈ batches, ∀ i, InHeap h (b i)) (h_prior : Params.All (InHeap h) prior) :
    HistoryKept h (posteriors (fun b d => build (normal_known_mean (b 0).arg (b 1).arg (b 2).arg (b 3).arg (args d)))
      batches prior) (posteriors (fun b d => object (normal_known_mean (.ok (b 0)) (.ok (b 1)) (.ok (b 2)) (.ok (b 3))
      (exprs d))) (batches.map fun b i => h.read (b i)) (fmap h.read prior)) := by
  refine history_kept (history_outcome batch_read ?_ batches h prior h_batches h_prior)
  intro h b d hb hd
  rw [exprs_read]
  exact LawfulTrav.seq_outcome (normal_known_mean_rel (hb 0) (hb 1) (hb 2) (hb 3) hd)

theorem C118_uniform_pareto_history {h : Heap} {batches : List (Fin 2 → Val)} {prior : Pareto Val} {max_fn : ℝ → ℝ →
    ℝ} (h_batches : ∀ b ∈ batches, ∀ i, InHeap h (b i)) (h_prior : Params.All (InHeap h) prior) :
    HistoryKept h (posteriors (fun b d => build (uniform_pareto (b 0).arg (b 1).arg (args d) (ufunc2 max_fn))) batches
      prior) (posteriors (fun b d => object (uniform_pareto (.ok (b 0)) (.ok (b 1)) (exprs d) (np2 max_fn)))
      (batches.map fun b i => h.read (b i)) (fmap h.read prior)) := by
  refine history_kept (history_outcome batch_read ?_ batches h prior h_batches h_prior)
  intro h b d hb hd
  rw [exprs_read]
  exact LawfulTrav.seq_outcome (uniform_pareto_rel (hb 0) (hb 1) hd)

theorem C118_pareto_gamma_history {h : Heap} {batches : List (Fin 3 → Val)} {prior : Gamma Val} {ln : ℝ → ℝ}
    (h_batches : ∀ b ∈ batches, ∀ i, InHeap h (b i)) (h_prior : Params.All (InHeap h) prior) :
    HistoryKept h (posteriors (fun b d => build (pareto_gamma (b 0).arg (b 1).arg (b 2).arg (args d) (ufunc1 ln)))
      batches prior) (posteriors (fun b d => object (pareto_gamma (.ok (b 0)) (.ok (b 1)) (.ok (b 2)) (exprs d) (np1
      ln))) (batches.map fun b i => h.read (b i)) (fmap h.read prior)) := by
  refine history_kept (history_outcome batch_read ?_ batches h prior h_batches h_prior)
  intro h b d hb hd
  rw [exprs_read]
  exact LawfulTrav.seq_outcome (pareto_gamma_rel (hb 0) (hb 1) (hb 2) hd)

theorem C118_gamma_history {h : Heap} {batches : List (Fin 3 → Val)} {prior : GammaProportional Val} (h_batches : ∀ b
    ∈ batches, ∀ i, InHeap h (b i)) (h_prior : Params.All (InHeap h) prior) :
    HistoryKept h (posteriors (fun b d => build (gamma (b 0).arg (b 1).arg (b 2).arg (args d))) batches prior)
      (posteriors (fun b d => object (gamma (.ok (b 0)) (.ok (b 1)) (.ok (b 2)) (exprs d))) (batches.map fun b i =>
      h.read (b i)) (fmap h.read prior)) := by
  refine history_kept (history_outcome batch_read ?_ batches h prior h_batches h_prior)
  intro h b d hb hd
  rw [exprs_read]
  exact LawfulTrav.seq_outcome (gamma_rel (hb 0) (hb 1) (hb 2) hd)

theorem C118_gamma_known_rate_history {h : Heap} {batches : List (Fin 3 → Val)} {prior : GammaKnownRateProportional
    Val} (h_batches : ∀ b ∈ batches, ∀ i, InHeap h (b i)) (h_prior : Params.All (InHeap h) prior) :
    HistoryKept h (posteriors (fun b d => build (gamma_known_rate (b 0).arg (b 1).arg (b 2).arg (args d))) batches
      prior) (posteriors (fun b d => object (gamma_known_rate (.ok (b 0)) (.ok (b 1)) (.ok (b 2)) (exprs d)))
      (batches.map fun b i => h.read (b i)) (fmap h.read prior)) := by
  refine history_kept (history_outcome batch_read ?_ batches h prior h_batches h_prior)
  intro h b d hb hd
  rw [exprs_read]
  exact LawfulTrav.seq_outcome (gamma_known_rate_rel (hb 0) (hb 1) (hb 2) hd)

theorem C118_beta_history {h : Heap} {batches : List (Fin 3 → Val)} {prior : BetaProportional Val} (h_batches : ∀ b ∈
    batches, ∀ i, InHeap h (b i)) (h_prior : Params.All (InHeap h) prior) :
    HistoryKept h (posteriors (fun b d => build (beta (b 0).arg (b 1).arg (b 2).arg (args d))) batches prior)
      (posteriors (fun b d => object (beta (.ok (b 0)) (.ok (b 1)) (.ok (b 2)) (exprs d))) (batches.map fun b i =>
      h.read (b i)) (fmap h.read prior)) := by
  refine history_kept (history_outcome batch_read ?_ batches h prior h_batches h_prior)
  intro h b d hb hd
  rw [exprs_read]
  exact LawfulTrav.seq_outcome (beta_rel (hb 0) (hb 1) (hb 2) hd)

theorem C118_von_mises_known_concentration_history {h : Heap} {batches : List (Fin 4 → Val)} {prior :
    VonMisesKnownConcentration Val} {sin cos : ℝ → ℝ} {arctan2 : ℝ → ℝ → ℝ} (h_batches : ∀ b ∈ batches, ∀ i, InHeap h
    (b i)) (h_prior : Params.All (InHeap h) prior) :
    HistoryKept h (posteriors (fun b d => build (von_mises_known_concentration (b 0).arg (b 1).arg (b 2).arg (b 3).arg
      (args d) (ufunc1 sin) (ufunc1 cos) (ufunc2 arctan2))) batches prior) (posteriors (fun b d => object
      (von_mises_known_concentration (.ok (b 0)) (.ok (b 1)) (.ok (b 2)) (.ok (b 3)) (exprs d) (np1 sin) (np1 cos)
      (np2 arctan2))) (batches.map fun b i => h.read (b i)) (fmap h.read prior)) := by
  refine history_kept (history_outcome batch_read ?_ batches h prior h_batches h_prior)
  intro h b d hb hd
  rw [exprs_read]
  exact LawfulTrav.seq_outcome (von_mises_known_concentration_rel (hb 0) (hb 1) (hb 2) (hb 3) hd)

theorem C118_von_mises_known_direction_history {h : Heap} {batches : List (Fin 2 → Val)} {prior :
    VonMisesKnownDirectionProportional Val} (h_batches : ∀ b ∈ batches, ∀ i, InHeap h (b i)) (h_prior : Params.All
    (InHeap h) prior) :
    HistoryKept h (posteriors (fun b d => build (von_mises_known_direction (b 0).arg (b 1).arg (args d))) batches
      prior) (posteriors (fun b d => object (von_mises_known_direction (.ok (b 0)) (.ok (b 1)) (exprs d)))
      (batches.map fun b i => h.read (b i)) (fmap h.read prior)) := by
  refine history_kept (history_outcome batch_read ?_ batches h prior h_batches h_prior)
  intro h b d hb hd
  rw [exprs_read]
  exact LawfulTrav.seq_outcome (von_mises_known_direction_rel (hb 0) (hb 1) hd)

theorem C118_weibull_inverse_gamma_known_shape_history {h : Heap} {batches : List (Fin 2 → Val)} {prior : InverseGamma
    Val} (h_batches : ∀ b ∈ batches, ∀ i, InHeap h (b i)) (h_prior : Params.All (InHeap h) prior) :
    HistoryKept h (posteriors (fun b d => build (weibull_inverse_gamma_known_shape (b 0).arg (b 1).arg (args d)))
      batches prior) (posteriors (fun b d => object (weibull_inverse_gamma_known_shape (.ok (b 0)) (.ok (b 1)) (exprs
      d))) (batches.map fun b i => h.read (b i)) (fmap h.read prior)) := by
  refine history_kept (history_outcome batch_read ?_ batches h prior h_batches h_prior)
  intro h b d hb hd
  rw [exprs_read]
  exact LawfulTrav.seq_outcome (weibull_inverse_gamma_known_shape_rel (hb 0) (hb 1) hd)

theorem C118_poisson_add_independent {h : Heap} {self other : Poisson Val} (h_self : Params.All (InHeap h) self)
    (h_other : Params.All (InHeap h) other) :
    Independent h (build (Poisson.add (args self) (args other)))
      (object (Poisson.add (contents h self) (contents h other))) :=
  independent_of_rel (Poisson.add_rel h_self h_other)

example : ∃ d h', build (Poisson.add (args ((⟨.ref 0⟩ : Poisson Val))) (args ((⟨.ref 1⟩ : Poisson Val)))) exampleHeap =
    .ok (d, h') := ⟨_, _, rfl⟩

section normal
variable {M : Type} {h : Heap}


theorem C118_normal_independent {x_total x2_total n : Val} {prior : UnivariateNormalPrior M Val}
    (h_x_total : InHeap h x_total) (h_x2_total : InHeap h x2_total) (h_n : InHeap h n)
    (h_prior : Params.All (InHeap h) prior) :
    Independent (D := UnivariateNormalPrior M) h
      (buildOrRaise (normal x_total.arg x2_total.arg n.arg (args (D := UnivariateNormalPrior M) prior)))
      (normal (arr h x_total) (arr h x2_total) (arr h n) (contents (D := UnivariateNormalPrior M) h prior) >>=
        object (D := UnivariateNormalPrior M)) :=
  have g := good_orRaise (D := UnivariateNormalPrior M) (normal_rel h_x_total h_x2_total h_n h_prior)
  ⟨g.harmless, g.sharesNothing⟩

theorem C118_log_normal_independent {ln_x_total ln_x2_total n : Val} {prior : UnivariateNormalPrior M Val}
    (h_x_total : InHeap h ln_x_total) (h_x2_total : InHeap h ln_x2_total) (h_n : InHeap h n)
    (h_prior : Params.All (InHeap h) prior) :
    Independent (D := UnivariateNormalPrior M) h
      (buildOrRaise (log_normal ln_x_total.arg ln_x2_total.arg n.arg (args (D := UnivariateNormalPrior M) prior)))
      (log_normal (arr h ln_x_total) (arr h ln_x2_total) (arr h n) (contents (D := UnivariateNormalPrior M) h prior) >>=
        object (D := UnivariateNormalPrior M)) :=
  C118_normal_independent h_x_total h_x2_total h_n h_prior

example : ∃ d h', buildOrRaise (D := UnivariateNormalPrior Unit) (normal (Val.ref 0).arg (Val.ref 1).arg (Val.ref 2).arg
    (args (D := UnivariateNormalPrior Unit) (.nig ⟨.ref 3, .ref 4, .ref 5, none, some (.ref 6)⟩))) exampleHeap =
    .ok (d, h') := ⟨_, _, rfl⟩

example : ∃ d h', buildOrRaise (D := UnivariateNormalPrior Unit) (log_normal (Val.ref 0).arg (Val.ref 1).arg (Val.ref 2).arg
    (args (D := UnivariateNormalPrior Unit) (.ng ⟨.ref 3, .ref 4, .ref 5, .ref 6⟩))) exampleHeap = .ok (d, h') :=
  ⟨_, _, rfl⟩

theorem C118_normal_history {batches : List (Fin 3 → Val)} {prior : UnivariateNormalPrior M Val}
    (h_batches : ∀ b ∈ batches, ∀ i, InHeap h (b i)) (h_prior : Params.All (InHeap h) prior) :
    HistoryKept (D := UnivariateNormalPrior M) h
      (posteriors (D := UnivariateNormalPrior M Val) (fun b d =>
        buildOrRaise (normal (b 0).arg (b 1).arg (b 2).arg (args (D := UnivariateNormalPrior M) d))) batches prior)
      (posteriors (D := UnivariateNormalPrior M (NdArr ℝ)) (fun b d =>
        normal (.ok (b 0)) (.ok (b 1)) (.ok (b 2)) (exprs (D := UnivariateNormalPrior M) d) >>=
          object (D := UnivariateNormalPrior M))
        (batches.map fun b i => h.read (b i)) (fmap (D := UnivariateNormalPrior M) h.read prior)) :=
  history_kept (D := UnivariateNormalPrior M) (history_outcome (D := UnivariateNormalPrior M) batch_read
    (fun h b d hb hd => by
      rw [exprs_read]
      exact good_orRaise (D := UnivariateNormalPrior M) (normal_rel (hb 0) (hb 1) (hb 2) hd))
    batches h prior h_batches h_prior)

theorem C118_normal_predictive_harmless_partial {prior : UnivariateNormalPrior M Val} (h_prior : Params.All (InHeap h) prior) :
    Harmless h (buildOrRaise (normal_predictive (args (D := UnivariateNormalPrior M) prior)))
      (normal_predictive (contents (D := UnivariateNormalPrior M) h prior) >>= object) :=
  (good_orRaise (normal_predictive_rel h_prior)).harmless

/-- the location of the prior -/
def normalPriorMu : UnivariateNormalPrior M Val → Val
  | .nig d => d.mu
  | .ng d => d.mu

theorem C118_normal_predictive_shares {h' : Heap} {prior : UnivariateNormalPrior M Val} {d : StudentT Val}
    (e : buildOrRaise (normal_predictive (args (D := UnivariateNormalPrior M) prior)) h = .ok (d, h')) :
    Tied h' d.mu (normalPriorMu prior) := by
  cases prior with
  | nig p =>
    obtain ⟨mu, al, be, de, nu⟩ := p
    cases nu with
    | none => cases e
    | some nu =>
      obtain ⟨v, h1, e1, e⟩ := bind_inv (show (Bind.bind (m := Py) _ _) _ = _ from e)
      cases e1
      obtain ⟨v, h1, e1, e⟩ := bind_inv (show (Bind.bind (m := Py) _ _) _ = _ from e)
      obtain ⟨v, h1, e1, e⟩ := bind_inv (show (Bind.bind (m := Py) _ _) _ = _ from e)
      cases e
      exact tied_self _ _
  | ng p =>
    obtain ⟨v, h1, e1, e⟩ := bind_inv (show (Bind.bind (m := Py) _ _) _ = _ from e)
    cases e1
    obtain ⟨v, h1, e1, e⟩ := bind_inv (show (Bind.bind (m := Py) _ _) _ = _ from e)
    obtain ⟨v, h1, e1, e⟩ := bind_inv (show (Bind.bind (m := Py) _ _) _ = _ from e)
    cases e
    exact tied_self _ _

example : ∃ d h', buildOrRaise (normal_predictive (args (D := UnivariateNormalPrior Unit)
    (.nig ⟨.ref 3, .ref 4, .ref 5, none, some (.ref 6)⟩))) exampleHeap = .ok (d, h') := ⟨_, _, rfl⟩

end normal

/-- two batches, one of them arrays: the history has two posteriors -/
example : ∃ d₁ d₂ h', posteriors (fun (b : Fin 2 → Val) d => build (poisson_gamma (b 0).arg (b 1).arg (args d)))
    [![.ref 0, .num 1], ![.num 4, .num 2]] (⟨.ref 4, .num 1⟩ : Gamma Val) exampleHeap = .ok ([d₁, d₂], h') :=
  ⟨_, _, _, rfl⟩

/-- sharing is observable: the predictive distribution changes when the posterior's array is changed in place -/
theorem C118_predictive_not_independent :
    ¬ SharesNothing exampleHeap (build (binomial_beta_predictive (Val.num 3).arg (args (⟨.ref 0, .num 1⟩ : Beta Val)))) := by
  intro s
  have h1 := (s _ _ rfl).1 [⟨0, .scalar 7⟩] (by simp [exampleHeap])
  have h2 := congrArg (fun d : BetaBinomial (NdArr ℝ) => d.alpha.get []) h1
  change (7 : ℝ) = ((0 : ℕ) : ℝ) + 1 + (([] : List ℕ).sum : ℕ) at h2
  norm_num at h2

/-- so is the `n` of the hypergeometric posterior, which is the prior's -/
theorem C118_hypergeometric_not_independent :
    ¬ SharesNothing exampleHeap (build (hypergeometric_beta_binomial (Val.num 3).arg (Val.num 5).arg
      (args (⟨.ref 0, .num 1, .num 1⟩ : BetaBinomial Val)))) := by
  intro s
  have h1 := (s _ _ rfl).1 [⟨0, .scalar 7⟩] (by simp [exampleHeap])
  have h2 := congrArg (fun d : BetaBinomial (NdArr ℝ) => d.n.get []) h1
  change (7 : ℝ) = ((0 : ℕ) : ℝ) + 1 + (([] : List ℕ).sum : ℕ) at h2
  norm_num at h2

end Conj
