import Verif.Lemmas.ConcreteCases
import Verif.Props.CallBodies

/-!
# Concrete inputs that meet the hypotheses: the theorems about keyword calls

Each example applies one theorem to inputs that are written out, and proves its hypotheses for them.
-/

open MeasureTheory Set Real Matrix

namespace Conj

open Scipy Spec

/-! ## C67 -/

example := C67_call_binomial_beta (n' := 2) (x' := 2) (prior' := ⟨3, 2⟩) (t := "MyPrior") (kw := _)
    (h := List.reverse_perm _)

example := C67_call_binomial_beta_predictive (n' := 2) (distribution' := ⟨3, 2⟩) (t := "MyPrior") (kw := _)
    (h := List.reverse_perm _)

example := C67_call_bernoulli_beta (x' := 2) (prior' := ⟨3, 2⟩) (t := "MyPrior") (kw := _)
    (h := List.reverse_perm _)

example := C67_call_bernoulli_beta_predictive (distribution' := ⟨3, 2⟩) (t := "MyPrior") (kw := _)
    (h := List.reverse_perm _)

example := C67_call_negative_binomial_beta (r' := 2) (n' := 2) (x' := 2) (prior' := ⟨3, 2⟩) (t := "MyPrior")
    (kw := _) (h := List.reverse_perm _)

example := C67_call_negative_binomial_beta_predictive (r' := 2) (distribution' := ⟨3, 2⟩) (t := "MyPrior") (kw := _)
    (h := List.reverse_perm _)

example := C67_call_hypergeometric_beta_binomial (x_total' := 2) (n' := 2) (prior' := ⟨5, 2, 3⟩) (t := "MyPrior")
    (kw := _) (h := List.reverse_perm _)

example := C67_call_geometric_beta (x_total' := 2) (n' := 2) (prior' := ⟨3, 2⟩) (one_start' := true)
    (t := "MyPrior") (kw := _) (h := List.reverse_perm _)

example := C67_call_geometric_beta_predictive (distribution' := ⟨3, 2⟩) (one_start' := true) (t := "MyPrior")
    (kw := _) (h := List.reverse_perm _)

example := C67_call_poisson_gamma (x_total' := 2) (n' := 2) (prior' := ⟨3, 2⟩) (t := "MyPrior") (kw := _)
    (h := List.reverse_perm _)

example := C67_call_poisson_gamma_predictive (distribution' := ⟨3, 2⟩) (n' := 2) (t := "MyPrior") (kw := _)
    (h := List.reverse_perm _)

example := C67_call_exponential_gamma (x_total' := 2) (n' := 2) (prior' := ⟨3, 2⟩) (t := "MyPrior") (kw := _)
    (h := List.reverse_perm _)

example := C67_call_exponential_gamma_predictive (distribution' := ⟨3, 2⟩) (t := "MyPrior") (kw := _)
    (h := List.reverse_perm _)

example := C67_call_gamma_known_shape (x_total' := 2) (n' := 2) (alpha' := 2) (prior' := ⟨3, 2⟩) (t := "MyPrior")
    (kw := _) (h := List.reverse_perm _)

example := C67_call_gamma_known_shape_predictive (distribution' := ⟨3, 2⟩) (alpha' := 2) (t := "MyPrior") (kw := _)
    (h := List.reverse_perm _)

example := C67_call_inverse_gamma_known_rate (reciprocal_x_total' := 2) (n' := 2) (alpha' := 2) (prior' := ⟨3, 2⟩)
    (t := "MyPrior") (kw := _) (h := List.reverse_perm _)

example := C67_call_normal_known_variance (x_total' := 2) (n' := 2) (var' := 2) (prior' := ⟨1, 2⟩) (t := "MyPrior")
    (kw := _) (h := List.reverse_perm _)

example := C67_call_normal_known_variance_predictive (var' := 2) (distribution' := ⟨1, 2⟩) (t := "MyPrior")
    (kw := _) (h := List.reverse_perm _)

example := C67_call_normal_known_precision (x_total' := 2) (n' := 2) (precision' := 2) (prior' := ⟨1, 2⟩)
    (t := "MyPrior") (kw := _) (h := List.reverse_perm _)

example := C67_call_normal_known_precision_predictive (precision' := 2) (distribution' := ⟨1, 2⟩) (t := "MyPrior")
    (kw := _) (h := List.reverse_perm _)

example := C67_call_normal_known_mean (x_total' := 2) (x2_total' := 2) (n' := 2) (mu' := 2) (prior' :=
    (.inverseGamma ⟨3, 2⟩)) (t := "MyPrior") (kw := _) (h := List.reverse_perm _)

example := C67_call_normal_known_mean_predictive (mu' := 2) (distribution' := (.inverseGamma ⟨3, 2⟩))
    (t := "MyPrior") (kw := _) (h := List.reverse_perm _)

example := C67_call_uniform_pareto (x_max' := 2) (n' := 2) (prior' := ⟨1, 3⟩) (max_fn' := max) (t := "MyPrior")
    (kw := _) (h := List.reverse_perm _)

example := C67_call_pareto_gamma (n' := 2) (ln_x_total' := 2) (x_m' := 2) (prior' := ⟨3, 2⟩) (ln' := Real.log)
    (t := "MyPrior") (kw := _) (h := List.reverse_perm _)

example := C67_call_gamma (x_total' := 2) (x_prod' := 2) (n' := 2) (prior' := ⟨2, 1, 3, 3⟩) (t := "MyPrior")
    (kw := _) (h := List.reverse_perm _)

example := C67_call_gamma_known_rate (x_prod' := 2) (n' := 2) (beta' := 2) (prior' := ⟨1, 2, 3⟩) (t := "MyPrior")
    (kw := _) (h := List.reverse_perm _)

example := C67_call_beta (x_prod' := 2) (one_minus_x_prod' := 2) (n' := 2) (prior' := ⟨1/2, 1/2, 2⟩)
    (t := "MyPrior") (kw := _) (h := List.reverse_perm _)

example := C67_call_von_mises_known_concentration (cos_total' := 2) (sin_total' := 2) (n' := 2) (kappa' := 2)
    (prior' := ⟨2, 1⟩) (sin' := Real.log) (cos' := Real.log) (arctan2' := max) (t := "MyPrior") (kw := _)
    (h := List.reverse_perm _)

example := C67_call_von_mises_known_direction (centered_cos_total' := 2) (n' := 2) (prior' := ⟨3, 1⟩)
    (t := "MyPrior") (kw := _) (h := List.reverse_perm _)

example := C67_call_weibull_inverse_gamma_known_shape (n' := 2) (x_beta_total' := 2) (prior' := ⟨3, 2⟩)
    (t := "MyPrior") (kw := _) (h := List.reverse_perm _)

end Conj
