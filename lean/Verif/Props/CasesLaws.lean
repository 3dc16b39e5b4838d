import Verif.Lemmas.ConcreteCases
import Verif.Props.Arithmetic
import Verif.Props.CallBodies
import Verif.Props.DistMeaning
import Verif.Props.Equality
import Verif.Props.Equivalent
import Verif.Props.Exponential
import Verif.Props.Failures
import Verif.Props.Hyper
import Verif.Props.IdentifiableDiscrete
import Verif.Props.Influence
import Verif.Props.InfluenceMatrix
import Verif.Props.LikelihoodPrinciple
import Verif.Props.LikelihoodProportional
import Verif.Props.Memory
import Verif.Props.OneDim
import Verif.Props.Operators
import Verif.Props.Order
import Verif.Props.Plotting
import Verif.Props.PosteriorNormal
import Verif.Props.PosteriorPredictive
import Verif.Props.PredictiveGeometricPoisson
import Verif.Props.SampleShapes
import Verif.Props.Sequential
import Verif.Props.SequentialMatrix
import Verif.Props.Valid
import Verif.Props.Wishart

/-!
# Concrete inputs that meet the hypotheses: the theorems about posteriors, predictives, batches and objects

Each example applies one theorem to inputs that are written out, and proves its hypotheses for them.
-/

open MeasureTheory Set Real Matrix

namespace Conj

open Scipy Spec

/-! ## C13 -/

example := C13_inverse_gamma (prior := ⟨3, 2⟩) (ha := by meets_hypothesis) (hb := by meets_hypothesis) (mu := 2)
    (xs := [1, 2, 4])

/-! ## C28 -/

example := C28_exponential_gamma_predictive_swapped_partial (d := ⟨3, 2⟩) (ha := by meets_hypothesis)
    (hb := by meets_hypothesis) (x := 2) (hx := by meets_hypothesis)

/-! ## C37 -/

example := C37_normal_known_variance (var := 2) (hvar := by meets_hypothesis) (batches := [(3, 2), (5, 4)])
    (hn := by meets_hypothesis) (prior := ⟨1, 2⟩) (hs := by meets_hypothesis)

example := C37_normal_known_precision (precision := 2) (hp := by meets_hypothesis) (batches := [(3, 2), (5, 4)])
    (hn := by meets_hypothesis) (prior := ⟨1, 2⟩) (hs := by meets_hypothesis)

example := C37_normal_known_mean_scaled_inverse_chi_squared (mu := 2) (batches := [(3, 2, 1), (5, 4, 2)])
    (hn := by meets_hypothesis) (prior := ⟨5, 2⟩) (hnu := by meets_hypothesis)

example := C37_normal_nig (M := Unit) (batches := [(3, 2, 1), (5, 4, 2)]) (hne := by meets_hypothesis)
    (hn := by meets_hypothesis) (mu := 2) (nu := 2) (alpha := 2) (beta := 2) (hnu := by meets_hypothesis)

example := C37_normal_ng (M := Unit) (batches := [(3, 2, 1), (5, 4, 2)]) (hne := by meets_hypothesis)
    (hn := by meets_hypothesis) (mu := 2) (lam := 2) (alpha := 2) (beta := 2) (hnu := by meets_hypothesis)

example := C37_log_normal (M := Unit) (batches := [(3, 2, 1), (5, 4, 2)]) (hne := by meets_hypothesis)
    (hn := by meets_hypothesis) (mu := 2) (nu := 2) (alpha := 2) (beta := 2) (hnu := by meets_hypothesis)

example := C37_hypergeometric_fails (prior := ⟨5, 2, 3⟩) (hN := by meets_hypothesis) (x₁ := 2) (n₁ := 2) (x₂ := 2)
    (n₂ := 2)

/-! ## C39 -/

example := C39_binomial_beta (l₁ := [(3, 2), (5, 4)]) (l₂ := [(5, 4), (3, 2)]) (h := by meets_hypothesis)
    (prior := ⟨3, 2⟩)

example := C39_negative_binomial_beta (r := 2) (l₁ := [(3, 2), (5, 4)]) (l₂ := [(5, 4), (3, 2)])
    (h := by meets_hypothesis) (prior := ⟨3, 2⟩)

example := C39_geometric_beta (one_start := true) (l₁ := [(3, 2), (5, 4)]) (l₂ := [(5, 4), (3, 2)])
    (h := by meets_hypothesis) (prior := ⟨3, 2⟩)

example := C39_poisson_gamma (l₁ := [(3, 2), (5, 4)]) (l₂ := [(5, 4), (3, 2)]) (h := by meets_hypothesis)
    (prior := ⟨3, 2⟩)

example := C39_exponential_gamma (l₁ := [(3, 2), (5, 4)]) (l₂ := [(5, 4), (3, 2)]) (h := by meets_hypothesis)
    (prior := ⟨3, 2⟩)

example := C39_gamma_known_shape (alpha := 2) (l₁ := [(3, 2), (5, 4)]) (l₂ := [(5, 4), (3, 2)])
    (h := by meets_hypothesis) (prior := ⟨3, 2⟩)

example := C39_inverse_gamma_known_rate (alpha := 2) (l₁ := [(3, 2), (5, 4)]) (l₂ := [(5, 4), (3, 2)])
    (h := by meets_hypothesis) (prior := ⟨3, 2⟩)

example := C39_pareto_gamma (x_m := 2) (ln := Real.log) (l₁ := [(3, 2), (5, 4)]) (l₂ := [(5, 4), (3, 2)])
    (h := by meets_hypothesis) (prior := ⟨3, 2⟩)

example := C39_weibull (l₁ := [(3, 2), (5, 4)]) (l₂ := [(5, 4), (3, 2)]) (h := by meets_hypothesis)
    (prior := ⟨3, 2⟩)

example := C39_von_mises_known_direction (l₁ := [(3, 2), (5, 4)]) (l₂ := [(5, 4), (3, 2)])
    (h := by meets_hypothesis) (prior := ⟨3, 1⟩)

example := C39_bernoulli_beta (l₁ := [1, 2, 4]) (l₂ := [2, 1, 4]) (h := by meets_hypothesis) (prior := ⟨3, 2⟩)

example := C39_gamma (l₁ := [(3, 2, 1), (5, 4, 2)]) (l₂ := [(5, 4, 2), (3, 2, 1)]) (h := by meets_hypothesis)
    (prior := ⟨2, 1, 3, 3⟩)

example := C39_gamma_known_rate (beta := 2) (l₁ := [(3, 2), (5, 4)]) (l₂ := [(5, 4), (3, 2)])
    (h := by meets_hypothesis) (prior := ⟨1, 2, 3⟩)

example := C39_beta (l₁ := [(3, 2, 1), (5, 4, 2)]) (l₂ := [(5, 4, 2), (3, 2, 1)]) (h := by meets_hypothesis)
    (prior := ⟨1/2, 1/2, 2⟩)

example := C39_categorical_dirichlet (I := Fin 3) (l₁ := [![1, 0, 0], ![0, 2, 1]]) (l₂ := [![0, 2, 1], ![1, 0, 0]])
    (h := by meets_hypothesis) (prior := ⟨![1, 2, 3]⟩)

example := C39_multinomial_dirichlet (I := Fin 3) (l₁ := [![1, 0, 0], ![0, 2, 1]]) (l₂ := [![0, 2, 1], ![1, 0, 0]])
    (h := by meets_hypothesis) (prior := ⟨![1, 2, 3]⟩)

example := C39_uniform_pareto (l₁ := [(3, 2), (5, 4)]) (l₂ := [(5, 4), (3, 2)]) (h := by meets_hypothesis)
    (prior := ⟨1, 3⟩)

example := C39_hypergeometric_beta_binomial (l₁ := [(3, 2), (5, 4)]) (l₂ := [(5, 4), (3, 2)])
    (h := by meets_hypothesis) (prior := ⟨5, 2, 3⟩)

example := C39_normal_known_variance (var := 2) (hvar := by meets_hypothesis) (l₁ := [(3, 2), (5, 4)])
    (l₂ := [(5, 4), (3, 2)]) (h := by meets_hypothesis) (hn := by meets_hypothesis) (prior := ⟨1, 2⟩)
    (hs := by meets_hypothesis)

example := C39_normal_known_precision (precision := 2) (hp := by meets_hypothesis) (l₁ := [(3, 2), (5, 4)])
    (l₂ := [(5, 4), (3, 2)]) (h := by meets_hypothesis) (hn := by meets_hypothesis) (prior := ⟨1, 2⟩)
    (hs := by meets_hypothesis)

example := C39_normal_known_mean_inverse_gamma (mu := 2) (l₁ := [(3, 2, 1), (5, 4, 2)]) (l₂ := [(5, 4, 2),
    (3, 2, 1)]) (h := by meets_hypothesis) (prior := ⟨3, 2⟩)

example := C39_normal_known_mean_scaled_inverse_chi_squared (mu := 2) (l₁ := [(3, 2, 1), (5, 4, 2)])
    (l₂ := [(5, 4, 2), (3, 2, 1)]) (h := by meets_hypothesis) (hn := by meets_hypothesis) (prior := ⟨5, 2⟩)
    (hnu := by meets_hypothesis)

example := C39_normal_nig (M := Unit) (l₁ := [(3, 2, 1), (5, 4, 2)]) (l₂ := [(5, 4, 2), (3, 2, 1)])
    (h := by meets_hypothesis) (hn := by meets_hypothesis) (mu := 2) (nu := 2) (alpha := 2) (beta := 2)
    (hnu := by meets_hypothesis)

example := C39_normal_ng (M := Unit) (l₁ := [(3, 2, 1), (5, 4, 2)]) (l₂ := [(5, 4, 2), (3, 2, 1)])
    (h := by meets_hypothesis) (hn := by meets_hypothesis) (mu := 2) (lam := 2) (alpha := 2) (beta := 2)
    (hlam := by meets_hypothesis)

example := C39_log_normal (M := Unit) (l₁ := [(3, 2, 1), (5, 4, 2)]) (l₂ := [(5, 4, 2), (3, 2, 1)])
    (h := by meets_hypothesis) (hn := by meets_hypothesis) (mu := 2) (nu := 2) (alpha := 2) (beta := 2)
    (hnu := by meets_hypothesis)

example := C39_multivariate_normal_known_mean (p := Fin 2) (mu := ![1, 2]) (l₁ := [![1, 2], ![3, 0]])
    (l₂ := [![3, 0], ![1, 2]]) (h := by meets_hypothesis) (prior := ⟨5, 1⟩)

example := C39_multivariate_normal (p := Fin 2) (l₁ := [![1, 2], ![3, 0]]) (l₂ := [![3, 0], ![1, 2]])
    (h := by meets_hypothesis) (prior := ⟨![0, 1], 2, 5, 1⟩)

/-! ## C40 -/

example := C40_normal_known_variance (var := 2) (d := ⟨1, 2⟩) (hs := by meets_hypothesis)
    (hv := by meets_hypothesis)

example := C40_normal_known_mean (mu := 2) (d := ⟨3, 2⟩) (c := ⟨5, 2⟩) (hc := by meets_hypothesis)

example := C40_normal_no_data_raises (M := Unit) (nu := 2) (d := ⟨0, 3, 2, none, some 2⟩)
    (hd := by meets_hypothesis) (g := ⟨0, 1, 2, 3⟩)

example := C40_multivariate_normal_known_covariance (p := Fin 2) (x_bar := ![1, 2]) (cov := 1)
    (hc := by meets_hypothesis) (prior := ⟨![0, 1], 1⟩) (hS := by meets_hypothesis)

example := C40_uniform_pareto (x_max := 1/2) (d := ⟨1, 3⟩) (h := by meets_hypothesis)

/-! ## C41 -/

example := C41_multivariate_normal_known_covariance (p := Fin 2) (n := 3) (x_bar := ![1, 2]) (cov := 1)
    (hc := by meets_hypothesis) (prior := ⟨![0, 1], 1⟩) (hS := by meets_hypothesis)

example := C41_binomial_beta (n := 3) (x := 3) (hx := by meets_hypothesis) (d := ⟨3, 2⟩) (hd := by meets_hypothesis)

example := C41_bernoulli_beta (x := true) (d := ⟨3, 2⟩) (hd := by meets_hypothesis)

example := C41_negative_binomial_beta (r := 2) (hr := by meets_hypothesis) (xs := [3, 1, 2]) (d := ⟨3, 2⟩)
    (hd := by meets_hypothesis)

example := C41_hypergeometric_beta_binomial (N := 3) (x := 3) (n := 3) (hx := by meets_hypothesis) (a := 2) (b := 2)
    (ha := by meets_hypothesis) (hb := by meets_hypothesis)

example := C41_gamma_posteriors (shape := 2) (hs := by meets_hypothesis) (xs := [1, 2, 4])
    (hx := by meets_hypothesis) (d := ⟨3, 2⟩) (hd := by meets_hypothesis)

example := C41_uniform_pareto (x_max := 2) (n := 3) (d := ⟨1, 3⟩) (hd := by meets_hypothesis)

example := C41_weibull (k := 2) (xs := [1, 2, 4]) (hx := by meets_hypothesis) (d := ⟨3, 2⟩)
    (hd := by meets_hypothesis)

example := C41_normal_known_variance (xs := [1, 2, 4]) (var := 2) (hv := by meets_hypothesis) (d := ⟨1, 2⟩)
    (hs := by meets_hypothesis)

example := C41_normal_known_mean (mu := 2) (xs := [1, 2, 4]) (prior := (.inverseGamma ⟨3, 2⟩))
    (hp := by meets_hypothesis)

example := C41_dirichlet (I := Fin 3) (x := ![1, 2, 3]) (hx := by meets_hypothesis) (d := ⟨![1, 2, 3]⟩)
    (hd := by meets_hypothesis)

example := C41_gamma (xs := [1, 2, 4]) (hx := by meets_hypothesis) (d := ⟨2, 1, 3, 3⟩) (hp := by meets_hypothesis)
    (hq := by meets_hypothesis) (hr := by meets_hypothesis) (hs := by meets_hypothesis)

example := C41_gamma_known_rate (rate := 2) (xs := [1, 2, 4]) (hx := by meets_hypothesis) (d := ⟨1, 2, 3⟩)
    (hp := by meets_hypothesis) (hq := by meets_hypothesis) (hr := by meets_hypothesis)

example := C41_von_mises_known_direction (mu := 2) (xs := [1, 2, 4]) (d := ⟨3, 1⟩) (h := by meets_hypothesis)

example := C41_multivariate_normal (m := Fin 3) (p := Fin 2) (X := !![1, 2; 3, -1; 0, 5])
    (prior := ⟨![0, 1], 2, 5, 1⟩) (hk := by meets_hypothesis) (hnu := by meets_hypothesis)
    (hpsi := by meets_hypothesis)

/-! ## C42 -/

example := C42_poisson_gamma (xs := [3, 1, 2]) (hne := by meets_hypothesis) (d := ⟨3, 2⟩)
    (hd := by meets_hypothesis)

example := C42_normal_known_variance_mean (xs := [1, 2, 4]) (hne := by meets_hypothesis) (var := 2)
    (hv := by meets_hypothesis) (d := ⟨1, 2⟩) (hs := by meets_hypothesis)

example := C42_normal_known_variance_variance (s := 2) (n := 3) (hn := by meets_hypothesis) (var := 2)
    (hv := by meets_hypothesis) (d := ⟨1, 2⟩) (hs := by meets_hypothesis)

/-! ## C43 -/

example := C43_precision_closed_form (x := 2) (n := 2) (p := 2) (hp := by meets_hypothesis)
    (hn := by meets_hypothesis) (d := ⟨1, 2⟩) (hs := by meets_hypothesis)

/-! ## C44 -/

example := C44_multivariate_normal_known_precision (n := 3) (x_bar := 2) (precision := 2) (mu := 2) (s := 2)
    (hp := by meets_hypothesis) (hs := by meets_hypothesis)

example := C44_known_covariance_predictive (var := 2) (mu := 2) (s := 2) (hv := by meets_hypothesis)

example := C44_known_precision_predictive (precision := 2) (mu := 2) (s := 2) (hp := by meets_hypothesis)

example := C44_multivariate_normal_predictive (mu := 2) (kappa := 2) (nu := 2) (psi := 2)
    (hk := by meets_hypothesis) (hn := by meets_hypothesis) (hp := by meets_hypothesis)

/-! ## C45 -/

example := C45_normal_from_mean_and_variance (m := 2) (v := 2) (hv := by meets_hypothesis)

example := C45_normal_from_mean_and_precision (m := 2) (p := 2) (hp := by meets_hypothesis)

example := C45_normal_uninformative (s := 2) (hs := by meets_hypothesis)

example := C45_scaled_inverse_chi_squared (c := ⟨5, 2⟩) (hc := by meets_hypothesis) (d := ⟨3, 2⟩)
    (hd := by meets_hypothesis)

/-! ## C49 -/

example := C49_poisson_add (p := ⟨2⟩) (q := ⟨2⟩) (hp := by meets_hypothesis) (hq := by meets_hypothesis)

/-! ## C50 -/

example := C50_exponential_mul (d := ⟨2⟩) (hl := by meets_hypothesis) (k := 2) (hk := by meets_hypothesis)

/-! ## C51 -/

example := C51_normal_parameters (d := ⟨1, 2⟩) (k := 2) (hk := by meets_hypothesis)

example := C51_normal_composes (d := ⟨1, 2⟩) (k := 2) (l := 2) (hk := by meets_hypothesis)

/-! ## C52 -/

example := C52_beta (d := ⟨3, 2⟩) (x := 2) (h0 := by meets_hypothesis) (h1 := by meets_hypothesis)

example := C52_normal (d := ⟨1, 2⟩) (hs := by meets_hypothesis) (x := 2)

example := C52_pareto (d := ⟨1, 3⟩) (hm := by meets_hypothesis) (x := 2)

example := C52_inverse_gamma (d := ⟨3, 2⟩) (hb := by meets_hypothesis) (x := 2)

example := C52_lomax (d := ⟨3, 2⟩) (hl := by meets_hypothesis) (x := 2)

example := C52_weibull (d := ⟨2, 3⟩) (hb := by meets_hypothesis) (ht := by meets_hypothesis) (x := 2)
    (hx := by meets_hypothesis)

/-! ## C53 -/

example := C53_uniform_dist_partial (d := ⟨1, 3⟩) (hh := by meets_hypothesis) (x := 2)

/-! ## C54 -/

example := C54_exponential_dist_partial (lam := 2) (hl := by meets_hypothesis) (x := 2)

/-! ## C55 -/

example := C55_beta_geometric_total (d := ⟨2, 3, true⟩) (ha := by meets_hypothesis) (hb := by meets_hypothesis)

/-! ## C63 -/

example := C63_label_per_line (N := 3) (k := 2) (hk := by meets_hypothesis)

/-! ## C65 -/

example := C65_ticks_short (lo := 2) (hi := 2) (h := by meets_hypothesis)

/-! ## C70 -/

example := C70_shapes_partial (size := 3) (d := 3) (hs := by meets_hypothesis) (hd := by meets_hypothesis)

example := C70_one_feature (size := 3) (hs := by meets_hypothesis)

/-! ## C75 -/

example := C75_normal_known_precision (x := 2) (n := 2) (precision := 2) (prior := ⟨1, 2⟩)
    (hs := by meets_hypothesis)

example := C75_normal (x := 2) (x2 := 2) (n := 2) (mu := 2) (nu := 2) (alpha := 2) (beta := 2)
    (hnu := by meets_hypothesis)

example := C75_normal_posterior (M := Unit) (x := 2) (x2 := 2) (n := 2) (prior := ⟨0, 1, 2, 3⟩)
    (hnu := by meets_hypothesis)

example := C75_multivariate_normal_known_precision_iff (p := Fin 2) (prior := ⟨![0, 1], 1⟩)
    (hS := by meets_hypothesis) (n := 2) (n' := 2) (hn := by meets_hypothesis) (hn' := by meets_hypothesis)
    (x := ![1, 2]) (x' := ![1, 2]) (P := 1) (P' := 1) (hP := by meets_hypothesis) (hP' := by meets_hypothesis)

example := C75_multivariate_normal_known_precision (p := Fin 2) (prior := ⟨![0, 1], 1⟩) (hS := by meets_hypothesis)
    (n := 2) (x := ![1, 2]) (P := 1) (hP := by meets_hypothesis)

example := C75_multivariate_normal_known_mean_mu (m := Fin 3) (p := Fin 2) (prior := ⟨5, 1⟩)
    (X := !![1, 2; 3, -1; 0, 5]) (mu := ![1, 2]) (mu' := ![1, 2])

/-! ## C79 -/

example := C79_default_bounds_vector_partial (ns := [1, 2, 4]) (hne := by meets_hypothesis)

example := C79_uniform_bounds_iff (d := ⟨1, 3⟩) (h := by meets_hypothesis)

/-! ## C81 -/

example := C81_defaults_geometric_beta (x_total' := 2) (n' := 2) (prior' := ⟨3, 2⟩) (t := "MyPrior") (kw := _)
    (h := List.reverse_perm _)

example := C81_defaults_geometric_beta_predictive (distribution' := ⟨3, 2⟩) (t := "MyPrior") (kw := _)
    (h := List.reverse_perm _)

example := C81_defaults_poisson_gamma_predictive (distribution' := ⟨3, 2⟩) (t := "MyPrior") (kw := _)
    (h := List.reverse_perm _)

example := C81_defaults_uniform_pareto (x_max' := 2) (n' := 2) (prior' := ⟨1, 3⟩) (t := "MyPrior") (kw := _)
    (h := List.reverse_perm _)

example := C81_defaults_pareto_gamma (n' := 2) (ln_x_total' := 2) (x_m' := 2) (prior' := ⟨3, 2⟩) (t := "MyPrior")
    (kw := _) (h := List.reverse_perm _)

example := C81_defaults_von_mises_known_concentration (cos_total' := 2) (sin_total' := 2) (n' := 2) (kappa' := 2)
    (prior' := ⟨2, 1⟩) (t := "MyPrior") (kw := _) (h := List.reverse_perm _)

/-! ## C84 -/

example := C84_geometric_beta_shifted_partial (prior := ⟨3, 2⟩) (ha := by meets_hypothesis)
    (hb := by meets_hypothesis) (one_start := true) (xs := [3, 1, 2]) (hx := by meets_hypothesis) (k := 2)

/-! ## C97 -/

example := C97_hypergeometric_false (N := 3) (k := 2) (n := 3) (hk := by meets_hypothesis)
    (hn := by meets_hypothesis) (x := 1)

/-! ## C98 -/

example := C98_binomial_negative_binomial (prior := ⟨3, 2⟩) (hp := by meets_hypothesis) (n := 3) (x := 3)
    (hx := by meets_hypothesis) (r := 2) (hr := by meets_hypothesis) (ys := [3, 1, 2])

example := C98_normal_known_precision (prior := ⟨1, 2⟩) (hs := by meets_hypothesis) (p := 2) (p' := 2)
    (hp := by meets_hypothesis) (hp' := by meets_hypothesis) (xs := [1, 2, 4]) (ys := [1, 2, 4])

example := C98_log_normal_nig (M := Unit) (prior := ⟨0, 3, 2, none, some 2⟩) (nu := 2) (hn := by meets_hypothesis)
    (hnu := by meets_hypothesis) (ha := by meets_hypothesis) (hb := by meets_hypothesis) (xs := [1, 2, 4])
    (ys := [1, 2, 4]) (hx := by meets_hypothesis) (hy := by meets_hypothesis) (hxp := by meets_hypothesis)
    (hyp := by meets_hypothesis)

example := C98_log_normal_ng (M := Unit) (prior := ⟨0, 1, 2, 3⟩) (hl := by meets_hypothesis)
    (ha := by meets_hypothesis) (hb := by meets_hypothesis) (xs := [1, 2, 4]) (ys := [1, 2, 4])
    (hx := by meets_hypothesis) (hy := by meets_hypothesis) (hxp := by meets_hypothesis)
    (hyp := by meets_hypothesis)

example := C98_von_mises_known_concentration_false (kappa := 2) (hk := by meets_hypothesis) (a := 2)
    (ha := by meets_hypothesis)

/-! ## C118 -/

example := C118_negative_binomial_beta_predictive_shares (h := exampleHeap) (h' := exampleHeap) (r := (.ref 1))
    (prior := ⟨.ref 2, .ref 3⟩) (e := by meets_hypothesis)

example := C118_geometric_beta_predictive_shares (h := exampleHeap) (h' := exampleHeap) (prior := ⟨.ref 2, .ref 3⟩)
    (one_start := true) (e := by meets_hypothesis)

example := C118_exponential_gamma_predictive_shares (h := exampleHeap) (h' := exampleHeap)
    (prior := ⟨.ref 2, .ref 3⟩) (e := by meets_hypothesis)

example := C118_gamma_known_shape_predictive_shares (h := exampleHeap) (h' := exampleHeap) (alpha := (.ref 1))
    (prior := ⟨.ref 2, .ref 3⟩) (e := by meets_hypothesis)

/-! ## C119 -/

example := C119_gamma_multiple (a := 2) (b := 2) (ha := by meets_hypothesis) (hb := by meets_hypothesis) (k := 2)
    (hk := by meets_hypothesis)

example := C119_exponential_multiple (lam := 2) (hl := by meets_hypothesis) (k := 2) (hk := by meets_hypothesis)

example := C119_normal_multiple (m := 2) (s := 2) (hs := by meets_hypothesis) (k := 2) (hk := by meets_hypothesis)

example := C119_sum_with_start_law (lam := 2) (lams := [1, 2, 4]) (h0 := by meets_hypothesis)
    (h := by meets_hypothesis)

example := C119_mixed_sum_wrong (l := 2) (m := 2) (hl := by meets_hypothesis) (hm := by meets_hypothesis)

example := C119_poisson_plus_number (p := ⟨(⟨[3], fun i => 2 + i.sum⟩ : NdArr ℝ)⟩) (x := 2) (a :=
    (⟨[3], fun i => 2 + i.sum⟩ : NdArr ℝ)) (ha := by meets_hypothesis)

example := C119_normal_product (p := ⟨(⟨[3], fun i => 1 + i.sum⟩ : NdArr ℝ), (⟨[3], fun i => 2 + i.sum⟩ : NdArr ℝ)⟩)
    (q := ⟨(⟨[3], fun i => 1 + i.sum⟩ : NdArr ℝ), (⟨[3], fun i => 2 + i.sum⟩ : NdArr ℝ)⟩)
    (hp := by meets_hypothesis)

example := C119_negative_binomial_multiple (n := 1/2) (p := 1/2) (hn := by meets_hypothesis)
    (hp := by meets_hypothesis) (hp1 := by meets_hypothesis) (k := 2) (hk := by meets_hypothesis)

/-! ## C120 -/

example := C120_beta (v := .since313) (d := ⟨3, 2⟩) (d' := ⟨3, 2⟩) (hd := by meets_hypothesis)
    (hd' := by meets_hypothesis)

example := C120_gamma (v := .since313) (d := ⟨3, 2⟩) (d' := ⟨3, 2⟩) (hd := by meets_hypothesis)
    (hd' := by meets_hypothesis)

example := C120_inverse_gamma (v := .since313) (d := ⟨3, 2⟩) (d' := ⟨3, 2⟩) (hd := by meets_hypothesis)
    (hd' := by meets_hypothesis)

example := C120_scaled_inverse_chi_squared (v := .since313) (d := ⟨5, 2⟩) (d' := ⟨5, 2⟩) (hn := by meets_hypothesis)
    (hs := by meets_hypothesis) (hn' := by meets_hypothesis) (hs' := by meets_hypothesis)

example := C120_normal (v := .since313) (d := ⟨1, 2⟩) (d' := ⟨1, 2⟩) (hs := by meets_hypothesis)
    (hs' := by meets_hypothesis)

example := C120_exponential (v := .since313) (d := ⟨2⟩) (d' := ⟨2⟩) (hd := by meets_hypothesis)
    (hd' := by meets_hypothesis)

example := C120_uniform (v := .since313) (d := ⟨1, 3⟩) (d' := ⟨1, 3⟩) (hd := by meets_hypothesis)
    (hd' := by meets_hypothesis)

example := C120_pareto (v := .since313) (d := ⟨1, 3⟩) (d' := ⟨1, 3⟩) (hd := by meets_hypothesis)
    (hd' := by meets_hypothesis)

example := C120_lomax (v := .since313) (d := ⟨3, 2⟩) (d' := ⟨3, 2⟩) (ha := by meets_hypothesis)
    (hl := by meets_hypothesis) (ha' := by meets_hypothesis) (hl' := by meets_hypothesis)

example := C120_student_t (v := .since313) (d := ⟨0, 1, 5⟩) (d' := ⟨0, 1, 5⟩) (hs := by meets_hypothesis)
    (hn := by meets_hypothesis) (hs' := by meets_hypothesis) (hn' := by meets_hypothesis)

example := C120_compound_gamma (v := .since313) (d := ⟨2, 3, 1⟩) (d' := ⟨2, 3, 1⟩) (ha := by meets_hypothesis)
    (hb := by meets_hypothesis) (hl := by meets_hypothesis) (ha' := by meets_hypothesis)
    (hb' := by meets_hypothesis) (hl' := by meets_hypothesis)

example := C120_weibull (v := .since313) (d := ⟨2, 3⟩) (d' := ⟨2, 3⟩) (hb := by meets_hypothesis)
    (ht := by meets_hypothesis) (hb' := by meets_hypothesis) (ht' := by meets_hypothesis)

example := C120_log_normal (v := .since313) (d := ⟨1, 2⟩) (d' := ⟨1, 2⟩) (hs := by meets_hypothesis)
    (hs' := by meets_hypothesis)

example := C120_negative_binomial (v := .since313) (d := ⟨3, 1/2⟩) (d' := ⟨3, 1/2⟩) (hn := by meets_hypothesis)
    (hp := by meets_hypothesis) (hn' := by meets_hypothesis) (hp' := by meets_hypothesis)

example := C120_beta_geometric (v := .since313) (d := ⟨2, 3, true⟩) (d' := ⟨2, 3, true⟩) (ha := by meets_hypothesis)
    (hb := by meets_hypothesis) (ha' := by meets_hypothesis) (hb' := by meets_hypothesis)

example := C120_beta_negative_binomial (v := .since313) (d := ⟨4, 2, 3⟩) (hn := by meets_hypothesis)
    (ha := by meets_hypothesis) (hb := by meets_hypothesis) (hne := by meets_hypothesis)

/-! ## C121 -/

example := C121_two_priors_iff (d₁ := ⟨3, 2⟩) (d₂ := ⟨3, 2⟩) (h₁ := by meets_hypothesis) (h₂ := by meets_hypothesis)
    (n := 1) (x := 1) (hx := by meets_hypothesis) (w := 1/2) (hw := by meets_hypothesis)
    (hw' := by meets_hypothesis)

end Conj
