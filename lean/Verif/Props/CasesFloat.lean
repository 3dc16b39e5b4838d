import Verif.Lemmas.ConcreteCases
import Verif.Props.FloatAbsolute
import Verif.Props.FloatError
import Verif.Props.FloatExact
import Verif.Props.FloatValid
import Verif.Props.Ieee
import Verif.Props.IeeeShown

/-!
# Concrete inputs that meet the hypotheses: the theorems about floating point

Each example applies one theorem to inputs that are written out, and proves its hypotheses for them.
-/

open MeasureTheory Set Real Matrix

namespace Conj

open Scipy Spec

/-! ## C89 -/

example := C89_negative_binomial_beta (F := binary 53) (p := 53) (k := 2) (hF := by meets_hypothesis) (r := 3)
    (batches := [(3, 2), (5, 4)]) (prior := ⟨3, 2⟩) (hp := by meets_hypothesis) (hb := by meets_hypothesis)
    (hmax := by meets_hypothesis)

example := C89_poisson_gamma (F := binary 53) (p := 53) (k := 2) (hF := by meets_hypothesis) (batches := [(3, 2),
    (5, 4)]) (prior := ⟨3, 2⟩) (hp := by meets_hypothesis) (hb := by meets_hypothesis) (h1 := by meets_hypothesis)
    (h2 := by meets_hypothesis)

example := C89_exponential_gamma (F := binary 53) (p := 53) (k := 2) (hF := by meets_hypothesis)
    (batches := [(3, 2), (5, 4)]) (prior := ⟨3, 2⟩) (hp := by meets_hypothesis) (hb := by meets_hypothesis)
    (h1 := by meets_hypothesis) (h2 := by meets_hypothesis)

example := C89_weibull_inverse_gamma_known_shape (F := binary 53) (p := 53) (k := 2) (hF := by meets_hypothesis)
    (batches := [(3, 2), (5, 4)]) (prior := ⟨3, 2⟩) (hp := by meets_hypothesis) (hb := by meets_hypothesis)
    (h1 := by meets_hypothesis) (h2 := by meets_hypothesis)

example := C89_gamma_known_shape (F := binary 53) (p := 53) (k := 2) (hF := by meets_hypothesis) (shape := 3)
    (batches := [(3, 2), (5, 4)]) (prior := ⟨3, 2⟩) (hp := by meets_hypothesis) (hb := by meets_hypothesis)
    (h1 := by meets_hypothesis) (h2 := by meets_hypothesis)

/-! ## C90 -/

example := C90_normal_known_mean_chi_squared (u := 1 / 2 ^ 53) (F := binary 53) (hF := by meets_hypothesis)
    (hsq := by meets_hypothesis) (hu := by meets_hypothesis) (mu := 2) (x := 2) (x2 := 2) (n := 2)
    (hn := by meets_hypothesis) (hx := by meets_hypothesis) (hx2 := by meets_hypothesis) (prior := ⟨5, 2⟩)
    (hnu := by meets_hypothesis) (hs := by meets_hypothesis)

example := C90_normal (u := 1 / 2 ^ 53) (F := binary 53) (hF := by meets_hypothesis) (M := Unit)
    (hsq := by meets_hypothesis) (hu := by meets_hypothesis) (x := 2) (x2 := 2) (n := 2) (hn := by meets_hypothesis)
    (hx := by meets_hypothesis) (d := ⟨0, 1, 2, 3⟩) (hl := by meets_hypothesis) (ha := by meets_hypothesis)
    (hb := by meets_hypothesis)

example := C90_normal_inverse_gamma (u := 1 / 2 ^ 53) (F := binary 53) (hF := by meets_hypothesis) (M := Unit)
    (hsq := by meets_hypothesis) (hu := by meets_hypothesis) (x := 2) (x2 := 2) (n := 2) (hn := by meets_hypothesis)
    (hx := by meets_hypothesis) (mu := 2) (nu := 2) (alpha := 2) (beta := 2) (hl := by meets_hypothesis)
    (ha := by meets_hypothesis) (hb := by meets_hypothesis)

example := C90_normal_known_precision (u := 1 / 2 ^ 53) (F := binary 53) (hF := by meets_hypothesis)
    (hu := by meets_hypothesis) (x := 2) (n := 2) (precision := 2) (prior := ⟨1, 2⟩) (hs := by meets_hypothesis)
    (hn := by meets_hypothesis) (hv := by meets_hypothesis)

example := C90_gamma_known_rate (u := 1 / 2 ^ 53) (F := binary 53) (hF := by meets_hypothesis) (rate := 2)
    (batches := [(3, 2), (5, 4)]) (prior := ⟨1, 2, 3⟩) (hp := by meets_hypothesis) (hb := by meets_hypothesis)
    (hN := by meets_hypothesis)

example := C90_beta (u := 1 / 2 ^ 53) (F := binary 53) (hF := by meets_hypothesis) (batches := [(3, 2, 1),
    (5, 4, 2)]) (prior := ⟨1/2, 1/2, 2⟩) (hp := by meets_hypothesis) (hb := by meets_hypothesis)
    (hN := by meets_hypothesis)

example := C90_uniform_pareto (u := 1 / 2 ^ 53) (F := binary 53) (hF := by meets_hypothesis) (batches := [(3, 2),
    (5, 4)]) (prior := ⟨1, 3⟩) (hp := by meets_hypothesis) (hb := by meets_hypothesis) (hN := by meets_hypothesis)

example := C90_log_normal (u := 1 / 2 ^ 53) (F := binary 53) (hF := by meets_hypothesis) (M := Unit)
    (hsq := by meets_hypothesis) (hu := by meets_hypothesis) (x := 2) (x2 := 2) (n := 2) (hn := by meets_hypothesis)
    (hx := by meets_hypothesis) (d := ⟨0, 1, 2, 3⟩) (hl := by meets_hypothesis) (ha := by meets_hypothesis)
    (hb := by meets_hypothesis)

example := C90_negative_binomial_beta (u := 1 / 2 ^ 53) (F := binary 53) (hF := by meets_hypothesis) (r := 2)
    (hr := by meets_hypothesis) (batches := [(3, 2), (5, 4)]) (prior := ⟨3, 2⟩) (hp := by meets_hypothesis)
    (hb := by meets_hypothesis) (hN := by meets_hypothesis)

example := C90_geometric_beta_zero_start (u := 1 / 2 ^ 53) (F := binary 53) (hF := by meets_hypothesis)
    (batches := [(3, 2), (5, 4)]) (prior := ⟨3, 2⟩) (hp := by meets_hypothesis) (hb := by meets_hypothesis)
    (hN := by meets_hypothesis)

example := C90_poisson_gamma (u := 1 / 2 ^ 53) (F := binary 53) (hF := by meets_hypothesis) (batches := [(3, 2),
    (5, 4)]) (prior := ⟨3, 2⟩) (hp := by meets_hypothesis) (hb := by meets_hypothesis) (hN := by meets_hypothesis)

example := C90_exponential_gamma (u := 1 / 2 ^ 53) (F := binary 53) (hF := by meets_hypothesis) (batches := [(3, 2),
    (5, 4)]) (prior := ⟨3, 2⟩) (hp := by meets_hypothesis) (hb := by meets_hypothesis) (hN := by meets_hypothesis)

example := C90_gamma_known_shape (u := 1 / 2 ^ 53) (F := binary 53) (hF := by meets_hypothesis) (shape := 2)
    (hs := by meets_hypothesis) (batches := [(3, 2), (5, 4)]) (prior := ⟨3, 2⟩) (hp := by meets_hypothesis)
    (hb := by meets_hypothesis) (hN := by meets_hypothesis)

example := C90_inverse_gamma_known_rate (u := 1 / 2 ^ 53) (F := binary 53) (hF := by meets_hypothesis) (shape := 2)
    (hs := by meets_hypothesis) (batches := [(3, 2), (5, 4)]) (prior := ⟨3, 2⟩) (hp := by meets_hypothesis)
    (hb := by meets_hypothesis) (hN := by meets_hypothesis)

example := C90_weibull_inverse_gamma_known_shape (u := 1 / 2 ^ 53) (F := binary 53) (hF := by meets_hypothesis)
    (batches := [(3, 2), (5, 4)]) (prior := ⟨3, 2⟩) (hp := by meets_hypothesis) (hb := by meets_hypothesis)
    (hN := by meets_hypothesis)

example := C90_gamma (u := 1 / 2 ^ 53) (F := binary 53) (hF := by meets_hypothesis) (batches := [(3, 2, 1),
    (5, 4, 2)]) (prior := ⟨2, 1, 3, 3⟩) (hp := by meets_hypothesis) (hb := by meets_hypothesis)
    (hN := by meets_hypothesis)

example := C90_poisson_gamma_predictive (u := 1 / 2 ^ 53) (F := binary 53) (hF := by meets_hypothesis)
    (hu := by meets_hypothesis) (d := ⟨3, 2⟩) (n := 2) (hb := by meets_hypothesis)

example := C90_normal_known_variance_sigma (u := 1 / 2 ^ 53) (F := binary 53) (hF := by meets_hypothesis)
    (hu := by meets_hypothesis) (x_total := 2) (n := 2) (var := 2) (prior := ⟨1, 2⟩) (hs := by meets_hypothesis)
    (hn := by meets_hypothesis) (hv := by meets_hypothesis)

example := C90_normal_known_variance_mu (u := 1 / 2 ^ 53) (F := binary 53) (hF := by meets_hypothesis)
    (hu := by meets_hypothesis) (x_total := 2) (n := 2) (var := 2) (prior := ⟨1, 2⟩) (hs := by meets_hypothesis)
    (hn := by meets_hypothesis) (hv := by meets_hypothesis)

example := C90_normal_known_variance_predictive (u := 1 / 2 ^ 53) (F := binary 53) (hF := by meets_hypothesis)
    (hu := by meets_hypothesis) (var := 2) (d := ⟨1, 2⟩) (hs := by meets_hypothesis) (hv := by meets_hypothesis)

example := C90_normal_predictive (u := 1 / 2 ^ 53) (F := binary 53) (hF := by meets_hypothesis) (M := Unit)
    (hu := by meets_hypothesis) (d := ⟨0, 1, 2, 3⟩) (hl := by meets_hypothesis) (ha := by meets_hypothesis)
    (hb := by meets_hypothesis)

example := C90_normal_known_mean_predictive (u := 1 / 2 ^ 53) (F := binary 53) (hF := by meets_hypothesis)
    (hu := by meets_hypothesis) (mu := 2) (d := ⟨3, 2⟩) (ha := by meets_hypothesis) (hb := by meets_hypothesis)

/-! ## C91 -/

example := C91_geometric_beta_positive (u := 1 / 2 ^ 53) (F := binary 53) (hF := by meets_hypothesis) (x := 2)
    (n := 2) (prior := ⟨3, 2⟩) (hp := by meets_hypothesis) (hx := by meets_hypothesis) (hn := by meets_hypothesis)
    (hu := by meets_hypothesis) (hbig := by meets_hypothesis)

example := C91_normal_known_mean_positive (u := 1 / 2 ^ 53) (F := binary 53) (hF := by meets_hypothesis)
    (hsq := by meets_hypothesis) (hu := by meets_hypothesis) (x := 2) (x2 := 2) (n := 2) (mu := 2)
    (hn := by meets_hypothesis) (hx := by meets_hypothesis) (hx2 := by meets_hypothesis) (prior := ⟨3, 2⟩)
    (hp := by meets_hypothesis) (hbig := by meets_hypothesis)

example := C91_binomial_beta (u := 1 / 2 ^ 53) (F := binary 53) (hF := by meets_hypothesis) (n := ⟨2⟩) (x := ⟨2⟩)
    (prior := ⟨⟨3⟩, ⟨2⟩⟩) (hx := by meets_hypothesis) (hn := by meets_hypothesis) (hp := by meets_hypothesis)

example := C91_negative_binomial_beta (u := 1 / 2 ^ 53) (F := binary 53) (hF := by meets_hypothesis) (r := ⟨2⟩)
    (n := ⟨2⟩) (x := ⟨2⟩) (prior := ⟨⟨3⟩, ⟨2⟩⟩) (hr := by meets_hypothesis) (hn := by meets_hypothesis)
    (hx := by meets_hypothesis) (hp := by meets_hypothesis)

example := C91_geometric_beta_zero_start (u := 1 / 2 ^ 53) (F := binary 53) (hF := by meets_hypothesis)
    (x_total := ⟨2⟩) (n := ⟨2⟩) (prior := ⟨⟨3⟩, ⟨2⟩⟩) (hx := by meets_hypothesis) (hn := by meets_hypothesis)
    (hp := by meets_hypothesis)

example := C91_poisson_gamma (u := 1 / 2 ^ 53) (F := binary 53) (hF := by meets_hypothesis) (x_total := ⟨2⟩)
    (n := ⟨2⟩) (prior := ⟨⟨3⟩, ⟨2⟩⟩) (hx := by meets_hypothesis) (hn := by meets_hypothesis)
    (hp := by meets_hypothesis)

example := C91_exponential_gamma (u := 1 / 2 ^ 53) (F := binary 53) (hF := by meets_hypothesis) (x_total := ⟨2⟩)
    (n := ⟨2⟩) (prior := ⟨⟨3⟩, ⟨2⟩⟩) (hx := by meets_hypothesis) (hn := by meets_hypothesis)
    (hp := by meets_hypothesis)

example := C91_gamma_known_shape (u := 1 / 2 ^ 53) (F := binary 53) (hF := by meets_hypothesis) (x_total := ⟨2⟩)
    (n := ⟨2⟩) (alpha := ⟨2⟩) (prior := ⟨⟨3⟩, ⟨2⟩⟩) (hx := by meets_hypothesis) (hn := by meets_hypothesis)
    (ha := by meets_hypothesis) (hp := by meets_hypothesis)

example := C91_inverse_gamma_known_rate (u := 1 / 2 ^ 53) (F := binary 53) (hF := by meets_hypothesis)
    (x_total := ⟨2⟩) (n := ⟨2⟩) (alpha := ⟨2⟩) (prior := ⟨⟨3⟩, ⟨2⟩⟩) (hx := by meets_hypothesis)
    (hn := by meets_hypothesis) (ha := by meets_hypothesis) (hp := by meets_hypothesis)

example := C91_weibull_inverse_gamma_known_shape (u := 1 / 2 ^ 53) (F := binary 53) (hF := by meets_hypothesis)
    (n := ⟨2⟩) (x_beta_total := ⟨2⟩) (prior := ⟨⟨3⟩, ⟨2⟩⟩) (hn := by meets_hypothesis) (hx := by meets_hypothesis)
    (hp := by meets_hypothesis)

example := C91_normal_known_variance (u := 1 / 2 ^ 53) (F := binary 53) (hF := by meets_hypothesis) (x_total := ⟨2⟩)
    (n := ⟨2⟩) (var := ⟨2⟩) (prior := ⟨⟨1⟩, ⟨2⟩⟩) (hs := by meets_hypothesis) (hn := by meets_hypothesis)
    (hv := by meets_hypothesis)

example := C91_normal_known_precision (u := 1 / 2 ^ 53) (F := binary 53) (hF := by meets_hypothesis)
    (x_total := ⟨2⟩) (n := ⟨2⟩) (precision := ⟨2⟩) (prior := ⟨⟨1⟩, ⟨2⟩⟩) (hs := by meets_hypothesis)
    (hn := by meets_hypothesis) (hv := by meets_hypothesis)

example := C91_normal_predictive (u := 1 / 2 ^ 53) (F := binary 53) (hF := by meets_hypothesis) (M := Unit)
    (d := ⟨⟨0⟩, ⟨1⟩, ⟨2⟩, ⟨3⟩⟩) (hl := by meets_hypothesis) (ha := by meets_hypothesis) (hb := by meets_hypothesis)

example := C91_normal_partial (u := 1 / 2 ^ 53) (F := binary 53) (hF := by meets_hypothesis) (M := Unit)
    (x_total := ⟨2⟩) (x2_total := ⟨2⟩) (n := ⟨2⟩) (d := ⟨⟨0⟩, ⟨1⟩, ⟨2⟩, ⟨3⟩⟩) (hn := by meets_hypothesis)
    (hl := by meets_hypothesis) (ha := by meets_hypothesis)

/-! ## C109 -/

example := C109_binomial_beta (n := 2) (x := 2) (prior := ⟨3, 2⟩) (hn := by meets_hypothesis)
    (hx := by meets_hypothesis) (hp := by meets_hypothesis)

example := C109_bernoulli_beta (x := 2) (prior := ⟨3, 2⟩) (hx := by meets_hypothesis) (hp := by meets_hypothesis)

example := C109_negative_binomial_beta (r := 2) (n := 2) (x := 2) (prior := ⟨3, 2⟩) (hr := by meets_hypothesis)
    (hn := by meets_hypothesis) (hx := by meets_hypothesis) (hp := by meets_hypothesis)

example := C109_hypergeometric_beta_binomial (x_total := 2) (n := 2) (prior := ⟨5, 2, 3⟩)
    (hx := by meets_hypothesis) (hp := by meets_hypothesis)

example := C109_geometric_beta (x_total := 2) (n := 2) (prior := ⟨3, 2⟩) (one_start := true)
    (hx := by meets_hypothesis) (hn := by meets_hypothesis) (hp := by meets_hypothesis)

example := C109_poisson_gamma (x_total := 2) (n := 2) (prior := ⟨3, 2⟩) (hx := by meets_hypothesis)
    (hn := by meets_hypothesis) (hp := by meets_hypothesis)

example := C109_poisson_gamma_predictive (n := 2) (d := ⟨3, 2⟩) (hn := by meets_hypothesis)
    (hd := by meets_hypothesis) (hb := by meets_hypothesis)

example := C109_exponential_gamma (x_total := 2) (n := 2) (prior := ⟨3, 2⟩) (hx := by meets_hypothesis)
    (hn := by meets_hypothesis) (hp := by meets_hypothesis)

example := C109_gamma_known_shape (x_total := 2) (n := 2) (alpha := 2) (prior := ⟨3, 2⟩) (hx := by meets_hypothesis)
    (hn := by meets_hypothesis) (ha := by meets_hypothesis) (hp := by meets_hypothesis)

example := C109_inverse_gamma_known_rate (reciprocal_x_total := 2) (n := 2) (alpha := 2) (prior := ⟨3, 2⟩)
    (hx := by meets_hypothesis) (hn := by meets_hypothesis) (ha := by meets_hypothesis) (hp := by meets_hypothesis)

example := C109_weibull_inverse_gamma_known_shape (n := 2) (x_beta_total := 2) (prior := ⟨3, 2⟩)
    (hn := by meets_hypothesis) (hx := by meets_hypothesis) (hp := by meets_hypothesis)

example := C109_uniform_pareto (x_max := 2) (n := 2) (prior := ⟨1, 3⟩) (hx := by meets_hypothesis)
    (hn := by meets_hypothesis) (hp := by meets_hypothesis)

example := C109_gamma (x_total := 2) (x_prod := 2) (n := 2) (prior := ⟨2, 1, 3, 3⟩) (hx := by meets_hypothesis)
    (hq := by meets_hypothesis) (hn := by meets_hypothesis) (hp := by meets_hypothesis)

example := C109_gamma_known_rate (x_prod := 2) (n := 2) (rate := 2) (prior := ⟨1, 2, 3⟩) (hx := by meets_hypothesis)
    (hn := by meets_hypothesis) (hp := by meets_hypothesis)

example := C109_von_mises_known_direction (centered_cos_total := 2) (n := 2) (prior := ⟨3, 1⟩)
    (hx := by meets_hypothesis) (hn := by meets_hypothesis) (hp := by meets_hypothesis)

example := C109_normal_known_variance (x_total := 2) (n := 2) (var := 2) (prior := ⟨1, 2⟩)
    (hx := by meets_hypothesis) (hn := by meets_hypothesis) (hv := by meets_hypothesis) (hp := by meets_hypothesis)
    (hn0 := by meets_hypothesis) (hv0 := by meets_hypothesis) (hs := by meets_hypothesis)

example := C109_normal_known_precision (x_total := 2) (n := 2) (precision := 2) (prior := ⟨1, 2⟩)
    (hx := by meets_hypothesis) (hn := by meets_hypothesis) (hv := by meets_hypothesis) (hp := by meets_hypothesis)
    (hn0 := by meets_hypothesis) (hv0 := by meets_hypothesis) (hs := by meets_hypothesis)

example := C109_normal_known_variance_predictive (var := 2) (d := ⟨1, 2⟩) (hv := by meets_hypothesis)
    (hd := by meets_hypothesis) (hv0 := by meets_hypothesis) (hs := by meets_hypothesis)

example := C109_normal_known_precision_predictive (precision := 2) (d := ⟨1, 2⟩) (hv := by meets_hypothesis)
    (hd := by meets_hypothesis) (hv0 := by meets_hypothesis) (hs := by meets_hypothesis)

example := C109_normal_known_mean (x_total := 2) (x2_total := 2) (n := 2) (mu := 2) (prior :=
    (.inverseGamma ⟨3, 2⟩)) (hx := by meets_hypothesis) (h2 := by meets_hypothesis) (hn := by meets_hypothesis)
    (hm := by meets_hypothesis) (hn0 := by meets_hypothesis) (hp := by meets_hypothesis)
    (hpos := by meets_hypothesis)

example := C109_normal_known_mean_predictive (mu := 2) (d := (.inverseGamma ⟨3, 2⟩)) (hm := by meets_hypothesis)
    (hd := by meets_hypothesis) (hpos := by meets_hypothesis)

example := C109_normal_nig (M := Unit) (x_total := 2) (x2_total := 2) (n := 2) (mu := 2) (nu := 2) (alpha := 2)
    (beta := 2) (hx := by meets_hypothesis) (h2 := by meets_hypothesis) (hn := by meets_hypothesis)
    (hn0 := by meets_hypothesis) (hm := by meets_hypothesis) (hnu := by meets_hypothesis)
    (ha := by meets_hypothesis) (hb := by meets_hypothesis) (hl := by meets_hypothesis)

example := C109_normal_predictive (M := Unit) (d := ⟨0, 1, 2, 3⟩) (hd := by meets_hypothesis)
    (hl := by meets_hypothesis) (ha := by meets_hypothesis) (hb := by meets_hypothesis)

/-! ## C110 -/

example := C110_poisson_gamma (x_total := (.num 2)) (n := (.num 2)) (prior := ⟨(.num 3), (.num 2)⟩)
    (hx := by meets_hypothesis) (hn := by meets_hypothesis) (hp := by meets_hypothesis)

example := C110_exponential_gamma (x_total := (.num 2)) (n := (.num 2)) (prior := ⟨(.num 3), (.num 2)⟩)
    (hx := by meets_hypothesis) (hn := by meets_hypothesis) (hp := by meets_hypothesis)

example := C110_weibull_inverse_gamma_known_shape (n := (.num 2)) (x_beta_total := (.num 2)) (prior := ⟨(.num 3),
    (.num 2)⟩) (hn := by meets_hypothesis) (hx := by meets_hypothesis) (hp := by meets_hypothesis)

example := C110_binomial_beta (n := (.num 2)) (x := (.num 2)) (prior := ⟨(.num 3), (.num 2)⟩)
    (hn := by meets_hypothesis) (hx := by meets_hypothesis) (hp := by meets_hypothesis)

example := C110_bernoulli_beta (x := (.num 2)) (prior := ⟨(.num 3), (.num 2)⟩) (hx := by meets_hypothesis)
    (hp := by meets_hypothesis)

example := C110_geometric_beta (x_total := (.num 2)) (n := (.num 2)) (prior := ⟨(.num 3), (.num 2)⟩)
    (one_start := true) (hx := by meets_hypothesis) (hn := by meets_hypothesis) (hp := by meets_hypothesis)

end Conj
