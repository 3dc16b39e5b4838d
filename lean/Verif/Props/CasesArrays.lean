import Verif.Lemmas.ConcreteCases
import Verif.Props.SliceCommutes
import Verif.Props.Vectorised

/-!
# Concrete inputs that meet the hypotheses: the theorems about arrays and indexing

Each example applies one theorem to inputs that are written out, and proves its hypotheses for them.
-/

open MeasureTheory Set Real Matrix

namespace Conj

open Scipy Spec

/-! ## C46 -/

example := C46_binomial_beta_predictive (β := ℝ) (S := [4, 3]) (n := (.scalar 2 : NdArr ℝ))
    (distribution := ⟨(⟨[1, 3], fun i => 3 + i.sum⟩ : NdArr ℝ), (⟨[1, 3], fun i => 2 + i.sum⟩ : NdArr ℝ)⟩)
    (h_n := by meets_hypothesis) (hp := by meets_hypothesis)

example := C46_bernoulli_beta (β := ℝ) (S := [4, 3]) (x := (⟨[1, 3], fun i => 2 + i.sum⟩ : NdArr ℝ))
    (prior := ⟨(⟨[1, 3], fun i => 3 + i.sum⟩ : NdArr ℝ), (⟨[1, 3], fun i => 2 + i.sum⟩ : NdArr ℝ)⟩)
    (h_x := by meets_hypothesis) (hp := by meets_hypothesis)

example := C46_bernoulli_beta_predictive (β := ℝ) (S := [4, 3])
    (distribution := ⟨(⟨[1, 3], fun i => 3 + i.sum⟩ : NdArr ℝ), (⟨[1, 3], fun i => 2 + i.sum⟩ : NdArr ℝ)⟩)
    (hp := by meets_hypothesis)

example := C46_negative_binomial_beta (β := ℝ) (S := [4, 3]) (r := (⟨[1, 3], fun i => 2 + i.sum⟩ : NdArr ℝ)) (n :=
    (.scalar 2 : NdArr ℝ)) (x := (⟨[1, 3], fun i => 2 + i.sum⟩ : NdArr ℝ))
    (prior := ⟨(⟨[1, 3], fun i => 3 + i.sum⟩ : NdArr ℝ), (⟨[1, 3], fun i => 2 + i.sum⟩ : NdArr ℝ)⟩)
    (h_r := by meets_hypothesis) (h_n := by meets_hypothesis) (h_x := by meets_hypothesis)
    (hp := by meets_hypothesis)

example := C46_negative_binomial_beta_predictive (β := ℝ) (S := [4, 3]) (r :=
    (⟨[1, 3], fun i => 2 + i.sum⟩ : NdArr ℝ)) (distribution := ⟨(⟨[1, 3], fun i => 3 + i.sum⟩ : NdArr ℝ),
    (⟨[1, 3], fun i => 2 + i.sum⟩ : NdArr ℝ)⟩) (h_r := by meets_hypothesis) (hp := by meets_hypothesis)

example := C46_hypergeometric_beta_binomial (β := ℝ) (S := [4, 3]) (x_total :=
    (⟨[1, 3], fun i => 2 + i.sum⟩ : NdArr ℝ)) (n := (.scalar 2 : NdArr ℝ))
    (prior := ⟨(⟨[1, 3], fun i => 5 + i.sum⟩ : NdArr ℝ), (⟨[1, 3], fun i => 2 + i.sum⟩ : NdArr ℝ),
    (⟨[1, 3], fun i => 3 + i.sum⟩ : NdArr ℝ)⟩) (h_x_total := by meets_hypothesis) (h_n := by meets_hypothesis)
    (hp := by meets_hypothesis)

example := C46_geometric_beta (β := ℝ) (S := [4, 3]) (x_total := (⟨[1, 3], fun i => 2 + i.sum⟩ : NdArr ℝ)) (n :=
    (.scalar 2 : NdArr ℝ)) (prior := ⟨(⟨[1, 3], fun i => 3 + i.sum⟩ : NdArr ℝ),
    (⟨[1, 3], fun i => 2 + i.sum⟩ : NdArr ℝ)⟩) (one_start := true) (h_x_total := by meets_hypothesis)
    (h_n := by meets_hypothesis) (hp := by meets_hypothesis)

example := C46_geometric_beta_predictive (β := ℝ) (S := [4, 3])
    (distribution := ⟨(⟨[1, 3], fun i => 3 + i.sum⟩ : NdArr ℝ), (⟨[1, 3], fun i => 2 + i.sum⟩ : NdArr ℝ)⟩)
    (one_start := true) (hp := by meets_hypothesis)

example := C46_poisson_gamma (β := ℝ) (S := [4, 3]) (x_total := (⟨[1, 3], fun i => 2 + i.sum⟩ : NdArr ℝ)) (n :=
    (.scalar 2 : NdArr ℝ)) (prior := ⟨(⟨[1, 3], fun i => 3 + i.sum⟩ : NdArr ℝ),
    (⟨[1, 3], fun i => 2 + i.sum⟩ : NdArr ℝ)⟩) (h_x_total := by meets_hypothesis) (h_n := by meets_hypothesis)
    (hp := by meets_hypothesis)

example := C46_poisson_gamma_predictive (β := ℝ) (S := [4, 3]) (n := (.scalar 2 : NdArr ℝ))
    (distribution := ⟨(⟨[1, 3], fun i => 3 + i.sum⟩ : NdArr ℝ), (⟨[1, 3], fun i => 2 + i.sum⟩ : NdArr ℝ)⟩)
    (h_n := by meets_hypothesis) (hp := by meets_hypothesis)

example := C46_exponential_gamma (β := ℝ) (S := [4, 3]) (x_total := (⟨[1, 3], fun i => 2 + i.sum⟩ : NdArr ℝ)) (n :=
    (.scalar 2 : NdArr ℝ)) (prior := ⟨(⟨[1, 3], fun i => 3 + i.sum⟩ : NdArr ℝ),
    (⟨[1, 3], fun i => 2 + i.sum⟩ : NdArr ℝ)⟩) (h_x_total := by meets_hypothesis) (h_n := by meets_hypothesis)
    (hp := by meets_hypothesis)

example := C46_exponential_gamma_predictive (β := ℝ) (S := [4, 3])
    (distribution := ⟨(⟨[1, 3], fun i => 3 + i.sum⟩ : NdArr ℝ), (⟨[1, 3], fun i => 2 + i.sum⟩ : NdArr ℝ)⟩)
    (hp := by meets_hypothesis)

example := C46_gamma_known_shape (β := ℝ) (S := [4, 3]) (x_total := (⟨[1, 3], fun i => 2 + i.sum⟩ : NdArr ℝ)) (n :=
    (.scalar 2 : NdArr ℝ)) (alpha := (⟨[1, 3], fun i => 2 + i.sum⟩ : NdArr ℝ))
    (prior := ⟨(⟨[1, 3], fun i => 3 + i.sum⟩ : NdArr ℝ), (⟨[1, 3], fun i => 2 + i.sum⟩ : NdArr ℝ)⟩)
    (h_x_total := by meets_hypothesis) (h_n := by meets_hypothesis) (h_alpha := by meets_hypothesis)
    (hp := by meets_hypothesis)

example := C46_gamma_known_shape_predictive (β := ℝ) (S := [4, 3]) (alpha :=
    (⟨[1, 3], fun i => 2 + i.sum⟩ : NdArr ℝ)) (distribution := ⟨(⟨[1, 3], fun i => 3 + i.sum⟩ : NdArr ℝ),
    (⟨[1, 3], fun i => 2 + i.sum⟩ : NdArr ℝ)⟩) (h_alpha := by meets_hypothesis) (hp := by meets_hypothesis)

example := C46_inverse_gamma_known_rate (β := ℝ) (S := [4, 3]) (reciprocal_x_total :=
    (⟨[1, 3], fun i => 2 + i.sum⟩ : NdArr ℝ)) (n := (.scalar 2 : NdArr ℝ)) (alpha :=
    (⟨[1, 3], fun i => 2 + i.sum⟩ : NdArr ℝ)) (prior := ⟨(⟨[1, 3], fun i => 3 + i.sum⟩ : NdArr ℝ),
    (⟨[1, 3], fun i => 2 + i.sum⟩ : NdArr ℝ)⟩) (h_reciprocal_x_total := by meets_hypothesis)
    (h_n := by meets_hypothesis) (h_alpha := by meets_hypothesis) (hp := by meets_hypothesis)

example := C46_normal_known_variance (β := ℝ) (S := [4, 3]) (x_total := (⟨[1, 3], fun i => 2 + i.sum⟩ : NdArr ℝ))
    (n := (.scalar 2 : NdArr ℝ)) (var := (⟨[1, 3], fun i => 2 + i.sum⟩ : NdArr ℝ))
    (prior := ⟨(⟨[1, 3], fun i => 1 + i.sum⟩ : NdArr ℝ), (⟨[1, 3], fun i => 2 + i.sum⟩ : NdArr ℝ)⟩)
    (h_x_total := by meets_hypothesis) (h_n := by meets_hypothesis) (h_var := by meets_hypothesis)
    (hp := by meets_hypothesis)

example := C46_normal_known_variance_predictive (β := ℝ) (S := [4, 3]) (var :=
    (⟨[1, 3], fun i => 2 + i.sum⟩ : NdArr ℝ)) (distribution := ⟨(⟨[1, 3], fun i => 1 + i.sum⟩ : NdArr ℝ),
    (⟨[1, 3], fun i => 2 + i.sum⟩ : NdArr ℝ)⟩) (h_var := by meets_hypothesis) (hp := by meets_hypothesis)

example := C46_normal_known_precision (β := ℝ) (S := [4, 3]) (x_total := (⟨[1, 3], fun i => 2 + i.sum⟩ : NdArr ℝ))
    (n := (.scalar 2 : NdArr ℝ)) (precision := (⟨[1, 3], fun i => 2 + i.sum⟩ : NdArr ℝ))
    (prior := ⟨(⟨[1, 3], fun i => 1 + i.sum⟩ : NdArr ℝ), (⟨[1, 3], fun i => 2 + i.sum⟩ : NdArr ℝ)⟩)
    (h_x_total := by meets_hypothesis) (h_n := by meets_hypothesis) (h_precision := by meets_hypothesis)
    (hp := by meets_hypothesis)

example := C46_normal_known_precision_predictive (β := ℝ) (S := [4, 3]) (precision :=
    (⟨[1, 3], fun i => 2 + i.sum⟩ : NdArr ℝ)) (distribution := ⟨(⟨[1, 3], fun i => 1 + i.sum⟩ : NdArr ℝ),
    (⟨[1, 3], fun i => 2 + i.sum⟩ : NdArr ℝ)⟩) (h_precision := by meets_hypothesis) (hp := by meets_hypothesis)

example := C46_gamma (β := ℝ) (S := [4, 3]) (x_total := (⟨[1, 3], fun i => 2 + i.sum⟩ : NdArr ℝ)) (x_prod :=
    (⟨[1, 3], fun i => 2 + i.sum⟩ : NdArr ℝ)) (n := (.scalar 2 : NdArr ℝ))
    (prior := ⟨(⟨[1, 3], fun i => 2 + i.sum⟩ : NdArr ℝ), (⟨[1, 3], fun i => 1 + i.sum⟩ : NdArr ℝ),
    (⟨[1, 3], fun i => 3 + i.sum⟩ : NdArr ℝ), (⟨[1, 3], fun i => 3 + i.sum⟩ : NdArr ℝ)⟩)
    (h_x_total := by meets_hypothesis) (h_x_prod := by meets_hypothesis) (h_n := by meets_hypothesis)
    (hp := by meets_hypothesis)

example := C46_gamma_known_rate (β := ℝ) (S := [4, 3]) (x_prod := (⟨[1, 3], fun i => 2 + i.sum⟩ : NdArr ℝ)) (n :=
    (.scalar 2 : NdArr ℝ)) (beta := (⟨[1, 3], fun i => 2 + i.sum⟩ : NdArr ℝ))
    (prior := ⟨(⟨[1, 3], fun i => 1 + i.sum⟩ : NdArr ℝ), (⟨[1, 3], fun i => 2 + i.sum⟩ : NdArr ℝ),
    (⟨[1, 3], fun i => 3 + i.sum⟩ : NdArr ℝ)⟩) (h_x_prod := by meets_hypothesis) (h_n := by meets_hypothesis)
    (h_beta := by meets_hypothesis) (hp := by meets_hypothesis)

example := C46_beta (β := ℝ) (S := [4, 3]) (x_prod := (⟨[1, 3], fun i => 2 + i.sum⟩ : NdArr ℝ)) (one_minus_x_prod :=
    (⟨[1, 3], fun i => 2 + i.sum⟩ : NdArr ℝ)) (n := (.scalar 2 : NdArr ℝ))
    (prior := ⟨(⟨[1, 3], fun i => 1/2 + i.sum⟩ : NdArr ℝ), (⟨[1, 3], fun i => 1/2 + i.sum⟩ : NdArr ℝ),
    (⟨[1, 3], fun i => 2 + i.sum⟩ : NdArr ℝ)⟩) (h_x_prod := by meets_hypothesis)
    (h_one_minus_x_prod := by meets_hypothesis) (h_n := by meets_hypothesis) (hp := by meets_hypothesis)

example := C46_von_mises_known_direction (β := ℝ) (S := [4, 3]) (centered_cos_total :=
    (⟨[1, 3], fun i => 2 + i.sum⟩ : NdArr ℝ)) (n := (.scalar 2 : NdArr ℝ))
    (prior := ⟨(⟨[1, 3], fun i => 3 + i.sum⟩ : NdArr ℝ), (⟨[1, 3], fun i => 1 + i.sum⟩ : NdArr ℝ)⟩)
    (h_centered_cos_total := by meets_hypothesis) (h_n := by meets_hypothesis) (hp := by meets_hypothesis)

example := C46_weibull_inverse_gamma_known_shape (β := ℝ) (S := [4, 3]) (n := (.scalar 2 : NdArr ℝ))
    (x_beta_total := (⟨[1, 3], fun i => 2 + i.sum⟩ : NdArr ℝ)) (prior := ⟨(⟨[1, 3], fun i => 3 + i.sum⟩ : NdArr ℝ),
    (⟨[1, 3], fun i => 2 + i.sum⟩ : NdArr ℝ)⟩) (h_n := by meets_hypothesis) (h_x_beta_total := by meets_hypothesis)
    (hp := by meets_hypothesis)

example := C46_normal_normal_gamma (β := ℝ) (M := Unit) (S := [4, 3]) (x_total :=
    (⟨[1, 3], fun i => 2 + i.sum⟩ : NdArr ℝ)) (x2_total := (⟨[1, 3], fun i => 2 + i.sum⟩ : NdArr ℝ)) (n :=
    (.scalar 2 : NdArr ℝ)) (prior := ⟨(⟨[1, 3], fun i => 0 + i.sum⟩ : NdArr ℝ),
    (⟨[1, 3], fun i => 1 + i.sum⟩ : NdArr ℝ), (⟨[1, 3], fun i => 2 + i.sum⟩ : NdArr ℝ),
    (⟨[1, 3], fun i => 3 + i.sum⟩ : NdArr ℝ)⟩) (h1 := by meets_hypothesis) (h2 := by meets_hypothesis)
    (h3 := by meets_hypothesis) (hp := by meets_hypothesis)

example := C46_normal_normal_inverse_gamma (β := ℝ) (M := Unit) (S := [4, 3]) (x_total :=
    (⟨[1, 3], fun i => 2 + i.sum⟩ : NdArr ℝ)) (x2_total := (⟨[1, 3], fun i => 2 + i.sum⟩ : NdArr ℝ)) (n :=
    (.scalar 2 : NdArr ℝ)) (nu := (⟨[1, 3], fun i => 2 + i.sum⟩ : NdArr ℝ)) (mu :=
    (⟨[1, 3], fun i => 2 + i.sum⟩ : NdArr ℝ)) (alpha := (⟨[1, 3], fun i => 2 + i.sum⟩ : NdArr ℝ)) (beta :=
    (⟨[1, 3], fun i => 2 + i.sum⟩ : NdArr ℝ)) (h1 := by meets_hypothesis) (h2 := by meets_hypothesis)
    (h3 := by meets_hypothesis) (h4 := by meets_hypothesis) (h5 := by meets_hypothesis) (h6 := by meets_hypothesis)
    (h7 := by meets_hypothesis)

example := C46_normal_predictive_normal_gamma (β := ℝ) (M := Unit) (S := [4, 3])
    (d := ⟨(⟨[1, 3], fun i => 0 + i.sum⟩ : NdArr ℝ), (⟨[1, 3], fun i => 1 + i.sum⟩ : NdArr ℝ),
    (⟨[1, 3], fun i => 2 + i.sum⟩ : NdArr ℝ), (⟨[1, 3], fun i => 3 + i.sum⟩ : NdArr ℝ)⟩) (hp := by meets_hypothesis)

/-! ## C57 -/

example := C57_binomial_beta (β := ℝ) (rk := 0) (L := 3) (i := 1) (h1 := by meets_hypothesis)
    (h2 := by meets_hypothesis) (n := (.scalar 2 : NdArr ℝ)) (x := (⟨[3], fun i => 2 + i.sum⟩ : NdArr ℝ))
    (prior := ⟨(⟨[3], fun i => 3 + i.sum⟩ : NdArr ℝ), (⟨[3], fun i => 2 + i.sum⟩ : NdArr ℝ)⟩)
    (h_n := by meets_hypothesis) (h_x := by meets_hypothesis) (hp := by meets_hypothesis)

example := C57_binomial_beta_predictive (β := ℝ) (rk := 0) (L := 3) (i := 1) (h1 := by meets_hypothesis)
    (h2 := by meets_hypothesis) (n := (.scalar 2 : NdArr ℝ))
    (distribution := ⟨(⟨[3], fun i => 3 + i.sum⟩ : NdArr ℝ), (⟨[3], fun i => 2 + i.sum⟩ : NdArr ℝ)⟩)
    (h_n := by meets_hypothesis) (hp := by meets_hypothesis)

example := C57_bernoulli_beta (β := ℝ) (rk := 0) (L := 3) (i := 1) (h1 := by meets_hypothesis)
    (h2 := by meets_hypothesis) (x := (⟨[3], fun i => 2 + i.sum⟩ : NdArr ℝ))
    (prior := ⟨(⟨[3], fun i => 3 + i.sum⟩ : NdArr ℝ), (⟨[3], fun i => 2 + i.sum⟩ : NdArr ℝ)⟩)
    (h_x := by meets_hypothesis) (hp := by meets_hypothesis)

example := C57_bernoulli_beta_predictive (β := ℝ) (rk := 0) (L := 3) (i := 1) (h1 := by meets_hypothesis)
    (h2 := by meets_hypothesis) (distribution := ⟨(⟨[3], fun i => 3 + i.sum⟩ : NdArr ℝ),
    (⟨[3], fun i => 2 + i.sum⟩ : NdArr ℝ)⟩) (hp := by meets_hypothesis)

example := C57_negative_binomial_beta (β := ℝ) (rk := 0) (L := 3) (i := 1) (h1 := by meets_hypothesis)
    (h2 := by meets_hypothesis) (r := (⟨[3], fun i => 2 + i.sum⟩ : NdArr ℝ)) (n := (.scalar 2 : NdArr ℝ)) (x :=
    (⟨[3], fun i => 2 + i.sum⟩ : NdArr ℝ)) (prior := ⟨(⟨[3], fun i => 3 + i.sum⟩ : NdArr ℝ),
    (⟨[3], fun i => 2 + i.sum⟩ : NdArr ℝ)⟩) (h_r := by meets_hypothesis) (h_n := by meets_hypothesis)
    (h_x := by meets_hypothesis) (hp := by meets_hypothesis)

example := C57_negative_binomial_beta_predictive (β := ℝ) (rk := 0) (L := 3) (i := 1) (h1 := by meets_hypothesis)
    (h2 := by meets_hypothesis) (r := (⟨[3], fun i => 2 + i.sum⟩ : NdArr ℝ))
    (distribution := ⟨(⟨[3], fun i => 3 + i.sum⟩ : NdArr ℝ), (⟨[3], fun i => 2 + i.sum⟩ : NdArr ℝ)⟩)
    (h_r := by meets_hypothesis) (hp := by meets_hypothesis)

example := C57_hypergeometric_beta_binomial (β := ℝ) (rk := 0) (L := 3) (i := 1) (h1 := by meets_hypothesis)
    (h2 := by meets_hypothesis) (x_total := (⟨[3], fun i => 2 + i.sum⟩ : NdArr ℝ)) (n := (.scalar 2 : NdArr ℝ))
    (prior := ⟨(⟨[3], fun i => 5 + i.sum⟩ : NdArr ℝ), (⟨[3], fun i => 2 + i.sum⟩ : NdArr ℝ),
    (⟨[3], fun i => 3 + i.sum⟩ : NdArr ℝ)⟩) (h_x_total := by meets_hypothesis) (h_n := by meets_hypothesis)
    (hp := by meets_hypothesis)

example := C57_geometric_beta (β := ℝ) (rk := 0) (L := 3) (i := 1) (h1 := by meets_hypothesis)
    (h2 := by meets_hypothesis) (x_total := (⟨[3], fun i => 2 + i.sum⟩ : NdArr ℝ)) (n := (.scalar 2 : NdArr ℝ))
    (prior := ⟨(⟨[3], fun i => 3 + i.sum⟩ : NdArr ℝ), (⟨[3], fun i => 2 + i.sum⟩ : NdArr ℝ)⟩) (one_start := true)
    (h_x_total := by meets_hypothesis) (h_n := by meets_hypothesis) (hp := by meets_hypothesis)

example := C57_geometric_beta_predictive (β := ℝ) (rk := 0) (L := 3) (i := 1) (h1 := by meets_hypothesis)
    (h2 := by meets_hypothesis) (distribution := ⟨(⟨[3], fun i => 3 + i.sum⟩ : NdArr ℝ),
    (⟨[3], fun i => 2 + i.sum⟩ : NdArr ℝ)⟩) (one_start := true) (hp := by meets_hypothesis)

example := C57_poisson_gamma (β := ℝ) (rk := 0) (L := 3) (i := 1) (h1 := by meets_hypothesis)
    (h2 := by meets_hypothesis) (x_total := (⟨[3], fun i => 2 + i.sum⟩ : NdArr ℝ)) (n := (.scalar 2 : NdArr ℝ))
    (prior := ⟨(⟨[3], fun i => 3 + i.sum⟩ : NdArr ℝ), (⟨[3], fun i => 2 + i.sum⟩ : NdArr ℝ)⟩)
    (h_x_total := by meets_hypothesis) (h_n := by meets_hypothesis) (hp := by meets_hypothesis)

example := C57_poisson_gamma_predictive (β := ℝ) (rk := 0) (L := 3) (i := 1) (h1 := by meets_hypothesis)
    (h2 := by meets_hypothesis) (n := (.scalar 2 : NdArr ℝ))
    (distribution := ⟨(⟨[3], fun i => 3 + i.sum⟩ : NdArr ℝ), (⟨[3], fun i => 2 + i.sum⟩ : NdArr ℝ)⟩)
    (h_n := by meets_hypothesis) (hp := by meets_hypothesis)

example := C57_exponential_gamma (β := ℝ) (rk := 0) (L := 3) (i := 1) (h1 := by meets_hypothesis)
    (h2 := by meets_hypothesis) (x_total := (⟨[3], fun i => 2 + i.sum⟩ : NdArr ℝ)) (n := (.scalar 2 : NdArr ℝ))
    (prior := ⟨(⟨[3], fun i => 3 + i.sum⟩ : NdArr ℝ), (⟨[3], fun i => 2 + i.sum⟩ : NdArr ℝ)⟩)
    (h_x_total := by meets_hypothesis) (h_n := by meets_hypothesis) (hp := by meets_hypothesis)

example := C57_exponential_gamma_predictive (β := ℝ) (rk := 0) (L := 3) (i := 1) (h1 := by meets_hypothesis)
    (h2 := by meets_hypothesis) (distribution := ⟨(⟨[3], fun i => 3 + i.sum⟩ : NdArr ℝ),
    (⟨[3], fun i => 2 + i.sum⟩ : NdArr ℝ)⟩) (hp := by meets_hypothesis)

example := C57_gamma_known_shape (β := ℝ) (rk := 0) (L := 3) (i := 1) (h1 := by meets_hypothesis)
    (h2 := by meets_hypothesis) (x_total := (⟨[3], fun i => 2 + i.sum⟩ : NdArr ℝ)) (n := (.scalar 2 : NdArr ℝ))
    (alpha := (⟨[3], fun i => 2 + i.sum⟩ : NdArr ℝ)) (prior := ⟨(⟨[3], fun i => 3 + i.sum⟩ : NdArr ℝ),
    (⟨[3], fun i => 2 + i.sum⟩ : NdArr ℝ)⟩) (h_x_total := by meets_hypothesis) (h_n := by meets_hypothesis)
    (h_alpha := by meets_hypothesis) (hp := by meets_hypothesis)

example := C57_gamma_known_shape_predictive (β := ℝ) (rk := 0) (L := 3) (i := 1) (h1 := by meets_hypothesis)
    (h2 := by meets_hypothesis) (alpha := (⟨[3], fun i => 2 + i.sum⟩ : NdArr ℝ))
    (distribution := ⟨(⟨[3], fun i => 3 + i.sum⟩ : NdArr ℝ), (⟨[3], fun i => 2 + i.sum⟩ : NdArr ℝ)⟩)
    (h_alpha := by meets_hypothesis) (hp := by meets_hypothesis)

example := C57_inverse_gamma_known_rate (β := ℝ) (rk := 0) (L := 3) (i := 1) (h1 := by meets_hypothesis)
    (h2 := by meets_hypothesis) (reciprocal_x_total := (⟨[3], fun i => 2 + i.sum⟩ : NdArr ℝ)) (n :=
    (.scalar 2 : NdArr ℝ)) (alpha := (⟨[3], fun i => 2 + i.sum⟩ : NdArr ℝ))
    (prior := ⟨(⟨[3], fun i => 3 + i.sum⟩ : NdArr ℝ), (⟨[3], fun i => 2 + i.sum⟩ : NdArr ℝ)⟩)
    (h_reciprocal_x_total := by meets_hypothesis) (h_n := by meets_hypothesis) (h_alpha := by meets_hypothesis)
    (hp := by meets_hypothesis)

example := C57_normal_known_variance (β := ℝ) (rk := 0) (L := 3) (i := 1) (h1 := by meets_hypothesis)
    (h2 := by meets_hypothesis) (x_total := (⟨[3], fun i => 2 + i.sum⟩ : NdArr ℝ)) (n := (.scalar 2 : NdArr ℝ))
    (var := (⟨[3], fun i => 2 + i.sum⟩ : NdArr ℝ)) (prior := ⟨(⟨[3], fun i => 1 + i.sum⟩ : NdArr ℝ),
    (⟨[3], fun i => 2 + i.sum⟩ : NdArr ℝ)⟩) (h_x_total := by meets_hypothesis) (h_n := by meets_hypothesis)
    (h_var := by meets_hypothesis) (hp := by meets_hypothesis)

example := C57_normal_known_variance_predictive (β := ℝ) (rk := 0) (L := 3) (i := 1) (h1 := by meets_hypothesis)
    (h2 := by meets_hypothesis) (var := (⟨[3], fun i => 2 + i.sum⟩ : NdArr ℝ))
    (distribution := ⟨(⟨[3], fun i => 1 + i.sum⟩ : NdArr ℝ), (⟨[3], fun i => 2 + i.sum⟩ : NdArr ℝ)⟩)
    (h_var := by meets_hypothesis) (hp := by meets_hypothesis)

example := C57_normal_known_precision (β := ℝ) (rk := 0) (L := 3) (i := 1) (h1 := by meets_hypothesis)
    (h2 := by meets_hypothesis) (x_total := (⟨[3], fun i => 2 + i.sum⟩ : NdArr ℝ)) (n := (.scalar 2 : NdArr ℝ))
    (precision := (⟨[3], fun i => 2 + i.sum⟩ : NdArr ℝ)) (prior := ⟨(⟨[3], fun i => 1 + i.sum⟩ : NdArr ℝ),
    (⟨[3], fun i => 2 + i.sum⟩ : NdArr ℝ)⟩) (h_x_total := by meets_hypothesis) (h_n := by meets_hypothesis)
    (h_precision := by meets_hypothesis) (hp := by meets_hypothesis)

example := C57_normal_known_precision_predictive (β := ℝ) (rk := 0) (L := 3) (i := 1) (h1 := by meets_hypothesis)
    (h2 := by meets_hypothesis) (precision := (⟨[3], fun i => 2 + i.sum⟩ : NdArr ℝ))
    (distribution := ⟨(⟨[3], fun i => 1 + i.sum⟩ : NdArr ℝ), (⟨[3], fun i => 2 + i.sum⟩ : NdArr ℝ)⟩)
    (h_precision := by meets_hypothesis) (hp := by meets_hypothesis)

example := C57_weibull_inverse_gamma_known_shape (β := ℝ) (rk := 0) (L := 3) (i := 1) (h1 := by meets_hypothesis)
    (h2 := by meets_hypothesis) (n := (.scalar 2 : NdArr ℝ)) (x_beta_total := (⟨[3], fun i => 2 + i.sum⟩ : NdArr ℝ))
    (prior := ⟨(⟨[3], fun i => 3 + i.sum⟩ : NdArr ℝ), (⟨[3], fun i => 2 + i.sum⟩ : NdArr ℝ)⟩)
    (h_n := by meets_hypothesis) (h_x_beta_total := by meets_hypothesis) (hp := by meets_hypothesis)

end Conj
