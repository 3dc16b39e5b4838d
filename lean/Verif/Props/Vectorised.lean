import Verif.Lemmas.Broadcast

set_option linter.unusedVariables false
set_option linter.unusedSectionVars false

/-! Written by `tools/gen_elementwise.py`. -/

/-!
# C46: vectorised inputs act element by element

For every elementwise model, two theorems.  The first: when data and prior parameters can all be
broadcast to the shape `S`, the call succeeds, every parameter of the result can be broadcast to
`S`, and at every index it is the scalar result of the elements at that index.  The second (`_shapes`): each
parameter of the result has exactly the broadcast of the shapes it is computed from, and a
`ValueError` is raised when those are incompatible.  The element type `β` is any number type.
-/

namespace Conj

open Spec NdArr

variable {β : Type} [PyNum β]

theorem C46_binomial_beta (S : List ℕ) (n x : NdArr β) (prior : Beta (NdArr β))
    (h_n : FitsIn n.rshape S) (h_x : FitsIn x.rshape S)
    (hp : Params.All (fun a => FitsIn a.rshape S) prior) :
    ActsElementwise S (Conj.binomial_beta (.ok n) (.ok x) (fmap Except.ok prior))
      (fun idx => Conj.binomial_beta (n.atIdx idx) (x.atIdx idx) (fmap (fun a => a.atIdx idx) prior)) :=
  acts_of_rel' (rel_binomial_beta (elem_numRel S) (elem_ok h_n) (elem_ok h_x) (elem_params hp)) (fun _ => rfl)

theorem C46_binomial_beta_shapes (n x : NdArr β) (prior : Beta (NdArr β)) :
    let post := Conj.binomial_beta (.ok n) (.ok x) (fmap Except.ok prior)
    HasShapeOf post.alpha [prior.alpha, x] ∧ HasShapeOf post.beta [prior.beta, n, x] := by
  refine ⟨?_, ?_⟩ <;> dsimp only [Conj.binomial_beta, getBinomialBetaPosteriorParams, fmap] <;> has_shape

theorem C46_binomial_beta_predictive (S : List ℕ) (n : NdArr β) (distribution : Beta (NdArr β))
    (h_n : FitsIn n.rshape S)
    (hp : Params.All (fun a => FitsIn a.rshape S) distribution) :
    ActsElementwise S (Conj.binomial_beta_predictive (.ok n) (fmap Except.ok distribution))
      (fun idx => Conj.binomial_beta_predictive (n.atIdx idx) (fmap (fun a => a.atIdx idx) distribution)) :=
  acts_of_rel' (rel_binomial_beta_predictive (elem_numRel S) (elem_ok h_n) (elem_params hp)) (fun _ => rfl)

theorem C46_binomial_beta_predictive_shapes (n : NdArr β) (distribution : Beta (NdArr β)) :
    let post := Conj.binomial_beta_predictive (.ok n) (fmap Except.ok distribution)
    HasShapeOf post.n [n] ∧ HasShapeOf post.alpha [distribution.alpha] ∧ HasShapeOf post.beta [distribution.beta] := by
  refine ⟨?_, ?_, ?_⟩ <;> dsimp only [Conj.binomial_beta_predictive, fmap] <;> has_shape

theorem C46_bernoulli_beta (S : List ℕ) (x : NdArr β) (prior : Beta (NdArr β))
    (h_x : FitsIn x.rshape S)
    (hp : Params.All (fun a => FitsIn a.rshape S) prior) :
    ActsElementwise S (Conj.bernoulli_beta (.ok x) (fmap Except.ok prior))
      (fun idx => Conj.bernoulli_beta (x.atIdx idx) (fmap (fun a => a.atIdx idx) prior)) :=
  acts_of_rel' (rel_bernoulli_beta (elem_numRel S) (elem_ok h_x) (elem_params hp)) (fun _ => rfl)

theorem C46_bernoulli_beta_shapes (x : NdArr β) (prior : Beta (NdArr β)) :
    let post := Conj.bernoulli_beta (.ok x) (fmap Except.ok prior)
    HasShapeOf post.alpha [prior.alpha, x] ∧ HasShapeOf post.beta [prior.beta, x] := by
  refine ⟨?_, ?_⟩ <;> dsimp only [Conj.bernoulli_beta, binomial_beta, getBinomialBetaPosteriorParams, fmap] <;> has_shape

theorem C46_bernoulli_beta_predictive (S : List ℕ) (distribution : Beta (NdArr β))
   
    (hp : Params.All (fun a => FitsIn a.rshape S) distribution) :
    ActsElementwise S (Conj.bernoulli_beta_predictive (fmap Except.ok distribution))
      (fun idx => Conj.bernoulli_beta_predictive (fmap (fun a => a.atIdx idx) distribution)) :=
  acts_of_rel' (rel_bernoulli_beta_predictive (elem_numRel S) (elem_params hp)) (fun _ => rfl)

theorem C46_bernoulli_beta_predictive_shapes (distribution : Beta (NdArr β)) :
    let post := Conj.bernoulli_beta_predictive (fmap Except.ok distribution)
    HasShapeOf post.n [] ∧ HasShapeOf post.alpha [distribution.alpha] ∧ HasShapeOf post.beta [distribution.beta] := by
  refine ⟨?_, ?_, ?_⟩ <;> dsimp only [Conj.bernoulli_beta_predictive, binomial_beta_predictive, fmap] <;> has_shape

theorem C46_negative_binomial_beta (S : List ℕ) (r n x : NdArr β) (prior : Beta (NdArr β))
    (h_r : FitsIn r.rshape S) (h_n : FitsIn n.rshape S) (h_x : FitsIn x.rshape S)
    (hp : Params.All (fun a => FitsIn a.rshape S) prior) :
    ActsElementwise S (Conj.negative_binomial_beta (.ok r) (.ok n) (.ok x) (fmap Except.ok prior))
      (fun idx => Conj.negative_binomial_beta (r.atIdx idx) (n.atIdx idx) (x.atIdx idx) (fmap (fun a => a.atIdx idx) prior)) :=
  acts_of_rel' (rel_negative_binomial_beta (elem_numRel S) (elem_ok h_r) (elem_ok h_n) (elem_ok h_x) (elem_params hp)) (fun _ => rfl)

theorem C46_negative_binomial_beta_shapes (r n x : NdArr β) (prior : Beta (NdArr β)) :
    let post := Conj.negative_binomial_beta (.ok r) (.ok n) (.ok x) (fmap Except.ok prior)
    HasShapeOf post.alpha [prior.alpha, r, n] ∧ HasShapeOf post.beta [prior.beta, x] := by
  refine ⟨?_, ?_⟩ <;> dsimp only [Conj.negative_binomial_beta, fmap] <;> has_shape

theorem C46_negative_binomial_beta_predictive (S : List ℕ) (r : NdArr β) (distribution : Beta (NdArr β))
    (h_r : FitsIn r.rshape S)
    (hp : Params.All (fun a => FitsIn a.rshape S) distribution) :
    ActsElementwise S (Conj.negative_binomial_beta_predictive (.ok r) (fmap Except.ok distribution))
      (fun idx => Conj.negative_binomial_beta_predictive (r.atIdx idx) (fmap (fun a => a.atIdx idx) distribution)) :=
  acts_of_rel' (rel_negative_binomial_beta_predictive (elem_numRel S) (elem_ok h_r) (elem_params hp)) (fun _ => rfl)

theorem C46_negative_binomial_beta_predictive_shapes (r : NdArr β) (distribution : Beta (NdArr β)) :
    let post := Conj.negative_binomial_beta_predictive (.ok r) (fmap Except.ok distribution)
    HasShapeOf post.n [r] ∧ HasShapeOf post.alpha [distribution.alpha] ∧ HasShapeOf post.beta [distribution.beta] := by
  refine ⟨?_, ?_, ?_⟩ <;> dsimp only [Conj.negative_binomial_beta_predictive, fmap] <;> has_shape

theorem C46_hypergeometric_beta_binomial (S : List ℕ) (x_total n : NdArr β) (prior : BetaBinomial (NdArr β))
    (h_x_total : FitsIn x_total.rshape S) (h_n : FitsIn n.rshape S)
    (hp : Params.All (fun a => FitsIn a.rshape S) prior) :
    ActsElementwise S (Conj.hypergeometric_beta_binomial (.ok x_total) (.ok n) (fmap Except.ok prior))
      (fun idx => Conj.hypergeometric_beta_binomial (x_total.atIdx idx) (n.atIdx idx) (fmap (fun a => a.atIdx idx) prior)) :=
  acts_of_rel' (rel_hypergeometric_beta_binomial (elem_numRel S) (elem_ok h_x_total) (elem_ok h_n) (elem_params hp)) (fun _ => rfl)

theorem C46_hypergeometric_beta_binomial_shapes (x_total n : NdArr β) (prior : BetaBinomial (NdArr β)) :
    let post := Conj.hypergeometric_beta_binomial (.ok x_total) (.ok n) (fmap Except.ok prior)
    HasShapeOf post.n [prior.n] ∧ HasShapeOf post.alpha [prior.alpha, x_total] ∧ HasShapeOf post.beta [prior.beta, prior.n, x_total] := by
  refine ⟨?_, ?_, ?_⟩ <;> dsimp only [Conj.hypergeometric_beta_binomial, fmap] <;> has_shape

theorem C46_geometric_beta (S : List ℕ) (x_total n : NdArr β) (prior : Beta (NdArr β)) (one_start : Bool)
    (h_x_total : FitsIn x_total.rshape S) (h_n : FitsIn n.rshape S)
    (hp : Params.All (fun a => FitsIn a.rshape S) prior) :
    ActsElementwise S (Conj.geometric_beta (.ok x_total) (.ok n) (fmap Except.ok prior) one_start)
      (fun idx => Conj.geometric_beta (x_total.atIdx idx) (n.atIdx idx) (fmap (fun a => a.atIdx idx) prior) one_start) :=
  acts_of_rel' (rel_geometric_beta (elem_numRel S) (elem_ok h_x_total) (elem_ok h_n) one_start (elem_params hp)) (fun _ => by cases one_start <;> rfl)

theorem C46_geometric_beta_shapes (x_total n : NdArr β) (prior : Beta (NdArr β)) (one_start : Bool) :
    let post := Conj.geometric_beta (.ok x_total) (.ok n) (fmap Except.ok prior) one_start
    HasShapeOf post.alpha [prior.alpha, n] ∧ HasShapeOf post.beta (if one_start then [prior.beta, x_total, n] else [prior.beta, x_total]) := by
  cases one_start
  all_goals
    (refine ⟨?_, ?_⟩ <;> dsimp only [Conj.geometric_beta, fmap] <;>
      try simp only [if_true, Bool.false_eq_true, if_false]) <;> has_shape

theorem C46_geometric_beta_predictive (S : List ℕ) (distribution : Beta (NdArr β)) (one_start : Bool)
   
    (hp : Params.All (fun a => FitsIn a.rshape S) distribution) :
    ActsElementwise S (Conj.geometric_beta_predictive (fmap Except.ok distribution) one_start)
      (fun idx => Conj.geometric_beta_predictive (fmap (fun a => a.atIdx idx) distribution) one_start) :=
  acts_of_rel' (rel_geometric_beta_predictive (elem_numRel S) one_start (elem_params hp)) (fun _ => by cases one_start <;> rfl)

theorem C46_geometric_beta_predictive_shapes (distribution : Beta (NdArr β)) (one_start : Bool) :
    let post := Conj.geometric_beta_predictive (fmap Except.ok distribution) one_start
    HasShapeOf post.alpha [distribution.alpha] ∧ HasShapeOf post.beta [distribution.beta] := by
  refine ⟨?_, ?_⟩ <;> dsimp only [Conj.geometric_beta_predictive, fmap] <;> has_shape

theorem C46_poisson_gamma (S : List ℕ) (x_total n : NdArr β) (prior : Gamma (NdArr β))
    (h_x_total : FitsIn x_total.rshape S) (h_n : FitsIn n.rshape S)
    (hp : Params.All (fun a => FitsIn a.rshape S) prior) :
    ActsElementwise S (Conj.poisson_gamma (.ok x_total) (.ok n) (fmap Except.ok prior))
      (fun idx => Conj.poisson_gamma (x_total.atIdx idx) (n.atIdx idx) (fmap (fun a => a.atIdx idx) prior)) :=
  acts_of_rel' (rel_poisson_gamma (elem_numRel S) (elem_ok h_x_total) (elem_ok h_n) (elem_params hp)) (fun _ => rfl)

theorem C46_poisson_gamma_shapes (x_total n : NdArr β) (prior : Gamma (NdArr β)) :
    let post := Conj.poisson_gamma (.ok x_total) (.ok n) (fmap Except.ok prior)
    HasShapeOf post.alpha [prior.alpha, x_total] ∧ HasShapeOf post.beta [prior.beta, n] := by
  refine ⟨?_, ?_⟩ <;> dsimp only [Conj.poisson_gamma, getPoissonGammaPosteriorParams, fmap] <;> has_shape

theorem C46_poisson_gamma_predictive (S : List ℕ) (n : NdArr β) (distribution : Gamma (NdArr β))
    (h_n : FitsIn n.rshape S)
    (hp : Params.All (fun a => FitsIn a.rshape S) distribution) :
    ActsElementwise S (Conj.poisson_gamma_predictive (fmap Except.ok distribution) (.ok n))
      (fun idx => Conj.poisson_gamma_predictive (fmap (fun a => a.atIdx idx) distribution) (n.atIdx idx)) :=
  acts_of_rel' (rel_poisson_gamma_predictive (elem_numRel S) (elem_ok h_n) (elem_params hp)) (fun _ => rfl)

theorem C46_poisson_gamma_predictive_shapes (n : NdArr β) (distribution : Gamma (NdArr β)) :
    let post := Conj.poisson_gamma_predictive (fmap Except.ok distribution) (.ok n)
    HasShapeOf post.n [n, distribution.alpha] ∧ HasShapeOf post.p [distribution.beta] := by
  refine ⟨?_, ?_⟩ <;> dsimp only [Conj.poisson_gamma_predictive, fmap] <;> has_shape

theorem C46_exponential_gamma (S : List ℕ) (x_total n : NdArr β) (prior : Gamma (NdArr β))
    (h_x_total : FitsIn x_total.rshape S) (h_n : FitsIn n.rshape S)
    (hp : Params.All (fun a => FitsIn a.rshape S) prior) :
    ActsElementwise S (Conj.exponential_gamma (.ok x_total) (.ok n) (fmap Except.ok prior))
      (fun idx => Conj.exponential_gamma (x_total.atIdx idx) (n.atIdx idx) (fmap (fun a => a.atIdx idx) prior)) :=
  acts_of_rel' (rel_exponential_gamma (elem_numRel S) (elem_ok h_x_total) (elem_ok h_n) (elem_params hp)) (fun _ => rfl)

theorem C46_exponential_gamma_shapes (x_total n : NdArr β) (prior : Gamma (NdArr β)) :
    let post := Conj.exponential_gamma (.ok x_total) (.ok n) (fmap Except.ok prior)
    HasShapeOf post.alpha [prior.alpha, x_total] ∧ HasShapeOf post.beta [prior.beta, n] := by
  refine ⟨?_, ?_⟩ <;> dsimp only [Conj.exponential_gamma, getExponentialGammaPosteriorParams, getPoissonGammaPosteriorParams, fmap] <;> has_shape

theorem C46_exponential_gamma_predictive (S : List ℕ) (distribution : Gamma (NdArr β))
   
    (hp : Params.All (fun a => FitsIn a.rshape S) distribution) :
    ActsElementwise S (Conj.exponential_gamma_predictive (fmap Except.ok distribution))
      (fun idx => Conj.exponential_gamma_predictive (fmap (fun a => a.atIdx idx) distribution)) :=
  acts_of_rel' (rel_exponential_gamma_predictive (elem_numRel S) (elem_params hp)) (fun _ => rfl)

theorem C46_exponential_gamma_predictive_shapes (distribution : Gamma (NdArr β)) :
    let post := Conj.exponential_gamma_predictive (fmap Except.ok distribution)
    HasShapeOf post.alpha [distribution.beta] ∧ HasShapeOf post.lam [distribution.alpha] := by
  refine ⟨?_, ?_⟩ <;> dsimp only [Conj.exponential_gamma_predictive, fmap] <;> has_shape

theorem C46_gamma_known_shape (S : List ℕ) (x_total n alpha : NdArr β) (prior : Gamma (NdArr β))
    (h_x_total : FitsIn x_total.rshape S) (h_n : FitsIn n.rshape S) (h_alpha : FitsIn alpha.rshape S)
    (hp : Params.All (fun a => FitsIn a.rshape S) prior) :
    ActsElementwise S (Conj.gamma_known_shape (.ok x_total) (.ok n) (.ok alpha) (fmap Except.ok prior))
      (fun idx => Conj.gamma_known_shape (x_total.atIdx idx) (n.atIdx idx) (alpha.atIdx idx) (fmap (fun a => a.atIdx idx) prior)) :=
  acts_of_rel' (rel_gamma_known_shape (elem_numRel S) (elem_ok h_x_total) (elem_ok h_n) (elem_ok h_alpha) (elem_params hp)) (fun _ => rfl)

theorem C46_gamma_known_shape_shapes (x_total n alpha : NdArr β) (prior : Gamma (NdArr β)) :
    let post := Conj.gamma_known_shape (.ok x_total) (.ok n) (.ok alpha) (fmap Except.ok prior)
    HasShapeOf post.alpha [prior.alpha, n, alpha] ∧ HasShapeOf post.beta [prior.beta, x_total] := by
  refine ⟨?_, ?_⟩ <;> dsimp only [Conj.gamma_known_shape, fmap] <;> has_shape

theorem C46_gamma_known_shape_predictive (S : List ℕ) (alpha : NdArr β) (distribution : Gamma (NdArr β))
    (h_alpha : FitsIn alpha.rshape S)
    (hp : Params.All (fun a => FitsIn a.rshape S) distribution) :
    ActsElementwise S (Conj.gamma_known_shape_predictive (fmap Except.ok distribution) (.ok alpha))
      (fun idx => Conj.gamma_known_shape_predictive (fmap (fun a => a.atIdx idx) distribution) (alpha.atIdx idx)) :=
  acts_of_rel' (rel_gamma_known_shape_predictive (elem_numRel S) (elem_ok h_alpha) (elem_params hp)) (fun _ => rfl)

theorem C46_gamma_known_shape_predictive_shapes (alpha : NdArr β) (distribution : Gamma (NdArr β)) :
    let post := Conj.gamma_known_shape_predictive (fmap Except.ok distribution) (.ok alpha)
    HasShapeOf post.alpha [alpha] ∧ HasShapeOf post.beta [distribution.alpha] ∧ HasShapeOf post.lam [distribution.beta] := by
  refine ⟨?_, ?_, ?_⟩ <;> dsimp only [Conj.gamma_known_shape_predictive, fmap] <;> has_shape

theorem C46_inverse_gamma_known_rate (S : List ℕ) (reciprocal_x_total n alpha : NdArr β) (prior : Gamma (NdArr β))
    (h_reciprocal_x_total : FitsIn reciprocal_x_total.rshape S) (h_n : FitsIn n.rshape S) (h_alpha : FitsIn alpha.rshape S)
    (hp : Params.All (fun a => FitsIn a.rshape S) prior) :
    ActsElementwise S (Conj.inverse_gamma_known_rate (.ok reciprocal_x_total) (.ok n) (.ok alpha) (fmap Except.ok prior))
      (fun idx => Conj.inverse_gamma_known_rate (reciprocal_x_total.atIdx idx) (n.atIdx idx) (alpha.atIdx idx) (fmap (fun a => a.atIdx idx) prior)) :=
  acts_of_rel' (rel_inverse_gamma_known_rate (elem_numRel S) (elem_ok h_reciprocal_x_total) (elem_ok h_n) (elem_ok h_alpha) (elem_params hp)) (fun _ => rfl)

theorem C46_inverse_gamma_known_rate_shapes (reciprocal_x_total n alpha : NdArr β) (prior : Gamma (NdArr β)) :
    let post := Conj.inverse_gamma_known_rate (.ok reciprocal_x_total) (.ok n) (.ok alpha) (fmap Except.ok prior)
    HasShapeOf post.alpha [prior.alpha, n, alpha] ∧ HasShapeOf post.beta [prior.beta, reciprocal_x_total] := by
  refine ⟨?_, ?_⟩ <;> dsimp only [Conj.inverse_gamma_known_rate, fmap] <;> has_shape

theorem C46_normal_known_variance (S : List ℕ) (x_total n var : NdArr β) (prior : Normal (NdArr β))
    (h_x_total : FitsIn x_total.rshape S) (h_n : FitsIn n.rshape S) (h_var : FitsIn var.rshape S)
    (hp : Params.All (fun a => FitsIn a.rshape S) prior) :
    ActsElementwise S (Conj.normal_known_variance (.ok x_total) (.ok n) (.ok var) (fmap Except.ok prior))
      (fun idx => Conj.normal_known_variance (x_total.atIdx idx) (n.atIdx idx) (var.atIdx idx) (fmap (fun a => a.atIdx idx) prior)) :=
  acts_of_rel' (rel_normal_known_variance (elem_numRel S) (elem_ok h_x_total) (elem_ok h_n) (elem_ok h_var) (elem_params hp)) (fun _ => rfl)

theorem C46_normal_known_variance_shapes (x_total n var : NdArr β) (prior : Normal (NdArr β)) :
    let post := Conj.normal_known_variance (.ok x_total) (.ok n) (.ok var) (fmap Except.ok prior)
    HasShapeOf post.mu [prior.mu, prior.sigma, x_total, n, var] ∧ HasShapeOf post.sigma [prior.sigma, n, var] := by
  refine ⟨?_, ?_⟩ <;> dsimp only [Conj.normal_known_variance, fmap] <;> has_shape

theorem C46_normal_known_variance_predictive (S : List ℕ) (var : NdArr β) (distribution : Normal (NdArr β))
    (h_var : FitsIn var.rshape S)
    (hp : Params.All (fun a => FitsIn a.rshape S) distribution) :
    ActsElementwise S (Conj.normal_known_variance_predictive (.ok var) (fmap Except.ok distribution))
      (fun idx => Conj.normal_known_variance_predictive (var.atIdx idx) (fmap (fun a => a.atIdx idx) distribution)) :=
  acts_of_rel' (rel_normal_known_variance_predictive (elem_numRel S) (elem_ok h_var) (elem_params hp)) (fun _ => rfl)

theorem C46_normal_known_variance_predictive_shapes (var : NdArr β) (distribution : Normal (NdArr β)) :
    let post := Conj.normal_known_variance_predictive (.ok var) (fmap Except.ok distribution)
    HasShapeOf post.mu [distribution.mu] ∧ HasShapeOf post.sigma [var, distribution.sigma] := by
  refine ⟨?_, ?_⟩ <;> dsimp only [Conj.normal_known_variance_predictive, fmap] <;> has_shape

theorem C46_normal_known_precision (S : List ℕ) (x_total n precision : NdArr β) (prior : Normal (NdArr β))
    (h_x_total : FitsIn x_total.rshape S) (h_n : FitsIn n.rshape S) (h_precision : FitsIn precision.rshape S)
    (hp : Params.All (fun a => FitsIn a.rshape S) prior) :
    ActsElementwise S (Conj.normal_known_precision (.ok x_total) (.ok n) (.ok precision) (fmap Except.ok prior))
      (fun idx => Conj.normal_known_precision (x_total.atIdx idx) (n.atIdx idx) (precision.atIdx idx) (fmap (fun a => a.atIdx idx) prior)) :=
  acts_of_rel' (rel_normal_known_precision (elem_numRel S) (elem_ok h_x_total) (elem_ok h_n) (elem_ok h_precision) (elem_params hp)) (fun _ => rfl)

theorem C46_normal_known_precision_shapes (x_total n precision : NdArr β) (prior : Normal (NdArr β)) :
    let post := Conj.normal_known_precision (.ok x_total) (.ok n) (.ok precision) (fmap Except.ok prior)
    HasShapeOf post.mu [prior.mu, prior.sigma, x_total, n, precision] ∧ HasShapeOf post.sigma [prior.sigma, n, precision] := by
  refine ⟨?_, ?_⟩ <;> dsimp only [Conj.normal_known_precision, normal_known_variance, fmap] <;> has_shape

theorem C46_normal_known_precision_predictive (S : List ℕ) (precision : NdArr β) (distribution : Normal (NdArr β))
    (h_precision : FitsIn precision.rshape S)
    (hp : Params.All (fun a => FitsIn a.rshape S) distribution) :
    ActsElementwise S (Conj.normal_known_precision_predictive (.ok precision) (fmap Except.ok distribution))
      (fun idx => Conj.normal_known_precision_predictive (precision.atIdx idx) (fmap (fun a => a.atIdx idx) distribution)) :=
  acts_of_rel' (rel_normal_known_precision_predictive (elem_numRel S) (elem_ok h_precision) (elem_params hp)) (fun _ => rfl)

theorem C46_normal_known_precision_predictive_shapes (precision : NdArr β) (distribution : Normal (NdArr β)) :
    let post := Conj.normal_known_precision_predictive (.ok precision) (fmap Except.ok distribution)
    HasShapeOf post.mu [distribution.mu] ∧ HasShapeOf post.sigma [precision, distribution.sigma] := by
  refine ⟨?_, ?_⟩ <;> dsimp only [Conj.normal_known_precision_predictive, normal_known_variance_predictive, fmap] <;> has_shape

theorem C46_uniform_pareto (S : List ℕ) (x_max n : NdArr β) (prior : Pareto (NdArr β)) (max_fn : β → β → β)
    (h_x_max : FitsIn x_max.rshape S) (h_n : FitsIn n.rshape S)
    (hp : Params.All (fun a => FitsIn a.rshape S) prior) :
    ActsElementwise S (Conj.uniform_pareto (.ok x_max) (.ok n) (fmap Except.ok prior) (ufunc2 max_fn))
      (fun idx => Conj.uniform_pareto (x_max.atIdx idx) (n.atIdx idx) (fmap (fun a => a.atIdx idx) prior) max_fn) :=
  acts_of_rel' (rel_uniform_pareto (max_fn' := fun r s i => max_fn (r i) (s i)) (elem_numRel S) (elem_ok h_x_max) (elem_ok h_n) (fun h h' => elem_op max_fn h h') (elem_params hp)) (fun _ => rfl)

theorem C46_uniform_pareto_shapes (x_max n : NdArr β) (prior : Pareto (NdArr β)) (max_fn : β → β → β) :
    let post := Conj.uniform_pareto (.ok x_max) (.ok n) (fmap Except.ok prior) (ufunc2 max_fn)
    HasShapeOf post.x_m [prior.x_m, x_max] ∧ HasShapeOf post.alpha [prior.alpha, n] := by
  refine ⟨?_, ?_⟩ <;> dsimp only [Conj.uniform_pareto, fmap] <;> has_shape

theorem C46_pareto_gamma (S : List ℕ) (n ln_x_total x_m : NdArr β) (prior : Gamma (NdArr β)) (ln : β → β)
    (h_n : FitsIn n.rshape S) (h_ln_x_total : FitsIn ln_x_total.rshape S) (h_x_m : FitsIn x_m.rshape S)
    (hp : Params.All (fun a => FitsIn a.rshape S) prior) :
    ActsElementwise S (Conj.pareto_gamma (.ok n) (.ok ln_x_total) (.ok x_m) (fmap Except.ok prior) (ufunc1 ln))
      (fun idx => Conj.pareto_gamma (n.atIdx idx) (ln_x_total.atIdx idx) (x_m.atIdx idx) (fmap (fun a => a.atIdx idx) prior) ln) :=
  acts_of_rel' (rel_pareto_gamma (ln' := fun r i => ln (r i)) (elem_numRel S) (elem_ok h_n) (elem_ok h_ln_x_total) (elem_ok h_x_m) (fun h => elem_map ln h) (elem_params hp)) (fun _ => rfl)

theorem C46_pareto_gamma_shapes (n ln_x_total x_m : NdArr β) (prior : Gamma (NdArr β)) (ln : β → β) :
    let post := Conj.pareto_gamma (.ok n) (.ok ln_x_total) (.ok x_m) (fmap Except.ok prior) (ufunc1 ln)
    HasShapeOf post.alpha [prior.alpha, n] ∧ HasShapeOf post.beta [prior.beta, ln_x_total, n, x_m] := by
  refine ⟨?_, ?_⟩ <;> dsimp only [Conj.pareto_gamma, fmap] <;> has_shape

theorem C46_gamma (S : List ℕ) (x_total x_prod n : NdArr β) (prior : GammaProportional (NdArr β))
    (h_x_total : FitsIn x_total.rshape S) (h_x_prod : FitsIn x_prod.rshape S) (h_n : FitsIn n.rshape S)
    (hp : Params.All (fun a => FitsIn a.rshape S) prior) :
    ActsElementwise S (Conj.gamma (.ok x_total) (.ok x_prod) (.ok n) (fmap Except.ok prior))
      (fun idx => Conj.gamma (x_total.atIdx idx) (x_prod.atIdx idx) (n.atIdx idx) (fmap (fun a => a.atIdx idx) prior)) :=
  acts_of_rel' (rel_gamma (elem_numRel S) (elem_ok h_x_total) (elem_ok h_x_prod) (elem_ok h_n) (elem_params hp)) (fun _ => rfl)

theorem C46_gamma_shapes (x_total x_prod n : NdArr β) (prior : GammaProportional (NdArr β)) :
    let post := Conj.gamma (.ok x_total) (.ok x_prod) (.ok n) (fmap Except.ok prior)
    HasShapeOf post.p [prior.p, x_prod] ∧ HasShapeOf post.q [prior.q, x_total] ∧ HasShapeOf post.r [prior.r, n] ∧ HasShapeOf post.s [prior.s, n] := by
  refine ⟨?_, ?_, ?_, ?_⟩ <;> dsimp only [Conj.gamma, fmap] <;> has_shape

theorem C46_gamma_known_rate (S : List ℕ) (x_prod n beta : NdArr β) (prior : GammaKnownRateProportional (NdArr β))
    (h_x_prod : FitsIn x_prod.rshape S) (h_n : FitsIn n.rshape S) (h_beta : FitsIn beta.rshape S)
    (hp : Params.All (fun a => FitsIn a.rshape S) prior) :
    ActsElementwise S (Conj.gamma_known_rate (.ok x_prod) (.ok n) (.ok beta) (fmap Except.ok prior))
      (fun idx => Conj.gamma_known_rate (x_prod.atIdx idx) (n.atIdx idx) (beta.atIdx idx) (fmap (fun a => a.atIdx idx) prior)) :=
  acts_of_rel' (rel_gamma_known_rate (elem_numRel S) (elem_ok h_x_prod) (elem_ok h_n) (elem_ok h_beta) (elem_params hp)) (fun _ => rfl)

theorem C46_gamma_known_rate_shapes (x_prod n beta : NdArr β) (prior : GammaKnownRateProportional (NdArr β)) :
    let post := Conj.gamma_known_rate (.ok x_prod) (.ok n) (.ok beta) (fmap Except.ok prior)
    HasShapeOf post.a [prior.a, x_prod] ∧ HasShapeOf post.b [prior.b, n] ∧ HasShapeOf post.c [prior.c, n] := by
  refine ⟨?_, ?_, ?_⟩ <;> dsimp only [Conj.gamma_known_rate, fmap] <;> has_shape

theorem C46_beta (S : List ℕ) (x_prod one_minus_x_prod n : NdArr β) (prior : BetaProportional (NdArr β))
    (h_x_prod : FitsIn x_prod.rshape S) (h_one_minus_x_prod : FitsIn one_minus_x_prod.rshape S) (h_n : FitsIn n.rshape S)
    (hp : Params.All (fun a => FitsIn a.rshape S) prior) :
    ActsElementwise S (Conj.beta (.ok x_prod) (.ok one_minus_x_prod) (.ok n) (fmap Except.ok prior))
      (fun idx => Conj.beta (x_prod.atIdx idx) (one_minus_x_prod.atIdx idx) (n.atIdx idx) (fmap (fun a => a.atIdx idx) prior)) :=
  acts_of_rel' (rel_beta (elem_numRel S) (elem_ok h_x_prod) (elem_ok h_one_minus_x_prod) (elem_ok h_n) (elem_params hp)) (fun _ => rfl)

theorem C46_beta_shapes (x_prod one_minus_x_prod n : NdArr β) (prior : BetaProportional (NdArr β)) :
    let post := Conj.beta (.ok x_prod) (.ok one_minus_x_prod) (.ok n) (fmap Except.ok prior)
    HasShapeOf post.p [prior.p, x_prod] ∧ HasShapeOf post.q [prior.q, one_minus_x_prod] ∧ HasShapeOf post.k [prior.k, n] := by
  refine ⟨?_, ?_, ?_⟩ <;> dsimp only [Conj.beta, fmap] <;> has_shape

theorem C46_von_mises_known_concentration (S : List ℕ) (cos_total sin_total n kappa : NdArr β) (prior : VonMisesKnownConcentration (NdArr β)) (sin : β → β) (cos : β → β) (arctan2 : β → β → β)
    (h_cos_total : FitsIn cos_total.rshape S) (h_sin_total : FitsIn sin_total.rshape S) (h_n : FitsIn n.rshape S) (h_kappa : FitsIn kappa.rshape S)
    (hp : Params.All (fun a => FitsIn a.rshape S) prior) :
    ActsElementwise S (Conj.von_mises_known_concentration (.ok cos_total) (.ok sin_total) (.ok n) (.ok kappa) (fmap Except.ok prior) (ufunc1 sin) (ufunc1 cos) (ufunc2 arctan2))
      (fun idx => Conj.von_mises_known_concentration (cos_total.atIdx idx) (sin_total.atIdx idx) (n.atIdx idx) (kappa.atIdx idx) (fmap (fun a => a.atIdx idx) prior) sin cos arctan2) :=
  acts_of_rel' (rel_von_mises_known_concentration (sin' := fun r i => sin (r i)) (cos' := fun r i => cos (r i)) (arctan2' := fun r s i => arctan2 (r i) (s i)) (elem_numRel S) (elem_ok h_cos_total) (elem_ok h_sin_total) (elem_ok h_n) (elem_ok h_kappa) (fun h => elem_map sin h) (fun h => elem_map cos h) (fun h h' => elem_op arctan2 h h') (elem_params hp)) (fun _ => rfl)

theorem C46_von_mises_known_concentration_shapes (cos_total sin_total n kappa : NdArr β) (prior : VonMisesKnownConcentration (NdArr β)) (sin : β → β) (cos : β → β) (arctan2 : β → β → β) :
    let post := Conj.von_mises_known_concentration (.ok cos_total) (.ok sin_total) (.ok n) (.ok kappa) (fmap Except.ok prior) (ufunc1 sin) (ufunc1 cos) (ufunc2 arctan2)
    HasShapeOf post.a [prior.a, prior.b, sin_total, kappa] ∧ HasShapeOf post.b [prior.a, prior.b, sin_total, cos_total] := by
  refine ⟨?_, ?_⟩ <;> dsimp only [Conj.von_mises_known_concentration, fmap] <;> has_shape

theorem C46_von_mises_known_direction (S : List ℕ) (centered_cos_total n : NdArr β) (prior : VonMisesKnownDirectionProportional (NdArr β))
    (h_centered_cos_total : FitsIn centered_cos_total.rshape S) (h_n : FitsIn n.rshape S)
    (hp : Params.All (fun a => FitsIn a.rshape S) prior) :
    ActsElementwise S (Conj.von_mises_known_direction (.ok centered_cos_total) (.ok n) (fmap Except.ok prior))
      (fun idx => Conj.von_mises_known_direction (centered_cos_total.atIdx idx) (n.atIdx idx) (fmap (fun a => a.atIdx idx) prior)) :=
  acts_of_rel' (rel_von_mises_known_direction (elem_numRel S) (elem_ok h_centered_cos_total) (elem_ok h_n) (elem_params hp)) (fun _ => rfl)

theorem C46_von_mises_known_direction_shapes (centered_cos_total n : NdArr β) (prior : VonMisesKnownDirectionProportional (NdArr β)) :
    let post := Conj.von_mises_known_direction (.ok centered_cos_total) (.ok n) (fmap Except.ok prior)
    HasShapeOf post.c [prior.c, n] ∧ HasShapeOf post.r [prior.r, centered_cos_total] := by
  refine ⟨?_, ?_⟩ <;> dsimp only [Conj.von_mises_known_direction, fmap] <;> has_shape

theorem C46_weibull_inverse_gamma_known_shape (S : List ℕ) (n x_beta_total : NdArr β) (prior : InverseGamma (NdArr β))
    (h_n : FitsIn n.rshape S) (h_x_beta_total : FitsIn x_beta_total.rshape S)
    (hp : Params.All (fun a => FitsIn a.rshape S) prior) :
    ActsElementwise S (Conj.weibull_inverse_gamma_known_shape (.ok n) (.ok x_beta_total) (fmap Except.ok prior))
      (fun idx => Conj.weibull_inverse_gamma_known_shape (n.atIdx idx) (x_beta_total.atIdx idx) (fmap (fun a => a.atIdx idx) prior)) :=
  acts_of_rel' (rel_weibull_inverse_gamma_known_shape (elem_numRel S) (elem_ok h_n) (elem_ok h_x_beta_total) (elem_params hp)) (fun _ => rfl)

theorem C46_weibull_inverse_gamma_known_shape_shapes (n x_beta_total : NdArr β) (prior : InverseGamma (NdArr β)) :
    let post := Conj.weibull_inverse_gamma_known_shape (.ok n) (.ok x_beta_total) (fmap Except.ok prior)
    HasShapeOf post.alpha [prior.alpha, n] ∧ HasShapeOf post.beta [prior.beta, x_beta_total] := by
  refine ⟨?_, ?_⟩ <;> dsimp only [Conj.weibull_inverse_gamma_known_shape, fmap] <;> has_shape

theorem C46_normal_known_mean (S : List ℕ) (x_total x2_total n mu : NdArr β) (prior : VariancePrior (NdArr β))
    (h1 : FitsIn x_total.rshape S) (h2 : FitsIn x2_total.rshape S) (h3 : FitsIn n.rshape S)
    (h4 : FitsIn mu.rshape S) (hp : Params.All (fun a => FitsIn a.rshape S) prior) :
    ActsElementwise S
      (normal_known_mean (.ok x_total) (.ok x2_total) (.ok n) (.ok mu) (fmap Except.ok prior))
      (fun idx => normal_known_mean (x_total.atIdx idx) (x2_total.atIdx idx) (n.atIdx idx)
        (mu.atIdx idx) (fmap (fun a => a.atIdx idx) prior)) :=
  acts_of_rel' (rel_normal_known_mean (elem_numRel S) (elem_ok h1) (elem_ok h2) (elem_ok h3)
    (elem_ok h4) (elem_params hp)) (fun _ => by cases prior <;> rfl)

theorem C46_normal_known_mean_predictive (S : List ℕ) (mu : NdArr β) (distribution : VariancePrior (NdArr β))
    (h4 : FitsIn mu.rshape S) (hp : Params.All (fun a => FitsIn a.rshape S) distribution) :
    ActsElementwise S
      (normal_known_mean_predictive (.ok mu) (fmap Except.ok distribution))
      (fun idx => normal_known_mean_predictive (mu.atIdx idx) (fmap (fun a => a.atIdx idx) distribution)) :=
  acts_of_rel' (rel_normal_known_mean_predictive (elem_numRel S)
    (elem_ok h4) (elem_params hp)) (fun _ => by cases distribution <;> rfl)

/-- `normal` with a `NormalGamma` prior. -/
theorem C46_normal_normal_gamma {M : Type} (S : List ℕ) (x_total x2_total n : NdArr β) (prior : NormalGamma (NdArr β))
    (h1 : FitsIn x_total.rshape S) (h2 : FitsIn x2_total.rshape S) (h3 : FitsIn n.rshape S)
    (hp : Params.All (fun a => FitsIn a.rshape S) prior) :
    ∃ (post : NormalGamma (ArrExpr β)) (scal : List ℕ → NormalGamma β),
      normal (M := M) (.ok x_total) (.ok x2_total) (.ok n) (.ng (fmap Except.ok prior)) = .ok (.ng post) ∧
      (∀ idx, normal (M := M) (x_total.atIdx idx) (x2_total.atIdx idx) (n.atIdx idx)
        (.ng (fmap (fun a => a.atIdx idx) prior)) = .ok (.ng (scal idx))) ∧
      ActsElementwise S post scal := by
  refine ⟨_, _, rfl, fun idx => rfl, ?_⟩
  obtain ⟨a, b, c, d⟩ := elem_params hp
  exact acts_of_rel' (rel_normalUpdate (elem_numRel S) (elem_ok h1) (elem_ok h2) (elem_ok h3) a b c d)
    (d' := ⟨_, _, _, _⟩) (fun _ => rfl)

/-- `normal` with a `NormalInverseGamma` prior that has `nu`. -/
theorem C46_normal_normal_inverse_gamma {M : Type} (S : List ℕ) (x_total x2_total n nu mu alpha beta : NdArr β)
    (h1 : FitsIn x_total.rshape S) (h2 : FitsIn x2_total.rshape S) (h3 : FitsIn n.rshape S)
    (h4 : FitsIn nu.rshape S) (h5 : FitsIn mu.rshape S) (h6 : FitsIn alpha.rshape S)
    (h7 : FitsIn beta.rshape S) :
    let prior : UnivariateNIG M (NdArr β) :=
      { mu := mu, alpha := alpha, beta := beta, delta_inverse := none, nu := some nu }
    ∃ (post : UnivariateNIG M (ArrExpr β)) (scal : List ℕ → UnivariateNIG M β),
      normal (.ok x_total) (.ok x2_total) (.ok n) (.nig (fmap (D := UnivariateNIG M) Except.ok prior)) = .ok (.nig post) ∧
      (∀ idx, normal (x_total.atIdx idx) (x2_total.atIdx idx) (n.atIdx idx)
        (.nig (fmap (D := UnivariateNIG M) (fun a => a.atIdx idx) prior)) = .ok (.nig (scal idx))) ∧
      ActsElementwise S post scal := by
  refine ⟨_, _, rfl, fun idx => rfl, ?_⟩
  obtain ⟨a, b, c, d⟩ := rel_normalUpdate (elem_numRel S) (elem_ok h1) (elem_ok h2) (elem_ok h3)
    (elem_ok h5) (elem_ok h4) (elem_ok h6) (elem_ok h7)
  exact acts_of_rel' (D := UnivariateNIG M) (d' := ⟨_, _, _, none, some _⟩)
    ⟨a, c, d, .some b, rfl⟩ (fun _ => rfl)

/-- Shapes of the `normal` posterior (fields in the order mu, lam, alpha, beta). -/
theorem C46_normal_shapes (x_total x2_total n mu nu alpha beta : NdArr β) :
    let r := normalUpdate (.ok x_total : ArrExpr β) (.ok x2_total) (.ok n) (.ok mu) (.ok nu) (.ok alpha) (.ok beta)
    HasShapeOf r.1 [mu, nu, x_total, n] ∧ HasShapeOf r.2.1 [nu, n] ∧ HasShapeOf r.2.2.1 [alpha, n] ∧
      HasShapeOf r.2.2.2 [beta, mu, nu, x_total, x2_total, n] := by
  refine ⟨?_, ?_, ?_, ?_⟩ <;> dsimp only [normalUpdate] <;> has_shape

theorem C46_normal_predictive_normal_gamma {M : Type} (S : List ℕ) (d : NormalGamma (NdArr β))
    (hp : Params.All (fun a => FitsIn a.rshape S) d) :
    ∃ (pred : StudentT (ArrExpr β)) (scal : List ℕ → StudentT β),
      normal_predictive (M := M) (.ng (fmap Except.ok d)) = .ok pred ∧
      (∀ idx, normal_predictive (M := M) (.ng (fmap (fun a => a.atIdx idx) d)) = .ok (scal idx)) ∧
      ActsElementwise S pred scal := by
  refine ⟨_, _, rfl, fun idx => rfl, ?_⟩
  exact acts_of_rel' (rel_normal_predictive (M := M) (elem_numRel S) (d := .ng (fmap Except.ok d))
    (d' := .ng (fmap NdArr.atIdx d)) (elem_params hp)) (d' := ⟨_, _, _⟩) (fun _ => rfl)

/-- Prior parameters that no formula combines are not compared: `alpha` of shape (2,) and `beta`
of shape (3,) give a posterior with those two shapes and no error. -/
theorem C46_uncombined_shapes_not_compared (n x a b : β) :
    ∃ post : Beta (NdArr β),
      binomial_beta (.ok (.scalar n) : ArrExpr β) (.ok (.scalar x))
        (fmap Except.ok { alpha := ⟨[2], fun _ => a⟩, beta := ⟨[3], fun _ => b⟩ : Beta (NdArr β) }) =
        fmap Except.ok post ∧ post.alpha.rshape = [2] ∧ post.beta.rshape = [3] ∧
      ¬ ∃ S, Params.All (fun a => FitsIn a.rshape S) post := by
  refine ⟨⟨⟨[2], fun _ => a + x⟩, ⟨[3], fun _ => b + (n - x)⟩⟩, rfl, rfl, rfl, ?_⟩
  rintro ⟨S, h1, h2⟩
  match S, h1, h2 with
  | D :: S, h1, h2 =>
    have := h1.1
    have := h2.1
    simp only at *
    omega

/-- Shapes (3, 1), (4,), a number and (3, 4) meet the hypotheses with `S` = (3, 4). -/
example : FitsIn [1, 3] [4, 3] ∧ FitsIn [4] [4, 3] ∧ FitsIn [] [4, 3] ∧ FitsIn [4, 3] [4, 3] := by
  simp [FitsIn]

/-- Shapes (3,) and (4,) are incompatible, so the second clause of `HasShapeOf` applies. -/
example : ¬ ∃ S, FitsIn [3] S ∧ FitsIn [4] S := by
  rintro ⟨S, h1, h2⟩
  match S, h1, h2 with
  | D :: S, h1, h2 =>
    have := h1.1
    have := h2.1
    omega

/-- Two coins at once: the second entry of the vectorised posterior. -/
example : ∃ post : Beta (NdArr ℝ),
    binomial_beta (.ok ⟨[2], fun i => if i = [0] then 10 else 20⟩ : ArrExpr ℝ) (.ok (.scalar 5))
      (fmap Except.ok { alpha := .scalar 1, beta := .scalar 1 : Beta (NdArr ℝ) }) = fmap Except.ok post ∧
    fmap (fun a => a.atIdx [1]) post = (⟨6, 16⟩ : Beta ℝ) := by
  obtain ⟨p, h1, -, h3⟩ := C46_binomial_beta [2] ⟨[2], fun i => if i = [0] then (10 : ℝ) else 20⟩ (.scalar 5)
    { alpha := .scalar 1, beta := .scalar 1 } ⟨Or.inr rfl, trivial⟩ trivial ⟨trivial, trivial⟩
  refine ⟨p, h1, (h3 [1] (by simp [InShape])).trans ?_⟩
  simp only [binomial_beta, getBinomialBetaPosteriorParams, fmap, atIdx, scalar, proj, Beta.mk.injEq]
  norm_num

end Conj
