import Verif.Lemmas.SliceRel

set_option linter.unusedVariables false
set_option linter.unusedSectionVars false

/-! Written by `tools/gen_elementwise.py`. -/

/-!
# C57: slicing commutes with updating

Every argument is a number or an array of rank `rk + 1` whose first axis has length `L` (for the
vectors of the documentation `rk = 0`), and `i` is an index in range, negative ones included.  Then the
posterior of the vectorised call, indexed by `i`, is the posterior of the call with every
argument and the prior indexed by `i`: the same arrays, or the same exception when the remaining
axes do not broadcast.
-/

namespace Conj

open Spec NdArr

variable {β : Type} [PyNum β]

theorem normIndex_of_range {i : ℤ} {L : ℕ} (h1 : -(L : ℤ) ≤ i) (h2 : i < L) : ∃ j, normIndex i L = some j := by
  unfold normIndex
  split_ifs <;> simp

theorem C57_binomial_beta {rk L : ℕ} {i : ℤ} (h1 : -(L : ℤ) ≤ i) (h2 : i < L)
    (n x : NdArr β) (prior : Beta (NdArr β))
    (h_n : SliceArg rk L n) (h_x : SliceArg rk L x) (hp : Params.All (SliceArg rk L) prior) :
    Params.Rel SameOutcome (fmap (Except.map (takeSlice (.int i))) (Conj.binomial_beta (.ok n) (.ok x) (fmap Except.ok prior)))
      (Conj.binomial_beta (.ok (takeSlice (.int i) n)) (.ok (takeSlice (.int i) x)) (fmap Except.ok (fmap (takeSlice (.int i)) prior))) := by
  obtain ⟨j, hj⟩ := normIndex_of_range h1 h2
  exact same_of_sliced (rel_binomial_beta (sliced_numRel hj) (sliced_ok h_n) (sliced_ok h_x) (sliced_params hp))

theorem C57_binomial_beta_predictive {rk L : ℕ} {i : ℤ} (h1 : -(L : ℤ) ≤ i) (h2 : i < L)
    (n : NdArr β) (distribution : Beta (NdArr β))
    (h_n : SliceArg rk L n) (hp : Params.All (SliceArg rk L) distribution) :
    Params.Rel SameOutcome (fmap (Except.map (takeSlice (.int i))) (Conj.binomial_beta_predictive (.ok n) (fmap Except.ok distribution)))
      (Conj.binomial_beta_predictive (.ok (takeSlice (.int i) n)) (fmap Except.ok (fmap (takeSlice (.int i)) distribution))) := by
  obtain ⟨j, hj⟩ := normIndex_of_range h1 h2
  exact same_of_sliced (rel_binomial_beta_predictive (sliced_numRel hj) (sliced_ok h_n) (sliced_params hp))

theorem C57_bernoulli_beta {rk L : ℕ} {i : ℤ} (h1 : -(L : ℤ) ≤ i) (h2 : i < L)
    (x : NdArr β) (prior : Beta (NdArr β))
    (h_x : SliceArg rk L x) (hp : Params.All (SliceArg rk L) prior) :
    Params.Rel SameOutcome (fmap (Except.map (takeSlice (.int i))) (Conj.bernoulli_beta (.ok x) (fmap Except.ok prior)))
      (Conj.bernoulli_beta (.ok (takeSlice (.int i) x)) (fmap Except.ok (fmap (takeSlice (.int i)) prior))) := by
  obtain ⟨j, hj⟩ := normIndex_of_range h1 h2
  exact same_of_sliced (rel_bernoulli_beta (sliced_numRel hj) (sliced_ok h_x) (sliced_params hp))

theorem C57_bernoulli_beta_predictive {rk L : ℕ} {i : ℤ} (h1 : -(L : ℤ) ≤ i) (h2 : i < L)
    (distribution : Beta (NdArr β))
    (hp : Params.All (SliceArg rk L) distribution) :
    Params.Rel SameOutcome (fmap (Except.map (takeSlice (.int i))) (Conj.bernoulli_beta_predictive (fmap Except.ok distribution)))
      (Conj.bernoulli_beta_predictive (fmap Except.ok (fmap (takeSlice (.int i)) distribution))) := by
  obtain ⟨j, hj⟩ := normIndex_of_range h1 h2
  exact same_of_sliced (rel_bernoulli_beta_predictive (sliced_numRel hj) (sliced_params hp))

theorem C57_negative_binomial_beta {rk L : ℕ} {i : ℤ} (h1 : -(L : ℤ) ≤ i) (h2 : i < L)
    (r n x : NdArr β) (prior : Beta (NdArr β))
    (h_r : SliceArg rk L r) (h_n : SliceArg rk L n) (h_x : SliceArg rk L x) (hp : Params.All (SliceArg rk L) prior) :
    Params.Rel SameOutcome (fmap (Except.map (takeSlice (.int i))) (Conj.negative_binomial_beta (.ok r) (.ok n) (.ok x) (fmap Except.ok prior)))
      (Conj.negative_binomial_beta (.ok (takeSlice (.int i) r)) (.ok (takeSlice (.int i) n)) (.ok (takeSlice (.int i) x)) (fmap Except.ok (fmap (takeSlice (.int i)) prior))) := by
  obtain ⟨j, hj⟩ := normIndex_of_range h1 h2
  exact same_of_sliced (rel_negative_binomial_beta (sliced_numRel hj) (sliced_ok h_r) (sliced_ok h_n) (sliced_ok h_x) (sliced_params hp))

theorem C57_negative_binomial_beta_predictive {rk L : ℕ} {i : ℤ} (h1 : -(L : ℤ) ≤ i) (h2 : i < L)
    (r : NdArr β) (distribution : Beta (NdArr β))
    (h_r : SliceArg rk L r) (hp : Params.All (SliceArg rk L) distribution) :
    Params.Rel SameOutcome (fmap (Except.map (takeSlice (.int i))) (Conj.negative_binomial_beta_predictive (.ok r) (fmap Except.ok distribution)))
      (Conj.negative_binomial_beta_predictive (.ok (takeSlice (.int i) r)) (fmap Except.ok (fmap (takeSlice (.int i)) distribution))) := by
  obtain ⟨j, hj⟩ := normIndex_of_range h1 h2
  exact same_of_sliced (rel_negative_binomial_beta_predictive (sliced_numRel hj) (sliced_ok h_r) (sliced_params hp))

theorem C57_hypergeometric_beta_binomial {rk L : ℕ} {i : ℤ} (h1 : -(L : ℤ) ≤ i) (h2 : i < L)
    (x_total n : NdArr β) (prior : BetaBinomial (NdArr β))
    (h_x_total : SliceArg rk L x_total) (h_n : SliceArg rk L n) (hp : Params.All (SliceArg rk L) prior) :
    Params.Rel SameOutcome (fmap (Except.map (takeSlice (.int i))) (Conj.hypergeometric_beta_binomial (.ok x_total) (.ok n) (fmap Except.ok prior)))
      (Conj.hypergeometric_beta_binomial (.ok (takeSlice (.int i) x_total)) (.ok (takeSlice (.int i) n)) (fmap Except.ok (fmap (takeSlice (.int i)) prior))) := by
  obtain ⟨j, hj⟩ := normIndex_of_range h1 h2
  exact same_of_sliced (rel_hypergeometric_beta_binomial (sliced_numRel hj) (sliced_ok h_x_total) (sliced_ok h_n) (sliced_params hp))

theorem C57_geometric_beta {rk L : ℕ} {i : ℤ} (h1 : -(L : ℤ) ≤ i) (h2 : i < L)
    (x_total n : NdArr β) (prior : Beta (NdArr β)) (one_start : Bool)
    (h_x_total : SliceArg rk L x_total) (h_n : SliceArg rk L n) (hp : Params.All (SliceArg rk L) prior) :
    Params.Rel SameOutcome (fmap (Except.map (takeSlice (.int i))) (Conj.geometric_beta (.ok x_total) (.ok n) (fmap Except.ok prior) one_start))
      (Conj.geometric_beta (.ok (takeSlice (.int i) x_total)) (.ok (takeSlice (.int i) n)) (fmap Except.ok (fmap (takeSlice (.int i)) prior)) one_start) := by
  obtain ⟨j, hj⟩ := normIndex_of_range h1 h2
  exact same_of_sliced (rel_geometric_beta (sliced_numRel hj) (sliced_ok h_x_total) (sliced_ok h_n) one_start (sliced_params hp))

theorem C57_geometric_beta_predictive {rk L : ℕ} {i : ℤ} (h1 : -(L : ℤ) ≤ i) (h2 : i < L)
    (distribution : Beta (NdArr β)) (one_start : Bool)
    (hp : Params.All (SliceArg rk L) distribution) :
    Params.Rel SameOutcome (fmap (Except.map (takeSlice (.int i))) (Conj.geometric_beta_predictive (fmap Except.ok distribution) one_start))
      (Conj.geometric_beta_predictive (fmap Except.ok (fmap (takeSlice (.int i)) distribution)) one_start) := by
  obtain ⟨j, hj⟩ := normIndex_of_range h1 h2
  exact same_of_sliced (rel_geometric_beta_predictive (sliced_numRel hj) one_start (sliced_params hp))

theorem C57_poisson_gamma {rk L : ℕ} {i : ℤ} (h1 : -(L : ℤ) ≤ i) (h2 : i < L)
    (x_total n : NdArr β) (prior : Gamma (NdArr β))
    (h_x_total : SliceArg rk L x_total) (h_n : SliceArg rk L n) (hp : Params.All (SliceArg rk L) prior) :
    Params.Rel SameOutcome (fmap (Except.map (takeSlice (.int i))) (Conj.poisson_gamma (.ok x_total) (.ok n) (fmap Except.ok prior)))
      (Conj.poisson_gamma (.ok (takeSlice (.int i) x_total)) (.ok (takeSlice (.int i) n)) (fmap Except.ok (fmap (takeSlice (.int i)) prior))) := by
  obtain ⟨j, hj⟩ := normIndex_of_range h1 h2
  exact same_of_sliced (rel_poisson_gamma (sliced_numRel hj) (sliced_ok h_x_total) (sliced_ok h_n) (sliced_params hp))

theorem C57_poisson_gamma_predictive {rk L : ℕ} {i : ℤ} (h1 : -(L : ℤ) ≤ i) (h2 : i < L)
    (n : NdArr β) (distribution : Gamma (NdArr β))
    (h_n : SliceArg rk L n) (hp : Params.All (SliceArg rk L) distribution) :
    Params.Rel SameOutcome (fmap (Except.map (takeSlice (.int i))) (Conj.poisson_gamma_predictive (fmap Except.ok distribution) (.ok n)))
      (Conj.poisson_gamma_predictive (fmap Except.ok (fmap (takeSlice (.int i)) distribution)) (.ok (takeSlice (.int i) n))) := by
  obtain ⟨j, hj⟩ := normIndex_of_range h1 h2
  exact same_of_sliced (rel_poisson_gamma_predictive (sliced_numRel hj) (sliced_ok h_n) (sliced_params hp))

theorem C57_exponential_gamma {rk L : ℕ} {i : ℤ} (h1 : -(L : ℤ) ≤ i) (h2 : i < L)
    (x_total n : NdArr β) (prior : Gamma (NdArr β))
    (h_x_total : SliceArg rk L x_total) (h_n : SliceArg rk L n) (hp : Params.All (SliceArg rk L) prior) :
    Params.Rel SameOutcome (fmap (Except.map (takeSlice (.int i))) (Conj.exponential_gamma (.ok x_total) (.ok n) (fmap Except.ok prior)))
      (Conj.exponential_gamma (.ok (takeSlice (.int i) x_total)) (.ok (takeSlice (.int i) n)) (fmap Except.ok (fmap (takeSlice (.int i)) prior))) := by
  obtain ⟨j, hj⟩ := normIndex_of_range h1 h2
  exact same_of_sliced (rel_exponential_gamma (sliced_numRel hj) (sliced_ok h_x_total) (sliced_ok h_n) (sliced_params hp))

theorem C57_exponential_gamma_predictive {rk L : ℕ} {i : ℤ} (h1 : -(L : ℤ) ≤ i) (h2 : i < L)
    (distribution : Gamma (NdArr β))
    (hp : Params.All (SliceArg rk L) distribution) :
    Params.Rel SameOutcome (fmap (Except.map (takeSlice (.int i))) (Conj.exponential_gamma_predictive (fmap Except.ok distribution)))
      (Conj.exponential_gamma_predictive (fmap Except.ok (fmap (takeSlice (.int i)) distribution))) := by
  obtain ⟨j, hj⟩ := normIndex_of_range h1 h2
  exact same_of_sliced (rel_exponential_gamma_predictive (sliced_numRel hj) (sliced_params hp))

theorem C57_gamma_known_shape {rk L : ℕ} {i : ℤ} (h1 : -(L : ℤ) ≤ i) (h2 : i < L)
    (x_total n alpha : NdArr β) (prior : Gamma (NdArr β))
    (h_x_total : SliceArg rk L x_total) (h_n : SliceArg rk L n) (h_alpha : SliceArg rk L alpha) (hp : Params.All (SliceArg rk L) prior) :
    Params.Rel SameOutcome (fmap (Except.map (takeSlice (.int i))) (Conj.gamma_known_shape (.ok x_total) (.ok n) (.ok alpha) (fmap Except.ok prior)))
      (Conj.gamma_known_shape (.ok (takeSlice (.int i) x_total)) (.ok (takeSlice (.int i) n)) (.ok (takeSlice (.int i) alpha)) (fmap Except.ok (fmap (takeSlice (.int i)) prior))) := by
  obtain ⟨j, hj⟩ := normIndex_of_range h1 h2
  exact same_of_sliced (rel_gamma_known_shape (sliced_numRel hj) (sliced_ok h_x_total) (sliced_ok h_n) (sliced_ok h_alpha) (sliced_params hp))

theorem C57_gamma_known_shape_predictive {rk L : ℕ} {i : ℤ} (h1 : -(L : ℤ) ≤ i) (h2 : i < L)
    (alpha : NdArr β) (distribution : Gamma (NdArr β))
    (h_alpha : SliceArg rk L alpha) (hp : Params.All (SliceArg rk L) distribution) :
    Params.Rel SameOutcome (fmap (Except.map (takeSlice (.int i))) (Conj.gamma_known_shape_predictive (fmap Except.ok distribution) (.ok alpha)))
      (Conj.gamma_known_shape_predictive (fmap Except.ok (fmap (takeSlice (.int i)) distribution)) (.ok (takeSlice (.int i) alpha))) := by
  obtain ⟨j, hj⟩ := normIndex_of_range h1 h2
  exact same_of_sliced (rel_gamma_known_shape_predictive (sliced_numRel hj) (sliced_ok h_alpha) (sliced_params hp))

theorem C57_inverse_gamma_known_rate {rk L : ℕ} {i : ℤ} (h1 : -(L : ℤ) ≤ i) (h2 : i < L)
    (reciprocal_x_total n alpha : NdArr β) (prior : Gamma (NdArr β))
    (h_reciprocal_x_total : SliceArg rk L reciprocal_x_total) (h_n : SliceArg rk L n) (h_alpha : SliceArg rk L alpha) (hp : Params.All (SliceArg rk L) prior) :
    Params.Rel SameOutcome (fmap (Except.map (takeSlice (.int i))) (Conj.inverse_gamma_known_rate (.ok reciprocal_x_total) (.ok n) (.ok alpha) (fmap Except.ok prior)))
      (Conj.inverse_gamma_known_rate (.ok (takeSlice (.int i) reciprocal_x_total)) (.ok (takeSlice (.int i) n)) (.ok (takeSlice (.int i) alpha)) (fmap Except.ok (fmap (takeSlice (.int i)) prior))) := by
  obtain ⟨j, hj⟩ := normIndex_of_range h1 h2
  exact same_of_sliced (rel_inverse_gamma_known_rate (sliced_numRel hj) (sliced_ok h_reciprocal_x_total) (sliced_ok h_n) (sliced_ok h_alpha) (sliced_params hp))

theorem C57_normal_known_variance {rk L : ℕ} {i : ℤ} (h1 : -(L : ℤ) ≤ i) (h2 : i < L)
    (x_total n var : NdArr β) (prior : Normal (NdArr β))
    (h_x_total : SliceArg rk L x_total) (h_n : SliceArg rk L n) (h_var : SliceArg rk L var) (hp : Params.All (SliceArg rk L) prior) :
    Params.Rel SameOutcome (fmap (Except.map (takeSlice (.int i))) (Conj.normal_known_variance (.ok x_total) (.ok n) (.ok var) (fmap Except.ok prior)))
      (Conj.normal_known_variance (.ok (takeSlice (.int i) x_total)) (.ok (takeSlice (.int i) n)) (.ok (takeSlice (.int i) var)) (fmap Except.ok (fmap (takeSlice (.int i)) prior))) := by
  obtain ⟨j, hj⟩ := normIndex_of_range h1 h2
  exact same_of_sliced (rel_normal_known_variance (sliced_numRel hj) (sliced_ok h_x_total) (sliced_ok h_n) (sliced_ok h_var) (sliced_params hp))

theorem C57_normal_known_variance_predictive {rk L : ℕ} {i : ℤ} (h1 : -(L : ℤ) ≤ i) (h2 : i < L)
    (var : NdArr β) (distribution : Normal (NdArr β))
    (h_var : SliceArg rk L var) (hp : Params.All (SliceArg rk L) distribution) :
    Params.Rel SameOutcome (fmap (Except.map (takeSlice (.int i))) (Conj.normal_known_variance_predictive (.ok var) (fmap Except.ok distribution)))
      (Conj.normal_known_variance_predictive (.ok (takeSlice (.int i) var)) (fmap Except.ok (fmap (takeSlice (.int i)) distribution))) := by
  obtain ⟨j, hj⟩ := normIndex_of_range h1 h2
  exact same_of_sliced (rel_normal_known_variance_predictive (sliced_numRel hj) (sliced_ok h_var) (sliced_params hp))

theorem C57_normal_known_precision {rk L : ℕ} {i : ℤ} (h1 : -(L : ℤ) ≤ i) (h2 : i < L)
    (x_total n precision : NdArr β) (prior : Normal (NdArr β))
    (h_x_total : SliceArg rk L x_total) (h_n : SliceArg rk L n) (h_precision : SliceArg rk L precision) (hp : Params.All (SliceArg rk L) prior) :
    Params.Rel SameOutcome (fmap (Except.map (takeSlice (.int i))) (Conj.normal_known_precision (.ok x_total) (.ok n) (.ok precision) (fmap Except.ok prior)))
      (Conj.normal_known_precision (.ok (takeSlice (.int i) x_total)) (.ok (takeSlice (.int i) n)) (.ok (takeSlice (.int i) precision)) (fmap Except.ok (fmap (takeSlice (.int i)) prior))) := by
  obtain ⟨j, hj⟩ := normIndex_of_range h1 h2
  exact same_of_sliced (rel_normal_known_precision (sliced_numRel hj) (sliced_ok h_x_total) (sliced_ok h_n) (sliced_ok h_precision) (sliced_params hp))

theorem C57_normal_known_precision_predictive {rk L : ℕ} {i : ℤ} (h1 : -(L : ℤ) ≤ i) (h2 : i < L)
    (precision : NdArr β) (distribution : Normal (NdArr β))
    (h_precision : SliceArg rk L precision) (hp : Params.All (SliceArg rk L) distribution) :
    Params.Rel SameOutcome (fmap (Except.map (takeSlice (.int i))) (Conj.normal_known_precision_predictive (.ok precision) (fmap Except.ok distribution)))
      (Conj.normal_known_precision_predictive (.ok (takeSlice (.int i) precision)) (fmap Except.ok (fmap (takeSlice (.int i)) distribution))) := by
  obtain ⟨j, hj⟩ := normIndex_of_range h1 h2
  exact same_of_sliced (rel_normal_known_precision_predictive (sliced_numRel hj) (sliced_ok h_precision) (sliced_params hp))

theorem C57_uniform_pareto {rk L : ℕ} {i : ℤ} (h1 : -(L : ℤ) ≤ i) (h2 : i < L)
    (x_max n : NdArr β) (prior : Pareto (NdArr β)) (max_fn : β → β → β)
    (h_x_max : SliceArg rk L x_max) (h_n : SliceArg rk L n) (hp : Params.All (SliceArg rk L) prior) :
    Params.Rel SameOutcome (fmap (Except.map (takeSlice (.int i))) (Conj.uniform_pareto (.ok x_max) (.ok n) (fmap Except.ok prior) (ufunc2 max_fn)))
      (Conj.uniform_pareto (.ok (takeSlice (.int i) x_max)) (.ok (takeSlice (.int i) n)) (fmap Except.ok (fmap (takeSlice (.int i)) prior)) (ufunc2 max_fn)) := by
  obtain ⟨j, hj⟩ := normIndex_of_range h1 h2
  exact same_of_sliced (rel_uniform_pareto (sliced_numRel hj) (sliced_ok h_x_max) (sliced_ok h_n) (fun h h' => sliced_op hj max_fn h h') (sliced_params hp))

theorem C57_pareto_gamma {rk L : ℕ} {i : ℤ} (h1 : -(L : ℤ) ≤ i) (h2 : i < L)
    (n ln_x_total x_m : NdArr β) (prior : Gamma (NdArr β)) (ln : β → β)
    (h_n : SliceArg rk L n) (h_ln_x_total : SliceArg rk L ln_x_total) (h_x_m : SliceArg rk L x_m) (hp : Params.All (SliceArg rk L) prior) :
    Params.Rel SameOutcome (fmap (Except.map (takeSlice (.int i))) (Conj.pareto_gamma (.ok n) (.ok ln_x_total) (.ok x_m) (fmap Except.ok prior) (ufunc1 ln)))
      (Conj.pareto_gamma (.ok (takeSlice (.int i) n)) (.ok (takeSlice (.int i) ln_x_total)) (.ok (takeSlice (.int i) x_m)) (fmap Except.ok (fmap (takeSlice (.int i)) prior)) (ufunc1 ln)) := by
  obtain ⟨j, hj⟩ := normIndex_of_range h1 h2
  exact same_of_sliced (rel_pareto_gamma (sliced_numRel hj) (sliced_ok h_n) (sliced_ok h_ln_x_total) (sliced_ok h_x_m) (fun h => sliced_map hj ln h) (sliced_params hp))

theorem C57_weibull_inverse_gamma_known_shape {rk L : ℕ} {i : ℤ} (h1 : -(L : ℤ) ≤ i) (h2 : i < L)
    (n x_beta_total : NdArr β) (prior : InverseGamma (NdArr β))
    (h_n : SliceArg rk L n) (h_x_beta_total : SliceArg rk L x_beta_total) (hp : Params.All (SliceArg rk L) prior) :
    Params.Rel SameOutcome (fmap (Except.map (takeSlice (.int i))) (Conj.weibull_inverse_gamma_known_shape (.ok n) (.ok x_beta_total) (fmap Except.ok prior)))
      (Conj.weibull_inverse_gamma_known_shape (.ok (takeSlice (.int i) n)) (.ok (takeSlice (.int i) x_beta_total)) (fmap Except.ok (fmap (takeSlice (.int i)) prior))) := by
  obtain ⟨j, hj⟩ := normIndex_of_range h1 h2
  exact same_of_sliced (rel_weibull_inverse_gamma_known_shape (sliced_numRel hj) (sliced_ok h_n) (sliced_ok h_x_beta_total) (sliced_params hp))

theorem C57_normal_known_mean {rk L : ℕ} {i : ℤ} (h1 : -(L : ℤ) ≤ i) (h2 : i < L)
    (x_total x2_total n mu : NdArr β) (prior : VariancePrior (NdArr β))
    (a1 : SliceArg rk L x_total) (a2 : SliceArg rk L x2_total) (a3 : SliceArg rk L n) (a4 : SliceArg rk L mu)
    (hp : Params.All (SliceArg rk L) prior) :
    Params.Rel SameOutcome
      (fmap (Except.map (takeSlice (.int i)))
        (normal_known_mean (.ok x_total) (.ok x2_total) (.ok n) (.ok mu) (fmap Except.ok prior)))
      (normal_known_mean (.ok (takeSlice (.int i) x_total)) (.ok (takeSlice (.int i) x2_total))
        (.ok (takeSlice (.int i) n)) (.ok (takeSlice (.int i) mu))
        (fmap Except.ok (fmap (takeSlice (.int i)) prior))) := by
  obtain ⟨j, hj⟩ := normIndex_of_range h1 h2
  exact same_of_sliced (rel_normal_known_mean (sliced_numRel hj) (sliced_ok a1) (sliced_ok a2)
    (sliced_ok a3) (sliced_ok a4) (sliced_params hp))

theorem C57_normal_known_mean_predictive {rk L : ℕ} {i : ℤ} (h1 : -(L : ℤ) ≤ i) (h2 : i < L)
    (mu : NdArr β) (distribution : VariancePrior (NdArr β))
    (a4 : SliceArg rk L mu) (hp : Params.All (SliceArg rk L) distribution) :
    Params.Rel SameOutcome
      (fmap (Except.map (takeSlice (.int i)))
        (normal_known_mean_predictive (.ok mu) (fmap Except.ok distribution)))
      (normal_known_mean_predictive (.ok (takeSlice (.int i) mu))
        (fmap Except.ok (fmap (takeSlice (.int i)) distribution))) := by
  obtain ⟨j, hj⟩ := normIndex_of_range h1 h2
  exact same_of_sliced (rel_normal_known_mean_predictive (sliced_numRel hj)
    (sliced_ok a4) (sliced_params hp))

/-- Vectors of length 3 with a scalar prior parameter, index -1. -/
example : SliceArg 0 3 (⟨[3], fun i => i.getLastD 0⟩ : NdArr ℝ) ∧ SliceArg 0 3 (.scalar 1 : NdArr ℝ) ∧
    -((3 : ℕ) : ℤ) ≤ -1 ∧ (-1 : ℤ) < (3 : ℕ) :=
  ⟨Or.inr ⟨[], rfl, rfl⟩, Or.inl rfl, by norm_num, by norm_num⟩

/-- and the last entry is what -1 selects -/
example : takeSlice (.int (-1)) (⟨[3], fun i => i.getLastD 0⟩ : NdArr ℝ) =
    ⟨[], fun idx => (idx ++ [2]).getLastD 0⟩ := by
  have : normIndex (-1) 3 = some 2 := by decide
  simp [takeSlice, getitem, this]

end Conj
