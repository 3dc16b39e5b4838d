import Verif.Params

set_option linter.unusedVariables false
set_option linter.unusedTactic false
set_option linter.unreachableTactic false

/-! Written by `tools/gen_elementwise.py`. -/

/-!
The model functions only combine their arguments with the operations of the number type, so they
carry any relation those operations respect from the arguments to the result.
-/

namespace Conj

variable {α β : Type} [PyNum α] [PyNum β]

/-- `R` is respected by the arithmetic -/
structure NumRel (R : α → β → Prop) : Prop where
  add : ∀ {a b a' b'}, R a a' → R b b' → R (a + b) (a' + b')
  sub : ∀ {a b a' b'}, R a a' → R b b' → R (a - b) (a' - b')
  mul : ∀ {a b a' b'}, R a a' → R b b' → R (a * b) (a' * b')
  div : ∀ {a b a' b'}, R a a' → R b b' → R (a / b) (a' / b')
  lit : ∀ q, R (lit q) (lit q)
  powq : ∀ {a a'} q, R a a' → R (powq a q) (powq a' q)

/-- close a goal `R e e'` by the closure rules -/
macro "num_rel" h:ident : tactic => `(tactic| repeat' first
  | assumption | apply NumRel.add $h | apply NumRel.sub $h | apply NumRel.mul $h
  | apply NumRel.div $h | apply NumRel.lit $h | apply NumRel.powq $h)

variable {R : α → β → Prop}

theorem rel_binomial_beta (h : NumRel R) {n : α} {n' : β} (h_n : R n n')
    {x : α} {x' : β} (h_x : R x x')
    {prior : Beta α} {prior' : Beta β} (hp : Params.Rel R prior prior') :
    Params.Rel R (Conj.binomial_beta n x prior)
      (Conj.binomial_beta n' x' prior') := by
  obtain ⟨hp_alpha, hp_beta⟩ := hp
  refine ⟨?_, ?_⟩ <;> simp only [Conj.binomial_beta, getBinomialBetaPosteriorParams]
  all_goals num_rel h

theorem rel_binomial_beta_predictive (h : NumRel R) {n : α} {n' : β} (h_n : R n n')
    {distribution : Beta α} {distribution' : Beta β} (hp : Params.Rel R distribution distribution') :
    Params.Rel R (Conj.binomial_beta_predictive n distribution)
      (Conj.binomial_beta_predictive n' distribution') := by
  obtain ⟨hp_alpha, hp_beta⟩ := hp
  refine ⟨?_, ?_, ?_⟩ <;> simp only [Conj.binomial_beta_predictive]
  all_goals num_rel h

theorem rel_bernoulli_beta (h : NumRel R) {x : α} {x' : β} (h_x : R x x')
    {prior : Beta α} {prior' : Beta β} (hp : Params.Rel R prior prior') :
    Params.Rel R (Conj.bernoulli_beta x prior)
      (Conj.bernoulli_beta x' prior') := by
  obtain ⟨hp_alpha, hp_beta⟩ := hp
  refine ⟨?_, ?_⟩ <;> simp only [Conj.bernoulli_beta, binomial_beta, getBinomialBetaPosteriorParams]
  all_goals num_rel h

theorem rel_bernoulli_beta_predictive (h : NumRel R) 
    {distribution : Beta α} {distribution' : Beta β} (hp : Params.Rel R distribution distribution') :
    Params.Rel R (Conj.bernoulli_beta_predictive distribution)
      (Conj.bernoulli_beta_predictive distribution') := by
  obtain ⟨hp_alpha, hp_beta⟩ := hp
  refine ⟨?_, ?_, ?_⟩ <;> simp only [Conj.bernoulli_beta_predictive, binomial_beta_predictive]
  all_goals num_rel h

theorem rel_negative_binomial_beta (h : NumRel R) {r : α} {r' : β} (h_r : R r r')
    {n : α} {n' : β} (h_n : R n n')
    {x : α} {x' : β} (h_x : R x x')
    {prior : Beta α} {prior' : Beta β} (hp : Params.Rel R prior prior') :
    Params.Rel R (Conj.negative_binomial_beta r n x prior)
      (Conj.negative_binomial_beta r' n' x' prior') := by
  obtain ⟨hp_alpha, hp_beta⟩ := hp
  refine ⟨?_, ?_⟩ <;> simp only [Conj.negative_binomial_beta]
  all_goals num_rel h

theorem rel_negative_binomial_beta_predictive (h : NumRel R) {r : α} {r' : β} (h_r : R r r')
    {distribution : Beta α} {distribution' : Beta β} (hp : Params.Rel R distribution distribution') :
    Params.Rel R (Conj.negative_binomial_beta_predictive r distribution)
      (Conj.negative_binomial_beta_predictive r' distribution') := by
  obtain ⟨hp_alpha, hp_beta⟩ := hp
  refine ⟨?_, ?_, ?_⟩ <;> simp only [Conj.negative_binomial_beta_predictive]
  all_goals num_rel h

theorem rel_hypergeometric_beta_binomial (h : NumRel R) {x_total : α} {x_total' : β} (h_x_total : R x_total x_total')
    {n : α} {n' : β} (h_n : R n n')
    {prior : BetaBinomial α} {prior' : BetaBinomial β} (hp : Params.Rel R prior prior') :
    Params.Rel R (Conj.hypergeometric_beta_binomial x_total n prior)
      (Conj.hypergeometric_beta_binomial x_total' n' prior') := by
  obtain ⟨hp_n, hp_alpha, hp_beta⟩ := hp
  refine ⟨?_, ?_, ?_⟩ <;> simp only [Conj.hypergeometric_beta_binomial]
  all_goals num_rel h

theorem rel_geometric_beta (h : NumRel R) {x_total : α} {x_total' : β} (h_x_total : R x_total x_total')
    {n : α} {n' : β} (h_n : R n n')
    (one_start : Bool)
    {prior : Beta α} {prior' : Beta β} (hp : Params.Rel R prior prior') :
    Params.Rel R (Conj.geometric_beta x_total n prior one_start)
      (Conj.geometric_beta x_total' n' prior' one_start) := by
  obtain ⟨hp_alpha, hp_beta⟩ := hp
  refine ⟨?_, ?_⟩ <;> simp only [Conj.geometric_beta]
  · num_rel h
  · cases one_start <;> simp only [if_true, Bool.false_eq_true, if_false] <;> num_rel h

theorem rel_geometric_beta_predictive (h : NumRel R) (one_start : Bool)
    {distribution : Beta α} {distribution' : Beta β} (hp : Params.Rel R distribution distribution') :
    Params.Rel R (Conj.geometric_beta_predictive distribution one_start)
      (Conj.geometric_beta_predictive distribution' one_start) := by
  obtain ⟨hp_alpha, hp_beta⟩ := hp
  refine ⟨?_, ?_, ?_⟩ <;> simp only [Conj.geometric_beta_predictive]
  all_goals num_rel h

theorem rel_poisson_gamma (h : NumRel R) {x_total : α} {x_total' : β} (h_x_total : R x_total x_total')
    {n : α} {n' : β} (h_n : R n n')
    {prior : Gamma α} {prior' : Gamma β} (hp : Params.Rel R prior prior') :
    Params.Rel R (Conj.poisson_gamma x_total n prior)
      (Conj.poisson_gamma x_total' n' prior') := by
  obtain ⟨hp_alpha, hp_beta⟩ := hp
  refine ⟨?_, ?_⟩ <;> simp only [Conj.poisson_gamma, getPoissonGammaPosteriorParams]
  all_goals num_rel h

theorem rel_poisson_gamma_predictive (h : NumRel R) {n : α} {n' : β} (h_n : R n n')
    {distribution : Gamma α} {distribution' : Gamma β} (hp : Params.Rel R distribution distribution') :
    Params.Rel R (Conj.poisson_gamma_predictive distribution n)
      (Conj.poisson_gamma_predictive distribution' n') := by
  obtain ⟨hp_alpha, hp_beta⟩ := hp
  refine ⟨?_, ?_⟩ <;> simp only [Conj.poisson_gamma_predictive]
  all_goals num_rel h

theorem rel_exponential_gamma (h : NumRel R) {x_total : α} {x_total' : β} (h_x_total : R x_total x_total')
    {n : α} {n' : β} (h_n : R n n')
    {prior : Gamma α} {prior' : Gamma β} (hp : Params.Rel R prior prior') :
    Params.Rel R (Conj.exponential_gamma x_total n prior)
      (Conj.exponential_gamma x_total' n' prior') := by
  obtain ⟨hp_alpha, hp_beta⟩ := hp
  refine ⟨?_, ?_⟩ <;> simp only [Conj.exponential_gamma, getExponentialGammaPosteriorParams, getPoissonGammaPosteriorParams]
  all_goals num_rel h

theorem rel_exponential_gamma_predictive (h : NumRel R) 
    {distribution : Gamma α} {distribution' : Gamma β} (hp : Params.Rel R distribution distribution') :
    Params.Rel R (Conj.exponential_gamma_predictive distribution)
      (Conj.exponential_gamma_predictive distribution') := by
  obtain ⟨hp_alpha, hp_beta⟩ := hp
  refine ⟨?_, ?_⟩ <;> simp only [Conj.exponential_gamma_predictive]
  all_goals num_rel h

theorem rel_gamma_known_shape (h : NumRel R) {x_total : α} {x_total' : β} (h_x_total : R x_total x_total')
    {n : α} {n' : β} (h_n : R n n')
    {alpha : α} {alpha' : β} (h_alpha : R alpha alpha')
    {prior : Gamma α} {prior' : Gamma β} (hp : Params.Rel R prior prior') :
    Params.Rel R (Conj.gamma_known_shape x_total n alpha prior)
      (Conj.gamma_known_shape x_total' n' alpha' prior') := by
  obtain ⟨hp_alpha, hp_beta⟩ := hp
  refine ⟨?_, ?_⟩ <;> simp only [Conj.gamma_known_shape]
  all_goals num_rel h

theorem rel_gamma_known_shape_predictive (h : NumRel R) {alpha : α} {alpha' : β} (h_alpha : R alpha alpha')
    {distribution : Gamma α} {distribution' : Gamma β} (hp : Params.Rel R distribution distribution') :
    Params.Rel R (Conj.gamma_known_shape_predictive distribution alpha)
      (Conj.gamma_known_shape_predictive distribution' alpha') := by
  obtain ⟨hp_alpha, hp_beta⟩ := hp
  refine ⟨?_, ?_, ?_⟩ <;> simp only [Conj.gamma_known_shape_predictive]
  all_goals num_rel h

theorem rel_inverse_gamma_known_rate (h : NumRel R) {reciprocal_x_total : α} {reciprocal_x_total' : β} (h_reciprocal_x_total : R reciprocal_x_total reciprocal_x_total')
    {n : α} {n' : β} (h_n : R n n')
    {alpha : α} {alpha' : β} (h_alpha : R alpha alpha')
    {prior : Gamma α} {prior' : Gamma β} (hp : Params.Rel R prior prior') :
    Params.Rel R (Conj.inverse_gamma_known_rate reciprocal_x_total n alpha prior)
      (Conj.inverse_gamma_known_rate reciprocal_x_total' n' alpha' prior') := by
  obtain ⟨hp_alpha, hp_beta⟩ := hp
  refine ⟨?_, ?_⟩ <;> simp only [Conj.inverse_gamma_known_rate]
  all_goals num_rel h

theorem rel_normal_known_variance (h : NumRel R) {x_total : α} {x_total' : β} (h_x_total : R x_total x_total')
    {n : α} {n' : β} (h_n : R n n')
    {var : α} {var' : β} (h_var : R var var')
    {prior : Normal α} {prior' : Normal β} (hp : Params.Rel R prior prior') :
    Params.Rel R (Conj.normal_known_variance x_total n var prior)
      (Conj.normal_known_variance x_total' n' var' prior') := by
  obtain ⟨hp_mu, hp_sigma⟩ := hp
  refine ⟨?_, ?_⟩ <;> simp only [Conj.normal_known_variance]
  all_goals num_rel h

theorem rel_normal_known_variance_predictive (h : NumRel R) {var : α} {var' : β} (h_var : R var var')
    {distribution : Normal α} {distribution' : Normal β} (hp : Params.Rel R distribution distribution') :
    Params.Rel R (Conj.normal_known_variance_predictive var distribution)
      (Conj.normal_known_variance_predictive var' distribution') := by
  obtain ⟨hp_mu, hp_sigma⟩ := hp
  refine ⟨?_, ?_⟩ <;> simp only [Conj.normal_known_variance_predictive]
  all_goals num_rel h

theorem rel_normal_known_precision (h : NumRel R) {x_total : α} {x_total' : β} (h_x_total : R x_total x_total')
    {n : α} {n' : β} (h_n : R n n')
    {precision : α} {precision' : β} (h_precision : R precision precision')
    {prior : Normal α} {prior' : Normal β} (hp : Params.Rel R prior prior') :
    Params.Rel R (Conj.normal_known_precision x_total n precision prior)
      (Conj.normal_known_precision x_total' n' precision' prior') := by
  obtain ⟨hp_mu, hp_sigma⟩ := hp
  refine ⟨?_, ?_⟩ <;> simp only [Conj.normal_known_precision, normal_known_variance]
  all_goals num_rel h

theorem rel_normal_known_precision_predictive (h : NumRel R) {precision : α} {precision' : β} (h_precision : R precision precision')
    {distribution : Normal α} {distribution' : Normal β} (hp : Params.Rel R distribution distribution') :
    Params.Rel R (Conj.normal_known_precision_predictive precision distribution)
      (Conj.normal_known_precision_predictive precision' distribution') := by
  obtain ⟨hp_mu, hp_sigma⟩ := hp
  refine ⟨?_, ?_⟩ <;> simp only [Conj.normal_known_precision_predictive, normal_known_variance_predictive]
  all_goals num_rel h

theorem rel_uniform_pareto (h : NumRel R) {x_max : α} {x_max' : β} (h_x_max : R x_max x_max')
    {n : α} {n' : β} (h_n : R n n')
    {max_fn : α → α → α} {max_fn' : β → β → β} (h_max_fn : ∀ {a b a' b'}, R a a' → R b b' → R (max_fn a b) (max_fn' a' b'))
    {prior : Pareto α} {prior' : Pareto β} (hp : Params.Rel R prior prior') :
    Params.Rel R (Conj.uniform_pareto x_max n prior max_fn)
      (Conj.uniform_pareto x_max' n' prior' max_fn') := by
  obtain ⟨hp_x_m, hp_alpha⟩ := hp
  refine ⟨?_, ?_⟩ <;> simp only [Conj.uniform_pareto]
  all_goals (num_rel h; repeat' first | assumption | apply h_max_fn | apply NumRel.add h | apply NumRel.mul h | apply NumRel.sub h)

theorem rel_pareto_gamma (h : NumRel R) {n : α} {n' : β} (h_n : R n n')
    {ln_x_total : α} {ln_x_total' : β} (h_ln_x_total : R ln_x_total ln_x_total')
    {x_m : α} {x_m' : β} (h_x_m : R x_m x_m')
    {ln : α → α} {ln' : β → β} (h_ln : ∀ {a a'}, R a a' → R (ln a) (ln' a'))
    {prior : Gamma α} {prior' : Gamma β} (hp : Params.Rel R prior prior') :
    Params.Rel R (Conj.pareto_gamma n ln_x_total x_m prior ln)
      (Conj.pareto_gamma n' ln_x_total' x_m' prior' ln') := by
  obtain ⟨hp_alpha, hp_beta⟩ := hp
  refine ⟨?_, ?_⟩ <;> simp only [Conj.pareto_gamma]
  all_goals (num_rel h; repeat' first | assumption | apply h_ln | apply NumRel.add h | apply NumRel.mul h | apply NumRel.sub h)

theorem rel_gamma (h : NumRel R) {x_total : α} {x_total' : β} (h_x_total : R x_total x_total')
    {x_prod : α} {x_prod' : β} (h_x_prod : R x_prod x_prod')
    {n : α} {n' : β} (h_n : R n n')
    {prior : GammaProportional α} {prior' : GammaProportional β} (hp : Params.Rel R prior prior') :
    Params.Rel R (Conj.gamma x_total x_prod n prior)
      (Conj.gamma x_total' x_prod' n' prior') := by
  obtain ⟨hp_p, hp_q, hp_r, hp_s⟩ := hp
  refine ⟨?_, ?_, ?_, ?_⟩ <;> simp only [Conj.gamma]
  all_goals num_rel h

theorem rel_gamma_known_rate (h : NumRel R) {x_prod : α} {x_prod' : β} (h_x_prod : R x_prod x_prod')
    {n : α} {n' : β} (h_n : R n n')
    {beta : α} {beta' : β} (h_beta : R beta beta')
    {prior : GammaKnownRateProportional α} {prior' : GammaKnownRateProportional β} (hp : Params.Rel R prior prior') :
    Params.Rel R (Conj.gamma_known_rate x_prod n beta prior)
      (Conj.gamma_known_rate x_prod' n' beta' prior') := by
  obtain ⟨hp_a, hp_b, hp_c⟩ := hp
  refine ⟨?_, ?_, ?_⟩ <;> simp only [Conj.gamma_known_rate]
  all_goals num_rel h

theorem rel_beta (h : NumRel R) {x_prod : α} {x_prod' : β} (h_x_prod : R x_prod x_prod')
    {one_minus_x_prod : α} {one_minus_x_prod' : β} (h_one_minus_x_prod : R one_minus_x_prod one_minus_x_prod')
    {n : α} {n' : β} (h_n : R n n')
    {prior : BetaProportional α} {prior' : BetaProportional β} (hp : Params.Rel R prior prior') :
    Params.Rel R (Conj.beta x_prod one_minus_x_prod n prior)
      (Conj.beta x_prod' one_minus_x_prod' n' prior') := by
  obtain ⟨hp_p, hp_q, hp_k⟩ := hp
  refine ⟨?_, ?_, ?_⟩ <;> simp only [Conj.beta]
  all_goals num_rel h

theorem rel_von_mises_known_concentration (h : NumRel R) {cos_total : α} {cos_total' : β} (h_cos_total : R cos_total cos_total')
    {sin_total : α} {sin_total' : β} (h_sin_total : R sin_total sin_total')
    {n : α} {n' : β} (h_n : R n n')
    {kappa : α} {kappa' : β} (h_kappa : R kappa kappa')
    {sin : α → α} {sin' : β → β} (h_sin : ∀ {a a'}, R a a' → R (sin a) (sin' a'))
    {cos : α → α} {cos' : β → β} (h_cos : ∀ {a a'}, R a a' → R (cos a) (cos' a'))
    {arctan2 : α → α → α} {arctan2' : β → β → β} (h_arctan2 : ∀ {a b a' b'}, R a a' → R b b' → R (arctan2 a b) (arctan2' a' b'))
    {prior : VonMisesKnownConcentration α} {prior' : VonMisesKnownConcentration β} (hp : Params.Rel R prior prior') :
    Params.Rel R (Conj.von_mises_known_concentration cos_total sin_total n kappa prior sin cos arctan2)
      (Conj.von_mises_known_concentration cos_total' sin_total' n' kappa' prior' sin' cos' arctan2') := by
  obtain ⟨hp_a, hp_b⟩ := hp
  refine ⟨?_, ?_⟩ <;> simp only [Conj.von_mises_known_concentration]
  all_goals (num_rel h; repeat' first | assumption | apply h_sin | apply h_cos | apply h_arctan2 | apply NumRel.add h | apply NumRel.mul h | apply NumRel.sub h)

theorem rel_von_mises_known_direction (h : NumRel R) {centered_cos_total : α} {centered_cos_total' : β} (h_centered_cos_total : R centered_cos_total centered_cos_total')
    {n : α} {n' : β} (h_n : R n n')
    {prior : VonMisesKnownDirectionProportional α} {prior' : VonMisesKnownDirectionProportional β} (hp : Params.Rel R prior prior') :
    Params.Rel R (Conj.von_mises_known_direction centered_cos_total n prior)
      (Conj.von_mises_known_direction centered_cos_total' n' prior') := by
  obtain ⟨hp_c, hp_r⟩ := hp
  refine ⟨?_, ?_⟩ <;> simp only [Conj.von_mises_known_direction]
  all_goals num_rel h

theorem rel_weibull_inverse_gamma_known_shape (h : NumRel R) {n : α} {n' : β} (h_n : R n n')
    {x_beta_total : α} {x_beta_total' : β} (h_x_beta_total : R x_beta_total x_beta_total')
    {prior : InverseGamma α} {prior' : InverseGamma β} (hp : Params.Rel R prior prior') :
    Params.Rel R (Conj.weibull_inverse_gamma_known_shape n x_beta_total prior)
      (Conj.weibull_inverse_gamma_known_shape n' x_beta_total' prior') := by
  obtain ⟨hp_alpha, hp_beta⟩ := hp
  refine ⟨?_, ?_⟩ <;> simp only [Conj.weibull_inverse_gamma_known_shape]
  all_goals num_rel h

theorem rel_normalKnownMeanInverseGammaPrior (h : NumRel R) {x_total : α} {x_total' : β} (h_x_total : R x_total x_total')
    {x2_total : α} {x2_total' : β} (h_x2_total : R x2_total x2_total')
    {n : α} {n' : β} (h_n : R n n')
    {mu : α} {mu' : β} (h_mu : R mu mu')
    {prior : InverseGamma α} {prior' : InverseGamma β} (hp : Params.Rel R prior prior') :
    Params.Rel R (Conj.normalKnownMeanInverseGammaPrior x_total x2_total n mu prior)
      (Conj.normalKnownMeanInverseGammaPrior x_total' x2_total' n' mu' prior') := by
  obtain ⟨hp_alpha, hp_beta⟩ := hp
  refine ⟨?_, ?_⟩ <;> simp only [Conj.normalKnownMeanInverseGammaPrior]
  all_goals num_rel h

theorem rel_normal_known_mean (h : NumRel R) {x_total x2_total n mu : α} {x_total' x2_total' n' mu' : β}
    (h1 : R x_total x_total') (h2 : R x2_total x2_total') (h3 : R n n') (h4 : R mu mu')
    {prior : VariancePrior α} {prior' : VariancePrior β} (hp : Params.Rel R prior prior') :
    Params.Rel R (normal_known_mean x_total x2_total n mu prior)
      (normal_known_mean x_total' x2_total' n' mu' prior') := by
  match prior, prior', hp with
  | .inverseGamma d, .inverseGamma d', hp =>
    exact rel_normalKnownMeanInverseGammaPrior h h1 h2 h3 h4 hp
  | .scaledInverseChiSquared d, .scaledInverseChiSquared d', hp =>
    obtain ⟨hn, hs⟩ := hp
    have := rel_normalKnownMeanInverseGammaPrior h h1 h2 h3 h4
      (prior := d.to_inverse_gamma) (prior' := d'.to_inverse_gamma)
      ⟨h.div hn (h.lit 2), h.div (h.mul hn hs) (h.lit 2)⟩
    exact ⟨h.mul this.1 (h.lit 2), h.div (h.mul this.2 (h.lit 2)) (h.mul this.1 (h.lit 2))⟩

theorem rel_normal_known_mean_predictive (h : NumRel R) {mu : α} {mu' : β} (h4 : R mu mu')
    {d : VariancePrior α} {d' : VariancePrior β} (hp : Params.Rel R d d') :
    Params.Rel R (normal_known_mean_predictive mu d) (normal_known_mean_predictive mu' d') := by
  match d, d', hp with
  | .inverseGamma d, .inverseGamma d', hp =>
    exact ⟨h4, h.powq _ (h.div hp.2 hp.1), h.mul (h.lit 2) hp.1⟩
  | .scaledInverseChiSquared d, .scaledInverseChiSquared d', hp =>
    have ha := h.div hp.1 (h.lit 2)
    have hb := h.div (h.mul hp.1 hp.2) (h.lit 2)
    exact ⟨h4, h.powq _ (h.div hb ha), h.mul (h.lit 2) ha⟩

theorem rel_normalUpdate (h : NumRel R) {x_total x2_total n mu nu alpha beta : α}
    {x_total' x2_total' n' mu' nu' alpha' beta' : β}
    (h1 : R x_total x_total') (h2 : R x2_total x2_total') (h3 : R n n') (h4 : R mu mu')
    (h5 : R nu nu') (h6 : R alpha alpha') (h7 : R beta beta') :
    let r := normalUpdate x_total x2_total n mu nu alpha beta
    let r' := normalUpdate x_total' x2_total' n' mu' nu' alpha' beta'
    R r.1 r'.1 ∧ R r.2.1 r'.2.1 ∧ R r.2.2.1 r'.2.2.1 ∧ R r.2.2.2 r'.2.2.2 := by
  refine ⟨?_, ?_, ?_, ?_⟩ <;> simp only [normalUpdate] <;> num_rel h

theorem rel_normal {M : Type} (h : NumRel R) {x_total x2_total n : α} {x_total' x2_total' n' : β}
    (h1 : R x_total x_total') (h2 : R x2_total x2_total') (h3 : R n n')
    {prior : NormalPrior α M} {prior' : NormalPrior β M}
    (hp : Params.Rel (D := UnivariateNormalPrior M) R prior prior') :
    ExceptRel (Params.Rel (D := UnivariateNormalPrior M) R) (normal x_total x2_total n prior)
      (normal x_total' x2_total' n' prior') := by
  match prior, prior', hp with
  | .ng d, .ng d', hp =>
    obtain ⟨a, b, c, e⟩ := hp
    obtain ⟨r1, r2, r3, r4⟩ := rel_normalUpdate h h1 h2 h3 a b c e
    exact ⟨r1, r2, r3, r4⟩
  | .nig ⟨mu, al, be, de, nu⟩, .nig ⟨mu', al', be', de', nu'⟩, hp =>
    obtain ⟨a, b, c, e, f⟩ := hp
    simp only at a b c e f
    cases e with
    | none => exact rfl
    | some e =>
      obtain ⟨r1, r2, r3, r4⟩ := rel_normalUpdate h h1 h2 h3 a e b c
      exact ⟨r1, r3, r4, .some r2, rfl⟩

theorem rel_normal_predictive {M : Type} (h : NumRel R)
    {d : NormalPrior α M} {d' : NormalPrior β M}
    (hp : Params.Rel (D := UnivariateNormalPrior M) R d d') :
    ExceptRel (Params.Rel R) (normal_predictive d) (normal_predictive d') := by
  match d, d', hp with
  | .ng d, .ng d', hp =>
    obtain ⟨a, b, c, e⟩ := hp
    refine ⟨a, ?_, ?_⟩ <;> simp only [] <;> num_rel h
  | .nig ⟨mu, al, be, de, nu⟩, .nig ⟨mu', al', be', de', nu'⟩, hp =>
    obtain ⟨a, b, c, e, f⟩ := hp
    simp only at a b c e f
    cases e with
    | none => exact rfl
    | some e =>
      refine ⟨a, ?_, ?_⟩ <;> simp only [] <;> num_rel h

end Conj
