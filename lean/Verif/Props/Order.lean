import Verif.Props.Sequential

/-!
# The order of the data does not matter (C39)

`l₁.Perm l₂`: the same batches in another order.  A batch may be a single observation, so
this covers the order of the observations too.
-/

namespace Conj

/-- C39 -/
theorem C39_binomial_beta {l₁ l₂ : List (ℝ × ℝ)} (h : l₁.Perm l₂) (prior : Beta ℝ) :
    l₁.foldl (fun d b => binomial_beta b.1 b.2 d) prior =
      l₂.foldl (fun d b => binomial_beta b.1 b.2 d) prior := by
  rw [C37_binomial_beta, C37_binomial_beta, (h.map Prod.fst).sum_eq, (h.map Prod.snd).sum_eq]

/-- C39 -/
theorem C39_negative_binomial_beta (r : ℝ) {l₁ l₂ : List (ℝ × ℝ)} (h : l₁.Perm l₂) (prior : Beta ℝ) :
    l₁.foldl (fun d b => negative_binomial_beta r b.1 b.2 d) prior =
      l₂.foldl (fun d b => negative_binomial_beta r b.1 b.2 d) prior := by
  rw [C37_negative_binomial_beta, C37_negative_binomial_beta, (h.map Prod.fst).sum_eq, (h.map Prod.snd).sum_eq]

/-- C39 -/
theorem C39_geometric_beta (one_start : Bool) {l₁ l₂ : List (ℝ × ℝ)} (h : l₁.Perm l₂) (prior : Beta ℝ) :
    l₁.foldl (fun d b => geometric_beta b.1 b.2 d one_start) prior =
      l₂.foldl (fun d b => geometric_beta b.1 b.2 d one_start) prior := by
  rw [C37_geometric_beta, C37_geometric_beta, (h.map Prod.fst).sum_eq, (h.map Prod.snd).sum_eq]

/-- C39 -/
theorem C39_poisson_gamma {l₁ l₂ : List (ℝ × ℝ)} (h : l₁.Perm l₂) (prior : Gamma ℝ) :
    l₁.foldl (fun d b => poisson_gamma b.1 b.2 d) prior =
      l₂.foldl (fun d b => poisson_gamma b.1 b.2 d) prior := by
  rw [C37_poisson_gamma, C37_poisson_gamma, (h.map Prod.fst).sum_eq, (h.map Prod.snd).sum_eq]

/-- C39 -/
theorem C39_exponential_gamma {l₁ l₂ : List (ℝ × ℝ)} (h : l₁.Perm l₂) (prior : Gamma ℝ) :
    l₁.foldl (fun d b => exponential_gamma b.1 b.2 d) prior =
      l₂.foldl (fun d b => exponential_gamma b.1 b.2 d) prior := by
  rw [C37_exponential_gamma, C37_exponential_gamma, (h.map Prod.fst).sum_eq, (h.map Prod.snd).sum_eq]

/-- C39 -/
theorem C39_gamma_known_shape (alpha : ℝ) {l₁ l₂ : List (ℝ × ℝ)} (h : l₁.Perm l₂) (prior : Gamma ℝ) :
    l₁.foldl (fun d b => gamma_known_shape b.1 b.2 alpha d) prior =
      l₂.foldl (fun d b => gamma_known_shape b.1 b.2 alpha d) prior := by
  rw [C37_gamma_known_shape, C37_gamma_known_shape, (h.map Prod.fst).sum_eq, (h.map Prod.snd).sum_eq]

/-- C39 -/
theorem C39_inverse_gamma_known_rate (alpha : ℝ) {l₁ l₂ : List (ℝ × ℝ)} (h : l₁.Perm l₂) (prior : Gamma ℝ) :
    l₁.foldl (fun d b => inverse_gamma_known_rate b.1 b.2 alpha d) prior =
      l₂.foldl (fun d b => inverse_gamma_known_rate b.1 b.2 alpha d) prior := by
  rw [C37_inverse_gamma_known_rate, C37_inverse_gamma_known_rate, (h.map Prod.fst).sum_eq, (h.map Prod.snd).sum_eq]

/-- C39 -/
theorem C39_pareto_gamma (x_m : ℝ) (ln : ℝ → ℝ) {l₁ l₂ : List (ℝ × ℝ)} (h : l₁.Perm l₂) (prior : Gamma ℝ) :
    l₁.foldl (fun d b => pareto_gamma b.1 b.2 x_m d ln) prior =
      l₂.foldl (fun d b => pareto_gamma b.1 b.2 x_m d ln) prior := by
  rw [C37_pareto_gamma, C37_pareto_gamma, (h.map Prod.fst).sum_eq, (h.map Prod.snd).sum_eq]

/-- C39 -/
theorem C39_weibull {l₁ l₂ : List (ℝ × ℝ)} (h : l₁.Perm l₂) (prior : InverseGamma ℝ) :
    l₁.foldl (fun d b => weibull_inverse_gamma_known_shape b.1 b.2 d) prior =
      l₂.foldl (fun d b => weibull_inverse_gamma_known_shape b.1 b.2 d) prior := by
  rw [C37_weibull, C37_weibull, (h.map Prod.fst).sum_eq, (h.map Prod.snd).sum_eq]

/-- C39 -/
theorem C39_von_mises_known_direction {l₁ l₂ : List (ℝ × ℝ)} (h : l₁.Perm l₂) (prior : VonMisesKnownDirectionProportional ℝ) :
    l₁.foldl (fun d b => von_mises_known_direction b.1 b.2 d) prior =
      l₂.foldl (fun d b => von_mises_known_direction b.1 b.2 d) prior := by
  rw [C37_von_mises_known_direction, C37_von_mises_known_direction, (h.map Prod.fst).sum_eq, (h.map Prod.snd).sum_eq]

/-- C39 bernoulli -/
theorem C39_bernoulli_beta {l₁ l₂ : List ℝ} (h : l₁.Perm l₂) (prior : Beta ℝ) :
    l₁.foldl (fun d x => bernoulli_beta x d) prior =
      l₂.foldl (fun d x => bernoulli_beta x d) prior := by
  rw [C37_bernoulli_beta, C37_bernoulli_beta, h.length_eq, h.sum_eq]

/-- C39 gamma -/
theorem C39_gamma {l₁ l₂ : List (ℝ × ℝ × ℝ)} (h : l₁.Perm l₂) (prior : GammaProportional ℝ) :
    l₁.foldl (fun d b => gamma b.1 b.2.1 b.2.2 d) prior =
      l₂.foldl (fun d b => gamma b.1 b.2.1 b.2.2 d) prior := by
  rw [C37_gamma, C37_gamma, (h.map (·.1)).sum_eq, (h.map (·.2.1)).prod_eq,
    (h.map (·.2.2)).sum_eq]

/-- C39 gamma with known rate -/
theorem C39_gamma_known_rate (beta : ℝ) {l₁ l₂ : List (ℝ × ℝ)} (h : l₁.Perm l₂)
    (prior : GammaKnownRateProportional ℝ) :
    l₁.foldl (fun d b => gamma_known_rate b.1 b.2 beta d) prior =
      l₂.foldl (fun d b => gamma_known_rate b.1 b.2 beta d) prior := by
  rw [C37_gamma_known_rate, C37_gamma_known_rate, (h.map Prod.fst).prod_eq,
    (h.map Prod.snd).sum_eq]

/-- C39 beta likelihood -/
theorem C39_beta {l₁ l₂ : List (ℝ × ℝ × ℝ)} (h : l₁.Perm l₂) (prior : BetaProportional ℝ) :
    l₁.foldl (fun d b => beta b.1 b.2.1 b.2.2 d) prior =
      l₂.foldl (fun d b => beta b.1 b.2.1 b.2.2 d) prior := by
  rw [C37_beta, C37_beta, (h.map (·.1)).prod_eq, (h.map (·.2.1)).prod_eq,
    (h.map (·.2.2)).sum_eq]

/-- C39 Dirichlet -/
theorem C39_categorical_dirichlet {I : Type*} {l₁ l₂ : List (I → ℝ)} (h : l₁.Perm l₂)
    (prior : Dirichlet (I → ℝ)) :
    l₁.foldlM (fun d x => categorical_dirichlet x d) prior =
      l₂.foldlM (fun d x => categorical_dirichlet x d) prior := by
  rw [C37_categorical_dirichlet, C37_categorical_dirichlet, h.sum_eq]

/-- C39 multinomial -/
theorem C39_multinomial_dirichlet {I : Type*} {l₁ l₂ : List (I → ℝ)} (h : l₁.Perm l₂)
    (prior : Dirichlet (I → ℝ)) :
    l₁.foldlM (fun d x => multinomial_dirichlet x d) prior =
      l₂.foldlM (fun d x => multinomial_dirichlet x d) prior :=
  C39_categorical_dirichlet h prior

/-- C39 uniform -/
theorem C39_uniform_pareto {l₁ l₂ : List (ℝ × ℝ)} (h : l₁.Perm l₂) (prior : Pareto ℝ) :
    l₁.foldl (fun d b => uniform_pareto b.1 b.2 d max) prior =
      l₂.foldl (fun d b => uniform_pareto b.1 b.2 d max) prior := by
  refine h.foldl_eq' (fun x _ y _ z => ?_) prior
  ext
  · simp [uniform_pareto, max_right_comm]
  · simp [uniform_pareto]; ring

/-- C39 hypergeometric: the (wrong) update does at least not depend on the order. -/
theorem C39_hypergeometric_beta_binomial {l₁ l₂ : List (ℝ × ℝ)} (h : l₁.Perm l₂)
    (prior : BetaBinomial ℝ) :
    l₁.foldl (fun d b => hypergeometric_beta_binomial b.1 b.2 d) prior =
      l₂.foldl (fun d b => hypergeometric_beta_binomial b.1 b.2 d) prior := by
  refine h.foldl_eq' (fun x _ y _ z => ?_) prior
  ext <;> simp [hypergeometric_beta_binomial] <;> ring

/-- C39 normal with known variance -/
theorem C39_normal_known_variance (var : ℝ) (hvar : 0 < var) {l₁ l₂ : List (ℝ × ℝ)}
    (h : l₁.Perm l₂) (hn : ∀ b ∈ l₁, 0 ≤ b.2) (prior : Normal ℝ) (hs : 0 < prior.sigma) :
    l₁.foldl (fun d b => normal_known_variance b.1 b.2 var d) prior =
      l₂.foldl (fun d b => normal_known_variance b.1 b.2 var d) prior := by
  rw [C37_normal_known_variance var hvar l₁ hn prior hs,
    C37_normal_known_variance var hvar l₂ (fun b hb => hn b (h.mem_iff.2 hb)) prior hs,
    (h.map Prod.fst).sum_eq, (h.map Prod.snd).sum_eq]

/-- C39 normal with known precision -/
theorem C39_normal_known_precision (precision : ℝ) (hp : 0 < precision) {l₁ l₂ : List (ℝ × ℝ)}
    (h : l₁.Perm l₂) (hn : ∀ b ∈ l₁, 0 ≤ b.2) (prior : Normal ℝ) (hs : 0 < prior.sigma) :
    l₁.foldl (fun d b => normal_known_precision b.1 b.2 precision d) prior =
      l₂.foldl (fun d b => normal_known_precision b.1 b.2 precision d) prior := by
  rw [C37_normal_known_precision precision hp l₁ hn prior hs,
    C37_normal_known_precision precision hp l₂ (fun b hb => hn b (h.mem_iff.2 hb)) prior hs,
    (h.map Prod.fst).sum_eq, (h.map Prod.snd).sum_eq]

/-- C39 normal with known mean, InverseGamma prior -/
theorem C39_normal_known_mean_inverse_gamma (mu : ℝ) {l₁ l₂ : List (ℝ × ℝ × ℝ)}
    (h : l₁.Perm l₂) (prior : InverseGamma ℝ) :
    l₁.foldl (fun d b => normal_known_mean b.1 b.2.1 b.2.2 mu d) (.inverseGamma prior) =
      l₂.foldl (fun d b => normal_known_mean b.1 b.2.1 b.2.2 mu d) (.inverseGamma prior) := by
  rw [C37_normal_known_mean_inverse_gamma, C37_normal_known_mean_inverse_gamma,
    (h.map (·.1)).sum_eq, (h.map (·.2.1)).sum_eq, (h.map (·.2.2)).sum_eq]

/-- C39 normal with known mean, ScaledInverseChiSquared prior -/
theorem C39_normal_known_mean_scaled_inverse_chi_squared (mu : ℝ) {l₁ l₂ : List (ℝ × ℝ × ℝ)}
    (h : l₁.Perm l₂) (hn : ∀ b ∈ l₁, 0 ≤ b.2.2) (prior : ScaledInverseChiSquared ℝ)
    (hnu : 0 < prior.nu) :
    l₁.foldl (fun d b => normal_known_mean b.1 b.2.1 b.2.2 mu d)
        (.scaledInverseChiSquared prior) =
      l₂.foldl (fun d b => normal_known_mean b.1 b.2.1 b.2.2 mu d)
        (.scaledInverseChiSquared prior) := by
  rw [C37_normal_known_mean_scaled_inverse_chi_squared mu l₁ hn prior hnu,
    C37_normal_known_mean_scaled_inverse_chi_squared mu l₂
      (fun b hb => hn b (h.mem_iff.2 hb)) prior hnu,
    (h.map (·.1)).sum_eq, (h.map (·.2.1)).sum_eq, (h.map (·.2.2)).sum_eq]

/-- C39 normal, NormalInverseGamma prior -/
theorem C39_normal_nig {M : Type*} {l₁ l₂ : List (ℝ × ℝ × ℝ)} (h : l₁.Perm l₂)
    (hn : ∀ b ∈ l₁, 0 < b.2.2) (mu nu alpha beta : ℝ) (hnu : 0 < nu) :
    l₁.foldlM (fun d b => normal b.1 b.2.1 b.2.2 d) (nigPrior M mu nu alpha beta) =
      l₂.foldlM (fun d b => normal b.1 b.2.1 b.2.2 d) (nigPrior M mu nu alpha beta) := by
  rcases eq_or_ne l₁ [] with rfl | hne
  · rw [List.nil_perm.1 h]
  · have hne2 : l₂ ≠ [] := by rintro rfl; exact hne (List.perm_nil.1 h)
    rw [C37_normal_nig l₁ hne hn _ _ _ _ hnu,
      C37_normal_nig l₂ hne2 (fun b hb => hn b (h.mem_iff.2 hb)) _ _ _ _ hnu,
      (h.map (·.1)).sum_eq, (h.map (·.2.1)).sum_eq, (h.map (·.2.2)).sum_eq]

/-- C39 normal, NormalGamma prior -/
theorem C39_normal_ng {M : Type*} {l₁ l₂ : List (ℝ × ℝ × ℝ)} (h : l₁.Perm l₂)
    (hn : ∀ b ∈ l₁, 0 < b.2.2) (mu lam alpha beta : ℝ) (hlam : 0 < lam) :
    l₁.foldlM (fun d b => normal b.1 b.2.1 b.2.2 d) (ngPrior M mu lam alpha beta) =
      l₂.foldlM (fun d b => normal b.1 b.2.1 b.2.2 d) (ngPrior M mu lam alpha beta) := by
  rcases eq_or_ne l₁ [] with rfl | hne
  · rw [List.nil_perm.1 h]
  · have hne2 : l₂ ≠ [] := by rintro rfl; exact hne (List.perm_nil.1 h)
    rw [C37_normal_ng l₁ hne hn _ _ _ _ hlam,
      C37_normal_ng l₂ hne2 (fun b hb => hn b (h.mem_iff.2 hb)) _ _ _ _ hlam,
      (h.map (·.1)).sum_eq, (h.map (·.2.1)).sum_eq, (h.map (·.2.2)).sum_eq]

/-- C39 log-normal, either prior -/
theorem C39_log_normal {M : Type*} {l₁ l₂ : List (ℝ × ℝ × ℝ)} (h : l₁.Perm l₂)
    (hn : ∀ b ∈ l₁, 0 < b.2.2) (mu nu alpha beta : ℝ) (hnu : 0 < nu) :
    l₁.foldlM (fun d b => log_normal b.1 b.2.1 b.2.2 d) (nigPrior M mu nu alpha beta) =
      l₂.foldlM (fun d b => log_normal b.1 b.2.1 b.2.2 d) (nigPrior M mu nu alpha beta) ∧
    l₁.foldlM (fun d b => log_normal b.1 b.2.1 b.2.2 d) (ngPrior M mu nu alpha beta) =
      l₂.foldlM (fun d b => log_normal b.1 b.2.1 b.2.2 d) (ngPrior M mu nu alpha beta) :=
  ⟨C39_normal_nig h hn mu nu alpha beta hnu, C39_normal_ng h hn mu nu alpha beta hnu⟩

/-- C39 is false of `von_mises_known_concentration`: known concentration 2, prior `a = 1,
b = 0`, one observation at angle `0` and one at `pi / 2`; the two orders end in different
distributions. -/
theorem C39_von_mises_known_concentration_fails :
    let upd := fun (x : ℝ) (d : VonMisesKnownConcentration ℝ) =>
      von_mises_known_concentration (Real.cos x) (Real.sin x) 1 2 d Real.sin Real.cos
        Scipy.arctan2
    [0, Real.pi / 2].foldl (fun d x => upd x d) ⟨1, 0⟩ ≠
      [Real.pi / 2, 0].foldl (fun d x => upd x d) ⟨1, 0⟩ := by
  intro upd h
  have ha := congrArg VonMisesKnownConcentration.a h
  simp [upd, von_mises_known_concentration, Scipy.arctan2] at ha
  have h1 : Real.sin (Complex.arg ⟨1, 1⟩) = 1 / √2 := by
    rw [Complex.sin_arg]; simp [Complex.norm_def, Complex.normSq_apply]; norm_num
  rw [h1] at ha
  have h2 : (0 : ℝ) < √2 := by positivity
  have h3 : √2 ^ 2 = (2 : ℝ) := Real.sq_sqrt (by norm_num)
  field_simp at ha
  nlinarith

/-- hypotheses are met: two different batches in two orders -/
example : [((1 : ℝ), (2 : ℝ)), (3, 4)].Perm [(3, 4), (1, 2)] ∧
    (∀ b ∈ [((1 : ℝ), (2 : ℝ)), (3, 4)], 0 ≤ b.2) := by
  refine ⟨List.Perm.swap _ _ _, ?_⟩
  simp

end Conj
