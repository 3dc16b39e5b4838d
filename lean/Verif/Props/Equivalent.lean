import Verif.Props.PosteriorNormal

/-!
# Equivalent entry points (C43) and alternative constructors (C45)
-/

open MeasureTheory Set Real

namespace Conj

open Scipy Spec

variable {α M : Type*}

/-! ## C43 -/

/-- C43: precision and variance entry points, posterior and predictive (for numbers of every
kind: `1 / precision` is what the number type makes of it). -/
theorem C43_precision_is_variance [PyNum α] (x n precision : α) (d : Normal α) :
    normal_known_precision x n precision d = normal_known_variance x n (lit 1 / precision) d ∧
    normal_known_precision_predictive precision d =
      normal_known_variance_predictive (lit 1 / precision) d := ⟨rfl, rfl⟩

/-- C43: known precision in closed form: precisions add, means are weighted by precision. -/
theorem C43_precision_closed_form (x n p : ℝ) (hp : 0 < p) (hn : 0 ≤ n) (d : Normal ℝ)
    (hs : 0 < d.sigma) :
    1 / (normal_known_precision x n p d).sigma ^ 2 = 1 / d.sigma ^ 2 + n * p ∧
    (normal_known_precision x n p d).mu =
      (d.mu / d.sigma ^ 2 + x * p) / (1 / d.sigma ^ 2 + n * p) := by
  simp only [normal_known_precision, normal_known_variance, powq_half, powq_two, lit_real,
    Rat.cast_one, div_div_eq_mul_div, div_one]
  rw [Real.sq_sqrt (by positivity), one_div_one_div]
  exact ⟨rfl, trivial⟩

/-- C43: equal numbers in a NormalGamma and a NormalInverseGamma give equal numbers out of
`normal`, for every kind of number; both calls succeed. -/
theorem C43_normal_gamma_inverse_gamma [PyNum α] (x x2 n mu nu a b : α) :
    ∃ mu' nu' a' b' : α,
      normal (M := M) x x2 n (.nig ⟨mu, a, b, none, some nu⟩) = .ok (.nig ⟨mu', a', b', none, some nu'⟩) ∧
      normal (M := M) x x2 n (.ng ⟨mu, nu, a, b⟩) = .ok (.ng ⟨mu', nu', a', b'⟩) :=
  ⟨_, _, _, _, rfl, rfl⟩

/-- C43: the same for the predictive. -/
theorem C43_normal_predictive_gamma_inverse_gamma [PyNum α] (mu nu a b : α) :
    ∃ t : StudentT α, normal_predictive (M := M) (.nig ⟨mu, a, b, none, some nu⟩) = .ok t ∧
      normal_predictive (M := M) (.ng ⟨mu, nu, a, b⟩) = .ok t :=
  ⟨_, rfl, rfl⟩

/-- `c` and `d` are the same distribution of the variance -/
def SameVariance (c : ScaledInverseChiSquared ℝ) (d : InverseGamma ℝ) : Prop :=
  d.alpha = c.nu / 2 ∧ d.beta = c.nu * c.sigma2 / 2

/-- C43: equivalent priors (same density) of the two classes give equivalent posteriors. -/
theorem C43_known_mean_classes (x x2 n mu : ℝ) (hn : 0 ≤ n) (c : ScaledInverseChiSquared ℝ)
    (d : InverseGamma ℝ) (hc : 0 < c.nu) (h : SameVariance c d) :
    ∃ c' d', normal_known_mean x x2 n mu (.scaledInverseChiSquared c) =
        .scaledInverseChiSquared c' ∧
      normal_known_mean x x2 n mu (.inverseGamma d) = .inverseGamma d' ∧
      SameVariance c' d' ∧ c'.dist.pdf = d'.dist.pdf := by
  have hd : c.to_inverse_gamma = d := by
    ext <;> simp [ScaledInverseChiSquared.to_inverse_gamma, h.1, h.2]
  refine ⟨_, _, rfl, rfl, ?_⟩
  rw [hd]
  set d' := normalKnownMeanInverseGammaPrior x x2 n mu d
  have hne : d'.alpha ≠ 0 := by
    have : d'.alpha = c.nu / 2 + n / 2 := by
      simp [d', normalKnownMeanInverseGammaPrior, h.1]
    rw [this]; positivity
  have h2 := ScaledInverseChiSquared.to_from d' hne
  constructor
  · constructor
    · conv_lhs => rw [← h2]
      simp [ScaledInverseChiSquared.to_inverse_gamma]
    · conv_lhs => rw [← h2]
      simp [ScaledInverseChiSquared.to_inverse_gamma]
  · rw [ScaledInverseChiSquared.dist_eq, h2]

/-- C43: ... and equal predictives. -/
theorem C43_known_mean_predictive_classes (mu : ℝ) (c : ScaledInverseChiSquared ℝ)
    (d : InverseGamma ℝ) (h : SameVariance c d) :
    normal_known_mean_predictive mu (.scaledInverseChiSquared c) =
      normal_known_mean_predictive mu (.inverseGamma d) := by
  have hd : c.to_inverse_gamma = d := by
    ext <;> simp [ScaledInverseChiSquared.to_inverse_gamma, h.1, h.2]
  simp only [normal_known_mean_predictive, hd]

/-- C43: `log_normal` on data is `normal` on the logs of the data. -/
theorem C43_log_normal [PyNum α] (logs : List ℝ) (x x2 n : α) (prior : NormalPrior α M)
    (priorR : NormalPrior ℝ M) :
    log_normal x x2 n prior = normal x x2 n prior ∧
    log_normal logs.sum (logs.map (· ^ 2)).sum (logs.length : ℝ) priorR =
      normal logs.sum (logs.map (· ^ 2)).sum (logs.length : ℝ) priorR := ⟨rfl, rfl⟩

/-- C43: deprecated names. -/
theorem C43_deprecated [PyNum α] (x x2 n : α) (d : NormalInverseGamma α α M) :
    normal_normal_inverse_gamma x x2 n d = normal x x2 n (.nig d) ∧
    normal_normal_inverse_gamma_predictive d = normal_predictive (.nig d) := ⟨rfl, rfl⟩

/-- C43: categorical and multinomial entry points, posterior and predictive. -/
theorem C43_categorical_multinomial {A : Type*} [PySeq A] [PyNum α] (x : A) (d : Dirichlet A)
    (n : α) :
    categorical_dirichlet x d = multinomial_dirichlet x d ∧
    categorical_dirichlet_predictive d n = multinomial_dirichlet_predictive d n := ⟨rfl, rfl⟩

/-- C43: Bernoulli is binomial with one trial, posterior and predictive. -/
theorem C43_bernoulli_binomial [PyNum α] (x : α) (d : Beta α) :
    bernoulli_beta x d = binomial_beta (lit 1) x d ∧
    bernoulli_beta_predictive d = binomial_beta_predictive (lit 1) d := ⟨rfl, rfl⟩

/-- hypotheses are met -/
example : SameVariance ⟨4, 3⟩ ⟨2, 6⟩ := by constructor <;> norm_num

/-! ## C45 -/

/-- C45: `Beta.from_mean` has the asked mean (the expected value under `.dist`) and `alpha`. -/
theorem C45_beta_from_mean (mean alpha : ℝ) (h0 : 0 < mean) (h1 : mean < 1) (ha : 0 < alpha) :
    (Beta.from_mean mean alpha).Valid ∧ (Beta.from_mean mean alpha).alpha = alpha ∧
    ∫ p in Ioo (0 : ℝ) 1, p * (Beta.from_mean mean alpha).dist.pdf p = mean := by
  set d := Beta.from_mean mean alpha
  have hb : d.beta = alpha * (1 / mean - 1) := by
    simp [d, Beta.from_mean, getBetaParamFromMeanAndAlpha]
  have h2 : 0 < 1 / mean - 1 := by
    rw [sub_pos, one_div, one_lt_inv₀ h0]; exact h1
  have hv : d.Valid := ⟨ha, by rw [hb]; positivity⟩
  refine ⟨hv, rfl, ?_⟩
  have hv' : (⟨d.alpha + 1, d.beta⟩ : Beta ℝ).Valid := ⟨by have := hv.1; simp only; positivity, hv.2⟩
  have k := beta_kernel d ⟨d.alpha + 1, d.beta⟩ hv hv' (f := fun p => p) (C := 1) (u := 1)
    (v := 0) (fun p hp => by simp) rfl (by simp)
  rw [setIntegral_congr_fun measurableSet_Ioo (fun p hp => (mul_comm _ _).trans (k p hp)),
    integral_const_mul, (Beta.isDensity _ hv'.1 hv'.2).2.2]
  obtain ⟨q1, q2⟩ := hv
  have g1 := Real.Gamma_add_one q1.ne'
  have g2 : Real.Gamma (d.alpha + 1 + d.beta) = (d.alpha + d.beta) * Real.Gamma (d.alpha + d.beta) := by
    rw [show d.alpha + 1 + d.beta = d.alpha + d.beta + 1 by ring, Real.Gamma_add_one (by positivity)]
  have p1 := Real.Gamma_pos_of_pos q1
  have p2 := Real.Gamma_pos_of_pos q2
  have p3 := Real.Gamma_pos_of_pos (add_pos q1 q2)
  simp only [betaFn, g1, g2]
  have e : (d.alpha + d.beta) * mean = d.alpha := by
    rw [hb]; change (alpha + _) * mean = alpha
    field_simp
    ring
  field_simp
  linarith

/-- C45: `from_successes_and_failures` is the posterior of the uninformative prior, and that
prior is uniform on (0, 1). -/
theorem C45_from_successes_and_failures (s f : ℝ) :
    Beta.from_successes_and_failures s f = binomial_beta (s + f) s Beta.uninformative ∧
    ∀ p ∈ Ioo (0 : ℝ) 1, (Beta.uninformative : Beta ℝ).dist.pdf p = 1 := by
  constructor
  · ext <;> simp [Beta.from_successes_and_failures, binomial_beta, getBinomialBetaPosteriorParams,
      Beta.uninformative] <;> ring
  · intro p hp
    rw [Beta.pdf_eq _ hp]
    simp only [Beta.uninformative, lit_real, Rat.cast_one, betaFn]
    rw [Real.Gamma_one, show (1 : ℝ) + 1 = 2 by norm_num, Real.Gamma_two]
    simp

/-- C45: `Normal.from_mean_and_variance`: the density is the Gaussian one with that variance. -/
theorem C45_normal_from_mean_and_variance (m v : ℝ) (hv : 0 < v) :
    (Normal.from_mean_and_variance m v).dist.pdf =
      ProbabilityTheory.gaussianPDFReal m (Real.toNNReal v) := by
  have hs : 0 < (Normal.from_mean_and_variance m v).sigma := by
    simp only [Normal.from_mean_and_variance, powq_half]; positivity
  rw [Normal.pdf_eq_gaussian _ hs]
  simp only [Normal.from_mean_and_variance, powq_half, Real.sq_sqrt hv.le]

/-- C45: `Normal.from_mean_and_precision`. -/
theorem C45_normal_from_mean_and_precision (m p : ℝ) (hp : 0 < p) :
    (Normal.from_mean_and_precision m p).dist.pdf =
      ProbabilityTheory.gaussianPDFReal m (Real.toNNReal (1 / p)) := by
  have e : (Normal.from_mean_and_precision m p).sigma = (√p)⁻¹ := by
    simp only [Normal.from_mean_and_precision]; exact powq_neg_half p hp.le
  have hs : 0 < (Normal.from_mean_and_precision m p).sigma := by rw [e]; positivity
  rw [Normal.pdf_eq_gaussian _ hs, e, inv_pow, Real.sq_sqrt hp.le, one_div]
  rfl

/-- C45: `Normal.uninformative` is centred at zero with the given sigma. -/
theorem C45_normal_uninformative (s : ℝ) (hs : 0 < s) :
    (Normal.uninformative s).dist.pdf = ProbabilityTheory.gaussianPDFReal 0 (Real.toNNReal (s ^ 2)) := by
  have : (Normal.uninformative s).mu = 0 := by simp [Normal.uninformative]
  rw [Normal.pdf_eq_gaussian _ (by exact hs), this]
  rfl

/-- C45: `Gamma.from_occurrences_in_intervals(k, t)` is the posterior of the (improper) flat
start `Gamma(0, 0)` after `k` occurrences in `t` intervals, with mean `k / t`. -/
theorem C45_gamma_from_occurrences (k t : ℝ) :
    Gamma.from_occurrences_in_intervals k t = poisson_gamma k t ⟨0, 0⟩ := by
  ext <;> simp [Gamma.from_occurrences_in_intervals, poisson_gamma, getPoissonGammaPosteriorParams]

/-- C45: exactly one of `delta_inverse` and `nu` must be given, else ValueError. -/
theorem C45_nig_new_iff {V : Type*} (mu : V) (a b : α) (di : Option M) (nu : Option α) :
    (∃ d, NormalInverseGamma.new mu a b di nu = .ok d ∧ d.mu = mu ∧ d.alpha = a ∧ d.beta = b ∧
      d.delta_inverse = di ∧ d.nu = nu) ↔ (di.isSome ≠ nu.isSome) := by
  cases di <;> cases nu <;> simp [NormalInverseGamma.new]

/-- C45: the two messages. -/
theorem C45_nig_new_errors {V : Type*} (mu : V) (a b nu : α) (di : M) :
    NormalInverseGamma.new (M := M) mu a b none none =
      .error (.valueError "Either delta_inverse or nu must be provided.") ∧
    NormalInverseGamma.new mu a b (some di) (some nu) =
      .error (.valueError "Only one of delta_inverse or nu must be provided.") := ⟨rfl, rfl⟩

/-- C45: `from_inverse_gamma` and `.inverse_gamma` are mutually inverse. -/
theorem C45_nig_inverse_gamma {V : Type*} (mu : V) (ig : InverseGamma α) (di : Option M)
    (nu : Option α) (d : NormalInverseGamma α V M)
    (h : NormalInverseGamma.from_inverse_gamma mu ig di nu = .ok d) :
    d.inverse_gamma = ig ∧ d.mu = mu ∧ d.delta_inverse = di ∧ d.nu = nu ∧
    NormalInverseGamma.from_inverse_gamma d.mu d.inverse_gamma d.delta_inverse d.nu = .ok d := by
  cases di <;> cases nu <;>
    simp [NormalInverseGamma.from_inverse_gamma, NormalInverseGamma.new] at h <;>
    subst h <;> exact ⟨rfl, rfl, rfl, rfl, rfl⟩

/-- C45: Scaled inverse chi-squared to InverseGamma and back, both ways round, and the two
have the same density. -/
theorem C45_scaled_inverse_chi_squared (c : ScaledInverseChiSquared ℝ) (hc : c.nu ≠ 0)
    (d : InverseGamma ℝ) (hd : d.alpha ≠ 0) :
    ScaledInverseChiSquared.from_inverse_gamma c.to_inverse_gamma = c ∧
    (ScaledInverseChiSquared.from_inverse_gamma d).to_inverse_gamma = d ∧
    c.dist.pdf = c.to_inverse_gamma.dist.pdf ∧
    (ScaledInverseChiSquared.from_inverse_gamma d).dist.pdf = d.dist.pdf := by
  have h2 := ScaledInverseChiSquared.to_from d hd
  refine ⟨?_, h2, by rw [ScaledInverseChiSquared.dist_eq],
    by rw [ScaledInverseChiSquared.dist_eq, h2]⟩
  ext <;> simp [ScaledInverseChiSquared.from_inverse_gamma,
    ScaledInverseChiSquared.to_inverse_gamma]
  field_simp

/-- C45: `NormalInverseWishart.from_inverse_wishart` and `.inverse_wishart`. -/
theorem C45_niw_inverse_wishart {V : Type*} (mu : V) (kappa : α) (iw : InverseWishart α M)
    (d : NormalInverseWishart α V M) :
    (NormalInverseWishart.from_inverse_wishart mu kappa iw).inverse_wishart = iw ∧
    (NormalInverseWishart.from_inverse_wishart mu kappa iw).mu = mu ∧
    (NormalInverseWishart.from_inverse_wishart mu kappa iw).kappa = kappa ∧
    NormalInverseWishart.from_inverse_wishart d.mu d.kappa d.inverse_wishart = d :=
  ⟨rfl, rfl, rfl, rfl⟩

/-- C45: `Dirichlet.uninformative(n)` has `n` parameters, all one. -/
theorem C45_dirichlet_uninformative (n : ℕ) (i : Fin n) :
    (Dirichlet.uninformative n : Dirichlet (Fin n → ℝ)).alpha i = 1 := by
  simp [Dirichlet.uninformative]

example := C45_beta_from_mean (1 / 4) 3 (by norm_num) (by norm_num) (by norm_num)

end Conj
