import Verif.Checked
import Verif.Props.Sequential

/-!
# Which calls fail (C48), and the call without data (C40)

C48: `(f (.ok ..) d.float).run` is the call `f(...)` with plain Python floats, exceptions
included; `f .. d` is the same call in real numbers.
-/

namespace Conj

variable {M : Type}

/-! ## C48: calls that never fail -/

/-- C48 -/
theorem C48_binomial_beta (n x : ℝ) (d : Beta ℝ) :
    (binomial_beta (.ok n) (.ok x) d.float).run = .ok (binomial_beta n x d) := rfl

/-- C48 -/
theorem C48_bernoulli_beta (x : ℝ) (d : Beta ℝ) :
    (bernoulli_beta (.ok x) d.float).run = .ok (bernoulli_beta x d) := rfl

/-- C48 -/
theorem C48_negative_binomial_beta (r n x : ℝ) (d : Beta ℝ) :
    (negative_binomial_beta (.ok r) (.ok n) (.ok x) d.float).run =
      .ok (negative_binomial_beta r n x d) := rfl

/-- C48 -/
theorem C48_hypergeometric_beta_binomial (x n : ℝ) (d : BetaBinomial ℝ) :
    (hypergeometric_beta_binomial (.ok x) (.ok n) d.float).run =
      .ok (hypergeometric_beta_binomial x n d) := rfl

/-- C48 -/
theorem C48_geometric_beta (x n : ℝ) (d : Beta ℝ) (one_start : Bool) :
    (geometric_beta (.ok x) (.ok n) d.float one_start).run =
      .ok (geometric_beta x n d one_start) := by
  cases one_start <;> rfl

/-- C48 -/
theorem C48_poisson_gamma (x n : ℝ) (d : Gamma ℝ) :
    (poisson_gamma (.ok x) (.ok n) d.float).run = .ok (poisson_gamma x n d) := rfl

/-- C48 -/
theorem C48_exponential_gamma (x n : ℝ) (d : Gamma ℝ) :
    (exponential_gamma (.ok x) (.ok n) d.float).run = .ok (exponential_gamma x n d) := rfl

/-- C48 -/
theorem C48_gamma_known_shape (x n a : ℝ) (d : Gamma ℝ) :
    (gamma_known_shape (.ok x) (.ok n) (.ok a) d.float).run =
      .ok (gamma_known_shape x n a d) := rfl

/-- C48 -/
theorem C48_inverse_gamma_known_rate (x n a : ℝ) (d : Gamma ℝ) :
    (inverse_gamma_known_rate (.ok x) (.ok n) (.ok a) d.float).run =
      .ok (inverse_gamma_known_rate x n a d) := rfl

/-- C48; any `ln` that returns a float -/
theorem C48_pareto_gamma (n t m : ℝ) (ln : ℝ → ℝ) (d : Gamma ℝ) :
    (pareto_gamma (.ok n) (.ok t) (.ok m) d.float (Except.map ln)).run =
      .ok (pareto_gamma n t m d ln) := rfl

/-- C48 -/
theorem C48_uniform_pareto (x n : ℝ) (d : Pareto ℝ) :
    (uniform_pareto (.ok x) (.ok n) d.float (fun a b => do return max (← a) (← b))).run =
      .ok (uniform_pareto x n d max) := rfl

/-- C48 -/
theorem C48_gamma (t p n : ℝ) (d : GammaProportional ℝ) :
    (gamma (.ok t) (.ok p) (.ok n) d.float).run = .ok (gamma t p n d) := rfl

/-- C48 -/
theorem C48_gamma_known_rate (p n b : ℝ) (d : GammaKnownRateProportional ℝ) :
    (gamma_known_rate (.ok p) (.ok n) (.ok b) d.float).run = .ok (gamma_known_rate p n b d) := rfl

/-- C48 -/
theorem C48_beta (p q n : ℝ) (d : BetaProportional ℝ) :
    (beta (.ok p) (.ok q) (.ok n) d.float).run = .ok (beta p q n d) := rfl

/-- C48 -/
theorem C48_von_mises_known_direction (c n : ℝ) (d : VonMisesKnownDirectionProportional ℝ) :
    (von_mises_known_direction (.ok c) (.ok n) d.float).run =
      .ok (von_mises_known_direction c n d) := rfl

/-- C48 -/
theorem C48_weibull_inverse_gamma_known_shape (n t : ℝ) (d : InverseGamma ℝ) :
    (weibull_inverse_gamma_known_shape (.ok n) (.ok t) d.float).run =
      .ok (weibull_inverse_gamma_known_shape n t d) := rfl

/-! ## C48: calls that divide or take roots -/

/-- C48: fails exactly when `beta = -1`, which no valid Gamma has. -/
theorem C48_poisson_gamma_predictive (n : ℝ) (d : Gamma ℝ) :
    (poisson_gamma_predictive d.float (.ok n)).run =
      if 1 + d.beta = 0 then .error .zeroDivision else .ok (poisson_gamma_predictive d n) := by
  simp only [poisson_gamma_predictive, NegativeBinomial.run, Gamma.float, Checked.lit_eq,
    Checked.ok_add, Checked.ok_mul, Checked.ok_div, Rat.cast_one, lit_real]
  split_ifs <;> rfl

/-- C48 -/
theorem C48_normal_known_variance (x n var : ℝ) (d : Normal ℝ) :
    (normal_known_variance (.ok x) (.ok n) (.ok var) d.float).run =
      if d.sigma = 0 ∨ var = 0 ∨ 1 / d.sigma ^ 2 + n / var = 0 then .error .zeroDivision
      else if 1 / d.sigma ^ 2 + n / var < 0 then .error .complexResult
      else .ok (normal_known_variance x n var d) := by
  simp only [normal_known_variance, Normal.run, Normal.float, Checked.lit_eq, Checked.ok_powq_two,
    Rat.cast_one, lit_real, powq_two]
  by_cases h1 : d.sigma = 0
  · simp [h1]; rfl
  have h1' : d.sigma ^ 2 ≠ 0 := pow_ne_zero 2 h1
  by_cases h2 : var = 0
  · simp [h2, Checked.ok_div_ne _ h1']; rfl
  by_cases h3 : 1 / d.sigma ^ 2 + n / var = 0
  · rw [Checked.ok_div_ne _ h1', Checked.ok_div_ne _ h1', Checked.ok_div_ne _ h2,
      Checked.ok_div_ne _ h2, Checked.ok_add, Checked.ok_add, h3]
    simp; rfl
  · rw [Checked.ok_div_ne _ h1', Checked.ok_div_ne _ h1', Checked.ok_div_ne _ h2,
      Checked.ok_div_ne _ h2, Checked.ok_add, Checked.ok_add, Checked.ok_div_ne _ h3,
      Checked.ok_div_ne _ h3, Checked.ok_powq_half, powq_half]
    have : ¬ (d.sigma = 0 ∨ var = 0 ∨ 1 / d.sigma ^ 2 + n / var = 0) := by tauto
    rw [if_neg this]
    have e : 1 / (1 / d.sigma ^ 2 + n / var) < 0 ↔ 1 / d.sigma ^ 2 + n / var < 0 := by
      rw [one_div_neg]
    simp only [e]
    split_ifs <;> rfl

/-- C48 -/
theorem C48_normal_known_precision (x n p : ℝ) (d : Normal ℝ) :
    (normal_known_precision (.ok x) (.ok n) (.ok p) d.float).run =
      if d.sigma = 0 ∨ p = 0 ∨ 1 / d.sigma ^ 2 + n * p = 0 then .error .zeroDivision
      else if 1 / d.sigma ^ 2 + n * p < 0 then .error .complexResult
      else .ok (normal_known_precision x n p d) := by
  simp only [normal_known_precision, Checked.lit_eq, Rat.cast_one, lit_real]
  by_cases hp : p = 0
  · subst hp
    simp only [Checked.ok_div_zero, normal_known_variance, Normal.run, Normal.float,
      Checked.ok_powq_two, Checked.ok_div_error]
    by_cases h1 : d.sigma = 0
    · simp [h1]; rfl
    · simp [Checked.ok_div_ne _ (pow_ne_zero 2 h1)]; rfl
  · rw [Checked.ok_div_ne _ hp, C48_normal_known_variance]
    have : (1 / p = 0) = (p = 0) := by simp
    simp only [this, div_div_eq_mul_div, div_one]

/-- C48 -/
theorem C48_normal_known_variance_predictive (var : ℝ) (d : Normal ℝ) :
    (normal_known_variance_predictive (.ok var) d.float).run =
      if var + d.sigma ^ 2 < 0 then .error .complexResult
      else .ok (normal_known_variance_predictive var d) := by
  simp only [normal_known_variance_predictive, Normal.run, Normal.float, Checked.ok_powq_two,
    Checked.ok_add, Checked.ok_powq_half, powq_two, powq_half]
  split_ifs <;> rfl

/-- C48 -/
theorem C48_normal_known_precision_predictive (p : ℝ) (d : Normal ℝ) :
    (normal_known_precision_predictive (.ok p) d.float).run =
      if p = 0 then .error .zeroDivision
      else if 1 / p + d.sigma ^ 2 < 0 then .error .complexResult
      else .ok (normal_known_precision_predictive p d) := by
  simp only [normal_known_precision_predictive, Checked.lit_eq, Rat.cast_one, lit_real]
  by_cases hp : p = 0
  · subst hp
    simp [normal_known_variance_predictive, Normal.run, Normal.float]; rfl
  · rw [Checked.ok_div_ne _ hp, C48_normal_known_variance_predictive, if_neg hp]

/-- C48, InverseGamma prior: never fails. -/
theorem C48_normal_known_mean_inverse_gamma (x x2 n mu : ℝ) (d : InverseGamma ℝ) :
    (normal_known_mean (.ok x) (.ok x2) (.ok n) (.ok mu) (VariancePrior.inverseGamma d).float).run =
      .ok (normal_known_mean x x2 n mu (.inverseGamma d)) := by
  simp only [normal_known_mean, VariancePrior.float, VariancePrior.run, InverseGamma.float,
    normalKnownMeanInverseGammaPrior, Checked.lit_eq, Checked.ok_powq_two, Checked.ok_mul,
    Checked.ok_sub, Checked.ok_add, powq_two]
  rw [Checked.ok_div_ne _ (by norm_num), Checked.ok_add]
  rfl

/-- C48, ScaledInverseChiSquared prior: fails exactly when `nu + n = 0`. -/
theorem C48_normal_known_mean_scaled_inverse_chi_squared (x x2 n mu : ℝ)
    (d : ScaledInverseChiSquared ℝ) :
    (normal_known_mean (.ok x) (.ok x2) (.ok n) (.ok mu)
        (VariancePrior.scaledInverseChiSquared d).float).run =
      if d.nu + n = 0 then .error .zeroDivision
      else .ok (normal_known_mean x x2 n mu (.scaledInverseChiSquared d)) := by
  have two : (((2 : ℚ) : ℝ)) ≠ 0 := by norm_num
  simp only [normal_known_mean, VariancePrior.float, VariancePrior.run,
    ScaledInverseChiSquared.float, normalKnownMeanInverseGammaPrior,
    ScaledInverseChiSquared.to_inverse_gamma, ScaledInverseChiSquared.from_inverse_gamma,
    Checked.lit_eq, Checked.ok_powq_two, Checked.ok_mul,
    Checked.ok_sub, Checked.ok_add, powq_two, Checked.ok_div_ne _ two, lit_real]
  have e : (d.nu / ((2 : ℚ) : ℝ) + n / ((2 : ℚ) : ℝ)) * ((2 : ℚ) : ℝ) = d.nu + n := by
    field_simp
  rw [e, Checked.ok_div]
  split_ifs <;> rfl

/-- C48 -/
theorem C48_normal_known_mean_predictive_inverse_gamma (mu : ℝ) (d : InverseGamma ℝ) :
    (normal_known_mean_predictive (.ok mu) (VariancePrior.inverseGamma d).float).run =
      if d.alpha = 0 then .error .zeroDivision
      else if d.beta / d.alpha < 0 then .error .complexResult
      else .ok (normal_known_mean_predictive mu (.inverseGamma d)) := by
  simp only [normal_known_mean_predictive, VariancePrior.float, InverseGamma.float, Checked.ok_div,
    StudentT.run, powq_half]
  by_cases h : d.alpha = 0
  · simp only [h, if_pos, Checked.error_powq]; rfl
  · simp only [h, if_neg, Checked.ok_powq_half, not_false_iff]
    split_ifs <;> rfl

/-- C48 -/
theorem C48_normal_known_mean_predictive_scaled_inverse_chi_squared (mu : ℝ)
    (d : ScaledInverseChiSquared ℝ) :
    (normal_known_mean_predictive (.ok mu) (VariancePrior.scaledInverseChiSquared d).float).run =
      if d.nu = 0 then .error .zeroDivision
      else if d.sigma2 < 0 then .error .complexResult
      else .ok (normal_known_mean_predictive mu (.scaledInverseChiSquared d)) := by
  have two : (((2 : ℚ) : ℝ)) ≠ 0 := by norm_num
  simp only [normal_known_mean_predictive, VariancePrior.float, ScaledInverseChiSquared.float,
    ScaledInverseChiSquared.to_inverse_gamma, Checked.lit_eq, Checked.ok_mul,
    Checked.ok_div_ne _ two, StudentT.run, powq_half, lit_real]
  by_cases h : d.nu = 0
  · simp only [h, if_pos, zero_div, Checked.ok_div_zero, Checked.error_powq]; rfl
  · have h' : d.nu / ((2 : ℚ) : ℝ) ≠ 0 := div_ne_zero h two
    have e : d.nu * d.sigma2 / ((2 : ℚ) : ℝ) / (d.nu / ((2 : ℚ) : ℝ)) = d.sigma2 := by
      field_simp
    simp only [Checked.ok_div_ne _ h', e, h, if_false, Checked.ok_powq_half]
    split_ifs <;> rfl

/-- C48 `normal` with a NormalInverseGamma prior: `nu = None` is a ValueError, `n = 0` and
`nu + n = 0` are ZeroDivisionErrors, every other call returns.  (The outer `Except` is the
library's own exception, the inner one that of the float arithmetic.) -/
theorem C48_normal_nig (x x2 n : ℝ) (d : NormalInverseGamma ℝ ℝ M) :
    (normal (.ok x) (.ok x2) (.ok n) (NormalPrior.nig d).float).map NormalPrior.run =
      match d.nu with
      | none => .error (.valueError "nu must be provided for the prior")
      | some nu =>
        if n = 0 ∨ nu + n = 0 then .ok (.error .zeroDivision)
        else (normal x x2 n (.nig d)).map .ok := by
  have two : (((2 : ℚ) : ℝ)) ≠ 0 := by norm_num
  rcases d with ⟨mu, alpha, beta, di, nu⟩
  cases nu with
  | none => rfl
  | some nu =>
    simp only [normal, NormalPrior.float, NormalInverseGamma.float, Option.map_some, normalUpdate,
      Checked.lit_eq, Checked.ok_powq_two, Checked.ok_mul, Checked.ok_add, Checked.ok_div_ne _ two,
      powq_two, lit_real]
    by_cases hn : n = 0
    · simp only [hn, Checked.ok_div_zero, Checked.ok_mul_error, Checked.ok_add_error,
        Checked.error_div, true_or, if_true]
      rfl
    · by_cases h2 : nu + n = 0
      · simp only [Checked.ok_div_ne _ hn, Checked.ok_mul, Checked.ok_add, h2, or_true, if_true,
          Checked.ok_div_zero]
        rfl
      · have : ¬ (n = 0 ∨ nu + n = 0) := by tauto
        simp only [Checked.ok_div_ne _ hn, Checked.ok_mul, Checked.ok_add, Checked.ok_div_ne _ h2,
          this, if_false, Checked.ok_powq_two, Checked.ok_sub]
        rfl

/-- C48 `normal` with a NormalGamma prior. -/
theorem C48_normal_ng (x x2 n : ℝ) (d : NormalGamma ℝ) :
    (normal (M := M) (.ok x) (.ok x2) (.ok n) (NormalPrior.ng d).float).map NormalPrior.run =
      if n = 0 ∨ d.lam + n = 0 then .ok (.error .zeroDivision)
      else (normal (M := M) x x2 n (.ng d)).map .ok := by
  have two : (((2 : ℚ) : ℝ)) ≠ 0 := by norm_num
  rcases d with ⟨mu, lam, alpha, beta⟩
  simp only [normal, NormalPrior.float, NormalGamma.float, normalUpdate,
    Checked.lit_eq, Checked.ok_powq_two, Checked.ok_mul, Checked.ok_add, Checked.ok_div_ne _ two,
    powq_two, lit_real]
  by_cases hn : n = 0
  · simp only [hn, Checked.ok_div_zero, Checked.ok_mul_error, Checked.ok_add_error,
      Checked.error_div, true_or, if_true]
    rfl
  · by_cases h2 : lam + n = 0
    · simp only [Checked.ok_div_ne _ hn, Checked.ok_mul, Checked.ok_add, h2, or_true, if_true,
        Checked.ok_div_zero]
      rfl
    · have : ¬ (n = 0 ∨ lam + n = 0) := by tauto
      simp only [Checked.ok_div_ne _ hn, Checked.ok_mul, Checked.ok_add, Checked.ok_div_ne _ h2,
        this, if_false, Checked.ok_powq_two, Checked.ok_sub]
      rfl

/-- C48 `log_normal`: the same failures, either prior. -/
theorem C48_log_normal (x x2 n : ℝ) (d : NormalInverseGamma ℝ ℝ M) (g : NormalGamma ℝ) :
    ((log_normal (.ok x) (.ok x2) (.ok n) (NormalPrior.nig d).float).map NormalPrior.run =
      match d.nu with
      | none => .error (.valueError "nu must be provided for the prior")
      | some nu =>
        if n = 0 ∨ nu + n = 0 then .ok (.error .zeroDivision)
        else (log_normal x x2 n (.nig d)).map .ok) ∧
    ((log_normal (M := M) (.ok x) (.ok x2) (.ok n) (NormalPrior.ng g).float).map NormalPrior.run =
      if n = 0 ∨ g.lam + n = 0 then .ok (.error .zeroDivision)
      else (log_normal (M := M) x x2 n (.ng g)).map .ok) :=
  ⟨C48_normal_nig x x2 n d, C48_normal_ng x x2 n g⟩

/-- C48 `normal_predictive` -/
theorem C48_normal_predictive_nig (d : NormalInverseGamma ℝ ℝ M) :
    (normal_predictive (NormalPrior.nig d).float).map StudentT.run =
      match d.nu with
      | none => .error .typeError
      | some nu =>
        if nu * d.alpha = 0 then .ok (.error .zeroDivision)
        else if d.beta * (nu + 1) / (nu * d.alpha) < 0 then .ok (.error .complexResult)
        else (normal_predictive (.nig d)).map .ok := by
  rcases d with ⟨mu, alpha, beta, di, nu⟩
  cases nu with
  | none => rfl
  | some nu =>
    simp only [normal_predictive, NormalPrior.float, NormalInverseGamma.float, Option.map_some,
      Checked.lit_eq, Checked.ok_mul, Checked.ok_add, lit_real, Rat.cast_one, powq_half,
      Checked.ok_div]
    by_cases h : nu * alpha = 0
    · simp only [h, if_true, Checked.error_powq]; rfl
    · simp only [h, if_false, Checked.ok_powq_half]
      split_ifs <;> rfl

/-- C48 `normal_predictive` -/
theorem C48_normal_predictive_ng (d : NormalGamma ℝ) :
    (normal_predictive (M := M) (NormalPrior.ng d).float).map StudentT.run =
      if d.lam * d.alpha = 0 then .ok (.error .zeroDivision)
      else if d.beta * (d.lam + 1) / (d.lam * d.alpha) < 0 then .ok (.error .complexResult)
      else (normal_predictive (M := M) (.ng d)).map .ok := by
  rcases d with ⟨mu, lam, alpha, beta⟩
  simp only [normal_predictive, NormalPrior.float, NormalGamma.float,
    Checked.lit_eq, Checked.ok_mul, Checked.ok_add, lit_real, Rat.cast_one, powq_half,
    Checked.ok_div]
  by_cases h : lam * alpha = 0
  · simp only [h, if_true, Checked.error_powq]; rfl
  · simp only [h, if_false, Checked.ok_powq_half]
    split_ifs <;> rfl

/-- C48, constructors: `Beta.from_mean` fails exactly at mean zero. -/
theorem C48_beta_from_mean (mean alpha : ℝ) :
    (Beta.from_mean (.ok mean : Checked) (.ok alpha)).run =
      if mean = 0 then .error .zeroDivision else .ok (Beta.from_mean mean alpha) := by
  simp only [Beta.from_mean, getBetaParamFromMeanAndAlpha, Beta.run, Checked.lit_eq, Checked.ok_div]
  split_ifs <;> rfl

/-- C48, constructors: `Normal.from_mean_and_variance` fails exactly for a negative variance. -/
theorem C48_normal_from_mean_and_variance (mean v : ℝ) :
    (Normal.from_mean_and_variance (.ok mean : Checked) (.ok v)).run =
      if v < 0 then .error .complexResult else .ok (Normal.from_mean_and_variance mean v) := by
  simp only [Normal.from_mean_and_variance, Normal.run, Checked.ok_powq_half, powq_half]
  split_ifs <;> rfl

/-- C48, constructors: `Normal.from_mean_and_precision`. -/
theorem C48_normal_from_mean_and_precision (mean p : ℝ) :
    (Normal.from_mean_and_precision (.ok mean : Checked) (.ok p)).run =
      if p = 0 then .error .zeroDivision
      else if p < 0 then .error .complexResult
      else .ok (Normal.from_mean_and_precision mean p) := by
  simp only [Normal.from_mean_and_precision, Normal.run, Checked.ok_powq_neg_half]
  split_ifs with h1 h2
  · rfl
  · rfl
  · rw [powq_neg_half _ (not_lt.1 h2), ← one_div]; rfl

/-- C48: multiplying an Exponential by a number fails exactly for `lam = 0`. -/
theorem C48_exponential_mul (lam k : ℝ) :
    ((Exponential.mul ⟨.ok lam⟩ (.ok k : Checked))).run =
      if lam = 0 then .error .zeroDivision else .ok (Exponential.mul ⟨lam⟩ k) := by
  simp only [Exponential.mul, Gamma.run, Checked.lit_eq, Checked.ok_div]
  split_ifs <;> simp <;> rfl

/-- C48: `k * Normal` fails exactly for a negative `k` (and nonzero `sigma`). -/
theorem C48_normal_mul (d : Normal ℝ) (k : ℝ) :
    (Normal.mul d.float (.ok k)).run =
      if d.sigma ^ 2 * k < 0 then .error .complexResult else .ok (Normal.mul d k) := by
  simp only [Normal.mul, Normal.float, Normal.run, Checked.ok_powq_two, Checked.ok_mul,
    Checked.ok_powq_half, powq_two, powq_half]
  split_ifs <;> rfl

/-- all three outcomes of `normal_known_variance` occur -/
example : (normal_known_variance (.ok 3) (.ok 2) (.ok 1) (Normal.float ⟨0, 1⟩)).run =
      .ok (normal_known_variance 3 2 1 ⟨0, 1⟩) ∧
    (normal_known_variance (.ok 3) (.ok 2) (.ok 0) (Normal.float ⟨0, 1⟩)).run =
      .error .zeroDivision ∧
    (normal_known_variance (.ok 3) (.ok 2) (.ok (-1)) (Normal.float ⟨0, 1⟩)).run =
      .error .complexResult := by
  refine ⟨?_, ?_, ?_⟩ <;> rw [C48_normal_known_variance] <;> norm_num

/-! ## C40 -/

section NoData

/-- C40, all models whose update only adds: zero totals and `n = 0` return the prior. -/
theorem C40_additive_models (bp : Beta ℝ) (gp : Gamma ℝ) (igp : InverseGamma ℝ) (r alpha : ℝ)
    (one_start : Bool) (x_m : ℝ) (ln : ℝ → ℝ) :
    binomial_beta 0 0 bp = bp ∧ negative_binomial_beta r 0 0 bp = bp ∧
    geometric_beta 0 0 bp one_start = bp ∧
    poisson_gamma 0 0 gp = gp ∧ exponential_gamma 0 0 gp = gp ∧
    gamma_known_shape 0 0 alpha gp = gp ∧ inverse_gamma_known_rate 0 0 alpha gp = gp ∧
    pareto_gamma 0 0 x_m gp ln = gp ∧ weibull_inverse_gamma_known_shape 0 0 igp = igp := by
  refine ⟨?_, ?_, ?_, ?_, ?_, ?_, ?_, ?_, ?_⟩ <;> (try cases one_start) <;> ext <;>
    simp [binomial_beta, getBinomialBetaPosteriorParams, negative_binomial_beta, geometric_beta,
      poisson_gamma, getPoissonGammaPosteriorParams, exponential_gamma,
      getExponentialGammaPosteriorParams, gamma_known_shape, inverse_gamma_known_rate, pareto_gamma,
      weibull_inverse_gamma_known_shape]

/-- C40, proportional families: empty products are 1. -/
theorem C40_proportional_models (g : GammaProportional ℝ) (k : GammaKnownRateProportional ℝ)
    (b : BetaProportional ℝ) (v : VonMisesKnownDirectionProportional ℝ) (rate : ℝ) :
    gamma 0 1 0 g = g ∧ gamma_known_rate 1 0 rate k = k ∧ beta 1 1 0 b = b ∧
    von_mises_known_direction 0 0 v = v := by
  refine ⟨?_, ?_, ?_, ?_⟩ <;> ext <;>
    simp [gamma, gamma_known_rate, beta, von_mises_known_direction]

/-- C40, uniform: `n = 0` and any `x_max` that does not exceed the prior's `x_m`. -/
theorem C40_uniform_pareto (x_max : ℝ) (d : Pareto ℝ) (h : x_max ≤ d.x_m) :
    uniform_pareto x_max 0 d max = d := by
  ext <;> simp [uniform_pareto, h]

/-- C40, Dirichlet -/
theorem C40_dirichlet {I : Type*} (d : Dirichlet (I → ℝ)) :
    categorical_dirichlet (fun _ => 0) d = .ok d ∧ multinomial_dirichlet (fun _ => 0) d = .ok d := by
  have : categorical_dirichlet (fun _ => 0) d = .ok d := by
    change Except.ok (⟨fun i => d.alpha i + 0⟩ : Dirichlet (I → ℝ)) = _
    simp
  exact ⟨this, this⟩

/-- C40, normal with known variance or precision, `sigma > 0` and a nonzero variance. -/
theorem C40_normal_known_variance (var : ℝ) (d : Normal ℝ) (hs : 0 < d.sigma) (hv : var ≠ 0) :
    (normal_known_variance (.ok 0) (.ok 0) (.ok var) d.float).run = .ok d ∧
    (normal_known_precision (.ok 0) (.ok 0) (.ok var) d.float).run = .ok d := by
  have hp : (0 : ℝ) < 1 / d.sigma ^ 2 := by positivity
  have e1 : ∀ v : ℝ, normal_known_variance 0 0 v d = d := by
    intro v
    ext
    · simp [normal_known_variance]; field_simp
    · simp [normal_known_variance, Real.sqrt_sq hs.le]
  rw [C48_normal_known_variance, C48_normal_known_precision]
  have n1 : ¬ (d.sigma = 0 ∨ var = 0 ∨ 1 / d.sigma ^ 2 + 0 / var = 0) := by
    simp only [zero_div, add_zero]; rintro (h | h | h)
    · exact hs.ne' h
    · exact hv h
    · exact hp.ne' h
  have n2 : ¬ (d.sigma = 0 ∨ var = 0 ∨ 1 / d.sigma ^ 2 + 0 * var = 0) := by
    simpa using n1
  rw [if_neg n1, if_neg n2, if_neg (by simp; positivity), if_neg (by simp; positivity), e1]
  exact ⟨rfl, congrArg _ (e1 _)⟩

/-- C40, normal with known mean, both prior classes (`nu ≠ 0` for the chi-squared). -/
theorem C40_normal_known_mean (mu : ℝ) (d : InverseGamma ℝ) (c : ScaledInverseChiSquared ℝ)
    (hc : c.nu ≠ 0) :
    (normal_known_mean (.ok 0) (.ok 0) (.ok 0) (.ok mu) (VariancePrior.inverseGamma d).float).run =
      .ok (.inverseGamma d) ∧
    (normal_known_mean (.ok 0) (.ok 0) (.ok 0) (.ok mu)
      (VariancePrior.scaledInverseChiSquared c).float).run =
      .ok (.scaledInverseChiSquared c) := by
  rw [C48_normal_known_mean_inverse_gamma, C48_normal_known_mean_scaled_inverse_chi_squared,
    if_neg (by simpa using hc)]
  refine ⟨?_, ?_⟩
  · refine congrArg _ (congrArg VariancePrior.inverseGamma ?_)
    ext <;> simp [normalKnownMeanInverseGammaPrior]
  · refine congrArg _ (congrArg VariancePrior.scaledInverseChiSquared ?_)
    ext
    · simp [normalKnownMeanInverseGammaPrior, ScaledInverseChiSquared.from_inverse_gamma,
        ScaledInverseChiSquared.to_inverse_gamma]
    · simp [normalKnownMeanInverseGammaPrior, ScaledInverseChiSquared.from_inverse_gamma,
        ScaledInverseChiSquared.to_inverse_gamma]
      field_simp

/-- C40 is false of `normal` (and `log_normal`): with `n = 0` the call raises
ZeroDivisionError, for every prior with `nu`. -/
theorem C40_normal_no_data_raises (nu : ℝ) (d : NormalInverseGamma ℝ ℝ M) (hd : d.nu = some nu)
    (g : NormalGamma ℝ) :
    (normal (.ok 0) (.ok 0) (.ok 0) (NormalPrior.nig d).float).map NormalPrior.run =
      .ok (.error .zeroDivision) ∧
    (normal (M := M) (.ok 0) (.ok 0) (.ok 0) (NormalPrior.ng g).float).map NormalPrior.run =
      .ok (.error .zeroDivision) ∧
    (log_normal (.ok 0) (.ok 0) (.ok 0) (NormalPrior.nig d).float).map NormalPrior.run =
      .ok (.error .zeroDivision) := by
  have h := C48_normal_nig (M := M) 0 0 0 d
  rw [hd] at h
  simp only [true_or, if_true] at h
  refine ⟨h, ?_, h⟩
  rw [C48_normal_ng, if_pos (Or.inl rfl)]

end NoData

end Conj
