import Verif.Lemmas.Kernel
import Mathlib.Probability.Distributions.Gamma
import Mathlib.Probability.Distributions.Exponential
import Mathlib.Probability.Distributions.Pareto
import Mathlib.Probability.Distributions.Poisson.Basic
import Mathlib.Probability.Distributions.Geometric

/-!
# What `.dist` means (C52, C53, C54)

Textbook densities are Mathlib's where Mathlib has them (Gamma with rate, Beta, Normal,
Pareto, exponential), otherwise written out in the statement.
-/

open MeasureTheory Set Real

namespace Conj

open Scipy Spec

theorem div_nonneg_iff_of_pos_right {x y : ℝ} (hy : 0 < y) : 0 ≤ x / y ↔ 0 ≤ x := by
  rw [le_div_iff₀ hy, zero_mul]

/-! ## C52 -/

/-- C52. `Gamma(alpha, beta).dist`: `beta` is a rate. -/
theorem C52_gamma (d : Gamma ℝ) (hb : 0 < d.beta) (x : ℝ) (hx : x ≠ 0) :
    d.dist.pdf x = ProbabilityTheory.gammaPDFReal d.alpha d.beta x := by
  rcases lt_or_gt_of_ne hx with h | h
  · simp only [Gamma.dist, Cont.pdf, sub_zero, Family.std, ProbabilityTheory.gammaPDFReal]
    have e : x / (1 / d.beta) = x * d.beta := by field_simp
    rw [e, if_neg (not_le.2 (mul_neg_of_neg_of_pos h hb)), if_neg (not_le.2 h), zero_div]
  · rw [Gamma.pdf_eq d hb h, ProbabilityTheory.gammaPDFReal, if_pos h.le]

/-- C52. `Beta(alpha, beta).dist` off the two end points. -/
theorem C52_beta (d : Beta ℝ) (x : ℝ) (h0 : x ≠ 0) (h1 : x ≠ 1) :
    d.dist.pdf x = ProbabilityTheory.betaPDFReal d.alpha d.beta x := by
  simp only [Beta.dist, Cont.pdf, sub_zero, div_one, Family.std, ProbabilityTheory.betaPDFReal,
    ProbabilityTheory.beta]
  have : (0 ≤ x ∧ x ≤ 1) ↔ (0 < x ∧ x < 1) :=
    ⟨fun h => ⟨lt_of_le_of_ne h.1 h0.symm, lt_of_le_of_ne h.2 h1⟩, fun h => ⟨h.1.le, h.2.le⟩⟩
  simp only [this]
  split_ifs
  · rw [one_div_div]
  · rfl

/-- C52. `Normal(mu, sigma).dist`: mean `mu`, variance `sigma ** 2`. -/
theorem C52_normal (d : Normal ℝ) (hs : 0 < d.sigma) (x : ℝ) :
    d.dist.pdf x = ProbabilityTheory.gaussianPDFReal d.mu (Real.toNNReal (d.sigma ^ 2)) x :=
  congrFun (Normal.pdf_eq_gaussian d hs) x

/-- C52. `Pareto(x_m, alpha).dist`. -/
theorem C52_pareto (d : Pareto ℝ) (hm : 0 < d.x_m) (x : ℝ) :
    d.dist.pdf x = ProbabilityTheory.paretoPDFReal d.x_m d.alpha x := by
  rw [ProbabilityTheory.paretoPDFReal]
  rcases lt_or_ge x d.x_m with h | h
  · rw [Pareto.pdf_eq_zero d hm h, if_neg (not_le.2 h)]
  · rw [Pareto.pdf_eq d hm h, if_pos h, rpow_neg (hm.trans_le h).le, div_eq_mul_inv]

/-- C52. `InverseGamma(alpha, beta).dist`: the density of the reciprocal of a
Gamma(alpha, rate beta) variable. -/
theorem C52_inverse_gamma (d : InverseGamma ℝ) (hb : 0 < d.beta) (x : ℝ) :
    d.dist.pdf x = if 0 < x then
      d.beta ^ d.alpha / Real.Gamma d.alpha * x ^ (-d.alpha - 1) * exp (-(d.beta / x)) else 0 := by
  split_ifs with h
  · exact InverseGamma.pdf_eq d hb h
  · simp only [InverseGamma.dist, Cont.pdf, sub_zero, Family.std]
    rw [if_neg (by rw [div_pos_iff_of_pos_right hb]; exact h), zero_div]

/-- C52. `ScaledInverseChiSquared(nu, sigma2).dist`: density of `nu * sigma2 / chi2_nu`. -/
theorem C52_scaled_inverse_chi_squared (d : ScaledInverseChiSquared ℝ) (hn : 0 < d.nu)
    (hs : 0 < d.sigma2) (x : ℝ) :
    d.dist.pdf x = if 0 < x then
      (d.sigma2 * d.nu / 2) ^ (d.nu / 2) / Real.Gamma (d.nu / 2) *
        exp (-(d.nu * d.sigma2) / (2 * x)) / x ^ (1 + d.nu / 2) else 0 := by
  have hb : 0 < d.nu * d.sigma2 / 2 := by positivity
  have h := C52_inverse_gamma ⟨d.nu / 2, d.nu * d.sigma2 / 2⟩ hb x
  have e : d.dist = InverseGamma.dist ⟨d.nu / 2, d.nu * d.sigma2 / 2⟩ := rfl
  rw [e, h]
  split_ifs with hx
  · rw [show -(d.nu / 2) - 1 = -(1 + d.nu / 2) by ring, rpow_neg hx.le,
      mul_comm d.sigma2, show -(d.nu * d.sigma2) / (2 * x) = -(d.nu * d.sigma2 / 2 / x) by
        field_simp]
    ring
  · rfl

/-- C52. `StudentT(mu, sigma, nu).dist`: location-scale t. -/
theorem C52_student_t (d : StudentT ℝ) (hs : 0 < d.sigma) (hn : 0 < d.nu) (x : ℝ) :
    d.dist.pdf x = Real.Gamma ((d.nu + 1) / 2) /
      (Real.Gamma (d.nu / 2) * √(π * d.nu) * d.sigma) *
      (1 + 1 / d.nu * ((x - d.mu) / d.sigma) ^ 2) ^ (-(d.nu + 1) / 2) := by
  simp only [StudentT.dist, Cont.pdf, Family.std]
  have h1 : 0 < √(π * d.nu) := Real.sqrt_pos.2 (by positivity)
  have h2 : 0 < Real.Gamma (d.nu / 2) := Real.Gamma_pos_of_pos (by positivity)
  rw [show 1 / d.nu * ((x - d.mu) / d.sigma) ^ 2 = ((x - d.mu) / d.sigma) ^ 2 / d.nu by ring]
  field_simp

/-- C52. `Lomax(alpha, lam).dist`: shape `alpha`, scale `lam`. -/
theorem C52_lomax (d : Lomax ℝ) (hl : 0 < d.lam) (x : ℝ) :
    d.dist.pdf x = if 0 ≤ x then
      d.alpha / d.lam * (1 + x / d.lam) ^ (-(d.alpha + 1)) else 0 := by
  simp only [Lomax.dist, Cont.pdf, sub_zero, Family.std]
  split_ifs with h1 h2 h2
  · rw [rpow_neg (by positivity)]; field_simp
  · exact absurd ((div_nonneg_iff_of_pos_right hl).1 h1) h2
  · exact absurd (by positivity) h1
  · simp

/-- C52. `Weibull(beta, theta).dist`: as documented,
`p(x | beta, theta) = beta x^(beta-1) / theta * exp(-x^beta / theta)`. -/
theorem C52_weibull (d : Weibull ℝ) (hb : 0 < d.beta) (ht : 0 < d.theta) (x : ℝ) (hx : 0 < x) :
    d.dist.pdf x = d.beta * x ^ (d.beta - 1) / d.theta * exp (-(x ^ d.beta / d.theta)) :=
  Weibull.pdf_eq d.beta d.theta hb ht hx

/-- C52. `Poisson(lam).dist`. -/
theorem C52_poisson (lam : NNReal) (k : ℕ) :
    (Poisson.dist { lam := (lam : ℝ) }).pmf k =
      (ProbabilityTheory.poissonMeasure lam).real {k} := by
  rw [Poisson.pmf_nat, ProbabilityTheory.poissonMeasure_real_singleton]

/-- C52. `Geometric(p, one_start).dist`: number of trials up to and including the first
success (from 1), or number of failures before it (from 0). -/
theorem C52_geometric (p : ℝ) (failures : ℕ) :
    (Geometric.dist { p := p, one_start := true }).pmf ((failures + 1 : ℕ) : ℤ) =
        (1 - p) ^ failures * p ∧
    (Geometric.dist { p := p, one_start := false }).pmf (failures : ℤ) =
        (1 - p) ^ failures * p :=
  ⟨by rw [Geometric.pmf_one_start p _ (by simp), Nat.add_sub_cancel],
    Geometric.pmf_zero_start p failures⟩

/-- C52. `Binomial(n, p).dist`. -/
theorem C52_binomial (n k : ℕ) (p : ℝ) :
    (Binomial.dist { n := (n : ℝ), p := p }).pmf k = n.choose k * p ^ k * (1 - p) ^ (n - k) := by
  rcases le_or_gt k n with h | h
  · exact Binomial.pmf_nat n k h p
  · rw [Nat.choose_eq_zero_of_lt h]
    simp only [Binomial.dist, Disc.pmf, sub_zero, DiscFamily.pmf0]
    rw [if_neg (by push Not; intro _; exact_mod_cast h)]
    simp

/-- C52. `NegativeBinomial(n, p).dist` with integer `n = r + 1`: `k` failures before success
number `r + 1`. -/
theorem C52_negative_binomial (r k : ℕ) (p : ℝ) :
    (NegativeBinomial.dist { n := (r + 1 : ℝ), p := p }).pmf k =
      (k + r).choose k * p ^ (r + 1) * (1 - p) ^ k := by
  rw [NegativeBinomial.pmf_nat]
  have e : (k : ℝ) + (r + 1) - 1 = ((k + r : ℕ) : ℝ) := by push_cast; ring
  rw [e, choose_natCast (by omega), show (r : ℝ) + 1 = ((r + 1 : ℕ) : ℝ) by push_cast; ring,
    rpow_natCast]

/-- C52. `Hypergeometric(N, k, n).dist`: `x` successes in `n` draws without replacement from
a population of `N` with `k` successes. -/
theorem C52_hypergeometric (N k n x : ℕ) (hk : k ≤ N) (hn : n ≤ N) :
    (Hypergeometric.dist { N := (N : ℝ), k := (k : ℝ), n := (n : ℝ) }).pmf x =
      if x ≤ n then (k.choose x * (N - k).choose (n - x) / N.choose n : ℝ) else 0 := by
  simp only [Hypergeometric.dist, Disc.pmf, sub_zero, DiscFamily.pmf0]
  by_cases h : x ≤ k ∧ x ≤ n ∧ n - x ≤ N - k
  · obtain ⟨h1, h2, h3⟩ := h
    have e1 : (n : ℝ) - x = ((n - x : ℕ) : ℝ) := by push_cast [h2]; ring
    have e2 : (N : ℝ) - k = ((N - k : ℕ) : ℝ) := by push_cast [hk]; ring
    rw [if_pos, if_pos h2, Int.cast_natCast, e1, e2, choose_natCast h1, choose_natCast h3,
      choose_natCast hn]
    refine ⟨?_, ?_⟩
    · rw [Int.cast_natCast, max_le_iff]
      refine ⟨by positivity, ?_⟩
      have : (n : ℝ) - x ≤ N - k := by rw [e1, e2]; exact_mod_cast h3
      linarith
    · rw [Int.cast_natCast, le_min_iff]
      exact ⟨by exact_mod_cast h1, by exact_mod_cast h2⟩
  · rw [if_neg]
    · split_ifs with h2
      · rcases lt_or_ge k x with h1 | h1
        · rw [Nat.choose_eq_zero_of_lt h1]; simp
        · have h3 : N - k < n - x := by
            by_contra h3
            exact h ⟨h1, h2, not_lt.1 h3⟩
          rw [Nat.choose_eq_zero_of_lt h3]; simp
      · rfl
    · rw [Int.cast_natCast, max_le_iff, le_min_iff]
      rintro ⟨⟨-, h3⟩, h1, h2⟩
      have h1' : x ≤ k := by exact_mod_cast h1
      have h2' : x ≤ n := by exact_mod_cast h2
      refine h ⟨h1', h2', ?_⟩
      have : (n : ℝ) + k ≤ N + x := by linarith
      have : n + k ≤ N + x := by exact_mod_cast this
      omega

example := C52_gamma ⟨2, 3⟩ (by norm_num) 5 (by norm_num)
example := C52_student_t ⟨1, 2, 3⟩ (by norm_num) (by norm_num) 5
example := C52_hypergeometric 10 4 3 2 (by norm_num) (by norm_num)
example := C52_scaled_inverse_chi_squared ⟨1, 2⟩ (by norm_num) (by norm_num) 5

/-! ## C53 -/

/-- Full statement of C53. -/
def C53_statement (d : Uniform ℝ) : Prop :=
  ∀ x, d.dist.pdf x = if d.low ≤ x ∧ x ≤ d.high then 1 / (d.high - d.low) else 0

/-- C53. What `Uniform(low, high).dist` is: uniform on `[low, low + high]`.
Missing: the documented interval `[low, high]`. -/
theorem C53_uniform_dist_partial (d : Uniform ℝ) (hh : 0 < d.high) (x : ℝ) :
    d.dist.pdf x = if d.low ≤ x ∧ x ≤ d.low + d.high then 1 / d.high else 0 := by
  simp only [Uniform.dist, Cont.pdf, Family.std]
  have : (0 ≤ (x - d.low) / d.high ∧ (x - d.low) / d.high ≤ 1) ↔
      (d.low ≤ x ∧ x ≤ d.low + d.high) := by
    rw [div_nonneg_iff_of_pos_right hh, div_le_one hh]
    constructor <;> rintro ⟨h1, h2⟩ <;> constructor <;> linarith
  simp only [this]
  split_ifs <;> simp

/-- C53 (disagreement). The documented density is obtained exactly when `low = 0`. -/
theorem C53_uniform_dist_iff (d : Uniform ℝ) (h : d.low < d.high) (hh : 0 < d.high) :
    C53_statement d ↔ d.low = 0 := by
  constructor
  · intro hs
    have h1 := hs d.low
    rw [C53_uniform_dist_partial d hh, if_pos ⟨le_rfl, by linarith⟩, if_pos ⟨le_rfl, h.le⟩] at h1
    rw [div_eq_div_iff hh.ne' (by linarith)] at h1
    linarith
  · intro h0 x
    rw [C53_uniform_dist_partial d hh, h0]
    simp

example : ¬ C53_statement ⟨1, 2⟩ := by
  rw [C53_uniform_dist_iff ⟨1, 2⟩ (by norm_num) (by norm_num)]; norm_num
example : C53_statement ⟨0, 2⟩ := by
  rw [C53_uniform_dist_iff ⟨0, 2⟩ (by norm_num) (by norm_num)]

/-! ## C54 -/

/-- Full statement of C54, exponential part: `lam` is the rate. -/
def C54_statement_exponential (lam : ℝ) : Prop :=
  ∀ x, 0 < x → (Exponential.dist { lam := lam }).pdf x =
    ProbabilityTheory.exponentialPDFReal lam x

/-- C54. What `Exponential(lam).dist` is: exponential with *mean* `lam`.
Missing: rate `lam`. -/
theorem C54_exponential_dist_partial (lam : ℝ) (hl : 0 < lam) (x : ℝ) :
    (Exponential.dist { lam := lam }).pdf x =
      ProbabilityTheory.exponentialPDFReal (1 / lam) x := by
  rw [ProbabilityTheory.exponentialPDFReal, ProbabilityTheory.gammaPDFReal]
  simp only [Exponential.dist, Cont.pdf, sub_zero, Family.std, div_nonneg_iff_of_pos_right hl]
  split_ifs
  · simp
    ring_nf
  · simp

/-- C54 (disagreement). It has rate `lam` exactly when `lam = 1`. -/
theorem C54_exponential_dist_iff (lam : ℝ) (hl : 0 < lam) :
    C54_statement_exponential lam ↔ lam = 1 := by
  constructor
  · intro h
    have e : ∀ x, 0 < x → 1 / lam * exp (-(1 / lam * x)) = lam * exp (-(lam * x)) := by
      intro x hx
      have := h x hx
      rw [C54_exponential_dist_partial lam hl] at this
      simpa [ProbabilityTheory.exponentialPDFReal, ProbabilityTheory.gammaPDFReal, hx.le]
        using this
    have l1 := congrArg Real.log (e 1 one_pos)
    have l2 := congrArg Real.log (e 2 two_pos)
    rw [Real.log_mul (by positivity) (exp_pos _).ne', Real.log_mul (by positivity) (exp_pos _).ne',
      Real.log_exp, Real.log_exp] at l1 l2
    have h3 : 1 / lam = lam := by linarith
    rw [div_eq_iff hl.ne'] at h3
    nlinarith
  · rintro rfl x hx
    rw [C54_exponential_dist_partial 1 one_pos]
    simp

/-- density of `exp` of a Normal(mu, sigma) variable -/
noncomputable def Spec.expNormalPdf (mu sigma x : ℝ) : ℝ :=
  if 0 < x then 1 / (x * sigma * √(2 * π)) * exp (-(log x - mu) ^ 2 / (2 * sigma ^ 2)) else 0

/-- Full statement of C54, log-normal part. -/
def C54_statement_log_normal (d : LogNormal ℝ) : Prop :=
  ∀ x, d.dist.pdf x = Spec.expNormalPdf d.mu d.sigma x

/-- C54. What `LogNormal(mu, sigma).dist` is: `mu` *plus* the exponential of Normal(0, sigma).
Missing: the exponential of Normal(mu, sigma). -/
theorem C54_log_normal_dist_partial (d : LogNormal ℝ) (x : ℝ) :
    d.dist.pdf x = Spec.expNormalPdf 0 d.sigma (x - d.mu) := by
  simp only [LogNormal.dist, Cont.pdf, Family.std, Spec.expNormalPdf, div_one, sub_zero]
  split_ifs
  · rw [mul_comm d.sigma]
  · rfl

theorem Spec.expNormalPdf_pos (mu sigma x : ℝ) (hs : 0 < sigma) (hx : 0 < x) :
    0 < Spec.expNormalPdf mu sigma x := by
  rw [Spec.expNormalPdf, if_pos hx]; positivity

/-- C54 (disagreement). It is the documented distribution exactly when `mu = 0`. -/
theorem C54_log_normal_dist_iff (d : LogNormal ℝ) (hs : 0 < d.sigma) :
    C54_statement_log_normal d ↔ d.mu = 0 := by
  constructor
  · intro h
    rcases lt_trichotomy d.mu 0 with hm | hm | hm
    · have := h (d.mu / 2)
      rw [C54_log_normal_dist_partial] at this
      have p := Spec.expNormalPdf_pos 0 d.sigma (d.mu / 2 - d.mu) hs (by linarith)
      rw [this, Spec.expNormalPdf, if_neg (by linarith)] at p
      exact absurd p (lt_irrefl _)
    · exact hm
    · have := h (d.mu / 2)
      rw [C54_log_normal_dist_partial] at this
      have p := Spec.expNormalPdf_pos d.mu d.sigma (d.mu / 2) hs (by linarith)
      rw [← this, Spec.expNormalPdf, if_neg (by linarith)] at p
      exact absurd p (lt_irrefl _)
  · intro h0 x
    rw [C54_log_normal_dist_partial, h0, sub_zero]

example : ¬ C54_statement_exponential 2 := by
  rw [C54_exponential_dist_iff 2 (by norm_num)]; norm_num
example : ¬ C54_statement_log_normal ⟨1, 2⟩ := by
  rw [C54_log_normal_dist_iff ⟨1, 2⟩ (by norm_num)]; norm_num

end Conj
