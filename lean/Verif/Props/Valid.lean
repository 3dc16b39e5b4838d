import Verif.Props.PosteriorNormal

/-!
# Valid priors give valid posteriors (C41), and shrinkage (C42)

`Valid` is the parameter space of each class (all shapes, rates and scales positive, ...).
Statistics are those of raw data in the support of the likelihood.
-/

open MeasureTheory Set Real

namespace Conj

open Scipy Spec

/-! ## C41 -/

/-- C41 binomial: `x` successes among `n` trials -/
theorem C41_binomial_beta (n x : ℕ) (hx : x ≤ n) (d : Beta ℝ) (hd : d.Valid) :
    (binomial_beta (n : ℝ) (x : ℝ) d).Valid := by
  have : (x : ℝ) ≤ n := by exact_mod_cast hx
  obtain ⟨h1, h2⟩ := hd
  constructor <;> simp only [binomial_beta, getBinomialBetaPosteriorParams]
  · positivity
  · linarith

/-- C41 bernoulli -/
theorem C41_bernoulli_beta (x : Bool) (d : Beta ℝ) (hd : d.Valid) :
    (bernoulli_beta (if x then 1 else 0 : ℝ) d).Valid := by
  have := C41_binomial_beta 1 (if x then 1 else 0) (by cases x <;> simp) d hd
  cases x <;> simpa [bernoulli_beta] using this

/-- C41 negative binomial -/
theorem C41_negative_binomial_beta (r : ℝ) (hr : 0 < r) (xs : List ℕ) (d : Beta ℝ) (hd : d.Valid) :
    (negative_binomial_beta r (xs.length : ℝ) (xs.sum : ℝ) d).Valid := by
  obtain ⟨h1, h2⟩ := hd
  constructor <;> simp only [negative_binomial_beta] <;> positivity

/-- C41 geometric, both conventions -/
theorem C41_geometric_beta (one_start : Bool) (xs : List ℕ)
    (hx : one_start = true → ∀ x ∈ xs, 1 ≤ x) (d : Beta ℝ) (hd : d.Valid) :
    (geometric_beta (xs.sum : ℝ) (xs.length : ℝ) d one_start).Valid := by
  obtain ⟨h1, h2⟩ := hd
  cases one_start
  · constructor <;> simp only [geometric_beta, Bool.false_eq_true, if_false] <;> positivity
  · have : (xs.length : ℝ) ≤ (xs.sum : ℝ) := by
      have := List.length_le_sum_of_one_le xs (hx rfl)
      exact_mod_cast this
    constructor <;> simp only [geometric_beta, if_true]
    · positivity
    · linarith

/-- C41 hypergeometric: `x` successes found in a population of `N` -/
theorem C41_hypergeometric_beta_binomial (N x n : ℕ) (hx : x ≤ N) (a b : ℝ) (ha : 0 < a)
    (hb : 0 < b) :
    let post := hypergeometric_beta_binomial (x : ℝ) (n : ℝ) ⟨(N : ℝ), a, b⟩
    post.n = N ∧ 0 < post.alpha ∧ 0 < post.beta := by
  have : (x : ℝ) ≤ N := by exact_mod_cast hx
  refine ⟨rfl, ?_, ?_⟩ <;> simp only [hypergeometric_beta_binomial]
  · positivity
  · linarith

/-- C41 Poisson, exponential, gamma and inverse gamma: positive data -/
theorem C41_gamma_posteriors (shape : ℝ) (hs : 0 < shape) (xs : List ℝ) (hx : ∀ x ∈ xs, 0 ≤ x)
    (d : Gamma ℝ) (hd : d.Valid) :
    (poisson_gamma xs.sum (xs.length : ℝ) d).Valid ∧
    (exponential_gamma xs.sum (xs.length : ℝ) d).Valid ∧
    (gamma_known_shape xs.sum (xs.length : ℝ) shape d).Valid ∧
    (inverse_gamma_known_rate (xs.map (1 / ·)).sum (xs.length : ℝ) shape d).Valid := by
  obtain ⟨h1, h2⟩ := hd
  have h : 0 ≤ xs.sum := List.sum_nonneg hx
  have h' : 0 ≤ (xs.map (1 / ·)).sum := List.sum_nonneg (by
    intro y hy
    obtain ⟨x, hx', rfl⟩ := List.mem_map.1 hy
    exact one_div_nonneg.2 (hx x hx'))
  refine ⟨⟨?_, ?_⟩, ⟨?_, ?_⟩, ⟨?_, ?_⟩, ?_, ?_⟩ <;>
    simp only [poisson_gamma, getPoissonGammaPosteriorParams, exponential_gamma,
      getExponentialGammaPosteriorParams, gamma_known_shape, inverse_gamma_known_rate] <;> positivity

/-- C41 Pareto: data at least `x_m` -/
theorem C41_pareto_gamma (x_m : ℝ) (hm : 0 < x_m) (xs : List ℝ) (hx : ∀ x ∈ xs, x_m ≤ x)
    (d : Gamma ℝ) (hd : d.Valid) :
    (pareto_gamma (xs.length : ℝ) (xs.map log).sum x_m d log).Valid := by
  obtain ⟨h1, h2⟩ := hd
  have h : (xs.length : ℝ) * log x_m ≤ (xs.map log).sum := by
    have := List.card_nsmul_le_sum (xs.map log) (log x_m) (by
      intro y hy
      obtain ⟨x, hx', rfl⟩ := List.mem_map.1 hy
      exact log_le_log hm (hx x hx'))
    simpa using this
  constructor <;> simp only [pareto_gamma]
  · positivity
  · linarith

/-- C41 uniform -/
theorem C41_uniform_pareto (x_max : ℝ) (n : ℕ) (d : Pareto ℝ) (hd : d.Valid) :
    (uniform_pareto x_max (n : ℝ) d max).Valid := by
  obtain ⟨h1, h2⟩ := hd
  constructor <;> simp only [uniform_pareto]
  · exact lt_max_of_lt_left h1
  · positivity

/-- C41 Weibull -/
theorem C41_weibull (k : ℝ) (xs : List ℝ) (hx : ∀ x ∈ xs, 0 < x) (d : InverseGamma ℝ)
    (hd : d.Valid) :
    (weibull_inverse_gamma_known_shape (xs.length : ℝ) (xs.map (· ^ k)).sum d).Valid := by
  obtain ⟨h1, h2⟩ := hd
  have h' : 0 ≤ (xs.map (· ^ k)).sum := List.sum_nonneg (by
    intro y hy
    obtain ⟨x, hx', rfl⟩ := List.mem_map.1 hy
    exact (rpow_pos_of_pos (hx x hx') k).le)
  constructor <;> simp only [weibull_inverse_gamma_known_shape] <;> positivity

/-- C41 normal with known variance (any real data) -/
theorem C41_normal_known_variance (xs : List ℝ) (var : ℝ) (hv : 0 < var) (d : Normal ℝ)
    (hs : 0 < d.sigma) :
    0 < (normal_known_variance xs.sum (xs.length : ℝ) var d).sigma ∧
    0 < (normal_known_precision xs.sum (xs.length : ℝ) var d).sigma := by
  constructor <;>
    simp only [normal_known_precision, normal_known_variance, powq_half, powq_two, lit_real,
      Rat.cast_one] <;> positivity

/-- C41 normal with known mean, both prior classes; the class is kept -/
theorem C41_normal_known_mean (mu : ℝ) (xs : List ℝ) (prior : VariancePrior ℝ) (hp : prior.Valid) :
    (normal_known_mean xs.sum (xs.map (· ^ 2)).sum (xs.length : ℝ) mu prior).Valid := by
  have key : ∀ d : InverseGamma ℝ, d.Valid →
      (normalKnownMeanInverseGammaPrior xs.sum (xs.map (· ^ 2)).sum (xs.length : ℝ) mu d).Valid :=
    fun d hd => (C13_inverse_gamma d hd.1 hd.2 mu xs).1
  cases prior with
  | inverseGamma d => exact key d hp
  | scaledInverseChiSquared d =>
    obtain ⟨h1, h2⟩ := hp
    have := key d.to_inverse_gamma ⟨by
      simp only [ScaledInverseChiSquared.to_inverse_gamma, lit_real]; norm_num; positivity, by
      simp only [ScaledInverseChiSquared.to_inverse_gamma, lit_real]; norm_num; positivity⟩
    obtain ⟨h3, h4⟩ := this
    constructor <;>
      simp only [ScaledInverseChiSquared.from_inverse_gamma, lit_real] <;> norm_num <;> positivity

/-- C41 normal and log-normal: nonempty data; for logs use `xs` = logs of the data. -/
theorem C41_normal {M : Type*} (xs : List ℝ) (hne : xs ≠ []) (mu nu alpha beta : ℝ)
    (hnu : 0 < nu) (ha : 0 < alpha) (hb : 0 < beta) :
    (∃ mu' nu' alpha' beta', 0 < nu' ∧ 0 < alpha' ∧ 0 < beta' ∧
      normal xs.sum (xs.map (· ^ 2)).sum (xs.length : ℝ) (nigPrior M mu nu alpha beta) =
        .ok (nigPrior M mu' nu' alpha' beta')) ∧
    (∃ mu' nu' alpha' beta', 0 < nu' ∧ 0 < alpha' ∧ 0 < beta' ∧
      normal xs.sum (xs.map (· ^ 2)).sum (xs.length : ℝ) (ngPrior M mu nu alpha beta) =
        .ok (ngPrior M mu' nu' alpha' beta')) := by
  have h := foldl_normalStep xs hne (mu, nu, alpha, beta) hnu
  have hv : ∀ (l : List ℝ) (d : ℝ × ℝ × ℝ × ℝ), NormalValid d → NormalValid (l.foldl normalStep d) := by
    intro l
    induction l with
    | nil => exact fun d hd => hd
    | cons x l ih => exact fun d hd => ih _ (normalStep_valid d x hd)
  have h2 := hv xs (mu, nu, alpha, beta) ⟨hnu, ha, hb⟩
  rw [h] at h2
  exact ⟨⟨_, _, _, _, h2.1, h2.2.1, h2.2.2, rfl⟩, ⟨_, _, _, _, h2.1, h2.2.1, h2.2.2, rfl⟩⟩

/-- C41 Dirichlet: nonnegative counts -/
theorem C41_dirichlet {I : Type*} (x : I → ℝ) (hx : ∀ i, 0 ≤ x i) (d : Dirichlet (I → ℝ))
    (hd : ∀ i, 0 < d.alpha i) :
    ∃ post, categorical_dirichlet x d = .ok post ∧ multinomial_dirichlet x d = .ok post ∧
      ∀ i, 0 < post.alpha i :=
  ⟨⟨fun i => d.alpha i + x i⟩, rfl, rfl, fun i => by have := hx i; have := hd i; positivity⟩

/-- C41 gamma likelihood, both parameters unknown -/
theorem C41_gamma (xs : List ℝ) (hx : ∀ x ∈ xs, 0 < x) (d : GammaProportional ℝ)
    (hp : 0 < d.p) (hq : 0 < d.q) (hr : 0 < d.r) (hs : 0 < d.s) :
    let post := gamma xs.sum xs.prod (xs.length : ℝ) d
    0 < post.p ∧ 0 < post.q ∧ 0 < post.r ∧ 0 < post.s := by
  have h1 : 0 ≤ xs.sum := List.sum_nonneg (fun x h => (hx x h).le)
  have h2 : 0 < xs.prod := List.prod_pos hx
  refine ⟨?_, ?_, ?_, ?_⟩ <;> simp only [gamma] <;> positivity

/-- C41 gamma likelihood with known rate -/
theorem C41_gamma_known_rate (rate : ℝ) (xs : List ℝ) (hx : ∀ x ∈ xs, 0 < x)
    (d : GammaKnownRateProportional ℝ) (hp : 0 < d.a) (hq : 0 < d.b) (hr : 0 < d.c) :
    let post := gamma_known_rate xs.prod (xs.length : ℝ) rate d
    0 < post.a ∧ 0 < post.b ∧ 0 < post.c := by
  have h2 : 0 < xs.prod := List.prod_pos hx
  refine ⟨?_, ?_, ?_⟩ <;> simp only [gamma_known_rate] <;> positivity

/-- C41 beta likelihood -/
theorem C41_beta (xs : List ℝ) (hx : ∀ x ∈ xs, 0 < x ∧ x < 1) (d : BetaProportional ℝ)
    (hp : 0 < d.p) (hq : 0 < d.q) (hk : 0 < d.k) :
    let post := beta xs.prod (xs.map (1 - ·)).prod (xs.length : ℝ) d
    0 < post.p ∧ 0 < post.q ∧ 0 < post.k := by
  have h2 : 0 < xs.prod := List.prod_pos (fun x h => (hx x h).1)
  have h3 : 0 < (xs.map (1 - ·)).prod := List.prod_pos (by
    intro y hy
    obtain ⟨x, hx', rfl⟩ := List.mem_map.1 hy
    exact sub_pos.2 (hx x hx').2)
  refine ⟨?_, ?_, ?_⟩ <;> simp only [beta] <;> positivity

/-- C41 Von Mises with known direction: `|r| < c` is kept -/
theorem C41_von_mises_known_direction (mu : ℝ) (xs : List ℝ)
    (d : VonMisesKnownDirectionProportional ℝ) (h : |d.r| < d.c) :
    let post := von_mises_known_direction (xs.map (fun x => cos (x - mu))).sum (xs.length : ℝ) d
    |post.r| < post.c := by
  have h1 : |(xs.map (fun x => cos (x - mu))).sum| ≤ xs.length := by
    induction xs with
    | nil => simp
    | cons x l ih =>
      simp only [List.map_cons, List.sum_cons, List.length_cons]
      push_cast
      calc _ ≤ |cos (x - mu)| + |(l.map (fun x => cos (x - mu))).sum| := abs_add_le _ _
        _ ≤ 1 + l.length := add_le_add (abs_cos_le_one _) ih
        _ = _ := by ring
  simp only [von_mises_known_direction]
  exact (abs_add_le _ _).trans_lt (add_lt_add_of_lt_of_le h h1)

/-- C41 is false of `von_mises_known_concentration`: prior concentration 1 in direction 0 and
one observation at angle `-pi/2` give a negative concentration, whatever `kappa > 0`. -/
theorem C41_von_mises_known_concentration_fails (kappa : ℝ) (hk : 0 < kappa) :
    (von_mises_known_concentration (cos (-(π / 2))) (sin (-(π / 2))) 1 kappa ⟨1, 0⟩ sin cos
      arctan2).a < 0 := by
  simp [von_mises_known_concentration, hk]

example := C41_normal (M := Unit) [1, 2, 5] (by simp) 0 1 1 1 (by norm_num) (by norm_num)
  (by norm_num)
example := C41_geometric_beta true [1, 4] (by simp) ⟨1, 1⟩ ⟨by norm_num, by norm_num⟩
example := C41_pareto_gamma 2 (by norm_num) [2, 3] (by norm_num) ⟨1, 1⟩ ⟨by norm_num, by norm_num⟩

/-! ## C42 -/

/-- expected value of a density on `S` -/
noncomputable def Spec.mean (S : Set ℝ) (f : ℝ → ℝ) : ℝ := ∫ θ in S, θ * f θ

/-- `m` is between `a` and `b` -/
def Spec.Between (m a b : ℝ) : Prop := min a b ≤ m ∧ m ≤ max a b

theorem between_of_weights {u v a b : ℝ} (hu : 0 ≤ u) (hv : 0 ≤ v) (h : 0 < u + v) :
    Spec.Between ((u * a + v * b) / (u + v)) a b := by
  constructor
  · rw [le_div_iff₀ h]
    nlinarith [mul_le_mul_of_nonneg_left (min_le_left a b) hu,
      mul_le_mul_of_nonneg_left (min_le_right a b) hv]
  · rw [div_le_iff₀ h]
    nlinarith [mul_le_mul_of_nonneg_left (le_max_left a b) hu,
      mul_le_mul_of_nonneg_left (le_max_right a b) hv]

theorem Beta.mean_eq (d : Beta ℝ) (hd : d.Valid) :
    Spec.mean (Ioo 0 1) d.dist.pdf = d.alpha / (d.alpha + d.beta) := by
  obtain ⟨h1, h2⟩ := hd
  have hv : (⟨d.alpha + 1, d.beta⟩ : Beta ℝ).Valid := ⟨by simp only; positivity, h2⟩
  have k := beta_kernel d ⟨d.alpha + 1, d.beta⟩ ⟨h1, h2⟩ hv (f := fun p => p) (C := 1) (u := 1)
    (v := 0) (fun p hp => by simp) rfl (by simp)
  rw [Spec.mean, setIntegral_congr_fun measurableSet_Ioo (fun p hp => (mul_comm _ _).trans (k p hp)),
    integral_const_mul, (Beta.isDensity _ hv.1 hv.2).2.2]
  have g1 := Real.Gamma_add_one h1.ne'
  have g2 : Real.Gamma (d.alpha + 1 + d.beta) = (d.alpha + d.beta) * Real.Gamma (d.alpha + d.beta) := by
    rw [show d.alpha + 1 + d.beta = d.alpha + d.beta + 1 by ring, Real.Gamma_add_one (by positivity)]
  have p1 := Real.Gamma_pos_of_pos h1
  have p2 := Real.Gamma_pos_of_pos h2
  have p3 := Real.Gamma_pos_of_pos (add_pos h1 h2)
  simp only [betaFn, g1, g2]
  field_simp

theorem Gamma.mean_eq (d : Gamma ℝ) (hd : d.Valid) :
    Spec.mean (Ioi 0) d.dist.pdf = d.alpha / d.beta := by
  obtain ⟨h1, h2⟩ := hd
  have hv : (⟨d.alpha + 1, d.beta⟩ : Gamma ℝ).Valid := ⟨by simp only; positivity, h2⟩
  have k := gamma_kernel d ⟨d.alpha + 1, d.beta⟩ ⟨h1, h2⟩ hv (f := fun p => p) (C := 1) (u := 1)
    (v := 0) (fun p hp => by simp) rfl (by simp)
  rw [Spec.mean, setIntegral_congr_fun measurableSet_Ioi (fun p hp => (mul_comm _ _).trans (k p hp)),
    integral_const_mul, (Gamma.isDensity _ hv.1 hv.2).2.2]
  have g1 := Real.Gamma_add_one h1.ne'
  have p1 := Real.Gamma_pos_of_pos h1
  simp only [gammaConst, g1, rpow_add_one h2.ne']
  have := rpow_pos_of_pos h2 d.alpha
  field_simp

theorem Normal.mean_eq (d : Normal ℝ) (hs : 0 < d.sigma) : Spec.mean univ d.dist.pdf = d.mu := by
  rw [Spec.mean, Measure.restrict_univ, Normal.pdf_eq_gaussian d hs]
  have hne : Real.toNNReal (d.sigma ^ 2) ≠ 0 := by
    simp only [ne_eq, Real.toNNReal_eq_zero, not_le]; positivity
  have h := ProbabilityTheory.integral_gaussianReal_eq_integral_smul (μ := d.mu) hne (f := fun x => x)
  have h2 := ProbabilityTheory.integral_id_gaussianReal (μ := d.mu) (v := Real.toNNReal (d.sigma ^ 2))
  rw [h] at h2
  refine Eq.trans ?_ h2
  refine integral_congr_ae (Filter.Eventually.of_forall fun x => ?_)
  simp [mul_comm]

/-- C42 binomial: the expected value of the posterior lies between that of the prior and the
observed frequency. -/
theorem C42_binomial_beta (n x : ℕ) (hn : 0 < n) (hx : x ≤ n) (d : Beta ℝ) (hd : d.Valid) :
    Spec.Between (Spec.mean (Ioo 0 1) (binomial_beta (n : ℝ) (x : ℝ) d).dist.pdf)
      (Spec.mean (Ioo 0 1) d.dist.pdf) ((x : ℝ) / n) := by
  rw [Beta.mean_eq _ (C41_binomial_beta n x hx d hd), Beta.mean_eq d hd]
  obtain ⟨h1, h2⟩ := hd
  have hn' : (0 : ℝ) < n := by exact_mod_cast hn
  have e : (binomial_beta (n : ℝ) (x : ℝ) d).alpha /
      ((binomial_beta (n : ℝ) (x : ℝ) d).alpha + (binomial_beta (n : ℝ) (x : ℝ) d).beta) =
      ((d.alpha + d.beta) * (d.alpha / (d.alpha + d.beta)) + n * (x / n)) /
        ((d.alpha + d.beta) + n) := by
    simp only [binomial_beta, getBinomialBetaPosteriorParams]
    congr 1
    · field_simp
    · ring
  rw [e]
  exact between_of_weights (by positivity) hn'.le (by positivity)

/-- C42 Poisson -/
theorem C42_poisson_gamma (xs : List ℕ) (hne : xs ≠ []) (d : Gamma ℝ) (hd : d.Valid) :
    Spec.Between (Spec.mean (Ioi 0) (poisson_gamma (xs.sum : ℝ) (xs.length : ℝ) d).dist.pdf)
      (Spec.mean (Ioi 0) d.dist.pdf) ((xs.sum : ℝ) / xs.length) := by
  have hn' : (0 : ℝ) < xs.length := by exact_mod_cast List.length_pos_iff.2 hne
  have hv : (poisson_gamma (xs.sum : ℝ) (xs.length : ℝ) d).Valid := by
    obtain ⟨h1, h2⟩ := hd
    constructor <;> simp only [poisson_gamma, getPoissonGammaPosteriorParams] <;> positivity
  rw [Gamma.mean_eq _ hv, Gamma.mean_eq d hd]
  obtain ⟨h1, h2⟩ := hd
  have e : (poisson_gamma (xs.sum : ℝ) (xs.length : ℝ) d).alpha /
      (poisson_gamma (xs.sum : ℝ) (xs.length : ℝ) d).beta =
      (d.beta * (d.alpha / d.beta) + xs.length * ((xs.sum : ℝ) / xs.length)) /
        (d.beta + xs.length) := by
    simp only [poisson_gamma, getPoissonGammaPosteriorParams]
    congr 1
    field_simp
  rw [e]
  exact between_of_weights h2.le hn'.le (by positivity)

/-- C42 normal with known variance: the mean -/
theorem C42_normal_known_variance_mean (xs : List ℝ) (hne : xs ≠ []) (var : ℝ) (hv : 0 < var)
    (d : Normal ℝ) (hs : 0 < d.sigma) :
    Spec.Between
      (Spec.mean univ (normal_known_variance xs.sum (xs.length : ℝ) var d).dist.pdf)
      (Spec.mean univ d.dist.pdf) (xs.sum / xs.length) := by
  have hn' : (0 : ℝ) < xs.length := by exact_mod_cast List.length_pos_iff.2 hne
  rw [Normal.mean_eq _ (C41_normal_known_variance xs var hv d hs).1, Normal.mean_eq d hs]
  have e : (normal_known_variance xs.sum (xs.length : ℝ) var d).mu =
      ((1 / d.sigma ^ 2) * d.mu + (xs.length / var) * (xs.sum / xs.length)) /
        (1 / d.sigma ^ 2 + xs.length / var) := by
    simp only [normal_known_variance, powq_two, lit_real, Rat.cast_one]
    congr 1
    field_simp
  rw [e]
  exact between_of_weights (by positivity) (by positivity) (by positivity)

/-- C42 normal with known variance: the posterior variance is below the prior variance and
below `var / n`. -/
theorem C42_normal_known_variance_variance (s : ℝ) (n : ℕ) (hn : 0 < n) (var : ℝ) (hv : 0 < var)
    (d : Normal ℝ) (hs : 0 < d.sigma) :
    (normal_known_variance s (n : ℝ) var d).sigma ^ 2 < d.sigma ^ 2 ∧
    (normal_known_variance s (n : ℝ) var d).sigma ^ 2 < var / n := by
  have hn' : (0 : ℝ) < n := by exact_mod_cast hn
  simp only [normal_known_variance, powq_half, powq_two, lit_real, Rat.cast_one]
  rw [Real.sq_sqrt (by positivity)]
  constructor
  · rw [one_div_lt (by positivity) (by positivity)]
    exact lt_add_of_pos_right _ (by positivity)
  · rw [one_div_lt (by positivity) (by positivity), one_div_div]
    exact lt_add_of_pos_left _ (by positivity)

/-- C42: and it decreases with the number of observations, whatever the data. -/
theorem C42_normal_known_variance_decreasing (s s' : ℝ) (n n' : ℕ) (hn : n < n') (var : ℝ)
    (hv : 0 < var) (d : Normal ℝ) (hs : 0 < d.sigma) :
    (normal_known_variance s' (n' : ℝ) var d).sigma < (normal_known_variance s (n : ℝ) var d).sigma := by
  have hn' : (n : ℝ) < n' := by exact_mod_cast hn
  simp only [normal_known_variance, powq_half, powq_two, lit_real, Rat.cast_one]
  apply Real.sqrt_lt_sqrt (by positivity)
  rw [one_div_lt_one_div (by positivity) (by positivity)]
  gcongr

/-- C42 normal with unknown variance: for every value of the variance, the expected value of the
mean under the posterior lies between that under the prior and the data mean. -/
theorem C42_normal {M : Type*} (xs : List ℝ) (hne : xs ≠ []) (mu nu alpha beta : ℝ) (hnu : 0 < nu) :
    ∃ mu' nu' alpha' beta', 0 < nu' ∧
      normal xs.sum (xs.map (· ^ 2)).sum (xs.length : ℝ) (nigPrior M mu nu alpha beta) =
        .ok (nigPrior M mu' nu' alpha' beta') ∧
      ∀ variance : ℝ, 0 < variance →
        Spec.Between (Spec.mean univ (Normal.dist ⟨mu', √(variance / nu')⟩).pdf)
          (Spec.mean univ (Normal.dist ⟨mu, √(variance / nu)⟩).pdf) (xs.sum / xs.length) := by
  have hn' : (0 : ℝ) < xs.length := by exact_mod_cast List.length_pos_iff.2 hne
  refine ⟨_, nu + xs.length, _, _, by positivity, rfl, fun v hv => ?_⟩
  have p1 : 0 < √(v / (nu + xs.length)) := by positivity
  have p2 : 0 < √(v / nu) := by positivity
  rw [Normal.mean_eq ⟨_, _⟩ p1, Normal.mean_eq ⟨_, _⟩ p2]
  exact between_of_weights hnu.le hn'.le (by positivity)

example := C42_binomial_beta 10 3 (by norm_num) (by norm_num) ⟨1, 1⟩ ⟨by norm_num, by norm_num⟩
example := C42_normal (M := Unit) [1, 2] (by simp) 0 1 1 1 (by norm_num)

end Conj
