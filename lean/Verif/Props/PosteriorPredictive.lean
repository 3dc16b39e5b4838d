import Verif.Lemmas.Predictive
import Verif.Props.Valid
import Verif.Props.PredictiveScalar
import Verif.Props.PredictiveGeometricPoisson
import Verif.Props.Exponential
import Verif.Props.Regression
import Verif.Props.Wishart
import Verif.Props.Dirichlet

/-!
# Posterior predictive: fit, then predict (C84)

Each theorem composes the two calls a user makes, the model function on the data and the matching
`_predictive` function on its result. The value is compared with `p(data, new) / p(data)`
(`Spec.IsPosteriorPredictive`), in which no posterior and no closed form occurs.
-/

open MeasureTheory Set Real Matrix

namespace Conj

open Scipy Spec

/-- C84. Binomial experiments, then a new experiment of `m` trials. -/
theorem C84_binomial_beta (prior : Beta ℝ) (ha : 0 < prior.alpha) (hb : 0 < prior.beta)
    (data : List (ℕ × ℕ)) (hx : ∀ e ∈ data, e.2 ≤ e.1) (m : ℕ) (k : ℤ) :
    IsPosteriorPredictive volume (Ioo 0 1) prior.dist.pdf
      (likelihood (fun p (e : ℕ × ℕ) => (Binomial.dist { n := e.1, p := p }).pmf e.2) data)
      (fun p => (Binomial.dist { n := m, p := p }).pmf k)
      ((binomial_beta_predictive (m : ℝ) (binomial_beta (((data.map Prod.fst).sum : ℕ) : ℝ)
        (((data.map Prod.snd).sum : ℕ) : ℝ) prior)).dist.pmf k) := by
  have hv := C41_binomial_beta _ _ (List.sum_le_sum hx) prior ⟨ha, hb⟩
  exact .of measurableSet_Ioo (C01_binomial_beta_posterior_list prior ha hb data hx)
    (C24_binomial_beta_predictive m _ hv.1 hv.2 k)

/-- C84. Coin flips one at a time, then the next flip. -/
theorem C84_bernoulli_beta (prior : Beta ℝ) (ha : 0 < prior.alpha) (hb : 0 < prior.beta)
    (flips : List Bool) (k : ℤ) :
    IsPosteriorPredictive volume (Ioo 0 1) prior.dist.pdf
      (likelihood (fun p (x : Bool) => if x then p else 1 - p) flips)
      (fun p => (Binomial.dist { n := 1, p := p }).pmf k)
      ((bernoulli_beta_predictive
        (flips.foldl (fun d x => bernoulli_beta (if x then 1 else 0 : ℝ) d) prior)).dist.pmf k) := by
  have hv : (flips.foldl (fun d x => bernoulli_beta (if x then 1 else 0 : ℝ) d) prior).Valid := by
    rw [C02_bernoulli_beta_eq_binomial_beta]
    exact C41_binomial_beta _ _ List.count_le_length prior ⟨ha, hb⟩
  exact .of measurableSet_Ioo (C02_bernoulli_beta_posterior prior ha hb flips)
    (C24_bernoulli_beta_predictive _ hv.1 hv.2 k)

/-- C84. Negative binomial counts. -/
theorem C84_negative_binomial_beta (prior : Beta ℝ) (ha : 0 < prior.alpha) (hb : 0 < prior.beta)
    (r : ℝ) (hr : 0 < r) (xs : List ℕ) (k : ℤ) :
    IsPosteriorPredictive volume (Ioo 0 1) prior.dist.pdf
      (likelihood (fun p (x : ℕ) => (NegativeBinomial.dist { n := r, p := p }).pmf x) xs)
      (fun p => (NegativeBinomial.dist { n := r, p := p }).pmf k)
      ((negative_binomial_beta_predictive r
        (negative_binomial_beta r (xs.length : ℝ) ((xs.sum : ℕ) : ℝ) prior)).dist.pmf k) := by
  have hv := C41_negative_binomial_beta r hr xs prior ⟨ha, hb⟩
  exact .of measurableSet_Ioo (C03_negative_binomial_beta_posterior prior ha hb r hr xs)
    (C25_negative_binomial_beta_predictive r hr _ hv.1 hv.2 k)

/-- Full statement of C84 for the geometric model. -/
def C84_geometric_statement (prior : Beta ℝ) (one_start : Bool) (xs : List ℕ) (k : ℕ) : Prop :=
  IsPosteriorPredictive volume (Ioo 0 1) prior.dist.pdf
    (likelihood (fun p (x : ℕ) => (Geometric.dist { p := p, one_start := one_start }).pmf x) xs)
    (fun p => (Geometric.dist { p := p, one_start := one_start }).pmf k)
    ((geometric_beta_predictive
      (geometric_beta ((xs.sum : ℕ) : ℝ) (xs.length : ℝ) prior one_start) one_start).pmf k)

/-- C84 (disagreement). For geometric data the value is wrong at every point of the support. -/
theorem C84_geometric_beta_false (prior : Beta ℝ) (ha : 0 < prior.alpha) (hb : 0 < prior.beta)
    (one_start : Bool) (xs : List ℕ) (hx : ∀ x ∈ xs, one_start = true → 1 ≤ x) (k : ℕ)
    (hk : one_start = true → 1 ≤ k) : ¬ C84_geometric_statement prior one_start xs k := by
  intro h
  have hv := C41_geometric_beta one_start xs (fun h x hx' => hx x hx' h) prior ⟨ha, hb⟩
  exact C26_geometric_beta_predictive_false _ hv.1 hv.2 one_start k hk
    (IsPosteriorPredictive.isPredictive measurableSet_Ioo
      (C04_geometric_beta_posterior prior ha hb one_start xs hx) h)

/-- C84, geometric: the value at `k` is the posterior predictive probability of `k + 1`. Missing:
that of `k`. -/
theorem C84_geometric_beta_shifted_partial (prior : Beta ℝ) (ha : 0 < prior.alpha)
    (hb : 0 < prior.beta) (one_start : Bool) (xs : List ℕ)
    (hx : ∀ x ∈ xs, one_start = true → 1 ≤ x) (k : ℕ) :
    IsPosteriorPredictive volume (Ioo 0 1) prior.dist.pdf
      (likelihood (fun p (x : ℕ) => (Geometric.dist { p := p, one_start := one_start }).pmf x) xs)
      (fun p => (Geometric.dist { p := p, one_start := one_start }).pmf ((k + 1 : ℕ) : ℤ))
      ((geometric_beta_predictive
        (geometric_beta ((xs.sum : ℕ) : ℝ) (xs.length : ℝ) prior one_start) one_start).pmf k) := by
  have hv := C41_geometric_beta one_start xs (fun h x hx' => hx x hx' h) prior ⟨ha, hb⟩
  exact .of measurableSet_Ioo (C04_geometric_beta_posterior prior ha hb one_start xs hx)
    (C26_geometric_beta_predictive_shifted_partial _ hv.1 hv.2 one_start k)

/-- Full statement of C84 for Poisson data: the total of `n` further units of exposure. -/
def C84_poisson_statement (prior : Gamma ℝ) (xs : List ℕ) (n : ℝ) : Prop := ∀ k : ℤ,
  IsPosteriorPredictive volume (Ioi 0) prior.dist.pdf
    (likelihood (fun l (x : ℕ) => (Poisson.dist { lam := l }).pmf x) xs)
    (fun l => (Poisson.dist { lam := n * l }).pmf k)
    ((poisson_gamma_predictive (poisson_gamma ((xs.sum : ℕ) : ℝ) (xs.length : ℝ) prior)
      n).dist.pmf k)

/-- C84 (disagreement). Poisson: right for one unit of exposure, wrong for any other amount. -/
theorem C84_poisson_gamma_iff (prior : Gamma ℝ) (ha : 0 < prior.alpha) (hb : 0 < prior.beta)
    (xs : List ℕ) (n : ℝ) (hn : 0 < n) : C84_poisson_statement prior xs n ↔ n = 1 := by
  have hv : (poisson_gamma ((xs.sum : ℕ) : ℝ) (xs.length : ℝ) prior).Valid := by
    constructor <;> simp only [poisson_gamma, getPoissonGammaPosteriorParams] <;> positivity
  have hp := C05_poisson_gamma_posterior prior ha hb xs
  rw [← C27_poisson_gamma_predictive_iff _ hv.1 hv.2 n hn]
  exact ⟨fun h k => IsPosteriorPredictive.isPredictive measurableSet_Ioi hp (h k),
    fun h k => .of measurableSet_Ioi hp (h k)⟩

/-- Full statement of C84 for exponential data. -/
def C84_exponential_statement (prior : Gamma ℝ) (xs : List ℝ) : Prop := ∀ y : ℝ, 0 ≤ y →
  IsPosteriorPredictive volume (Ioi 0) prior.dist.pdf
    (likelihood (fun r x => (Exponential.dist { lam := 1 / r }).pdf x) xs)
    (fun r => (Exponential.dist { lam := 1 / r }).pdf y)
    ((exponential_gamma_predictive (exponential_gamma xs.sum (xs.length : ℝ) prior)).dist.pdf y)

/-- C84 (disagreement). Exponential: the exchange in `exponential_gamma` and the one in
`exponential_gamma_predictive` cancel for the data, but not for the prior: the result is right
exactly for priors with equal parameters, whatever the data. -/
theorem C84_exponential_gamma_iff (prior : Gamma ℝ) (ha : 0 < prior.alpha) (hb : 0 < prior.beta)
    (xs : List ℝ) (hx : ∀ x ∈ xs, 0 < x) :
    C84_exponential_statement prior xs ↔ prior.alpha = prior.beta := by
  have hs : 0 ≤ xs.sum := List.sum_nonneg fun x h => (hx x h).le
  have hpost := C06_exponential_gamma_swapped_partial prior ha hb xs hx
  have htrue : ∀ y : ℝ, 0 ≤ y → IsPosteriorPredictive volume (Ioi 0) prior.dist.pdf
      (likelihood (fun r x => (Exponential.dist { lam := 1 / r }).pdf x) xs)
      (fun r => (Exponential.dist { lam := 1 / r }).pdf y)
      ((Lomax.dist { alpha := prior.alpha + xs.length, lam := prior.beta + xs.sum }).pdf y) :=
    fun y hy => .of measurableSet_Ioi hpost (exponential_predictive_true
      ⟨prior.alpha + xs.length, prior.beta + xs.sum⟩ (by simp only; positivity)
      (by simp only; positivity) y hy)
  have hcode : exponential_gamma_predictive (exponential_gamma xs.sum (xs.length : ℝ) prior) =
      { alpha := prior.beta + xs.length, lam := prior.alpha + xs.sum } := rfl
  have h1 : 0 < prior.alpha + xs.sum := by positivity
  have h2 : 0 < prior.beta + xs.sum := by positivity
  have hn : (0 : ℝ) ≤ xs.length := by positivity
  constructor
  · intro h
    have e := (h 0 le_rfl).unique (htrue 0 le_rfl)
    rw [hcode, Lomax.pdf_eq ⟨_, _⟩ h1 le_rfl, Lomax.pdf_eq ⟨_, _⟩ h2 le_rfl] at e
    simp only [add_zero, div_self h1.ne', div_self h2.ne', one_rpow, mul_one] at e
    rw [div_eq_div_iff h1.ne' h2.ne'] at e
    have h3 : (prior.beta - prior.alpha) *
        (prior.alpha + prior.beta + xs.length + xs.sum) = 0 := by linear_combination e
    have h4 : 0 < prior.alpha + prior.beta + xs.length + xs.sum := by positivity
    have := (mul_eq_zero.1 h3).resolve_right h4.ne'
    linarith
  · intro h y hy
    have := htrue y hy
    rw [hcode, ← h]
    rw [← h] at this
    exact this

/-- C84. Gamma data with known shape. -/
theorem C84_gamma_known_shape (prior : Gamma ℝ) (ha : 0 < prior.alpha) (hb : 0 < prior.beta)
    (shape : ℝ) (hk : 0 < shape) (xs : List ℝ) (hx : ∀ x ∈ xs, 0 < x) (y : ℝ) (hy : 0 < y) :
    IsPosteriorPredictive volume (Ioi 0) prior.dist.pdf
      (likelihood (fun r x => (Gamma.dist { alpha := shape, beta := r }).pdf x) xs)
      (fun r => (Gamma.dist { alpha := shape, beta := r }).pdf y)
      ((gamma_known_shape_predictive (gamma_known_shape xs.sum (xs.length : ℝ) shape prior)
        shape).pdf y) := by
  have hv := (C41_gamma_posteriors shape hk xs (fun x h => (hx x h).le) prior ⟨ha, hb⟩).2.2.1
  exact .of measurableSet_Ioi (C07_gamma_known_shape_posterior prior ha hb shape hk xs hx)
    (C29_gamma_known_shape_predictive shape hk _ hv.1 hv.2 y hy)

/-- C84. Normal data, known variance. -/
theorem C84_normal_known_variance (prior : Normal ℝ) (hs : 0 < prior.sigma) (var : ℝ)
    (hv : 0 < var) (xs : List ℝ) (y : ℝ) :
    IsPosteriorPredictive volume univ prior.dist.pdf
      (likelihood (fun m x => (Normal.dist { mu := m, sigma := √var }).pdf x) xs)
      (fun m => (Normal.dist { mu := m, sigma := √var }).pdf y)
      ((normal_known_variance_predictive var
        (normal_known_variance xs.sum (xs.length : ℝ) var prior)).dist.pdf y) :=
  .of MeasurableSet.univ (C12_normal_known_variance_posterior prior hs var hv xs)
    (C30_normal_known_variance_predictive var hv _
      (C41_normal_known_variance xs var hv prior hs).1 y)

/-- C84. Normal data, known precision. -/
theorem C84_normal_known_precision (prior : Normal ℝ) (hs : 0 < prior.sigma) (precision : ℝ)
    (hp : 0 < precision) (xs : List ℝ) (y : ℝ) :
    IsPosteriorPredictive volume univ prior.dist.pdf
      (likelihood (fun m x => (Normal.dist { mu := m, sigma := √(1 / precision) }).pdf x) xs)
      (fun m => (Normal.dist { mu := m, sigma := √(1 / precision) }).pdf y)
      ((normal_known_precision_predictive precision
        (normal_known_precision xs.sum (xs.length : ℝ) precision prior)).dist.pdf y) :=
  .of MeasurableSet.univ (C12_normal_known_precision_posterior prior hs precision hp xs)
    (C30_normal_known_precision_predictive precision hp _
      (C41_normal_known_variance xs precision hp prior hs).2 y)

/-- C84. Normal data, known mean, either prior class. -/
theorem C84_normal_known_mean (prior : VariancePrior ℝ) (hp : prior.Valid) (mu : ℝ) (xs : List ℝ)
    (y : ℝ) :
    IsPosteriorPredictive volume (Ioi 0) prior.pdf
      (likelihood (fun v x => (Normal.dist { mu := mu, sigma := √v }).pdf x) xs)
      (fun v => (Normal.dist { mu := mu, sigma := √v }).pdf y)
      ((normal_known_mean_predictive mu
        (normal_known_mean xs.sum (xs.map (· ^ 2)).sum (xs.length : ℝ) mu prior)).dist.pdf y) :=
  .of measurableSet_Ioi (C13_normal_known_mean_posterior prior hp mu xs)
    (C31_normal_known_mean_predictive mu _ (C41_normal_known_mean mu xs prior hp) y)

/-- C84. Normal data, mean and variance unknown: neither call raises. -/
theorem C84_normal_nig {M : Type*} (prior : NormalInverseGamma ℝ ℝ M) (nu : ℝ)
    (hn : prior.nu = some nu) (hnu : 0 < nu) (ha : 0 < prior.alpha) (hb : 0 < prior.beta)
    (xs : List ℝ) (hne : xs ≠ []) (y : ℝ) :
    ∃ (post : NormalPrior ℝ M) (t : StudentT ℝ),
      normal xs.sum (xs.map (· ^ 2)).sum (xs.length : ℝ) (.nig prior) = .ok post ∧
      normal_predictive post = .ok t ∧
      IsPosteriorPredictive volume (univ ×ˢ Ioi 0)
        (fun θ : ℝ × ℝ => prior.jointPdf nu θ.1 θ.2)
        (likelihood (fun (θ : ℝ × ℝ) x => (Normal.dist { mu := θ.1, sigma := √θ.2 }).pdf x) xs)
        (fun θ : ℝ × ℝ => (Normal.dist { mu := θ.1, sigma := √θ.2 }).pdf y) (t.dist.pdf y) := by
  obtain ⟨post, nu', h1, h2, h3, h4, h5, h6⟩ :=
    C14_normal_posterior_nig prior nu hn hnu ha hb xs hne
  obtain ⟨t, h7, h8⟩ := C32_normal_predictive_nig post nu' h1 h3 h4 h5 y
  exact ⟨.nig post, t, h2, h7, .of (MeasurableSet.univ.prod measurableSet_Ioi) h6 h8⟩

/-- C84. Normal data, mean and precision unknown: neither call raises. -/
theorem C84_normal_ng {M : Type*} (prior : NormalGamma ℝ) (hlam : 0 < prior.lam)
    (ha : 0 < prior.alpha) (hb : 0 < prior.beta) (xs : List ℝ) (hne : xs ≠ []) (y : ℝ) :
    ∃ (post : NormalPrior ℝ M) (t : StudentT ℝ),
      normal xs.sum (xs.map (· ^ 2)).sum (xs.length : ℝ) (.ng prior : NormalPrior ℝ M) = .ok post ∧
      normal_predictive post = .ok t ∧
      IsPosteriorPredictive volume (univ ×ˢ Ioi 0)
        (fun θ : ℝ × ℝ => prior.jointPdf θ.1 θ.2)
        (likelihood (fun (θ : ℝ × ℝ) x => (Normal.dist { mu := θ.1, sigma := √(1 / θ.2) }).pdf x)
          xs)
        (fun θ : ℝ × ℝ => (Normal.dist { mu := θ.1, sigma := √(1 / θ.2) }).pdf y)
        (t.dist.pdf y) := by
  obtain ⟨post, h2, h3, h4, h5, h6⟩ := C14_normal_posterior_ng (M := M) prior hlam ha hb xs hne
  obtain ⟨t, h7, h8⟩ := C32_normal_predictive_ng (M := M) post h3 h4 h5 y
  exact ⟨.ng post, t, h2, h7, .of (MeasurableSet.univ.prod measurableSet_Ioi) h6 h8⟩

section matrix

variable {m m' p : Type} [Fintype m] [Fintype m'] [Fintype p] [DecidableEq m] [DecidableEq m']
  [DecidableEq p]

/-- C84. Linear regression: joint density of the responses at a new design matrix. -/
theorem C84_linear_regression (X : Matrix m p ℝ) (y : m → ℝ)
    (prior : NormalInverseGamma ℝ (p → ℝ) (Matrix p p ℝ)) (D : Matrix p p ℝ)
    (h : prior.delta_inverse = some D) (hD : D.PosDef) (ha : 0 < prior.alpha)
    (hb : 0 < prior.beta) (Z : Matrix m' p ℝ) :
    ∃ post t, linear_regression X y prior = .ok post ∧
      linear_regression_predictive post Z = .ok t ∧ ∀ z : m' → ℝ,
      IsPosteriorPredictive volume ((univ : Set (p → ℝ)) ×ˢ Ioi (0 : ℝ))
        (fun θ => prior.jointPdfNd D θ.1 θ.2)
        (fun θ => ∏ i, (Normal.dist { mu := (X *ᵥ θ.1) i, sigma := √θ.2 }).pdf (y i))
        (fun θ => ∏ i, (Normal.dist { mu := (Z *ᵥ θ.1) i, sigma := √θ.2 }).pdf (z i))
        (t.pdf z) := by
  obtain ⟨post, D', h1, h2, h3, h4, h5, h6⟩ := C20_linear_regression_posterior X y prior D h hD ha hb
  obtain ⟨t, h7, h8⟩ := C33_linear_regression_predictive Z post D' h2 h3 h4 h5
  exact ⟨post, t, h1, h7, fun z => .of (MeasurableSet.univ.prod measurableSet_Ioi) h6 (h8 z)⟩

/-- C84. Multivariate normal, known covariance. -/
theorem C84_multivariate_normal_known_covariance (xs : List (p → ℝ)) (x_bar : p → ℝ)
    (hx : (xs.length : ℝ) • x_bar = xs.sum) (cov : Matrix p p ℝ) (hc : cov.PosDef)
    (prior : MultivariateNormal (p → ℝ) (Matrix p p ℝ)) (hS : prior.cov.PosDef) (y : p → ℝ) :
    ∃ post, multivariate_normal_known_covariance (xs.length : ℝ) x_bar cov prior = .ok post ∧
      IsPosteriorPredictive volume univ prior.pdf
        (likelihood (fun mean x => (MultivariateNormal.mk mean cov).pdf x) xs)
        (fun mean => (MultivariateNormal.mk mean cov).pdf y)
        ((multivariate_normal_known_covariance_predictive post cov).pdf y) := by
  obtain ⟨post, h1, h2, h3⟩ :=
    C21_multivariate_normal_known_covariance_posterior xs x_bar hx cov hc prior hS
  exact ⟨post, h1, .of MeasurableSet.univ h3
    (C34_multivariate_normal_known_covariance_predictive post h2 cov hc y)⟩

/-- C84. Multivariate normal, known precision: neither call raises. -/
theorem C84_multivariate_normal_known_precision (xs : List (p → ℝ)) (x_bar : p → ℝ)
    (hx : (xs.length : ℝ) • x_bar = xs.sum) (precision : Matrix p p ℝ) (hp : precision.PosDef)
    (prior : MultivariateNormal (p → ℝ) (Matrix p p ℝ)) (hS : prior.cov.PosDef) (y : p → ℝ) :
    ∃ post pred,
      multivariate_normal_known_precision (xs.length : ℝ) x_bar precision prior = .ok post ∧
      multivariate_normal_known_precision_predictive post precision = .ok pred ∧
      IsPosteriorPredictive volume univ prior.pdf
        (likelihood (fun mean x => (MultivariateNormal.mk mean precision⁻¹).pdf x) xs)
        (fun mean => (MultivariateNormal.mk mean precision⁻¹).pdf y) (pred.pdf y) := by
  obtain ⟨post, h1, h2, h3⟩ :=
    C21_multivariate_normal_known_precision_posterior xs x_bar hx precision hp prior hS
  obtain ⟨pred, h4, h5⟩ :=
    C34_multivariate_normal_known_precision_predictive post h2 precision hp
  exact ⟨post, pred, h1, h4, .of MeasurableSet.univ h3 (h5 y)⟩

/-- C84. Multivariate normal, mean and covariance unknown. -/
theorem C84_multivariate_normal {n : ℕ} [Nonempty m] (X : Matrix m (Fin n) ℝ)
    (prior : NormalInverseWishart ℝ (Fin n → ℝ) (Matrix (Fin n) (Fin n) ℝ))
    (hk : 0 < prior.kappa) (hnu : (n : ℝ) - 1 < prior.nu) (hpsi : prior.psi.PosDef)
    (y : Fin n → ℝ) :
    ∃ post, multivariate_normal X prior = .ok post ∧
      IsPosteriorPredictive volume {θ : (Fin n → ℝ) × (UpperIdx n → ℝ) | (symOf θ.2).PosDef}
        (fun θ => prior.jointPdf θ.1 (symOf θ.2))
        (fun θ => ∏ i, (MultivariateNormal.mk θ.1 (symOf θ.2)).pdf (X i))
        (fun θ => (MultivariateNormal.mk θ.1 (symOf θ.2)).pdf y)
        ((multivariate_normal_predictive post).pdf y) := by
  obtain ⟨post, h1, h2, h3, h4, h5⟩ := C23_multivariate_normal_posterior X prior hk hnu hpsi
  exact ⟨post, h1, .of (measurableSet_posDef.preimage measurable_snd) h5
    (C35_multivariate_normal_predictive post h2 h3 h4 y)⟩

end matrix

section dirichlet

variable {k : ℕ}

/-- C84. Categorical data, then the counts of `n` further draws. -/
theorem C84_categorical_dirichlet (prior : Dirichlet (Fin (k + 1) → ℝ))
    (hp : ∀ i, 0 < prior.alpha i) (xs : List (Fin (k + 1))) (n : ℕ) (y : Fin (k + 1) → ℕ) :
    ∃ post, categorical_dirichlet (counts xs) prior = .ok post ∧
      IsPosteriorPredictive volume (simplex k) (fun p => prior.pdf (fullVector p))
        (fun p => likelihood (fun q x => q x) xs (fullVector p))
        (fun p => (Multinomial.mk (n : ℝ) (fullVector p)).pmf y)
        ((categorical_dirichlet_predictive post (n : ℝ)).pmf y) := by
  obtain ⟨post, h1, h2, h3⟩ := C16_categorical_dirichlet_posterior prior hp xs
  exact ⟨post, h1, .of (measurableSet_simplexOf k 1) h3
    (C36_categorical_dirichlet_predictive post h2 n y)⟩

/-- C84. Multinomial data, then the counts of `n` further draws. -/
theorem C84_multinomial_dirichlet (prior : Dirichlet (Fin (k + 1) → ℝ))
    (hp : ∀ i, 0 < prior.alpha i) (data : List (Fin (k + 1) → ℕ)) (n : ℕ) (y : Fin (k + 1) → ℕ) :
    ∃ post, multinomial_dirichlet (columnSums data) prior = .ok post ∧
      IsPosteriorPredictive volume (simplex k) (fun p => prior.pdf (fullVector p))
        (fun p => likelihood (fun q x => (Multinomial.mk (∑ i, (x i : ℝ)) q).pmf x) data
          (fullVector p))
        (fun p => (Multinomial.mk (n : ℝ) (fullVector p)).pmf y)
        ((multinomial_dirichlet_predictive post (n : ℝ)).pmf y) := by
  obtain ⟨post, h1, h2, h3⟩ := C16_multinomial_dirichlet_posterior prior hp data
  exact ⟨post, h1, .of (measurableSet_simplexOf k 1) h3
    (C36_multinomial_dirichlet_predictive post h2 n y)⟩

end dirichlet

/-! concrete cases -/

example := C84_binomial_beta ⟨2, 3⟩ (by norm_num) (by norm_num) [(10, 4), (3, 0)] (by simp) 5 2
example := C84_bernoulli_beta ⟨1, 1⟩ (by norm_num) (by norm_num) [true, false, true] 1
example := C84_negative_binomial_beta ⟨1, 1⟩ (by norm_num) (by norm_num) 3 (by norm_num) [4, 0] 2
example := C84_geometric_beta_false ⟨1, 1⟩ (by norm_num) (by norm_num) true [3, 1] (by simp) 2
  (by simp)
example : ¬ C84_poisson_statement ⟨1, 2⟩ [3, 0, 4] 2 := by
  rw [C84_poisson_gamma_iff ⟨1, 2⟩ (by norm_num) (by norm_num) _ 2 (by norm_num)]; norm_num
example : C84_poisson_statement ⟨1, 2⟩ [3, 0, 4] 1 :=
  (C84_poisson_gamma_iff ⟨1, 2⟩ (by norm_num) (by norm_num) _ 1 (by norm_num)).2 rfl
example : ¬ C84_exponential_statement ⟨1, 2⟩ [3, 4] := by
  rw [C84_exponential_gamma_iff ⟨1, 2⟩ (by norm_num) (by norm_num) _ (by simp)]; norm_num
example : C84_exponential_statement ⟨1, 1⟩ [3, 4] :=
  (C84_exponential_gamma_iff ⟨1, 1⟩ (by norm_num) (by norm_num) _ (by simp)).2 rfl
example := C84_gamma_known_shape ⟨1, 2⟩ (by norm_num) (by norm_num) 3 (by norm_num) [1, 4]
  (by simp) 2 (by norm_num)
example := C84_normal_known_variance ⟨0, 10⟩ (by norm_num) 2 (by norm_num) [1, -3, 4] 5
example := C84_normal_known_precision ⟨0, 10⟩ (by norm_num) 2 (by norm_num) [1, -3, 4] 5
example := C84_normal_known_mean (.scaledInverseChiSquared ⟨1, 2⟩) ⟨by norm_num, by norm_num⟩ 5
  [1, -3, 4] 2
example := C84_normal_nig (M := Unit) ⟨0, 2, 3, none, some 1⟩ 1 rfl (by norm_num)
  (by norm_num) (by norm_num) [1, -3, 4] (by simp) 2
example := C84_normal_ng (M := Unit) ⟨0, 1, 2, 3⟩ (by norm_num) (by norm_num) (by norm_num)
  [1, -3, 4] (by simp) 2
example := C84_linear_regression !![1, 2; 3, 4; 5, 6; (7 : ℝ), 9] ![1, -1, 2, 0]
  ⟨![0, 1], 3, 2, some 1, none⟩ 1 rfl PosDef.one (by norm_num) (by norm_num) !![1, 1; 0, (1 : ℝ)]
example := C84_multivariate_normal_known_covariance [![1, 3], ![(3 : ℝ), 5]] ![2, 4]
  (by ext i; fin_cases i <;> norm_num) !![2, 1; 1, 2] exampleCov_posDef ⟨![0, 1], 1⟩ PosDef.one
example := C84_multivariate_normal_known_precision [![1, 3], ![(3 : ℝ), 5]] ![2, 4]
  (by ext i; fin_cases i <;> norm_num) !![2, 1; 1, 2] exampleCov_posDef ⟨![0, 1], 1⟩ PosDef.one
example := C84_multivariate_normal
  (!![1, 2; 3, -1; 0, 5] : Matrix (Fin 3) (Fin 2) ℝ) ⟨![1, 1], 2, 4, 1⟩ (by norm_num)
  (by norm_num) PosDef.one
example := C84_categorical_dirichlet (k := 2) ⟨![1, 2, 3]⟩ (by intro i; fin_cases i <;> simp)
  [0, 2, 2, 1] 2 ![1, 1, 0]
example := C84_multinomial_dirichlet (k := 2) ⟨![1, 2, 3]⟩ (by intro i; fin_cases i <;> simp)
  [![2, 0, 1], ![1, 1, 1]] 2 ![1, 1, 0]

end Conj
