import Verif.LikelihoodSpec
import Verif.Props.Identifiable
import Verif.Props.IdentifiableDiscrete
import Verif.Props.IdentifiableMatrix
import Verif.Props.PosteriorScalar
import Verif.Props.PosteriorNormal
import Verif.Props.Exponential
import Verif.Props.Dirichlet
import Verif.Props.Regression
import Verif.Props.MultivariateNormal
import Verif.Props.Wishart
import Verif.Props.Valid
import Verif.Props.Evidence

/-!
# C98: the likelihood principle

With the same prior, two data sets give the same posterior object exactly when their likelihoods are proportional
as functions of the unknown.  The two data sets may have different sizes, and known arguments (number of successes
to wait for, known shape, known variance, ...) may differ between them.
-/

open MeasureTheory Set

namespace Conj

open Scipy Spec

/-- Equal posterior densities and proportional likelihoods are the same thing, `T` being where the prior is
positive. -/
theorem posterior_eq_iff {Θ : Type*} [MeasurableSpace Θ] {μ : Measure Θ} {S T : Set Θ} (hS : MeasurableSet S)
    (hTS : T ⊆ S) {prior lik lik' post post' : Θ → ℝ} (hpos : ∀ θ ∈ T, 0 < prior θ)
    (hz : ∀ θ ∈ S, θ ∉ T → prior θ = 0) (h : IsPosterior μ S prior lik post)
    (h' : IsPosterior μ S prior lik' post') : (∀ θ ∈ S, post θ = post' θ) ↔ ProportionalOn T lik lik' := by
  constructor
  · intro e
    refine ⟨_, div_pos h.1 h'.1, fun θ hθ => ?_⟩
    have e1 := e θ (hTS hθ)
    rw [h.2 θ (hTS hθ), h'.2 θ (hTS hθ), div_eq_div_iff h.1.ne' h'.1.ne'] at e1
    have hp := hpos θ hθ
    rw [div_mul_eq_mul_div, eq_div_iff h'.1.ne']
    refine mul_left_cancel₀ hp.ne' ?_
    linear_combination e1
  · rintro ⟨c, hc, e⟩ θ hθ
    have e1 : ∀ θ ∈ S, prior θ * lik θ = c * (prior θ * lik' θ) := by
      intro θ hθ
      by_cases ht : θ ∈ T
      · rw [e θ ht]; ring
      · rw [hz θ hθ ht]; ring
    rw [h.2 θ hθ, h'.2 θ hθ, setIntegral_congr_fun (μ := μ) hS e1, integral_const_mul, e1 θ hθ]
    exact mul_div_mul_left _ _ hc.ne'

/-- the same, the prior being positive everywhere -/
theorem posterior_eq_iff' {Θ : Type*} [MeasurableSpace Θ] {μ : Measure Θ} {S : Set Θ} (hS : MeasurableSet S)
    {prior lik lik' post post' : Θ → ℝ} (hpos : ∀ θ ∈ S, 0 < prior θ) (h : IsPosterior μ S prior lik post)
    (h' : IsPosterior μ S prior lik' post') : (∀ θ ∈ S, post θ = post' θ) ↔ ProportionalOn S lik lik' :=
  posterior_eq_iff hS subset_rfl hpos (fun _ h1 h2 => absurd h1 h2) h h'

/-! ## Beta priors -/

theorem Beta.pdf_pos (d : Beta ℝ) (hd : d.Valid) {x : ℝ} (hx : x ∈ Ioo (0 : ℝ) 1) : 0 < d.dist.pdf x := by
  have h1 := hx.1
  have h2 : 0 < 1 - x := by linarith [hx.2]
  have := betaFn_pos hd.1 hd.2
  rw [Beta.pdf_eq d hx]
  positivity

/-- Any two experiments about a probability: Beta posteriors obtained by Bayes' rule from the same prior agree
exactly when the likelihoods are proportional. -/
theorem beta_likelihood {prior post post' : Beta ℝ} (hp : prior.Valid) (hv : post.Valid) (hv' : post'.Valid)
    {lik lik' : ℝ → ℝ} (h : IsPosterior volume (Ioo 0 1) prior.dist.pdf lik post.dist.pdf)
    (h' : IsPosterior volume (Ioo 0 1) prior.dist.pdf lik' post'.dist.pdf) :
    post = post' ↔ ProportionalOn (Ioo 0 1) lik lik' := by
  rw [← posterior_eq_iff' measurableSet_Ioo (fun θ hθ => prior.pdf_pos hp hθ) h h']
  exact ⟨fun e θ _ => by rw [e], C97_beta post post' hv hv'⟩

theorem binomial_beta_valid_sums {prior : Beta ℝ} (hp : prior.Valid) {data : List (ℕ × ℕ)}
    (hx : ∀ e ∈ data, e.2 ≤ e.1) :
    (binomial_beta (((data.map Prod.fst).sum : ℕ) : ℝ) (((data.map Prod.snd).sum : ℕ) : ℝ) prior).Valid := by
  have h : (data.map Prod.snd).sum ≤ (data.map Prod.fst).sum := List.sum_le_sum hx
  exact C41_binomial_beta _ _ h prior hp

/-- C98, `binomial_beta`: `(trials, successes)` pairs. -/
theorem C98_binomial_beta (prior : Beta ℝ) (hp : prior.Valid) (data data' : List (ℕ × ℕ))
    (hx : ∀ e ∈ data, e.2 ≤ e.1) (hx' : ∀ e ∈ data', e.2 ≤ e.1) :
    binomial_beta (((data.map Prod.fst).sum : ℕ) : ℝ) (((data.map Prod.snd).sum : ℕ) : ℝ) prior =
      binomial_beta (((data'.map Prod.fst).sum : ℕ) : ℝ) (((data'.map Prod.snd).sum : ℕ) : ℝ) prior ↔
    ProportionalOn (Ioo 0 1)
      (likelihood (fun p (e : ℕ × ℕ) => (Binomial.dist { n := e.1, p := p }).pmf e.2) data)
      (likelihood (fun p (e : ℕ × ℕ) => (Binomial.dist { n := e.1, p := p }).pmf e.2) data') :=
  beta_likelihood hp (binomial_beta_valid_sums hp hx) (binomial_beta_valid_sums hp hx')
    (C01_binomial_beta_posterior_list prior hp.1 hp.2 data hx)
    (C01_binomial_beta_posterior_list prior hp.1 hp.2 data' hx')

theorem bernoulli_beta_valid_list {prior : Beta ℝ} (hp : prior.Valid) (flips : List Bool) :
    (flips.foldl (fun d x => bernoulli_beta (if x then 1 else 0 : ℝ) d) prior).Valid := by
  induction flips generalizing prior with
  | nil => exact hp
  | cons x l ih => exact ih (C41_bernoulli_beta x prior hp)

/-- C98, `bernoulli_beta`, applied to one flip after the other. -/
theorem C98_bernoulli_beta (prior : Beta ℝ) (hp : prior.Valid) (flips flips' : List Bool) :
    flips.foldl (fun d x => bernoulli_beta (if x then 1 else 0 : ℝ) d) prior =
      flips'.foldl (fun d x => bernoulli_beta (if x then 1 else 0 : ℝ) d) prior ↔
    ProportionalOn (Ioo 0 1) (likelihood (fun p (x : Bool) => if x then p else 1 - p) flips)
      (likelihood (fun p (x : Bool) => if x then p else 1 - p) flips') :=
  beta_likelihood hp (bernoulli_beta_valid_list hp flips) (bernoulli_beta_valid_list hp flips')
    (C02_bernoulli_beta_posterior prior hp.1 hp.2 flips) (C02_bernoulli_beta_posterior prior hp.1 hp.2 flips')

/-- C98, `negative_binomial_beta`; the numbers of successes waited for may differ. -/
theorem C98_negative_binomial_beta (prior : Beta ℝ) (hp : prior.Valid) (r r' : ℝ) (hr : 0 < r) (hr' : 0 < r')
    (xs ys : List ℕ) :
    negative_binomial_beta r (xs.length : ℝ) ((xs.sum : ℕ) : ℝ) prior =
      negative_binomial_beta r' (ys.length : ℝ) ((ys.sum : ℕ) : ℝ) prior ↔
    ProportionalOn (Ioo 0 1)
      (likelihood (fun p (x : ℕ) => (NegativeBinomial.dist { n := r, p := p }).pmf x) xs)
      (likelihood (fun p (x : ℕ) => (NegativeBinomial.dist { n := r', p := p }).pmf x) ys) :=
  beta_likelihood hp (C41_negative_binomial_beta r hr xs prior hp) (C41_negative_binomial_beta r' hr' ys prior hp)
    (C03_negative_binomial_beta_posterior prior hp.1 hp.2 r hr xs)
    (C03_negative_binomial_beta_posterior prior hp.1 hp.2 r' hr' ys)

/-- C98, `geometric_beta`; the two data sets may even count differently. -/
theorem C98_geometric_beta (prior : Beta ℝ) (hp : prior.Valid) (s s' : Bool) (xs ys : List ℕ)
    (hx : ∀ x ∈ xs, s = true → 1 ≤ x) (hy : ∀ x ∈ ys, s' = true → 1 ≤ x) :
    geometric_beta ((xs.sum : ℕ) : ℝ) (xs.length : ℝ) prior s =
      geometric_beta ((ys.sum : ℕ) : ℝ) (ys.length : ℝ) prior s' ↔
    ProportionalOn (Ioo 0 1)
      (likelihood (fun p (x : ℕ) => (Geometric.dist { p := p, one_start := s }).pmf x) xs)
      (likelihood (fun p (x : ℕ) => (Geometric.dist { p := p, one_start := s' }).pmf x) ys) :=
  beta_likelihood hp (C41_geometric_beta s xs (fun h x hm => hx x hm h) prior hp)
    (C41_geometric_beta s' ys (fun h x hm => hy x hm h) prior hp)
    (C04_geometric_beta_posterior prior hp.1 hp.2 s xs hx) (C04_geometric_beta_posterior prior hp.1 hp.2 s' ys hy)

/-- C98 across models: an experiment with a fixed number of trials and one that waits for a fixed number of
successes give the same posterior exactly when their likelihoods are proportional. -/
theorem C98_binomial_negative_binomial (prior : Beta ℝ) (hp : prior.Valid) (n x : ℕ) (hx : x ≤ n) (r : ℝ)
    (hr : 0 < r) (ys : List ℕ) :
    binomial_beta (n : ℝ) (x : ℝ) prior = negative_binomial_beta r (ys.length : ℝ) ((ys.sum : ℕ) : ℝ) prior ↔
    ProportionalOn (Ioo 0 1) (fun p => (Binomial.dist { n := n, p := p }).pmf x)
      (likelihood (fun p (y : ℕ) => (NegativeBinomial.dist { n := r, p := p }).pmf y) ys) :=
  beta_likelihood hp (C41_binomial_beta n x hx prior hp) (C41_negative_binomial_beta r hr ys prior hp)
    (C01_binomial_beta_posterior prior hp.1 hp.2 n x hx)
    (C03_negative_binomial_beta_posterior prior hp.1 hp.2 r hr ys)

/-- C98, stopping rules do not matter: `x` successes and `y` failures give the same posterior whether the number of
trials was fixed beforehand (`binomial_beta`) or one waited for the `x`-th success (`negative_binomial_beta`), and the
two likelihoods are proportional. -/
theorem C98_stopping_rule (prior : Beta ℝ) (hp : prior.Valid) (x y : ℕ) (hx : 0 < x) :
    binomial_beta ((x + y : ℕ) : ℝ) (x : ℝ) prior = negative_binomial_beta (x : ℝ) 1 (y : ℝ) prior ∧
    ProportionalOn (Ioo 0 1) (fun p => (Binomial.dist { n := ((x + y : ℕ) : ℝ), p := p }).pmf x)
      (fun p => (NegativeBinomial.dist { n := (x : ℝ), p := p }).pmf y) := by
  have e : binomial_beta ((x + y : ℕ) : ℝ) (x : ℝ) prior = negative_binomial_beta (x : ℝ) 1 (y : ℝ) prior := by
    simp only [binomial_beta, getBinomialBetaPosteriorParams, negative_binomial_beta, Beta.mk.injEq]
    push_cast
    constructor <;> ring
  refine ⟨e, ?_⟩
  have := (C98_binomial_negative_binomial prior hp (x + y) x (by omega) x (by exact_mod_cast hx) [y]).1
    (by rw [e]; simp)
  have e2 : likelihood (fun p (y : ℕ) => (NegativeBinomial.dist { n := (x : ℝ), p := p }).pmf y) [y] =
      fun p => (NegativeBinomial.dist { n := (x : ℝ), p := p }).pmf y := by
    funext p
    simp [likelihood]
  rwa [e2] at this

/-! ## Gamma priors -/

/-- Gamma posteriors obtained by Bayes' rule from the same prior. -/
theorem gamma_likelihood {prior post post' : Gamma ℝ} (hp : prior.Valid) (hv : post.Valid) (hv' : post'.Valid)
    {lik lik' : ℝ → ℝ} (h : IsPosterior volume (Ioi 0) prior.dist.pdf lik post.dist.pdf)
    (h' : IsPosterior volume (Ioi 0) prior.dist.pdf lik' post'.dist.pdf) :
    post = post' ↔ ProportionalOn (Ioi 0) lik lik' := by
  rw [← posterior_eq_iff' measurableSet_Ioi (fun θ hθ => prior.pdf_pos hp hθ) h h']
  exact ⟨fun e θ _ => by rw [e], C97_gamma post post' hv hv'⟩

/-- C98, `poisson_gamma`. -/
theorem C98_poisson_gamma (prior : Gamma ℝ) (hp : prior.Valid) (xs ys : List ℕ) :
    poisson_gamma ((xs.sum : ℕ) : ℝ) (xs.length : ℝ) prior = poisson_gamma ((ys.sum : ℕ) : ℝ) (ys.length : ℝ) prior ↔
    ProportionalOn (Ioi 0) (likelihood (fun l (x : ℕ) => (Poisson.dist { lam := l }).pmf x) xs)
      (likelihood (fun l (x : ℕ) => (Poisson.dist { lam := l }).pmf x) ys) := by
  have hv : ∀ xs : List ℕ, (poisson_gamma ((xs.sum : ℕ) : ℝ) (xs.length : ℝ) prior).Valid := fun xs => by
    obtain ⟨h1, h2⟩ := hp
    constructor <;> simp only [poisson_gamma, getPoissonGammaPosteriorParams] <;> positivity
  exact gamma_likelihood hp (hv xs) (hv ys) (C05_poisson_gamma_posterior prior hp.1 hp.2 xs)
    (C05_poisson_gamma_posterior prior hp.1 hp.2 ys)

/-- C98, `exponential_gamma`, called as documented.  Although the posterior is not Bayes' rule (C06), two data sets
give the same one exactly when their likelihoods (as functions of the rate) are proportional. -/
theorem C98_exponential_gamma (prior : Gamma ℝ) (hp : prior.Valid) (xs ys : List ℝ) (hx : ∀ x ∈ xs, 0 < x)
    (hy : ∀ x ∈ ys, 0 < x) :
    exponential_gamma xs.sum (xs.length : ℝ) prior = exponential_gamma ys.sum (ys.length : ℝ) prior ↔
    ProportionalOn (Ioi 0) (likelihood (fun r x => (Exponential.dist { lam := 1 / r }).pdf x) xs)
      (likelihood (fun r x => (Exponential.dist { lam := 1 / r }).pdf x) ys) := by
  have hv : ∀ xs : List ℝ, (∀ x ∈ xs, 0 < x) → (exponential_gamma (xs.length : ℝ) xs.sum prior).Valid := fun xs hx => by
    obtain ⟨h1, h2⟩ := hp
    have : 0 ≤ xs.sum := List.sum_nonneg fun x h => (hx x h).le
    constructor <;> simp only [exponential_gamma, getExponentialGammaPosteriorParams, getPoissonGammaPosteriorParams] <;> positivity
  rw [← gamma_likelihood hp (hv xs hx) (hv ys hy) (C06_exponential_gamma_swapped_partial prior hp.1 hp.2 xs hx)
    (C06_exponential_gamma_swapped_partial prior hp.1 hp.2 ys hy)]
  simp only [exponential_gamma, getExponentialGammaPosteriorParams, getPoissonGammaPosteriorParams, Gamma.mk.injEq,
    add_right_inj]
  exact and_comm

/-- C98, `gamma_known_shape`; the known shapes may differ. -/
theorem C98_gamma_known_shape (prior : Gamma ℝ) (hp : prior.Valid) (k k' : ℝ) (hk : 0 < k) (hk' : 0 < k')
    (xs ys : List ℝ) (hx : ∀ x ∈ xs, 0 < x) (hy : ∀ x ∈ ys, 0 < x) :
    gamma_known_shape xs.sum (xs.length : ℝ) k prior = gamma_known_shape ys.sum (ys.length : ℝ) k' prior ↔
    ProportionalOn (Ioi 0) (likelihood (fun r x => (Gamma.dist { alpha := k, beta := r }).pdf x) xs)
      (likelihood (fun r x => (Gamma.dist { alpha := k', beta := r }).pdf x) ys) :=
  gamma_likelihood hp (C41_gamma_posteriors k hk xs (fun x h => (hx x h).le) prior hp).2.2.1
    (C41_gamma_posteriors k' hk' ys (fun x h => (hy x h).le) prior hp).2.2.1
    (C07_gamma_known_shape_posterior prior hp.1 hp.2 k hk xs hx)
    (C07_gamma_known_shape_posterior prior hp.1 hp.2 k' hk' ys hy)

/-- C98, `inverse_gamma_known_rate`; the known shapes may differ. -/
theorem C98_inverse_gamma_known_rate (prior : Gamma ℝ) (hp : prior.Valid) (k k' : ℝ) (hk : 0 < k) (hk' : 0 < k')
    (xs ys : List ℝ) (hx : ∀ x ∈ xs, 0 < x) (hy : ∀ x ∈ ys, 0 < x) :
    inverse_gamma_known_rate (xs.map fun x => 1 / x).sum (xs.length : ℝ) k prior =
      inverse_gamma_known_rate (ys.map fun x => 1 / x).sum (ys.length : ℝ) k' prior ↔
    ProportionalOn (Ioi 0) (likelihood (fun s x => (InverseGamma.dist { alpha := k, beta := s }).pdf x) xs)
      (likelihood (fun s x => (InverseGamma.dist { alpha := k', beta := s }).pdf x) ys) :=
  gamma_likelihood hp (C41_gamma_posteriors k hk xs (fun x h => (hx x h).le) prior hp).2.2.2
    (C41_gamma_posteriors k' hk' ys (fun x h => (hy x h).le) prior hp).2.2.2
    (C08_inverse_gamma_known_rate_posterior prior hp.1 hp.2 k hk xs hx)
    (C08_inverse_gamma_known_rate_posterior prior hp.1 hp.2 k' hk' ys hy)

/-- C98, `pareto_gamma`; the known minima may differ. -/
theorem C98_pareto_gamma (prior : Gamma ℝ) (hp : prior.Valid) (m m' : ℝ) (hm : 0 < m) (hm' : 0 < m')
    (xs ys : List ℝ) (hx : ∀ x ∈ xs, m ≤ x) (hy : ∀ x ∈ ys, m' ≤ x) :
    pareto_gamma (xs.length : ℝ) (xs.map Real.log).sum m prior Real.log =
      pareto_gamma (ys.length : ℝ) (ys.map Real.log).sum m' prior Real.log ↔
    ProportionalOn (Ioi 0) (likelihood (fun a x => (Pareto.dist { x_m := m, alpha := a }).pdf x) xs)
      (likelihood (fun a x => (Pareto.dist { x_m := m', alpha := a }).pdf x) ys) :=
  gamma_likelihood hp (C41_pareto_gamma m hm xs hx prior hp) (C41_pareto_gamma m' hm' ys hy prior hp)
    (C09_pareto_gamma_posterior prior hp.1 hp.2 m hm xs hx) (C09_pareto_gamma_posterior prior hp.1 hp.2 m' hm' ys hy)

/-! ## Uniform data, Pareto prior -/

/-- C98, `uniform_pareto`: the prior only allows upper ends from `x_m` on, so the likelihoods are compared there. -/
theorem C98_uniform_pareto (prior : Pareto ℝ) (hp : prior.Valid) (xs ys : List ℝ) (hx : ∀ x ∈ xs, 0 < x)
    (hy : ∀ x ∈ ys, 0 < x) (m m' : ℝ) (hm : m ∈ xs) (hmax : ∀ x ∈ xs, x ≤ m) (hm' : m' ∈ ys)
    (hmax' : ∀ x ∈ ys, x ≤ m') :
    uniform_pareto m (xs.length : ℝ) prior max = uniform_pareto m' (ys.length : ℝ) prior max ↔
    ProportionalOn (Ici prior.x_m) (likelihood (fun θ x => (Uniform.dist { low := 0, high := θ }).pdf x) xs)
      (likelihood (fun θ x => (Uniform.dist { low := 0, high := θ }).pdf x) ys) := by
  rw [← posterior_eq_iff (μ := volume) (T := Ici prior.x_m) measurableSet_Ioi (fun θ hθ => mem_Ioi.2 (hp.1.trans_le hθ)) (fun θ hθ => ?_)
    (fun θ _ hθ => ?_) (C10_uniform_pareto_posterior prior hp.1 hp.2 xs hx m hm hmax)
    (C10_uniform_pareto_posterior prior hp.1 hp.2 ys hy m' hm' hmax')]
  · exact ⟨fun e θ _ => by rw [e], C97_pareto _ _ (C41_uniform_pareto m xs.length prior hp)
      (C41_uniform_pareto m' ys.length prior hp)⟩
  · exact lt_of_le_of_ne ((Pareto.isDensity prior hp.1 hp.2).1 θ (mem_Ioi.2 (hp.1.trans_le hθ)))
      ((Pareto.pdf_ne_zero prior hp θ).2 hθ).symm
  · by_contra hc
    exact hθ ((Pareto.pdf_ne_zero prior hp θ).1 hc)

/-! ## Inverse gamma priors -/

theorem inverse_gamma_likelihood {prior post post' : InverseGamma ℝ} (hp : prior.Valid) (hv : post.Valid)
    (hv' : post'.Valid) {lik lik' : ℝ → ℝ}
    (h : IsPosterior volume (Ioi 0) prior.dist.pdf lik post.dist.pdf)
    (h' : IsPosterior volume (Ioi 0) prior.dist.pdf lik' post'.dist.pdf) :
    post = post' ↔ ProportionalOn (Ioi 0) lik lik' := by
  rw [← posterior_eq_iff' measurableSet_Ioi (fun θ hθ => prior.pdf_pos hp hθ) h h']
  exact ⟨fun e θ _ => by rw [e], C97_inverse_gamma post post' hv hv'⟩

/-- C98, `weibull_inverse_gamma_known_shape`; the known shapes may differ. -/
theorem C98_weibull (prior : InverseGamma ℝ) (hp : prior.Valid) (k k' : ℝ) (hk : 0 < k) (hk' : 0 < k')
    (xs ys : List ℝ) (hx : ∀ x ∈ xs, 0 < x) (hy : ∀ x ∈ ys, 0 < x) :
    weibull_inverse_gamma_known_shape (xs.length : ℝ) (xs.map fun x => x ^ k).sum prior =
      weibull_inverse_gamma_known_shape (ys.length : ℝ) (ys.map fun x => x ^ k').sum prior ↔
    ProportionalOn (Ioi 0) (likelihood (fun θ x => (Weibull.dist { beta := k, theta := θ }).pdf x) xs)
      (likelihood (fun θ x => (Weibull.dist { beta := k', theta := θ }).pdf x) ys) :=
  inverse_gamma_likelihood hp (C41_weibull k xs hx prior hp) (C41_weibull k' ys hy prior hp)
    (C11_weibull_posterior prior hp.1 hp.2 k hk xs hx) (C11_weibull_posterior prior hp.1 hp.2 k' hk' ys hy)

/-- C98, `normal_known_mean`, either prior class; the known means may differ. -/
theorem C98_normal_known_mean (prior : VariancePrior ℝ) (hp : prior.Valid) (mu mu' : ℝ) (xs ys : List ℝ) :
    normal_known_mean xs.sum (xs.map (· ^ 2)).sum (xs.length : ℝ) mu prior =
      normal_known_mean ys.sum (ys.map (· ^ 2)).sum (ys.length : ℝ) mu' prior ↔
    ProportionalOn (Ioi 0) (likelihood (fun v x => (Normal.dist { mu := mu, sigma := √v }).pdf x) xs)
      (likelihood (fun v x => (Normal.dist { mu := mu', sigma := √v }).pdf x) ys) := by
  have hpos : ∀ v ∈ Ioi (0 : ℝ), 0 < prior.pdf v := by
    intro v hv
    cases prior with
    | inverseGamma d => exact InverseGamma.pdf_pos d hp hv
    | scaledInverseChiSquared d =>
      have h1 := hp.1; have h2 := hp.2
      simp only [VariancePrior.pdf, ScaledInverseChiSquared.dist_eq]
      exact InverseGamma.pdf_pos _ ⟨by simp [ScaledInverseChiSquared.to_inverse_gamma]; positivity,
        by simp [ScaledInverseChiSquared.to_inverse_gamma]; positivity⟩ hv
  rw [← posterior_eq_iff' measurableSet_Ioi hpos (C13_normal_known_mean_posterior prior hp mu xs)
    (C13_normal_known_mean_posterior prior hp mu' ys)]
  refine ⟨fun e θ _ => by rw [e], fun e => ?_⟩
  have v1 := C41_normal_known_mean mu xs prior hp
  have v2 := C41_normal_known_mean mu' ys prior hp
  cases prior with
  | inverseGamma d => exact congrArg _ (C97_inverse_gamma _ _ v1 v2 e)
  | scaledInverseChiSquared d => exact congrArg _ (C97_scaled_inverse_chi_squared _ _ v1.1 v1.2 v2.1 v2.2 e)

/-! ## Normal priors -/

theorem normal_known_variance_sigma_pos (prior : Normal ℝ) (hs : 0 < prior.sigma) (var : ℝ) (hv : 0 < var) (x : ℝ)
    (n : ℕ) : 0 < (normal_known_variance x (n : ℝ) var prior).sigma := by
  simp only [normal_known_variance, powq_two, powq_half, lit_real, Rat.cast_one]
  exact Real.sqrt_pos.2 (by positivity)

theorem Normal.pdf_pos (d : Normal ℝ) (hs : 0 < d.sigma) (x : ℝ) : 0 < d.dist.pdf x := by
  rw [Normal.pdf_eq d hs]
  positivity

/-- C98, `normal_known_variance`; the known variances may differ. -/
theorem C98_normal_known_variance (prior : Normal ℝ) (hs : 0 < prior.sigma) (var var' : ℝ) (hv : 0 < var)
    (hv' : 0 < var') (xs ys : List ℝ) :
    normal_known_variance xs.sum (xs.length : ℝ) var prior = normal_known_variance ys.sum (ys.length : ℝ) var' prior ↔
    ProportionalOn univ (likelihood (fun m x => (Normal.dist { mu := m, sigma := √var }).pdf x) xs)
      (likelihood (fun m x => (Normal.dist { mu := m, sigma := √var' }).pdf x) ys) := by
  rw [← posterior_eq_iff' MeasurableSet.univ (fun θ _ => prior.pdf_pos hs θ)
    (C12_normal_known_variance_posterior prior hs var hv xs) (C12_normal_known_variance_posterior prior hs var' hv' ys)]
  exact ⟨fun e θ _ => by rw [e], fun e => C97_normal _ _ (normal_known_variance_sigma_pos prior hs var hv _ _)
    (normal_known_variance_sigma_pos prior hs var' hv' _ _) fun x => e x (mem_univ x)⟩

/-- C98, `normal_known_precision`; the known precisions may differ. -/
theorem C98_normal_known_precision (prior : Normal ℝ) (hs : 0 < prior.sigma) (p p' : ℝ) (hp : 0 < p)
    (hp' : 0 < p') (xs ys : List ℝ) :
    normal_known_precision xs.sum (xs.length : ℝ) p prior = normal_known_precision ys.sum (ys.length : ℝ) p' prior ↔
    ProportionalOn univ (likelihood (fun m x => (Normal.dist { mu := m, sigma := √(1 / p) }).pdf x) xs)
      (likelihood (fun m x => (Normal.dist { mu := m, sigma := √(1 / p') }).pdf x) ys) := by
  have := C98_normal_known_variance prior hs (1 / p) (1 / p') (by positivity) (by positivity) xs ys
  simpa only [normal_known_precision, lit_real, Rat.cast_one] using this

/-! ## Mean and variance unknown -/

theorem normal_nig_delta {M : Type*} {x x2 n nu : ℝ} {prior post : NormalInverseGamma ℝ ℝ M} (hn : prior.nu = some nu)
    (h : normal x x2 n (.nig prior) = .ok (.nig post)) : post.delta_inverse = none := by
  simp only [normal, hn, NormalInverseGamma.new, Except.map] at h
  simp at h
  rw [← h]

theorem nig_jointPdf_pos {M : Type*} (d : NormalInverseGamma ℝ ℝ M) {nu : ℝ} (hnu : 0 < nu) (ha : 0 < d.alpha)
    (hb : 0 < d.beta) (m : ℝ) {v : ℝ} (hv : 0 < v) : 0 < d.jointPdf nu m v := by
  refine mul_pos (InverseGamma.pdf_pos ⟨d.alpha, d.beta⟩ ⟨ha, hb⟩ hv) (Normal.pdf_pos ⟨d.mu, _⟩ ?_ m)
  simp only [powq_real]
  exact Real.rpow_pos_of_pos (by positivity) _

theorem ng_jointPdf_pos (d : NormalGamma ℝ) (hl : 0 < d.lam) (ha : 0 < d.alpha)
    (hb : 0 < d.beta) (m : ℝ) {t : ℝ} (ht : 0 < t) : 0 < d.jointPdf m t := by
  refine mul_pos (Gamma.pdf_pos ⟨d.alpha, d.beta⟩ ⟨ha, hb⟩ ht) (Normal.pdf_pos ⟨d.mu, _⟩ ?_ m)
  simp only [powq_real]
  exact Real.rpow_pos_of_pos (by positivity) _

/-- C98, `normal` with a `NormalInverseGamma` prior: likelihood as a function of mean and variance. -/
theorem C98_normal_nig {M : Type*} (prior : NormalInverseGamma ℝ ℝ M) (nu : ℝ) (hn : prior.nu = some nu)
    (hnu : 0 < nu) (ha : 0 < prior.alpha) (hb : 0 < prior.beta) (xs ys : List ℝ) (hx : xs ≠ []) (hy : ys ≠ []) :
    normal xs.sum (xs.map (· ^ 2)).sum (xs.length : ℝ) (.nig prior) =
      normal ys.sum (ys.map (· ^ 2)).sum (ys.length : ℝ) (.nig prior) ↔
    ProportionalOn (univ ×ˢ Ioi 0)
      (likelihood (fun (θ : ℝ × ℝ) x => (Normal.dist { mu := θ.1, sigma := √θ.2 }).pdf x) xs)
      (likelihood (fun (θ : ℝ × ℝ) x => (Normal.dist { mu := θ.1, sigma := √θ.2 }).pdf x) ys) := by
  obtain ⟨post, nu1, h1, h2, h3, h4, h5, h6⟩ := C14_normal_posterior_nig prior nu hn hnu ha hb xs hx
  obtain ⟨post', nu2, g1, g2, g3, g4, g5, g6⟩ := C14_normal_posterior_nig prior nu hn hnu ha hb ys hy
  rw [← posterior_eq_iff' (MeasurableSet.univ.prod measurableSet_Ioi)
    (fun θ hθ => nig_jointPdf_pos prior hnu ha hb θ.1 hθ.2) h6 g6]
  have d1 := normal_nig_delta hn h2
  have d2 := normal_nig_delta hn g2
  rw [h2, g2, Except.ok.injEq, NormalPrior.nig.injEq]
  constructor
  · rintro rfl θ _
    rw [h1, Option.some.injEq] at g1
    rw [g1]
  · intro e
    obtain ⟨e1, e2, e3, e4⟩ := C97_normal_inverse_gamma post post' nu1 nu2 h3 h4 h5 g3 g4 g5
      fun m v hv => e (m, v) ⟨mem_univ _, hv⟩
    ext1
    · exact e1
    · exact e3
    · exact e4
    · rw [d1, d2]
    · rw [h1, g1, e2]

/-- C98, `normal` with a `NormalGamma` prior: likelihood as a function of mean and precision. -/
theorem C98_normal_ng {M : Type*} (prior : NormalGamma ℝ) (hl : 0 < prior.lam)
    (ha : 0 < prior.alpha) (hb : 0 < prior.beta) (xs ys : List ℝ) (hx : xs ≠ []) (hy : ys ≠ []) :
    normal xs.sum (xs.map (· ^ 2)).sum (xs.length : ℝ) (.ng prior : NormalPrior ℝ M) =
      normal ys.sum (ys.map (· ^ 2)).sum (ys.length : ℝ) (.ng prior) ↔
    ProportionalOn (univ ×ˢ Ioi 0)
      (likelihood (fun (θ : ℝ × ℝ) x => (Normal.dist { mu := θ.1, sigma := √(1 / θ.2) }).pdf x) xs)
      (likelihood (fun (θ : ℝ × ℝ) x => (Normal.dist { mu := θ.1, sigma := √(1 / θ.2) }).pdf x) ys) := by
  obtain ⟨post, h2, h3, h4, h5, h6⟩ := C14_normal_posterior_ng (M := M) prior hl ha hb xs hx
  obtain ⟨post', g2, g3, g4, g5, g6⟩ := C14_normal_posterior_ng (M := M) prior hl ha hb ys hy
  rw [← posterior_eq_iff' (MeasurableSet.univ.prod measurableSet_Ioi)
    (fun θ hθ => ng_jointPdf_pos prior hl ha hb θ.1 hθ.2) h6 g6, h2, g2, Except.ok.injEq, NormalPrior.ng.injEq]
  exact ⟨fun e θ _ => by rw [e], fun e => C97_normal_gamma post post' h3 h4 h5 g3 g4 g5
    fun m v hv => e (m, v) ⟨mem_univ _, hv⟩⟩

/-- C98, `log_normal` with a `NormalInverseGamma` prior. -/
theorem C98_log_normal_nig {M : Type*} (prior : NormalInverseGamma ℝ ℝ M) (nu : ℝ) (hn : prior.nu = some nu)
    (hnu : 0 < nu) (ha : 0 < prior.alpha) (hb : 0 < prior.beta) (xs ys : List ℝ) (hx : xs ≠ []) (hy : ys ≠ [])
    (hxp : ∀ x ∈ xs, 0 < x) (hyp : ∀ x ∈ ys, 0 < x) :
    log_normal (xs.map Real.log).sum (xs.map fun x => Real.log x ^ 2).sum (xs.length : ℝ) (.nig prior) =
      log_normal (ys.map Real.log).sum (ys.map fun x => Real.log x ^ 2).sum (ys.length : ℝ) (.nig prior) ↔
    ProportionalOn (univ ×ˢ Ioi 0) (likelihood (fun (θ : ℝ × ℝ) x => Spec.logNormalPdf θ.1 θ.2 x) xs)
      (likelihood (fun (θ : ℝ × ℝ) x => Spec.logNormalPdf θ.1 θ.2 x) ys) := by
  have key : ∀ xs : List ℝ, xs ≠ [] → (∀ x ∈ xs, 0 < x) → ∃ (post : NormalInverseGamma ℝ ℝ M) (nu' : ℝ),
      post.nu = some nu' ∧ 0 < nu' ∧ 0 < post.alpha ∧ 0 < post.beta ∧ post.delta_inverse = none ∧
      log_normal (xs.map Real.log).sum (xs.map fun x => Real.log x ^ 2).sum (xs.length : ℝ) (.nig prior) =
        .ok (.nig post) ∧
      IsPosterior volume (univ ×ˢ Ioi 0) (fun θ : ℝ × ℝ => prior.jointPdf nu θ.1 θ.2)
        (likelihood (fun (θ : ℝ × ℝ) x => Spec.logNormalPdf θ.1 θ.2 x) xs)
        (fun θ : ℝ × ℝ => post.jointPdf nu' θ.1 θ.2) := by
    intro xs hx hp
    obtain ⟨post, nu1, h1, h2, h3, h4, h5, -⟩ := C14_normal_posterior_nig prior nu hn hnu ha hb (xs.map Real.log)
      (by simpa using hx)
    obtain ⟨post', nu2, g1, g2, g3⟩ := C15_log_normal_posterior_nig prior nu hn hnu ha hb xs hx hp
    have e : log_normal (xs.map Real.log).sum (xs.map fun x => Real.log x ^ 2).sum (xs.length : ℝ) (.nig prior) =
        .ok (.nig post) := by
      rw [log_normal, ← h2, List.map_map, List.length_map]; rfl
    have e' := e.symm.trans g2
    rw [Except.ok.injEq, NormalPrior.nig.injEq] at e'
    subst e'
    rw [h1, Option.some.injEq] at g1
    subst g1
    exact ⟨post, nu1, h1, h3, h4, h5, normal_nig_delta hn h2, e, g3⟩
  obtain ⟨post, nu1, h1, h3, h4, h5, d1, h2, h6⟩ := key xs hx hxp
  obtain ⟨post', nu2, g1, g3, g4, g5, d2, g2, g6⟩ := key ys hy hyp
  rw [← posterior_eq_iff' (MeasurableSet.univ.prod measurableSet_Ioi)
    (fun θ hθ => nig_jointPdf_pos prior hnu ha hb θ.1 hθ.2) h6 g6]
  rw [h2, g2, Except.ok.injEq, NormalPrior.nig.injEq]
  constructor
  · rintro rfl θ _
    rw [h1, Option.some.injEq] at g1
    rw [g1]
  · intro e
    obtain ⟨e1, e2, e3, e4⟩ := C97_normal_inverse_gamma post post' nu1 nu2 h3 h4 h5 g3 g4 g5
      fun m v hv => e (m, v) ⟨mem_univ _, hv⟩
    ext1
    · exact e1
    · exact e3
    · exact e4
    · rw [d1, d2]
    · rw [h1, g1, e2]

/-- C98, `log_normal` with a `NormalGamma` prior. -/
theorem C98_log_normal_ng {M : Type*} (prior : NormalGamma ℝ) (hl : 0 < prior.lam) (ha : 0 < prior.alpha)
    (hb : 0 < prior.beta) (xs ys : List ℝ) (hx : xs ≠ []) (hy : ys ≠ [])
    (hxp : ∀ x ∈ xs, 0 < x) (hyp : ∀ x ∈ ys, 0 < x) :
    log_normal (xs.map Real.log).sum (xs.map fun x => Real.log x ^ 2).sum (xs.length : ℝ)
        (.ng prior : NormalPrior ℝ M) =
      log_normal (ys.map Real.log).sum (ys.map fun x => Real.log x ^ 2).sum (ys.length : ℝ) (.ng prior) ↔
    ProportionalOn (univ ×ˢ Ioi 0) (likelihood (fun (θ : ℝ × ℝ) x => Spec.logNormalPdf θ.1 (1 / θ.2) x) xs)
      (likelihood (fun (θ : ℝ × ℝ) x => Spec.logNormalPdf θ.1 (1 / θ.2) x) ys) := by
  have key : ∀ xs : List ℝ, xs ≠ [] → (∀ x ∈ xs, 0 < x) → ∃ post : NormalGamma ℝ,
      0 < post.lam ∧ 0 < post.alpha ∧ 0 < post.beta ∧
      log_normal (xs.map Real.log).sum (xs.map fun x => Real.log x ^ 2).sum (xs.length : ℝ)
        (.ng prior : NormalPrior ℝ M) = .ok (.ng post) ∧
      IsPosterior volume (univ ×ˢ Ioi 0) (fun θ : ℝ × ℝ => prior.jointPdf θ.1 θ.2)
        (likelihood (fun (θ : ℝ × ℝ) x => Spec.logNormalPdf θ.1 (1 / θ.2) x) xs)
        (fun θ : ℝ × ℝ => post.jointPdf θ.1 θ.2) := by
    intro xs hx hp
    obtain ⟨post, h2, h3, h4, h5, -⟩ := C14_normal_posterior_ng (M := M) prior hl ha hb (xs.map Real.log)
      (by simpa using hx)
    obtain ⟨post', g2, g3⟩ := C15_log_normal_posterior_ng (M := M) prior hl ha hb xs hx hp
    have e : log_normal (xs.map Real.log).sum (xs.map fun x => Real.log x ^ 2).sum (xs.length : ℝ)
        (.ng prior : NormalPrior ℝ M) = .ok (.ng post) := by
      rw [log_normal, ← h2, List.map_map, List.length_map]; rfl
    have e' := e.symm.trans g2
    rw [Except.ok.injEq, NormalPrior.ng.injEq] at e'
    subst e'
    exact ⟨post, h3, h4, h5, e, g3⟩
  obtain ⟨post, h3, h4, h5, h2, h6⟩ := key xs hx hxp
  obtain ⟨post', g3, g4, g5, g2, g6⟩ := key ys hy hyp
  rw [← posterior_eq_iff' (MeasurableSet.univ.prod measurableSet_Ioi)
    (fun θ hθ => ng_jointPdf_pos prior hl ha hb θ.1 hθ.2) h6 g6, h2, g2, Except.ok.injEq, NormalPrior.ng.injEq]
  exact ⟨fun e θ _ => by rw [e], fun e => C97_normal_gamma post post' h3 h4 h5 g3 g4 g5
    fun m v hv => e (m, v) ⟨mem_univ _, hv⟩⟩

/-! ## Categories -/

variable {k : ℕ}

theorem dirichlet_pdf_pos (d : Dirichlet (Fin (k + 1) → ℝ)) (hd : ∀ i, 0 < d.alpha i) {p : Fin k → ℝ}
    (hp : p ∈ simplex k) : 0 < d.pdf (fullVector p) := by
  have hq : ∀ i, 0 < fullVector p i := fun i => by
    refine Fin.lastCases ?_ (fun j => ?_) i
    · simpa [fullVector] using hp.2
    · simpa [fullVector] using hp.1 j
  have h1 : 0 < ∑ i, d.alpha i := Finset.sum_pos (fun i _ => hd i) ⟨0, Finset.mem_univ _⟩
  rw [Dirichlet.pdf, dirichletPdf]
  exact mul_pos (div_pos (Real.Gamma_pos_of_pos h1) (Finset.prod_pos fun i _ => Real.Gamma_pos_of_pos (hd i)))
    (Finset.prod_pos fun i _ => Real.rpow_pos_of_pos (hq i) _)

theorem dirichlet_likelihood {prior post post' : Dirichlet (Fin (k + 2) → ℝ)} (hp : ∀ i, 0 < prior.alpha i)
    (hv : ∀ i, 0 < post.alpha i) (hv' : ∀ i, 0 < post'.alpha i) {lik lik' : (Fin (k + 1) → ℝ) → ℝ}
    (h : IsPosterior volume (simplex (k + 1)) (fun p => prior.pdf (fullVector p)) lik
      (fun p => post.pdf (fullVector p)))
    (h' : IsPosterior volume (simplex (k + 1)) (fun p => prior.pdf (fullVector p)) lik'
      (fun p => post'.pdf (fullVector p))) :
    post = post' ↔ ProportionalOn (simplex (k + 1)) lik lik' := by
  rw [← posterior_eq_iff' (measurableSet_simplex (k + 1)) (fun θ hθ => dirichlet_pdf_pos prior hp hθ) h h']
  refine ⟨fun e θ _ => by rw [e], fun e => C97_dirichlet post post' hv hv' fun q hq hs => ?_⟩
  have hf : fullVector (fun i : Fin (k + 1) => q i.castSucc) = q := by
    funext i
    refine Fin.lastCases ?_ (fun j => ?_) i
    · rw [Fin.sum_univ_castSucc] at hs
      simp only [fullVector, Fin.snoc_last]
      linarith
    · simp [fullVector]
  have hmem : (fun i : Fin (k + 1) => q i.castSucc) ∈ simplex (k + 1) := by
    refine ⟨fun i => hq _, ?_⟩
    rw [Fin.sum_univ_castSucc] at hs
    have := hq (Fin.last (k + 1))
    linarith
  have := e _ hmem
  rwa [hf] at this

/-- C98, `categorical_dirichlet`, at least two categories. -/
theorem C98_categorical_dirichlet (prior : Dirichlet (Fin (k + 2) → ℝ)) (hp : ∀ i, 0 < prior.alpha i)
    (xs ys : List (Fin (k + 2))) :
    categorical_dirichlet (counts xs) prior = categorical_dirichlet (counts ys) prior ↔
    ProportionalOn (simplex (k + 1)) (fun p => likelihood (fun q x => q x) xs (fullVector p))
      (fun p => likelihood (fun q x => q x) ys (fullVector p)) := by
  obtain ⟨post, h1, h2, h3⟩ := C16_categorical_dirichlet_posterior prior hp xs
  obtain ⟨post', g1, g2, g3⟩ := C16_categorical_dirichlet_posterior prior hp ys
  rw [h1, g1, Except.ok.injEq]
  exact dirichlet_likelihood hp h2 g2 h3 g3

/-- C98, `multinomial_dirichlet`, at least two categories. -/
theorem C98_multinomial_dirichlet (prior : Dirichlet (Fin (k + 2) → ℝ)) (hp : ∀ i, 0 < prior.alpha i)
    (data data' : List (Fin (k + 2) → ℕ)) :
    multinomial_dirichlet (columnSums data) prior = multinomial_dirichlet (columnSums data') prior ↔
    ProportionalOn (simplex (k + 1))
      (fun p => likelihood (fun q x => (Multinomial.mk (∑ i, (x i : ℝ)) q).pmf x) data (fullVector p))
      (fun p => likelihood (fun q x => (Multinomial.mk (∑ i, (x i : ℝ)) q).pmf x) data' (fullVector p)) := by
  obtain ⟨post, h1, h2, h3⟩ := C16_multinomial_dirichlet_posterior prior hp data
  obtain ⟨post', g1, g2, g3⟩ := C16_multinomial_dirichlet_posterior prior hp data'
  rw [h1, g1, Except.ok.injEq]
  exact dirichlet_likelihood hp h2 g2 h3 g3

/-! ## Vectors and matrices -/

open Matrix

section Mat

variable {m m' p : Type} [Fintype m] [Fintype m'] [Fintype p] [DecidableEq m] [DecidableEq m'] [DecidableEq p]

/-- C98, `linear_regression`: two designs with responses, of any numbers of rows. -/
theorem C98_linear_regression (X : Matrix m p ℝ) (y : m → ℝ) (X' : Matrix m' p ℝ) (y' : m' → ℝ)
    (prior : NormalInverseGamma ℝ (p → ℝ) (Matrix p p ℝ)) (D : Matrix p p ℝ) (hd : prior.delta_inverse = some D)
    (hD : D.PosDef) (ha : 0 < prior.alpha) (hb : 0 < prior.beta) :
    linear_regression X y prior = linear_regression X' y' prior ↔
    ProportionalOn ((univ : Set (p → ℝ)) ×ˢ Ioi (0 : ℝ))
      (fun θ => ∏ i, (Normal.dist { mu := (X *ᵥ θ.1) i, sigma := √θ.2 }).pdf (y i))
      (fun θ => ∏ i, (Normal.dist { mu := (X' *ᵥ θ.1) i, sigma := √θ.2 }).pdf (y' i)) := by
  obtain ⟨post, D1, h1, h2, h3, h4, h5, h6⟩ := C20_linear_regression_posterior X y prior D hd hD ha hb
  obtain ⟨post', D2, g1, g2, g3, g4, g5, g6⟩ := C20_linear_regression_posterior X' y' prior D hd hD ha hb
  rw [← posterior_eq_iff' (MeasurableSet.univ.prod measurableSet_Ioi) (fun θ hθ => ?_) h6 g6, h1, g1,
    Except.ok.injEq]
  · constructor
    · rintro rfl θ _
      rw [h2, Option.some.injEq] at g2
      rw [g2]
    · intro e
      obtain ⟨e1, e2, e3, e4⟩ := C97_normal_inverse_gamma_nd post post' D1 D2 h3 h4 h5 g3 g4 g5
        fun b v hv => e (b, v) ⟨mem_univ _, hv⟩
      have n1 := h1.symm.trans (linear_regression_eq X y prior hd hD)
      have n2 := g1.symm.trans (linear_regression_eq X' y' prior hd hD)
      rw [Except.ok.injEq] at n1 n2
      ext1
      · exact e1
      · exact e3
      · exact e4
      · rw [h2, g2, e2]
      · rw [n1, n2]
  · exact mul_pos (InverseGamma.pdf_pos ⟨prior.alpha, prior.beta⟩ ⟨ha, hb⟩ hθ.2) (mvnPdf_pos (posDef_smul hD hθ.2) _ _)

/-- C98, `multivariate_normal_known_covariance`; the known covariances may differ. -/
theorem C98_multivariate_normal_known_covariance (xs ys : List (p → ℝ)) (x_bar y_bar : p → ℝ)
    (hx : (xs.length : ℝ) • x_bar = xs.sum) (hy : (ys.length : ℝ) • y_bar = ys.sum) (cov cov' : Matrix p p ℝ)
    (hc : cov.PosDef) (hc' : cov'.PosDef) (prior : MultivariateNormal (p → ℝ) (Matrix p p ℝ))
    (hS : prior.cov.PosDef) :
    multivariate_normal_known_covariance (xs.length : ℝ) x_bar cov prior =
      multivariate_normal_known_covariance (ys.length : ℝ) y_bar cov' prior ↔
    ProportionalOn univ (likelihood (fun mean x => (MultivariateNormal.mk mean cov).pdf x) xs)
      (likelihood (fun mean x => (MultivariateNormal.mk mean cov').pdf x) ys) := by
  obtain ⟨post, h1, h2, h3⟩ := C21_multivariate_normal_known_covariance_posterior xs x_bar hx cov hc prior hS
  obtain ⟨post', g1, g2, g3⟩ := C21_multivariate_normal_known_covariance_posterior ys y_bar hy cov' hc' prior hS
  rw [← posterior_eq_iff' MeasurableSet.univ (fun θ _ => mvnPdf_pos hS _ _) h3 g3, h1, g1, Except.ok.injEq]
  exact ⟨fun e θ _ => by rw [e], fun e => C97_multivariate_normal _ _ h2 g2 fun x => e x (mem_univ x)⟩

/-- C98, `multivariate_normal_known_precision`; the known precisions may differ. -/
theorem C98_multivariate_normal_known_precision (xs ys : List (p → ℝ)) (x_bar y_bar : p → ℝ)
    (hx : (xs.length : ℝ) • x_bar = xs.sum) (hy : (ys.length : ℝ) • y_bar = ys.sum) (P P' : Matrix p p ℝ)
    (hc : P.PosDef) (hc' : P'.PosDef) (prior : MultivariateNormal (p → ℝ) (Matrix p p ℝ))
    (hS : prior.cov.PosDef) :
    multivariate_normal_known_precision (xs.length : ℝ) x_bar P prior =
      multivariate_normal_known_precision (ys.length : ℝ) y_bar P' prior ↔
    ProportionalOn univ (likelihood (fun mean x => (MultivariateNormal.mk mean P⁻¹).pdf x) xs)
      (likelihood (fun mean x => (MultivariateNormal.mk mean P'⁻¹).pdf x) ys) := by
  obtain ⟨post, h1, h2, h3⟩ := C21_multivariate_normal_known_precision_posterior xs x_bar hx P hc prior hS
  obtain ⟨post', g1, g2, g3⟩ := C21_multivariate_normal_known_precision_posterior ys y_bar hy P' hc' prior hS
  rw [← posterior_eq_iff' MeasurableSet.univ (fun θ _ => mvnPdf_pos hS _ _) h3 g3, h1, g1, Except.ok.injEq]
  exact ⟨fun e θ _ => by rw [e], fun e => C97_multivariate_normal _ _ h2 g2 fun x => e x (mem_univ x)⟩

variable {n : ℕ}

/-- C98, `multivariate_normal_known_mean`; the known means may differ. -/
theorem C98_multivariate_normal_known_mean (hn : 0 < n) (X : Matrix m (Fin n) ℝ) (X' : Matrix m' (Fin n) ℝ)
    (mu mu' : Fin n → ℝ) (prior : InverseWishart ℝ (Matrix (Fin n) (Fin n) ℝ)) (hnu : (n : ℝ) - 1 < prior.nu)
    (hpsi : prior.psi.PosDef) :
    multivariate_normal_known_mean X mu prior = multivariate_normal_known_mean X' mu' prior ↔
    ProportionalOn {c : UpperIdx n → ℝ | (symOf c).PosDef}
      (fun c => ∏ i, (MultivariateNormal.mk mu (symOf c)).pdf (X i))
      (fun c => ∏ i, (MultivariateNormal.mk mu' (symOf c)).pdf (X' i)) := by
  haveI : Nonempty (Fin n) := ⟨⟨0, hn⟩⟩
  have hnu' : (Fintype.card (Fin n) : ℝ) - 1 < prior.nu := by simpa using hnu
  rw [← posterior_eq_iff' measurableSet_posDef (fun c hc => invwishartPdf_pos hnu' hpsi hc)
    (C22_multivariate_normal_known_mean_posterior X mu prior hnu hpsi)
    (C22_multivariate_normal_known_mean_posterior X' mu' prior hnu hpsi)]
  refine ⟨fun e θ _ => by rw [e], fun e => C97_inverse_wishart _ _ ?_ (C22_multivariate_normal_known_mean_kernel X mu
    prior hnu' hpsi).1 ?_ (C22_multivariate_normal_known_mean_kernel X' mu' prior hnu' hpsi).1 fun S hS => ?_⟩
  · have : (0 : ℝ) ≤ Fintype.card m := Nat.cast_nonneg _
    simp only [multivariate_normal_known_mean]
    linarith
  · have : (0 : ℝ) ≤ Fintype.card m' := Nat.cast_nonneg _
    simp only [multivariate_normal_known_mean]
    linarith
  · have es := symOf_upperOf (posDef_symm hS)
    have := e (upperOf S) (by rw [mem_ofPred_eq, es]; exact hS)
    rwa [es] at this

/-- C98, `multivariate_normal`. -/
theorem C98_multivariate_normal [Nonempty m] [Nonempty m'] (hn : 0 < n) (X : Matrix m (Fin n) ℝ)
    (X' : Matrix m' (Fin n) ℝ) (prior : NormalInverseWishart ℝ (Fin n → ℝ) (Matrix (Fin n) (Fin n) ℝ))
    (hk : 0 < prior.kappa) (hnu : (n : ℝ) - 1 < prior.nu) (hpsi : prior.psi.PosDef) :
    multivariate_normal X prior = multivariate_normal X' prior ↔
    ProportionalOn {θ : (Fin n → ℝ) × (UpperIdx n → ℝ) | (symOf θ.2).PosDef}
      (fun θ => ∏ i, (MultivariateNormal.mk θ.1 (symOf θ.2)).pdf (X i))
      (fun θ => ∏ i, (MultivariateNormal.mk θ.1 (symOf θ.2)).pdf (X' i)) := by
  haveI : Nonempty (Fin n) := ⟨⟨0, hn⟩⟩
  have hnu' : (Fintype.card (Fin n) : ℝ) - 1 < prior.nu := by simpa using hnu
  obtain ⟨post, h1, h2, h3, h4, h5⟩ := C23_multivariate_normal_posterior X prior hk hnu hpsi
  obtain ⟨post', g1, g2, g3, g4, g5⟩ := C23_multivariate_normal_posterior X' prior hk hnu hpsi
  rw [← posterior_eq_iff' (S := {θ : (Fin n → ℝ) × (UpperIdx n → ℝ) | (symOf θ.2).PosDef})
    (measurableSet_posDef.preimage measurable_snd) (fun θ hθ => ?_) h5 g5, h1, g1,
    Except.ok.injEq]
  · refine ⟨fun e θ _ => by rw [e], fun e => C97_normal_inverse_wishart post post' h2 (by simpa using h3) h4 g2
      (by simpa using g3) g4 fun x S hS => ?_⟩
    have es := symOf_upperOf (posDef_symm hS)
    have := e (x, upperOf S) (by
      show (symOf (upperOf S)).PosDef
      rw [es]; exact hS)
    simpa only [es] using this
  · exact mul_pos (invwishartPdf_pos hnu' hpsi hθ) (mvnPdf_pos (posDef_smul hθ (by positivity)) _ _)

end Mat

/-! ## Concrete cases -/

/-- order and grouping do not matter: 7 of 10 in one go, or 3 of 4 and 4 of 6 -/
example : ProportionalOn (Ioo 0 1)
    (likelihood (fun p (e : ℕ × ℕ) => (Binomial.dist { n := e.1, p := p }).pmf e.2) [(10, 7)])
    (likelihood (fun p (e : ℕ × ℕ) => (Binomial.dist { n := e.1, p := p }).pmf e.2) [(4, 3), (6, 4)]) :=
  (C98_binomial_beta ⟨1, 1⟩ ⟨one_pos, one_pos⟩ _ _ (by simp) (by simp)).1 (by norm_num)

/-- the same total in a different number of counts is different information -/
example : ¬ ProportionalOn (Ioi 0) (likelihood (fun l (x : ℕ) => (Poisson.dist { lam := l }).pmf x) [2, 3])
    (likelihood (fun l (x : ℕ) => (Poisson.dist { lam := l }).pmf x) [5]) := by
  rw [← C98_poisson_gamma ⟨1, 1⟩ ⟨one_pos, one_pos⟩]
  norm_num [poisson_gamma, getPoissonGammaPosteriorParams]

example := C98_bernoulli_beta ⟨1, 1⟩ ⟨one_pos, one_pos⟩ [true, false, true] [false, true, true]
example := C98_negative_binomial_beta ⟨1, 1⟩ ⟨one_pos, one_pos⟩ 2 3 two_pos three_pos [1, 4] [0]
example := C98_geometric_beta ⟨1, 1⟩ ⟨one_pos, one_pos⟩ true false [1, 4] [0, 3] (by simp) (by simp)
example := C98_stopping_rule ⟨1, 1⟩ ⟨one_pos, one_pos⟩ 3 9 (by norm_num)
example := C98_exponential_gamma ⟨1, 1⟩ ⟨one_pos, one_pos⟩ [1, 2] [2, 1] (by simp) (by simp)
example := C98_gamma_known_shape ⟨1, 1⟩ ⟨one_pos, one_pos⟩ 2 1 two_pos one_pos [3] [1, 2] (by simp) (by simp)
example := C98_inverse_gamma_known_rate ⟨1, 1⟩ ⟨one_pos, one_pos⟩ 2 1 two_pos one_pos [3] [1, 2] (by simp) (by simp)
example := C98_pareto_gamma ⟨1, 1⟩ ⟨one_pos, one_pos⟩ 1 2 one_pos two_pos [3] [3, 2] (by simp) (by simp; norm_num)
example := C98_uniform_pareto ⟨5, 1⟩ ⟨by norm_num, one_pos⟩ [3, 1] [2, 4] (by simp) (by simp) 3 4 (by simp)
  (by simp) (by simp) (by simp; norm_num)
example := C98_weibull ⟨1, 1⟩ ⟨one_pos, one_pos⟩ 2 1 two_pos one_pos [3] [4, 5] (by simp) (by simp)
example := C98_normal_known_mean (.inverseGamma ⟨1, 1⟩) ⟨one_pos, one_pos⟩ 0 1 [3] [4]
example := C98_normal_known_variance ⟨0, 1⟩ one_pos 1 2 one_pos two_pos [3] [4, 2]
example := C98_normal_nig (M := Unit) ⟨0, 1, 1, none, some 1⟩ 1 rfl one_pos one_pos one_pos [3, 1] [4, 2] (by simp)
  (by simp)
example := C98_normal_ng (M := Unit) ⟨0, 1, 1, 1⟩ one_pos one_pos one_pos [3, 1] [4, 2] (by simp) (by simp)
example := C98_categorical_dirichlet (k := 1) ⟨fun _ => 1⟩ (fun _ => one_pos) [0, 2, 1] [1, 0, 2]
example := C98_multivariate_normal (n := 2) (by norm_num) (!![1, 2; 3, -1; 0, 5] : Matrix (Fin 3) (Fin 2) ℝ)
  (!![1, 2; 3, -1] : Matrix (Fin 2) (Fin 2) ℝ) ⟨![1, 1], 2, 4, 1⟩ (by norm_num) (by norm_num) PosDef.one

end Conj
