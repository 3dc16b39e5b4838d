import Verif.Lemmas.Stopping
import Verif.Props.CalibrationMarginal
import Verif.Props.CalibrationExponential
import Verif.Props.Thompson

/-!
# C115: looking at the posterior while the data arrive

`docs/index.md:91-130` follows the posterior of a success probability after each of 75 trials and draws the band from
`posterior.dist.ppf(0.025)` to `posterior.dist.ppf(0.975)`. A user who follows such a picture may stop when they
like. Whatever the rule by which they stop, what the posterior at that moment announces is honest.
-/

open MeasureTheory Set Real

namespace Conj

open Scipy Spec

variable {Ω : Type} [MeasurableSpace Ω] {P : Measure Ω} {k : ℕ} {M : Type}

/-! ## Beta priors -/

section Beta

variable (prior : Beta ℝ) (ha : 0 < prior.alpha) (hb : 0 < prior.beta)
include ha hb

/-- C115. Batches of `N` trials: the posterior after `n` batches is the call with `n * N` trials and the total
number of successes. -/
theorem C115_binomial_beta (N : ℕ) {θ : Ω → ℝ} {X : Ω → ℕ → ℤ}
    (h : DrawThenWatch P θ X (contLaw prior.dist) fun p => discLaw (Binomial.dist ⟨(N : ℝ), p⟩)) :
    HonestWhenStopped P θ X (fun n x => contLaw (binomial_beta ((n : ℝ) * N) (∑ i, (x i : ℝ)) prior).dist) ∧
    IntervalWhenStopped P θ X fun n x => contLaw (binomial_beta ((n : ℝ) * N) (∑ i, (x i : ℝ)) prior).dist :=
  Watched.both (fun _ => bayes_binomial prior ha hb N) h

/-- C115. Single trials, updated one at a time. -/
theorem C115_bernoulli_beta {θ : Ω → ℝ} {X : Ω → ℕ → Bool}
    (h : DrawThenWatch P θ X (contLaw prior.dist) fun p => pmfLaw fun b : Bool => if b then p else 1 - p) :
    HonestWhenStopped P θ X (fun _ x => contLaw ((List.ofFn x).foldl
      (fun d b => bernoulli_beta (if b then 1 else 0 : ℝ) d) prior).dist) ∧
    IntervalWhenStopped P θ X (fun _ x => contLaw ((List.ofFn x).foldl
      (fun d b => bernoulli_beta (if b then 1 else 0 : ℝ) d) prior).dist) :=
  Watched.both (fun _ => bayes_bernoulli prior ha hb) h

/-- C115. Failures before the `r`-th success. -/
theorem C115_negative_binomial_beta (r : ℝ) (hr : 0 < r) {θ : Ω → ℝ} {X : Ω → ℕ → ℤ}
    (h : DrawThenWatch P θ X (contLaw prior.dist) fun p => discLaw (NegativeBinomial.dist ⟨r, p⟩)) :
    HonestWhenStopped P θ X (fun n x => contLaw (negative_binomial_beta r (n : ℝ) (∑ i, (x i : ℝ)) prior).dist) ∧
    IntervalWhenStopped P θ X fun n x => contLaw (negative_binomial_beta r (n : ℝ) (∑ i, (x i : ℝ)) prior).dist :=
  Watched.both (fun _ => bayes_negative_binomial prior ha hb r hr) h

/-- C115. Trials until the first success, in both conventions. -/
theorem C115_geometric_beta (one_start : Bool) {θ : Ω → ℝ} {X : Ω → ℕ → ℤ}
    (h : DrawThenWatch P θ X (contLaw prior.dist) fun p => discLaw (Geometric.dist ⟨p, one_start⟩)) :
    HonestWhenStopped P θ X (fun n x => contLaw (geometric_beta (∑ i, (x i : ℝ)) (n : ℝ) prior one_start).dist) ∧
    IntervalWhenStopped P θ X fun n x => contLaw (geometric_beta (∑ i, (x i : ℝ)) (n : ℝ) prior one_start).dist :=
  Watched.both (fun _ => bayes_geometric prior ha hb one_start) h

end Beta

/-! ## Gamma priors -/

section Gamma

variable (prior : Gamma ℝ) (ha : 0 < prior.alpha) (hb : 0 < prior.beta)
include ha hb

/-- C115. Counts. -/
theorem C115_poisson_gamma {θ : Ω → ℝ} {X : Ω → ℕ → ℤ}
    (h : DrawThenWatch P θ X (contLaw prior.dist) fun l => discLaw (Poisson.dist ⟨l⟩)) :
    HonestWhenStopped P θ X (fun n x => contLaw (poisson_gamma (∑ i, (x i : ℝ)) (n : ℝ) prior).dist) ∧
    IntervalWhenStopped P θ X fun n x => contLaw (poisson_gamma (∑ i, (x i : ℝ)) (n : ℝ) prior).dist :=
  Watched.both (fun _ => bayes_poisson prior ha hb) h

/-- C115. Gamma observations with known shape. -/
theorem C115_gamma_known_shape (shape : ℝ) (hk : 0 < shape) {θ : Ω → ℝ} {X : Ω → ℕ → ℝ}
    (h : DrawThenWatch P θ X (contLaw prior.dist) fun r => contLaw (Gamma.dist ⟨shape, r⟩)) :
    HonestWhenStopped P θ X (fun n x => contLaw (gamma_known_shape (∑ i, x i) (n : ℝ) shape prior).dist) ∧
    IntervalWhenStopped P θ X fun n x => contLaw (gamma_known_shape (∑ i, x i) (n : ℝ) shape prior).dist :=
  Watched.both (fun _ => bayes_gamma_known_shape prior ha hb shape hk) h

/-- C115. Inverse Gamma observations. -/
theorem C115_inverse_gamma_known_rate (shape : ℝ) (hk : 0 < shape) {θ : Ω → ℝ} {X : Ω → ℕ → ℝ}
    (h : DrawThenWatch P θ X (contLaw prior.dist) fun s => contLaw (InverseGamma.dist ⟨shape, s⟩)) :
    HonestWhenStopped P θ X
      (fun n x => contLaw (inverse_gamma_known_rate (∑ i, 1 / x i) (n : ℝ) shape prior).dist) ∧
    IntervalWhenStopped P θ X
      fun n x => contLaw (inverse_gamma_known_rate (∑ i, 1 / x i) (n : ℝ) shape prior).dist :=
  Watched.both (fun _ => bayes_inverse_gamma prior ha hb shape hk) h

/-- C115. Pareto observations with known minimum. -/
theorem C115_pareto_gamma (x_m : ℝ) (hm : 0 < x_m) {θ : Ω → ℝ} {X : Ω → ℕ → ℝ}
    (h : DrawThenWatch P θ X (contLaw prior.dist) fun s => contLaw (Pareto.dist ⟨x_m, s⟩)) :
    HonestWhenStopped P θ X
      (fun n x => contLaw (pareto_gamma (n : ℝ) (∑ i, log (x i)) x_m prior Real.log).dist) ∧
    IntervalWhenStopped P θ X
      fun n x => contLaw (pareto_gamma (n : ℝ) (∑ i, log (x i)) x_m prior Real.log).dist :=
  Watched.both (fun _ => bayes_pareto prior ha hb x_m hm) h

/-- C115 (partial). Waits, with the two data arguments of `exponential_gamma` exchanged. What is missing: the call as
documented, for which the claim is false (`C115_exponential_gamma_rate_false`). -/
theorem C115_exponential_gamma_swapped_partial {θ : Ω → ℝ} {X : Ω → ℕ → ℝ}
    (h : DrawThenWatch P θ X (contLaw prior.dist) fun r => contLaw (Exponential.dist ⟨1 / r⟩)) :
    HonestWhenStopped P θ X (fun n x => contLaw (exponential_gamma (n : ℝ) (∑ i, x i) prior).dist) ∧
    IntervalWhenStopped P θ X fun n x => contLaw (exponential_gamma (n : ℝ) (∑ i, x i) prior).dist :=
  Watched.both (fun _ => bayes_exponential prior ha hb) h

end Gamma

/-! ## Other priors -/

/-- the posterior of `uniform_pareto` after `n` observations; before the first one it is the prior -/
noncomputable def Spec.uniformSeen (prior : Pareto ℝ) : ∀ n, (Fin n → ℝ) → Pareto ℝ
  | 0, _ => prior
  | n + 1, x => uniform_pareto (Finset.univ.sup' Finset.univ_nonempty x) ((n + 1 : ℕ) : ℝ) prior max

/-- C115. Uniform observations on `[0, θ]`. -/
theorem C115_uniform_pareto (prior : Pareto ℝ) (hm : 0 < prior.x_m) (ha : 0 < prior.alpha) {θ : Ω → ℝ}
    {X : Ω → ℕ → ℝ} (h : DrawThenWatch P θ X (contLaw prior.dist) fun t => contLaw (Uniform.dist ⟨0, t⟩)) :
    HonestWhenStopped P θ X (fun n x => contLaw (uniformSeen prior n x).dist) ∧
    IntervalWhenStopped P θ X fun n x => contLaw (uniformSeen prior n x).dist :=
  Watched.both (post := fun n x => (uniformSeen prior n x).dist.pdf)
    (fun n => match n with
      | 0 => (bayes_uniform (n := 0) prior hm ha).none_seen
      | n + 1 => bayes_uniform (n := n) prior hm ha) h

/-- C115. Weibull observations with known shape. -/
theorem C115_weibull_inverse_gamma (prior : InverseGamma ℝ) (ha : 0 < prior.alpha) (hb : 0 < prior.beta) (k : ℝ)
    (hk : 0 < k) {θ : Ω → ℝ} {X : Ω → ℕ → ℝ}
    (h : DrawThenWatch P θ X (contLaw prior.dist) fun t => contLaw (Weibull.dist ⟨k, t⟩)) :
    HonestWhenStopped P θ X
      (fun n x => contLaw (weibull_inverse_gamma_known_shape (n : ℝ) (∑ i, x i ^ k) prior).dist) ∧
    IntervalWhenStopped P θ X
      fun n x => contLaw (weibull_inverse_gamma_known_shape (n : ℝ) (∑ i, x i ^ k) prior).dist :=
  Watched.both (fun _ => bayes_weibull prior ha hb k hk) h

/-- C115. Normal observations with known variance. -/
theorem C115_normal_known_variance (prior : Normal ℝ) (hs : 0 < prior.sigma) (var : ℝ) (hv : 0 < var)
    {θ : Ω → ℝ} {X : Ω → ℕ → ℝ}
    (h : DrawThenWatch P θ X (contLaw prior.dist) fun m => contLaw (Normal.dist ⟨m, √var⟩)) :
    HonestWhenStopped P θ X (fun n x => contLaw (normal_known_variance (∑ i, x i) (n : ℝ) var prior).dist) ∧
    IntervalWhenStopped P θ X fun n x => contLaw (normal_known_variance (∑ i, x i) (n : ℝ) var prior).dist :=
  Watched.both (fun _ => bayes_normal_known_variance prior hs var hv) h

/-- C115. Normal observations with known precision. -/
theorem C115_normal_known_precision (prior : Normal ℝ) (hs : 0 < prior.sigma) (precision : ℝ) (hv : 0 < precision)
    {θ : Ω → ℝ} {X : Ω → ℕ → ℝ}
    (h : DrawThenWatch P θ X (contLaw prior.dist) fun m => contLaw (Normal.dist ⟨m, √(1 / precision)⟩)) :
    HonestWhenStopped P θ X
      (fun n x => contLaw (normal_known_precision (∑ i, x i) (n : ℝ) precision prior).dist) ∧
    IntervalWhenStopped P θ X
      fun n x => contLaw (normal_known_precision (∑ i, x i) (n : ℝ) precision prior).dist := by
  have h := C115_normal_known_variance prior hs (1 / precision) (by positivity) h
  simpa only [normal_known_precision, lit_real, Rat.cast_one] using h

/-- C115. Normal observations with known mean: both classes of prior for the variance. -/
theorem C115_normal_known_mean (prior : VariancePrior ℝ) (hp : prior.Valid) (mu : ℝ)
    {θ : Ω → ℝ} {X : Ω → ℕ → ℝ}
    (h : DrawThenWatch P θ X (contLaw prior.frozen) fun v => contLaw (Normal.dist ⟨mu, √v⟩)) :
    HonestWhenStopped P θ X
      (fun n x => contLaw (normal_known_mean (∑ i, x i) (∑ i, x i ^ 2) (n : ℝ) mu prior).frozen) ∧
    IntervalWhenStopped P θ X
      fun n x => contLaw (normal_known_mean (∑ i, x i) (∑ i, x i ^ 2) (n : ℝ) mu prior).frozen :=
  Watched.both (fun _ => bayes_normal_known_mean prior hp mu) h

/-! ## Several unknowns -/

/-- C115. Normal observations, `NormalInverseGamma` prior. The posterior after `n + 1` observations is what the call
returns; the announcements about mean and variance together, and the intervals of the variance and of the mean, are
honest. -/
theorem C115_normal_nig (prior : NormalInverseGamma ℝ ℝ M) (nu : ℝ) (hn : prior.nu = some nu) (hnu : 0 < nu)
    (ha : 0 < prior.alpha) (hb : 0 < prior.beta) {θ : Ω → ℝ × ℝ} {X : Ω → ℕ → ℝ}
    (h : DrawThenWatch P θ X (nigLaw prior) fun t => contLaw (Normal.dist ⟨t.1, √t.2⟩)) :
    ∃ post : ∀ n, (Fin n → ℝ) → NormalInverseGamma ℝ ℝ M, (∀ x, post 0 x = prior) ∧
      (∀ n x, normal (∑ i, x i) (∑ i, x i ^ 2) ((n + 1 : ℕ) : ℝ) (.nig prior) = .ok (.nig (post (n + 1) x))) ∧
      HonestWhenStopped P θ X (fun n x => nigLaw (post n x)) ∧
      IntervalWhenStopped P (fun ω => (θ ω).2) X (fun n x => contLaw (post n x).inverse_gamma.dist) ∧
      IntervalWhenStopped P (fun ω => (θ ω).1) X (fun n x => (nigLaw (post n x)).map Prod.fst) := by
  choose post h1 h2 using fun n => bayes_normal_nig (n := n) prior nu hn hnu ha hb
  let post' : ∀ n, (Fin n → ℝ) → NormalInverseGamma ℝ ℝ M := fun n => match n with
    | 0 => fun _ => prior
    | n + 1 => post n
  have hw : Watched (univ ×ˢ Ioi 0) (fun t : ℝ × ℝ => prior.jointPdf (prior.nu.getD 0) t.1 t.2)
        (volume.restrict univ) univ (fun t a => (Normal.dist ⟨t.1, √t.2⟩).pdf a)
        (fun n x t => (post' n x).jointPdf ((post' n x).nu.getD 0) t.1 t.2) (nigLaw prior)
        (fun t => contLaw (Normal.dist ⟨t.1, √t.2⟩)) (fun n x => nigLaw (post' n x)) := fun n => match n with
    | 0 => (h2 0).none_seen
    | n + 1 => h2 n
  have := hw.prob h
  refine ⟨post', fun _ => rfl, h1, hw.honest h, hw.interval_of h measurable_snd fun n x _ => ?_,
    hw.interval_of h measurable_fst fun n x _ => ⟨rfl, lawOn_map_noAtoms measurable_fst volume_fst_eq⟩⟩
  refine ⟨?_, by rw [contLaw]; infer_instance⟩
  match n, x with
  | 0, x => exact nigLaw_snd prior hn hnu ha hb
  | n + 1, x =>
    obtain ⟨p, nu', e1, e2, v1, v2, v3, -⟩ := C14_normal_posterior_nig prior nu hn hnu ha hb (List.ofFn x) (ofFn_ne_nil x)
    rw [List.map_ofFn, List.sum_ofFn, List.sum_ofFn, List.length_ofFn] at e2
    have e : post' (n + 1) x = p := by
      have := (h1 n x).symm.trans e2
      simpa using this
    rw [e]
    exact nigLaw_snd p e1 v1 v2 v3

/-- C115. Normal observations, `NormalGamma` prior. -/
theorem C115_normal_ng (prior : NormalGamma ℝ) (hl : 0 < prior.lam)
    (ha : 0 < prior.alpha) (hb : 0 < prior.beta) {θ : Ω → ℝ × ℝ} {X : Ω → ℕ → ℝ}
    (h : DrawThenWatch P θ X (ngLaw prior) fun t => contLaw (Normal.dist ⟨t.1, √(1 / t.2)⟩)) :
    ∃ post : ∀ n, (Fin n → ℝ) → NormalGamma ℝ, (∀ x, post 0 x = prior) ∧
      (∀ n x, normal (∑ i, x i) (∑ i, x i ^ 2) ((n + 1 : ℕ) : ℝ) (.ng prior : NormalPrior ℝ M) =
        .ok (.ng (post (n + 1) x))) ∧
      HonestWhenStopped P θ X (fun n x => ngLaw (post n x)) ∧
      IntervalWhenStopped P (fun ω => (θ ω).2) X (fun n x => contLaw (post n x).gamma.dist) ∧
      IntervalWhenStopped P (fun ω => (θ ω).1) X (fun n x => (ngLaw (post n x)).map Prod.fst) := by
  choose post h1 h2 using fun n => bayes_normal_ng (n := n) (M := M) prior hl ha hb
  let post' : ∀ n, (Fin n → ℝ) → NormalGamma ℝ := fun n => match n with
    | 0 => fun _ => prior
    | n + 1 => post n
  have hw : Watched (univ ×ˢ Ioi 0) (fun t : ℝ × ℝ => prior.jointPdf t.1 t.2)
        (volume.restrict univ) univ (fun t a => (Normal.dist ⟨t.1, √(1 / t.2)⟩).pdf a)
        (fun n x t => (post' n x).jointPdf t.1 t.2) (ngLaw prior)
        (fun t => contLaw (Normal.dist ⟨t.1, √(1 / t.2)⟩)) (fun n x => ngLaw (post' n x)) := fun n => match n with
    | 0 => (h2 0).none_seen
    | n + 1 => h2 n
  have := hw.prob h
  refine ⟨post', fun _ => rfl, h1, hw.honest h, hw.interval_of h measurable_snd fun n x _ => ?_,
    hw.interval_of h measurable_fst fun n x _ => ⟨rfl, lawOn_map_noAtoms measurable_fst volume_fst_eq⟩⟩
  refine ⟨?_, by rw [contLaw]; infer_instance⟩
  match n, x with
  | 0, x => exact ngLaw_snd prior hl ha hb
  | n + 1, x =>
    obtain ⟨p, e2, v1, v2, v3, -⟩ := C14_normal_posterior_ng (M := M) prior hl ha hb (List.ofFn x) (ofFn_ne_nil x)
    rw [List.map_ofFn, List.sum_ofFn, List.sum_ofFn, List.length_ofFn] at e2
    have e : post' (n + 1) x = p := by
      have := (h1 n x).symm.trans e2
      simpa using this
    rw [e]
    exact ngLaw_snd p v1 v2 v3

/-- C115. Vectors with known covariance. -/
theorem C115_multivariate_normal_known_covariance (cov : Matrix (Fin k) (Fin k) ℝ) (hc : cov.PosDef)
    (prior : MultivariateNormal (Fin k → ℝ) (Matrix (Fin k) (Fin k) ℝ)) (hS : prior.cov.PosDef)
    {θ : Ω → Fin k → ℝ} {X : Ω → ℕ → Fin k → ℝ}
    (h : DrawThenWatch P θ X (lawOn univ prior.pdf) fun m => lawOn univ (MultivariateNormal.mk m cov).pdf) :
    ∃ post : ∀ n, (Fin n → Fin k → ℝ) → MultivariateNormal (Fin k → ℝ) (Matrix (Fin k) (Fin k) ℝ),
      (∀ (n : ℕ) x, multivariate_normal_known_covariance (n : ℝ) ((1 / (n : ℝ)) • ∑ i, x i) cov prior = .ok (post n x)) ∧
      HonestWhenStopped P θ X fun n x => lawOn univ (post n x).pdf := by
  choose post h1 h2 using fun n => bayes_mvn_known_covariance (n := n) cov hc prior hS
  exact ⟨post, h1, Watched.honest h2 h⟩

/-- C115. Vectors with known mean. -/
theorem C115_multivariate_normal_known_mean (mu : Fin k → ℝ) (prior : InverseWishart ℝ (Matrix (Fin k) (Fin k) ℝ))
    (hnu : (k : ℝ) - 1 < prior.nu) (hpsi : prior.psi.PosDef) {θ : Ω → UpperIdx k → ℝ} {X : Ω → ℕ → Fin k → ℝ}
    (h : DrawThenWatch P θ X (lawOn {c | (symOf c).PosDef} fun c => prior.pdf (symOf c))
      fun c => lawOn univ (MultivariateNormal.mk mu (symOf c)).pdf) :
    HonestWhenStopped P θ X fun _ x => lawOn {c | (symOf c).PosDef}
      fun c => (multivariate_normal_known_mean (Matrix.of x) mu prior).pdf (symOf c) :=
  Watched.honest (fun _ => bayes_mvn_known_mean mu prior hnu hpsi) h

/-- C115. Vectors with unknown mean and covariance. -/
theorem C115_multivariate_normal (prior : NormalInverseWishart ℝ (Fin k → ℝ) (Matrix (Fin k) (Fin k) ℝ))
    (hk : 0 < prior.kappa) (hnu : (k : ℝ) - 1 < prior.nu) (hpsi : prior.psi.PosDef)
    {θ : Ω → (Fin k → ℝ) × (UpperIdx k → ℝ)} {X : Ω → ℕ → Fin k → ℝ}
    (h : DrawThenWatch P θ X (niwLaw prior) fun t => lawOn univ (MultivariateNormal.mk t.1 (symOf t.2)).pdf) :
    ∃ post : ∀ n, (Fin n → Fin k → ℝ) → NormalInverseWishart ℝ (Fin k → ℝ) (Matrix (Fin k) (Fin k) ℝ),
      (∀ x, post 0 x = prior) ∧
      (∀ n (x : Fin (n + 1) → Fin k → ℝ), multivariate_normal (Matrix.of x) prior = .ok (post (n + 1) x)) ∧
      HonestWhenStopped P θ X fun n x => niwLaw (post n x) := by
  choose post h1 h2 using fun n => bayes_multivariate_normal (n := n) prior hk hnu hpsi
  let post' : ∀ n, (Fin n → Fin k → ℝ) → NormalInverseWishart ℝ (Fin k → ℝ) (Matrix (Fin k) (Fin k) ℝ) :=
    fun n => match n with
    | 0 => fun _ => prior
    | n + 1 => post n
  have hw : Watched {t : (Fin k → ℝ) × (UpperIdx k → ℝ) | (symOf t.2).PosDef} (fun t => prior.jointPdf t.1 (symOf t.2))
        (volume.restrict univ) univ (fun t a => (MultivariateNormal.mk t.1 (symOf t.2)).pdf a)
        (fun n x t => (post' n x).jointPdf t.1 (symOf t.2)) (niwLaw prior)
        (fun t => lawOn univ (MultivariateNormal.mk t.1 (symOf t.2)).pdf) (fun n x => niwLaw (post' n x)) :=
    fun n => match n with
    | 0 => (h2 0).none_seen
    | n + 1 => h2 n
  exact ⟨post', fun _ => rfl, h1, hw.honest h⟩

/-- C115. Categories, and the interval of the probability of a set `A` of categories. -/
theorem C115_categorical_dirichlet (prior : Dirichlet (Fin (k + 1) → ℝ)) (hp : ∀ i, 0 < prior.alpha i)
    {θ : Ω → Fin k → ℝ} {X : Ω → ℕ → Fin (k + 1)}
    (h : DrawThenWatch P θ X (dirLaw prior) fun p => pmfLaw (fullVector p)) :
    ∃ post : ∀ n, (Fin n → Fin (k + 1)) → Dirichlet (Fin (k + 1) → ℝ),
      (∀ n x, categorical_dirichlet (counts (List.ofFn x)) prior = .ok (post n x)) ∧
      HonestWhenStopped P θ X (fun n x => dirLaw (post n x)) ∧
      ∀ A : Finset (Fin (k + 1)), A.Nonempty → Aᶜ.Nonempty →
        IntervalWhenStopped P (fun ω => ∑ i ∈ A, fullVector (θ ω) i) X
          (fun n x => contLaw (Beta.dist ⟨∑ i ∈ A, (post n x).alpha i, ∑ i ∈ Aᶜ, (post n x).alpha i⟩)) := by
  choose post h1 h2 using fun n => bayes_categorical (n := n) prior hp
  have := Watched.prob h2 h
  refine ⟨post, h1, Watched.honest h2 h, fun A hA hA' => ?_⟩
  have hm : Measurable fun p : Fin k → ℝ => ∑ i ∈ A, fullVector p i :=
    Finset.measurable_sum _ fun i _ => (measurable_pi_apply i).comp measurable_fullVector'
  refine Watched.interval_of h2 h hm fun n x _ => ⟨?_, by rw [contLaw]; infer_instance⟩
  refine dirLaw_share hA hA' _ fun i => ?_
  have e : post n x = ⟨fun i => prior.alpha i + counts (List.ofFn x) i⟩ := by
    have e := h1 n x
    change Except.ok _ = Except.ok _ at e
    exact (Except.ok.inj e).symm
  rw [e]
  have : 0 ≤ counts (List.ofFn x) i := Nat.cast_nonneg _
  have := hp i
  simp only
  linarith

/-- C115. Multinomial rows. -/
theorem C115_multinomial_dirichlet (N : ℕ) (prior : Dirichlet (Fin (k + 1) → ℝ)) (hp : ∀ i, 0 < prior.alpha i)
    {θ : Ω → Fin k → ℝ} {X : Ω → ℕ → Fin (k + 1) → ℕ}
    (h : DrawThenWatch P θ X (dirLaw prior) fun p => pmfLaw (Multinomial.mk (N : ℝ) (fullVector p)).pmf) :
    ∃ post : ∀ n, (Fin n → Fin (k + 1) → ℕ) → Dirichlet (Fin (k + 1) → ℝ),
      (∀ n x, multinomial_dirichlet (columnSums (List.ofFn x)) prior = .ok (post n x)) ∧
      HonestWhenStopped P θ X (fun n x => dirLaw (post n x)) := by
  choose post h1 h2 using fun n => bayes_multinomial (n := n) N prior hp
  exact ⟨post, h1, Watched.honest h2 h⟩

/-! ## Where it fails -/

/-- the rule that stops after exactly `n` observations -/
theorem honest_fixed {Θ A : Type} [MeasurableSpace Θ] [MeasurableSpace A] {θ : Ω → Θ} {X : Ω → ℕ → A}
    {post : ∀ n, (Fin n → A) → Measure Θ} (h : HonestWhenStopped P θ X post) (n : ℕ) :
    Calibrated P θ (fun ω => firstObs (X ω) n) (post n) := by
  intro C hC
  have key := h (fun m => {_x | m = n}) (fun m => MeasurableSet.const _)
    (fun m x => if e : m = n then C (fun i => x (i.cast e.symm)) else ∅) (fun m => by
      by_cases e : m = n
      · subst e
        simpa using hC
      · simp [e])
  have hst : ∀ x : ℕ → A, ∀ m, StopsAt (fun m => {_x : Fin m → A | m = n}) x m ↔ m = n := fun x m => by
    simp only [StopsAt, mem_ofPred_eq]
    refine ⟨fun h => h.1, fun h => ⟨h, fun j hj => ?_⟩⟩
    omega
  simp only [hst] at key
  rw [tsum_eq_single n (fun m hm => by simp [hm])] at key
  simpa using key

/-- C115 (disagreement). As documented, `exponential_gamma` is not honest about the rate: already the rule that stops
after one wait shows it. -/
theorem C115_exponential_gamma_rate_false (prior : Gamma ℝ) (ha : 0 < prior.alpha) (hb : 0 < prior.beta)
    {θ : Ω → ℝ} {X : Ω → ℕ → ℝ}
    (h : DrawThenWatch P θ X (contLaw prior.dist) fun r => contLaw (Exponential.dist ⟨1 / r⟩)) :
    ¬ HonestWhenStopped P θ X fun n x => contLaw (exponential_gamma (∑ i, x i) (n : ℝ) prior).dist := fun hh =>
  C103_exponential_gamma_rate_false prior ha hb one_pos (h 1) (honest_fixed hh 1)

/-! ## The posteriors of all moments in one call -/

/-- C115. The call of `docs/index.md:106-108`: with `n = np.arange(N) + 1` and `x = samples.cumsum()` the parameters
are arrays with `N` entries, and entry `i` holds the parameters after the first `i + 1` trials, updated one trial at a
time. -/
theorem C115_running_binomial_beta (N : ℕ) (samples : ℕ → ℝ) (prior : Beta ℝ) {n x : NdArr ℝ}
    (hn : Holds (.ok n) N fun i => (i : ℝ) + 1) (hx : Holds (.ok x) N fun i => ∑ j ∈ Finset.range (i + 1), samples j) :
    let post := binomial_beta (.ok n) (.ok x) (⟨.ok (.scalar prior.alpha), .ok (.scalar prior.beta)⟩ : Beta (ArrExpr ℝ))
    let after : ℕ → Beta ℝ := fun i => (List.range (i + 1)).foldl (fun d j => bernoulli_beta (samples j) d) prior
    Holds post.alpha N (fun i => (after i).alpha) ∧ Holds post.beta N (fun i => (after i).beta) := by
  have hfold : ∀ m, (List.range m).foldl (fun d j => bernoulli_beta (samples j) d) prior =
      ⟨prior.alpha + ∑ j ∈ Finset.range m, samples j, prior.beta + (m - ∑ j ∈ Finset.range m, samples j)⟩ := fun m => by
    induction m with
    | zero => simp
    | succ m ih =>
      rw [List.range_succ, List.foldl_append, ih]
      simp only [List.foldl_cons, List.foldl_nil, bernoulli_beta, binomial_beta, getBinomialBetaPosteriorParams, lit_real,
        Finset.sum_range_succ, Beta.mk.injEq]
      push_cast
      constructor <;> ring
  intro post after
  obtain ⟨_, e1, s1, g1⟩ := hn
  obtain ⟨_, e2, s2, g2⟩ := hx
  obtain rfl := Except.ok.inj e1
  obtain rfl := Except.ok.inj e2
  have hb : NdArr.bcast n.rshape x.rshape = some [N] := by rw [s1, s2]; simp [NdArr.bcast, NdArr.bdim]
  have hp : ∀ i < N, NdArr.proj [N] [i] = [i] := fun i hi => by
    simp only [NdArr.proj]
    split_ifs with h
    · have : i = 0 := by omega
      rw [this]
    · rfl
  refine ⟨⟨⟨x.rshape, fun idx => prior.alpha + x.get (NdArr.proj x.rshape idx)⟩, ?_, s2, fun i hi => ?_⟩,
    ⟨⟨[N], fun idx => prior.beta +
      (n.get (NdArr.proj n.rshape (NdArr.proj [N] idx)) - x.get (NdArr.proj x.rshape (NdArr.proj [N] idx)))⟩, ?_, rfl,
      fun i hi => ?_⟩⟩
  · rfl
  · simp only [s2, hp i hi, g2 i hi, after, hfold]
  · change (Except.bind (NdArr.op (· - ·) n x) fun y => NdArr.op (· + ·) (.scalar prior.beta) y) = _
    rw [NdArr.op, hb]
    rfl
  · simp only [s1, s2, hp i hi, g1 i hi, g2 i hi, after, hfold]
    push_cast
    rfl

/-- the arrays of the call exist: four trials -/
example : Holds (.ok ⟨[4], fun idx => ((idx.headD 0 : ℕ) : ℝ) + 1⟩) 4 (fun i => (i : ℝ) + 1) ∧
    Holds (.ok ⟨[4], fun idx => ∑ j ∈ Finset.range (idx.headD 0 + 1), (if j = 2 then 0 else 1 : ℝ)⟩) 4
      (fun i => ∑ j ∈ Finset.range (i + 1), (if j = 2 then 0 else 1 : ℝ)) :=
  ⟨⟨_, rfl, rfl, fun _ _ => rfl⟩, ⟨_, rfl, rfl, fun _ _ => rfl⟩⟩

/-! ## The setting of each theorem exists -/

example := Watched.exists_watch fun n => bayes_binomial (n := n) ⟨1, 1⟩ one_pos one_pos 1
example := Watched.exists_watch fun n => bayes_bernoulli (n := n) ⟨1, 2⟩ one_pos two_pos
example := Watched.exists_watch fun n => bayes_negative_binomial (n := n) ⟨1, 2⟩ one_pos two_pos 3 (by norm_num)
example := Watched.exists_watch fun n => bayes_geometric (n := n) ⟨1, 2⟩ one_pos two_pos true
example := Watched.exists_watch fun n => bayes_poisson (n := n) ⟨1, 2⟩ one_pos two_pos
example := Watched.exists_watch fun n => bayes_gamma_known_shape (n := n) ⟨1, 2⟩ one_pos two_pos (1 / 2) (by norm_num)
example := Watched.exists_watch fun n => bayes_inverse_gamma (n := n) ⟨1, 2⟩ one_pos two_pos (1 / 2) (by norm_num)
example := Watched.exists_watch fun n => bayes_pareto (n := n) ⟨1, 2⟩ one_pos two_pos (1 / 2) (by norm_num)
example := Watched.exists_watch fun n => bayes_exponential (n := n) ⟨1, 2⟩ one_pos two_pos
example := Watched.exists_watch fun n => bayes_weibull (n := n) ⟨1, 2⟩ one_pos two_pos (1 / 2) (by norm_num)
example := Watched.exists_watch fun n => bayes_normal_known_variance (n := n) ⟨1, 2⟩ two_pos (1 / 2) (by norm_num)
example := Watched.exists_watch fun n => bayes_normal_known_mean (n := n) (.inverseGamma ⟨1, 2⟩) ⟨one_pos, two_pos⟩ 5

/-- the setting of `docs/index.md`: uniform prior, single trials. The rule stops as soon as the posterior mean is
above 2/3 (after at least one trial); of the runs that stop, 95% have the success probability inside the band drawn
at that moment. -/
example : ∃ (Ω : Type) (_ : MeasurableSpace Ω) (P : Measure Ω) (θ : Ω → ℝ) (X : Ω → ℕ → ℤ),
    DrawThenWatch P θ X (contLaw (Beta.dist ⟨1, 1⟩)) (fun p => discLaw (Binomial.dist ⟨((1 : ℕ) : ℝ), p⟩)) ∧
    ∀ stop, stop = (fun n => {x : Fin n → ℤ | 0 < n ∧ (2 : ℝ) / 3 < (1 + ∑ i, (x i : ℝ)) / (2 + n)}) →
    P {ω | ∃ n, StopsAt stop (X ω) n ∧
      ppf (contLaw (binomial_beta ((n : ℝ) * (1 : ℕ)) (∑ i, ((firstObs (X ω) n i : ℤ) : ℝ)) ⟨1, 1⟩).dist) 0.025 ≤ θ ω ∧
      θ ω ≤ ppf (contLaw (binomial_beta ((n : ℝ) * (1 : ℕ)) (∑ i, ((firstObs (X ω) n i : ℤ) : ℝ)) ⟨1, 1⟩).dist) 0.975} =
    ENNReal.ofReal 0.95 * P {ω | ∃ n, StopsAt stop (X ω) n} := by
  obtain ⟨Ω, m, P, θ, X, h⟩ := Watched.exists_watch fun n => bayes_binomial (n := n) ⟨1, 1⟩ one_pos one_pos 1
  refine ⟨Ω, m, P, θ, X, h, fun stop hs => ?_⟩
  have := (C115_binomial_beta ⟨1, 1⟩ one_pos one_pos 1 h).2 stop (fun n => by rw [hs]; exact MeasurableSet.of_discrete)
    0.025 0.975 (by norm_num) (by norm_num) (by norm_num)
  rw [show (0.975 : ℝ) - 0.025 = 0.95 by norm_num] at this
  exact this

/-- several unknowns -/
example : ∃ (Ω : Type) (_ : MeasurableSpace Ω) (P : Measure Ω) (θ : Ω → ℝ × ℝ) (X : Ω → ℕ → ℝ),
    DrawThenWatch P θ X (ngLaw ⟨0, 1, 2, 1⟩) fun t => contLaw (Normal.dist ⟨t.1, √(1 / t.2)⟩) := by
  choose post h1 h2 using fun n => bayes_normal_ng (n := n) (M := ℝ) ⟨0, 1, 2, 1⟩ one_pos two_pos one_pos
  exact Watched.exists_watch (post := fun n => match n with
      | 0 => fun _ t => NormalGamma.jointPdf ⟨0, 1, 2, 1⟩ t.1 t.2
      | n + 1 => fun x t => (post n x).jointPdf t.1 t.2)
    (postLaw := fun n => match n with
      | 0 => fun _ => ngLaw ⟨0, 1, 2, 1⟩
      | n + 1 => fun x => ngLaw (post n x)) fun n => match n with
    | 0 => (h2 0).none_seen
    | n + 1 => h2 n

example : ∃ (Ω : Type) (_ : MeasurableSpace Ω) (P : Measure Ω) (θ : Ω → Fin 2 → ℝ) (X : Ω → ℕ → Fin 3),
    DrawThenWatch P θ X (dirLaw ⟨![1, 2, 1]⟩) fun p => pmfLaw (fullVector p) := by
  choose post h1 h2 using fun n => bayes_categorical (n := n) (k := 2) ⟨![1, 2, 1]⟩ (by
    intro i; fin_cases i <;> simp)
  exact Watched.exists_watch h2

end Conj
