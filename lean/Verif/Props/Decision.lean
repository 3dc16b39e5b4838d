import Verif.Lemmas.Decision
import Verif.Lemmas.Forecast
import Verif.Props.CalibrationVector
import Verif.Props.CalibrationExponential

/-!
# C124: decisions by the posterior

If the unknown is drawn from the prior and the data from the model, then expected losses computed from the posterior are the
losses suffered on average; whoever minimises them does best; the mean of the posterior is the best guess and its quantiles are
the best stocks; on average, but not always, the posterior has a smaller variance than the prior.
-/

open MeasureTheory Set Real

namespace Conj

open Scipy Spec Matrix

variable {Ω : Type} [MeasurableSpace Ω] {P : Measure Ω} {n k : ℕ}

theorem bernoulli_fold_pos (l : List Bool) : ∀ prior : Beta ℝ, 0 < prior.alpha → 0 < prior.beta →
    0 < (l.foldl (fun d b => bernoulli_beta (if b then 1 else 0 : ℝ) d) prior).alpha ∧
    0 < (l.foldl (fun d b => bernoulli_beta (if b then 1 else 0 : ℝ) d) prior).beta := by
  induction l with
  | nil => exact fun prior ha hb => ⟨ha, hb⟩
  | cons b l ih =>
    intro prior ha hb
    refine ih _ ?_ ?_ <;> cases b <;> simp [bernoulli_beta, binomial_beta, getBinomialBetaPosteriorParams] <;> linarith

/-! ## Beta priors -/

section Beta

variable (prior : Beta ℝ) (ha : 0 < prior.alpha) (hb : 0 < prior.beta)
include ha hb

theorem C124_binomial_beta (N : ℕ) {θ : Ω → ℝ} {X : Ω → Fin n → ℤ}
    (h : DrawThenObserve P θ X (contLaw prior.dist) fun _ p => discLaw (Binomial.dist ⟨(N : ℝ), p⟩)) :
    RightChoices P θ X
      (fun x => contLaw (binomial_beta ((n : ℝ) * N) (∑ i, (x i : ℝ)) prior).dist) :=
  (bayes_binomial prior ha hb N).choices h

theorem C124_binomial_beta_mean (N : ℕ) {θ : Ω → ℝ} {X : Ω → Fin n → ℤ}
    (h : DrawThenObserve P θ X (contLaw prior.dist) fun _ p => discLaw (Binomial.dist ⟨(N : ℝ), p⟩)) :
    GuessByMean P θ X (contLaw prior.dist)
      (fun x => contLaw (binomial_beta ((n : ℝ) * N) (∑ i, (x i : ℝ)) prior).dist) := by
  refine (bayes_binomial prior ha hb N).guess h (guess := fun x => ((binomial_beta ((n : ℝ) * N) (∑ i, (x i : ℝ)) prior)).alpha / (((binomial_beta ((n : ℝ) * N) (∑ i, (x i : ℝ)) prior)).alpha + ((binomial_beta ((n : ℝ) * N) (∑ i, (x i : ℝ)) prior)).beta)) ?_ fun x hx => beta_meanVar ?_ ?_
  · exact Measurable.of_discrete
  · have := Finset.sum_nonneg fun i (_ : i ∈ Finset.univ) => (show (0 : ℝ) ≤ x i by exact_mod_cast (hx i).1)
    change 0 < prior.alpha + ∑ i, (x i : ℝ)
    positivity
  · have h1 : ∑ i, (x i : ℝ) ≤ n * N := by
      refine (Finset.sum_le_sum fun i _ => (show (x i : ℝ) ≤ N by exact_mod_cast (hx i).2)).trans ?_
      simp
    change 0 < prior.beta + ((n : ℝ) * N - ∑ i, (x i : ℝ))
    linarith

theorem C124_bernoulli_beta {θ : Ω → ℝ} {X : Ω → Fin n → Bool}
    (h : DrawThenObserve P θ X (contLaw prior.dist) fun _ p => pmfLaw fun b : Bool => if b then p else 1 - p) :
    RightChoices P θ X
      (fun x => contLaw ((List.ofFn x).foldl (fun d b => bernoulli_beta (if b then 1 else 0 : ℝ) d) prior).dist) :=
  (bayes_bernoulli prior ha hb).choices h

theorem C124_bernoulli_beta_mean {θ : Ω → ℝ} {X : Ω → Fin n → Bool}
    (h : DrawThenObserve P θ X (contLaw prior.dist) fun _ p => pmfLaw fun b : Bool => if b then p else 1 - p) :
    GuessByMean P θ X (contLaw prior.dist)
      (fun x => contLaw ((List.ofFn x).foldl (fun d b => bernoulli_beta (if b then 1 else 0 : ℝ) d) prior).dist) := by
  refine (bayes_bernoulli prior ha hb).guess h (guess := fun x => (((List.ofFn x).foldl (fun d b => bernoulli_beta (if b then 1 else 0 : ℝ) d) prior)).alpha / ((((List.ofFn x).foldl (fun d b => bernoulli_beta (if b then 1 else 0 : ℝ) d) prior)).alpha + (((List.ofFn x).foldl (fun d b => bernoulli_beta (if b then 1 else 0 : ℝ) d) prior)).beta)) ?_ fun x hx => beta_meanVar ?_ ?_
  · exact Measurable.of_discrete
  · exact (bernoulli_fold_pos (List.ofFn x) prior ha hb).1
  · exact (bernoulli_fold_pos (List.ofFn x) prior ha hb).2

theorem C124_negative_binomial_beta (r : ℝ) (hr : 0 < r) {θ : Ω → ℝ} {X : Ω → Fin n → ℤ}
    (h : DrawThenObserve P θ X (contLaw prior.dist) fun _ p => discLaw (NegativeBinomial.dist ⟨r, p⟩)) :
    RightChoices P θ X
      (fun x => contLaw (negative_binomial_beta r (n : ℝ) (∑ i, (x i : ℝ)) prior).dist) :=
  (bayes_negative_binomial prior ha hb r hr).choices h

theorem C124_negative_binomial_beta_mean (r : ℝ) (hr : 0 < r) {θ : Ω → ℝ} {X : Ω → Fin n → ℤ}
    (h : DrawThenObserve P θ X (contLaw prior.dist) fun _ p => discLaw (NegativeBinomial.dist ⟨r, p⟩)) :
    GuessByMean P θ X (contLaw prior.dist)
      (fun x => contLaw (negative_binomial_beta r (n : ℝ) (∑ i, (x i : ℝ)) prior).dist) := by
  refine (bayes_negative_binomial prior ha hb r hr).guess h (guess := fun x => ((negative_binomial_beta r (n : ℝ) (∑ i, (x i : ℝ)) prior)).alpha / (((negative_binomial_beta r (n : ℝ) (∑ i, (x i : ℝ)) prior)).alpha + ((negative_binomial_beta r (n : ℝ) (∑ i, (x i : ℝ)) prior)).beta)) ?_ fun x hx => beta_meanVar ?_ ?_
  · exact Measurable.of_discrete
  · change 0 < prior.alpha + r * n
    positivity
  · have := Finset.sum_nonneg fun i (_ : i ∈ Finset.univ) => (show (0 : ℝ) ≤ x i by exact_mod_cast hx i)
    change 0 < prior.beta + ∑ i, (x i : ℝ)
    positivity

theorem C124_geometric_beta (one_start : Bool) {θ : Ω → ℝ} {X : Ω → Fin n → ℤ}
    (h : DrawThenObserve P θ X (contLaw prior.dist) fun _ p => discLaw (Geometric.dist ⟨p, one_start⟩)) :
    RightChoices P θ X
      (fun x => contLaw (geometric_beta (∑ i, (x i : ℝ)) (n : ℝ) prior one_start).dist) :=
  (bayes_geometric prior ha hb one_start).choices h

theorem C124_geometric_beta_mean (one_start : Bool) {θ : Ω → ℝ} {X : Ω → Fin n → ℤ}
    (h : DrawThenObserve P θ X (contLaw prior.dist) fun _ p => discLaw (Geometric.dist ⟨p, one_start⟩)) :
    GuessByMean P θ X (contLaw prior.dist)
      (fun x => contLaw (geometric_beta (∑ i, (x i : ℝ)) (n : ℝ) prior one_start).dist) := by
  refine (bayes_geometric prior ha hb one_start).guess h (guess := fun x => ((geometric_beta (∑ i, (x i : ℝ)) (n : ℝ) prior one_start)).alpha / (((geometric_beta (∑ i, (x i : ℝ)) (n : ℝ) prior one_start)).alpha + ((geometric_beta (∑ i, (x i : ℝ)) (n : ℝ) prior one_start)).beta)) ?_ fun x hx => beta_meanVar ?_ ?_
  · exact Measurable.of_discrete
  · change 0 < prior.alpha + (n : ℝ)
    positivity
  · cases one_start
    · have := Finset.sum_nonneg fun i (_ : i ∈ Finset.univ) => (show (0 : ℝ) ≤ x i by exact_mod_cast hx i)
      change 0 < prior.beta + ∑ i, (x i : ℝ)
      positivity
    · have h1 : (n : ℝ) ≤ ∑ i, (x i : ℝ) := by
        refine le_trans (by simp) (Finset.sum_le_sum fun i (_ : i ∈ Finset.univ) =>
          (show (1 : ℝ) ≤ x i by exact_mod_cast hx i))
      change 0 < prior.beta + ∑ i, (x i : ℝ) - n
      linarith

end Beta

/-! ## Gamma priors -/

section Gamma

variable (prior : Gamma ℝ) (ha : 0 < prior.alpha) (hb : 0 < prior.beta)
include ha hb

theorem C124_poisson_gamma {θ : Ω → ℝ} {X : Ω → Fin n → ℤ}
    (h : DrawThenObserve P θ X (contLaw prior.dist) fun _ l => discLaw (Poisson.dist ⟨l⟩)) :
    RightChoices P θ X
      (fun x => contLaw (poisson_gamma (∑ i, (x i : ℝ)) (n : ℝ) prior).dist) :=
  (bayes_poisson prior ha hb).choices h

theorem C124_poisson_gamma_mean {θ : Ω → ℝ} {X : Ω → Fin n → ℤ}
    (h : DrawThenObserve P θ X (contLaw prior.dist) fun _ l => discLaw (Poisson.dist ⟨l⟩)) :
    GuessByMean P θ X (contLaw prior.dist)
      (fun x => contLaw (poisson_gamma (∑ i, (x i : ℝ)) (n : ℝ) prior).dist) := by
  refine (bayes_poisson prior ha hb).guess h (guess := fun x => ((poisson_gamma (∑ i, (x i : ℝ)) (n : ℝ) prior)).alpha / ((poisson_gamma (∑ i, (x i : ℝ)) (n : ℝ) prior)).beta) ?_ fun x hx => gamma_meanVar ?_ ?_
  · exact Measurable.of_discrete
  · have := Finset.sum_nonneg fun i (_ : i ∈ Finset.univ) => (show (0 : ℝ) ≤ x i by exact_mod_cast hx i)
    change 0 < prior.alpha + ∑ i, (x i : ℝ)
    positivity
  · change 0 < prior.beta + (n : ℝ)
    positivity

theorem C124_gamma_known_shape (shape : ℝ) (hk : 0 < shape) {θ : Ω → ℝ} {X : Ω → Fin n → ℝ}
    (h : DrawThenObserve P θ X (contLaw prior.dist) fun _ r => contLaw (Gamma.dist ⟨shape, r⟩)) :
    RightChoices P θ X
      (fun x => contLaw (gamma_known_shape (∑ i, x i) (n : ℝ) shape prior).dist) :=
  (bayes_gamma_known_shape prior ha hb shape hk).choices h

theorem C124_gamma_known_shape_mean (shape : ℝ) (hk : 0 < shape) {θ : Ω → ℝ} {X : Ω → Fin n → ℝ}
    (h : DrawThenObserve P θ X (contLaw prior.dist) fun _ r => contLaw (Gamma.dist ⟨shape, r⟩)) :
    GuessByMean P θ X (contLaw prior.dist)
      (fun x => contLaw (gamma_known_shape (∑ i, x i) (n : ℝ) shape prior).dist) := by
  refine (bayes_gamma_known_shape prior ha hb shape hk).guess h (guess := fun x => ((gamma_known_shape (∑ i, x i) (n : ℝ) shape prior)).alpha / ((gamma_known_shape (∑ i, x i) (n : ℝ) shape prior)).beta) ?_ fun x hx => gamma_meanVar ?_ ?_
  · simp only [gamma_known_shape]
    fun_prop
  · change 0 < prior.alpha + n * shape
    positivity
  · have := sum_ofFn_nonneg hx
    change 0 < prior.beta + ∑ i, x i
    positivity

theorem C124_inverse_gamma_known_rate (shape : ℝ) (hk : 0 < shape) {θ : Ω → ℝ} {X : Ω → Fin n → ℝ}
    (h : DrawThenObserve P θ X (contLaw prior.dist) fun _ s => contLaw (InverseGamma.dist ⟨shape, s⟩)) :
    RightChoices P θ X
      (fun x => contLaw (inverse_gamma_known_rate (∑ i, 1 / x i) (n : ℝ) shape prior).dist) :=
  (bayes_inverse_gamma prior ha hb shape hk).choices h

theorem C124_inverse_gamma_known_rate_mean (shape : ℝ) (hk : 0 < shape) {θ : Ω → ℝ} {X : Ω → Fin n → ℝ}
    (h : DrawThenObserve P θ X (contLaw prior.dist) fun _ s => contLaw (InverseGamma.dist ⟨shape, s⟩)) :
    GuessByMean P θ X (contLaw prior.dist)
      (fun x => contLaw (inverse_gamma_known_rate (∑ i, 1 / x i) (n : ℝ) shape prior).dist) := by
  refine (bayes_inverse_gamma prior ha hb shape hk).guess h (guess := fun x => ((inverse_gamma_known_rate (∑ i, 1 / x i) (n : ℝ) shape prior)).alpha / ((inverse_gamma_known_rate (∑ i, 1 / x i) (n : ℝ) shape prior)).beta) ?_ fun x hx => gamma_meanVar ?_ ?_
  · simp only [inverse_gamma_known_rate]
    fun_prop
  · change 0 < prior.alpha + n * shape
    positivity
  · have : 0 ≤ ∑ i, 1 / x i := Finset.sum_nonneg fun i _ => (one_div_pos.2 (hx i)).le
    change 0 < prior.beta + ∑ i, 1 / x i
    positivity

theorem C124_pareto_gamma (x_m : ℝ) (hm : 0 < x_m) {θ : Ω → ℝ} {X : Ω → Fin n → ℝ}
    (h : DrawThenObserve P θ X (contLaw prior.dist) fun _ s => contLaw (Pareto.dist ⟨x_m, s⟩)) :
    RightChoices P θ X
      (fun x => contLaw (pareto_gamma (n : ℝ) (∑ i, log (x i)) x_m prior Real.log).dist) :=
  (bayes_pareto prior ha hb x_m hm).choices h

theorem C124_pareto_gamma_mean (x_m : ℝ) (hm : 0 < x_m) {θ : Ω → ℝ} {X : Ω → Fin n → ℝ}
    (h : DrawThenObserve P θ X (contLaw prior.dist) fun _ s => contLaw (Pareto.dist ⟨x_m, s⟩)) :
    GuessByMean P θ X (contLaw prior.dist)
      (fun x => contLaw (pareto_gamma (n : ℝ) (∑ i, log (x i)) x_m prior Real.log).dist) := by
  refine (bayes_pareto prior ha hb x_m hm).guess h (guess := fun x => ((pareto_gamma (n : ℝ) (∑ i, log (x i)) x_m prior Real.log)).alpha / ((pareto_gamma (n : ℝ) (∑ i, log (x i)) x_m prior Real.log)).beta) ?_ fun x hx => gamma_meanVar ?_ ?_
  · simp only [pareto_gamma]
    fun_prop
  · change 0 < prior.alpha + n
    positivity
  · have h1 : (n : ℝ) * log x_m ≤ ∑ i, log (x i) := by
      refine le_trans (by simp) (Finset.sum_le_sum fun i (_ : i ∈ Finset.univ) => log_le_log hm (hx i))
    change 0 < prior.beta + ∑ i, log (x i) - n * log x_m
    linarith

theorem C124_exponential_gamma_swapped_partial {θ : Ω → ℝ} {X : Ω → Fin n → ℝ}
    (h : DrawThenObserve P θ X (contLaw prior.dist) fun _ r => contLaw (Exponential.dist ⟨1 / r⟩)) :
    RightChoices P θ X
      (fun x => contLaw (exponential_gamma (n : ℝ) (∑ i, x i) prior).dist) :=
  (bayes_exponential prior ha hb).choices h

theorem C124_exponential_gamma_swapped_mean_partial {θ : Ω → ℝ} {X : Ω → Fin n → ℝ}
    (h : DrawThenObserve P θ X (contLaw prior.dist) fun _ r => contLaw (Exponential.dist ⟨1 / r⟩)) :
    GuessByMean P θ X (contLaw prior.dist)
      (fun x => contLaw (exponential_gamma (n : ℝ) (∑ i, x i) prior).dist) := by
  refine (bayes_exponential prior ha hb).guess h (guess := fun x => ((exponential_gamma (n : ℝ) (∑ i, x i) prior)).alpha / ((exponential_gamma (n : ℝ) (∑ i, x i) prior)).beta) ?_ fun x hx => gamma_meanVar ?_ ?_
  · simp only [exponential_gamma, getExponentialGammaPosteriorParams, getPoissonGammaPosteriorParams]
    fun_prop
  · change 0 < prior.alpha + n
    positivity
  · have := sum_ofFn_nonneg hx
    change 0 < prior.beta + ∑ i, x i
    positivity

end Gamma

/-! ## Other priors -/

theorem C124_uniform_pareto (prior : Pareto ℝ) (hm : 0 < prior.x_m) (ha : 0 < prior.alpha) {θ : Ω → ℝ}
    {X : Ω → Fin (n + 1) → ℝ}
    (h : DrawThenObserve P θ X (contLaw prior.dist) fun _ t => contLaw (Uniform.dist ⟨0, t⟩)) :
    RightChoices P θ X
      (fun x => contLaw (uniform_pareto (Finset.univ.sup' Finset.univ_nonempty x) ((n + 1 : ℕ) : ℝ) prior max).dist) :=
  (bayes_uniform prior hm ha).choices h

theorem C124_weibull_inverse_gamma (prior : InverseGamma ℝ) (ha : 0 < prior.alpha) (hb : 0 < prior.beta) (k : ℝ)
    (hk : 0 < k) {θ : Ω → ℝ} {X : Ω → Fin n → ℝ}
    (h : DrawThenObserve P θ X (contLaw prior.dist) fun _ t => contLaw (Weibull.dist ⟨k, t⟩)) :
    RightChoices P θ X
      (fun x => contLaw (weibull_inverse_gamma_known_shape (n : ℝ) (∑ i, x i ^ k) prior).dist) :=
  (bayes_weibull prior ha hb k hk).choices h

theorem C124_normal_known_variance (prior : Normal ℝ) (hs : 0 < prior.sigma) (var : ℝ) (hv : 0 < var)
    {θ : Ω → ℝ} {X : Ω → Fin n → ℝ}
    (h : DrawThenObserve P θ X (contLaw prior.dist) fun _ m => contLaw (Normal.dist ⟨m, √var⟩)) :
    RightChoices P θ X
      (fun x => contLaw (normal_known_variance (∑ i, x i) (n : ℝ) var prior).dist) :=
  (bayes_normal_known_variance prior hs var hv).choices h

theorem C124_normal_known_precision (prior : Normal ℝ) (hs : 0 < prior.sigma) (precision : ℝ) (hv : 0 < precision)
    {θ : Ω → ℝ} {X : Ω → Fin n → ℝ}
    (h : DrawThenObserve P θ X (contLaw prior.dist) fun _ m => contLaw (Normal.dist ⟨m, √(1 / precision)⟩)) :
    RightChoices P θ X
      (fun x => contLaw (normal_known_precision (∑ i, x i) (n : ℝ) precision prior).dist) := by
  have h := C124_normal_known_variance prior hs (1 / precision) (by positivity) h
  simpa only [normal_known_precision, lit_real, Rat.cast_one] using h

theorem C124_normal_known_mean (prior : VariancePrior ℝ) (hp : prior.Valid) (mu : ℝ)
    {θ : Ω → ℝ} {X : Ω → Fin n → ℝ}
    (h : DrawThenObserve P θ X (contLaw prior.frozen) fun _ v => contLaw (Normal.dist ⟨mu, √v⟩)) :
    RightChoices P θ X
      (fun x => contLaw (normal_known_mean (∑ i, x i) (∑ i, x i ^ 2) (n : ℝ) mu prior).frozen) :=
  (bayes_normal_known_mean prior hp mu).choices h

theorem invgamma_meanVar {a b : ℝ} (ha : 2 < a) (hb : 0 < b) :
    MeanVar (contLaw (InverseGamma.dist ⟨a, b⟩)) (b / (a - 1)) (b / (a - 1) * (b / (a - 1 - 1)) - (b / (a - 1)) ^ 2) := by
  have h := meanVar_of_tilt measurable_id measurableSet_Ioi (InverseGamma.isDensity ⟨a, b⟩ (by linarith) hb)
    (InverseGamma.isDensity ⟨a - 1, b⟩ (by simp only; linarith) hb) (InverseGamma.isDensity ⟨a - 1 - 1, b⟩ (by simp only; linarith) hb)
    (fun x hx => InverseGamma.tilt ⟨a, b⟩ (by simp only; linarith) hb hx)
    (fun x hx => InverseGamma.tilt ⟨a - 1, b⟩ (by simp only; linarith) hb hx)
  rw [invgamma_lawOn _ hb]
  rwa [Measure.map_id] at h

theorem pareto_meanVar {m a : ℝ} (hm : 0 < m) (ha : 2 < a) :
    MeanVar (contLaw (Pareto.dist ⟨m, a⟩)) (a * m / (a - 1))
      (a * m / (a - 1) * ((a - 1) * m / (a - 1 - 1)) - (a * m / (a - 1)) ^ 2) := by
  have h := meanVar_of_tilt measurable_id measurableSet_Ioi (Pareto.isDensity ⟨m, a⟩ hm (by linarith))
    (Pareto.isDensity ⟨m, a - 1⟩ hm (by simp only; linarith)) (Pareto.isDensity ⟨m, a - 1 - 1⟩ hm (by simp only; linarith))
    (fun x hx => Pareto.tilt ⟨m, a⟩ hm (by simp only; linarith) hx)
    (fun x hx => Pareto.tilt ⟨m, a - 1⟩ hm (by simp only; linarith) hx)
  rw [pareto_lawOn _ hm]
  rwa [Measure.map_id] at h

/-- as soon as the variance of the posterior is finite -/
theorem C124_weibull_inverse_gamma_mean (prior : InverseGamma ℝ) (ha : 0 < prior.alpha) (hb : 0 < prior.beta) (k : ℝ)
    (hk : 0 < k) (hn : 2 < prior.alpha + n) {θ : Ω → ℝ} {X : Ω → Fin n → ℝ}
    (h : DrawThenObserve P θ X (contLaw prior.dist) fun _ t => contLaw (Weibull.dist ⟨k, t⟩)) :
    GuessByMean P θ X (contLaw prior.dist)
      (fun x => contLaw (weibull_inverse_gamma_known_shape (n : ℝ) (∑ i, x i ^ k) prior).dist) := by
  refine (bayes_weibull prior ha hb k hk).guess h
    (guess := fun x => (prior.beta + ∑ i, x i ^ k) / (prior.alpha + n - 1)) ?_ fun x hx => invgamma_meanVar hn ?_
  · fun_prop
  · have h1 : 0 ≤ ∑ i, x i ^ k := Finset.sum_nonneg fun i _ => rpow_nonneg (le_of_lt (hx i)) k
    change 0 < prior.beta + ∑ i, x i ^ k
    positivity

/-- as soon as the variance of the posterior is finite -/
theorem C124_uniform_pareto_mean (prior : Pareto ℝ) (hm : 0 < prior.x_m) (ha : 0 < prior.alpha)
    (hn : 2 < prior.alpha + ((n + 1 : ℕ) : ℝ)) {θ : Ω → ℝ}
    {X : Ω → Fin (n + 1) → ℝ}
    (h : DrawThenObserve P θ X (contLaw prior.dist) fun _ t => contLaw (Uniform.dist ⟨0, t⟩)) :
    GuessByMean P θ X (contLaw prior.dist)
      (fun x => contLaw (uniform_pareto (Finset.univ.sup' Finset.univ_nonempty x) ((n + 1 : ℕ) : ℝ) prior max).dist) := by
  refine (bayes_uniform prior hm ha).guess h
    (guess := fun x => (prior.alpha + ((n + 1 : ℕ) : ℝ)) * max prior.x_m (Finset.univ.sup' Finset.univ_nonempty x) /
      (prior.alpha + ((n + 1 : ℕ) : ℝ) - 1)) ?_ fun x hx => pareto_meanVar (lt_max_of_lt_left hm) hn
  have h1 : Measurable fun x : Fin (n + 1) → ℝ => Finset.univ.sup' Finset.univ_nonempty x := by
    have h2 := Finset.measurable_sup' (Finset.univ_nonempty (α := Fin (n + 1))) fun i _ => measurable_pi_apply (X := fun _ => ℝ) i
    convert h2 using 1
    ext x
    rw [Finset.sup'_apply]
  fun_prop

theorem C124_normal_known_variance_mean (prior : Normal ℝ) (hs : 0 < prior.sigma) (var : ℝ) (hv : 0 < var)
    {θ : Ω → ℝ} {X : Ω → Fin n → ℝ}
    (h : DrawThenObserve P θ X (contLaw prior.dist) fun _ m => contLaw (Normal.dist ⟨m, √var⟩)) :
    GuessByMean P θ X (contLaw prior.dist)
      (fun x => contLaw (normal_known_variance (∑ i, x i) (n : ℝ) var prior).dist) := by
  refine (bayes_normal_known_variance prior hs var hv).guess h
    (guess := fun x => (normal_known_variance (∑ i, x i) (n : ℝ) var prior).mu) ?_ fun x _ => normal_meanVar _ ?_
  · simp only [normal_known_variance]
    fun_prop
  · simp only [powq_real, lit_real]
    positivity

/-- as soon as the variance of the posterior is finite -/
theorem C124_normal_known_mean_mean (prior : InverseGamma ℝ) (ha : 0 < prior.alpha) (hb : 0 < prior.beta) (mu : ℝ)
    (hn : 2 < prior.alpha + (n : ℝ) / 2) {θ : Ω → ℝ} {X : Ω → Fin n → ℝ}
    (h : DrawThenObserve P θ X (contLaw prior.dist) fun _ v => contLaw (Normal.dist ⟨mu, √v⟩)) :
    GuessByMean P θ X (contLaw prior.dist)
      (fun x => contLaw (normal_known_mean (∑ i, x i) (∑ i, x i ^ 2) (n : ℝ) mu (.inverseGamma prior)).frozen) := by
  have key : ∀ x : Fin n → ℝ,
      (normal_known_mean (∑ i, x i) (∑ i, x i ^ 2) (n : ℝ) mu (.inverseGamma prior)).frozen =
        InverseGamma.dist ⟨prior.alpha + n / 2, prior.beta + 2⁻¹ * (∑ i, x i ^ 2 - 2 * mu * ∑ i, x i + n * mu ^ 2)⟩ := fun x => by
    simp [normal_known_mean, VariancePrior.frozen, normalKnownMeanInverseGammaPrior]
  have hB := bayes_normal_known_mean (n := n) (.inverseGamma prior) ⟨ha, hb⟩ mu
  refine hB.guess h (guess := fun x => (prior.beta + 2⁻¹ * (∑ i, x i ^ 2 - 2 * mu * ∑ i, x i + n * mu ^ 2)) /
    (prior.alpha + n / 2 - 1)) (by fun_prop) fun x _ => (key x ▸ invgamma_meanVar hn ?_ :)
  have e : ∑ i, (x i - mu) ^ 2 = ∑ i, x i ^ 2 - 2 * mu * ∑ i, x i + n * mu ^ 2 := by
    have : ∀ i, (x i - mu) ^ 2 = x i ^ 2 - 2 * mu * x i + mu ^ 2 := fun i => by ring
    simp only [this, Finset.sum_add_distrib, Finset.sum_sub_distrib, ← Finset.mul_sum]
    simp
  have h1 : 0 ≤ ∑ i, (x i - mu) ^ 2 := Finset.sum_nonneg fun i _ => sq_nonneg _
  rw [← e]
  positivity

theorem C124_normal_known_precision_mean (prior : Normal ℝ) (hs : 0 < prior.sigma) (precision : ℝ) (hv : 0 < precision)
    {θ : Ω → ℝ} {X : Ω → Fin n → ℝ}
    (h : DrawThenObserve P θ X (contLaw prior.dist) fun _ m => contLaw (Normal.dist ⟨m, √(1 / precision)⟩)) :
    GuessByMean P θ X (contLaw prior.dist)
      (fun x => contLaw (normal_known_precision (∑ i, x i) (n : ℝ) precision prior).dist) := by
  have h := C124_normal_known_variance_mean prior hs (1 / precision) (by positivity) h
  simpa only [normal_known_precision, lit_real, Rat.cast_one] using h

/-! ## Several unknowns -/

section Normal

variable {M : Type}

theorem C124_normal_nig (prior : NormalInverseGamma ℝ ℝ M) (nu : ℝ) (hn : prior.nu = some nu) (hnu : 0 < nu)
    (ha : 0 < prior.alpha) (hb : 0 < prior.beta) {θ : Ω → ℝ × ℝ} {X : Ω → Fin (n + 1) → ℝ}
    (h : DrawThenObserve P θ X (nigLaw prior) fun _ t => contLaw (Normal.dist ⟨t.1, √t.2⟩)) :
    ∃ post : (Fin (n + 1) → ℝ) → NormalInverseGamma ℝ ℝ M,
      (∀ x, normal (∑ i, x i) (∑ i, x i ^ 2) ((n + 1 : ℕ) : ℝ) (.nig prior) = .ok (.nig (post x))) ∧
      LossesKept P θ X (fun x => nigLaw (post x)) ∧ DecidesWell P θ X (fun x => nigLaw (post x)) := by
  obtain ⟨post, h1, h2⟩ := bayes_normal_nig (n := n) prior nu hn hnu ha hb
  exact ⟨post, h1, h2.decisions h⟩

theorem C124_normal_ng (prior : NormalGamma ℝ) (hl : 0 < prior.lam)
    (ha : 0 < prior.alpha) (hb : 0 < prior.beta) {θ : Ω → ℝ × ℝ} {X : Ω → Fin (n + 1) → ℝ}
    (h : DrawThenObserve P θ X (ngLaw prior) fun _ t => contLaw (Normal.dist ⟨t.1, √(1 / t.2)⟩)) :
    ∃ post : (Fin (n + 1) → ℝ) → NormalGamma ℝ,
      (∀ x, normal (∑ i, x i) (∑ i, x i ^ 2) ((n + 1 : ℕ) : ℝ) (.ng prior : NormalPrior ℝ M) = .ok (.ng (post x))) ∧
      LossesKept P θ X (fun x => ngLaw (post x)) ∧ DecidesWell P θ X (fun x => ngLaw (post x)) := by
  obtain ⟨post, h1, h2⟩ := bayes_normal_ng (n := n) (M := M) prior hl ha hb
  exact ⟨post, h1, h2.decisions h⟩

theorem C124_log_normal_nig (prior : NormalInverseGamma ℝ ℝ M) (nu : ℝ) (hn : prior.nu = some nu) (hnu : 0 < nu)
    (ha : 0 < prior.alpha) (hb : 0 < prior.beta) {θ : Ω → ℝ × ℝ} {X : Ω → Fin (n + 1) → ℝ}
    (h : DrawThenObserve P θ X (nigLaw prior) fun _ t => lawOn (Ioi 0) (logNormalPdf t.1 t.2)) :
    ∃ post : (Fin (n + 1) → ℝ) → NormalInverseGamma ℝ ℝ M,
      (∀ x, (∀ i, 0 < x i) →
        log_normal (∑ i, log (x i)) (∑ i, log (x i) ^ 2) ((n + 1 : ℕ) : ℝ) (.nig prior) = .ok (.nig (post x))) ∧
      LossesKept P θ X (fun x => nigLaw (post x)) ∧ DecidesWell P θ X (fun x => nigLaw (post x)) := by
  obtain ⟨post, h1, h2⟩ := bayes_log_normal_nig (n := n) prior nu hn hnu ha hb
  exact ⟨post, h1, h2.decisions h⟩

theorem C124_log_normal_ng (prior : NormalGamma ℝ) (hl : 0 < prior.lam)
    (ha : 0 < prior.alpha) (hb : 0 < prior.beta) {θ : Ω → ℝ × ℝ} {X : Ω → Fin (n + 1) → ℝ}
    (h : DrawThenObserve P θ X (ngLaw prior) fun _ t => lawOn (Ioi 0) (logNormalPdf t.1 (1 / t.2))) :
    ∃ post : (Fin (n + 1) → ℝ) → NormalGamma ℝ,
      (∀ x, (∀ i, 0 < x i) → log_normal (∑ i, log (x i)) (∑ i, log (x i) ^ 2) ((n + 1 : ℕ) : ℝ)
        (.ng prior : NormalPrior ℝ M) = .ok (.ng (post x))) ∧
      LossesKept P θ X (fun x => ngLaw (post x)) ∧ DecidesWell P θ X (fun x => ngLaw (post x)) := by
  obtain ⟨post, h1, h2⟩ := bayes_log_normal_ng (n := n) (M := M) prior hl ha hb
  exact ⟨post, h1, h2.decisions h⟩

end Normal

theorem C124_linear_regression (D : Matrix (Fin n) (Fin k) ℝ)
    (prior : NormalInverseGamma ℝ (Fin k → ℝ) (Matrix (Fin k) (Fin k) ℝ)) (Δ : Matrix (Fin k) (Fin k) ℝ)
    (hp : prior.delta_inverse = some Δ) (hD : Δ.PosDef) (ha : 0 < prior.alpha) (hb : 0 < prior.beta)
    {θ : Ω → (Fin k → ℝ) × ℝ} {Y : Ω → Fin n → ℝ}
    (h : DrawThenObserve P θ Y (nigNdLaw prior) fun i t => contLaw (Normal.dist ⟨(D *ᵥ t.1) i, √t.2⟩)) :
    ∃ post : (Fin n → ℝ) → NormalInverseGamma ℝ (Fin k → ℝ) (Matrix (Fin k) (Fin k) ℝ),
      (∀ y, linear_regression D y prior = .ok (post y)) ∧ LossesKept P θ Y (fun y => nigNdLaw (post y)) ∧ DecidesWell P θ Y (fun y => nigNdLaw (post y)) := by
  obtain ⟨post, h1, h2⟩ := bayes_linear_regression D prior Δ hp hD ha hb
  exact ⟨post, h1, h2.decisions h⟩

theorem C124_multivariate_normal_known_covariance (cov : Matrix (Fin k) (Fin k) ℝ) (hc : cov.PosDef)
    (prior : MultivariateNormal (Fin k → ℝ) (Matrix (Fin k) (Fin k) ℝ)) (hS : prior.cov.PosDef)
    {θ : Ω → Fin k → ℝ} {X : Ω → Fin n → Fin k → ℝ}
    (h : DrawThenObserve P θ X (lawOn univ prior.pdf) fun _ m => lawOn univ (MultivariateNormal.mk m cov).pdf) :
    ∃ post : (Fin n → Fin k → ℝ) → MultivariateNormal (Fin k → ℝ) (Matrix (Fin k) (Fin k) ℝ),
      (∀ x, multivariate_normal_known_covariance (n : ℝ) ((1 / (n : ℝ)) • ∑ i, x i) cov prior = .ok (post x)) ∧
      LossesKept P θ X (fun x => lawOn univ (post x).pdf) ∧ DecidesWell P θ X (fun x => lawOn univ (post x).pdf) := by
  obtain ⟨post, h1, h2⟩ := bayes_mvn_known_covariance cov hc prior hS
  exact ⟨post, h1, h2.decisions h⟩

theorem C124_multivariate_normal_known_precision (precision : Matrix (Fin k) (Fin k) ℝ) (hc : precision.PosDef)
    (prior : MultivariateNormal (Fin k → ℝ) (Matrix (Fin k) (Fin k) ℝ)) (hS : prior.cov.PosDef)
    {θ : Ω → Fin k → ℝ} {X : Ω → Fin n → Fin k → ℝ}
    (h : DrawThenObserve P θ X (lawOn univ prior.pdf) fun _ m => lawOn univ (MultivariateNormal.mk m precision⁻¹).pdf) :
    ∃ post : (Fin n → Fin k → ℝ) → MultivariateNormal (Fin k → ℝ) (Matrix (Fin k) (Fin k) ℝ),
      (∀ x, multivariate_normal_known_precision (n : ℝ) ((1 / (n : ℝ)) • ∑ i, x i) precision prior = .ok (post x)) ∧
      LossesKept P θ X (fun x => lawOn univ (post x).pdf) ∧ DecidesWell P θ X (fun x => lawOn univ (post x).pdf) := by
  obtain ⟨post, h1, h2⟩ := bayes_mvn_known_covariance (n := n) precision⁻¹ hc.inv prior hS
  refine ⟨post, fun x => ?_, h2.decisions h⟩
  have hx : (n : ℝ) • ((1 / (n : ℝ)) • ∑ i, x i) = ∑ i, x i := by
    rw [smul_smul]
    rcases Nat.eq_zero_or_pos n with rfl | hn
    · simp
    · rw [mul_one_div, div_self (by positivity), one_smul]
  have := h1 x
  rw [mvn_known_cov_eq n _ _ hx hc.inv prior hS] at this
  rw [mvn_known_prec_eq n _ _ hx hc prior hS, ← this, nonsing_inv_nonsing_inv _ (posDef_unit hc)]

theorem C124_multivariate_normal_known_mean (mu : Fin k → ℝ) (prior : InverseWishart ℝ (Matrix (Fin k) (Fin k) ℝ))
    (hnu : (k : ℝ) - 1 < prior.nu) (hpsi : prior.psi.PosDef) {θ : Ω → UpperIdx k → ℝ} {X : Ω → Fin n → Fin k → ℝ}
    (h : DrawThenObserve P θ X (lawOn {c | (symOf c).PosDef} fun c => prior.pdf (symOf c))
      fun _ c => lawOn univ (MultivariateNormal.mk mu (symOf c)).pdf) :
    LossesKept P θ X (fun x => lawOn {c | (symOf c).PosDef}
      fun c => (multivariate_normal_known_mean (Matrix.of x) mu prior).pdf (symOf c)) ∧ DecidesWell P θ X (fun x => lawOn {c | (symOf c).PosDef}
      fun c => (multivariate_normal_known_mean (Matrix.of x) mu prior).pdf (symOf c)) :=
  (bayes_mvn_known_mean mu prior hnu hpsi).decisions h

theorem C124_multivariate_normal (prior : NormalInverseWishart ℝ (Fin k → ℝ) (Matrix (Fin k) (Fin k) ℝ))
    (hk : 0 < prior.kappa) (hnu : (k : ℝ) - 1 < prior.nu) (hpsi : prior.psi.PosDef)
    {θ : Ω → (Fin k → ℝ) × (UpperIdx k → ℝ)} {X : Ω → Fin (n + 1) → Fin k → ℝ}
    (h : DrawThenObserve P θ X (niwLaw prior) fun _ t => lawOn univ (MultivariateNormal.mk t.1 (symOf t.2)).pdf) :
    ∃ post : (Fin (n + 1) → Fin k → ℝ) → NormalInverseWishart ℝ (Fin k → ℝ) (Matrix (Fin k) (Fin k) ℝ),
      (∀ x, multivariate_normal (Matrix.of x) prior = .ok (post x)) ∧ LossesKept P θ X (fun x => niwLaw (post x)) ∧ DecidesWell P θ X (fun x => niwLaw (post x)) := by
  obtain ⟨post, h1, h2⟩ := bayes_multivariate_normal (n := n) prior hk hnu hpsi
  exact ⟨post, h1, h2.decisions h⟩

theorem C124_categorical_dirichlet (prior : Dirichlet (Fin (k + 1) → ℝ)) (hp : ∀ i, 0 < prior.alpha i)
    {θ : Ω → Fin k → ℝ} {X : Ω → Fin n → Fin (k + 1)}
    (h : DrawThenObserve P θ X (dirLaw prior) fun _ p => pmfLaw (fullVector p)) :
    ∃ post : (Fin n → Fin (k + 1)) → Dirichlet (Fin (k + 1) → ℝ),
      (∀ x, categorical_dirichlet (counts (List.ofFn x)) prior = .ok (post x)) ∧
      LossesKept P θ X (fun x => dirLaw (post x)) ∧ DecidesWell P θ X (fun x => dirLaw (post x)) := by
  obtain ⟨post, h1, h2⟩ := bayes_categorical (n := n) prior hp
  exact ⟨post, h1, h2.decisions h⟩

theorem C124_multinomial_dirichlet (N : ℕ) (prior : Dirichlet (Fin (k + 1) → ℝ)) (hp : ∀ i, 0 < prior.alpha i)
    {θ : Ω → Fin k → ℝ} {X : Ω → Fin n → Fin (k + 1) → ℕ}
    (h : DrawThenObserve P θ X (dirLaw prior) fun _ p => pmfLaw (Multinomial.mk (N : ℝ) (fullVector p)).pmf) :
    ∃ post : (Fin n → Fin (k + 1) → ℕ) → Dirichlet (Fin (k + 1) → ℝ),
      (∀ x, multinomial_dirichlet (columnSums (List.ofFn x)) prior = .ok (post x)) ∧
      LossesKept P θ X (fun x => dirLaw (post x)) ∧ DecidesWell P θ X (fun x => dirLaw (post x)) := by
  obtain ⟨post, h1, h2⟩ := bayes_multinomial (n := n) N prior hp
  exact ⟨post, h1, h2.decisions h⟩

/-! ## Exponential data

With the arguments as documented neither reading of the unknown keeps the losses. -/

theorem C124_exponential_gamma_rate_false (prior : Gamma ℝ) (ha : 0 < prior.alpha) (hb : 0 < prior.beta) (hn : 0 < n)
    {θ : Ω → ℝ} {X : Ω → Fin n → ℝ}
    (h : DrawThenObserve P θ X (contLaw prior.dist) fun _ r => contLaw (Exponential.dist ⟨1 / r⟩)) :
    ¬ LossesKept P θ X (fun x => contLaw (exponential_gamma (∑ i, x i) (n : ℝ) prior).dist) := fun hl =>
  C103_exponential_gamma_rate_false prior ha hb hn h (hl.calibrated h.measurable_unknown h.measurable_data)

theorem C124_exponential_gamma_mean_false (prior : Gamma ℝ) (ha : 0 < prior.alpha) (hb : 0 < prior.beta) (hn : 0 < n)
    {θ : Ω → ℝ} {X : Ω → Fin n → ℝ}
    (h : DrawThenObserve P θ X (contLaw prior.dist) fun _ m => contLaw (Exponential.dist ⟨m⟩)) :
    ¬ LossesKept P θ X (fun x => contLaw (exponential_gamma (∑ i, x i) (n : ℝ) prior).dist) := fun hl =>
  C103_exponential_gamma_mean_false prior ha hb hn h (hl.calibrated h.measurable_unknown h.measurable_data)

/-! ## Not for every data set -/

/-- The variance of the posterior may exceed that of the prior: 1 success in 1 trial under Beta(1, 10). It is at most that of
the prior on average (`C124_binomial_beta_mean`). -/
theorem C124_variance_grows_false : ¬ ∀ (prior : Beta ℝ), 0 < prior.alpha → 0 < prior.beta → ∀ x n : ℕ, x ≤ n →
    ∀ m v m' v', MeanVar (contLaw prior.dist) m v → MeanVar (contLaw (binomial_beta (n : ℝ) (x : ℝ) prior).dist) m' v' →
      v' ≤ v := by
  intro h
  have h1 := h ⟨1, 10⟩ (by norm_num) (by norm_num) 1 1 le_rfl _ _ _ _ (beta_meanVar (by norm_num) (by norm_num))
    (beta_meanVar (by norm_num [binomial_beta, getBinomialBetaPosteriorParams]) (by norm_num [binomial_beta, getBinomialBetaPosteriorParams]))
  norm_num [binomial_beta, getBinomialBetaPosteriorParams] at h1

/-! ## The hypotheses are met -/

example := (bayes_binomial (n := 3) ⟨1, 2⟩ one_pos two_pos 10).exists_draw
example := (bayes_exponential (n := 3) ⟨1, 2⟩ one_pos two_pos).exists_draw
example := (bayes_uniform (n := 3) ⟨1, 2⟩ one_pos two_pos).exists_draw
example := (bayes_weibull (n := 3) ⟨1, 2⟩ one_pos two_pos (1 / 2) (by norm_num)).exists_draw
example := (bayes_normal_known_mean (n := 3) (.inverseGamma ⟨1, 2⟩) ⟨one_pos, two_pos⟩ 5).exists_draw

/-- on an actual probability space: the mean of the posterior after 5 counts beats every other guess -/
example : ∃ (Ω : Type) (_ : MeasurableSpace Ω) (P : Measure Ω) (θ : Ω → ℝ) (X : Ω → Fin 5 → ℤ),
    DrawThenObserve P θ X (contLaw (Gamma.dist ⟨5, 1⟩)) (fun _ l => discLaw (Poisson.dist ⟨l⟩)) ∧
    GuessByMean P θ X (contLaw (Gamma.dist ⟨5, 1⟩))
      (fun x => contLaw (poisson_gamma (∑ i, (x i : ℝ)) ((5 : ℕ) : ℝ) ⟨5, 1⟩).dist) := by
  have h5 : (0 : ℝ) < 5 := by norm_num
  obtain ⟨Ω, m, P, θ, X, -, h⟩ := (bayes_poisson (n := 5) ⟨5, 1⟩ h5 one_pos).exists_draw
  exact ⟨Ω, m, P, θ, X, h, C124_poisson_gamma_mean ⟨5, 1⟩ h5 one_pos h⟩

end Conj
