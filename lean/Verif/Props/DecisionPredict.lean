import Verif.Lemmas.DecisionPredict

/-!
# C125: decisions about a new observation, taken by the predictive distribution, are best decisions
-/

open MeasureTheory Set Real

namespace Conj

open Scipy Spec

variable {Ω : Type} [MeasurableSpace Ω] {P : Measure Ω} {n : ℕ}

section Beta

variable (prior : Beta ℝ) (ha : 0 < prior.alpha) (hb : 0 < prior.beta)
include ha hb

/-- C125. After binomial experiments of `N` trials each: the number of successes in `M` new trials. -/
theorem C125_binomial_beta (N M : ℕ) {θ : Ω → ℝ} {X : Ω → Fin n → ℤ} {Y : Ω → ℤ}
    (h : DrawThenPredict P θ X Y (contLaw prior.dist) (fun _ p => discLaw (Binomial.dist ⟨(N : ℝ), p⟩))
      fun p => discLaw (Binomial.dist ⟨(M : ℝ), p⟩)) :
    RightChoices P (fun ω => (Y ω : ℝ)) X fun x => discRealLaw (binomial_beta_predictive (M : ℝ)
      (binomial_beta ((n : ℝ) * N) (∑ i, (x i : ℝ)) prior)).dist := by
  refine choices_disc (bayes_binomial prior ha hb N) h (measurable_binomial_pmf M)
    (fun p hp => binomial_nonneg M hp.1.le hp.2.le) (fun p hp => binomial_prob M hp.1.le hp.2.le)
    fun x hx => C24_binomial_beta_predictive M _ ?_ ?_
  · have : 0 ≤ ∑ i, (x i : ℝ) := Finset.sum_nonneg fun i _ => by exact_mod_cast (hx i).1
    simp only [binomial_beta, getBinomialBetaPosteriorParams]
    positivity
  · have : ∑ i, (x i : ℝ) ≤ (n : ℝ) * N := by
      have h2 : ∀ i ∈ Finset.univ, (x i : ℝ) ≤ N := fun i _ => by exact_mod_cast (hx i).2
      simpa using Finset.sum_le_card_nsmul _ _ _ h2
    simp only [binomial_beta, getBinomialBetaPosteriorParams]
    linarith

/-- C125. After a sequence of flips, absorbed one at a time: the next flip. -/
theorem C125_bernoulli_beta {θ : Ω → ℝ} {X : Ω → Fin n → Bool} {Y : Ω → ℤ}
    (h : DrawThenPredict P θ X Y (contLaw prior.dist) (fun _ p => pmfLaw fun b : Bool => if b then p else 1 - p)
      fun p => discLaw (Binomial.dist ⟨1, p⟩)) :
    RightChoices P (fun ω => (Y ω : ℝ)) X fun x => discRealLaw (bernoulli_beta_predictive ((List.ofFn x).foldl
      (fun d b => bernoulli_beta (if b then 1 else 0 : ℝ) d) prior)).dist := by
  have e : ∀ p, Binomial.dist ⟨1, p⟩ = Binomial.dist ⟨((1 : ℕ) : ℝ), p⟩ := fun p => by simp
  have key : ∀ (l : List Bool) (d : Beta ℝ), 0 < d.alpha → 0 < d.beta →
      0 < (l.foldl (fun d b => bernoulli_beta (if b then 1 else 0 : ℝ) d) d).alpha ∧
      0 < (l.foldl (fun d b => bernoulli_beta (if b then 1 else 0 : ℝ) d) d).beta := by
    intro l
    induction l with
    | nil => exact fun d h1 h2 => ⟨h1, h2⟩
    | cons b l ih =>
      intro d h1 h2
      refine ih _ ?_ ?_ <;> cases b <;>
        simp [bernoulli_beta, binomial_beta, getBinomialBetaPosteriorParams] <;> linarith
  refine choices_disc (bayes_bernoulli prior ha hb) h (fun k => ?_)
    (fun p hp => by rw [e]; exact binomial_nonneg 1 hp.1.le hp.2.le)
    (fun p hp => by rw [e]; exact binomial_prob 1 hp.1.le hp.2.le)
    fun x _ => C24_bernoulli_beta_predictive _ (key _ _ ha hb).1 (key _ _ ha hb).2
  exact measurable_binomial_pmf 1 k

/-- C125. After counts of failures before the `r`-th success: a new such count. -/
theorem C125_negative_binomial_beta (r : ℝ) (hr : 0 < r) {θ : Ω → ℝ} {X : Ω → Fin n → ℤ} {Y : Ω → ℤ}
    (h : DrawThenPredict P θ X Y (contLaw prior.dist) (fun _ p => discLaw (NegativeBinomial.dist ⟨r, p⟩))
      fun p => discLaw (NegativeBinomial.dist ⟨r, p⟩)) :
    RightChoices P (fun ω => (Y ω : ℝ)) X fun x => discRealLaw (negative_binomial_beta_predictive r
      (negative_binomial_beta r (n : ℝ) (∑ i, (x i : ℝ)) prior)).dist := by
  refine choices_disc (bayes_negative_binomial prior ha hb r hr) h (fun k => ?_)
    (fun p hp => nb_nonneg r _ hr hp.1.le hp.2.le) (fun p hp => nb_prob hr hp.1 hp.2.le)
    fun x hx => C25_negative_binomial_beta_predictive r hr _ ?_ ?_
  · simp only [NegativeBinomial.dist, Disc.pmf, DiscFamily.pmf0]
    split_ifs <;> fun_prop
  · simp only [negative_binomial_beta]
    positivity
  · have : 0 ≤ ∑ i, (x i : ℝ) := Finset.sum_nonneg fun i _ => by exact_mod_cast hx i
    simp only [negative_binomial_beta]
    positivity

end Beta

section Gamma

variable (prior : Gamma ℝ) (ha : 0 < prior.alpha) (hb : 0 < prior.beta)
include ha hb

theorem poisson_gamma_choices {pred : Gamma ℝ → Disc} {w : ℝ} (hw : 0 < w)
    (hp : ∀ d : Gamma ℝ, 0 < d.alpha → 0 < d.beta →
      ∀ k, IsPredictive volume (Ioi 0) (fun l => (Poisson.dist ⟨w * l⟩).pmf k) d.dist.pdf ((pred d).pmf k))
    {θ : Ω → ℝ} {X : Ω → Fin n → ℤ} {Y : Ω → ℤ}
    (h : DrawThenPredict P θ X Y (contLaw prior.dist) (fun _ l => discLaw (Poisson.dist ⟨l⟩))
      fun l => discLaw (Poisson.dist ⟨w * l⟩)) :
    RightChoices P (fun ω => (Y ω : ℝ)) X fun x => discRealLaw (pred (poisson_gamma (∑ i, (x i : ℝ)) (n : ℝ) prior)) := by
  refine choices_disc (bayes_poisson prior ha hb) h (fun k => ?_)
    (fun l hl => poisson_nonneg _ (mul_nonneg hw.le (le_of_lt hl))) (fun l hl => poisson_prob (mul_nonneg hw.le (le_of_lt hl)))
    fun x hx => hp _ (poisson_gamma_pos prior ha hb hx).1 (poisson_gamma_pos prior ha hb hx).2
  simp only [Poisson.dist, Disc.pmf, DiscFamily.pmf0]
  split_ifs <;> fun_prop

/-- C125 (partial). After Poisson counts: the count in one more interval (`n = 1`, the default). What is missing: other
values of `n`, for which the claim is false. -/
theorem C125_poisson_gamma_partial {θ : Ω → ℝ} {X : Ω → Fin n → ℤ} {Y : Ω → ℤ}
    (h : DrawThenPredict P θ X Y (contLaw prior.dist) (fun _ l => discLaw (Poisson.dist ⟨l⟩))
      fun l => discLaw (Poisson.dist ⟨l⟩)) :
    RightChoices P (fun ω => (Y ω : ℝ)) X fun x => discRealLaw (poisson_gamma_predictive
      (poisson_gamma (∑ i, (x i : ℝ)) (n : ℝ) prior)).dist := by
  have h' : DrawThenPredict P θ X Y (contLaw prior.dist) (fun _ l => discLaw (Poisson.dist ⟨l⟩))
      fun l => discLaw (Poisson.dist ⟨1 * l⟩) := by simpa only [one_mul] using h
  have hp : ∀ d : Gamma ℝ, 0 < d.alpha → 0 < d.beta → ∀ k,
      IsPredictive volume (Ioi 0) (fun l => (Poisson.dist ⟨1 * l⟩).pmf k) d.dist.pdf
        ((poisson_gamma_predictive d).dist.pmf k) := fun d h1 h2 k => by
    have := C27_poisson_gamma_predictive_partial d h1 h2 k
    simpa [poisson_gamma_predictive] using this
  exact poisson_gamma_choices prior ha hb one_pos hp h'

/-- C125. After waiting times with known shape: a new waiting time. -/
theorem C125_gamma_known_shape (shape : ℝ) (hk : 0 < shape) {θ : Ω → ℝ} {X : Ω → Fin n → ℝ} {Y : Ω → ℝ}
    (h : DrawThenPredict P θ X Y (contLaw prior.dist) (fun _ r => contLaw (Gamma.dist ⟨shape, r⟩))
      fun r => contLaw (Gamma.dist ⟨shape, r⟩)) :
    RightChoices P Y X fun x => lawOn (Ioi 0) (gamma_known_shape_predictive
      (gamma_known_shape (∑ i, x i) (n : ℝ) shape prior) shape).pdf := by
  refine choices_cont (bayes_gamma_known_shape prior ha hb shape hk) measurableSet_Ioi h
    (measurable_loc_scale (loc := fun _ : ℝ => 0) (scale := fun l : ℝ => 1 / l) (measurable_std_gamma _)
      measurable_const (by fun_prop)) (fun r hr y => ?_) (fun r hr => gamma_lawOn ⟨shape, r⟩ hr)
    (fun r hr => gamma_prob hk hr) fun x hx y hy => C29_gamma_known_shape_predictive shape hk _ ?_ ?_ y hy
  · have hr : 0 < r := hr
    have := Real.Gamma_pos_of_pos hk
    simp only [Gamma.dist, Cont.pdf, Family.std, sub_zero]
    split_ifs <;> positivity
  · simp only [gamma_known_shape]
    positivity
  · have : 0 ≤ ∑ i, x i := Finset.sum_nonneg fun i _ => le_of_lt (hx i)
    simp only [gamma_known_shape]
    positivity

theorem exponential_choices {θ : Ω → ℝ} {X : Ω → Fin n → ℝ} {Y : Ω → ℝ}
    (h : DrawThenPredict P θ X Y (contLaw prior.dist) (fun _ r => contLaw (Exponential.dist ⟨1 / r⟩))
      fun r => contLaw (Exponential.dist ⟨1 / r⟩)) :
    RightChoices P Y X fun x => lawOn (Ioi 0) (Lomax.dist ⟨prior.alpha + n, prior.beta + ∑ i, x i⟩).pdf := by
  refine choices_cont (bayes_exponential prior ha hb) measurableSet_Ioi h
    (measurable_loc_scale (loc := fun _ : ℝ => 0) (scale := fun θ : ℝ => 1 / θ) measurable_std_expon measurable_const
      (by fun_prop)) (fun r hr y => ?_) (fun r hr => exponential_lawOn (one_div_pos.2 hr))
    (fun r hr => exponential_prob (one_div_pos.2 hr)) fun x hx y hy =>
      exponential_predictive_true (exponential_gamma (n : ℝ) (∑ i, x i) prior) ?_ ?_ y (le_of_lt hy)
  · have hr : 0 < r := hr
    simp only [Exponential.dist, Cont.pdf, Family.std, sub_zero]
    split_ifs <;> positivity
  · simp only [exponential_gamma, getExponentialGammaPosteriorParams, getPoissonGammaPosteriorParams]
    positivity
  · have := sum_ofFn_nonneg hx
    simp only [exponential_gamma, getExponentialGammaPosteriorParams, getPoissonGammaPosteriorParams]
    positivity

/-- C125 (partial). After exponential waiting times: decisions about a new one are best if the two parameters of the
prior are entered in exchanged order. What is missing: the prior as documented, for which the claim is false unless
its parameters are equal. -/
theorem C125_exponential_gamma_swapped_partial {θ : Ω → ℝ} {X : Ω → Fin n → ℝ} {Y : Ω → ℝ}
    (h : DrawThenPredict P θ X Y (contLaw prior.dist) (fun _ r => contLaw (Exponential.dist ⟨1 / r⟩))
      fun r => contLaw (Exponential.dist ⟨1 / r⟩)) :
    RightChoices P Y X fun x => lawOn (Ioi 0) (exponential_gamma_predictive
      (exponential_gamma (∑ i, x i) (n : ℝ) ⟨prior.beta, prior.alpha⟩)).dist.pdf :=
  exponential_choices prior ha hb h

end Gamma

/-! ## Normal observations -/

/-- C125. Normal observations with known variance: a new observation. -/
theorem C125_normal_known_variance (prior : Normal ℝ) (hs : 0 < prior.sigma) (var : ℝ) (hv : 0 < var)
    {θ : Ω → ℝ} {X : Ω → Fin n → ℝ} {Y : Ω → ℝ}
    (h : DrawThenPredict P θ X Y (contLaw prior.dist) (fun _ m => contLaw (Normal.dist ⟨m, √var⟩))
      fun m => contLaw (Normal.dist ⟨m, √var⟩)) :
    RightChoices P Y X fun x => contLaw (normal_known_variance_predictive var
      (normal_known_variance (∑ i, x i) (n : ℝ) var prior)).dist := by
  simp only [norm_lawOn (normal_known_variance_predictive _ _)]
  refine choices_cont (bayes_normal_known_variance prior hs var hv) MeasurableSet.univ h
    (measurable_loc_scale (loc := fun m : ℝ => m) (scale := fun _ : ℝ => √var) measurable_std_norm
      measurable_id measurable_const) (fun m _ => normal_pdf_nonneg m (sqrt_pos.2 hv)) (fun m _ => norm_lawOn _)
    (fun m _ => normal_prob m (sqrt_pos.2 hv)) fun x _ y _ => C30_normal_known_variance_predictive var hv _ ?_ y
  simp only [normal_known_variance, powq_half, powq_two, lit_real, Rat.cast_one]
  exact sqrt_pos.2 (by positivity)

/-- C125. Normal observations with known precision: a new observation. -/
theorem C125_normal_known_precision (prior : Normal ℝ) (hs : 0 < prior.sigma) (precision : ℝ) (hv : 0 < precision)
    {θ : Ω → ℝ} {X : Ω → Fin n → ℝ} {Y : Ω → ℝ}
    (h : DrawThenPredict P θ X Y (contLaw prior.dist) (fun _ m => contLaw (Normal.dist ⟨m, √(1 / precision)⟩))
      fun m => contLaw (Normal.dist ⟨m, √(1 / precision)⟩)) :
    RightChoices P Y X fun x => contLaw (normal_known_precision_predictive precision
      (normal_known_precision (∑ i, x i) (n : ℝ) precision prior)).dist := by
  have h := C125_normal_known_variance prior hs (1 / precision) (by positivity) h
  simpa only [normal_known_precision, normal_known_precision_predictive, lit_real, Rat.cast_one] using h

/-- C125. Normal observations with known mean: a new observation; either class of prior for the variance. -/
theorem C125_normal_known_mean (prior : VariancePrior ℝ) (hp : prior.Valid) (mu : ℝ)
    {θ : Ω → ℝ} {X : Ω → Fin n → ℝ} {Y : Ω → ℝ}
    (h : DrawThenPredict P θ X Y (contLaw prior.frozen) (fun _ v => contLaw (Normal.dist ⟨mu, √v⟩))
      fun v => contLaw (Normal.dist ⟨mu, √v⟩)) :
    RightChoices P Y X fun x => contLaw (normal_known_mean_predictive mu
      (normal_known_mean (∑ i, x i) (∑ i, x i ^ 2) (n : ℝ) mu prior)).dist := by
  have e : ∀ d : Cont, contLaw d = lawOn univ d.pdf := fun d => (lawOn_univ _).symm
  simp only [e (normal_known_mean_predictive _ _).dist]
  refine choices_cont (bayes_normal_known_mean prior hp mu) MeasurableSet.univ h
    (measurable_loc_scale (loc := fun _ : ℝ => mu) (scale := fun v : ℝ => √v) measurable_std_norm
      measurable_const (by fun_prop)) (fun v hv => normal_pdf_nonneg mu (sqrt_pos.2 hv)) (fun v _ => norm_lawOn _)
    (fun v hv => normal_prob mu (sqrt_pos.2 hv)) fun x _ y _ => ?_
  have hv : (normal_known_mean (∑ i, x i) (∑ i, x i ^ 2) (n : ℝ) mu prior).Valid := by
    have h := normal_known_mean_valid prior hp mu (List.ofFn x)
    rw [List.map_ofFn, List.sum_ofFn, List.sum_ofFn, List.length_ofFn] at h
    exact h
  rw [(VariancePrior.frozen_lawOn _ hv).2.1]
  exact C31_normal_known_mean_predictive mu _ hv y

end Conj
