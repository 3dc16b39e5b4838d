import Verif.Lemmas.Prediction
import Verif.Props.Calibration
import Verif.Props.CalibrationExponential
import Verif.Props.Forecast

/-!
# C116: announced predictions are kept

The unknown is drawn from the prior, the observations from the model, and then a new value. Regions for the new value
announced from the predictive distribution at the posterior contain it as often as announced; the limit
`dist.ppf(p)` of docs/examples/limit.md is kept with probability `p`.
-/

open MeasureTheory Set Real

namespace Conj

open Scipy Spec

variable {Ω : Type} [MeasurableSpace Ω] {P : Measure Ω} {n : ℕ}

/-! ## Counts and measured values -/

section Generic

theorem newDensity_disc {Θ : Type} [MeasureSpace Θ] {S : Set Θ} {d : Θ → Disc} (hm : ∀ k, Measurable fun t => (d t).pmf k)
    (h0 : ∀ t ∈ S, ∀ k, 0 ≤ (d t).pmf k) (hp : ∀ t ∈ S, IsProbabilityMeasure (discLaw (d t))) :
    NewDensity S Measure.count (fun t k => (d t).pmf k) fun t => discLaw (d t) where
  meas := measurable_from_prod_countable_left hm
  nonneg := h0
  law _ _ := rfl
  prob := hp

variable {Θ A : Type} [MeasureSpace Θ] [SFinite (volume : Measure Θ)] [MeasurableSpace A] {S : Set Θ} {prior : Θ → ℝ}
  {ν : Fin n → Measure A} [∀ i, SigmaFinite (ν i)] {D : Fin n → Set A} {f : Fin n → Θ → A → ℝ}
  {post : (Fin n → A) → Θ → ℝ} {priorLaw : Measure Θ} {model : Fin n → Θ → Measure A}
  {postLaw : (Fin n → A) → Measure Θ} {θ : Ω → Θ} {X : Ω → Fin n → A}
  (h : BayesModel S prior ν D f post priorLaw model postLaw)
include h

/-- predicting a count -/
theorem kept_disc {Y : Ω → ℤ} {d : Θ → Disc} (hd : DrawThenPredict P θ X Y priorLaw model fun t => discLaw (d t))
    (hm : ∀ k, Measurable fun t => (d t).pmf k)
    (h0 : ∀ t ∈ S, ∀ k, 0 ≤ (d t).pmf k) (hp : ∀ t ∈ S, IsProbabilityMeasure (discLaw (d t)))
    {pred : (Fin n → A) → Disc}
    (hpred : ∀ x, (∀ i, x i ∈ D i) → ∀ k, IsPredictive volume S (fun t => (d t).pmf k) (post x) ((pred x).pmf k)) :
    PredictionsKept P X Y (fun x => discLaw (pred x)) ∧
    LimitsKept P X (fun ω => (Y ω : ℝ)) fun x => discRealLaw (pred x) := by
  have := h.prob hd.past
  have hg := newDensity_disc hm h0 hp
  have hn := hg.newModel h.hS
  have hmix := h.mixes hg (pred := fun x => discLaw (pred x)) (pr := fun x k => (pred x).pmf k) (fun x _ => rfl)
    fun x hx => Filter.Eventually.of_forall (hpred x hx)
  have hc : Measurable fun k : ℤ => (k : ℝ) := measurable_of_countable _
  refine ⟨h.predictions_kept hn hd hmix, h.limits_kept (hn.map hc) (hd.map hc) fun x hx U hU => ?_⟩
  rw [discRealLaw, Measure.map_apply hc hU, hmix x hx _ (hc hU)]
  simp only [Measure.map_apply hc hU]

/-- predicting a measured value in `T` -/
theorem kept_cont {Y : Ω → ℝ} {d : Θ → Cont} {T : Set ℝ} (hT : MeasurableSet T)
    (hd : DrawThenPredict P θ X Y priorLaw model fun t => contLaw (d t))
    (hm : Measurable fun q : Θ × ℝ => (d q.1).pdf q.2) (h0 : ∀ t ∈ S, ∀ y, 0 ≤ (d t).pdf y)
    (hl : ∀ t ∈ S, contLaw (d t) = lawOn T (d t).pdf) (hp : ∀ t ∈ S, IsProbabilityMeasure (contLaw (d t)))
    {pred : (Fin n → A) → ℝ → ℝ}
    (hpred : ∀ x, (∀ i, x i ∈ D i) → ∀ y ∈ T, IsPredictive volume S (fun t => (d t).pdf y) (post x) (pred x y)) :
    PredictionsKept P X Y (fun x => lawOn T (pred x)) ∧ LimitsExact P X Y fun x => lawOn T (pred x) := by
  have := h.prob hd.past
  have hg : NewDensity S (volume.restrict T) (fun t y => (d t).pdf y) fun t => contLaw (d t) := ⟨hm, h0, hl, hp⟩
  have hn := hg.newModel h.hS
  have hmix := h.mixes hg (pred := fun x => lawOn T (pred x)) (pr := pred) (fun x _ => rfl)
    fun x hx => by filter_upwards [ae_restrict_mem hT] with y hy using hpred x hx y hy
  refine ⟨h.predictions_kept hn hd hmix, h.limits_exact hn hd hmix fun x _ => ?_⟩
  rw [lawOn]
  infer_instance

end Generic

section Beta

variable (prior : Beta ℝ) (ha : 0 < prior.alpha) (hb : 0 < prior.beta)
include ha hb

/-- C116. After binomial experiments of `N` trials each: the number of successes in `M` new trials. -/
theorem C116_binomial_beta (N M : ℕ) {θ : Ω → ℝ} {X : Ω → Fin n → ℤ} {Y : Ω → ℤ}
    (h : DrawThenPredict P θ X Y (contLaw prior.dist) (fun _ p => discLaw (Binomial.dist ⟨(N : ℝ), p⟩))
      fun p => discLaw (Binomial.dist ⟨(M : ℝ), p⟩)) :
    PredictionsKept P X Y (fun x => discLaw (binomial_beta_predictive (M : ℝ)
      (binomial_beta ((n : ℝ) * N) (∑ i, (x i : ℝ)) prior)).dist) ∧
    LimitsKept P X (fun ω => (Y ω : ℝ)) fun x => discRealLaw (binomial_beta_predictive (M : ℝ)
      (binomial_beta ((n : ℝ) * N) (∑ i, (x i : ℝ)) prior)).dist := by
  refine kept_disc (bayes_binomial prior ha hb N) h (measurable_binomial_pmf M)
    (fun p hp => binomial_nonneg M hp.1.le hp.2.le) (fun p hp => binomial_prob M hp.1.le hp.2.le)
    fun x hx => C24_binomial_beta_predictive M _ ?_ ?_
  · have : 0 ≤ ∑ i, (x i : ℝ) := Finset.sum_nonneg fun i _ => by exact_mod_cast (hx i).1
    simp only [binomial_beta, getBinomialBetaPosteriorParams]
    positivity
  · have : ∑ i, (x i : ℝ) ≤ (n : ℝ) * N := by
      have h2 : ∀ i ∈ Finset.univ, (x i : ℝ) ≤ N := fun i _ => by exact_mod_cast (hx i).2
      simpa using Finset.sum_le_card_nsmul _ _ _ h2
    simp only [binomial_beta, getBinomialBetaPosteriorParams]
    linarith

/-- C116. After a sequence of flips, absorbed one at a time: the next flip. -/
theorem C116_bernoulli_beta {θ : Ω → ℝ} {X : Ω → Fin n → Bool} {Y : Ω → ℤ}
    (h : DrawThenPredict P θ X Y (contLaw prior.dist) (fun _ p => pmfLaw fun b : Bool => if b then p else 1 - p)
      fun p => discLaw (Binomial.dist ⟨1, p⟩)) :
    PredictionsKept P X Y (fun x => discLaw (bernoulli_beta_predictive ((List.ofFn x).foldl
      (fun d b => bernoulli_beta (if b then 1 else 0 : ℝ) d) prior)).dist) ∧
    LimitsKept P X (fun ω => (Y ω : ℝ)) fun x => discRealLaw (bernoulli_beta_predictive ((List.ofFn x).foldl
      (fun d b => bernoulli_beta (if b then 1 else 0 : ℝ) d) prior)).dist := by
  have e : ∀ p, Binomial.dist ⟨1, p⟩ = Binomial.dist ⟨((1 : ℕ) : ℝ), p⟩ := fun p => by simp
  have key : ∀ (l : List Bool) (d : Beta ℝ), 0 < d.alpha → 0 < d.beta →
      0 < (l.foldl (fun d b => bernoulli_beta (if b then 1 else 0 : ℝ) d) d).alpha ∧
      0 < (l.foldl (fun d b => bernoulli_beta (if b then 1 else 0 : ℝ) d) d).beta := by
    intro l
    induction l with
    | nil => exact fun d h1 h2 => ⟨h1, h2⟩
    | cons b l ih =>
      intro d h1 h2
      refine ih _ ?_ ?_ <;> cases b <;>
        simp [bernoulli_beta, binomial_beta, getBinomialBetaPosteriorParams] <;> linarith
  refine kept_disc (bayes_bernoulli prior ha hb) h (fun k => ?_)
    (fun p hp => by rw [e]; exact binomial_nonneg 1 hp.1.le hp.2.le)
    (fun p hp => by rw [e]; exact binomial_prob 1 hp.1.le hp.2.le)
    fun x _ => C24_bernoulli_beta_predictive _ (key _ _ ha hb).1 (key _ _ ha hb).2
  exact measurable_binomial_pmf 1 k

/-- C116. After counts of failures before the `r`-th success: a new such count. -/
theorem C116_negative_binomial_beta (r : ℝ) (hr : 0 < r) {θ : Ω → ℝ} {X : Ω → Fin n → ℤ} {Y : Ω → ℤ}
    (h : DrawThenPredict P θ X Y (contLaw prior.dist) (fun _ p => discLaw (NegativeBinomial.dist ⟨r, p⟩))
      fun p => discLaw (NegativeBinomial.dist ⟨r, p⟩)) :
    PredictionsKept P X Y (fun x => discLaw (negative_binomial_beta_predictive r
      (negative_binomial_beta r (n : ℝ) (∑ i, (x i : ℝ)) prior)).dist) ∧
    LimitsKept P X (fun ω => (Y ω : ℝ)) fun x => discRealLaw (negative_binomial_beta_predictive r
      (negative_binomial_beta r (n : ℝ) (∑ i, (x i : ℝ)) prior)).dist := by
  refine kept_disc (bayes_negative_binomial prior ha hb r hr) h (fun k => ?_)
    (fun p hp => nb_nonneg r _ hr hp.1.le hp.2.le) (fun p hp => nb_prob hr hp.1 hp.2.le)
    fun x hx => C25_negative_binomial_beta_predictive r hr _ ?_ ?_
  · simp only [NegativeBinomial.dist, Disc.pmf, DiscFamily.pmf0]
    split_ifs <;> fun_prop
  · simp only [negative_binomial_beta]
    positivity
  · have : 0 ≤ ∑ i, (x i : ℝ) := Finset.sum_nonneg fun i _ => by exact_mod_cast hx i
    simp only [negative_binomial_beta]
    positivity

end Beta

section Gamma

variable (prior : Gamma ℝ) (ha : 0 < prior.alpha) (hb : 0 < prior.beta)
include ha hb

theorem poisson_gamma_pos {x : Fin n → ℤ} (hx : ∀ i, x i ∈ Ici (0 : ℤ)) :
    0 < (poisson_gamma (∑ i, (x i : ℝ)) (n : ℝ) prior).alpha ∧
      0 < (poisson_gamma (∑ i, (x i : ℝ)) (n : ℝ) prior).beta := by
  have : 0 ≤ ∑ i, (x i : ℝ) := Finset.sum_nonneg fun i _ => by exact_mod_cast hx i
  constructor <;> simp only [poisson_gamma, getPoissonGammaPosteriorParams] <;> positivity

theorem poisson_gamma_kept {pred : Gamma ℝ → Disc} {w : ℝ} (hw : 0 < w)
    (hp : ∀ d : Gamma ℝ, 0 < d.alpha → 0 < d.beta →
      ∀ k, IsPredictive volume (Ioi 0) (fun l => (Poisson.dist ⟨w * l⟩).pmf k) d.dist.pdf ((pred d).pmf k))
    {θ : Ω → ℝ} {X : Ω → Fin n → ℤ} {Y : Ω → ℤ}
    (h : DrawThenPredict P θ X Y (contLaw prior.dist) (fun _ l => discLaw (Poisson.dist ⟨l⟩))
      fun l => discLaw (Poisson.dist ⟨w * l⟩)) :
    PredictionsKept P X Y (fun x => discLaw (pred (poisson_gamma (∑ i, (x i : ℝ)) (n : ℝ) prior))) ∧
    LimitsKept P X (fun ω => (Y ω : ℝ)) fun x => discRealLaw (pred (poisson_gamma (∑ i, (x i : ℝ)) (n : ℝ) prior)) := by
  refine kept_disc (bayes_poisson prior ha hb) h (fun k => ?_)
    (fun l hl => poisson_nonneg _ (mul_nonneg hw.le (le_of_lt hl))) (fun l hl => poisson_prob (mul_nonneg hw.le (le_of_lt hl)))
    fun x hx => hp _ (poisson_gamma_pos prior ha hb hx).1 (poisson_gamma_pos prior ha hb hx).2
  simp only [Poisson.dist, Disc.pmf, DiscFamily.pmf0]
  split_ifs <;> fun_prop

/-- C116 (partial). After Poisson counts: the count in one more interval (`n = 1`, the default). What is missing: other
values of `n`, for which the claim is false. -/
theorem C116_poisson_gamma_partial {θ : Ω → ℝ} {X : Ω → Fin n → ℤ} {Y : Ω → ℤ}
    (h : DrawThenPredict P θ X Y (contLaw prior.dist) (fun _ l => discLaw (Poisson.dist ⟨l⟩))
      fun l => discLaw (Poisson.dist ⟨l⟩)) :
    PredictionsKept P X Y (fun x => discLaw (poisson_gamma_predictive
      (poisson_gamma (∑ i, (x i : ℝ)) (n : ℝ) prior)).dist) ∧
    LimitsKept P X (fun ω => (Y ω : ℝ)) fun x => discRealLaw (poisson_gamma_predictive
      (poisson_gamma (∑ i, (x i : ℝ)) (n : ℝ) prior)).dist := by
  have h' : DrawThenPredict P θ X Y (contLaw prior.dist) (fun _ l => discLaw (Poisson.dist ⟨l⟩))
      fun l => discLaw (Poisson.dist ⟨1 * l⟩) := by simpa only [one_mul] using h
  have hp : ∀ d : Gamma ℝ, 0 < d.alpha → 0 < d.beta → ∀ k,
      IsPredictive volume (Ioi 0) (fun l => (Poisson.dist ⟨1 * l⟩).pmf k) d.dist.pdf
        ((poisson_gamma_predictive d).dist.pmf k) := fun d h1 h2 k => by
    have := C27_poisson_gamma_predictive_partial d h1 h2 k
    simpa [poisson_gamma_predictive] using this
  exact poisson_gamma_kept prior ha hb one_pos hp h'

/-- C116. After waiting times with known shape: a new waiting time. -/
theorem C116_gamma_known_shape (shape : ℝ) (hk : 0 < shape) {θ : Ω → ℝ} {X : Ω → Fin n → ℝ} {Y : Ω → ℝ}
    (h : DrawThenPredict P θ X Y (contLaw prior.dist) (fun _ r => contLaw (Gamma.dist ⟨shape, r⟩))
      fun r => contLaw (Gamma.dist ⟨shape, r⟩)) :
    PredictionsKept P X Y (fun x => lawOn (Ioi 0) (gamma_known_shape_predictive
      (gamma_known_shape (∑ i, x i) (n : ℝ) shape prior) shape).pdf) ∧
    LimitsExact P X Y fun x => lawOn (Ioi 0) (gamma_known_shape_predictive
      (gamma_known_shape (∑ i, x i) (n : ℝ) shape prior) shape).pdf := by
  refine kept_cont (bayes_gamma_known_shape prior ha hb shape hk) measurableSet_Ioi h
    (measurable_loc_scale (loc := fun _ : ℝ => 0) (scale := fun l : ℝ => 1 / l) (measurable_std_gamma _)
      measurable_const (by fun_prop)) (fun r hr y => ?_) (fun r hr => gamma_lawOn ⟨shape, r⟩ hr)
    (fun r hr => gamma_prob hk hr) fun x hx y hy => C29_gamma_known_shape_predictive shape hk _ ?_ ?_ y hy
  · have hr : 0 < r := hr
    have := Real.Gamma_pos_of_pos hk
    simp only [Gamma.dist, Cont.pdf, Family.std, sub_zero]
    split_ifs <;> positivity
  · simp only [gamma_known_shape]
    positivity
  · have : 0 ≤ ∑ i, x i := Finset.sum_nonneg fun i _ => le_of_lt (hx i)
    simp only [gamma_known_shape]
    positivity

end Gamma

section Exponential

theorem lomax_lawOn (d : Lomax ℝ) (hl : 0 < d.lam) : contLaw d.dist = lawOn (Ioi 0) d.dist.pdf := by
  refine contLaw_eq_lawOn _ measurableSet_Ioi ?_
  have h0 : ∀ᵐ x : ℝ, x ≠ 0 := by simp [ae_iff]
  filter_upwards [h0] with x hx0 hx
  have hx : x < 0 := lt_of_le_of_ne (not_lt.1 hx) hx0
  have h : ¬ 0 ≤ x / d.lam := not_le.2 (div_neg_of_neg_of_pos hx hl)
  simp [Cont.pdf, Lomax.dist, Family.std, h]

variable (prior : Gamma ℝ) (ha : 0 < prior.alpha) (hb : 0 < prior.beta)
include ha hb

theorem exponential_kept {θ : Ω → ℝ} {X : Ω → Fin n → ℝ} {Y : Ω → ℝ}
    (h : DrawThenPredict P θ X Y (contLaw prior.dist) (fun _ r => contLaw (Exponential.dist ⟨1 / r⟩))
      fun r => contLaw (Exponential.dist ⟨1 / r⟩)) :
    PredictionsKept P X Y (fun x => lawOn (Ioi 0) (Lomax.dist ⟨prior.alpha + n, prior.beta + ∑ i, x i⟩).pdf) ∧
    LimitsExact P X Y fun x => lawOn (Ioi 0) (Lomax.dist ⟨prior.alpha + n, prior.beta + ∑ i, x i⟩).pdf := by
  refine kept_cont (bayes_exponential prior ha hb) measurableSet_Ioi h
    (measurable_loc_scale (loc := fun _ : ℝ => 0) (scale := fun θ : ℝ => 1 / θ) measurable_std_expon measurable_const
      (by fun_prop)) (fun r hr y => ?_) (fun r hr => exponential_lawOn (one_div_pos.2 hr))
    (fun r hr => exponential_prob (one_div_pos.2 hr)) fun x hx y hy =>
      exponential_predictive_true (exponential_gamma (n : ℝ) (∑ i, x i) prior) ?_ ?_ y (le_of_lt hy)
  · have hr : 0 < r := hr
    simp only [Exponential.dist, Cont.pdf, Family.std, sub_zero]
    split_ifs <;> positivity
  · simp only [exponential_gamma, getExponentialGammaPosteriorParams, getPoissonGammaPosteriorParams]
    positivity
  · have := sum_ofFn_nonneg hx
    simp only [exponential_gamma, getExponentialGammaPosteriorParams, getPoissonGammaPosteriorParams]
    positivity

/-- C116 (partial). After exponential waiting times: predictions for a new one are kept if the two parameters of the
prior are entered in exchanged order. What is missing: the prior as documented, for which the claim is false unless
its parameters are equal. -/
theorem C116_exponential_gamma_swapped_partial {θ : Ω → ℝ} {X : Ω → Fin n → ℝ} {Y : Ω → ℝ}
    (h : DrawThenPredict P θ X Y (contLaw prior.dist) (fun _ r => contLaw (Exponential.dist ⟨1 / r⟩))
      fun r => contLaw (Exponential.dist ⟨1 / r⟩)) :
    PredictionsKept P X Y (fun x => lawOn (Ioi 0) (exponential_gamma_predictive
      (exponential_gamma (∑ i, x i) (n : ℝ) ⟨prior.beta, prior.alpha⟩)).dist.pdf) ∧
    LimitsExact P X Y fun x => lawOn (Ioi 0) (exponential_gamma_predictive
      (exponential_gamma (∑ i, x i) (n : ℝ) ⟨prior.beta, prior.alpha⟩)).dist.pdf :=
  exponential_kept prior ha hb h

end Exponential

/-! ## Normal observations -/

/-- C116. Normal observations with known variance: a new observation. -/
theorem C116_normal_known_variance (prior : Normal ℝ) (hs : 0 < prior.sigma) (var : ℝ) (hv : 0 < var)
    {θ : Ω → ℝ} {X : Ω → Fin n → ℝ} {Y : Ω → ℝ}
    (h : DrawThenPredict P θ X Y (contLaw prior.dist) (fun _ m => contLaw (Normal.dist ⟨m, √var⟩))
      fun m => contLaw (Normal.dist ⟨m, √var⟩)) :
    PredictionsKept P X Y (fun x => contLaw (normal_known_variance_predictive var
      (normal_known_variance (∑ i, x i) (n : ℝ) var prior)).dist) ∧
    LimitsExact P X Y fun x => contLaw (normal_known_variance_predictive var
      (normal_known_variance (∑ i, x i) (n : ℝ) var prior)).dist := by
  simp only [norm_lawOn (normal_known_variance_predictive _ _)]
  refine kept_cont (bayes_normal_known_variance prior hs var hv) MeasurableSet.univ h
    (measurable_loc_scale (loc := fun m : ℝ => m) (scale := fun _ : ℝ => √var) measurable_std_norm
      measurable_id measurable_const) (fun m _ => normal_pdf_nonneg m (sqrt_pos.2 hv)) (fun m _ => norm_lawOn _)
    (fun m _ => normal_prob m (sqrt_pos.2 hv)) fun x _ y _ => C30_normal_known_variance_predictive var hv _ ?_ y
  simp only [normal_known_variance, powq_half, powq_two, lit_real, Rat.cast_one]
  exact sqrt_pos.2 (by positivity)

/-- C116. Normal observations with known precision: a new observation. -/
theorem C116_normal_known_precision (prior : Normal ℝ) (hs : 0 < prior.sigma) (precision : ℝ) (hv : 0 < precision)
    {θ : Ω → ℝ} {X : Ω → Fin n → ℝ} {Y : Ω → ℝ}
    (h : DrawThenPredict P θ X Y (contLaw prior.dist) (fun _ m => contLaw (Normal.dist ⟨m, √(1 / precision)⟩))
      fun m => contLaw (Normal.dist ⟨m, √(1 / precision)⟩)) :
    PredictionsKept P X Y (fun x => contLaw (normal_known_precision_predictive precision
      (normal_known_precision (∑ i, x i) (n : ℝ) precision prior)).dist) ∧
    LimitsExact P X Y fun x => contLaw (normal_known_precision_predictive precision
      (normal_known_precision (∑ i, x i) (n : ℝ) precision prior)).dist := by
  have h := C116_normal_known_variance prior hs (1 / precision) (by positivity) h
  simpa only [normal_known_precision, normal_known_precision_predictive, lit_real, Rat.cast_one] using h

/-- C116. Normal observations with known mean: a new observation; either class of prior for the variance. -/
theorem C116_normal_known_mean (prior : VariancePrior ℝ) (hp : prior.Valid) (mu : ℝ)
    {θ : Ω → ℝ} {X : Ω → Fin n → ℝ} {Y : Ω → ℝ}
    (h : DrawThenPredict P θ X Y (contLaw prior.frozen) (fun _ v => contLaw (Normal.dist ⟨mu, √v⟩))
      fun v => contLaw (Normal.dist ⟨mu, √v⟩)) :
    PredictionsKept P X Y (fun x => contLaw (normal_known_mean_predictive mu
      (normal_known_mean (∑ i, x i) (∑ i, x i ^ 2) (n : ℝ) mu prior)).dist) ∧
    LimitsExact P X Y fun x => contLaw (normal_known_mean_predictive mu
      (normal_known_mean (∑ i, x i) (∑ i, x i ^ 2) (n : ℝ) mu prior)).dist := by
  have e : ∀ d : Cont, contLaw d = lawOn univ d.pdf := fun d => (lawOn_univ _).symm
  simp only [e (normal_known_mean_predictive _ _).dist]
  refine kept_cont (bayes_normal_known_mean prior hp mu) MeasurableSet.univ h
    (measurable_loc_scale (loc := fun _ : ℝ => mu) (scale := fun v : ℝ => √v) measurable_std_norm
      measurable_const (by fun_prop)) (fun v hv => normal_pdf_nonneg mu (sqrt_pos.2 hv)) (fun v _ => norm_lawOn _)
    (fun v hv => normal_prob mu (sqrt_pos.2 hv)) fun x _ y _ => ?_
  have hv : (normal_known_mean (∑ i, x i) (∑ i, x i ^ 2) (n : ℝ) mu prior).Valid := by
    have h := normal_known_mean_valid prior hp mu (List.ofFn x)
    rw [List.map_ofFn, List.sum_ofFn, List.sum_ofFn, List.length_ofFn] at h
    exact h
  rw [(VariancePrior.frozen_lawOn _ hv).2.1]
  exact C31_normal_known_mean_predictive mu _ hv y

/-! ## The setting of each theorem exists -/

/-- trials of docs/examples, then 5 more -/
example := (bayes_binomial (n := 4) ⟨1, 1⟩ one_pos one_pos 10).exists_predict
  ((newDensity_disc (d := fun p => Binomial.dist ⟨((5 : ℕ) : ℝ), p⟩) (measurable_binomial_pmf _)
    (fun p hp => binomial_nonneg 5 hp.1.le hp.2.le) fun p hp => binomial_prob 5 hp.1.le hp.2.le).newModel measurableSet_Ioo)

example := (bayes_bernoulli (n := 4) ⟨1, 1⟩ one_pos one_pos).exists_predict
  ((newDensity_disc (d := fun p => Binomial.dist ⟨((1 : ℕ) : ℝ), p⟩) (measurable_binomial_pmf _)
    (fun p hp => binomial_nonneg 1 hp.1.le hp.2.le) fun p hp => binomial_prob 1 hp.1.le hp.2.le).newModel measurableSet_Ioo)

example := (bayes_negative_binomial (n := 4) ⟨2, 3⟩ two_pos three_pos 2 two_pos).exists_predict
  ((newDensity_disc (d := fun p => NegativeBinomial.dist ⟨2, p⟩)
    (fun k => by simp only [NegativeBinomial.dist, Disc.pmf, DiscFamily.pmf0]; split_ifs <;> fun_prop)
    (fun p hp => nb_nonneg 2 _ two_pos hp.1.le hp.2.le) fun p hp => nb_prob two_pos hp.1 hp.2.le).newModel
      measurableSet_Ioo)

/-- docs/examples/limit.md: ten hours of counts, a window of 35 minutes -/
example := (bayes_poisson (n := 10) ⟨3, 1⟩ three_pos one_pos).exists_predict
  ((newDensity_disc (d := fun l => Poisson.dist ⟨(35 / 60 : ℝ) * l⟩)
    (fun k => by simp only [Poisson.dist, Disc.pmf, DiscFamily.pmf0]; split_ifs <;> fun_prop)
    (fun l hl => poisson_nonneg _ (mul_nonneg (by norm_num) (le_of_lt hl)))
    fun l hl => poisson_prob (mul_nonneg (by norm_num) (le_of_lt hl))).newModel measurableSet_Ioi)

/-- a further observation of the same kind can always be drawn -/
theorem BayesModel.exists_again {Θ A : Type} [MeasureSpace Θ] [SFinite (volume : Measure Θ)] [MeasurableSpace A]
    {S : Set Θ} {prior : Θ → ℝ} {ν : Fin n → Measure A} [∀ i, SigmaFinite (ν i)] {D : Fin n → Set A}
    {f : Fin n → Θ → A → ℝ} {post : (Fin n → A) → Θ → ℝ} {priorLaw : Measure Θ} {model : Fin n → Θ → Measure A}
    {postLaw : (Fin n → A) → Measure Θ} (h : BayesModel S prior ν D f post priorLaw model postLaw) (i : Fin n) :
    ∃ (Ω : Type) (_ : MeasurableSpace Ω) (P : Measure Ω) (θ : Ω → Θ) (X : Ω → Fin n → A) (Y : Ω → A),
      DrawThenPredict P θ X Y priorLaw model (model i) := by
  have hg : NewDensity S (ν i) (fun t a => max 0 (f i t a)) (model i) :=
    ⟨measurable_const.max (h.meas i), fun t _ a => le_max_left _ _, fun t ht => by
      rw [h.model_law i t ht]
      congr 1
      funext a
      rcases le_total 0 (f i t a) with h1 | h1
      · rw [max_eq_right h1]
      · rw [max_eq_left h1, ENNReal.ofReal_of_nonpos h1, ENNReal.ofReal_zero], h.model_prob i⟩
  exact h.exists_predict (hg.newModel h.hS)

example := (bayes_geometric (n := 3) ⟨2, 1⟩ two_pos one_pos true).exists_again 0
example := (bayes_poisson (n := 3) ⟨2, 1⟩ two_pos one_pos).exists_again 0
example := (bayes_gamma_known_shape (n := 3) ⟨3, 1⟩ three_pos one_pos 2 two_pos).exists_again 0
example := (bayes_exponential (n := 3) ⟨3, 1⟩ three_pos one_pos).exists_again 0
example := (bayes_normal_known_variance (n := 3) ⟨0, 1⟩ one_pos 2 two_pos).exists_again 0
example := (bayes_normal_known_variance (n := 3) ⟨0, 1⟩ one_pos (1 / 2) (by norm_num)).exists_again 0
example := (bayes_normal_known_mean (n := 3) (.inverseGamma ⟨2, 1⟩) ⟨two_pos, one_pos⟩ 0).exists_again 0

end Conj
