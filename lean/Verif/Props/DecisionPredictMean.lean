import Verif.Props.DecisionPredictWrong
import Verif.Props.Forecast

/-!
# C125: the mean of the predictive distribution is the best guess of a new observation
-/

open MeasureTheory Set Real

namespace Conj

open Scipy Spec

variable {Ω : Type} [MeasurableSpace Ω] {P : Measure Ω} {n : ℕ}

/-- C125. After binomial experiments: the mean of the predictive distribution is the best guess of the number of successes in
`M` new trials, and its variance announces the error. -/
theorem C125_binomial_beta_guess (prior : Beta ℝ) (ha : 0 < prior.alpha) (hb : 0 < prior.beta) (N M : ℕ) {θ : Ω → ℝ}
    {X : Ω → Fin n → ℤ} {Y : Ω → ℤ}
    (h : DrawThenPredict P θ X Y (contLaw prior.dist) (fun _ p => discLaw (Binomial.dist ⟨(N : ℝ), p⟩))
      fun p => discLaw (Binomial.dist ⟨(M : ℝ), p⟩)) :
    ∃ guess error : (Fin n → ℤ) → ℝ,
      (∀ᵐ ω ∂P, MeanVar (discRealLaw (binomial_beta_predictive (M : ℝ)
        (binomial_beta ((n : ℝ) * N) (∑ i, (X ω i : ℝ)) prior)).dist) (guess (X ω)) (error (X ω))) ∧
      BestGuess P (fun ω => (Y ω : ℝ)) X guess error := by
  obtain ⟨hl, -, -⟩ := C125_binomial_beta prior ha hb N M h
  have key : ∀ x : Fin n → ℤ, ∃ g e : ℝ, (∀ i, x i ∈ Icc (0 : ℤ) N) → MeanVar (discRealLaw (binomial_beta_predictive (M : ℝ)
      (binomial_beta ((n : ℝ) * N) (∑ i, (x i : ℝ)) prior)).dist) g e := fun x => by
    by_cases hx : ∀ i, x i ∈ Icc (0 : ℤ) N
    · have h1 : 0 ≤ ∑ i, (x i : ℝ) := Finset.sum_nonneg fun i _ => by exact_mod_cast (hx i).1
      have h2 : ∑ i, (x i : ℝ) ≤ (n : ℝ) * N := by
        have h2 : ∀ i ∈ Finset.univ, (x i : ℝ) ≤ N := fun i _ => by exact_mod_cast (hx i).2
        simpa using Finset.sum_le_card_nsmul _ _ _ h2
      obtain ⟨m, v, -, h3⟩ := C111_binomial_beta M (binomial_beta ((n : ℝ) * N) (∑ i, (x i : ℝ)) prior)
        (by simp only [binomial_beta, getBinomialBetaPosteriorParams]; linarith)
        (by simp only [binomial_beta, getBinomialBetaPosteriorParams]; linarith)
      exact ⟨_, _, fun _ => h3⟩
    · exact ⟨0, 0, fun h => absurd h hx⟩
  choose g e hge using key
  have hmv : ∀ᵐ ω ∂P, _ := (bayes_binomial (n := n) prior ha hb N).ae_data h.past
  have hmv' : ∀ᵐ ω ∂P, MeanVar (discRealLaw (binomial_beta_predictive (M : ℝ)
        (binomial_beta ((n : ℝ) * N) (∑ i, (X ω i : ℝ)) prior)).dist) (g (X ω)) (e (X ω)) := by
    filter_upwards [hmv] with ω hω using hge _ hω
  exact ⟨g, e, hmv', hl.bestGuess (measurable_of_countable g) hmv'⟩

/-- C125 (partial). After Poisson counts: the mean of `poisson_gamma_predictive(posterior, n=w)` is the best guess of the count in a
window of `w` intervals, for every `w > 0`; its variance announces the error exactly for `w = 1`. What is missing: the
announced error for `w ≠ 1`, for which the claim is false. -/
theorem C125_poisson_gamma_guess_partial (prior : Gamma ℝ) (ha : 0 < prior.alpha) (hb : 0 < prior.beta) (w : ℝ) (hw : 0 < w)
    {θ : Ω → ℝ} {X : Ω → Fin n → ℤ} {Y : Ω → ℤ}
    (h : DrawThenPredict P θ X Y (contLaw prior.dist) (fun _ l => discLaw (Poisson.dist ⟨l⟩))
      fun l => discLaw (Poisson.dist ⟨w * l⟩)) :
    ∃ guess error : (Fin n → ℤ) → ℝ,
      (∀ᵐ ω ∂P, MeanVar (discRealLaw (poisson_gamma_predictive
        (poisson_gamma (∑ i, (X ω i : ℝ)) (n : ℝ) prior) w).dist) (guess (X ω)) (error (X ω))) ∧
      (∀ rule : (Fin n → ℤ) → ℝ, Measurable rule →
        squaredError P (fun ω => (Y ω : ℝ)) X guess ≤ squaredError P (fun ω => (Y ω : ℝ)) X rule) ∧
      (squaredError P (fun ω => (Y ω : ℝ)) X guess = ∫⁻ ω, ENNReal.ofReal (error (X ω)) ∂P ↔ w = 1) := by
  have hB := bayes_poisson (n := n) prior ha hb
  have hP := hB.prob h.past
  obtain ⟨hl, -, -⟩ := poisson_gamma_choices prior ha hb hw
    (pred := fun d => NegativeBinomial.dist ⟨d.alpha, d.beta / (w + d.beta)⟩)
    (fun d h1 h2 k => poisson_predictive_true d h1 h2 w hw k) h
  have key : ∀ x : Fin n → ℤ, ∃ m v : ℝ, (∀ i, x i ∈ Ici (0 : ℤ)) → 0 < v ∧
      MeanVar (contLaw (poisson_gamma (∑ i, (x i : ℝ)) (n : ℝ) prior).dist) m v ∧
      MeanVar (discRealLaw (poisson_gamma_predictive (poisson_gamma (∑ i, (x i : ℝ)) (n : ℝ) prior) w).dist)
        (w * m) (w * m + w * v) ∧
      MeanVar (discRealLaw (NegativeBinomial.dist ⟨(poisson_gamma (∑ i, (x i : ℝ)) (n : ℝ) prior).alpha,
        (poisson_gamma (∑ i, (x i : ℝ)) (n : ℝ) prior).beta / (w + (poisson_gamma (∑ i, (x i : ℝ)) (n : ℝ) prior).beta)⟩))
        (w * m) (w * m + w ^ 2 * v) := fun x => by
    by_cases hx : ∀ i, x i ∈ Ici (0 : ℤ)
    · obtain ⟨h1, h2⟩ := poisson_gamma_pos prior ha hb hx
      obtain ⟨m, v, hv, h3, h4, h5⟩ := C111_poisson_gamma_mean_partial _ h1 h2 w hw
      exact ⟨m, v, fun _ => ⟨hv, h3, h4, h5 _ fun k => poisson_predictive_true _ h1 h2 w hw k⟩⟩
    · exact ⟨0, 0, fun h => absurd h hx⟩
  choose m v hmv using key
  have hae := hB.ae_data h.past
  have htrue := hl.bestGuess (guess := fun x => w * m x) (error := fun x => w * m x + w ^ 2 * v x) (measurable_of_countable _)
    (by filter_upwards [hae] with ω hω using (hmv _ hω).2.2.2)
  refine ⟨fun x => w * m x, fun x => w * m x + w * v x, by filter_upwards [hae] with ω hω using (hmv _ hω).2.2.1, htrue.2, ?_⟩
  have hprior : ∀ᵐ t ∂contLaw prior.dist, t ∈ Ioi (0 : ℝ) := by
    rw [gamma_lawOn _ hb]
    exact ae_lawOn_mem measurableSet_Ioi _
  have hfin : ∫⁻ ω, ENNReal.ofReal (w * m (X ω) + w ^ 2 * v (X ω)) ∂P ≠ ⊤ := by
    rw [← htrue.1]
    refine ((htrue.2 (fun _ => 0) measurable_const).trans_lt ?_).ne
    have h' := h.forget (by filter_upwards [hprior] with t ht using fun i => poisson_prob (le_of_lt ht))
      (fun _ l => discLaw (Poisson.dist ⟨l⟩))
    have hk := (poisson_gamma_choices prior ha hb hw
      (pred := fun d => NegativeBinomial.dist ⟨d.alpha, d.beta / (w + d.beta)⟩)
      (fun d h1 h2 k => poisson_predictive_true d h1 h2 w hw k) h').1 (fun z => ENNReal.ofReal ((z.1 - 0) ^ 2)) (by fun_prop)
    refine hk.trans_lt ?_
    obtain ⟨h1, h2⟩ := poisson_gamma_pos prior ha hb (n := 0) (x := Fin.elim0) fun i => i.elim0
    obtain ⟨m0, v0, -, -, -, h5⟩ := C111_poisson_gamma_mean_partial _ h1 h2 w hw
    have h6 := sq_loss (h5 _ fun k => poisson_predictive_true _ h1 h2 w hw k) 0
    refine lt_of_le_of_lt (lintegral_mono (g := fun _ => ENNReal.ofReal (w * m0 + w ^ 2 * v0 + (w * m0 - 0) ^ 2)) fun ω => h6.le) ?_
    rw [lintegral_const, measure_univ, mul_one]
    exact ENNReal.ofReal_lt_top
  have nn : ∀ {μ : Measure ℝ} {a b : ℝ}, MeanVar μ a b → 0 ≤ b := fun h => by
    rw [← h.var]
    exact integral_nonneg fun _ => sq_nonneg _
  have hm : ∀ g : (Fin n → ℤ) → ENNReal, AEMeasurable (fun ω => g (X ω)) P := fun g =>
    ((measurable_of_countable g).comp h.past.measurable_data).aemeasurable
  rw [htrue.1]
  constructor
  · intro he
    by_contra hne
    rcases lt_or_gt_of_ne hne with hlt | hgt
    · refine (lintegral_strict_mono (IsProbabilityMeasure.ne_zero P) (hm fun x => ENNReal.ofReal (w * m x + w * v x)) hfin ?_).ne he
      filter_upwards [hae] with ω hω
      obtain ⟨hv, -, h4, h5⟩ := hmv _ hω
      have : w ^ 2 * v (X ω) < w * v (X ω) := mul_lt_mul_of_pos_right (by nlinarith) hv
      exact (ENNReal.ofReal_lt_ofReal_iff (by linarith [nn h5])).2 (by linarith)
    · have hlt : ∀ᵐ ω ∂P, ENNReal.ofReal (w * m (X ω) + w * v (X ω)) < ENNReal.ofReal (w * m (X ω) + w ^ 2 * v (X ω)) := by
        filter_upwards [hae] with ω hω
        obtain ⟨hv, -, h4, h5⟩ := hmv _ hω
        have : w * v (X ω) < w ^ 2 * v (X ω) := mul_lt_mul_of_pos_right (by nlinarith) hv
        exact (ENNReal.ofReal_lt_ofReal_iff (by linarith [nn h4])).2 (by linarith)
      refine (lintegral_strict_mono (IsProbabilityMeasure.ne_zero P) (hm fun x => ENNReal.ofReal (w * m x + w ^ 2 * v x)) ?_ hlt).ne'
        he
      exact ((lintegral_mono_ae (by filter_upwards [hlt] with ω hω using hω.le)).trans_lt (lt_top_iff_ne_top.2 hfin)).ne
  · rintro rfl
    simp

/-- C125. After normal observations with known variance: the mean of the predictive distribution is the best guess of a new
observation, and its variance announces the error. -/
theorem C125_normal_known_variance_guess (prior : Normal ℝ) (hs : 0 < prior.sigma) (var : ℝ) (hv : 0 < var)
    {θ : Ω → ℝ} {X : Ω → Fin n → ℝ} {Y : Ω → ℝ}
    (h : DrawThenPredict P θ X Y (contLaw prior.dist) (fun _ m => contLaw (Normal.dist ⟨m, √var⟩))
      fun m => contLaw (Normal.dist ⟨m, √var⟩)) :
    ∃ guess error : (Fin n → ℝ) → ℝ,
      (∀ᵐ ω ∂P, MeanVar (contLaw (normal_known_variance_predictive var
        (normal_known_variance (∑ i, X ω i) (n : ℝ) var prior)).dist) (guess (X ω)) (error (X ω))) ∧
      BestGuess P Y X guess error := by
  obtain ⟨hl, -, -⟩ := C125_normal_known_variance prior hs var hv h
  have hsum : Measurable fun x : Fin n → ℝ => ∑ i, x i := Finset.measurable_sum _ fun i _ => measurable_pi_apply i
  have hpos : ∀ x : Fin n → ℝ, 0 < (normal_known_variance (∑ i, x i) (n : ℝ) var prior).sigma := fun x => by
    simp only [normal_known_variance, powq_half, powq_two, lit_real, Rat.cast_one]
    exact sqrt_pos.2 (by positivity)
  have key : ∀ x : Fin n → ℝ, ∃ e : ℝ, MeanVar (contLaw (normal_known_variance_predictive var
      (normal_known_variance (∑ i, x i) (n : ℝ) var prior)).dist) (normal_known_variance (∑ i, x i) (n : ℝ) var prior).mu e :=
    fun x => by
      obtain ⟨m, v, h1, h2⟩ := C111_normal_known_variance var hv _ (hpos x)
      have e : m = (normal_known_variance (∑ i, x i) (n : ℝ) var prior).mu := by
        rw [← h1.mean, ← (normal_meanVar (normal_known_variance (∑ i, x i) (n : ℝ) var prior).mu (hpos x)).mean]
      rw [← e]
      exact ⟨_, h2⟩
  choose e he using key
  have hm : Measurable fun x : Fin n → ℝ => (normal_known_variance (∑ i, x i) (n : ℝ) var prior).mu := by
    simp only [normal_known_variance, powq_half, powq_two, lit_real, Rat.cast_one]
    fun_prop
  exact ⟨_, e, Filter.Eventually.of_forall fun ω => he _, hl.bestGuess hm (Filter.Eventually.of_forall fun ω => he _)⟩

/-! The setting of each theorem exists: see the examples in `Verif.Props.Prediction`. -/

/-- docs/examples/limit.md: ten hours of counts, a window of 35 minutes -/
example : ∃ (Ω : Type) (_ : MeasurableSpace Ω) (P : Measure Ω) (θ : Ω → ℝ) (X : Ω → Fin 10 → ℤ) (Y : Ω → ℤ),
    DrawThenPredict P θ X Y (contLaw (Gamma.dist ⟨3, 1⟩)) (fun _ l => discLaw (Poisson.dist ⟨l⟩))
      (fun l => discLaw (Poisson.dist ⟨(35 / 60 : ℝ) * l⟩)) ∧
    ¬ RightChoices P (fun ω => (Y ω : ℝ)) X fun x => discRealLaw (poisson_gamma_predictive
      (poisson_gamma (∑ i, (x i : ℝ)) ((10 : ℕ) : ℝ) ⟨3, 1⟩) (35 / 60)).dist := by
  obtain ⟨Ω, i, P, θ, X, Y, h⟩ := (bayes_poisson (n := 10) ⟨3, 1⟩ three_pos one_pos).exists_predict
    ((newDensity_disc (d := fun l => Poisson.dist ⟨(35 / 60 : ℝ) * l⟩)
      (fun k => by simp only [Poisson.dist, Disc.pmf, DiscFamily.pmf0]; split_ifs <;> fun_prop)
      (fun l hl => poisson_nonneg _ (mul_nonneg (by norm_num) (le_of_lt hl)))
      fun l hl => poisson_prob (mul_nonneg (by norm_num) (le_of_lt hl))).newModel measurableSet_Ioi)
  refine ⟨Ω, i, P, θ, X, Y, h, fun hc => ?_⟩
  have := (C125_poisson_gamma_iff ⟨3, 1⟩ three_pos one_pos (35 / 60) (by norm_num) h).1 hc
  norm_num at this

end Conj
