import Verif.Lemmas.TwoStage
import Verif.Lemmas.Quantile
import Verif.Lemmas.DataMeans
import Verif.Lemmas.DiscreteMeans
import Verif.Lemmas.ConcentrationJoint
import Verif.Props.PosteriorScalar
import Verif.Props.PredictiveScalar
import Verif.Props.PredictiveGeometricPoisson
import Verif.Props.Exponential

/-!
# C94: posterior predictive samples by sampling the posterior, then the model

`docs/examples/unsupported-distributions.md`: for a model without a predictive function, draw parameters
with `posterior.dist.rvs` and one observation for each with `Model(parameters).dist.rvs`.
-/

open MeasureTheory Set Real

namespace Conj

open Scipy Spec

variable {P : Measure Stream} [IsProbabilityMeasure P] {ι : Type}

/-! ## Models without a predictive function -/

/-- density of a Pareto observation when `alpha` is Gamma distributed -/
noncomputable def Spec.paretoGammaPdf (x_m a b x : ℝ) : ℝ := a * b ^ a / (x * (b + log (x / x_m)) ^ (a + 1))

/-- C94. The example of the documentation: `Pareto` observations, Gamma posterior. The samples are
independent draws from the posterior predictive density. -/
theorem C94_pareto_gamma (lib : FrozenSamplers ι) (hlib : CorrectFrozen lib P) (x_m : ℝ) (hm : 0 < x_m)
    (posterior : Gamma ℝ) (ha : 0 < posterior.alpha) (hb : 0 < posterior.beta) (n_samples : ℕ) :
    (∀ x ∈ Ioi x_m, IsPredictive volume (Ioi 0) (fun alpha => (Pareto.dist ⟨x_m, alpha⟩).pdf x)
      posterior.dist.pdf (paretoGammaPdf x_m posterior.alpha posterior.beta x)) ∧
    FreshRun (posteriorPredictiveSamples lib (lib.cont posterior.dist)
      (fun alpha => lib.cont (Pareto.dist ⟨x_m, alpha⟩)) n_samples) fun f =>
      IIDSampleThen P n_samples f (lawOn (Ioi x_m) (paretoGammaPdf x_m posterior.alpha posterior.beta)) := by
  have hp : ∀ x ∈ Ioi x_m, IsPredictive volume (Ioi 0) (fun alpha => (Pareto.dist ⟨x_m, alpha⟩).pdf x)
      posterior.dist.pdf (paretoGammaPdf x_m posterior.alpha posterior.beta x) := by
    intro x hx
    have hx : x_m < x := hx
    have hx0 : 0 < x := hm.trans hx
    have hl : 0 < log (x / x_m) := log_pos ((one_lt_div hm).2 hx)
    have h := gamma_kernel posterior ⟨posterior.alpha + 1, posterior.beta + log (x / x_m)⟩ ⟨ha, hb⟩
      ⟨by simp only; positivity, by simp only; positivity⟩ (u := 1) (v := log (x / x_m))
      (f := fun a => (Pareto.dist ⟨x_m, a⟩).pdf x) (C := 1 / x)
      (fun a ha => by
        have ha : 0 < a := ha
        rw [Pareto.pdf_eq ⟨x_m, a⟩ hm hx.le, log_div hx0.ne' hm.ne', rpow_add_one hx0.ne', rpow_one]
        have e : exp (-((log x - log x_m) * a)) = x_m ^ a / x ^ a := by
          rw [rpow_def_of_pos hm, rpow_def_of_pos hx0, ← exp_sub]; ring_nf
        rw [e]
        have := rpow_pos_of_pos hx0 a
        field_simp) rfl rfl
    have hc : 1 / x * gammaConst posterior.alpha posterior.beta /
        gammaConst (posterior.alpha + 1) (posterior.beta + log (x / x_m)) =
        paretoGammaPdf x_m posterior.alpha posterior.beta x := by
      have hG := Real.Gamma_pos_of_pos ha
      simp only [gammaConst, paretoGammaPdf]
      rw [Real.Gamma_add_one ha.ne']
      have := rpow_pos_of_pos (add_pos hb hl) (posterior.alpha + 1)
      field_simp
    rw [← hc]
    exact IsPredictive.of_density measurableSet_Ioi
      (Gamma.isDensity ⟨posterior.alpha + 1, posterior.beta + log (x / x_m)⟩ (by simp only; positivity)
        (by simp only; positivity)) (fun p hp => by rw [mul_comm]; exact h p hp)
  refine ⟨hp, ?_⟩
  have hmeas : Measurable fun q : ℝ × ℝ => (Pareto.dist ⟨x_m, q.1⟩).pdf q.2 := by
    have h1 : Measurable fun q : ℝ × ℝ => (q.1, (q.2 - 0) / x_m) := by fun_prop
    exact (measurable_std_pareto.comp h1).div_const x_m
  refine two_stage_cont_on (model := fun alpha => Pareto.dist ⟨x_m, alpha⟩) lib hlib measurableSet_Ioi
    (gamma_lawOn _ hb) (Gamma.isDensity _ ha hb) (measurable_pdf (measurable_std_gamma _) _ _) hmeas (fun a ha => pareto_prob hm ha) ?_ measurableSet_Ioi ?_ ?_ hp _
  · intro a ha x
    have ha : 0 < a := ha
    rcases lt_or_ge x x_m with h | h
    · rw [Pareto.pdf_eq_zero ⟨x_m, a⟩ hm h]
    · have hx0 := hm.trans_le h
      rw [Pareto.pdf_eq ⟨x_m, a⟩ hm h]
      positivity
  · have h0 : ∀ᵐ x : ℝ, x ≠ x_m := by simp [ae_iff]
    filter_upwards [h0] with x hx hx' a ha
    exact Pareto.pdf_eq_zero ⟨x_m, a⟩ hm (lt_of_le_of_ne (not_lt.1 hx') hx)
  · unfold paretoGammaPdf
    fun_prop

/-- density of a Uniform(0, θ) observation when `θ` is Pareto distributed -/
noncomputable def Spec.uniformParetoPdf (x_m a x : ℝ) : ℝ :=
  a * x_m ^ a / ((a + 1) * max x_m x ^ (a + 1))

/-- C94. `Uniform(0, θ)` observations, Pareto posterior. -/
theorem C94_uniform_pareto (lib : FrozenSamplers ι) (hlib : CorrectFrozen lib P)
    (posterior : Pareto ℝ) (hm : 0 < posterior.x_m) (ha : 0 < posterior.alpha) (n_samples : ℕ) :
    (∀ x ∈ Ioi 0, IsPredictive volume (Ioi 0) (fun θ => (Uniform.dist ⟨0, θ⟩).pdf x)
      posterior.dist.pdf (uniformParetoPdf posterior.x_m posterior.alpha x)) ∧
    FreshRun (posteriorPredictiveSamples lib (lib.cont posterior.dist)
      (fun θ => lib.cont (Uniform.dist ⟨0, θ⟩)) n_samples) fun f =>
      IIDSampleThen P n_samples f (lawOn (Ioi 0) (uniformParetoPdf posterior.x_m posterior.alpha)) := by
  have hp : ∀ x ∈ Ioi 0, IsPredictive volume (Ioi 0) (fun θ => (Uniform.dist ⟨0, θ⟩).pdf x)
      posterior.dist.pdf (uniformParetoPdf posterior.x_m posterior.alpha x) := by
    intro x hx
    have hx : 0 < x := hx
    have hM : 0 < max posterior.x_m x := by positivity
    refine IsPredictive.of_density measurableSet_Ioi
      (Pareto.isDensity ⟨max posterior.x_m x, posterior.alpha + 1⟩ hM (by simp only; positivity)) fun θ hθ => ?_
    have hθ : 0 < θ := hθ
    rw [Uniform.pdf_zero θ hθ hx.le]
    rcases lt_or_ge θ (max posterior.x_m x) with h | h
    · rw [Pareto.pdf_eq_zero ⟨max posterior.x_m x, posterior.alpha + 1⟩ hM h, mul_zero]
      rcases lt_max_iff.1 h with h | h
      · rw [Pareto.pdf_eq_zero _ hm h, mul_zero]
      · rw [if_neg (not_le.2 h), zero_mul]
    · rw [Pareto.pdf_eq _ hm ((le_max_left _ _).trans h), if_pos ((le_max_right _ _).trans h),
        Pareto.pdf_eq ⟨max posterior.x_m x, posterior.alpha + 1⟩ hM h]
      simp only [uniformParetoPdf]
      rw [rpow_add_one hθ.ne' (posterior.alpha + 1)]
      field_simp
  refine ⟨hp, ?_⟩
  have hpm : Measurable posterior.dist.pdf := by
    have h1 : Measurable fun x : ℝ => (posterior.alpha, (x - 0) / posterior.x_m) := by fun_prop
    exact (measurable_std_pareto.comp h1).div_const _
  have he : contLaw posterior.dist = lawOn (Ioi 0) posterior.dist.pdf :=
    contLaw_eq_lawOn _ measurableSet_Ioi (Filter.Eventually.of_forall fun x hx =>
      Pareto.pdf_eq_zero _ hm (lt_of_le_of_lt (not_lt.1 hx) hm))
  have hmeas : Measurable fun q : ℝ × ℝ => (Uniform.dist ⟨0, q.1⟩).pdf q.2 :=
    measurable_loc_scale (loc := fun _ : ℝ => 0) (scale := fun θ : ℝ => θ) measurable_std_uniform
      measurable_const measurable_id
  refine two_stage_cont_on (model := fun θ => Uniform.dist ⟨0, θ⟩) lib hlib measurableSet_Ioi he
    (Pareto.isDensity _ hm ha) hpm hmeas
    (fun θ hθ => uniform_prob hθ) ?_ measurableSet_Ioi ?_ ?_ hp _
  · intro θ hθ x
    have hθ : 0 < θ := hθ
    simp only [Uniform.dist, Cont.pdf, Family.std]
    split_ifs <;> positivity
  · have h0 : ∀ᵐ x : ℝ, x ≠ 0 := by simp [ae_iff]
    filter_upwards [h0] with x hx hx' θ hθ
    have hθ : 0 < θ := hθ
    have hx' : x < 0 := lt_of_le_of_ne (not_lt.1 hx') hx
    simp only [Uniform.dist, Cont.pdf, Family.std, sub_zero]
    rw [if_neg (by
      rintro ⟨h, -⟩
      exact absurd h (not_le.2 (div_neg_of_neg_of_pos hx' hθ))), zero_div]
  · unfold uniformParetoPdf
    fun_prop

/-- density of a Weibull observation with known shape `k` when the scale is inverse gamma distributed -/
noncomputable def Spec.weibullInverseGammaPdf (k a b x : ℝ) : ℝ :=
  a * b ^ a * (k * x ^ (k - 1)) / (b + x ^ k) ^ (a + 1)

/-- C94. `Weibull` observations with known shape, inverse gamma posterior. -/
theorem C94_weibull_inverse_gamma (lib : FrozenSamplers ι) (hlib : CorrectFrozen lib P) (k : ℝ) (hk : 0 < k)
    (posterior : InverseGamma ℝ) (ha : 0 < posterior.alpha) (hb : 0 < posterior.beta) (n_samples : ℕ) :
    (∀ x ∈ Ioi 0, IsPredictive volume (Ioi 0) (fun θ => (Weibull.dist ⟨k, θ⟩).pdf x)
      posterior.dist.pdf (weibullInverseGammaPdf k posterior.alpha posterior.beta x)) ∧
    FreshRun (posteriorPredictiveSamples lib (lib.cont posterior.dist)
      (fun θ => lib.cont (Weibull.dist ⟨k, θ⟩)) n_samples) fun f =>
      IIDSampleThen P n_samples f (lawOn (Ioi 0) (weibullInverseGammaPdf k posterior.alpha posterior.beta)) := by
  have hp : ∀ x ∈ Ioi 0, IsPredictive volume (Ioi 0) (fun θ => (Weibull.dist ⟨k, θ⟩).pdf x)
      posterior.dist.pdf (weibullInverseGammaPdf k posterior.alpha posterior.beta x) := by
    intro x hx
    have hx : 0 < x := hx
    have hxk := rpow_pos_of_pos hx k
    have h := invgamma_kernel posterior ⟨posterior.alpha + 1, posterior.beta + x ^ k⟩ ⟨ha, hb⟩
      ⟨by simp only; positivity, by simp only; positivity⟩ (u := 1) (v := x ^ k)
      (f := fun θ => (Weibull.dist ⟨k, θ⟩).pdf x) (C := k * x ^ (k - 1))
      (fun t ht => by rw [Weibull.pdf_eq k t hk ht hx, rpow_neg_one]; ring) rfl rfl
    have hc : k * x ^ (k - 1) * gammaConst posterior.alpha posterior.beta /
        gammaConst (posterior.alpha + 1) (posterior.beta + x ^ k) =
        weibullInverseGammaPdf k posterior.alpha posterior.beta x := by
      have hG := Real.Gamma_pos_of_pos ha
      simp only [gammaConst, weibullInverseGammaPdf]
      rw [Real.Gamma_add_one ha.ne']
      have := rpow_pos_of_pos (add_pos hb hxk) (posterior.alpha + 1)
      field_simp
    rw [← hc]
    exact IsPredictive.of_density measurableSet_Ioi
      (InverseGamma.isDensity ⟨posterior.alpha + 1, posterior.beta + x ^ k⟩ (by simp only; positivity)
        (by simp only; positivity)) (fun p hp => by rw [mul_comm]; exact h p hp)
  refine ⟨hp, ?_⟩
  have hmeas : Measurable fun q : ℝ × ℝ => (Weibull.dist ⟨k, q.1⟩).pdf q.2 :=
    measurable_loc_scale (loc := fun _ : ℝ => 0) (scale := fun θ : ℝ => θ ^ (1 / k)) (measurable_std_weibull k)
      measurable_const (by fun_prop)
  refine two_stage_cont_on (model := fun θ => Weibull.dist ⟨k, θ⟩) lib hlib measurableSet_Ioi
    (invgamma_lawOn _ hb) (InverseGamma.isDensity _ ha hb) (measurable_pdf (measurable_std_invgamma _) _ _) hmeas
    (fun θ hθ => weibull_prob hk hθ) ?_ measurableSet_Ioi ?_ ?_ hp _
  · intro θ hθ x
    have hθ : 0 < θ := hθ
    have hs := rpow_pos_of_pos hθ (1 / k)
    simp only [Weibull.dist, Cont.pdf, Family.std, sub_zero]
    split_ifs with h
    · positivity
    · simp
  · have h0 : ∀ᵐ x : ℝ, x ≠ 0 := by simp [ae_iff]
    filter_upwards [h0] with x hx hx' θ hθ
    have hs := rpow_pos_of_pos hθ (1 / k)
    have hx' : x < 0 := lt_of_le_of_ne (not_lt.1 hx') hx
    simp only [Weibull.dist, Cont.pdf, Family.std, sub_zero]
    rw [if_neg (not_le.2 (div_neg_of_neg_of_pos hx' hs)), zero_div]
  · unfold weibullInverseGammaPdf
    fun_prop

/-- density of an inverse gamma observation with known shape `s` when the scale is Gamma distributed -/
noncomputable def Spec.inverseGammaGammaPdf (s a b x : ℝ) : ℝ :=
  Real.Gamma (a + s) / (Real.Gamma a * Real.Gamma s) * b ^ a * x ^ (-s - 1) / (b + 1 / x) ^ (a + s)

/-- C94. Inverse gamma observations (`inverse_gamma_known_rate`), Gamma posterior. -/
theorem C94_inverse_gamma_known_rate (lib : FrozenSamplers ι) (hlib : CorrectFrozen lib P) (s : ℝ) (hs : 0 < s)
    (posterior : Gamma ℝ) (ha : 0 < posterior.alpha) (hb : 0 < posterior.beta) (n_samples : ℕ) :
    (∀ x ∈ Ioi 0, IsPredictive volume (Ioi 0) (fun θ => (InverseGamma.dist ⟨s, θ⟩).pdf x)
      posterior.dist.pdf (inverseGammaGammaPdf s posterior.alpha posterior.beta x)) ∧
    FreshRun (posteriorPredictiveSamples lib (lib.cont posterior.dist)
      (fun θ => lib.cont (InverseGamma.dist ⟨s, θ⟩)) n_samples) fun f =>
      IIDSampleThen P n_samples f (lawOn (Ioi 0) (inverseGammaGammaPdf s posterior.alpha posterior.beta)) := by
  have hp : ∀ x ∈ Ioi 0, IsPredictive volume (Ioi 0) (fun θ => (InverseGamma.dist ⟨s, θ⟩).pdf x)
      posterior.dist.pdf (inverseGammaGammaPdf s posterior.alpha posterior.beta x) := by
    intro x hx
    have hx : 0 < x := hx
    have h := gamma_kernel posterior ⟨posterior.alpha + s, posterior.beta + 1 / x⟩ ⟨ha, hb⟩
      ⟨by simp only; positivity, by simp only; positivity⟩ (u := s) (v := 1 / x)
      (f := fun θ => (InverseGamma.dist ⟨s, θ⟩).pdf x) (C := x ^ (-s - 1) / Real.Gamma s)
      (fun t ht => by
        rw [InverseGamma.pdf_eq ⟨s, t⟩ ht hx, show 1 / x * t = t / x by ring]
        ring) rfl rfl
    have hc : x ^ (-s - 1) / Real.Gamma s * gammaConst posterior.alpha posterior.beta /
        gammaConst (posterior.alpha + s) (posterior.beta + 1 / x) =
        inverseGammaGammaPdf s posterior.alpha posterior.beta x := by
      have hG := Real.Gamma_pos_of_pos ha
      have hG' := Real.Gamma_pos_of_pos hs
      have hG'' := Real.Gamma_pos_of_pos (add_pos ha hs)
      simp only [gammaConst, inverseGammaGammaPdf]
      have := rpow_pos_of_pos (add_pos hb (one_div_pos.2 hx)) (posterior.alpha + s)
      generalize (posterior.beta + 1 / x) ^ (posterior.alpha + s) = y at *
      field_simp
    rw [← hc]
    exact IsPredictive.of_density measurableSet_Ioi
      (Gamma.isDensity ⟨posterior.alpha + s, posterior.beta + 1 / x⟩ (by simp only; positivity)
        (by simp only; positivity)) (fun p hp => by rw [mul_comm]; exact h p hp)
  refine ⟨hp, ?_⟩
  have hmeas : Measurable fun q : ℝ × ℝ => (InverseGamma.dist ⟨s, q.1⟩).pdf q.2 :=
    measurable_loc_scale (loc := fun _ : ℝ => 0) (scale := fun θ : ℝ => θ) (measurable_std_invgamma s)
      measurable_const measurable_id
  refine two_stage_cont_on (model := fun θ => InverseGamma.dist ⟨s, θ⟩) lib hlib measurableSet_Ioi
    (gamma_lawOn _ hb) (Gamma.isDensity _ ha hb) (measurable_pdf (measurable_std_gamma _) _ _) hmeas
    (fun θ hθ => ?_) ?_ measurableSet_Ioi ?_ ?_ hp _
  · rw [invgamma_lawOn ⟨s, θ⟩ hθ]
    exact lawOn_prob measurableSet_Ioi (InverseGamma.isDensity ⟨s, θ⟩ hs hθ)
  · intro θ hθ x
    rcases le_or_gt x 0 with h | h
    · have hθ : 0 < θ := hθ
      have : ¬ 0 < x / θ := not_lt.2 (div_nonpos_of_nonpos_of_nonneg h hθ.le)
      simp [InverseGamma.dist, Cont.pdf, Family.std, this]
    · exact (InverseGamma.isDensity ⟨s, θ⟩ hs hθ).1 x h
  · refine Filter.Eventually.of_forall fun x hx θ hθ => ?_
    have hθ : 0 < θ := hθ
    have : ¬ 0 < x / θ := not_lt.2 (div_nonpos_of_nonpos_of_nonneg (not_lt.1 hx) hθ.le)
    simp [InverseGamma.dist, Cont.pdf, Family.std, this]
  · unfold inverseGammaGammaPdf
    fun_prop

/-! ## Models with a predictive function: the samples have its distribution -/

theorem measurable_binomial_pmf (n : ℝ) (k : ℤ) : Measurable fun p => (Binomial.dist ⟨n, p⟩).pmf k := by
  simp only [Binomial.dist, Disc.pmf, DiscFamily.pmf0]
  split_ifs <;> fun_prop

/-- C94. `Binomial(n, p=samples)` with a Beta posterior: the distribution of `binomial_beta_predictive`. -/
theorem C94_binomial_beta (lib : FrozenSamplers ι) (hlib : CorrectFrozen lib P) (n : ℕ) (posterior : Beta ℝ)
    (ha : 0 < posterior.alpha) (hb : 0 < posterior.beta) (n_samples : ℕ) :
    FreshRun (posteriorPredictiveSamples lib (lib.cont posterior.dist)
      (fun p => lib.disc (Binomial.dist ⟨(n : ℝ), p⟩)) n_samples) fun f =>
      IIDSampleThen P n_samples f (discRealLaw (binomial_beta_predictive (n : ℝ) posterior).dist) :=
  two_stage_disc (model := fun p => Binomial.dist ⟨(n : ℝ), p⟩) lib hlib measurableSet_Ioo (beta_lawOn _)
    (Beta.isDensity _ ha hb) (measurable_pdf (measurable_std_beta _ _) _ _) (measurable_binomial_pmf n)
    (fun _ hp => binomial_prob n hp.1.le hp.2.le) (fun _ hp => binomial_nonneg n hp.1.le hp.2.le)
    (C24_binomial_beta_predictive n posterior ha hb) n_samples

/-- C94. One flip: the distribution of `bernoulli_beta_predictive`. -/
theorem C94_bernoulli_beta (lib : FrozenSamplers ι) (hlib : CorrectFrozen lib P) (posterior : Beta ℝ)
    (ha : 0 < posterior.alpha) (hb : 0 < posterior.beta) (n_samples : ℕ) :
    FreshRun (posteriorPredictiveSamples lib (lib.cont posterior.dist)
      (fun p => lib.disc (Binomial.dist ⟨1, p⟩)) n_samples) fun f =>
      IIDSampleThen P n_samples f (discRealLaw (bernoulli_beta_predictive posterior).dist) := by
  have h := C94_binomial_beta lib hlib 1 posterior ha hb n_samples
  simpa [bernoulli_beta_predictive] using h

/-- C94. `NegativeBinomial(r, p=samples)`: the distribution of `negative_binomial_beta_predictive`. -/
theorem C94_negative_binomial_beta (lib : FrozenSamplers ι) (hlib : CorrectFrozen lib P) (r : ℝ) (hr : 0 < r)
    (posterior : Beta ℝ) (ha : 0 < posterior.alpha) (hb : 0 < posterior.beta) (n_samples : ℕ) :
    FreshRun (posteriorPredictiveSamples lib (lib.cont posterior.dist)
      (fun p => lib.disc (NegativeBinomial.dist ⟨r, p⟩)) n_samples) fun f =>
      IIDSampleThen P n_samples f (discRealLaw (negative_binomial_beta_predictive r posterior).dist) := by
  refine two_stage_disc (model := fun p => NegativeBinomial.dist ⟨r, p⟩) lib hlib measurableSet_Ioo (beta_lawOn _)
    (Beta.isDensity _ ha hb) (measurable_pdf (measurable_std_beta _ _) _ _) (fun k => ?_)
    (fun _ hp => nb_prob hr hp.1 hp.2.le) (fun _ hp => nb_nonneg r _ hr hp.1.le hp.2.le)
    (C25_negative_binomial_beta_predictive r hr posterior ha hb) n_samples
  simp only [NegativeBinomial.dist, Disc.pmf, DiscFamily.pmf0]
  split_ifs <;> fun_prop

/-- probabilities of a geometric count (from 0, or from 1 with `one_start`) when `p` is Beta distributed -/
noncomputable def Spec.betaGeometricTruePmf (a b : ℝ) (one_start : Bool) (k : ℤ) : ℝ :=
  if 0 ≤ k - (if one_start then 1 else 0) then
    betaFn (a + 1) (b + ((k - (if one_start then 1 else 0) : ℤ) : ℝ)) / betaFn a b
  else 0

theorem geometric_predictive_pmf (posterior : Beta ℝ) (ha : 0 < posterior.alpha) (hb : 0 < posterior.beta)
    (one_start : Bool) (k : ℤ) :
    IsPredictive volume (Ioo 0 1) (fun p => (Geometric.dist ⟨p, one_start⟩).pmf k) posterior.dist.pdf
      (betaGeometricTruePmf posterior.alpha posterior.beta one_start k) := by
  have hz : IsPredictive volume (Ioo (0 : ℝ) 1) (fun _ => (0 : ℝ)) posterior.dist.pdf 0 := by
    constructor <;> simp
  rcases lt_or_ge k 0 with hk | hk
  · simp only [geometric_neg _ _ _ hk]
    rw [betaGeometricTruePmf, if_neg (by cases one_start <;> simp <;> omega)]
    exact hz
  · obtain ⟨m, rfl⟩ := Int.eq_ofNat_of_zero_le hk
    cases one_start
    · have h := geometric_predictive_true posterior ha hb m
      simp only [Geometric.pmf_zero_start, betaGeometricTruePmf]
      simpa using h
    · rcases m with _ | m
      · simp only [Int.ofNat_eq_natCast, geometric_zero]
        rw [betaGeometricTruePmf, if_neg (by simp)]
        exact hz
      · have h := geometric_predictive_true posterior ha hb m
        simp only [Int.ofNat_eq_natCast, Geometric.pmf_one_start _ (m + 1) (by simp), betaGeometricTruePmf]
        simpa using h

/-- C94. `Geometric(p=samples, one_start)` with a Beta posterior. -/
theorem C94_geometric_beta_law (lib : FrozenSamplers ι) (hlib : CorrectFrozen lib P) (one_start : Bool)
    (posterior : Beta ℝ) (ha : 0 < posterior.alpha) (hb : 0 < posterior.beta) (n_samples : ℕ) :
    FreshRun (posteriorPredictiveSamples lib (lib.cont posterior.dist)
      (fun p => lib.disc (Geometric.dist ⟨p, one_start⟩)) n_samples) fun f =>
      IIDSampleThen P n_samples f ((pmfLaw (betaGeometricTruePmf posterior.alpha posterior.beta one_start)).map
        fun k : ℤ => (k : ℝ)) := by
  refine two_stage_disc (model := fun p => Geometric.dist ⟨p, one_start⟩) lib hlib measurableSet_Ioo (beta_lawOn _)
    (Beta.isDensity _ ha hb) (measurable_pdf (measurable_std_beta _ _) _ _) (fun k => ?_)
    (fun _ hp => geometric_prob hp.1 hp.2.le one_start) (fun _ hp => geometric_nonneg hp.1.le hp.2.le one_start)
    (geometric_predictive_pmf posterior ha hb one_start) n_samples
  cases one_start <;> simp only [Geometric.dist, Disc.pmf, DiscFamily.pmf0] <;> split_ifs <;> fun_prop

/-- C94 (disagreement). The samples are never distributed as `geometric_beta_predictive` says: its probability of `k`
is the probability of `k + 1`, and it is wrong at every value that can occur. -/
theorem C94_geometric_beta_false (posterior : Beta ℝ) (ha : 0 < posterior.alpha) (hb : 0 < posterior.beta)
    (one_start : Bool) (k : ℕ) :
    betaGeometricTruePmf posterior.alpha posterior.beta one_start ((k + 1 : ℕ) : ℤ) =
      (geometric_beta_predictive posterior one_start).pmf k ∧
    ((one_start = true → 1 ≤ k) → betaGeometricTruePmf posterior.alpha posterior.beta one_start (k : ℤ) ≠
      (geometric_beta_predictive posterior one_start).pmf k) := by
  refine ⟨?_, fun hk he => ?_⟩
  · exact (geometric_predictive_pmf posterior ha hb one_start ((k + 1 : ℕ) : ℤ)).2.trans
      (C26_geometric_beta_predictive_shifted_partial posterior ha hb one_start k).2.symm
  · refine C26_geometric_beta_predictive_false posterior ha hb one_start k hk ?_
    rw [C26_statement, ← he]
    exact geometric_predictive_pmf posterior ha hb one_start k

example (lib : FrozenSamplers ι) (hlib : CorrectFrozen lib P) := C94_geometric_beta_law lib hlib true ⟨2, 3⟩
  (by norm_num) (by norm_num) 10
example := C94_geometric_beta_false ⟨2, 3⟩ (by norm_num) (by norm_num) true 4

/-- C94. `Poisson(n * samples)`, counts over `n` intervals: a negative binomial with
`p = beta / (n + beta)`. -/
theorem C94_poisson_gamma_law (lib : FrozenSamplers ι) (hlib : CorrectFrozen lib P) (n : ℝ) (hn : 0 < n)
    (posterior : Gamma ℝ) (ha : 0 < posterior.alpha) (hb : 0 < posterior.beta) (n_samples : ℕ) :
    FreshRun (posteriorPredictiveSamples lib (lib.cont posterior.dist)
      (fun l => lib.disc (Poisson.dist ⟨n * l⟩)) n_samples) fun f =>
      IIDSampleThen P n_samples f
        (discRealLaw (NegativeBinomial.dist ⟨posterior.alpha, posterior.beta / (n + posterior.beta)⟩)) := by
  refine two_stage_disc (model := fun l => Poisson.dist ⟨n * l⟩) lib hlib measurableSet_Ioi (gamma_lawOn _ hb)
    (Gamma.isDensity _ ha hb) (measurable_pdf (measurable_std_gamma _) _ _) (fun k => ?_)
    (fun _ hl => poisson_prob (mul_nonneg hn.le (le_of_lt hl)))
    (fun _ hl => poisson_nonneg _ (mul_nonneg hn.le (le_of_lt hl)))
    (poisson_predictive_true posterior ha hb n hn) n_samples
  simp only [Poisson.dist, Disc.pmf, DiscFamily.pmf0]
  split_ifs <;> fun_prop

omit [IsProbabilityMeasure P] in
/-- the law of an independent sample is determined by the sample -/
theorem iid_law_unique {A : Type} [MeasurableSpace A] {n : ℕ} (hn : n ≠ 0) {f : Stream → List A} {μ ν : Measure A}
    [IsProbabilityMeasure μ] [IsProbabilityMeasure ν] (h : IIDSample P n f μ) (h' : IIDSample P n f ν) : μ = ν := by
  obtain ⟨X, hX, hf, hP⟩ := h
  obtain ⟨Y, hY, hf', hP'⟩ := h'
  have e : X = Y := by
    funext s
    exact List.ofFn_injective ((hf s).symm.trans (hf' s))
  subst e
  rw [hP] at hP'
  obtain ⟨m, rfl⟩ := Nat.exists_eq_succ_of_ne_zero hn
  have h1 := (measurePreserving_eval (fun _ : Fin (m + 1) => μ) 0).map_eq
  have h2 := (measurePreserving_eval (fun _ : Fin (m + 1) => ν) 0).map_eq
  rw [← h1, ← h2, hP']

theorem discRealLaw_singleton (d : Disc) (k : ℤ) : discRealLaw d {(k : ℝ)} = ENNReal.ofReal (d.pmf k) := by
  have hc : Measurable fun k : ℤ => (k : ℝ) := measurable_of_countable _
  have e : (fun k : ℤ => (k : ℝ)) ⁻¹' {(k : ℝ)} = {k} := by ext j; simp
  rw [discRealLaw, Measure.map_apply hc (measurableSet_singleton _), e, discLaw,
    withDensity_apply _ (measurableSet_singleton _), ← lintegral_indicator (measurableSet_singleton _),
    lintegral_count, tsum_eq_single k (fun j hj => by simp [hj])]
  simp

/-- C94 (disagreement). `poisson_gamma_predictive(distribution, n)` is the distribution of the samples
exactly for `n = 1`. -/
theorem C94_poisson_gamma_iff (lib : FrozenSamplers ι) (hlib : CorrectFrozen lib P) (n : ℝ) (hn : 0 < n)
    (posterior : Gamma ℝ) (ha : 0 < posterior.alpha) (hb : 0 < posterior.beta) (n_samples : ℕ)
    (hs : n_samples ≠ 0) :
    (FreshStream (posteriorPredictiveSamples lib (lib.cont posterior.dist)
      (fun l => lib.disc (Poisson.dist ⟨n * l⟩)) n_samples) fun f =>
      IIDSample P n_samples f (discRealLaw (poisson_gamma_predictive posterior n).dist)) ↔ n = 1 := by
  have hc : Measurable fun k : ℤ => (k : ℝ) := measurable_of_countable _
  have p1 : 0 < posterior.beta / (n + posterior.beta) := by positivity
  have p2 : posterior.beta / (n + posterior.beta) ≤ 1 := by rw [div_le_one (by positivity)]; linarith
  have i1 := nb_prob ha p1 p2
  have i1' : IsProbabilityMeasure
      (discRealLaw (NegativeBinomial.dist ⟨posterior.alpha, posterior.beta / (n + posterior.beta)⟩)) :=
    Measure.isProbabilityMeasure_map hc.aemeasurable
  have hlaw := (C94_poisson_gamma_law lib hlib n hn posterior ha hb n_samples).iid
  constructor
  · intro h
    refine (C27_poisson_gamma_predictive_iff posterior ha hb n hn).1 fun k => ?_
    have q1 : 0 < posterior.beta / (1 + posterior.beta) := by positivity
    have q2 : posterior.beta / (1 + posterior.beta) ≤ 1 := by rw [div_le_one (by positivity)]; linarith
    have e : (poisson_gamma_predictive posterior n).dist =
        NegativeBinomial.dist ⟨n * posterior.alpha, posterior.beta / (1 + posterior.beta)⟩ := by
      simp [poisson_gamma_predictive]
    have i2 := nb_prob (mul_pos hn ha) q1 q2
    have i2' : IsProbabilityMeasure (discRealLaw (poisson_gamma_predictive posterior n).dist) := by
      rw [e]
      exact Measure.isProbabilityMeasure_map hc.aemeasurable
    have hu := iid_law_unique hs (hlaw.1 fun _ => 0) (h.1 fun _ => 0)
    have hk := congrArg (fun μ : Measure ℝ => μ {(k : ℝ)}) hu
    simp only [discRealLaw_singleton] at hk
    have n1 := nb_nonneg posterior.alpha (posterior.beta / (n + posterior.beta)) ha p1.le p2 k
    have n2 := nb_nonneg (n * posterior.alpha) (posterior.beta / (1 + posterior.beta)) (mul_pos hn ha) q1.le q2 k
    rw [← e] at n2
    rw [← (ENNReal.ofReal_eq_ofReal_iff n1 n2).1 hk]
    exact poisson_predictive_true posterior ha hb n hn k
  · intro h
    subst h
    have e : poisson_gamma_predictive posterior 1 = ⟨posterior.alpha, posterior.beta / (1 + posterior.beta)⟩ := by
      simp [poisson_gamma_predictive]
    rw [e]
    exact hlaw

/-- C94. Gamma observations with known shape: the distribution of `gamma_known_shape_predictive`. -/
theorem C94_gamma_known_shape (lib : FrozenSamplers ι) (hlib : CorrectFrozen lib P) (alpha : ℝ) (hal : 0 < alpha)
    (posterior : Gamma ℝ) (ha : 0 < posterior.alpha) (hb : 0 < posterior.beta) (n_samples : ℕ) :
    FreshRun (posteriorPredictiveSamples lib (lib.cont posterior.dist)
      (fun rate => lib.cont (Gamma.dist ⟨alpha, rate⟩)) n_samples) fun f =>
      IIDSampleThen P n_samples f (lawOn (Ioi 0) (gamma_known_shape_predictive posterior alpha).pdf) := by
  have hmeas : Measurable fun q : ℝ × ℝ => (Gamma.dist ⟨alpha, q.1⟩).pdf q.2 :=
    measurable_loc_scale (loc := fun _ : ℝ => 0) (scale := fun θ : ℝ => 1 / θ) (measurable_std_gamma alpha)
      measurable_const (by fun_prop)
  have hneg : ∀ x < 0, ∀ θ ∈ Ioi (0 : ℝ), (Gamma.dist ⟨alpha, θ⟩).pdf x = 0 := by
    intro x hx θ hθ
    have hθ : 0 < θ := hθ
    simp only [Gamma.dist, Cont.pdf, Family.std, sub_zero]
    rw [if_neg (not_le.2 (div_neg_of_neg_of_pos hx (by positivity))), zero_div]
  refine two_stage_cont_on (model := fun rate => Gamma.dist ⟨alpha, rate⟩) lib hlib measurableSet_Ioi
    (gamma_lawOn _ hb) (Gamma.isDensity _ ha hb) (measurable_pdf (measurable_std_gamma _) _ _) hmeas
    (fun θ hθ => gamma_prob hal hθ) ?_ measurableSet_Ioi ?_ ?_
    (C29_gamma_known_shape_predictive alpha hal posterior ha hb) n_samples
  · intro θ hθ x
    have hθ : 0 < θ := hθ
    have := Real.Gamma_pos_of_pos hal
    simp only [Gamma.dist, Cont.pdf, Family.std, sub_zero]
    split_ifs with h <;> positivity
  · have h0 : ∀ᵐ x : ℝ, x ≠ 0 := by simp [ae_iff]
    filter_upwards [h0] with x hx hx' θ hθ
    exact hneg x (lt_of_le_of_ne (not_lt.1 hx') hx) θ hθ
  · simp only [gamma_known_shape_predictive]
    unfold CompoundGamma.pdf compoundGammaPdf
    fun_prop

/-- C94. `Exponential` observations with rates drawn from the Gamma: a Lomax, which is what
`exponential_gamma_predictive` returns with `alpha` and `beta` exchanged. Missing: the distribution of
`exponential_gamma_predictive(posterior)` itself (false, see C28). -/
theorem C94_exponential_gamma_swapped_partial (lib : FrozenSamplers ι) (hlib : CorrectFrozen lib P)
    (posterior : Gamma ℝ) (ha : 0 < posterior.alpha) (hb : 0 < posterior.beta) (n_samples : ℕ) :
    FreshRun (posteriorPredictiveSamples lib (lib.cont posterior.dist)
      (fun rate => lib.cont (Exponential.dist ⟨1 / rate⟩)) n_samples) fun f =>
      IIDSampleThen P n_samples f (lawOn (Ici 0)
        (exponential_gamma_predictive { alpha := posterior.beta, beta := posterior.alpha }).dist.pdf) := by
  have hmeas : Measurable fun q : ℝ × ℝ => (Exponential.dist ⟨1 / q.1⟩).pdf q.2 :=
    measurable_loc_scale (loc := fun _ : ℝ => 0) (scale := fun θ : ℝ => 1 / θ) measurable_std_expon
      measurable_const (by fun_prop)
  refine two_stage_cont_on (model := fun rate => Exponential.dist ⟨1 / rate⟩) lib hlib measurableSet_Ioi
    (gamma_lawOn _ hb) (Gamma.isDensity _ ha hb) (measurable_pdf (measurable_std_gamma _) _ _) hmeas
    (fun θ hθ => ?_) ?_ measurableSet_Ici ?_ ?_
    (fun x hx => C28_exponential_gamma_predictive_swapped_partial posterior ha hb x hx) n_samples
  · have hθ : 0 < θ := hθ
    have h := gamma_prob one_pos hθ
    have e := exponential_as_gamma (one_div_pos.2 hθ)
    rw [one_div_one_div] at e
    rw [e]; exact h
  · intro θ hθ x
    have hθ : 0 < θ := hθ
    simp only [Exponential.dist, Cont.pdf, Family.std, sub_zero]
    split_ifs with h <;> positivity
  · refine Filter.Eventually.of_forall fun x hx θ hθ => ?_
    have hθ : 0 < θ := hθ
    simp only [Exponential.dist, Cont.pdf, Family.std, sub_zero]
    rw [if_neg (not_le.2 (div_neg_of_neg_of_pos (not_le.1 hx) (by positivity))), zero_div]
  · exact measurable_pdf (measurable_std_lomax _) _ _

theorem normal_pdf_nonneg (m : ℝ) {s : ℝ} (hs : 0 < s) (x : ℝ) : 0 ≤ (Normal.dist ⟨m, s⟩).pdf x := by
  simp only [Normal.dist, Cont.pdf, Family.std]
  positivity

/-- C94. Normal observations with known variance: the distribution of `normal_known_variance_predictive`. -/
theorem C94_normal_known_variance (lib : FrozenSamplers ι) (hlib : CorrectFrozen lib P) (var : ℝ) (hv : 0 < var)
    (posterior : Normal ℝ) (hs : 0 < posterior.sigma) (n_samples : ℕ) :
    FreshRun (posteriorPredictiveSamples lib (lib.cont posterior.dist)
      (fun m => lib.cont (Normal.dist ⟨m, √var⟩)) n_samples) fun f =>
      IIDSampleThen P n_samples f (contLaw (normal_known_variance_predictive var posterior).dist) := by
  have hmeas : Measurable fun q : ℝ × ℝ => (Normal.dist ⟨q.1, √var⟩).pdf q.2 :=
    measurable_loc_scale (loc := fun m : ℝ => m) (scale := fun _ : ℝ => √var) measurable_std_norm
      measurable_id measurable_const
  exact two_stage_cont (model := fun m => Normal.dist ⟨m, √var⟩) lib hlib MeasurableSet.univ (norm_lawOn _)
    (Normal.isDensity _ hs) (measurable_pdf measurable_std_norm _ _) hmeas
    (fun m _ => normal_prob m (sqrt_pos.2 hv)) (fun m _ => normal_pdf_nonneg m (sqrt_pos.2 hv))
    (measurable_pdf measurable_std_norm _ _)
    (Filter.Eventually.of_forall (C30_normal_known_variance_predictive var hv posterior hs)) n_samples

/-- C94. Known precision: the distribution of `normal_known_precision_predictive`. -/
theorem C94_normal_known_precision (lib : FrozenSamplers ι) (hlib : CorrectFrozen lib P) (precision : ℝ)
    (hv : 0 < precision) (posterior : Normal ℝ) (hs : 0 < posterior.sigma) (n_samples : ℕ) :
    FreshRun (posteriorPredictiveSamples lib (lib.cont posterior.dist)
      (fun m => lib.cont (Normal.dist ⟨m, √(1 / precision)⟩)) n_samples) fun f =>
      IIDSampleThen P n_samples f (contLaw (normal_known_precision_predictive precision posterior).dist) := by
  have h := C94_normal_known_variance lib hlib (1 / precision) (by positivity) posterior hs n_samples
  simpa only [normal_known_precision_predictive, lit_real, Rat.cast_one] using h

/-- C94. Known mean, inverse gamma posterior of the variance: the distribution of
`normal_known_mean_predictive`. -/
theorem C94_normal_known_mean (lib : FrozenSamplers ι) (hlib : CorrectFrozen lib P) (mu : ℝ)
    (posterior : InverseGamma ℝ) (ha : 0 < posterior.alpha) (hb : 0 < posterior.beta) (n_samples : ℕ) :
    FreshRun (posteriorPredictiveSamples lib (lib.cont posterior.dist)
      (fun v => lib.cont (Normal.dist ⟨mu, √v⟩)) n_samples) fun f =>
      IIDSampleThen P n_samples f (contLaw (normal_known_mean_predictive mu (.inverseGamma posterior)).dist) := by
  have hmeas : Measurable fun q : ℝ × ℝ => (Normal.dist ⟨mu, √q.1⟩).pdf q.2 :=
    measurable_loc_scale (loc := fun _ : ℝ => mu) (scale := fun v : ℝ => √v) measurable_std_norm
      measurable_const (by fun_prop)
  exact two_stage_cont (model := fun v => Normal.dist ⟨mu, √v⟩) lib hlib measurableSet_Ioi (invgamma_lawOn _ hb)
    (InverseGamma.isDensity _ ha hb) (measurable_pdf (measurable_std_invgamma _) _ _) hmeas
    (fun v hv => normal_prob mu (sqrt_pos.2 hv)) (fun v hv => normal_pdf_nonneg mu (sqrt_pos.2 hv))
    (measurable_pdf (measurable_std_t _) _ _)
    (Filter.Eventually.of_forall (C31_normal_known_mean_predictive mu (.inverseGamma posterior) ⟨ha, hb⟩)) n_samples

/-- C94. The same for a scaled inverse chi-squared posterior. -/
theorem C94_normal_known_mean_scaled_inverse_chi_squared (lib : FrozenSamplers ι) (hlib : CorrectFrozen lib P)
    (mu : ℝ) (posterior : ScaledInverseChiSquared ℝ) (ha : 0 < posterior.nu) (hb : 0 < posterior.sigma2)
    (n_samples : ℕ) :
    FreshRun (posteriorPredictiveSamples lib (lib.cont posterior.dist)
      (fun v => lib.cont (Normal.dist ⟨mu, √v⟩)) n_samples) fun f =>
      IIDSampleThen P n_samples f
        (contLaw (normal_known_mean_predictive mu (.scaledInverseChiSquared posterior)).dist) := by
  have h := C94_normal_known_mean lib hlib mu ⟨posterior.nu / 2, posterior.nu * posterior.sigma2 / 2⟩
    (by simp only; positivity) (by simp only; positivity) n_samples
  have e : normal_known_mean_predictive mu (.scaledInverseChiSquared posterior) =
      normal_known_mean_predictive mu (.inverseGamma ⟨posterior.nu / 2, posterior.nu * posterior.sigma2 / 2⟩) := by
    simp [normal_known_mean_predictive, ScaledInverseChiSquared.to_inverse_gamma]
  rw [e]
  exact h

/-! ## An integer seed -/

theorem drawAll_loc_scale {z : Draw ℝ} {d : ℝ → Draw ℝ} {g : ℝ → ℝ}
    (hu : ∀ m st, (d m).used st = z.used st) (n : ℕ) (p : Draw ℝ) (hpu : ∀ st, p.used st = z.used st)
    (h : ∀ st, (d (p.value st)).value st = g (z.value st)) (st : Stream) :
    (drawAll ((drawAll (List.replicate n p) st).1.map d) st).1 =
      (drawAll (List.replicate n z) st).1.map g := by
  induction n generalizing st with
  | zero => rfl
  | succ n ih =>
    simp only [List.replicate_succ, drawAll, Draw.run, List.map_cons, hu, hpu, h, ih]

/-- C94 (disagreement). SciPy samples a normal as `loc + scale * z` with `z` standard normal. With the same
*integer* seed in both calls (instead of one generator) the model is sampled with the very `z` the posterior
was sampled with: the samples are `mu + (sigma + tau) * z`, spread `sigma + tau` around `mu`, and not with the
standard deviation `√(sigma² + tau²)` of the predictive distribution. -/
theorem C94_seed_restarts (lib : FrozenSamplers ι)
    (hvalue : ∀ m s st, (lib.cont (Normal.dist ⟨m, s⟩)).value st =
      m + s * (lib.cont (Normal.dist ⟨0, 1⟩)).value st)
    (hused : ∀ m s st, (lib.cont (Normal.dist ⟨m, s⟩)).used st = (lib.cont (Normal.dist ⟨0, 1⟩)).used st)
    (posterior : Normal ℝ) (tau : ℝ) (n_samples k : ℕ) (w : World) :
    (posteriorPredictiveSamples lib (lib.cont posterior.dist) (fun m => lib.cont (Normal.dist ⟨m, tau⟩))
        n_samples (.seed k) w).1 =
      (rvsDist lib (lib.cont (Normal.dist ⟨0, 1⟩)) n_samples (.seed k) w).1.map fun z =>
        posterior.mu + (posterior.sigma + tau) * z := by
  refine drawAll_loc_scale (z := lib.cont (Normal.dist ⟨0, 1⟩)) (fun m st => hused m tau st) n_samples _
    (fun st => hused _ _ st) (fun st => ?_) (lib.seeded k)
  have h := hvalue posterior.mu posterior.sigma st
  rw [hvalue, h]
  ring

/-- the predictive distribution has the smaller spread -/
theorem C94_seed_restarts_too_wide (sigma tau : ℝ) (hs : 0 < sigma) (ht : 0 < tau) :
    (normal_known_variance_predictive (tau ^ 2) ⟨0, sigma⟩).sigma < sigma + tau := by
  simp only [normal_known_variance_predictive, powq_half, powq_two]
  rw [sqrt_lt' (by positivity)]
  nlinarith [mul_pos hs ht]

/-! ## Cases -/

/-- the data and prior of the documentation, for any sampler meeting SciPy's specification -/
example : ∃ lib : FrozenSamplers (Fin 1), FreshRun (posteriorPredictiveSamples lib
      (lib.cont (pareto_gamma 10 4 1 ⟨1, 1⟩ Real.log).dist) (fun a => lib.cont (Pareto.dist ⟨1, a⟩)) 1000) fun f =>
      IIDSampleThen streamLaw 1000 f (lawOn (Ioi 1) (paretoGammaPdf 1 11 5)) := by
  obtain ⟨lib, h⟩ := exists_frozen 1
  refine ⟨lib, ?_⟩
  have e : pareto_gamma 10 4 1 ⟨1, 1⟩ Real.log = (⟨11, 5⟩ : Gamma ℝ) := by
    simp [pareto_gamma]; norm_num
  rw [e]
  exact (C94_pareto_gamma lib h 1 one_pos ⟨11, 5⟩ (by norm_num) (by norm_num) 1000).2

example : ∃ lib : FrozenSamplers (Fin 1),
    (¬ FreshStream (posteriorPredictiveSamples lib (lib.cont (Gamma.dist ⟨2, 3⟩))
      (fun l => lib.disc (Poisson.dist ⟨7 * l⟩)) 5) fun f =>
      IIDSample streamLaw 5 f (discRealLaw (poisson_gamma_predictive ⟨2, 3⟩ 7).dist)) ∧
    FreshRun (posteriorPredictiveSamples lib (lib.cont (Beta.dist ⟨2, 3⟩))
      (fun p => lib.disc (Binomial.dist ⟨(4 : ℕ), p⟩)) 5) fun f =>
      IIDSampleThen streamLaw 5 f (discRealLaw (binomial_beta_predictive ((4 : ℕ) : ℝ) ⟨2, 3⟩).dist) := by
  obtain ⟨lib, h⟩ := exists_frozen 1
  refine ⟨lib, fun hn => ?_, C94_binomial_beta lib h 4 ⟨2, 3⟩ (by norm_num) (by norm_num) 5⟩
  have := (C94_poisson_gamma_iff lib h 7 (by norm_num) ⟨2, 3⟩ (by norm_num) (by norm_num) 5 (by norm_num)).1 hn
  norm_num at this

end Conj
