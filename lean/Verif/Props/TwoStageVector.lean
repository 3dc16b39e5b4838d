import Verif.Props.TwoStage
import Verif.Props.SamplingWishart
import Verif.Props.Regression
import Verif.Props.MultivariateNormal
import Verif.Props.Wishart

/-!
# C94: posterior predictive samples of models with several parameters
-/

open MeasureTheory Set Real

set_option linter.unusedSectionVars false

namespace Conj

open Scipy Spec Matrix

variable {P : Measure Stream} [IsProbabilityMeasure P] {ι : Type}

/-- the mixture of the densities `L θ` over the law with density `g` has density `pred` -/
theorem mixture_law {Θ X : Type} [MeasureSpace Θ] [SFinite (volume : Measure Θ)] [MeasureSpace X]
    [SFinite (volume : Measure X)] {S : Set Θ} (hS : MeasurableSet S) {g : Θ → ℝ} (hg : IsDensity volume S g)
    {L : Θ → X → ℝ} (hL : Measurable fun q : Θ × X => L q.1 q.2) (h0 : ∀ θ ∈ S, ∀ x, 0 ≤ L θ x)
    {pred : X → ℝ} (hpred : Measurable pred) (hp : ∀ x, IsPredictive volume S (fun θ => L θ x) g (pred x))
    {F : X → ENNReal} (hF : Measurable F) :
    ∫⁻ x, F x ∂(volume.withDensity fun x => ENNReal.ofReal (pred x)) =
      ∫⁻ θ, ∫⁻ x, F x ∂(volume.withDensity fun x => ENNReal.ofReal (L θ x)) ∂(lawOn S g) := by
  have hFm : Measurable fun q : Θ × X => ENNReal.ofReal (L q.1 q.2) * F q.2 := by fun_prop
  have e1 : ∀ θ, ∫⁻ x, F x ∂(volume.withDensity fun x => ENNReal.ofReal (L θ x)) =
      ∫⁻ x, ENNReal.ofReal (L θ x) * F x := by
    intro θ
    have hθ : Measurable fun x => L θ x := hL.comp (f := fun x : X => (θ, x)) (by fun_prop)
    rw [lintegral_withDensity_eq_lintegral_mul _ hθ.ennreal_ofReal hF]
    rfl
  rw [lintegral_withDensity_eq_lintegral_mul _ hpred.ennreal_ofReal hF]
  simp only [e1]
  rw [lintegral_lawOn hg hFm.lintegral_prod_right]
  exact mixture_lintegral hS hg hL h0 (Filter.Eventually.of_forall hp) hF

theorem mixture_law_prob {Θ X : Type} [MeasureSpace Θ] [SFinite (volume : Measure Θ)] [MeasureSpace X]
    [SFinite (volume : Measure X)] {S : Set Θ} (hS : MeasurableSet S) {g : Θ → ℝ} (hg : IsDensity volume S g)
    {L : Θ → X → ℝ} (hL : Measurable fun q : Θ × X => L q.1 q.2) (h0 : ∀ θ ∈ S, ∀ x, 0 ≤ L θ x)
    (h1 : ∀ θ ∈ S, IsProbabilityMeasure (volume.withDensity fun x => ENNReal.ofReal (L θ x)))
    {pred : X → ℝ} (hpred : Measurable pred) (hp : ∀ x, IsPredictive volume S (fun θ => L θ x) g (pred x)) :
    IsProbabilityMeasure (volume.withDensity fun x => ENNReal.ofReal (pred x)) := by
  have := lawOn_prob hS hg
  constructor
  rw [← lintegral_one, mixture_law hS hg hL h0 hpred hp measurable_const]
  have e : ∀ᵐ θ ∂(lawOn S g), ∫⁻ _, 1 ∂(volume.withDensity fun x => ENNReal.ofReal (L θ x)) = 1 := by
    filter_upwards [ae_lawOn_mem hS _] with θ hθ
    have := h1 θ hθ
    simp
  rw [lintegral_congr_ae e]
  simp

/-! ## Normal observations, unknown mean and variance -/

/-- the model: `Normal(mu=mean, sigma=variance ** 0.5).dist.rvs` -/
noncomputable def normalDraw (lib : FrozenSamplers ι) (mean variance : ℝ) : Draw ℝ :=
  lib.cont (Normal.dist { mu := mean, sigma := powq variance (1 / 2) })

theorem measurable_normalDraw_pdf :
    Measurable fun q : (ℝ × ℝ) × ℝ => (Normal.dist ⟨q.1.1, √q.1.2⟩).pdf q.2 :=
  measurable_loc_scale (loc := fun z : ℝ × ℝ => z.1) (scale := fun z : ℝ × ℝ => √z.2) measurable_std_norm
    measurable_fst (by fun_prop)

theorem normalDraw_samples (lib : FrozenSamplers ι) (hlib : CorrectFrozen lib P) :
    SamplesEach P (fun z : ℝ × ℝ => normalDraw lib z.1 z.2) (univ ×ˢ Ioi 0)
      fun z => contLaw (Normal.dist ⟨z.1, √z.2⟩) := by
  have := hlib.cont (fun z : ℝ × ℝ => Normal.dist ⟨z.1, √z.2⟩) (univ ×ˢ Ioi 0) measurable_normalDraw_pdf
    fun z hz => normal_prob z.1 (sqrt_pos.2 hz.2)
  simpa only [normalDraw, powq_half] using this

/-- C94. Normal observations with a NormalInverseGamma posterior: sample mean and variance, then sample
`Normal(mean, variance ** 0.5)` once for each pair. The result is an independent sample from the distribution
`normal_predictive` returns. -/
theorem C94_normal_nig {M : Type} (lib : FrozenSamplers ι) (hlib : CorrectFrozen lib P)
    (hs : CorrectScalar lib.toSamplers P) (posterior : NormalInverseGamma ℝ ℝ M) (nu : ℝ)
    (hn : posterior.nu = some nu) (hnu : 0 < nu) (ha : 0 < posterior.alpha) (hb : 0 < posterior.beta)
    (n_samples : ℕ) :
    ∃ t, normal_predictive (.nig posterior) = .ok t ∧
      FreshRun (predictiveFromSamples lib (posterior.sample_beta lib.toSamplers nu n_samples true) (normalDraw lib))
        fun f => IIDSampleThen P n_samples f (contLaw t.dist) := by
  have hp := fun x => C32_normal_predictive_nig posterior nu hn hnu ha hb x
  obtain ⟨t, ht, -⟩ := hp 0
  refine ⟨t, ht, ?_⟩
  have hp' : ∀ x, IsPredictive volume (univ ×ˢ Ioi 0) (fun θ : ℝ × ℝ => (Normal.dist ⟨θ.1, √θ.2⟩).pdf x)
      (fun θ : ℝ × ℝ => posterior.jointPdf nu θ.1 θ.2) (t.dist.pdf x) := fun x => by
    obtain ⟨t', ht', h⟩ := hp x
    rw [ht] at ht'
    cases ht'
    exact h
  have hd : IsDensity volume (univ ×ˢ Ioi 0) fun θ : ℝ × ℝ => posterior.jointPdf nu θ.1 θ.2 := by
    have := nigPdf_isDensity posterior.mu nu posterior.alpha posterior.beta hnu ha hb
    have e : (fun θ : ℝ × ℝ => posterior.jointPdf nu θ.1 θ.2) =
        nigPdf posterior.mu nu posterior.alpha posterior.beta := by
      funext θ
      simp [NormalInverseGamma.jointPdf, nigPdf]
    rw [e]; exact this
  have hS : MeasurableSet (univ ×ˢ Ioi 0 : Set (ℝ × ℝ)) := MeasurableSet.univ.prod measurableSet_Ioi
  have := lawOn_prob hS hd
  exact (predictive_from_samples lib (C86_normal_inverse_gamma lib.toSamplers hs posterior ha hb nu hnu n_samples true)
    (normalDraw_samples lib hlib) (ae_lawOn_mem hS _) fun F hF =>
      mixture_law hS hd (L := fun (z : ℝ × ℝ) x => (Normal.dist ⟨z.1, √z.2⟩).pdf x) measurable_normalDraw_pdf
        (fun z hz => normal_pdf_nonneg _ (sqrt_pos.2 hz.2)) (measurable_pdf (measurable_std_t _) _ _) hp' hF).1

/-! ## NormalGamma: the reported variance is not the variance of the observations -/

theorem ngPdf_scale (mu lam a b : ℝ) {w : ℝ} (hw : 0 < w) (m t : ℝ) :
    ngPdf mu lam a b (m, t) = w * ngPdf mu (lam / w) a (b / w) (m, w * t) := by
  have e1 : lam / w * (w * t) = lam * t := by field_simp
  have e2 : (Gamma.dist ⟨a, b⟩).pdf t = w * (Gamma.dist ⟨a, b / w⟩).pdf (w * t) := by
    simp only [Gamma.dist, Cont.pdf, sub_zero]
    have e3 : w * t / (1 / (b / w)) = t / (1 / b) := by
      rw [one_div, one_div, div_inv_eq_mul, div_inv_eq_mul]; field_simp
    rw [e3]
    simp only [one_div, div_inv_eq_mul]
    field_simp
  simp only [ngPdf, e1, e2]
  ring

/-- an observation drawn with the variance the mean was drawn with -/
theorem ng_same_variance (mu lam a b x : ℝ) (hl : 0 < lam) (ha : 0 < a) (hb : 0 < b) :
    IsPredictive volume (univ ×ˢ Ioi 0) (fun θ : ℝ × ℝ => (Normal.dist ⟨θ.1, √(1 / (lam * θ.2))⟩).pdf x)
      (ngPdf mu lam a b) ((StudentT.dist ⟨mu, √(2 * b / (lam * a)), 2 * a⟩).pdf x) := by
  have e : 2 * b / (lam * a) = b / lam * (1 + 1) / (1 * a) := by field_simp; ring
  rw [e, ← nigConst_eq mu 1 a (b / lam) x one_pos ha (by positivity)]
  refine IsPredictive.of_density (MeasurableSet.univ.prod measurableSet_Ioi)
    (ngPdf_isDensity ((1 * mu + x) / (1 + 1)) (lam * (1 + 1)) (a + 1 / 2)
      (lam * (b / lam + 1 * (x - mu) ^ 2 / (2 * (1 + 1)))) (by positivity) (by positivity) (by positivity)) ?_
  rintro ⟨m, t⟩ ⟨-, ht⟩
  have ht : 0 < t := ht
  have hk := ng_kernel mu 1 a (b / lam) x one_pos ha (by positivity) (m, lam * t)
    ⟨mem_univ _, by simp only [mem_Ioi]; positivity⟩
  have e1 := ngPdf_scale mu lam a b hl m t
  have e2 := ngPdf_scale ((1 * mu + x) / (1 + 1)) (lam * (1 + 1)) (a + 1 / 2)
    (lam * (b / lam + 1 * (x - mu) ^ 2 / (2 * (1 + 1)))) hl m t
  rw [div_self hl.ne'] at e1
  rw [mul_div_cancel_left₀ _ hl.ne', mul_div_cancel_left₀ _ hl.ne'] at e2
  rw [e1, e2]
  dsimp only at hk ⊢
  linear_combination lam * hk

theorem measurable_normal_mixture {F : ℝ → ENNReal} (hF : Measurable F) :
    Measurable fun z : ℝ × ℝ => ∫⁻ c, F c ∂(contLaw (Normal.dist ⟨z.1, √z.2⟩)) := by
  have hFm : Measurable fun q : (ℝ × ℝ) × ℝ =>
      ENNReal.ofReal ((Normal.dist ⟨q.1.1, √q.1.2⟩).pdf q.2) * F q.2 :=
    measurable_normalDraw_pdf.ennreal_ofReal.mul (hF.comp measurable_snd)
  have e1 : ∀ z : ℝ × ℝ, ∫⁻ c, F c ∂(contLaw (Normal.dist ⟨z.1, √z.2⟩)) =
      ∫⁻ c, ENNReal.ofReal ((Normal.dist ⟨z.1, √z.2⟩).pdf c) * F c := fun z => by
    have hz : Measurable (Normal.dist ⟨z.1, √z.2⟩).pdf := measurable_pdf measurable_std_norm _ _
    rw [contLaw, lintegral_withDensity_eq_lintegral_mul _ hz.ennreal_ofReal hF]
    rfl
  simp only [e1]
  exact hFm.lintegral_prod_right'

/-- NormalGamma samples, then observations with `w` times the reported variance -/
theorem ng_then_normal (lib : FrozenSamplers ι) (hlib : CorrectFrozen lib P)
    (hs : CorrectScalar lib.toSamplers P) (posterior : NormalGamma ℝ) (hl : 0 < posterior.lam)
    (ha : 0 < posterior.alpha) (hb : 0 < posterior.beta) (n_samples : ℕ) {w : ℝ} (hw : 0 < w) {t : StudentT ℝ}
    (ht : ∀ x, IsPredictive volume (univ ×ˢ Ioi 0)
      (fun θ : ℝ × ℝ => (Normal.dist ⟨θ.1, √(w * (1 / (posterior.lam * θ.2)))⟩).pdf x)
      (ngPdf posterior.mu posterior.lam posterior.alpha posterior.beta) (t.dist.pdf x)) :
    FreshRun (predictiveFromSamples lib (posterior.sample_beta lib.toSamplers n_samples true)
      fun m v => normalDraw lib m (w * v)) (fun f => IIDSampleThen P n_samples f (contLaw t.dist)) ∧
    IsProbabilityMeasure (contLaw t.dist) := by
  have hpdf : (fun θ : ℝ × ℝ => posterior.jointPdf θ.1 θ.2) =
      ngPdf posterior.mu posterior.lam posterior.alpha posterior.beta := by
    funext θ
    simp [NormalGamma.jointPdf, ngPdf]
  have hd := ngPdf_isDensity posterior.mu posterior.lam posterior.alpha posterior.beta hl ha hb
  have hS : MeasurableSet (univ ×ˢ Ioi 0 : Set (ℝ × ℝ)) := MeasurableSet.univ.prod measurableSet_Ioi
  have hr : Measurable fun θ : ℝ × ℝ => (θ.1, 1 / (posterior.lam * θ.2)) := by fun_prop
  have hlaw := C86_normal_gamma lib.toSamplers hs posterior hl ha hb n_samples true
  rw [hpdf] at hlaw
  have := lawOn_prob hS hd
  have hJ : IsProbabilityMeasure ((lawOn (univ ×ˢ Ioi 0)
      (ngPdf posterior.mu posterior.lam posterior.alpha posterior.beta)).map
      fun θ : ℝ × ℝ => (θ.1, 1 / (posterior.lam * θ.2))) := Measure.isProbabilityMeasure_map hr.aemeasurable
  have hmeas : Measurable fun q : (ℝ × ℝ) × ℝ =>
      (Normal.dist ⟨q.1.1, √(w * (1 / (posterior.lam * q.1.2)))⟩).pdf q.2 :=
    measurable_loc_scale (loc := fun z : ℝ × ℝ => z.1) (scale := fun z : ℝ × ℝ => √(w * (1 / (posterior.lam * z.2))))
      measurable_std_norm measurable_fst (by fun_prop)
  have hpos : ∀ z ∈ (univ ×ˢ Ioi 0 : Set (ℝ × ℝ)), 0 < √(w * (1 / (posterior.lam * z.2))) := fun z hz => by
    have : 0 < z.2 := hz.2
    exact sqrt_pos.2 (by positivity)
  have hg : Measurable fun z : ℝ × ℝ => (z.1, w * z.2) := by fun_prop
  refine ⟨(predictive_from_samples lib hlaw (Spec.SamplesEach.comp (normalDraw_samples lib hlib) (g := fun z : ℝ × ℝ => (z.1, w * z.2)) hg) ?_ fun F hF => ?_).1, ?_⟩
  · refine (ae_map_iff hr.aemeasurable (p := fun z => z ∈ (fun z : ℝ × ℝ => (z.1, w * z.2)) ⁻¹' (univ ×ˢ Ioi 0))
      (hg hS)).2 ?_
    filter_upwards [ae_lawOn_mem hS _] with θ hθ
    have : 0 < θ.2 := hθ.2
    exact ⟨mem_univ _, by simp only [mem_Ioi]; positivity⟩
  · refine Eq.trans ?_ (lintegral_map ((measurable_normal_mixture hF).comp hg) hr).symm
    exact mixture_law hS hd
      (L := fun (z : ℝ × ℝ) x => (Normal.dist ⟨z.1, √(w * (1 / (posterior.lam * z.2)))⟩).pdf x) hmeas
      (fun z hz => normal_pdf_nonneg _ (hpos z hz)) (measurable_pdf (measurable_std_t _) _ _) ht hF
  · exact mixture_law_prob hS hd
      (L := fun (z : ℝ × ℝ) x => (Normal.dist ⟨z.1, √(w * (1 / (posterior.lam * z.2)))⟩).pdf x) hmeas
      (fun z hz => normal_pdf_nonneg _ (hpos z hz)) (fun z hz => normal_prob _ (hpos z hz))
      (measurable_pdf (measurable_std_t _) _ _) ht

/-- C94 (disagreement). Normal observations with a NormalGamma posterior, sampled in the same way: the variance
`sample_mean` reports is `1 / (lam * precision)`, the variance of the mean, and the observations drawn with it
are Student-t with squared scale `2 beta / (lam alpha)` in place of `beta (lam + 1) / (lam alpha)`. -/
theorem C94_normal_ng_law (lib : FrozenSamplers ι) (hlib : CorrectFrozen lib P)
    (hs : CorrectScalar lib.toSamplers P) (posterior : NormalGamma ℝ) (hl : 0 < posterior.lam)
    (ha : 0 < posterior.alpha) (hb : 0 < posterior.beta) (n_samples : ℕ) :
    FreshRun (predictiveFromSamples lib (posterior.sample_beta lib.toSamplers n_samples true) (normalDraw lib))
      fun f => IIDSampleThen P n_samples f (contLaw (StudentT.dist
        ⟨posterior.mu, √(2 * posterior.beta / (posterior.lam * posterior.alpha)), 2 * posterior.alpha⟩)) := by
  have := (ng_then_normal lib hlib hs posterior hl ha hb n_samples one_pos
    (t := ⟨posterior.mu, √(2 * posterior.beta / (posterior.lam * posterior.alpha)), 2 * posterior.alpha⟩)
    fun x => by simpa only [one_mul] using ng_same_variance posterior.mu posterior.lam _ _ x hl ha hb).1
  simpa only [one_mul] using this

/-- C94. With `lam * variance` in place of the reported variance the result is an independent sample from the
distribution `normal_predictive` returns. Missing: the reported variance itself (false). -/
theorem C94_normal_ng_partial {M : Type} (lib : FrozenSamplers ι) (hlib : CorrectFrozen lib P)
    (hs : CorrectScalar lib.toSamplers P) (posterior : NormalGamma ℝ) (hl : 0 < posterior.lam)
    (ha : 0 < posterior.alpha) (hb : 0 < posterior.beta) (n_samples : ℕ) :
    ∃ t, normal_predictive (.ng posterior : NormalPrior ℝ M) = .ok t ∧
      FreshRun (predictiveFromSamples lib (posterior.sample_beta lib.toSamplers n_samples true)
        fun mean variance => normalDraw lib mean (posterior.lam * variance))
        fun f => IIDSampleThen P n_samples f (contLaw t.dist) := by
  have hp := fun x => C32_normal_predictive_ng (M := M) posterior hl ha hb x
  obtain ⟨t, ht, -⟩ := hp 0
  refine ⟨t, ht, (ng_then_normal lib hlib hs posterior hl ha hb n_samples hl fun x => ?_).1⟩
  obtain ⟨t', ht', h⟩ := hp x
  rw [ht] at ht'
  cases ht'
  have e : ∀ z : ℝ, posterior.lam * (1 / (posterior.lam * z)) = 1 / z := fun z => by field_simp
  have hpdf : (fun θ : ℝ × ℝ => posterior.jointPdf θ.1 θ.2) =
      ngPdf posterior.mu posterior.lam posterior.alpha posterior.beta := by
    funext θ
    simp [NormalGamma.jointPdf, ngPdf]
  rw [hpdf] at h
  simpa only [e] using h

theorem studentT_scale_unique {mu s s' nu : ℝ} (hs : 0 < s) (hs' : 0 < s') (hnu : 0 < nu)
    (h : contLaw (StudentT.dist ⟨mu, s, nu⟩) = contLaw (StudentT.dist ⟨mu, s', nu⟩)) : s = s' := by
  have hc : ∀ s > 0, Continuous (StudentT.dist ⟨mu, s, nu⟩).pdf := fun s hs => by
    simp only [StudentT.dist, Cont.pdf, Family.std]
    refine Continuous.div_const (Continuous.mul continuous_const ?_) _
    refine Continuous.rpow_const (by fun_prop) fun x => Or.inl ?_
    positivity
  have hpos : ∀ s > 0, ∀ x, 0 ≤ (StudentT.dist ⟨mu, s, nu⟩).pdf x := fun s hs x => by
    simp only [StudentT.dist, Cont.pdf, Family.std]
    have := Gamma_pos_of_pos (show 0 < (nu + 1) / 2 by positivity)
    have := Gamma_pos_of_pos (show 0 < nu / 2 by positivity)
    positivity
  have h1 := (withDensity_eq_iff_of_sigmaFinite (hc s hs).measurable.ennreal_ofReal.aemeasurable
    (hc s' hs').measurable.ennreal_ofReal.aemeasurable).1 h
  have h2 : (fun x => ENNReal.ofReal ((StudentT.dist ⟨mu, s, nu⟩).pdf x)) =
      fun x => ENNReal.ofReal ((StudentT.dist ⟨mu, s', nu⟩).pdf x) :=
    (Continuous.ae_eq_iff_eq volume (ENNReal.continuous_ofReal.comp (hc s hs))
      (ENNReal.continuous_ofReal.comp (hc s' hs'))).1 h1
  have h3 := congrFun h2 mu
  beta_reduce at h3
  rw [ENNReal.ofReal_eq_ofReal_iff (hpos s hs mu) (hpos s' hs' mu)] at h3
  simp only [StudentT.dist, Cont.pdf, Family.std, sub_self, zero_div] at h3
  have hG : 0 < Real.Gamma ((nu + 1) / 2) / (√(π * nu) * Real.Gamma (nu / 2)) * (1 + 0 ^ 2 / nu) ^ (-(nu + 1) / 2) := by
    have := Gamma_pos_of_pos (show 0 < (nu + 1) / 2 by positivity)
    have := Gamma_pos_of_pos (show 0 < nu / 2 by positivity)
    positivity
  rw [div_eq_div_iff hs.ne' hs'.ne'] at h3
  exact (mul_left_cancel₀ hG.ne' h3).symm

/-- C94 (disagreement). The observations have the distribution `normal_predictive` returns exactly for `lam = 1`. -/
theorem C94_normal_ng_iff {M : Type} (lib : FrozenSamplers ι) (hlib : CorrectFrozen lib P)
    (hs : CorrectScalar lib.toSamplers P) (posterior : NormalGamma ℝ) (hl : 0 < posterior.lam)
    (ha : 0 < posterior.alpha) (hb : 0 < posterior.beta) (n_samples : ℕ) (hn : n_samples ≠ 0) (t : StudentT ℝ)
    (ht : normal_predictive (.ng posterior : NormalPrior ℝ M) = .ok t) :
    (FreshStream (predictiveFromSamples lib (posterior.sample_beta lib.toSamplers n_samples true) (normalDraw lib))
      fun f => IIDSample P n_samples f (contLaw t.dist)) ↔ posterior.lam = 1 := by
  have hlaw := C94_normal_ng_law lib hlib hs posterior hl ha hb n_samples
  have hp1 := (ng_then_normal lib hlib hs posterior hl ha hb n_samples one_pos
    (t := ⟨posterior.mu, √(2 * posterior.beta / (posterior.lam * posterior.alpha)), 2 * posterior.alpha⟩)
    fun x => by simpa only [one_mul] using ng_same_variance posterior.mu posterior.lam _ _ x hl ha hb).2
  have e : t = ⟨posterior.mu, √(posterior.beta * (posterior.lam + 1) / (posterior.lam * posterior.alpha)),
      2 * posterior.alpha⟩ := by
    simp only [normal_predictive, powq_half, lit_real, Rat.cast_one, Rat.cast_ofNat] at ht
    exact (Except.ok.inj ht).symm
  have hp2 : IsProbabilityMeasure (contLaw t.dist) := by
    refine (ng_then_normal lib hlib hs posterior hl ha hb n_samples hl fun x => ?_).2
    obtain ⟨t', ht', h⟩ := C32_normal_predictive_ng (M := M) posterior hl ha hb x
    rw [ht] at ht'
    cases ht'
    have e : ∀ z : ℝ, posterior.lam * (1 / (posterior.lam * z)) = 1 / z := fun z => by field_simp
    have hpdf : (fun θ : ℝ × ℝ => posterior.jointPdf θ.1 θ.2) =
        ngPdf posterior.mu posterior.lam posterior.alpha posterior.beta := by
      funext θ
      simp [NormalGamma.jointPdf, ngPdf]
    rw [hpdf] at h
    simpa only [e] using h
  constructor
  · intro h
    have hu := iid_law_unique hn (hlaw.iid.1 fun _ => 0) (h.1 fun _ => 0)
    rw [e] at hu
    have hsq := studentT_scale_unique (sqrt_pos.2 (by positivity)) (sqrt_pos.2 (by positivity)) (by positivity) hu
    rw [sqrt_inj (by positivity) (by positivity), div_left_inj' (by positivity)] at hsq
    have := mul_left_cancel₀ hb.ne' (show posterior.beta * 2 = posterior.beta * (posterior.lam + 1) by linarith)
    linarith
  · intro h
    have e' : t = ⟨posterior.mu, √(2 * posterior.beta / (posterior.lam * posterior.alpha)), 2 * posterior.alpha⟩ := by
      rw [e, h]; norm_num [mul_comm]
    rw [e']
    exact hlaw.iid

example : ∃ lib : FrozenSamplers (Fin 1),
    (∃ t, normal_predictive (.nig (⟨1, 2, 3, none, some 4⟩ : NormalInverseGamma ℝ ℝ ℝ)) = .ok t ∧
      FreshRun (predictiveFromSamples lib
        ((⟨1, 2, 3, none, some 4⟩ : NormalInverseGamma ℝ ℝ ℝ).sample_beta lib.toSamplers 4 100 true) (normalDraw lib))
        fun f => IIDSampleThen streamLaw 100 f (contLaw t.dist)) ∧
    (∃ t, normal_predictive (.ng ⟨1, 2, 3, 4⟩ : NormalPrior ℝ ℝ) = .ok t ∧
      ¬ FreshStream (predictiveFromSamples lib
        ((⟨1, 2, 3, 4⟩ : NormalGamma ℝ).sample_beta lib.toSamplers 100 true) (normalDraw lib))
        fun f => IIDSample streamLaw 100 f (contLaw t.dist)) := by
  obtain ⟨lib, h, hs, -⟩ := exists_frozen_library 1
  refine ⟨lib, C94_normal_nig lib h hs _ 4 rfl (by norm_num) (by norm_num) (by norm_num) 100, ?_⟩
  obtain ⟨t, ht, -⟩ := C94_normal_ng_partial (M := ℝ) lib h hs ⟨1, 2, 3, 4⟩ (by norm_num) (by norm_num) (by norm_num) 100
  refine ⟨t, ht, fun hn => ?_⟩
  have := (C94_normal_ng_iff lib h hs ⟨1, 2, 3, 4⟩ (by norm_num) (by norm_num) (by norm_num) 100 (by norm_num) t ht).1 hn
  norm_num at this

end Conj
