import Verif.Props.TwoStageVector
import Verif.Lemmas.VectorDraw

/-!
# C94: posterior predictive samples of the multivariate normal and regression models
-/

open MeasureTheory Set Real

set_option linter.unusedSectionVars false

namespace Conj

open Scipy Spec Matrix

variable {P : Measure Stream} [IsProbabilityMeasure P] {n : ℕ}

/-! ## Unknown mean vector -/

/-- C94. Multivariate normal observations with known covariance: sample the mean from the posterior, then
an observation for each sampled mean. The result is an independent sample from the distribution
`multivariate_normal_known_covariance_predictive` returns. -/
theorem C94_multivariate_normal_known_covariance (lib : FrozenSamplers (Fin n)) (hmvn : CorrectNormal lib.toSamplers P)
    (posterior : MultivariateNormal (Fin n → ℝ) (Matrix (Fin n) (Fin n) ℝ)) (hS : posterior.cov.PosDef)
    (cov : Matrix (Fin n) (Fin n) ℝ) (hc : cov.PosDef) (n_samples : ℕ) :
    FreshRun (posteriorPredictiveSamplesEach lib (lib.multivariate_normal posterior.mu posterior.cov)
      (fun mean => lib.multivariate_normal mean cov) n_samples) fun f =>
      IIDSampleThen P n_samples f
        (lawOn univ (multivariate_normal_known_covariance_predictive posterior cov).pdf) := by
  have h2 : SamplesEach P (fun mean => lib.multivariate_normal mean cov) univ
      fun mean => lawOn univ (mvnPdf mean cov) := by
    have := Spec.SamplesEach.comp hmvn (g := fun mean : Fin n → ℝ => (mean, cov)) (by fun_prop)
    have e : (fun mean : Fin n → ℝ => (mean, cov)) ⁻¹' {q | q.2.PosDef} = univ := by ext; simp [hc]
    rwa [e] at this
  have hL : Measurable fun q : (Fin n → ℝ) × (Fin n → ℝ) => mvnPdf q.1 cov q.2 :=
    measurable_mvnPdf_all.comp (f := fun q : (Fin n → ℝ) × (Fin n → ℝ) => (q.2, q.1, cov)) (by fun_prop)
  have hpos : (multivariate_normal_known_covariance_predictive posterior cov).cov.PosDef := hS.add hc
  have key := iid_second_stage hmvn (b := (posterior.mu, posterior.cov)) hS h2 (Filter.Eventually.of_forall fun _ => mem_univ _)
    measurable_id (μ := lawOn univ (multivariate_normal_known_covariance_predictive posterior cov).pdf)
    (fun F hF => by
      simp only [id]
      rw [lawOn_univ]
      have := mixture_law MeasurableSet.univ (mvn_isDensity hS posterior.mu)
        (L := fun mean x => mvnPdf mean cov x) hL (fun mean _ x => (mvnPdf_pos hc mean x).le)
        (measurable_mvnPdf _ _) (C34_multivariate_normal_known_covariance_predictive posterior hS cov hc) hF
      simp only [← lawOn_univ] at this ⊢
      exact this) n_samples
  simp only [List.map_id] at key
  refine ⟨fun _ => ?_, fun _ => ?_⟩
  · simpa only [posteriorPredictiveSamplesEach, rvsEach_generator, rvs] using key
  · simpa only [posteriorPredictiveSamplesEach, rvsEach_none, rvs] using key

/-- C94. Known precision. -/
theorem C94_multivariate_normal_known_precision (lib : FrozenSamplers (Fin n)) (hmvn : CorrectNormal lib.toSamplers P)
    (posterior : MultivariateNormal (Fin n → ℝ) (Matrix (Fin n) (Fin n) ℝ)) (hS : posterior.cov.PosDef)
    (precision : Matrix (Fin n) (Fin n) ℝ) (hp : precision.PosDef) (n_samples : ℕ) :
    ∃ pred, multivariate_normal_known_precision_predictive posterior precision = .ok pred ∧
      FreshRun (posteriorPredictiveSamplesEach lib (lib.multivariate_normal posterior.mu posterior.cov)
        (fun mean => lib.multivariate_normal mean precision⁻¹) n_samples) fun f =>
        IIDSampleThen P n_samples f (lawOn univ pred.pdf) := by
  refine ⟨multivariate_normal_known_covariance_predictive posterior precision⁻¹, ?_,
    C94_multivariate_normal_known_covariance lib hmvn posterior hS precision⁻¹ hp.inv n_samples⟩
  simp [multivariate_normal_known_precision_predictive, linalgInv_posDef hp, bind, Except.bind,
    pure, Except.pure, multivariate_normal_known_covariance_predictive]

/-! ## Linear regression -/

section

variable {k : Type} [Fintype k] [DecidableEq k] {m : ℕ}

theorem measurable_mvtPdf (mu : k → ℝ) (S : Matrix k k ℝ) (nu : ℝ) : Measurable (mvtPdf mu S nu) := by
  have hq : Measurable fun x : k → ℝ => quad S⁻¹ (x - mu) := by
    have : Continuous fun x : k → ℝ => quad S⁻¹ (x - mu) := by unfold quad; fun_prop
    exact this.measurable
  exact ((measurable_const.add (hq.const_mul _)).pow_const _).const_mul _

theorem measurable_predictor (X : Matrix (Fin m) k ℝ) (i : Fin m) :
    Measurable fun z : (k → ℝ) × ℝ => ((X *ᵥ z.1) i, z.2) := by
  have hX : Measurable fun z : k → ℝ => X *ᵥ z :=
    (Continuous.matrix_mulVec continuous_const continuous_id).measurable
  exact ((measurable_pi_apply i).comp (hX.comp measurable_fst)).prodMk measurable_snd

theorem regression_draw (lib : FrozenSamplers k) (hlib : CorrectFrozen lib P) (X : Matrix (Fin m) k ℝ) :
    SamplesEach P (fun z : (k → ℝ) × ℝ => Draw.vec fun i => normalDraw lib ((X *ᵥ z.1) i) z.2) (univ ×ˢ Ioi 0)
      fun z => Measure.pi fun i => contLaw (Normal.dist ⟨(X *ᵥ z.1) i, √z.2⟩) :=
  vec_samples fun i => by
    have := Spec.SamplesEach.comp (normalDraw_samples lib hlib) (measurable_predictor X i)
    have e : (fun z : (k → ℝ) × ℝ => ((X *ᵥ z.1) i, z.2)) ⁻¹' (univ ×ˢ Ioi 0) = univ ×ˢ Ioi 0 := by ext; simp
    rwa [e] at this

theorem measurable_regression_likelihood (X : Matrix (Fin m) k ℝ) :
    Measurable fun q : ((k → ℝ) × ℝ) × (Fin m → ℝ) =>
      ∏ i, (Normal.dist ⟨(X *ᵥ q.1.1) i, √q.1.2⟩).pdf (q.2 i) :=
  Finset.measurable_fun_prod _ fun i _ =>
    measurable_normalDraw_pdf.comp (f := fun q : ((k → ℝ) × ℝ) × (Fin m → ℝ) => (((X *ᵥ q.1.1) i, q.1.2), q.2 i))
      (((measurable_predictor X i).comp measurable_fst).prodMk ((measurable_pi_apply i).comp measurable_snd))

theorem pi_normal (μ : Fin m → ℝ) {s : ℝ} (hs : 0 < s) :
    (Measure.pi fun i => contLaw (Normal.dist ⟨μ i, s⟩)) =
      volume.withDensity fun y : Fin m → ℝ => ENNReal.ofReal (∏ i, (Normal.dist ⟨μ i, s⟩).pdf (y i)) :=
  pi_withDensity (f := fun i x => (Normal.dist ⟨μ i, s⟩).pdf x) (fun i x => normal_pdf_nonneg _ hs _)
    (fun i => measurable_pdf measurable_std_norm _ _) (fun i => normal_prob _ hs)

theorem regression_mixture (X : Matrix (Fin m) k ℝ) (g : (k → ℝ) × ℝ → ℝ) (F : (Fin m → ℝ) → ENNReal) :
    ∫⁻ z, ∫⁻ y, F y ∂(volume.withDensity fun y : Fin m → ℝ =>
      ENNReal.ofReal (∏ i, (Normal.dist ⟨(X *ᵥ z.1) i, √z.2⟩).pdf (y i))) ∂(lawOn (univ ×ˢ Ioi 0) g) =
    ∫⁻ z, ∫⁻ y, F y ∂(Measure.pi fun i => contLaw (Normal.dist ⟨(X *ᵥ z.1) i, √z.2⟩)) ∂(lawOn (univ ×ˢ Ioi 0) g) := by
  have hS : MeasurableSet (univ ×ˢ Ioi 0 : Set ((k → ℝ) × ℝ)) := MeasurableSet.univ.prod measurableSet_Ioi
  refine lintegral_congr_ae ?_
  filter_upwards [ae_lawOn_mem hS g] with z hz
  have hz' : 0 < √z.2 := sqrt_pos.2 hz.2
  exact (congrArg (fun μ : Measure (Fin m → ℝ) => ∫⁻ x, F x ∂μ) (pi_normal (X *ᵥ z.1) hz')).symm

theorem regression_predictive_mixture (X : Matrix (Fin m) k ℝ) {g : (k → ℝ) × ℝ → ℝ}
    (hd : IsDensity volume ((univ : Set (k → ℝ)) ×ˢ Ioi (0 : ℝ)) g) {pred : (Fin m → ℝ) → ℝ} (hm : Measurable pred)
    (hp : ∀ y : Fin m → ℝ, IsPredictive volume ((univ : Set (k → ℝ)) ×ˢ Ioi (0 : ℝ))
      (fun θ => ∏ i, (Normal.dist { mu := (X *ᵥ θ.1) i, sigma := √θ.2 }).pdf (y i)) g (pred y))
    {F : (Fin m → ℝ) → ENNReal} (hF : Measurable F) :
    ∫⁻ y, F y ∂(lawOn univ pred) =
    ∫⁻ z, ∫⁻ y, F y ∂(Measure.pi fun i => contLaw (Normal.dist ⟨(X *ᵥ z.1) i, √z.2⟩)) ∂(lawOn (univ ×ˢ Ioi 0) g) := by
  have h0 : ∀ z ∈ (univ ×ˢ Ioi 0 : Set ((k → ℝ) × ℝ)), ∀ y : Fin m → ℝ,
      0 ≤ ∏ i, (Normal.dist ⟨(X *ᵥ z.1) i, √z.2⟩).pdf (y i) := by
    intro z hz y
    have hz' : 0 < √z.2 := sqrt_pos.2 hz.2
    refine Finset.prod_nonneg fun i _ => ?_
    exact normal_pdf_nonneg ((X *ᵥ z.1) i) hz' (y i)
  rw [lawOn_univ]
  refine Eq.trans (b := ∫⁻ z, ∫⁻ y, F y ∂(volume.withDensity fun y : Fin m → ℝ =>
      ENNReal.ofReal (∏ i, (Normal.dist ⟨(X *ᵥ z.1) i, √z.2⟩).pdf (y i))) ∂(lawOn (univ ×ˢ Ioi 0) g)) ?_ ?_
  · have hL := measurable_regression_likelihood X
    refine mixture_law (MeasurableSet.univ.prod measurableSet_Ioi) hd ?_ ?_ hm ?_ hF
    · exact hL
    · exact h0
    · exact hp
  · exact regression_mixture X g F

/-- C94. Linear regression: sample coefficients and variance, then for each of them the responses at the rows
of `X`. The result is an independent sample from the multivariate t `linear_regression_predictive` returns. -/
theorem C94_linear_regression (lib : FrozenSamplers k)
    (hlib : CorrectFrozen lib P) (hs : CorrectScalar lib.toSamplers P) (hmvn : CorrectNormal lib.toSamplers P)
    (X : Matrix (Fin m) k ℝ) (posterior : NormalInverseGamma ℝ (k → ℝ) (Matrix k k ℝ)) (D : Matrix k k ℝ)
    (h : posterior.delta_inverse = some D) (hD : D.PosDef) (ha : 0 < posterior.alpha) (hb : 0 < posterior.beta)
    (n_samples : ℕ) :
    ∃ t, linear_regression_predictive posterior X = .ok t ∧
      FreshRun (predictiveFromSamplesEach lib (posterior.sample_beta_nd lib.toSamplers D n_samples true)
        fun beta variance => Draw.vec fun i => normalDraw lib ((X *ᵥ beta) i) variance) fun f =>
        IIDSampleThen P n_samples f (lawOn univ t.pdf) := by
  obtain ⟨t, ht, hp⟩ := C33_linear_regression_predictive X posterior D h hD ha hb
  refine ⟨t, ht, ?_⟩
  have hd : IsDensity volume ((univ : Set (k → ℝ)) ×ˢ Ioi (0 : ℝ)) fun θ => posterior.jointPdfNd D θ.1 θ.2 :=
    nigNd_isDensity ha hb hD posterior.mu
  have hS : MeasurableSet (univ ×ˢ Ioi 0 : Set ((k → ℝ) × ℝ)) := MeasurableSet.univ.prod measurableSet_Ioi
  have := lawOn_prob hS hd
  have h1 := C86_normal_inverse_gamma_nd lib.toSamplers hs hmvn posterior ha hb D hD n_samples true
  have h2 := regression_draw lib hlib X
  have h3 := ae_lawOn_mem hS fun θ : (k → ℝ) × ℝ => posterior.jointPdfNd D θ.1 θ.2
  refine (predictive_from_samples lib h1 (model := fun beta variance => Draw.vec fun i => normalDraw lib ((X *ᵥ beta) i) variance)
    h2 h3 (μ := lawOn univ t.pdf) fun F hF => ?_).2
  exact regression_predictive_mixture X hd (measurable_mvtPdf _ _ _) hp hF

end

/-! ## Unknown mean and covariance -/

theorem iw_scale {nu w : ℝ} (hw : 0 < w) {psi S : Matrix (Fin n) (Fin n) ℝ} (hpsi : psi.PosDef) (hS : S.PosDef) :
    invwishartPdf nu (w • psi) (w • S) = w ^ (-((n : ℝ) * (n + 1) / 2)) * invwishartPdf nu psi S := by
  have hw0 : w ≠ 0 := hw.ne'
  have d1 := posDef_det hpsi
  have d2 := posDef_det hS
  have htr : (w • psi * (w • S)⁻¹).trace = (psi * S⁻¹).trace := by
    have : (w • S)⁻¹ = w⁻¹ • S⁻¹ := by
      have hu : IsUnit S.det := (d2.ne').isUnit
      refine Matrix.inv_eq_right_inv ?_
      rw [Matrix.smul_mul, Matrix.mul_smul, Matrix.mul_nonsing_inv _ hu, smul_smul, mul_inv_cancel₀ hw0, one_smul]
    rw [this, Matrix.smul_mul, Matrix.mul_smul, smul_smul, mul_inv_cancel₀ hw0, one_smul]
  simp only [invwishartPdf, htr, Matrix.det_smul, Fintype.card_fin]
  have hwn : (0 : ℝ) ≤ w ^ n := by positivity
  rw [mul_rpow hwn d1.le, mul_rpow hwn d2.le, ← rpow_natCast, ← rpow_mul hw.le, ← rpow_mul hw.le]
  have e : w ^ (-((n : ℝ) * (n + 1) / 2)) = w ^ ((n : ℝ) * (nu / 2)) * w ^ ((n : ℝ) * (-(nu + n + 1) / 2)) := by
    rw [← rpow_add hw]; congr 1; ring
  rw [e]
  ring

/-- the mixture of normal densities with covariance `S / w`, `S` the covariance matrix -/
theorem niw_scaled_predictive {kappa nu w : ℝ} (hk : 0 < kappa) (hw : 0 < w) (hnu : (n : ℝ) - 1 < nu)
    {psi : Matrix (Fin n) (Fin n) ℝ} (hpsi : psi.PosDef) (mu x : Fin n → ℝ) :
    IsPredictive volume {θ : (Fin n → ℝ) × (UpperIdx n → ℝ) | (symOf θ.2).PosDef}
      (fun θ => mvnPdf θ.1 ((1 / w) • symOf θ.2) x)
      (fun θ => invwishartPdf nu psi (symOf θ.2) * mvnPdf mu ((1 / kappa) • symOf θ.2) θ.1)
      (mvtPdf mu (((kappa + w) / (kappa * w * (nu - n + 1))) • psi) (nu - n + 1) x) := by
  have hk' : 0 < kappa / w := by positivity
  have hpsi1 : ((1 / w) • psi).PosDef := hpsi.smul (by positivity)
  have hvv : (vecMulVec (x - mu) (x - mu)).PosSemidef := by
    have := posSemidef_vecMulVec_self_star (x - mu)
    rwa [star_trivial] at this
  have hpost : ((1 / w) • psi + (kappa / w / (kappa / w + 1)) • vecMulVec (x - mu) (x - mu)).PosDef :=
    hpsi1.add_posSemidef (hvv.smul (by positivity))
  have hnu' : (Fintype.card (Fin n) : ℝ) - 1 < nu := by simpa using hnu
  set psi' := (1 / w) • psi + (kappa / w / (kappa / w + 1)) • vecMulVec (x - mu) (x - mu) with hpsi'
  refine IsPredictive.of_density (measurableSet_posDef.preimage measurable_snd)
    (niw_isDensity (nu := nu + 1) (kappa := w * (kappa / w + 1)) (psi := w • psi') (by positivity) (by linarith)
      (hpost.smul hw) (fun j => (mu j * (kappa / w) + x j) / (kappa / w + 1))) fun θ hθ => ?_
  have hS : (symOf θ.2).PosDef := hθ
  have hS1 : ((1 / w) • symOf θ.2).PosDef := hS.smul (by positivity)
  have hconst := niw_constant hpsi1 hk' hnu' mu x
  have hker := niw_kernel (fun (_ : Unit) => x) mu x (by funext j; simp) hk' hnu' (psi := (1 / w) • psi)
    hpost (by
      have : subRow (fun (_ : Unit) => x) x = 0 := by ext i j; simp [subRow]
      rw [this]; simp [hpsi']) θ.1 hS1
  simp only [Fintype.card_unit, Nat.cast_one, pow_one, one_mul, Finset.univ_unique,
    Finset.prod_singleton] at hker
  rw [← hpsi'] at hconst
  rw [hconst] at hker
  have hw0 := hw.ne'
  have e1 : invwishartPdf nu psi (symOf θ.2) =
      w ^ (-((n : ℝ) * (n + 1) / 2)) * invwishartPdf nu ((1 / w) • psi) ((1 / w) • symOf θ.2) := by
    rw [← iw_scale hw hpsi1 hS1, smul_smul, smul_smul, mul_one_div_cancel hw0, one_smul, one_smul]
  have e2 : invwishartPdf (nu + 1) (w • psi') (symOf θ.2) =
      w ^ (-((n : ℝ) * (n + 1) / 2)) * invwishartPdf (nu + 1) psi' ((1 / w) • symOf θ.2) := by
    rw [← iw_scale hw hpost hS1, smul_smul, mul_one_div_cancel hw0, one_smul]
  have e3 : (1 / kappa) • symOf θ.2 = (1 / (kappa / w)) • (1 / w) • symOf θ.2 := by
    rw [smul_smul]; congr 1; field_simp
  have e4 : (1 / (w * (kappa / w + 1))) • symOf θ.2 = (1 / (kappa / w + 1)) • (1 / w) • symOf θ.2 := by
    rw [smul_smul]; congr 1; field_simp
  have e5 : ((kappa + w) / (kappa * w * (nu - n + 1))) • psi =
      ((kappa / w + 1) / (kappa / w * (nu - (Fintype.card (Fin n) : ℝ) + 1))) • (1 / w) • psi := by
    rw [smul_smul, Fintype.card_fin]; congr 1
    have : 0 < nu - n + 1 := by linarith
    field_simp
  rw [e1, e2, e3, e4, e5]
  rw [Fintype.card_fin] at hker ⊢
  linear_combination (w ^ (-((n : ℝ) * (n + 1) / 2))) * hker

theorem measurable_mvn_mixture {F : (Fin n → ℝ) → ENNReal} (hF : Measurable F) :
    Measurable fun z : (Fin n → ℝ) × Matrix (Fin n) (Fin n) ℝ => ∫⁻ c, F c ∂(lawOn univ (mvnPdf z.1 z.2)) := by
  have hFm : Measurable fun q : ((Fin n → ℝ) × Matrix (Fin n) (Fin n) ℝ) × (Fin n → ℝ) =>
      ENNReal.ofReal (mvnPdf q.1.1 q.1.2 q.2) * F q.2 :=
    (measurable_mvnPdf_all.comp (f := fun q : ((Fin n → ℝ) × Matrix (Fin n) (Fin n) ℝ) × (Fin n → ℝ) =>
      (q.2, q.1.1, q.1.2)) (by fun_prop)).ennreal_ofReal.mul (hF.comp measurable_snd)
  have e1 : ∀ z : (Fin n → ℝ) × Matrix (Fin n) (Fin n) ℝ, ∫⁻ c, F c ∂(lawOn univ (mvnPdf z.1 z.2)) =
      ∫⁻ c, ENNReal.ofReal (mvnPdf z.1 z.2 c) * F c := fun z => by
    rw [lawOn_univ, lintegral_withDensity_eq_lintegral_mul _ (measurable_mvnPdf _ _).ennreal_ofReal hF]
    rfl
  simp only [e1]
  exact hFm.lintegral_prod_right'

/-- normal inverse-Wishart samples, then observations with `w` times the reported covariance -/
theorem niw_then_normal (lib : FrozenSamplers (Fin n)) (hmvn : CorrectNormal lib.toSamplers P)
    (hiw : CorrectInvWishart lib.toSamplers P)
    (posterior : NormalInverseWishart ℝ (Fin n → ℝ) (Matrix (Fin n) (Fin n) ℝ)) (hk : 0 < posterior.kappa)
    (hnu : (n : ℝ) - 1 < posterior.nu) (hpsi : posterior.psi.PosDef) (n_samples : ℕ) {w : ℝ} (hw : 0 < w)
    {t : MultivariateStudentT ℝ (Fin n → ℝ) (Matrix (Fin n) (Fin n) ℝ)}
    (ht : t = ⟨posterior.mu, ((1 + w) / (posterior.kappa * (posterior.nu - n + 1))) • posterior.psi,
      posterior.nu - n + 1⟩) :
    FreshRun (predictiveFromSamplesEach lib (posterior.sample_mean lib.toSamplers n_samples true)
      fun mean cov => lib.multivariate_normal mean (w • cov)) (fun f => IIDSampleThen P n_samples f (lawOn univ t.pdf)) ∧
    IsProbabilityMeasure (lawOn univ t.pdf) := by
  have hd : IsDensity volume {θ : (Fin n → ℝ) × (UpperIdx n → ℝ) | (symOf θ.2).PosDef} fun θ =>
      posterior.jointPdf θ.1 (symOf θ.2) := niw_isDensity hk hnu hpsi posterior.mu
  have hS : MeasurableSet {θ : (Fin n → ℝ) × (UpperIdx n → ℝ) | (symOf θ.2).PosDef} :=
    measurableSet_posDef.preimage measurable_snd
  have hsym : Measurable fun c : UpperIdx n → ℝ => (symOf c : Matrix (Fin n) (Fin n) ℝ) := measurable_symOf
  have hr : Measurable fun θ : (Fin n → ℝ) × (UpperIdx n → ℝ) => (θ.1, (1 / posterior.kappa) • symOf θ.2) :=
    measurable_fst.prodMk ((measurable_const_smul_matrix (m := Fin n) (n := Fin n) (1 / posterior.kappa)).comp
      (hsym.comp measurable_snd))
  have hg : Measurable fun z : (Fin n → ℝ) × Matrix (Fin n) (Fin n) ℝ => (z.1, w • z.2) :=
    measurable_fst.prodMk ((measurable_const_smul_matrix (m := Fin n) (n := Fin n) w).comp measurable_snd)
  have hlaw := C86_normal_inverse_wishart lib.toSamplers hmvn hiw posterior hk hnu hpsi n_samples true
  have := lawOn_prob hS hd
  have hJ : IsProbabilityMeasure ((lawOn {θ : (Fin n → ℝ) × (UpperIdx n → ℝ) | (symOf θ.2).PosDef} fun θ =>
      posterior.jointPdf θ.1 (symOf θ.2)).map fun θ => (θ.1, (1 / posterior.kappa) • symOf θ.2)) :=
    Measure.isProbabilityMeasure_map hr.aemeasurable
  have hw' : 0 < posterior.kappa / w := by positivity
  have e : ∀ S : Matrix (Fin n) (Fin n) ℝ, w • (1 / posterior.kappa) • S = (1 / (posterior.kappa / w)) • S := fun S => by
    rw [smul_smul]; congr 1; field_simp
  have hp : ∀ x, IsPredictive volume {θ : (Fin n → ℝ) × (UpperIdx n → ℝ) | (symOf θ.2).PosDef}
      (fun θ => mvnPdf θ.1 (w • (1 / posterior.kappa) • symOf θ.2) x) (fun θ => posterior.jointPdf θ.1 (symOf θ.2))
      (t.pdf x) := fun x => by
    simp only [e]
    have := niw_scaled_predictive hk hw' hnu hpsi posterior.mu x
    have e2 : (posterior.kappa + posterior.kappa / w) / (posterior.kappa * (posterior.kappa / w) * (posterior.nu - n + 1)) =
        (1 + w) / (posterior.kappa * (posterior.nu - n + 1)) := by
      have : 0 < posterior.nu - n + 1 := by linarith
      field_simp; ring
    rw [e2] at this
    rw [ht]
    exact this
  have hpd : ∀ z ∈ {θ : (Fin n → ℝ) × (UpperIdx n → ℝ) | (symOf θ.2).PosDef},
      (w • (1 / posterior.kappa) • symOf z.2).PosDef := fun z hz => by
    rw [e]
    exact (show (symOf z.2).PosDef from hz).smul (by positivity)
  have hL : Measurable fun q : ((Fin n → ℝ) × (UpperIdx n → ℝ)) × (Fin n → ℝ) =>
      mvnPdf q.1.1 (w • (1 / posterior.kappa) • symOf q.1.2) q.2 :=
    measurable_mvnPdf_all.comp (f := fun q : ((Fin n → ℝ) × (UpperIdx n → ℝ)) × (Fin n → ℝ) =>
      (q.2, q.1.1, w • (1 / posterior.kappa) • symOf q.1.2))
      (measurable_snd.prodMk ((hg.comp hr).comp measurable_fst))
  have h0 : ∀ z ∈ {θ : (Fin n → ℝ) × (UpperIdx n → ℝ) | (symOf θ.2).PosDef}, ∀ x,
      0 ≤ mvnPdf z.1 (w • (1 / posterior.kappa) • symOf z.2) x := fun z hz x => (mvnPdf_pos (hpd z hz) _ _).le
  have htm : Measurable t.pdf := measurable_mvtPdf _ _ _
  refine ⟨(predictive_from_samples lib hlaw (Spec.SamplesEach.comp hmvn
    (g := fun z : (Fin n → ℝ) × Matrix (Fin n) (Fin n) ℝ => (z.1, w • z.2)) hg) ?_ fun F hF => ?_).2, ?_⟩
  · refine (ae_map_iff hr.aemeasurable (p := fun z => z ∈ (fun z : (Fin n → ℝ) × Matrix (Fin n) (Fin n) ℝ =>
      (z.1, w • z.2)) ⁻¹' {q | q.2.PosDef}) (hg ?_)).2 ?_
    · exact measurableSet_posDef_matrix.preimage measurable_snd
    · filter_upwards [ae_lawOn_mem hS _] with θ hθ
      exact hpd θ hθ
  · refine Eq.trans ?_ (lintegral_map ((measurable_mvn_mixture hF).comp hg) hr).symm
    have key := mixture_law hS hd hL h0 htm hp hF
    rw [lawOn_univ, key]
    simp only [Function.comp_def, lawOn_univ]
  · rw [lawOn_univ]
    refine mixture_law_prob hS hd hL h0 (fun z hz => ?_) htm hp
    rw [← lawOn_univ]
    exact lawOn_prob MeasurableSet.univ (mvn_isDensity (hpd z hz) z.1)

/-- C94 (disagreement). Multivariate normal observations with a normal inverse-Wishart posterior: the covariance
`sample_mean` reports is `1 / kappa` times the covariance of the observations, and the observations drawn with it
are multivariate t with shape `2 psi / (kappa (nu - p + 1))` in place of
`(kappa + 1) psi / (kappa (nu - p + 1))`. -/
theorem C94_multivariate_normal_law (lib : FrozenSamplers (Fin n)) (hmvn : CorrectNormal lib.toSamplers P)
    (hiw : CorrectInvWishart lib.toSamplers P)
    (posterior : NormalInverseWishart ℝ (Fin n → ℝ) (Matrix (Fin n) (Fin n) ℝ)) (hk : 0 < posterior.kappa)
    (hnu : (n : ℝ) - 1 < posterior.nu) (hpsi : posterior.psi.PosDef) (n_samples : ℕ) :
    FreshRun (predictiveFromSamplesEach lib (posterior.sample_mean lib.toSamplers n_samples true)
      fun mean cov => lib.multivariate_normal mean cov) fun f => IIDSampleThen P n_samples f
        (lawOn univ (MultivariateStudentT.pdf ⟨posterior.mu,
          (2 / (posterior.kappa * (posterior.nu - n + 1))) • posterior.psi, posterior.nu - n + 1⟩)) := by
  have := (niw_then_normal lib hmvn hiw posterior hk hnu hpsi n_samples one_pos rfl).1
  norm_num at this ⊢
  exact this

theorem niw_predictive_eq (posterior : NormalInverseWishart ℝ (Fin n → ℝ) (Matrix (Fin n) (Fin n) ℝ)) :
    multivariate_normal_predictive posterior = ⟨posterior.mu,
      ((1 + posterior.kappa) / (posterior.kappa * (posterior.nu - n + 1))) • posterior.psi, posterior.nu - n + 1⟩ := by
  simp only [multivariate_normal_predictive, Fintype.card_fin]
  congr 1
  ext i j
  simp only [of_apply, Matrix.smul_apply, smul_eq_mul]
  ring

/-- C94. With `kappa` times the reported covariance the result is an independent sample from the distribution
`multivariate_normal_predictive` returns. Missing: the reported covariance itself (false). -/
theorem C94_multivariate_normal_partial (lib : FrozenSamplers (Fin n)) (hmvn : CorrectNormal lib.toSamplers P)
    (hiw : CorrectInvWishart lib.toSamplers P)
    (posterior : NormalInverseWishart ℝ (Fin n → ℝ) (Matrix (Fin n) (Fin n) ℝ)) (hk : 0 < posterior.kappa)
    (hnu : (n : ℝ) - 1 < posterior.nu) (hpsi : posterior.psi.PosDef) (n_samples : ℕ) :
    FreshRun (predictiveFromSamplesEach lib (posterior.sample_mean lib.toSamplers n_samples true)
      fun mean cov => lib.multivariate_normal mean (posterior.kappa • cov)) fun f =>
        IIDSampleThen P n_samples f (lawOn univ (multivariate_normal_predictive posterior).pdf) :=
  (niw_then_normal lib hmvn hiw posterior hk hnu hpsi n_samples hk (niw_predictive_eq posterior)).1

theorem continuous_mvtPdf {S : Matrix (Fin n) (Fin n) ℝ} (hS : S.PosDef) {nu : ℝ} (hn : 0 < nu) (mu : Fin n → ℝ) :
    Continuous (mvtPdf mu S nu) := by
  have hq : Continuous fun x : Fin n → ℝ => quad S⁻¹ (x - mu) := by unfold quad; fun_prop
  refine Continuous.mul continuous_const (Continuous.rpow_const (by fun_prop) fun x => Or.inl ?_)
  have : 0 ≤ quad S⁻¹ (x - mu) := quad_nonneg hS.inv.posSemidef _
  positivity

theorem mvt_scale_unique (hn0 : n ≠ 0) {psi : Matrix (Fin n) (Fin n) ℝ} (hpsi : psi.PosDef) {mu : Fin n → ℝ}
    {a b nu : ℝ} (ha : 0 < a) (hb : 0 < b) (hnu : 0 < nu)
    (h : lawOn univ (mvtPdf mu (a • psi) nu) = lawOn univ (mvtPdf mu (b • psi) nu)) : a = b := by
  have hA : (a • psi).PosDef := hpsi.smul ha
  have hB : (b • psi).PosDef := hpsi.smul hb
  rw [lawOn_univ, lawOn_univ] at h
  have h1 := (withDensity_eq_iff_of_sigmaFinite (measurable_mvtPdf _ _ _).ennreal_ofReal.aemeasurable
    (measurable_mvtPdf _ _ _).ennreal_ofReal.aemeasurable).1 h
  have h2 : (fun x => ENNReal.ofReal (mvtPdf mu (a • psi) nu x)) = fun x => ENNReal.ofReal (mvtPdf mu (b • psi) nu x) :=
    (Continuous.ae_eq_iff_eq volume (ENNReal.continuous_ofReal.comp (continuous_mvtPdf hA hnu mu))
      (ENNReal.continuous_ofReal.comp (continuous_mvtPdf hB hnu mu))).1 h1
  have h3 := congrFun h2 mu
  beta_reduce at h3
  rw [ENNReal.ofReal_eq_ofReal_iff (mvtPdf_pos hA hnu _ _).le (mvtPdf_pos hB hnu _ _).le] at h3
  have hdet := posDef_det hpsi
  have key : ∀ c > 0, mvtPdf mu (c • psi) nu mu = Real.Gamma ((nu + n) / 2) /
      (Real.Gamma (nu / 2) * nu ^ ((n : ℝ) / 2) * π ^ ((n : ℝ) / 2) * (c ^ n * psi.det) ^ ((1 : ℝ) / 2)) := fun c hc => by
    have hq : quad (c • psi)⁻¹ (mu - mu) = 0 := by simp [quad]
    simp only [mvtPdf, hq, Fintype.card_fin, Matrix.det_smul]
    simp
  rw [key a ha, key b hb] at h3
  have g1 := Gamma_pos_of_pos (show 0 < (nu + n) / 2 by positivity)
  have g2 := Gamma_pos_of_pos (show 0 < nu / 2 by positivity)
  have ka : 0 < a ^ n * psi.det := by positivity
  have kb : 0 < b ^ n * psi.det := by positivity
  have h4 := inv_injective (mul_left_cancel₀ g1.ne' (by simpa only [div_eq_mul_inv] using h3))
  have hc : Real.Gamma (nu / 2) * nu ^ ((n : ℝ) / 2) * π ^ ((n : ℝ) / 2) ≠ 0 := by positivity
  have h5 := mul_left_cancel₀ hc h4
  have h6 := (rpow_left_inj ka.le kb.le (by norm_num : ((1 : ℝ) / 2) ≠ 0)).1 h5
  exact (pow_left_inj₀ ha.le hb.le hn0).1 (mul_right_cancel₀ hdet.ne' h6)

/-- C94 (disagreement). The observations have the distribution `multivariate_normal_predictive` returns exactly
for `kappa = 1`. -/
theorem C94_multivariate_normal_iff (hn0 : n ≠ 0) (lib : FrozenSamplers (Fin n)) (hmvn : CorrectNormal lib.toSamplers P)
    (hiw : CorrectInvWishart lib.toSamplers P)
    (posterior : NormalInverseWishart ℝ (Fin n → ℝ) (Matrix (Fin n) (Fin n) ℝ)) (hk : 0 < posterior.kappa)
    (hnu : (n : ℝ) - 1 < posterior.nu) (hpsi : posterior.psi.PosDef) (n_samples : ℕ) (hs : n_samples ≠ 0) :
    (FreshStream (predictiveFromSamplesEach lib (posterior.sample_mean lib.toSamplers n_samples true)
      fun mean cov => lib.multivariate_normal mean cov) fun f =>
        IIDSample P n_samples f (lawOn univ (multivariate_normal_predictive posterior).pdf)) ↔ posterior.kappa = 1 := by
  have hf : 0 < posterior.nu - n + 1 := by linarith
  have hp1 := (niw_then_normal lib hmvn hiw posterior hk hnu hpsi n_samples one_pos rfl).2
  have hp2 := (niw_then_normal lib hmvn hiw posterior hk hnu hpsi n_samples hk (niw_predictive_eq posterior)).2
  have hlaw := (niw_then_normal lib hmvn hiw posterior hk hnu hpsi n_samples one_pos rfl).1
  simp only [one_smul] at hlaw
  constructor
  · intro h
    have hu := iid_law_unique hs (hlaw.iid.1 fun _ => 0) (h.1 fun _ => 0)
    rw [niw_predictive_eq] at hu
    have := mvt_scale_unique hn0 hpsi (by positivity) (by positivity) hf hu
    rw [div_left_inj' (by positivity)] at this
    linarith
  · intro h
    rw [niw_predictive_eq, h]
    rw [h] at hlaw hp1
    have e := hlaw.iid (ν := lawOn univ (MultivariateStudentT.pdf ⟨posterior.mu,
      ((1 + 1) / (1 * (posterior.nu - n + 1))) • posterior.psi, posterior.nu - n + 1⟩))
    exact e

example : ∃ lib : FrozenSamplers (Fin 2),
    FreshRun (posteriorPredictiveSamplesEach lib (lib.multivariate_normal ![0, 1] 1)
      (fun mean => lib.multivariate_normal mean !![2, 1; 1, 2]) 50) (fun f =>
      IIDSampleThen streamLaw 50 f
        (lawOn univ (multivariate_normal_known_covariance_predictive ⟨![0, 1], 1⟩ !![2, 1; 1, 2]).pdf)) ∧
    (¬ FreshStream (predictiveFromSamplesEach lib
      (NormalInverseWishart.sample_mean lib.toSamplers ⟨![1, 1], 2, 4, !![2, 1; 1, 2]⟩ 50 true)
      fun mean cov => lib.multivariate_normal mean cov) fun f =>
        IIDSample streamLaw 50 f (lawOn univ (multivariate_normal_predictive ⟨![1, 1], 2, 4, !![2, 1; 1, 2]⟩).pdf)) := by
  obtain ⟨lib, -, -, h1, h2, -⟩ := exists_frozen_library 2
  refine ⟨lib, C94_multivariate_normal_known_covariance lib h1 ⟨![0, 1], 1⟩ PosDef.one _ exampleCov_posDef 50, fun h => ?_⟩
  have := (C94_multivariate_normal_iff (by norm_num) lib h1 h2 ⟨![1, 1], 2, 4, !![2, 1; 1, 2]⟩ (by norm_num) (by norm_num)
    exampleCov_posDef 50 (by norm_num)).1 h
  norm_num at this

example : ∃ lib : FrozenSamplers (Fin 2), ∃ t,
    linear_regression_predictive ⟨![1, 2], 3, 4, some 1, none⟩ !![1, 0; 1, 1; 1, 2] = .ok t ∧
    FreshRun (predictiveFromSamplesEach lib
      (NormalInverseGamma.sample_beta_nd lib.toSamplers ⟨![1, 2], 3, 4, some 1, none⟩ 1 50 true)
      fun beta variance => Draw.vec fun i : Fin 3 => normalDraw lib ((!![1, 0; 1, 1; 1, 2] *ᵥ beta) i) variance) fun f =>
        IIDSampleThen streamLaw 50 f (lawOn univ t.pdf) := by
  obtain ⟨lib, h0, hs, h1, -⟩ := exists_frozen_library 2
  exact ⟨lib, C94_linear_regression lib h0 hs h1 !![1, 0; 1, 1; 1, 2] ⟨![1, 2], 3, 4, some 1, none⟩ 1 rfl PosDef.one
    (by norm_num) (by norm_num) 50⟩

end Conj
