import Verif.Lemmas.MatAlg

/-!
# Bayesian linear regression (C20, C33)
-/

open MeasureTheory Set Real Matrix

set_option linter.unusedSectionVars false

namespace Conj

open Scipy Spec

variable {m p : Type} [Fintype m] [Fintype p] [DecidableEq m] [DecidableEq p]

/-- C20. For every design matrix and response, the returned distribution has the joint
density of (coefficients, variance) given by Bayes' rule, the likelihood being independent
normal responses with mean `X b` and the given variance. The posterior is again valid. -/
theorem C20_linear_regression_posterior (X : Matrix m p ℝ) (y : m → ℝ)
    (prior : NormalInverseGamma ℝ (p → ℝ) (Matrix p p ℝ)) (D : Matrix p p ℝ)
    (h : prior.delta_inverse = some D) (hD : D.PosDef) (ha : 0 < prior.alpha)
    (hb : 0 < prior.beta) :
    ∃ post D', linear_regression X y prior = .ok post ∧ post.delta_inverse = some D' ∧
      D'.PosDef ∧ 0 < post.alpha ∧ 0 < post.beta ∧
      IsPosterior volume ((univ : Set (p → ℝ)) ×ˢ Ioi (0 : ℝ))
        (fun θ => prior.jointPdfNd D θ.1 θ.2)
        (fun θ => ∏ i, (Normal.dist { mu := (X *ᵥ θ.1) i, sigma := √θ.2 }).pdf (y i))
        (fun θ => post.jointPdfNd D' θ.1 θ.2) := by
  have hA := gram_add_posDef X hD
  have hM : (1 + X * D * Xᵀ).PosDef := by
    have := posSemidef_conj hD.posSemidef Xᵀ
    rw [transpose_transpose] at this
    exact PosDef.one.add_posSemidef this
  have hq : 0 ≤ quad (1 + X * D * Xᵀ)⁻¹ (y - X *ᵥ prior.mu) :=
    quad_nonneg hM.inv.posSemidef _
  have ha' : 0 < prior.alpha + 1 / 2 * (Fintype.card m : ℝ) := by positivity
  have hb' : 0 < prior.beta + 1 / 2 * quad (1 + X * D * Xᵀ)⁻¹ (y - X *ᵥ prior.mu) := by
    positivity
  refine ⟨_, _, linear_regression_eq X y prior h hD, rfl, hA.inv, ha', hb', ?_⟩
  refine IsPosterior.of_density (MeasurableSet.univ.prod measurableSet_Ioi)
    (nigNd_isDensity ha' hb' hA.inv _)
    (c := mvtPdf (X *ᵥ prior.mu) ((prior.beta / prior.alpha) • (1 + X * D * Xᵀ))
      (2 * prior.alpha) y)
    (mvtPdf_pos (posDef_smul hM (div_pos hb ha)) (by positivity) _ y) ?_
  intro θ hθ
  have hv : 0 < θ.2 := hθ.2
  have hk := regression_kernel ha hb hD X prior.mu θ.1 y hv
  simp only [NormalInverseGamma.jointPdfNd, NormalInverseGamma.inverse_gamma]
  rw [prod_normal_eq_mvn hv (X *ᵥ θ.1) y]
  exact hk

example : ∃ post D', linear_regression !![1, 2; 3, 4; 5, 6; (7 : ℝ), 9] ![1, -1, 2, 0]
      ⟨![0, 1], 3, 2, some 1, none⟩ = .ok post ∧ post.delta_inverse = some D' ∧ D'.PosDef := by
  obtain ⟨post, D', h1, h2, h3, _⟩ :=
    C20_linear_regression_posterior !![1, 2; 3, 4; 5, 6; (7 : ℝ), 9] ![1, -1, 2, 0]
      ⟨![0, 1], 3, 2, some 1, none⟩ 1 rfl PosDef.one (by norm_num) (by norm_num)
  exact ⟨post, D', h1, h2, h3⟩

/-- C33. The returned multivariate t density is the mixture of the regression likelihood
over the joint density of (coefficients, variance). -/
theorem C33_linear_regression_predictive (X : Matrix m p ℝ)
    (dist : NormalInverseGamma ℝ (p → ℝ) (Matrix p p ℝ)) (D : Matrix p p ℝ)
    (h : dist.delta_inverse = some D) (hD : D.PosDef) (ha : 0 < dist.alpha)
    (hb : 0 < dist.beta) :
    ∃ t, linear_regression_predictive dist X = .ok t ∧ ∀ y : m → ℝ,
      IsPredictive volume ((univ : Set (p → ℝ)) ×ˢ Ioi (0 : ℝ))
        (fun θ => ∏ i, (Normal.dist { mu := (X *ᵥ θ.1) i, sigma := √θ.2 }).pdf (y i))
        (fun θ => dist.jointPdfNd D θ.1 θ.2)
        (t.pdf y) := by
  refine ⟨⟨X *ᵥ dist.mu, (dist.beta / dist.alpha) • (1 + X * D * Xᵀ), 2 * dist.alpha⟩, ?_, ?_⟩
  · simp [linear_regression_predictive, h, bind, Except.bind, pure, Except.pure]
  intro y
  have hA := gram_add_posDef X hD
  have hM : (1 + X * D * Xᵀ).PosDef := by
    have := posSemidef_conj hD.posSemidef Xᵀ
    rw [transpose_transpose] at this
    exact PosDef.one.add_posSemidef this
  have hq : 0 ≤ quad (1 + X * D * Xᵀ)⁻¹ (y - X *ᵥ dist.mu) :=
    quad_nonneg hM.inv.posSemidef _
  have ha' : 0 < dist.alpha + 1 / 2 * (Fintype.card m : ℝ) := by positivity
  have hb' : 0 < dist.beta + 1 / 2 * quad (1 + X * D * Xᵀ)⁻¹ (y - X *ᵥ dist.mu) := by
    positivity
  refine IsPredictive.of_density (MeasurableSet.univ.prod measurableSet_Ioi)
    (nigNd_isDensity ha' hb' hA.inv ((Xᵀ * X + D⁻¹)⁻¹ *ᵥ (D⁻¹ *ᵥ dist.mu + Xᵀ *ᵥ y))) ?_
  intro θ hθ
  have hv : 0 < θ.2 := hθ.2
  have hk := regression_kernel ha hb hD X dist.mu θ.1 y hv
  simp only [NormalInverseGamma.jointPdfNd, NormalInverseGamma.inverse_gamma]
  rw [prod_normal_eq_mvn hv (X *ᵥ θ.1) y, mul_comm]
  exact hk

example := C33_linear_regression_predictive !![1, 2; 3, 4; (5 : ℝ), 6]
  ⟨![0, 1], 3, 2, some 1, none⟩ 1 rfl PosDef.one (by norm_num) (by norm_num)

end Conj
