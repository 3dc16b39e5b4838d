import Verif.Lemmas.MatAlg

/-!
# Multivariate normal with known covariance or precision (C21, C34)
-/

open MeasureTheory Set Real Matrix

set_option linter.unusedSectionVars false

namespace Conj

open Scipy Spec

variable {p : Type} [Fintype p] [DecidableEq p]

/-- C21. `x_bar` is the mean of the observations (any vector when there are none). -/
theorem C21_multivariate_normal_known_covariance_posterior (xs : List (p → ℝ)) (x_bar : p → ℝ)
    (hx : (xs.length : ℝ) • x_bar = xs.sum) (cov : Matrix p p ℝ) (hc : cov.PosDef)
    (prior : MultivariateNormal (p → ℝ) (Matrix p p ℝ)) (hS : prior.cov.PosDef) :
    ∃ post, multivariate_normal_known_covariance (xs.length : ℝ) x_bar cov prior = .ok post ∧
      post.cov.PosDef ∧
      IsPosterior volume univ prior.pdf
        (likelihood (fun mean x => (MultivariateNormal.mk mean cov).pdf x) xs) post.pdf := by
  have hA : (prior.cov⁻¹ + (xs.length : ℝ) • cov⁻¹).PosDef :=
    hS.inv.add_posSemidef (natSmul_posSemidef hc.inv _)
  refine ⟨_, mvn_known_cov_eq xs.length x_bar _ hx hc prior hS, hA.inv, ?_⟩
  obtain ⟨K, hK, h1⟩ := mvn_likelihood hc xs
  obtain ⟨c, hc0, h2⟩ := mvn_mul_exp hS (natSmul_posSemidef hc.inv xs.length) prior.mu
    (cov⁻¹ *ᵥ xs.sum)
  refine IsPosterior.of_density MeasurableSet.univ (mvn_isDensity hA.inv _) (mul_pos hK hc0) ?_
  intro b _
  have h3 := h1 b
  rw [← quad_smul] at h3
  simp only [MultivariateNormal.pdf]
  rw [h3, mul_left_comm, h2 b, mul_assoc]

/-- C21. The variant with a known precision matrix: the covariance is its inverse. -/
theorem C21_multivariate_normal_known_precision_posterior (xs : List (p → ℝ)) (x_bar : p → ℝ)
    (hx : (xs.length : ℝ) • x_bar = xs.sum) (precision : Matrix p p ℝ) (hp : precision.PosDef)
    (prior : MultivariateNormal (p → ℝ) (Matrix p p ℝ)) (hS : prior.cov.PosDef) :
    ∃ post, multivariate_normal_known_precision (xs.length : ℝ) x_bar precision prior = .ok post ∧
      post.cov.PosDef ∧
      IsPosterior volume univ prior.pdf
        (likelihood (fun mean x => (MultivariateNormal.mk mean precision⁻¹).pdf x) xs)
        post.pdf := by
  obtain ⟨post, h1, h2⟩ := C21_multivariate_normal_known_covariance_posterior xs x_bar hx
    precision⁻¹ hp.inv prior hS
  refine ⟨post, ?_, h2⟩
  rw [mvn_known_cov_eq xs.length x_bar _ hx hp.inv prior hS] at h1
  rw [mvn_known_prec_eq xs.length x_bar _ hx hp prior hS, ← h1,
    nonsing_inv_nonsing_inv _ (posDef_unit hp)]

/-- a concrete non-diagonal positive definite matrix -/
theorem exampleCov_posDef : (!![2, 1; 1, 2] : Matrix (Fin 2) (Fin 2) ℝ).PosDef := by
  refine PosDef.of_dotProduct_mulVec_pos ?_ fun x hx => ?_
  · ext i j; fin_cases i <;> fin_cases j <;> simp
  · have h : x 0 ≠ 0 ∨ x 1 ≠ 0 := by
      by_contra hc
      push Not at hc
      exact hx (by ext i; fin_cases i <;> simp [hc.1, hc.2])
    simp only [star_trivial, dotProduct, mulVec, Fin.sum_univ_two]
    simp
    rcases h with h | h
    · nlinarith [sq_nonneg (x 0 + x 1), sq_nonneg (x 1), sq_pos_of_ne_zero h]
    · nlinarith [sq_nonneg (x 0 + x 1), sq_nonneg (x 0), sq_pos_of_ne_zero h]

example := C21_multivariate_normal_known_covariance_posterior
  [![1, 3], ![(3 : ℝ), 5]] ![2, 4] (by ext i; fin_cases i <;> norm_num) !![2, 1; 1, 2]
  exampleCov_posDef ⟨![0, 1], 1⟩ PosDef.one
example := C21_multivariate_normal_known_precision_posterior
  [![1, 3], ![(3 : ℝ), 5]] ![2, 4] (by ext i; fin_cases i <;> norm_num) !![2, 1; 1, 2]
  exampleCov_posDef ⟨![0, 1], 1⟩ PosDef.one

/-- C34. Known covariance: the returned density is the mixture over the mean. -/
theorem C34_multivariate_normal_known_covariance_predictive
    (dist : MultivariateNormal (p → ℝ) (Matrix p p ℝ)) (hS : dist.cov.PosDef)
    (cov : Matrix p p ℝ) (hc : cov.PosDef) (x : p → ℝ) :
    IsPredictive volume univ (fun mean => (MultivariateNormal.mk mean cov).pdf x) dist.pdf
      ((multivariate_normal_known_covariance_predictive dist cov).pdf x) := by
  have hA : (dist.cov⁻¹ + (1 : Matrix p p ℝ)ᵀ * cov⁻¹ * 1).PosDef :=
    hS.inv.add_posSemidef (posSemidef_conj hc.inv.posSemidef 1)
  refine IsPredictive.of_density MeasurableSet.univ
    (mvn_isDensity hA.inv ((dist.cov⁻¹ + (1 : Matrix p p ℝ)ᵀ * cov⁻¹ * 1)⁻¹ *ᵥ
      (dist.cov⁻¹ *ᵥ dist.mu + (1 : Matrix p p ℝ)ᵀ *ᵥ (cov⁻¹ *ᵥ x)))) ?_
  intro b _
  have h := mvn_mul_mvn hS hc 1 dist.mu b x
  simp only [MultivariateNormal.pdf, multivariate_normal_known_covariance_predictive]
  rw [one_mulVec, one_mulVec, transpose_one, Matrix.one_mul, Matrix.mul_one] at h
  rw [mul_comm, h, transpose_one, add_comm cov, Matrix.mul_one]

/-- C34. Known precision. -/
theorem C34_multivariate_normal_known_precision_predictive
    (dist : MultivariateNormal (p → ℝ) (Matrix p p ℝ)) (hS : dist.cov.PosDef)
    (precision : Matrix p p ℝ) (hp : precision.PosDef) :
    ∃ pred, multivariate_normal_known_precision_predictive dist precision = .ok pred ∧
      ∀ x : p → ℝ, IsPredictive volume univ
        (fun mean => (MultivariateNormal.mk mean precision⁻¹).pdf x) dist.pdf (pred.pdf x) := by
  refine ⟨multivariate_normal_known_covariance_predictive dist precision⁻¹, ?_,
    C34_multivariate_normal_known_covariance_predictive dist hS precision⁻¹ hp.inv⟩
  simp [multivariate_normal_known_precision_predictive, linalgInv_posDef hp, bind, Except.bind,
    pure, Except.pure, multivariate_normal_known_covariance_predictive]

example := C34_multivariate_normal_known_covariance_predictive ⟨![0, 1], 1⟩ PosDef.one
  !![2, 1; 1, 2] exampleCov_posDef
example := C34_multivariate_normal_known_precision_predictive ⟨![0, 1], 1⟩ PosDef.one
  !![2, 1; 1, 2] exampleCov_posDef

end Conj
