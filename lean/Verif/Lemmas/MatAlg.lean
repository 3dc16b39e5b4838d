import Verif.Lemmas.Mvt
import Verif.MatModels

/-! The matrix models in closed form, on valid parameters. -/

open MeasureTheory Set Real Matrix

set_option linter.unusedSectionVars false

namespace Conj

open Scipy Spec

variable {m p : Type} [Fintype m] [Fintype p] [DecidableEq m] [DecidableEq p]

theorem linalgInv_ok {A : Matrix p p ℝ} (h : A.det ≠ 0) : linalgInv A = .ok A⁻¹ := if_neg h

theorem linalgInv_posDef {A : Matrix p p ℝ} (h : A.PosDef) : linalgInv A = .ok A⁻¹ :=
  linalgInv_ok (posDef_det h).ne'

theorem gram_posSemidef (X : Matrix m p ℝ) : (Xᵀ * X).PosSemidef := by
  have := posSemidef_conj (PosDef.one (n := m) (R := ℝ)).posSemidef X
  simpa using this

theorem gram_add_posDef (X : Matrix m p ℝ) {D : Matrix p p ℝ} (hD : D.PosDef) :
    (Xᵀ * X + D⁻¹).PosDef := by
  rw [add_comm]; exact hD.inv.add_posSemidef (gram_posSemidef X)

/-- the regression posterior in closed form -/
theorem linear_regression_eq (X : Matrix m p ℝ) (y : m → ℝ)
    (prior : NormalInverseGamma ℝ (p → ℝ) (Matrix p p ℝ)) {D : Matrix p p ℝ}
    (h : prior.delta_inverse = some D) (hD : D.PosDef) :
    linear_regression X y prior = .ok
      { mu := (Xᵀ * X + D⁻¹)⁻¹ *ᵥ (D⁻¹ *ᵥ prior.mu + Xᵀ *ᵥ y)
        alpha := prior.alpha + 1 / 2 * (Fintype.card m : ℝ)
        beta := prior.beta + 1 / 2 * quad (1 + X * D * Xᵀ)⁻¹ (y - X *ᵥ prior.mu)
        delta_inverse := some (Xᵀ * X + D⁻¹)⁻¹
        nu := none } := by
  have hA := gram_add_posDef X hD
  have he := evidence_quad hD (PosDef.one (n := m) (R := ℝ)) X prior.mu y
  simp only [inv_one, Matrix.mul_one, one_mulVec] at he
  rw [add_comm D⁻¹ (Xᵀ * X)] at he
  simp only [linear_regression, h, linalgInv_posDef hD, linalgInv_posDef hA, bind, Except.bind,
    NormalInverseGamma.new, Option.isNone_some, Option.isNone_none, Option.isSome_some,
    Option.isSome_none, Bool.false_and, Bool.and_false, Bool.false_eq_true, if_false]
  rw [← he]
  simp only [quad, one_mulVec]

end Conj

namespace Conj

open Scipy Spec

variable {m p : Type} [Fintype m] [Fintype p] [DecidableEq m] [DecidableEq p]

/-- likelihood of independent normal vectors, as a function of the mean -/
theorem mvn_likelihood {R : Matrix p p ℝ} (hR : R.PosDef) (xs : List (p → ℝ)) :
    ∃ K : ℝ, 0 < K ∧ ∀ b : p → ℝ, likelihood (fun b x => mvnPdf b R x) xs b =
      K * exp (-(1 / 2) * ((xs.length : ℝ) * quad R⁻¹ b - 2 * (b ⬝ᵥ R⁻¹ *ᵥ xs.sum))) := by
  have hd := posDef_det hR
  induction xs with
  | nil => exact ⟨1, one_pos, fun b => by simp [likelihood]⟩
  | cons x l ih =>
    obtain ⟨K, hK, h⟩ := ih
    refine ⟨(√((2 * π) ^ (Fintype.card p : ℝ) * R.det))⁻¹ * exp (-(1 / 2) * quad R⁻¹ x) * K,
      by positivity, fun b => ?_⟩
    have hl : likelihood (fun b x => mvnPdf b R x) (x :: l) b =
        mvnPdf b R x * likelihood (fun b x => mvnPdf b R x) l b := by simp [likelihood]
    have e : -(1 / 2) * (((x :: l).length : ℝ) * quad R⁻¹ b -
        2 * (b ⬝ᵥ R⁻¹ *ᵥ (x :: l).sum)) = -(1 / 2) * (quad R⁻¹ b - 2 * (x ⬝ᵥ R⁻¹ *ᵥ b)) +
        -(1 / 2) * ((l.length : ℝ) * quad R⁻¹ b - 2 * (b ⬝ᵥ R⁻¹ *ᵥ l.sum)) := by
      rw [List.length_cons, List.sum_cons, mulVec_add, dotProduct_add,
        dot_symm (posDef_symm hR.inv) x b]
      push_cast; ring
    rw [hl, h b, e, exp_add, mvnPdf, quad_sub (posDef_symm hR.inv)]
    have e2 : -(1 / 2) * (quad R⁻¹ x - 2 * (x ⬝ᵥ R⁻¹ *ᵥ b) + quad R⁻¹ b) =
      -(1 / 2) * quad R⁻¹ x + -(1 / 2) * (quad R⁻¹ b - 2 * (x ⬝ᵥ R⁻¹ *ᵥ b)) := by ring
    rw [e2, exp_add]
    field_simp

/-- a normal density times the exponential of a quadratic -/
theorem mvn_mul_exp {S : Matrix p p ℝ} (hS : S.PosDef) {Q : Matrix p p ℝ} (hQ : Q.PosSemidef)
    (μ h : p → ℝ) :
    ∃ c : ℝ, 0 < c ∧ ∀ b, mvnPdf μ S b * exp (-(1 / 2) * (quad Q b - 2 * (b ⬝ᵥ h))) =
      c * mvnPdf ((S⁻¹ + Q)⁻¹ *ᵥ (S⁻¹ *ᵥ μ + h)) (S⁻¹ + Q)⁻¹ b := by
  have hA : (S⁻¹ + Q).PosDef := hS.inv.add_posSemidef hQ
  have hd := posDef_det hS
  have hAd := posDef_det hA
  have hAid := posDef_det hA.inv
  refine ⟨√((2 * π) ^ (Fintype.card p : ℝ) * (S⁻¹ + Q)⁻¹.det) /
    √((2 * π) ^ (Fintype.card p : ℝ) * S.det) * exp (-(1 / 2) * (quad S⁻¹ μ -
      quad (S⁻¹ + Q) ((S⁻¹ + Q)⁻¹ *ᵥ (S⁻¹ *ᵥ μ + h)))), by positivity, fun b => ?_⟩
  simp only [mvnPdf]
  rw [nonsing_inv_nonsing_inv _ (posDef_unit hA), quad_sub (posDef_symm hS.inv),
    quad_sub (posDef_symm hA), quad_matrix_add S⁻¹ Q b]
  have hi : (S⁻¹ + Q) *ᵥ ((S⁻¹ + Q)⁻¹ *ᵥ (S⁻¹ *ᵥ μ + h)) = S⁻¹ *ᵥ μ + h := by
    rw [mulVec_mulVec, mul_nonsing_inv _ (posDef_unit hA), one_mulVec]
  rw [hi, dotProduct_add]
  have h1 : 0 < √((2 * π) ^ (Fintype.card p : ℝ) * (S⁻¹ + Q)⁻¹.det) := by positivity
  have h2 : 0 < √((2 * π) ^ (Fintype.card p : ℝ) * S.det) := by positivity
  set q := quad (S⁻¹ + Q) ((S⁻¹ + Q)⁻¹ *ᵥ (S⁻¹ *ᵥ μ + h))
  rw [div_mul_eq_mul_div, ← exp_add]
  rw [show √((2 * π) ^ (Fintype.card p : ℝ) * (S⁻¹ + Q)⁻¹.det) /
    √((2 * π) ^ (Fintype.card p : ℝ) * S.det) * exp (-(1 / 2) * (quad S⁻¹ μ - q)) *
      (exp (-(1 / 2) * (quad S⁻¹ b + quad Q b - 2 * (b ⬝ᵥ S⁻¹ *ᵥ μ + b ⬝ᵥ h) + q)) /
        √((2 * π) ^ (Fintype.card p : ℝ) * (S⁻¹ + Q)⁻¹.det)) =
    (exp (-(1 / 2) * (quad S⁻¹ μ - q)) *
      exp (-(1 / 2) * (quad S⁻¹ b + quad Q b - 2 * (b ⬝ᵥ S⁻¹ *ᵥ μ + b ⬝ᵥ h) + q))) /
        √((2 * π) ^ (Fintype.card p : ℝ) * S.det) by field_simp, ← exp_add]
  congr 2
  ring

theorem natSmul_posSemidef {P : Matrix p p ℝ} (hP : P.PosDef) (n : ℕ) :
    ((n : ℝ) • P).PosSemidef := hP.posSemidef.smul (Nat.cast_nonneg n)

/-- the known-covariance posterior in closed form -/
theorem mvn_known_cov_eq (n : ℕ) (x_bar s : p → ℝ) (hs : (n : ℝ) • x_bar = s) {R : Matrix p p ℝ}
    (hR : R.PosDef) (prior : MultivariateNormal (p → ℝ) (Matrix p p ℝ)) (hS : prior.cov.PosDef) :
    multivariate_normal_known_covariance (n : ℝ) x_bar R prior = .ok
      { mu := (prior.cov⁻¹ + (n : ℝ) • R⁻¹)⁻¹ *ᵥ (prior.cov⁻¹ *ᵥ prior.mu + R⁻¹ *ᵥ s)
        cov := (prior.cov⁻¹ + (n : ℝ) • R⁻¹)⁻¹ } := by
  have hA : (prior.cov⁻¹ + (n : ℝ) • R⁻¹).PosDef :=
    hS.inv.add_posSemidef (natSmul_posSemidef hR.inv n)
  simp only [multivariate_normal_known_covariance, multivariateNormalKnownPrecisionParams,
    linalgInv_posDef hS, linalgInv_posDef hR, linalgInv_posDef hA, bind, Except.bind, pure,
    Except.pure, ← hs, mulVec_smul]

theorem mvn_known_prec_eq (n : ℕ) (x_bar s : p → ℝ) (hs : (n : ℝ) • x_bar = s)
    {P : Matrix p p ℝ} (hP : P.PosDef) (prior : MultivariateNormal (p → ℝ) (Matrix p p ℝ))
    (hS : prior.cov.PosDef) :
    multivariate_normal_known_precision (n : ℝ) x_bar P prior = .ok
      { mu := (prior.cov⁻¹ + (n : ℝ) • P)⁻¹ *ᵥ (prior.cov⁻¹ *ᵥ prior.mu + P *ᵥ s)
        cov := (prior.cov⁻¹ + (n : ℝ) • P)⁻¹ } := by
  have hA : (prior.cov⁻¹ + (n : ℝ) • P).PosDef :=
    hS.inv.add_posSemidef (natSmul_posSemidef hP n)
  simp only [multivariate_normal_known_precision, multivariateNormalKnownPrecisionParams,
    linalgInv_posDef hS, linalgInv_posDef hA, bind, Except.bind, pure,
    Except.pure, ← hs, mulVec_smul]

end Conj
