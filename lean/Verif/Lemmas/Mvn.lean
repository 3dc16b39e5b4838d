import Verif.Spec
import Verif.MatScipy
import Verif.Lemmas.Bayes
import Mathlib.LinearAlgebra.Matrix.SchurComplement
import Mathlib.LinearAlgebra.Matrix.PosDef
import Mathlib.Analysis.Matrix.PosDef
import Mathlib.Analysis.Matrix.Order
import Mathlib.MeasureTheory.Measure.Lebesgue.Basic
import Mathlib.MeasureTheory.Integral.Pi
import Mathlib.Analysis.SpecialFunctions.Gaussian.GaussianIntegral

/-! Algebra and normalisation of multivariate normal densities. -/

open MeasureTheory Set Real Matrix

set_option linter.unusedSectionVars false

namespace Conj

open Scipy Spec

variable {m p : Type} [Fintype m] [Fintype p] [DecidableEq m] [DecidableEq p]

theorem posDef_symm {A : Matrix p p ℝ} (h : A.PosDef) : Aᵀ = A := by
  have := h.isHermitian
  rwa [Matrix.IsHermitian, conjTranspose_eq_transpose_of_trivial] at this

theorem posDef_det {A : Matrix p p ℝ} (h : A.PosDef) : 0 < A.det := h.det_pos

theorem posDef_unit {A : Matrix p p ℝ} (h : A.PosDef) : IsUnit A.det :=
  (posDef_det h).ne'.isUnit

theorem quad_pos {A : Matrix p p ℝ} (h : A.PosDef) {v : p → ℝ} (hv : v ≠ 0) : 0 < quad A v := by
  have := h.dotProduct_mulVec_pos hv
  simpa [quad] using this

theorem quad_nonneg {A : Matrix p p ℝ} (h : A.PosSemidef) (v : p → ℝ) : 0 ≤ quad A v := by
  have := h.dotProduct_mulVec_nonneg v
  simpa [quad] using this

theorem dot_symm {A : Matrix p p ℝ} (h : Aᵀ = A) (u v : p → ℝ) :
    u ⬝ᵥ A *ᵥ v = v ⬝ᵥ A *ᵥ u := by
  conv_lhs => rw [← h]
  rw [mulVec_transpose, dotProduct_comm, ← dotProduct_mulVec]

theorem quad_sub {A : Matrix p p ℝ} (h : Aᵀ = A) (u v : p → ℝ) :
    quad A (u - v) = quad A u - 2 * (u ⬝ᵥ A *ᵥ v) + quad A v := by
  simp only [quad, mulVec_sub, sub_dotProduct, dotProduct_sub]
  rw [dot_symm h v u]; ring

theorem quad_add {A : Matrix p p ℝ} (h : Aᵀ = A) (u v : p → ℝ) :
    quad A (u + v) = quad A u + 2 * (u ⬝ᵥ A *ᵥ v) + quad A v := by
  simp only [quad, mulVec_add, add_dotProduct, dotProduct_add]
  rw [dot_symm h v u]; ring

theorem quad_matrix_add (A B : Matrix p p ℝ) (v : p → ℝ) :
    quad (A + B) v = quad A v + quad B v := by
  simp [quad, add_mulVec, dotProduct_add]

theorem quad_smul (c : ℝ) (A : Matrix p p ℝ) (v : p → ℝ) : quad (c • A) v = c * quad A v := by
  simp [quad, smul_mulVec, dotProduct_smul]

theorem quad_mulVec (A : Matrix m m ℝ) (X : Matrix m p ℝ) (b : p → ℝ) :
    quad A (X *ᵥ b) = quad (Xᵀ * A * X) b := by
  simp only [quad]
  rw [← mulVec_mulVec, ← mulVec_mulVec, mulVec_transpose,
    dotProduct_comm b, ← dotProduct_mulVec, dotProduct_comm]

theorem posSemidef_conj {W : Matrix m m ℝ} (hW : W.PosSemidef) (X : Matrix m p ℝ) :
    (Xᵀ * W * X).PosSemidef := by
  have := hW.conjTranspose_mul_mul_same X
  rwa [conjTranspose_eq_transpose_of_trivial] at this

/-- completing the square: `q_P(b-μ) + q_W(y-Xb)` -/
theorem complete_square {P : Matrix p p ℝ} (hP : Pᵀ = P) {W : Matrix m m ℝ} (hW : Wᵀ = W)
    (X : Matrix m p ℝ) (hA : IsUnit (P + Xᵀ * W * X).det) (μ b : p → ℝ) (y : m → ℝ) :
    quad P (b - μ) + quad W (y - X *ᵥ b) =
      quad (P + Xᵀ * W * X) (b - (P + Xᵀ * W * X)⁻¹ *ᵥ (P *ᵥ μ + Xᵀ *ᵥ (W *ᵥ y))) +
      (quad W y + quad P μ - quad (P + Xᵀ * W * X)
        ((P + Xᵀ * W * X)⁻¹ *ᵥ (P *ᵥ μ + Xᵀ *ᵥ (W *ᵥ y)))) := by
  have hAs : (P + Xᵀ * W * X)ᵀ = P + Xᵀ * W * X := by
    simp [transpose_add, transpose_mul, hP, hW, Matrix.mul_assoc]
  have hi : (P + Xᵀ * W * X) *ᵥ ((P + Xᵀ * W * X)⁻¹ *ᵥ (P *ᵥ μ + Xᵀ *ᵥ (W *ᵥ y))) =
      P *ᵥ μ + Xᵀ *ᵥ (W *ᵥ y) := by
    rw [mulVec_mulVec, mul_nonsing_inv _ hA, one_mulVec]
  rw [quad_sub hP, quad_sub hW, quad_sub hAs, hi, quad_mulVec, quad_matrix_add P, dotProduct_add]
  have h1 : b ⬝ᵥ Xᵀ *ᵥ (W *ᵥ y) = y ⬝ᵥ W *ᵥ (X *ᵥ b) := by
    rw [dotProduct_mulVec, vecMul_transpose, dot_symm hW]
  rw [h1]; ring

/-- the constant left over is the quadratic form of the marginal covariance -/
theorem evidence_quad {S : Matrix p p ℝ} (hS : S.PosDef) {R : Matrix m m ℝ} (hR : R.PosDef)
    (X : Matrix m p ℝ) (μ : p → ℝ) (y : m → ℝ) :
    quad R⁻¹ y + quad S⁻¹ μ - quad (S⁻¹ + Xᵀ * R⁻¹ * X)
        ((S⁻¹ + Xᵀ * R⁻¹ * X)⁻¹ *ᵥ (S⁻¹ *ᵥ μ + Xᵀ *ᵥ (R⁻¹ *ᵥ y))) =
      quad (R + X * S * Xᵀ)⁻¹ (y - X *ᵥ μ) := by
  have hSi := posDef_symm hS.inv
  have hRi := posDef_symm hR.inv
  have hA : (S⁻¹ + Xᵀ * R⁻¹ * X).PosDef :=
    hS.inv.add_posSemidef (posSemidef_conj hR.inv.posSemidef X)
  have hAu := posDef_unit hA
  have hAs := posDef_symm hA
  set A := S⁻¹ + Xᵀ * R⁻¹ * X with hAdef
  -- evaluate the completed square at `b = μ`
  have h := complete_square hSi hRi X hAu μ μ y
  rw [sub_self, ← hAdef] at h
  have h0 : quad S⁻¹ (0 : p → ℝ) = 0 := by simp [quad]
  rw [h0, zero_add] at h
  have hm : μ - A⁻¹ *ᵥ (S⁻¹ *ᵥ μ + Xᵀ *ᵥ (R⁻¹ *ᵥ y)) =
      -(A⁻¹ *ᵥ (Xᵀ *ᵥ (R⁻¹ *ᵥ (y - X *ᵥ μ)))) := by
    have h1 : S⁻¹ *ᵥ μ + Xᵀ *ᵥ (R⁻¹ *ᵥ y) = A *ᵥ μ + Xᵀ *ᵥ (R⁻¹ *ᵥ (y - X *ᵥ μ)) := by
      rw [hAdef, add_mulVec, mulVec_sub, mulVec_sub, mulVec_mulVec, mulVec_mulVec, mulVec_mulVec]
      abel
    rw [h1, mulVec_add, mulVec_mulVec, nonsing_inv_mul _ hAu, one_mulVec]
    abel
  have hq : quad A (μ - A⁻¹ *ᵥ (S⁻¹ *ᵥ μ + Xᵀ *ᵥ (R⁻¹ *ᵥ y))) =
      quad (R⁻¹ * X * A⁻¹ * Xᵀ * R⁻¹) (y - X *ᵥ μ) := by
    rw [hm]
    have hneg : ∀ v : p → ℝ, quad A (-v) = quad A v := fun v => by
      simp [quad, mulVec_neg]
    rw [hneg, mulVec_mulVec, mulVec_mulVec, quad_mulVec]
    congr 1
    rw [transpose_mul, transpose_mul, transpose_transpose, hRi,
      transpose_nonsing_inv, hAs]
    simp only [Matrix.mul_assoc]
    rw [mul_nonsing_inv_cancel_left _ _ hAu]
  have hW : (R + X * S * Xᵀ)⁻¹ = R⁻¹ - R⁻¹ * X * A⁻¹ * Xᵀ * R⁻¹ := by
    rw [add_mul_mul_inv_eq_sub R X S Xᵀ hR.isUnit hS.isUnit hA.isUnit]
  rw [hW]
  have hs : ∀ (B C : Matrix m m ℝ) (v : m → ℝ), quad (B - C) v = quad B v - quad C v :=
    fun B C v => by simp [quad, sub_mulVec, dotProduct_sub]
  rw [hs, ← hq, h]; ring

theorem evidence_det {S : Matrix p p ℝ} (hS : S.PosDef) {R : Matrix m m ℝ} (hR : R.PosDef)
    (X : Matrix m p ℝ) :
    (R + X * S * Xᵀ).det = R.det * S.det * (S⁻¹ + Xᵀ * R⁻¹ * X).det := by
  rw [det_add_mul _ _ (posDef_unit hR), mul_assoc, ← det_mul, mul_add,
    mul_nonsing_inv _ (posDef_unit hS), ← Matrix.mul_assoc, det_one_add_mul_comm]

/-- product of a normal prior for `b` and a normal likelihood with mean `X b`: marginal
times posterior -/
theorem mvn_mul_mvn {S : Matrix p p ℝ} (hS : S.PosDef) {R : Matrix m m ℝ} (hR : R.PosDef)
    (X : Matrix m p ℝ) (μ b : p → ℝ) (y : m → ℝ) :
    mvnPdf μ S b * mvnPdf (X *ᵥ b) R y =
      mvnPdf (X *ᵥ μ) (R + X * S * Xᵀ) y *
        mvnPdf ((S⁻¹ + Xᵀ * R⁻¹ * X)⁻¹ *ᵥ (S⁻¹ *ᵥ μ + Xᵀ *ᵥ (R⁻¹ *ᵥ y)))
          (S⁻¹ + Xᵀ * R⁻¹ * X)⁻¹ b := by
  have hA : (S⁻¹ + Xᵀ * R⁻¹ * X).PosDef :=
    hS.inv.add_posSemidef (posSemidef_conj hR.inv.posSemidef X)
  have hc := complete_square (posDef_symm hS.inv) (posDef_symm hR.inv) X (posDef_unit hA) μ b y
  have he := evidence_quad hS hR X μ y
  have hd := evidence_det hS hR X
  simp only [mvnPdf]
  rw [hd, det_nonsing_inv, Ring.inverse_eq_inv', nonsing_inv_nonsing_inv _ (posDef_unit hA),
    div_mul_div_comm, div_mul_div_comm, ← exp_add, ← exp_add, ← sqrt_mul, ← sqrt_mul]
  · rw [← mul_add, hc, he]
    have h1 := posDef_det hA
    congr 1
    · congr 1; ring
    · congr 1; field_simp
  · have h1 := posDef_det hA; have h2 := posDef_det hS; have h3 := posDef_det hR; positivity
  · have h2 := posDef_det hS; positivity

theorem exists_sqrt {S : Matrix p p ℝ} (hS : S.PosDef) :
    ∃ B : Matrix p p ℝ, B * Bᵀ = S := by
  open scoped MatrixOrder in
  refine ⟨CFC.sqrt S, ?_⟩
  have h0 : 0 ≤ S := nonneg_iff_posSemidef.2 hS.posSemidef
  have h1 : (CFC.sqrt S).PosSemidef := nonneg_iff_posSemidef.1 (CFC.sqrt_nonneg S)
  have h2 : (CFC.sqrt S)ᵀ = CFC.sqrt S := by
    have := h1.isHermitian
    rwa [Matrix.IsHermitian, conjTranspose_eq_transpose_of_trivial] at this
  rw [h2, CFC.sqrt_mul_sqrt_self S h0]

/-- standard normal density -/
noncomputable def phi (z : ℝ) : ℝ := exp (-(1 / 2) * z ^ 2) / √(2 * π)

theorem phi_integral : ∫ z, phi z = 1 := by
  simp only [phi, integral_div, integral_gaussian]
  rw [show π / (1 / 2) = 2 * π by ring]
  exact div_self (by positivity)

theorem prod_phi_integral : ∫ z : p → ℝ, ∏ i, phi (z i) = 1 := by
  rw [integral_fintype_prod_volume_eq_prod (fun _ => phi)]
  simp [phi_integral]

theorem mvnPdf_affine {S B : Matrix p p ℝ} (hS : S.PosDef) (hB : B * Bᵀ = S) (μ z : p → ℝ) :
    mvnPdf μ S (μ + B *ᵥ z) * |B.det| = ∏ i, phi (z i) := by
  have hd : B.det ^ 2 = S.det := by rw [← hB, det_mul, det_transpose, sq]
  have hB0 : B.det ≠ 0 := by
    intro h; have := posDef_det hS; rw [← hd, h] at this; norm_num at this
  have hBu : IsUnit B.det := hB0.isUnit
  have hBtu : IsUnit Bᵀ.det := by rw [det_transpose]; exact hBu
  have hq : quad S⁻¹ (B *ᵥ z) = ∑ i, z i ^ 2 := by
    rw [quad_mulVec, ← hB, Matrix.mul_inv_rev, ← Matrix.mul_assoc, mul_nonsing_inv _ hBtu, one_mul,
      nonsing_inv_mul _ hBu, quad, one_mulVec, dotProduct]
    simp [sq]
  simp only [mvnPdf, add_sub_cancel_left, phi]
  rw [hq, ← hd, sqrt_mul (by positivity), sqrt_sq_eq_abs, Finset.prod_div_distrib,
    ← exp_sum, Finset.mul_sum, Finset.prod_const, Finset.card_univ, rpow_natCast]
  have : √((2 * π) ^ Fintype.card p) = √(2 * π) ^ Fintype.card p := by
    rw [sqrt_eq_iff_mul_self_eq (by positivity) (by positivity), ← mul_pow,
      mul_self_sqrt (by positivity)]
  rw [this]
  have h2 : |B.det| ≠ 0 := abs_ne_zero.2 hB0
  field_simp

theorem measurable_toLin' (B : Matrix p p ℝ) : Measurable (toLin' B) :=
  (LinearMap.continuous_on_pi _).measurable

theorem map_affine {B : Matrix p p ℝ} (hB : B.det ≠ 0) (μ : p → ℝ) :
    (volume : Measure (p → ℝ)) =
      ENNReal.ofReal |B.det| • Measure.map (fun z => μ + B *ᵥ z) volume := by
  have h2 := Real.map_matrix_volume_pi_eq_smul_volume_pi hB
  have h3 : Measure.map (fun z => μ + B *ᵥ z) (volume : Measure (p → ℝ)) =
      ENNReal.ofReal |B.det⁻¹| • volume := by
    have : (fun z => μ + B *ᵥ z) = (fun x => μ + x) ∘ (toLin' B) := by
      funext z; simp
    rw [this, ← Measure.map_map (by fun_prop) (measurable_toLin' B), h2, Measure.map_smul,
      map_add_left_eq_self]
  rw [h3, smul_smul, ← ENNReal.ofReal_mul (abs_nonneg _), ← abs_mul, mul_inv_cancel₀ hB]
  simp

theorem measurable_affine (B : Matrix p p ℝ) (μ : p → ℝ) : Measurable fun z => μ + B *ᵥ z := by
  have := (measurable_toLin' B).const_add μ
  simpa using this

theorem integral_affine {B : Matrix p p ℝ} (hB : B.det ≠ 0) (μ : p → ℝ) {g : (p → ℝ) → ℝ}
    (hg : Measurable g) : ∫ x, g x = ∫ z, g (μ + B *ᵥ z) * |B.det| := by
  conv_lhs => rw [map_affine hB μ]
  rw [integral_smul_measure, integral_map (measurable_affine B μ).aemeasurable
    hg.aestronglyMeasurable, integral_mul_const, ENNReal.toReal_ofReal (abs_nonneg _), smul_eq_mul,
    mul_comm]

theorem lintegral_affine {B : Matrix p p ℝ} (hB : B.det ≠ 0) (μ : p → ℝ)
    {g : (p → ℝ) → ENNReal} (hg : Measurable g) :
    ∫⁻ x, g x = ∫⁻ z, g (μ + B *ᵥ z) * ENNReal.ofReal |B.det| := by
  conv_lhs => rw [map_affine hB μ]
  rw [lintegral_smul_measure, lintegral_map hg (measurable_affine B μ),
    lintegral_mul_const (f := fun z => g (μ + B *ᵥ z)) _ (hg.comp (measurable_affine B μ)), smul_eq_mul, mul_comm]

theorem continuous_quad (A : Matrix p p ℝ) : Continuous (quad A) := by
  unfold quad
  simp only [dotProduct, mulVec]
  fun_prop

theorem measurable_mvnPdf (μ : p → ℝ) (S : Matrix p p ℝ) : Measurable (mvnPdf μ S) := by
  unfold mvnPdf
  have := (continuous_quad S⁻¹).measurable
  fun_prop

theorem mvnPdf_pos {S : Matrix p p ℝ} (hS : S.PosDef) (μ x : p → ℝ) : 0 < mvnPdf μ S x := by
  have := posDef_det hS
  unfold mvnPdf
  positivity

theorem sqrt_det_ne_zero {S B : Matrix p p ℝ} (hS : S.PosDef) (hB : B * Bᵀ = S) : B.det ≠ 0 := by
  intro h
  have := posDef_det hS
  rw [← hB, det_mul, h, zero_mul] at this
  exact lt_irrefl _ this

theorem mvn_isDensity {S : Matrix p p ℝ} (hS : S.PosDef) (μ : p → ℝ) :
    IsDensity volume univ (mvnPdf μ S) := by
  apply isDensity_of_integral
  · intro x _; exact (mvnPdf_pos hS μ x).le
  · obtain ⟨B, hB⟩ := exists_sqrt hS
    rw [Measure.restrict_univ, integral_affine (sqrt_det_ne_zero hS hB) μ (measurable_mvnPdf μ S)]
    simp_rw [mvnPdf_affine hS hB]
    exact prod_phi_integral

end Conj
