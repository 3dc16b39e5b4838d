import Verif.Lemmas.Blocks
import Verif.Lemmas.Wishart

/-! The inverse-Wishart density of a bordered matrix factors. -/

open MeasureTheory Set Real Matrix

set_option linter.unusedSectionVars false

namespace Conj

open Scipy Spec

variable {p : Type} [Fintype p] [DecidableEq p]

theorem multigamma_succ (a : ℝ) (d : ℕ) :
    multigamma a (d + 1) = π ^ ((d : ℝ) / 2) * Real.Gamma a * multigamma (a - 1 / 2) d := by
  unfold multigamma
  rw [Finset.prod_range_succ']
  have h1 : ∀ j : ℕ, a - ((j + 1 : ℕ) : ℝ) / 2 = a - 1 / 2 - (j : ℝ) / 2 := by
    intro j; push_cast; ring
  simp only [h1]
  rw [show ((d + 1 : ℕ) : ℝ) * (((d + 1 : ℕ) : ℝ) - 1) / 4 = (d : ℝ) / 2 + (d : ℝ) * (d - 1) / 4 by
    push_cast; ring, rpow_add pi_pos]
  simp only [Nat.cast_zero, zero_div, sub_zero]
  ring

theorem sandwich_posDef {A P : Matrix p p ℝ} (hA : A.PosDef) (hP : P.PosDef) :
    (A * P⁻¹ * A).PosDef := by
  have hu : IsUnit A := (isUnit_iff_isUnit_det A).2 (posDef_unit hA)
  have := (Matrix.IsUnit.posDef_star_left_conjugate_iff hu (x := P⁻¹)).2 hP.inv
  rwa [star_eq_conjTranspose, hA.isHermitian.eq] at this

theorem sandwich_quad {A P : Matrix p p ℝ} (hA : A.PosDef) (hP : P.PosDef) (b q : p → ℝ) :
    quad (A * P⁻¹ * A)⁻¹ (b - A *ᵥ (P⁻¹ *ᵥ q)) =
      quad P (A⁻¹ *ᵥ b) - 2 * (q ⬝ᵥ A⁻¹ *ᵥ b) + quad P⁻¹ q := by
  have hPs := posDef_symm hP
  have hAs := posDef_symm hA.inv
  have e : (A * P⁻¹ * A)⁻¹ = A⁻¹ᵀ * P * A⁻¹ := by
    rw [Matrix.mul_inv_rev, Matrix.mul_inv_rev, nonsing_inv_nonsing_inv _ (posDef_unit hP), hAs,
      Matrix.mul_assoc]
  have e2 : A⁻¹ *ᵥ (b - A *ᵥ (P⁻¹ *ᵥ q)) = A⁻¹ *ᵥ b - P⁻¹ *ᵥ q := by
    rw [mulVec_sub, mulVec_mulVec (P⁻¹ *ᵥ q) A⁻¹ A, nonsing_inv_mul _ (posDef_unit hA), one_mulVec]
  have e3 : P *ᵥ (P⁻¹ *ᵥ q) = q := by
    rw [mulVec_mulVec, mul_nonsing_inv _ (posDef_unit hP), one_mulVec]
  have e4 : quad (A⁻¹ᵀ * P * A⁻¹) (b - A *ᵥ (P⁻¹ *ᵥ q)) =
      quad P (A⁻¹ *ᵥ (b - A *ᵥ (P⁻¹ *ᵥ q))) := (quad_mulVec _ _ _).symm
  rw [e, e4, e2, quad_sub hPs]
  rw [e3, dotProduct_comm (A⁻¹ *ᵥ b) q]
  congr 1
  rw [quad, quad, e3, dotProduct_comm]

theorem iw_border {P A : Matrix p p ℝ} {q b : p → ℝ} {r d nu : ℝ} (hP : P.PosDef)
    (hA : A.PosDef) (hσ : 0 < schur P q r) (hs : 0 < schur A b d)
    (hnu : (Fintype.card p : ℝ) < nu) :
    invwishartPdf nu (border P q r) (border A b d) =
      invwishartPdf (nu - 1) P A *
      ((InverseGamma.dist ⟨nu / 2, schur P q r / 2⟩).pdf (schur A b d) *
      mvnPdf (A *ᵥ (P⁻¹ *ᵥ q)) (schur A b d • (A * P⁻¹ * A)) b) := by
  have hn0 : (0 : ℝ) ≤ Fintype.card p := Nat.cast_nonneg _
  have hM := sandwich_posDef hA hP
  have hdA := posDef_det hA
  have hdP := posDef_det hP
  have hPs := posDef_symm hP
  rw [InverseGamma.pdf_eq ⟨nu / 2, schur P q r / 2⟩ (by positivity) hs, mvnPdf_smul hM hs,
    sandwich_quad hA hP, invwishartPdf_eq, invwishartPdf_eq, trace_border hA hs.ne',
    det_border hA, iwConst, iwConst, det_border hP, Fintype.card_sum, Fintype.card_unit,
    multigamma_succ, show nu / 2 - 1 / 2 = (nu - 1) / 2 by ring]
  have hG := Real.Gamma_pos_of_pos (show 0 < nu / 2 by linarith)
  have hmg := multigamma_pos (a := (nu - 1) / 2) (d := Fintype.card p) (by linarith)
  have hr : quad P⁻¹ q = r - schur P q r := by simp [schur]
  rw [hr]
  set σ := schur P q r with hσd
  set s := schur A b d with hsd
  set n : ℝ := (Fintype.card p : ℝ) with hn
  set Q := quad P (A⁻¹ *ᵥ b) - 2 * (q ⬝ᵥ A⁻¹ *ᵥ b)
  have hsq : √((2 * π) ^ n * (A * P⁻¹ * A).det) =
      2 ^ (n / 2) * π ^ (n / 2) * A.det * P.det ^ (-(1 / 2) : ℝ) := by
    rw [det_mul, det_mul, det_nonsing_inv, Ring.inverse_eq_inv',
      show (2 * π) ^ n * (A.det * P.det⁻¹ * A.det) =
        (2 ^ (n / 2) * π ^ (n / 2) * A.det * P.det ^ (-(1 / 2) : ℝ)) ^ 2 by
        rw [mul_pow, mul_pow, mul_pow, ← rpow_natCast (P.det ^ _), ← rpow_natCast (2 ^ _),
          ← rpow_natCast (π ^ _), ← rpow_mul hdP.le, ← rpow_mul two_pos.le, ← rpow_mul pi_pos.le,
          mul_rpow two_pos.le pi_pos.le]
        rw [show -(1 / 2 : ℝ) * (2 : ℕ) = -1 by norm_num, rpow_neg_one,
          show n / 2 * ((2 : ℕ) : ℝ) = n by push_cast; ring]
        ring]
    rw [sqrt_sq (by positivity)]
  rw [hsq]
  have e1 : exp (-(1 / 2) * ((P * A⁻¹).trace + s⁻¹ * (Q + r))) =
      exp (-(1 / 2) * (P * A⁻¹).trace) *
        (exp (-(σ / 2 / s)) * exp (-(1 / 2 * (Q + (r - σ)) / s))) := by
    rw [← exp_add, ← exp_add]; congr 1; field_simp; ring
  rw [e1]
  rw [mul_rpow hdA.le hs.le, mul_rpow hdP.le hσ.le, div_rpow hσ.le two_pos.le]
  push_cast
  have e2 : A.det ^ (-(nu + (n + 1) + 1) / 2) =
      A.det ^ (-(nu - 1 + n + 1) / 2) * A.det⁻¹ := by
    rw [← rpow_neg_one, ← rpow_add hdA]; congr 1; ring
  have e3 : s ^ (-(nu + (n + 1) + 1) / 2) = s ^ (-(nu / 2) - 1) * s ^ (-(n / 2)) := by
    rw [← rpow_add hs]; congr 1; ring
  have e4 : P.det ^ (nu / 2) = P.det ^ ((nu - 1) / 2) * P.det ^ (1 / 2 : ℝ) := by
    rw [← rpow_add hdP]; congr 1; ring
  have e5 : (2 : ℝ) ^ (nu * (n + 1) / 2) =
      2 ^ ((nu - 1) * n / 2) * 2 ^ (nu / 2) * 2 ^ (n / 2) := by
    rw [← rpow_add two_pos, ← rpow_add two_pos]; congr 1; ring
  rw [e2, e3, e4, e5, rpow_neg hdP.le]
  generalize exp (-(1 / 2) * (P * A⁻¹).trace) = E1
  generalize exp (-(σ / 2 / s)) = E2
  generalize exp (-(1 / 2 * (Q + (r - σ)) / s)) = E3
  have q1 : 0 < (2 : ℝ) ^ ((nu - 1) * n / 2) := by positivity
  have q2 : 0 < (2 : ℝ) ^ (nu / 2) := by positivity
  have q3 : 0 < (2 : ℝ) ^ (n / 2) := by positivity
  have q4 : 0 < π ^ (n / 2) := by positivity
  have q5 : 0 < P.det ^ (1 / 2 : ℝ) := by positivity
  field_simp

end Conj
