import Verif.Lemmas.MatAlg

/-! Algebra of the inverse-Wishart models. -/

open MeasureTheory Set Real Matrix

set_option linter.unusedSectionVars false

namespace Conj

open Scipy Spec

variable {m p : Type} [Fintype m] [Fintype p] [DecidableEq m] [DecidableEq p]

theorem trace_gram_mul (Y : Matrix m p ℝ) (A : Matrix p p ℝ) :
    (Yᵀ * Y * A).trace = ∑ i, quad A (Y i) := by
  rw [Matrix.mul_assoc, trace_mul_comm]
  simp only [trace, diag, quad, dotProduct, mulVec, mul_apply, transpose_apply]
  refine Finset.sum_congr rfl fun i _ => ?_
  simp only [Finset.sum_mul, Finset.mul_sum]
  rw [Finset.sum_comm]
  refine Finset.sum_congr rfl fun j _ => Finset.sum_congr rfl fun k _ => ?_
  ring

theorem trace_vecMulVec_mul (A : Matrix p p ℝ) (v : p → ℝ) :
    (vecMulVec v v * A).trace = quad A v := by
  rw [trace_mul_comm]
  simp only [trace, diag, quad, dotProduct, mulVec, mul_apply, vecMulVec_apply, Finset.mul_sum]
  refine Finset.sum_congr rfl fun i _ => Finset.sum_congr rfl fun j _ => ?_
  ring

theorem multigamma_pos {a : ℝ} {d : ℕ} (h : ((d : ℝ) - 1) / 2 < a) : 0 < multigamma a d := by
  unfold multigamma
  refine mul_pos (rpow_pos_of_pos pi_pos _) (Finset.prod_pos fun j hj => ?_)
  apply Real.Gamma_pos_of_pos
  have : (j : ℝ) + 1 ≤ d := by exact_mod_cast Finset.mem_range.1 hj
  linarith

/-- the constant of the inverse-Wishart density -/
noncomputable def iwConst (nu : ℝ) (psi : Matrix p p ℝ) : ℝ :=
  psi.det ^ (nu / 2) /
    (2 ^ (nu * (Fintype.card p : ℝ) / 2) * multigamma (nu / 2) (Fintype.card p))

theorem iwConst_pos {nu : ℝ} (hnu : (Fintype.card p : ℝ) - 1 < nu) {psi : Matrix p p ℝ}
    (h : psi.PosDef) : 0 < iwConst nu psi := by
  have h1 := posDef_det h
  have h2 := multigamma_pos (a := nu / 2) (d := Fintype.card p) (by linarith)
  unfold iwConst
  positivity

theorem invwishartPdf_eq (nu : ℝ) (psi S : Matrix p p ℝ) :
    invwishartPdf nu psi S = iwConst nu psi *
      S.det ^ (-(nu + (Fintype.card p : ℝ) + 1) / 2) * exp (-(1 / 2) * (psi * S⁻¹).trace) := rfl

theorem mvnPdf_eq {S : Matrix p p ℝ} (hS : S.PosDef) (μ x : p → ℝ) :
    mvnPdf μ S x = (√((2 * π) ^ (Fintype.card p : ℝ)))⁻¹ * S.det ^ (-(1 / 2) : ℝ) *
      exp (-(1 / 2) * quad S⁻¹ (x - μ)) := by
  have hd := posDef_det hS
  rw [mvnPdf, sqrt_mul (by positivity), rpow_neg hd.le, ← Real.sqrt_eq_rpow, div_eq_mul_inv,
    mul_inv]
  ring

/-- multiplying an inverse-Wishart kernel by `det^(-u/2) exp(-tr(C S⁻¹)/2)` -/
theorem iw_kernel {nu u : ℝ} {psi psi' : Matrix p p ℝ} (h' : psi'.PosDef)
    (hnu : (Fintype.card p : ℝ) - 1 < nu) (hu : 0 ≤ u) {S : Matrix p p ℝ} (hS : S.PosDef) {t : ℝ}
    (ht : (psi' * S⁻¹).trace = (psi * S⁻¹).trace + t) :
    invwishartPdf nu psi S * (S.det ^ (-(u / 2)) * exp (-(1 / 2) * t)) =
      iwConst nu psi / iwConst (nu + u) psi' * invwishartPdf (nu + u) psi' S := by
  have hd := posDef_det hS
  have h2 := iwConst_pos (nu := nu + u) (by linarith) h'
  rw [invwishartPdf_eq, invwishartPdf_eq, ht,
    show -(nu + u + (Fintype.card p : ℝ) + 1) / 2 =
      -(nu + (Fintype.card p : ℝ) + 1) / 2 + -(u / 2) by ring, rpow_add hd,
    show -(1 / 2) * ((psi * S⁻¹).trace + t) = -(1 / 2) * (psi * S⁻¹).trace + -(1 / 2) * t by ring,
    exp_add]
  field_simp

/-- product of normal densities in trace form -/
theorem prod_mvn {S : Matrix p p ℝ} (hS : S.PosDef) (X : Matrix m p ℝ) (μ : p → ℝ) :
    ∏ i, mvnPdf μ S (X i) = (√((2 * π) ^ (Fintype.card p : ℝ)))⁻¹ ^ Fintype.card m *
      (S.det ^ (-((Fintype.card m : ℝ) / 2)) *
        exp (-(1 / 2) * ((subRow X μ)ᵀ * subRow X μ * S⁻¹).trace)) := by
  have hd := posDef_det hS
  simp only [mvnPdf_eq hS]
  rw [Finset.prod_mul_distrib, Finset.prod_mul_distrib, ← exp_sum, Finset.prod_const,
    Finset.prod_const, Finset.card_univ, ← rpow_natCast (S.det ^ _), ← rpow_mul hd.le,
    trace_gram_mul, ← Finset.mul_sum, mul_assoc]
  congr 2
  · congr 1; ring

theorem subRow_gram_posSemidef (X : Matrix m p ℝ) (μ : p → ℝ) :
    ((subRow X μ)ᵀ * subRow X μ).PosSemidef := gram_posSemidef _


theorem quad_smul_vec (A : Matrix p p ℝ) (c : ℝ) (v : p → ℝ) :
    quad A (c • v) = c ^ 2 * quad A v := by
  simp only [quad, mulVec_smul, dotProduct_smul, smul_dotProduct, smul_eq_mul]; ring

theorem sum_quad_sub {A : Matrix p p ℝ} (hA : Aᵀ = A) (X : Matrix m p ℝ) {xb : p → ℝ}
    (hx : (Fintype.card m : ℝ) • xb = fun j => ∑ i, X i j) (b : p → ℝ) :
    ∑ i, quad A (X i - b) =
      ∑ i, quad A (X i - xb) + (Fintype.card m : ℝ) * quad A (xb - b) := by
  have hs : ∀ v : p → ℝ, ∑ i, (X i ⬝ᵥ A *ᵥ v) = (Fintype.card m : ℝ) * (xb ⬝ᵥ A *ᵥ v) := by
    intro v
    rw [← smul_eq_mul, ← smul_dotProduct, hx]
    simp only [dotProduct, Finset.sum_mul]
    rw [Finset.sum_comm]
  simp only [quad_sub hA, Finset.sum_add_distrib, Finset.sum_sub_distrib, ← Finset.mul_sum, hs,
    Finset.sum_const, Finset.card_univ, nsmul_eq_mul]
  simp only [quad]; ring

theorem two_quad {A : Matrix p p ℝ} (hA : Aᵀ = A) {k n : ℝ} (hkn : k + n ≠ 0)
    (μ xb b : p → ℝ) :
    k * quad A (b - μ) + n * quad A (xb - b) =
      (k + n) * quad A (b - (fun j => (μ j * k + n * xb j) / (k + n))) +
        n * k / (k + n) * quad A (xb - μ) := by
  have hv : (fun j => (μ j * k + n * xb j) / (k + n)) = (k + n)⁻¹ • (k • μ + n • xb) := by
    funext j; simp only [Pi.smul_apply, Pi.add_apply, smul_eq_mul]; field_simp
  rw [hv]
  simp only [quad_sub hA, quad_smul_vec, quad_add hA, mulVec_smul, mulVec_add, dotProduct_smul,
    dotProduct_add, smul_dotProduct, smul_eq_mul, dot_symm hA xb b, dot_symm hA μ xb]
  field_simp
  ring

/-- normal inverse-Wishart density times the likelihood of the rows of `X` -/
theorem niw_kernel [Nonempty m] (X : Matrix m p ℝ) (mu xb : p → ℝ)
    (hx : (Fintype.card m : ℝ) • xb = fun j => ∑ i, X i j) {kappa nu : ℝ}
    (hk : 0 < kappa) (hnu : (Fintype.card p : ℝ) - 1 < nu) {psi psi' : Matrix p p ℝ}
    (hpost : psi'.PosDef)
    (hpsi' : psi' = psi + (subRow X xb)ᵀ * subRow X xb +
      ((Fintype.card m : ℝ) * kappa / (kappa + (Fintype.card m : ℝ))) •
        vecMulVec (xb - mu) (xb - mu))
    (b : p → ℝ) {S : Matrix p p ℝ} (hS : S.PosDef) :
    invwishartPdf nu psi S * mvnPdf mu ((1 / kappa) • S) b * ∏ i, mvnPdf b S (X i) =
      (√((2 * π) ^ (Fintype.card p : ℝ)))⁻¹ ^ Fintype.card m *
        ((1 / kappa) ^ (-((Fintype.card p : ℝ) / 2)) /
          (1 / (kappa + (Fintype.card m : ℝ))) ^ (-((Fintype.card p : ℝ) / 2))) *
        (iwConst nu psi / iwConst (nu + (Fintype.card m : ℝ)) psi') *
      (invwishartPdf (nu + (Fintype.card m : ℝ)) psi' S *
        mvnPdf (fun j => (mu j * kappa + (Fintype.card m : ℝ) * xb j) /
          (kappa + (Fintype.card m : ℝ))) ((1 / (kappa + (Fintype.card m : ℝ))) • S) b) := by
  have hN : 0 < (Fintype.card m : ℝ) := by exact_mod_cast Fintype.card_pos
  set N : ℝ := (Fintype.card m : ℝ) with hNdef
  have hkN : 0 < kappa + N := by positivity
  set d := xb - mu with hd
  have hdS := posDef_det hS
  have hSs := posDef_symm hS.inv
  have htr : (psi' * S⁻¹).trace = (psi * S⁻¹).trace +
      (∑ i, quad S⁻¹ (X i - xb) + N * kappa / (kappa + N) * quad S⁻¹ d) := by
    rw [hpsi', Matrix.add_mul, Matrix.add_mul, trace_add, trace_add, trace_gram_mul,
      Matrix.smul_mul, trace_smul, trace_vecMulVec_mul, smul_eq_mul, add_assoc]
    rfl
  have h := iw_kernel hpost hnu hN.le hS htr
  rw [prod_mvn hS, mvnPdf_smul hS (by positivity), mvnPdf_smul hS (by positivity), trace_gram_mul,
    show ∑ i, quad S⁻¹ (subRow X b i) = ∑ i, quad S⁻¹ (X i - b) from rfl,
    sum_quad_sub hSs X hx b]
  have h2 := two_quad hSs hkN.ne' mu xb b
  set μ' : p → ℝ := fun j => (mu j * kappa + N * xb j) / (kappa + N) with hμ'
  have he : exp (-(1 / 2 * quad S⁻¹ (b - mu) / (1 / kappa))) *
      exp (-(1 / 2) * (∑ i, quad S⁻¹ (X i - xb) + N * quad S⁻¹ (xb - b))) =
      exp (-(1 / 2) * (∑ i, quad S⁻¹ (X i - xb) +
        N * kappa / (kappa + N) * quad S⁻¹ d)) *
      exp (-(1 / 2 * quad S⁻¹ (b - μ') / (1 / (kappa + N)))) := by
    rw [← exp_add, ← exp_add]
    congr 1
    simp only [div_div_eq_mul_div, div_one]
    linear_combination (-1 / 2) * h2
  have hk2 : (1 / (kappa + N)) ^ (-((Fintype.card p : ℝ) / 2)) ≠ 0 := by positivity
  rw [← hNdef]
  generalize exp (-(1 / 2 * quad S⁻¹ (b - mu) / (1 / kappa))) = E1 at *
  generalize exp (-(1 / 2) * (∑ i, quad S⁻¹ (X i - xb) + N * quad S⁻¹ (xb - b))) = E2 at *
  generalize exp (-(1 / 2 * quad S⁻¹ (b - μ') / (1 / (kappa + N)))) = E3 at *
  generalize exp (-(1 / 2) * (∑ i, quad S⁻¹ (X i - xb) +
        N * kappa / (kappa + N) * quad S⁻¹ d)) = E4 at *
  generalize (1 / (kappa + N)) ^ (-((Fintype.card p : ℝ) / 2)) = k2 at *
  generalize (1 / kappa) ^ (-((Fintype.card p : ℝ) / 2)) = k1 at *
  generalize iwConst nu psi / iwConst (nu + N) psi' = c at *
  generalize invwishartPdf nu psi S = f at *
  generalize invwishartPdf (nu + N) psi' S = f' at *
  generalize (√((2 * π) ^ (Fintype.card p : ℝ) * S.det))⁻¹ = C0 at *
  generalize (√((2 * π) ^ (Fintype.card p : ℝ)))⁻¹ ^ Fintype.card m = K at *
  generalize S.det ^ (-(N / 2)) = D at *
  rw [show K * (k1 / k2) * c * (f' * (C0 * k2 * E3)) = K * (k1 * (k2 / k2)) * c * (f' * (C0 * E3))
    by ring, div_self hk2]
  linear_combination (K * C0 * k1 * f * D) * he + (K * C0 * k1 * E3) * h

end Conj
