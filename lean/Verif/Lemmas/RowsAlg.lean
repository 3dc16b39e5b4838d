import Verif.Rows
import Verif.Lemmas.Wishart

/-! Gram matrices and totals of row lists; matrix models as functions of additive statistics. -/

open Matrix

set_option linter.unusedSectionVars false

namespace Conj

open Scipy Spec

variable {p : Type} [Fintype p] [DecidableEq p]

theorem sum_get {α β : Type*} [AddCommMonoid β] (l : List α) (f : α → β) :
    ∑ i : Fin l.length, f (l.get i) = (l.map f).sum := by
  simp

theorem matrix_list_sum_apply {α m n : Type*} (l : List α) (f : α → Matrix m n ℝ) (i : m) (j : n) :
    (l.map f).sum i j = (l.map fun a => f a i j).sum := by
  induction l with
  | nil => simp
  | cons a l ih => simp [Matrix.add_apply, ih]

theorem vec_list_sum_apply {α n : Type*} (l : List α) (f : α → n → ℝ) (j : n) :
    (l.map f).sum j = (l.map fun a => f a j).sum := by
  induction l with
  | nil => simp
  | cons a l ih => simp [ih]

theorem rows_gram (l : List (p → ℝ)) :
    (rows l)ᵀ * rows l = (l.map fun r => vecMulVec r r).sum := by
  ext i j
  rw [matrix_list_sum_apply, mul_apply]
  simp only [rows, transpose_apply, of_apply, vecMulVec_apply]
  exact sum_get l fun r => r i * r j

theorem subRow_gram (l : List (p → ℝ)) (μ : p → ℝ) :
    (subRow (rows l) μ)ᵀ * subRow (rows l) μ =
      (l.map fun r => vecMulVec (r - μ) (r - μ)).sum := by
  ext i j
  rw [matrix_list_sum_apply, mul_apply]
  simp only [rows, subRow, transpose_apply, of_apply, vecMulVec_apply, Pi.sub_apply]
  exact sum_get l fun r => (r i - μ i) * (r j - μ j)

theorem design_gram (l : List ((p → ℝ) × ℝ)) :
    (designX l)ᵀ * designX l = (l.map fun r => vecMulVec r.1 r.1).sum := by
  ext i j
  rw [matrix_list_sum_apply, mul_apply]
  simp only [designX, transpose_apply, of_apply, vecMulVec_apply]
  exact sum_get l fun r => r.1 i * r.1 j

theorem design_xy (l : List ((p → ℝ) × ℝ)) :
    (designX l)ᵀ *ᵥ designY l = (l.map fun r => r.2 • r.1).sum := by
  ext j
  rw [vec_list_sum_apply]
  simp only [designX, designY, mulVec, dotProduct, transpose_apply, of_apply, Pi.smul_apply,
    smul_eq_mul]
  exact (Finset.sum_congr rfl fun i _ => mul_comm _ _).trans (sum_get l fun r => r.2 * r.1 j)

theorem design_yy (l : List ((p → ℝ) × ℝ)) :
    designY l ⬝ᵥ designY l = (l.map fun r => r.2 * r.2).sum := by
  simp only [designY, dotProduct]
  exact sum_get l fun r => r.2 * r.2

theorem rows_total (l : List (p → ℝ)) : (fun j => ∑ i, rows l i j) = l.sum := by
  funext j
  simp only [rows, of_apply]
  have h := vec_list_sum_apply l (fun r => r) j
  rw [List.map_id'] at h
  rw [h]
  exact sum_get l fun r => r j

/-- the regression posterior from Gram matrix, cross products, number of rows and squares -/
theorem linear_regression_stats {m : Type} [Fintype m] [DecidableEq m] (X : Matrix m p ℝ)
    (y : m → ℝ) (prior : NormalInverseGamma ℝ (p → ℝ) (Matrix p p ℝ)) {D : Matrix p p ℝ}
    (h : prior.delta_inverse = some D) (hD : D.PosDef) :
    linear_regression X y prior = .ok
      { mu := (Xᵀ * X + D⁻¹)⁻¹ *ᵥ (D⁻¹ *ᵥ prior.mu + Xᵀ *ᵥ y)
        alpha := prior.alpha + 1 / 2 * (Fintype.card m : ℝ)
        beta := prior.beta + 1 / 2 * (y ⬝ᵥ y + quad D⁻¹ prior.mu -
          quad (Xᵀ * X + D⁻¹) ((Xᵀ * X + D⁻¹)⁻¹ *ᵥ (D⁻¹ *ᵥ prior.mu + Xᵀ *ᵥ y)))
        delta_inverse := some (Xᵀ * X + D⁻¹)⁻¹
        nu := none } := by
  rw [linear_regression_eq X y prior h hD]
  have he := evidence_quad hD (PosDef.one (n := m) (R := ℝ)) X prior.mu y
  simp only [inv_one, Matrix.mul_one, one_mulVec] at he
  rw [add_comm D⁻¹ (Xᵀ * X)] at he
  rw [← he]
  simp only [quad, one_mulVec]

/-- two regressions in a row, in terms of statistics -/
theorem linear_regression_compose {m₁ m₂ m₃ : Type} [Fintype m₁] [DecidableEq m₁] [Fintype m₂]
    [DecidableEq m₂] [Fintype m₃] [DecidableEq m₃] (X₁ : Matrix m₁ p ℝ) (y₁ : m₁ → ℝ)
    (X₂ : Matrix m₂ p ℝ) (y₂ : m₂ → ℝ) (X₃ : Matrix m₃ p ℝ) (y₃ : m₃ → ℝ)
    (hG : X₃ᵀ * X₃ = X₁ᵀ * X₁ + X₂ᵀ * X₂) (hxy : X₃ᵀ *ᵥ y₃ = X₁ᵀ *ᵥ y₁ + X₂ᵀ *ᵥ y₂)
    (hyy : y₃ ⬝ᵥ y₃ = y₁ ⬝ᵥ y₁ + y₂ ⬝ᵥ y₂)
    (hN : Fintype.card m₃ = Fintype.card m₁ + Fintype.card m₂)
    (prior : NormalInverseGamma ℝ (p → ℝ) (Matrix p p ℝ)) {D : Matrix p p ℝ}
    (h : prior.delta_inverse = some D) (hD : D.PosDef) :
    (linear_regression X₁ y₁ prior >>= fun d => linear_regression X₂ y₂ d) =
      linear_regression X₃ y₃ prior := by
  have hA := gram_add_posDef X₁ hD
  rw [linear_regression_stats X₁ y₁ prior h hD, linear_regression_stats X₃ y₃ prior h hD]
  simp only [bind, Except.bind]
  rw [linear_regression_stats X₂ y₂ _ rfl hA.inv]
  have e1 : X₂ᵀ * X₂ + (X₁ᵀ * X₁ + D⁻¹)⁻¹⁻¹ = X₃ᵀ * X₃ + D⁻¹ := by
    rw [nonsing_inv_nonsing_inv _ (posDef_unit hA), hG]; abel
  have e2 : (X₁ᵀ * X₁ + D⁻¹)⁻¹⁻¹ *ᵥ ((X₁ᵀ * X₁ + D⁻¹)⁻¹ *ᵥ (D⁻¹ *ᵥ prior.mu + X₁ᵀ *ᵥ y₁)) =
      D⁻¹ *ᵥ prior.mu + X₁ᵀ *ᵥ y₁ := by
    rw [mulVec_mulVec, nonsing_inv_mul _ (posDef_unit hA.inv), one_mulVec]
  have e3 : D⁻¹ *ᵥ prior.mu + X₁ᵀ *ᵥ y₁ + X₂ᵀ *ᵥ y₂ = D⁻¹ *ᵥ prior.mu + X₃ᵀ *ᵥ y₃ := by
    rw [hxy]; abel
  rw [e1, e2, e3, hN, hyy, nonsing_inv_nonsing_inv _ (posDef_unit hA)]
  congr 2 <;> (push_cast; ring)

theorem mvnormal_stats {m : Type} [Fintype m] [DecidableEq m] [Nonempty m] (X : Matrix m p ℝ)
    (prior : NormalInverseWishart ℝ (p → ℝ) (Matrix p p ℝ))
    (hk : prior.kappa + (Fintype.card m : ℝ) ≠ 0) :
    multivariate_normal X prior = .ok
      { mu := (prior.kappa + (Fintype.card m : ℝ))⁻¹ •
          (prior.kappa • prior.mu + fun j => ∑ i, X i j)
        kappa := prior.kappa + (Fintype.card m : ℝ)
        nu := prior.nu + (Fintype.card m : ℝ)
        psi := prior.psi + prior.kappa • vecMulVec prior.mu prior.mu + Xᵀ * X -
          (prior.kappa + (Fintype.card m : ℝ)) • vecMulVec
            ((prior.kappa + (Fintype.card m : ℝ))⁻¹ •
              (prior.kappa • prior.mu + fun j => ∑ i, X i j))
            ((prior.kappa + (Fintype.card m : ℝ))⁻¹ •
              (prior.kappa • prior.mu + fun j => ∑ i, X i j)) } := by
  have hN0 : Fintype.card m ≠ 0 := Fintype.card_ne_zero
  have hN : (Fintype.card m : ℝ) ≠ 0 := by exact_mod_cast hN0
  simp only [multivariate_normal, meanAxis0, if_neg hN0, bind, Except.bind, pure, Except.pure]
  congr 1
  ext i
  · simp only [Pi.smul_apply, Pi.add_apply, smul_eq_mul]
    field_simp
  · rfl
  · rfl
  · rename_i j
    simp only [Matrix.add_apply, Matrix.sub_apply, Matrix.smul_apply, of_apply, vecMulVec_apply,
      Pi.smul_apply, Pi.add_apply, Pi.sub_apply, smul_eq_mul, mul_apply, transpose_apply, subRow]
    have hs : ∑ k, (X k i - (∑ i', X i' i) / (Fintype.card m : ℝ)) *
        (X k j - (∑ i', X i' j) / (Fintype.card m : ℝ)) =
        ∑ k, X k i * X k j - (∑ i', X i' i) * (∑ i', X i' j) / (Fintype.card m : ℝ) := by
      simp only [sub_mul, mul_sub, Finset.sum_sub_distrib, ← Finset.sum_mul, ← Finset.mul_sum,
        Finset.sum_const, Finset.card_univ, nsmul_eq_mul]
      field_simp
      ring
    rw [hs]
    field_simp
    ring

/-- folding a model over batches equals one call on the concatenation, if the model
composes over concatenation -/
theorem foldlM_eq_flatten {S X : Type} (f : S → List X → Except PyErr S) (valid : S → Prop)
    (h0 : ∀ d, valid d → f d [] = .ok d)
    (hv : ∀ d l d', valid d → f d l = .ok d' → valid d')
    (hc : ∀ d l l', valid d → (f d l >>= fun d' => f d' l') = f d (l ++ l'))
    (bs : List (List X)) (d : S) (hd : valid d) :
    bs.foldlM f d = f d bs.flatten := by
  induction bs generalizing d with
  | nil => rw [List.flatten_nil, h0 d hd]; rfl
  | cons b bs ih =>
    rw [List.foldlM_cons, List.flatten_cons, ← hc d b _ hd]
    cases h : f d b with
    | error e => rfl
    | ok d' => exact ih d' (hv d b d' hd h)

end Conj
