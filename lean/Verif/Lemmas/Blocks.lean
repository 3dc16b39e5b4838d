import Verif.Lemmas.Mvn

/-! Symmetric matrices bordered by one row and column. -/

open Real Matrix

set_option linter.unusedSectionVars false

namespace Conj

open Scipy Spec

variable {p : Type} [Fintype p] [DecidableEq p]

/-- `A` bordered by the column and row `b` and the corner `d` -/
def border (A : Matrix p p ℝ) (b : p → ℝ) (d : ℝ) : Matrix (p ⊕ Unit) (p ⊕ Unit) ℝ :=
  fromBlocks A (of fun i _ => b i) (of fun _ j => b j) (of fun _ _ => d)

/-- the Schur complement of the corner -/
noncomputable def schur (A : Matrix p p ℝ) (b : p → ℝ) (d : ℝ) : ℝ := d - quad A⁻¹ b

theorem unit_block (B : Matrix p Unit ℝ) (A : Matrix p p ℝ) (b : p → ℝ)
    (hB : B = of fun i _ => b i) (d : ℝ) :
    (of fun (_ : Unit) (_ : Unit) => d) - (of fun (_ : Unit) j => b j) * A * B =
      of fun (_ : Unit) (_ : Unit) => d - quad A b := by
  subst hB
  ext i j
  simp only [Matrix.sub_apply, of_apply, mul_apply, quad, dotProduct, mulVec, Finset.sum_mul,
    Finset.mul_sum]
  rw [Finset.sum_comm]
  congr 1
  refine Finset.sum_congr rfl fun i _ => Finset.sum_congr rfl fun k _ => ?_
  ring

theorem det_border {A : Matrix p p ℝ} (hA : A.PosDef) (b : p → ℝ) (d : ℝ) :
    (border A b d).det = A.det * schur A b d := by
  let _ := A.invertibleOfIsUnitDet (posDef_unit hA)
  rw [border, det_fromBlocks₁₁, invOf_eq_nonsing_inv, unit_block _ _ b rfl]
  congr 1
  rw [det_unique]
  rfl

theorem border_posDef_iff {A : Matrix p p ℝ} {b : p → ℝ} {d : ℝ} :
    (border A b d).PosDef ↔ A.PosDef ∧ 0 < schur A b d := by
  constructor
  · intro h
    have hA : A.PosDef := h.submatrix (e := Sum.inl) Sum.inl_injective
    refine ⟨hA, ?_⟩
    have := posDef_det h
    rw [det_border hA] at this
    exact (mul_pos_iff_of_pos_left (posDef_det hA)).1 this
  · rintro ⟨hA, hs⟩
    let _ := A.invertibleOfIsUnitDet (posDef_unit hA)
    have hps : (border A b d).PosSemidef := by
      have hB : (of fun (_ : Unit) j => b j) = (of fun i (_ : Unit) => b i : Matrix p Unit ℝ)ᴴ := by
        ext i j; simp
      rw [border, hB, PosDef.fromBlocks₁₁ _ _ hA, ← hB, unit_block _ _ b rfl]
      have : (of fun (_ : Unit) (_ : Unit) => d - quad A⁻¹ b) =
          diagonal (fun _ : Unit => d - quad A⁻¹ b) := by
        ext i j; simp
      rw [this]
      exact PosSemidef.diagonal fun _ => hs.le
    rw [hps.posDef_iff_det_ne_zero, det_border hA]
    exact (mul_pos (posDef_det hA) hs).ne'

/-- inverse of a bordered matrix -/
theorem inv_border {A : Matrix p p ℝ} (hA : A.PosDef) {b : p → ℝ} {d : ℝ} (hs : schur A b d ≠ 0) :
    (border A b d)⁻¹ = fromBlocks (A⁻¹ + (schur A b d)⁻¹ • vecMulVec (A⁻¹ *ᵥ b) (A⁻¹ *ᵥ b))
      (of fun i _ => -(schur A b d)⁻¹ * (A⁻¹ *ᵥ b) i)
      (of fun _ j => -(schur A b d)⁻¹ * (A⁻¹ *ᵥ b) j) (of fun _ _ => (schur A b d)⁻¹) := by
  have hAs := posDef_symm hA
  set s := schur A b d with hsd
  set u := A⁻¹ *ᵥ b with hu
  have hb : A *ᵥ u = b := by rw [hu, mulVec_mulVec, mul_nonsing_inv _ (posDef_unit hA), one_mulVec]
  have hdot : b ⬝ᵥ u = d - s := by rw [hsd, schur, hu]; simp [quad]
  have hbA : b ᵥ* A⁻¹ = u := by
    rw [hu, ← mulVec_transpose, posDef_symm hA.inv]
  apply inv_eq_right_inv
  rw [border, fromBlocks_multiply, ← fromBlocks_one]
  have hb' : ∀ i, ∑ j, A i j * u j = b i := fun i => congrFun hb i
  have hbA' : ∀ j, ∑ i, b i * A⁻¹ i j = u j := fun j => congrFun hbA j
  have hd' : ∑ i, b i * u i = d - s := hdot
  congr 1
  · rw [Matrix.mul_add, mul_nonsing_inv _ (posDef_unit hA), add_assoc]
    conv_rhs => rw [← add_zero (1 : Matrix p p ℝ)]
    congr 1
    ext i j
    simp only [Matrix.add_apply, mul_apply, Matrix.smul_apply, vecMulVec_apply, of_apply, smul_eq_mul,
      Matrix.zero_apply, Finset.univ_unique, Finset.sum_singleton]
    rw [← hb' i, Finset.sum_mul, ← Finset.sum_add_distrib]
    refine Finset.sum_eq_zero fun k _ => ?_
    ring
  · ext i j
    simp only [Matrix.add_apply, mul_apply, of_apply, Matrix.zero_apply, Finset.univ_unique,
      Finset.sum_singleton]
    rw [← hb' i, Finset.sum_mul, ← Finset.sum_add_distrib]
    refine Finset.sum_eq_zero fun k _ => ?_
    ring
  · ext i j
    simp only [Matrix.add_apply, mul_apply, of_apply, Matrix.zero_apply, Finset.univ_unique,
      Finset.sum_singleton, Matrix.smul_apply, vecMulVec_apply, smul_eq_mul, mul_add,
      Finset.sum_add_distrib]
    rw [hbA']
    have : ∑ x, b x * (s⁻¹ * (u x * u j)) = s⁻¹ * u j * (d - s) := by
      rw [← hd', Finset.mul_sum]
      exact Finset.sum_congr rfl fun k _ => by ring
    rw [this]
    field_simp
    ring
  · ext i j
    simp only [Matrix.add_apply, mul_apply, of_apply, Finset.univ_unique, Finset.sum_singleton,
      Matrix.one_apply, if_true, Subsingleton.elim i j]
    have : ∑ x, b x * (-s⁻¹ * u x) = -s⁻¹ * (d - s) := by
      rw [← hd', Finset.mul_sum]
      exact Finset.sum_congr rfl fun k _ => by ring
    rw [this]
    field_simp
    ring

theorem trace_blocks (A : Matrix p p ℝ) (B : Matrix p Unit ℝ) (C : Matrix Unit p ℝ)
    (D : Matrix Unit Unit ℝ) : (fromBlocks A B C D).trace = A.trace + D.trace := by
  simp [trace, Fintype.sum_sum_type]

/-- trace of a product with the inverse of a bordered matrix -/
theorem trace_border {P A : Matrix p p ℝ} (hA : A.PosDef) {q b : p → ℝ} {r d : ℝ}
    (hs : schur A b d ≠ 0) :
    (border P q r * (border A b d)⁻¹).trace = (P * A⁻¹).trace +
      (schur A b d)⁻¹ * (quad P (A⁻¹ *ᵥ b) - 2 * (q ⬝ᵥ A⁻¹ *ᵥ b) + r) := by
  rw [inv_border hA hs, border, fromBlocks_multiply, trace_blocks, Matrix.mul_add, trace_add,
    trace_add]
  set s := schur A b d
  set u := A⁻¹ *ᵥ b
  have h1 : (P * s⁻¹ • vecMulVec u u).trace = s⁻¹ * quad P u := by
    rw [Matrix.mul_smul, trace_smul, smul_eq_mul, quad]
    congr 1
    simp only [trace, diag, mul_apply, vecMulVec_apply, dotProduct, mulVec, Finset.mul_sum]
    refine Finset.sum_congr rfl fun i _ => Finset.sum_congr rfl fun j _ => ?_
    ring
  have h2 : ((of fun i (_ : Unit) => q i) * (of fun (_ : Unit) j => -s⁻¹ * u j)).trace =
      -s⁻¹ * (q ⬝ᵥ u) := by
    simp only [trace, diag, mul_apply, of_apply, Finset.univ_unique, Finset.sum_singleton,
      dotProduct, Finset.mul_sum]
    refine Finset.sum_congr rfl fun i _ => ?_
    ring
  have h3 : ((of fun (_ : Unit) j => q j) * (of fun i (_ : Unit) => -s⁻¹ * u i) +
      (of fun (_ : Unit) (_ : Unit) => r) * (of fun (_ : Unit) (_ : Unit) => s⁻¹)).trace =
      -s⁻¹ * (q ⬝ᵥ u) + s⁻¹ * r := by
    simp only [trace, diag, mul_apply, of_apply, Finset.univ_unique, Finset.sum_singleton,
      dotProduct, Finset.mul_sum, Matrix.add_apply]
    rw [mul_comm r]
    congr 1
    refine Finset.sum_congr rfl fun i _ => ?_
    ring
  rw [h1, h2, h3]
  ring

end Conj
