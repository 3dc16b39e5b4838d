import Mathlib.LinearAlgebra.Matrix.Symmetric
import Mathlib.Data.Real.Basic
import Mathlib.Data.Fintype.Basic
import Mathlib.Order.Fin.Basic

/-!
# Specification: symmetric matrices by their upper triangle

A density of a random covariance matrix is a density with respect to Lebesgue measure on the
entries on and above the diagonal (the convention of SciPy's `invwishart` and `wishart`).
Independent of the model.
-/

namespace Conj.Spec

/-- positions on and above the diagonal -/
abbrev UpperIdx (n : ℕ) := {ij : Fin n × Fin n // ij.1 ≤ ij.2}

/-- the symmetric matrix with a given upper triangle -/
def symOf {n : ℕ} (c : UpperIdx n → ℝ) : Matrix (Fin n) (Fin n) ℝ :=
  Matrix.of fun i j => c ⟨(min i j, max i j), min_le_max⟩

/-- the upper triangle of a matrix -/
def upperOf {n : ℕ} (S : Matrix (Fin n) (Fin n) ℝ) : UpperIdx n → ℝ := fun ij => S ij.1.1 ij.1.2

theorem symOf_symm {n : ℕ} (c : UpperIdx n → ℝ) : (symOf c).transpose = symOf c := by
  ext i j
  simp only [symOf, Matrix.transpose_apply, Matrix.of_apply, min_comm, max_comm]

theorem upperOf_symOf {n : ℕ} (c : UpperIdx n → ℝ) : upperOf (symOf c) = c := by
  funext ⟨⟨i, j⟩, h⟩
  simp only [upperOf, symOf, Matrix.of_apply]
  congr 1
  simp only [Subtype.mk.injEq, Prod.mk.injEq]
  exact ⟨min_eq_left h, max_eq_right h⟩

theorem symOf_upperOf {n : ℕ} {S : Matrix (Fin n) (Fin n) ℝ} (hS : S.transpose = S) :
    symOf (upperOf S) = S := by
  ext i j
  simp only [upperOf, symOf, Matrix.of_apply]
  rcases le_total i j with h | h
  · rw [min_eq_left h, max_eq_right h]
  · rw [min_eq_right h, max_eq_left h]
    exact congrFun (congrFun hS i) j

end Conj.Spec
