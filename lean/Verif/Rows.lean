import Mathlib.LinearAlgebra.Matrix.Notation
import Mathlib.Data.Real.Basic

/-! Data matrices written as lists of rows (specification side). -/

namespace Conj.Spec

variable {p : Type}

/-- the matrix whose rows are the elements of the list -/
def rows (l : List (p → ℝ)) : Matrix (Fin l.length) p ℝ := Matrix.of fun i => l.get i

/-- design matrix of a list of (covariates, response) pairs -/
def designX (l : List ((p → ℝ) × ℝ)) : Matrix (Fin l.length) p ℝ :=
  Matrix.of fun i => (l.get i).1

/-- responses of a list of (covariates, response) pairs -/
def designY (l : List ((p → ℝ) × ℝ)) : Fin l.length → ℝ := fun i => (l.get i).2

end Conj.Spec
