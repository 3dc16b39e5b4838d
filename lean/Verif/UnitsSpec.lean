import Mathlib.MeasureTheory.Integral.Bochner.Set
import Mathlib.MeasureTheory.Measure.Lebesgue.Basic
import Mathlib.LinearAlgebra.Matrix.PosDef

/-!
# Specification: the same distribution in other units
-/

open MeasureTheory Set
open scoped Matrix

namespace Conj.Spec

/-- The change-of-variables formula for densities on the line: `g` is the density of `c * θ + d` when `f` is the
density of `θ`. -/
def Rescaled (c d : ℝ) (f g : ℝ → ℝ) : Prop := ∀ x, f x = |c| * g (c * x + d)

/-- The same for a location and a positive scale quantity: `g` is the joint density of `(c * m + d, s * v)` when `f`
is the joint density of `(m, v)`. -/
def RescaledPair (c d s : ℝ) (f g : ℝ → ℝ → ℝ) : Prop :=
  ∀ m v, 0 < v → f m v = |c| * s * g (c * m + d) (s * v)

variable {p : Type} [Fintype p] [DecidableEq p]

/-- Change of variables for vectors: `g` is the density of `A *ᵥ θ + b` when `f` is the density of `θ`. -/
def RescaledVec (A : Matrix p p ℝ) (b : p → ℝ) (f g : (p → ℝ) → ℝ) : Prop := ∀ x, f x = |A.det| * g (A *ᵥ x + b)

/-- Change of variables for covariance matrices: `g` is the density of `A * S * Aᵀ` when `f` is the density of `S`.
The map `S ↦ A * S * Aᵀ` of the symmetric `d` by `d` matrices has Jacobian determinant `|det A| ^ (d + 1)`. -/
def RescaledCov (A : Matrix p p ℝ) (f g : Matrix p p ℝ → ℝ) : Prop :=
  ∀ S : Matrix p p ℝ, S.PosDef → f S = |A.det| ^ (Fintype.card p + 1) * g (A * S * Aᵀ)

/-- The same for a mean and a covariance matrix: `(m, S) ↦ (A *ᵥ m + b, A * S * Aᵀ)`. -/
def RescaledMeanCov (A : Matrix p p ℝ) (b : p → ℝ) (f g : (p → ℝ) → Matrix p p ℝ → ℝ) : Prop :=
  ∀ (m : p → ℝ) (S : Matrix p p ℝ), S.PosDef →
    f m S = |A.det| * |A.det| ^ (Fintype.card p + 1) * g (A *ᵥ m + b) (A * S * Aᵀ)

/-- The same for a coefficient vector and a positive variance: `(β, v) ↦ (A *ᵥ β, s * v)`. -/
def RescaledCoef (A : Matrix p p ℝ) (s : ℝ) (f g : (p → ℝ) → ℝ → ℝ) : Prop :=
  ∀ (β : p → ℝ) (v : ℝ), 0 < v → f β v = |A.det| * s * g (A *ᵥ β) (s * v)

end Conj.Spec
