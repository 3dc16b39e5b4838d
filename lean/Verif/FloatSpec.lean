import Mathlib.Data.Real.Basic
import Mathlib.Analysis.SpecialFunctions.Pow.Real

/-!
# Specification: what a float system promises
-/

namespace Conj.Spec

/-- one operation is wrong by at most the fraction `u` of the result -/
def RelError (u exact computed : ℝ) : Prop := |computed - exact| ≤ u * |exact|

/-- `rnd` keeps every number with at most `p` significant bits -/
def KeepsBits (p : ℕ) (rnd : ℝ → ℝ) : Prop :=
  ∀ m k : ℤ, |m| ≤ 2 ^ p → rnd (m * 2 ^ k) = m * 2 ^ k

/-- rounding is wrong by at most the fraction `u`, a power by at most `2 * u` (less than one unit in the last place) -/
structure Accurate (u : ℝ) (rnd : ℝ → ℝ) (pow : ℝ → ℚ → ℝ) : Prop where
  u_nonneg : 0 ≤ u
  u_le : u ≤ 1 / 4
  rnd_error : ∀ x, RelError u x (rnd x)
  pow_error : ∀ (x : ℝ) (c : ℚ), 0 < x → RelError (2 * u) (x ^ (c : ℝ)) (pow x c)

/-- squares of numbers of either sign are as accurate as other powers -/
def AccurateSquare (u : ℝ) (pow : ℝ → ℚ → ℝ) : Prop := ∀ x, RelError (2 * u) (x ^ 2) (pow x 2)

/-- a multiple of `2 ^ -k`: at most `k` bits after the point -/
def FracBits (k : ℕ) (x : ℝ) : Prop := ∃ m : ℤ, x = m / 2 ^ k

end Conj.Spec
