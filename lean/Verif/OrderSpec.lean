import Mathlib.MeasureTheory.Integral.Bochner.Set
import Mathlib.MeasureTheory.Measure.Lebesgue.Basic

/-!
# Specification: one distribution lies higher than another
-/

open MeasureTheory Set

namespace Conj.Spec

/-- the probability of more than `t` under the density `f` on `S` -/
noncomputable def tailProb (S : Set ℝ) (f : ℝ → ℝ) (t : ℝ) : ℝ := ∫ x in S ∩ Ioi t, f x

/-- `g` lies strictly higher than `f`: it gives every threshold inside `S` a larger chance of being exceeded -/
def Higher (S : Set ℝ) (f g : ℝ → ℝ) : Prop := ∀ t ∈ S, tailProb S f t < tailProb S g t

/-- the same for probabilities of 0, 1, 2, …: every count that can occur is exceeded with a larger chance -/
def HigherCounts (S : Set ℕ) (f g : ℤ → ℝ) : Prop :=
  ∀ k : ℕ, k + 1 ∈ S → ∑' j : ℕ, f (k + 1 + j : ℕ) < ∑' j : ℕ, g (k + 1 + j : ℕ)

end Conj.Spec
