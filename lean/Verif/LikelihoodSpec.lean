import Mathlib.Data.Real.Basic
import Mathlib.Data.Set.Basic

/-!
# Specification for the likelihood principle (C98)

Two data sets say the same about the unknown `θ` when their likelihoods, as functions of `θ`, agree up to a
constant factor.
-/

namespace Conj.Spec

/-- `f` is a positive constant times `g` on `S`. -/
def ProportionalOn {Θ : Type*} (S : Set Θ) (f g : Θ → ℝ) : Prop :=
  ∃ c : ℝ, 0 < c ∧ ∀ θ ∈ S, f θ = c * g θ

end Conj.Spec
