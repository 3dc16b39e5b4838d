import Mathlib.MeasureTheory.Constructions.BorelSpace.Real

/-!
# How wide a band is

Specification for C123; no reference to the model.
-/

open MeasureTheory Set

namespace Conj.Spec

/-- Values with law `law₁` are less close to `c₁` than values with law `law₂` are to `c₂`: for every distance, fewer of them
are within it. -/
def Wider (law₁ : Measure ℝ) (c₁ : ℝ) (law₂ : Measure ℝ) (c₂ : ℝ) : Prop :=
  ∀ w > 0, law₁ (Icc (c₁ - w) (c₁ + w)) < law₂ (Icc (c₂ - w) (c₂ + w))

end Conj.Spec
