import Mathlib.MeasureTheory.Function.L2Space
import Mathlib.MeasureTheory.Constructions.Pi
import Verif.Spec

/-!
# Specification: mean and variance of a law on the real numbers
-/

open MeasureTheory

namespace Conj.Spec

/-- the law `μ` has mean `m` and variance `v` -/
structure MeanVar (μ : Measure ℝ) (m v : ℝ) : Prop where
  prob : IsProbabilityMeasure μ
  memLp : MemLp (fun x => x) 2 μ
  mean : ∫ x, x ∂μ = m
  var : ∫ x, (x - m) ^ 2 ∂μ = v

/-- the law of a count that is `k` with probability `p k`, as a law on the real numbers -/
noncomputable def intLaw (p : ℤ → ℝ) : Measure ℝ :=
  (Measure.count.withDensity fun k : ℤ => ENNReal.ofReal (p k)).map fun k : ℤ => (k : ℝ)

/-- `pred` is what comes of drawing `θ` from `post`, then from `model θ` -/
def Mixes (pred post : Measure ℝ) (model : ℝ → Measure ℝ) : Prop :=
  ∀ F : ℝ → ENNReal, Measurable F → ∫⁻ x, F x ∂pred = ∫⁻ θ, ∫⁻ x, F x ∂model θ ∂post

/-- the law of the largest of `n` independent draws from `μ` -/
noncomputable def maxLaw (n : ℕ) (μ : Measure ℝ) : Measure ℝ :=
  (Measure.pi fun _ : Fin n => μ).map fun x => ⨆ i, x i

end Conj.Spec
