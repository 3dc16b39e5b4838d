import Verif.DistMap
import Mathlib.MeasureTheory.Constructions.Pi
import Mathlib.MeasureTheory.Measure.WithDensity

/-!
# Specification: sums of independent variables

Probability laws are measures: a continuous frozen distribution has its pdf with respect to
Lebesgue measure, a discrete one its pmf with respect to counting measure on the integers.
-/

open MeasureTheory

namespace Conj.Spec

open Scipy

/-- the law of a frozen continuous distribution -/
noncomputable def contLaw (d : Cont) : Measure ℝ :=
  volume.withDensity fun x => ENNReal.ofReal (d.pdf x)

/-- the law of a frozen discrete distribution -/
noncomputable def discLaw (d : Disc) : Measure ℤ :=
  Measure.count.withDensity fun x => ENNReal.ofReal (d.pmf x)

/-- the law of `x + y` for independent `x`, `y` -/
noncomputable def sumLaw {X : Type} [MeasurableSpace X] [Add X] (μ ν : Measure X) : Measure X :=
  (μ.prod ν).map fun z => z.1 + z.2

/-- the law of `x_1 + ... + x_k` for independent `x_i`, all with law `μ` -/
noncomputable def sumOfCopies {X : Type} [MeasurableSpace X] [AddCommMonoid X] (μ : Measure X)
    (k : ℕ) : Measure X :=
  (Measure.pi fun _ : Fin k => μ).map fun x => ∑ i, x i

end Conj.Spec
