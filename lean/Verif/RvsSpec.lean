import Verif.Rvs
import Verif.SampleSpec

/-!
# Specification: SciPy's samplers draw from the documented densities
-/

open MeasureTheory Set

namespace Conj.Spec

open Scipy

/-- the law of the counts of a frozen discrete distribution, as real numbers -/
noncomputable def discRealLaw (d : Disc) : Measure ℝ := (discLaw d).map fun k : ℤ => (k : ℝ)

/-- SciPy's samplers do what they say: for parameters (varying measurably, in any space `B`) at which the
documented density or pmf is a probability, the sampler draws from it. -/
structure CorrectFrozen {ι : Type} (lib : FrozenSamplers ι) (P : Measure Stream) : Prop where
  cont : ∀ {B : Type} [MeasurableSpace B] (d : B → Cont) (T : Set B),
    (Measurable fun q : B × ℝ => (d q.1).pdf q.2) → (∀ b ∈ T, IsProbabilityMeasure (contLaw (d b))) →
    SamplesEach P (fun b => lib.cont (d b)) T fun b => contLaw (d b)
  disc : ∀ {B : Type} [MeasurableSpace B] (d : B → Disc) (T : Set B),
    (∀ k, Measurable fun b => (d b).pmf k) → (∀ b ∈ T, IsProbabilityMeasure (discLaw (d b))) →
    SamplesEach P (fun b => lib.disc (d b)) T fun b => discRealLaw (d b)

end Conj.Spec
