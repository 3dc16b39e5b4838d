import Verif.Spec
import Verif.SampleSpec

/-!
# Specification: unknown parameters of the prior

The parameters `h` of the prior are themselves unknown, with law `ν`; given `h` the parameter `θ` has density `prior h` on
`S`; given `θ` the data have likelihood `lik θ`.
-/

open MeasureTheory

namespace Conj.Spec

variable {H : Type*} [MeasurableSpace H] {Θ : Type} [MeasureSpace Θ]

/-- the law of `(h, θ)` if `h` has law `ν` and `θ` has density `f h` on `S` given `h` -/
noncomputable def twoStage (ν : Measure H) (S : Set Θ) (f : H → Θ → ℝ) : Measure (H × Θ) :=
  (ν.prod (volume.restrict S)).withDensity fun q => ENNReal.ofReal (f q.1 q.2)

/-- the joint posterior law of `(h, θ)`: the law before the data times the likelihood, divided by its total mass -/
noncomputable def jointPosterior (ν : Measure H) (S : Set Θ) (prior : H → Θ → ℝ) (lik : Θ → ℝ) : Measure (H × Θ) :=
  let m := (twoStage ν S prior).withDensity fun q => ENNReal.ofReal (lik q.2)
  (m Set.univ)⁻¹ • m

end Conj.Spec
