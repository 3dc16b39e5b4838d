import Verif.ConsistencySpec
import Mathlib.MeasureTheory.Constructions.Pi

/-!
# Specification: calibration

A value of the unknown is drawn from the prior, then independent observations are drawn from the model with that
value. A user who only sees the observations announces regions together with their posterior probability. Calibration
says that, over repetitions, the regions contain the unknown as often as announced.
-/

open MeasureTheory Set

namespace Conj.Spec

variable {Ω Θ A : Type} [MeasurableSpace Ω] [MeasurableSpace Θ] [MeasurableSpace A] {n : ℕ}

/-- the unknown `θ` has law `prior`; given `θ = t` the `n` observations `X` are independent and the `i`-th has law
`model i t` -/
structure DrawThenObserve (P : Measure Ω) (θ : Ω → Θ) (X : Ω → Fin n → A) (prior : Measure Θ)
    (model : Fin n → Θ → Measure A) : Prop where
  measurable_unknown : Measurable θ
  measurable_data : Measurable X
  law : ∀ B : Set (Θ × (Fin n → A)), MeasurableSet B →
    P {ω | (θ ω, X ω) ∈ B} = ∫⁻ t, Measure.pi (fun i => model i t) {x | (t, x) ∈ B} ∂prior

/-- Every rule `C` that announces a region for each data set contains the unknown as often as the posterior
probability of the announced regions says, on average. -/
def Calibrated (P : Measure Ω) (θ : Ω → Θ) (X : Ω → Fin n → A) (post : (Fin n → A) → Measure Θ) : Prop :=
  ∀ C : (Fin n → A) → Set Θ, MeasurableSet {z : Θ × (Fin n → A) | z.1 ∈ C z.2} →
    P {ω | θ ω ∈ C (X ω)} = ∫⁻ ω, post (X ω) (C (X ω)) ∂P

/-- The interval between two quantiles (`ppf`) of the posterior contains the unknown with probability `b - a`. -/
def IntervalCoverage (P : Measure Ω) (θ : Ω → ℝ) (X : Ω → Fin n → A) (post : (Fin n → A) → Measure ℝ) : Prop :=
  ∀ a b, 0 < a → a < b → b < 1 →
    P {ω | ppf (post (X ω)) a ≤ θ ω ∧ θ ω ≤ ppf (post (X ω)) b} = ENNReal.ofReal (b - a)

end Conj.Spec
