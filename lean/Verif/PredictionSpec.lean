import Verif.CalibrationSpec

/-!
# Specification: announced predictions are kept

A value of the unknown is drawn from the prior, observations are drawn from the model with that value, and then a new
value is drawn. A user who only sees the observations announces regions for the new value, or limits that it will not
exceed, from the predictive distribution.
-/

open MeasureTheory Set

namespace Conj.Spec

variable {Ω Θ A B : Type} [MeasurableSpace Ω] [MeasurableSpace Θ] [MeasurableSpace A] [MeasurableSpace B] {n : ℕ}

/-- the unknown `θ` and the observations `X` are drawn as in `DrawThenObserve`; given `θ = t` the new value `Y` is
drawn from `new t`, independently of the observations -/
structure DrawThenPredict (P : Measure Ω) (θ : Ω → Θ) (X : Ω → Fin n → A) (Y : Ω → B) (prior : Measure Θ)
    (model : Fin n → Θ → Measure A) (new : Θ → Measure B) : Prop where
  past : DrawThenObserve P θ X prior model
  measurable_new : Measurable Y
  law : ∀ E : Set ((Θ × (Fin n → A)) × B), MeasurableSet E →
    P {ω | ((θ ω, X ω), Y ω) ∈ E} =
      ∫⁻ t, ∫⁻ x, new t {y | ((t, x), y) ∈ E} ∂Measure.pi (fun i => model i t) ∂prior

/-- Every rule `C` that announces a region for the new value contains it as often as the predictive probability of
the announced regions says, on average. -/
def PredictionsKept (P : Measure Ω) (X : Ω → Fin n → A) (Y : Ω → B) (pred : (Fin n → A) → Measure B) : Prop :=
  ∀ C : (Fin n → A) → Set B, MeasurableSet {z : B × (Fin n → A) | z.1 ∈ C z.2} →
    P {ω | Y ω ∈ C (X ω)} = ∫⁻ ω, pred (X ω) (C (X ω)) ∂P

/-- The new value is at most the quantile `ppf(p)` of the predictive distribution with probability at least `p`, and
strictly below it with probability at most `p`. -/
def LimitsKept (P : Measure Ω) (X : Ω → Fin n → A) (Y : Ω → ℝ) (pred : (Fin n → A) → Measure ℝ) : Prop :=
  ∀ p, 0 < p → p < 1 → ENNReal.ofReal p ≤ P {ω | Y ω ≤ ppf (pred (X ω)) p} ∧
    P {ω | Y ω < ppf (pred (X ω)) p} ≤ ENNReal.ofReal p

/-- For measured values: the new value is at most the quantile `ppf(p)` with probability `p`. -/
def LimitsExact (P : Measure Ω) (X : Ω → Fin n → A) (Y : Ω → ℝ) (pred : (Fin n → A) → Measure ℝ) : Prop :=
  ∀ p, 0 < p → p < 1 → P {ω | Y ω ≤ ppf (pred (X ω)) p} = ENNReal.ofReal p

end Conj.Spec
