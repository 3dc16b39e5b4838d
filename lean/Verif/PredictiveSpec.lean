import Verif.Spec

/-!
# Specification of posterior predictives

Independent of the model, and of any closed form for the posterior: the predictive
probability of a new observation given the data is a ratio of two evidences.
-/

open MeasureTheory

namespace Conj.Spec

/-- `pred` is the probability (density) of a new observation given the data. The prior density of
the unknown is `prior`, the data have likelihood `lik`, the new observation has likelihood `new`.
No posterior is mentioned: the value is `p(data, new) / p(data)`. -/
def IsPosteriorPredictive {Θ : Type*} [MeasurableSpace Θ] (μ : Measure Θ) (S : Set Θ)
    (prior lik new : Θ → ℝ) (pred : ℝ) : Prop :=
  0 < ∫ θ in S, prior θ * lik θ ∂μ ∧
    IntegrableOn (fun θ => prior θ * lik θ * new θ) S μ ∧
      pred = (∫ θ in S, prior θ * lik θ * new θ ∂μ) / ∫ θ in S, prior θ * lik θ ∂μ

/-- Product of one-step predictive probabilities: predict each observation with `pred`, then
absorb it with `update`. -/
def prequential {D X : Type*} (update : D → X → D) (pred : D → X → ℝ) : D → List X → ℝ
  | _, [] => 1
  | d, x :: xs => pred d x * prequential update pred (update d x) xs

/-- The same for functions that can raise. -/
def prequentialM {D X E : Type} (update : D → X → Except E D) (pred : D → X → Except E ℝ) :
    D → List X → Except E ℝ
  | _, [] => .ok 1
  | d, x :: xs => do
    let p ← pred d x
    let d' ← update d x
    let q ← prequentialM update pred d' xs
    return p * q

/-- `ev` is the marginal likelihood of the data: the likelihood averaged over the prior. -/
def IsEvidence {Θ : Type*} [MeasurableSpace Θ] (μ : Measure Θ) (S : Set Θ)
    (prior lik : Θ → ℝ) (ev : ℝ) : Prop :=
  IntegrableOn (fun θ => prior θ * lik θ) S μ ∧ ev = ∫ θ in S, prior θ * lik θ ∂μ

end Conj.Spec
