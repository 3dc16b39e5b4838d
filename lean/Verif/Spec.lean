import Mathlib.MeasureTheory.Integral.Bochner.Set
import Mathlib.MeasureTheory.Measure.Lebesgue.Basic

/-!
# Specification

Independent of the model: what "posterior" and "predictive" mean.
-/

open MeasureTheory

namespace Conj.Spec

/-- Bayes' rule. `prior`, `lik` and `post` are densities / likelihood as functions of the
unknown `θ`, which ranges over `S`.  The evidence must be positive (so the integral is
a genuine, convergent one), and the posterior density is prior times likelihood divided by it. -/
def IsPosterior {Θ : Type*} [MeasurableSpace Θ] (μ : Measure Θ) (S : Set Θ)
    (prior lik post : Θ → ℝ) : Prop :=
  0 < ∫ θ in S, prior θ * lik θ ∂μ ∧
    ∀ θ ∈ S, post θ = prior θ * lik θ / ∫ θ in S, prior θ * lik θ ∂μ

/-- Bayes' rule up to the normalising constant: `prior * lik = c * post` on `S` with a
constant `c > 0` that does not depend on the unknown. -/
def IsPosteriorKernel {Θ : Type*} (S : Set Θ) (prior lik post : Θ → ℝ) : Prop :=
  ∃ c : ℝ, 0 < c ∧ ∀ θ ∈ S, prior θ * lik θ = c * post θ

/-- Bayes' rule for an unknown with finitely many values. -/
def IsPosteriorSum {Θ : Type*} (S : Finset Θ) (prior lik post : Θ → ℝ) : Prop :=
  0 < ∑ θ ∈ S, prior θ * lik θ ∧
    ∀ θ ∈ S, post θ = prior θ * lik θ / ∑ θ ∈ S, prior θ * lik θ

/-- `pred` is the predictive probability (density) of an observation whose likelihood is
`lik θ`, the unknown `θ` having density `dens` on `S`; the mixture integral must converge. -/
def IsPredictive {Θ : Type*} [MeasurableSpace Θ] (μ : Measure Θ) (S : Set Θ)
    (lik dens : Θ → ℝ) (pred : ℝ) : Prop :=
  IntegrableOn (fun θ => lik θ * dens θ) S μ ∧ pred = ∫ θ in S, lik θ * dens θ ∂μ

/-- `dens` is a probability density on `S`. -/
def IsDensity {Θ : Type*} [MeasurableSpace Θ] (μ : Measure Θ) (S : Set Θ) (dens : Θ → ℝ) : Prop :=
  (∀ θ ∈ S, 0 ≤ dens θ) ∧ IntegrableOn dens S μ ∧ ∫ θ in S, dens θ ∂μ = 1

/-- joint likelihood of independent observations -/
def likelihood {X Θ : Type*} (f : Θ → X → ℝ) (xs : List X) (θ : Θ) : ℝ :=
  (xs.map (f θ)).prod

end Conj.Spec
