import Verif.CalibrationSpec
import Verif.ForecastSpec

/-!
# Specification: decisions by the posterior

A user who sees the data chooses an action and suffers a loss that depends on the unknown. Specification for C124 and, with a new
observation as the unknown and the predictive distribution in place of the posterior, for C125; no reference to the model.
-/

open MeasureTheory Set

namespace Conj.Spec

variable {Ω Θ A : Type} [MeasurableSpace Ω] [MeasurableSpace Θ] [MeasurableSpace A] {n : ℕ}

/-- Expected losses computed from the posterior are the losses suffered on average: for every loss `F` that depends on the
unknown and on the data, for instance through what was decided. -/
def LossesKept (P : Measure Ω) (θ : Ω → Θ) (X : Ω → Fin n → A) (post : (Fin n → A) → Measure Θ) : Prop :=
  ∀ F : Θ × (Fin n → A) → ENNReal, Measurable F →
    ∫⁻ ω, F (θ ω, X ω) ∂P = ∫⁻ ω, ∫⁻ t, F (t, X ω) ∂post (X ω) ∂P

/-- Whoever chooses, for the data that occur, an action with the smallest expected loss under the posterior suffers on average
no more than with any other rule. -/
def DecidesWell (P : Measure Ω) (θ : Ω → Θ) (X : Ω → Fin n → A) (post : (Fin n → A) → Measure Θ) : Prop :=
  ∀ (B : Type) [MeasurableSpace B] (loss : Θ → B → ENNReal), Measurable (fun z : Θ × B => loss z.1 z.2) →
    ∀ best rule : (Fin n → A) → B, AEMeasurable best (P.map X) → AEMeasurable rule (P.map X) →
      (∀ᵐ ω ∂P, ∀ b, ∫⁻ t, loss t (best (X ω)) ∂post (X ω) ≤ ∫⁻ t, loss t b ∂post (X ω)) →
      ∫⁻ ω, loss (θ ω) (best (X ω)) ∂P ≤ ∫⁻ ω, loss (θ ω) (rule (X ω)) ∂P

/-- the average squared error of a guess -/
noncomputable def squaredError (P : Measure Ω) (θ : Ω → ℝ) (X : Ω → Fin n → A) (guess : (Fin n → A) → ℝ) : ENNReal :=
  ∫⁻ ω, ENNReal.ofReal ((θ ω - guess (X ω)) ^ 2) ∂P

/-- No guess has a smaller average squared error than `guess`, and the average of the announced `error` is that error. -/
def BestGuess (P : Measure Ω) (θ : Ω → ℝ) (X : Ω → Fin n → A) (guess error : (Fin n → A) → ℝ) : Prop :=
  squaredError P θ X guess = ∫⁻ ω, ENNReal.ofReal (error (X ω)) ∂P ∧
  ∀ rule : (Fin n → A) → ℝ, Measurable rule → squaredError P θ X guess ≤ squaredError P θ X rule

/-- the cost of deciding on `a` when `t` is needed: `q` for every unit too little, `1 - q` for every unit too much -/
noncomputable def stockLoss (q t a : ℝ) : ENNReal := ENNReal.ofReal (q * max (t - a) 0 + (1 - q) * max (a - t) 0)

/-- Whoever decides on the `q` quantile (`ppf`) of the posterior suffers on average no more than with any other rule. -/
def StockByQuantile (P : Measure Ω) (θ : Ω → ℝ) (X : Ω → Fin n → A) (post : (Fin n → A) → Measure ℝ) : Prop :=
  ∀ q, 0 < q → q < 1 → ∀ rule : (Fin n → A) → ℝ, Measurable rule →
    ∫⁻ ω, stockLoss q (θ ω) (ppf (post (X ω)) q) ∂P ≤ ∫⁻ ω, stockLoss q (θ ω) (rule (X ω)) ∂P

/-- all three, for one unknown number -/
def RightChoices (P : Measure Ω) (θ : Ω → ℝ) (X : Ω → Fin n → A) (post : (Fin n → A) → Measure ℝ) : Prop :=
  LossesKept P θ X post ∧ DecidesWell P θ X post ∧ StockByQuantile P θ X post

/-- the first two, for an unknown of any kind -/
def GoodChoices (P : Measure Ω) (θ : Ω → Θ) (X : Ω → Fin n → A) (post : (Fin n → A) → Measure Θ) : Prop :=
  LossesKept P θ X post ∧ DecidesWell P θ X post

/-- The mean of the posterior is the best guess, its error is announced by the variance of the posterior, and on average this
variance is at most the variance of the prior. -/
def GuessByMean (P : Measure Ω) (θ : Ω → ℝ) (X : Ω → Fin n → A) (prior : Measure ℝ) (post : (Fin n → A) → Measure ℝ) : Prop :=
  ∃ guess error : (Fin n → A) → ℝ, (∀ᵐ ω ∂P, MeanVar (post (X ω)) (guess (X ω)) (error (X ω))) ∧
    BestGuess P θ X guess error ∧
    ∀ m v, MeanVar prior m v → ∫⁻ ω, ENNReal.ofReal (error (X ω)) ∂P ≤ ENNReal.ofReal v

end Conj.Spec
