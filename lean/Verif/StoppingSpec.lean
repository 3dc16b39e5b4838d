import Verif.CalibrationSpec

/-!
# Specification: looking at the posterior while the data arrive

The unknown is drawn from the prior, then observations arrive one after the other without end. After each one the
user may look at the posterior given the observations so far, and may stop. The rule that says when to stop is
arbitrary: it may look at all the observations so far, hence at every posterior computed from them. The
announcements made at the moment of stopping are honest if they are right as often as they say.
-/

open MeasureTheory Set

namespace Conj.Spec

variable {Ω Θ A : Type} [MeasurableSpace Ω] [MeasurableSpace Θ] [MeasurableSpace A]

/-- the observations before number `n` -/
def firstObs (x : ℕ → A) (n : ℕ) : Fin n → A := fun i => x i

/-- the unknown `θ` has law `prior`; given `θ = t` the observations `X ω 0`, `X ω 1`, … are independent with law
`model t`: for every `n` this is true of the first `n` of them -/
def DrawThenWatch (P : Measure Ω) (θ : Ω → Θ) (X : Ω → ℕ → A) (prior : Measure Θ) (model : Θ → Measure A) : Prop :=
  ∀ n, DrawThenObserve P θ (fun ω => firstObs (X ω) n) prior fun _ => model

/-- A stopping rule: `stop n` holds the sequences of `n` observations after which the user would stop. The user
stops at the first such moment. -/
def StopsAt (stop : ∀ n, Set (Fin n → A)) (x : ℕ → A) (n : ℕ) : Prop :=
  firstObs x n ∈ stop n ∧ ∀ m < n, firstObs x m ∉ stop m

/-- Whatever the stopping rule and whatever region `C n` the user announces on stopping after `n` observations: the
probability that the user stops and that the announced region contains the unknown is what the posterior
probabilities at the moment of stopping say, on average. -/
def HonestWhenStopped (P : Measure Ω) (θ : Ω → Θ) (X : Ω → ℕ → A) (post : ∀ n, (Fin n → A) → Measure Θ) : Prop :=
  ∀ stop : ∀ n, Set (Fin n → A), (∀ n, MeasurableSet (stop n)) →
  ∀ C : ∀ n, (Fin n → A) → Set Θ, (∀ n, MeasurableSet {z : Θ × (Fin n → A) | z.1 ∈ C n z.2}) →
    P {ω | ∃ n, StopsAt stop (X ω) n ∧ θ ω ∈ C n (firstObs (X ω) n)} =
      ∑' n, ∫⁻ ω in {ω | StopsAt stop (X ω) n}, post n (firstObs (X ω) n) (C n (firstObs (X ω) n)) ∂P

/-- Whatever the stopping rule: of the runs that stop, the interval between two quantiles (`ppf`) of the posterior at
the moment of stopping contains the unknown in the proportion `b - a`. -/
def IntervalWhenStopped (P : Measure Ω) (θ : Ω → ℝ) (X : Ω → ℕ → A) (post : ∀ n, (Fin n → A) → Measure ℝ) : Prop :=
  ∀ stop : ∀ n, Set (Fin n → A), (∀ n, MeasurableSet (stop n)) → ∀ a b, 0 < a → a < b → b < 1 →
    P {ω | ∃ n, StopsAt stop (X ω) n ∧ ppf (post n (firstObs (X ω) n)) a ≤ θ ω ∧
        θ ω ≤ ppf (post n (firstObs (X ω) n)) b} =
      ENNReal.ofReal (b - a) * P {ω | ∃ n, StopsAt stop (X ω) n}

end Conj.Spec
