import Verif.SampleSpec
import Verif.Spec

/-!
# Specification: several groups, each with its own unknown

A history is a list of observations, each made on one of `k` groups; which group is observed next may have been
decided by looking at the observations before. The unknowns of the groups are independent before the data.
-/

open MeasureTheory Set

namespace Conj.Spec

variable {k : ℕ} {X : Type}

/-- the observations of one group, in order -/
def observed (h : List (Fin k × X)) (i : Fin k) : List X := (h.filter fun p => p.1 = i).map Prod.snd

/-- the probability (density) of a history when the groups have the unknowns `θ` -/
def groupLikelihood (f : Fin k → ℝ → X → ℝ) (h : List (Fin k × X)) (θ : Fin k → ℝ) : ℝ :=
  (h.map fun p => f p.1 (θ p.1) p.2).prod

/-- the vectors all of whose entries are in `S` -/
abbrev box (k : ℕ) (S : Set ℝ) : Set (Fin k → ℝ) := univ.pi fun _ => S

/-- Bayes' rule for a question about all unknowns at once: the posterior probability that they are in `B` -/
noncomputable def posteriorProb (S : Set (Fin k → ℝ)) (prior lik : (Fin k → ℝ) → ℝ) (B : Set (Fin k → ℝ)) : ℝ :=
  (∫ θ in S ∩ B, prior θ * lik θ) / ∫ θ in S, prior θ * lik θ

open Classical in
/-- the share of the rows that are in `B` -/
noncomputable def share {A : Type} (B : Set A) (rows : List A) : ℝ := (rows.countP fun r => decide (r ∈ B)) / rows.length

/-- group `i` is the best one -/
def IsBest (i : Fin k) : Set (Fin k → ℝ) := {θ | ∀ j, j ≠ i → θ j < θ i}

/-- except with a chance of at most `1 / (4 size ε²)` the number `f` computes from `size` samples is closer to `p`
than `ε`, for every `ε` -/
def CloseTo (P : Measure Stream) (size : ℕ) (f : Stream → ℝ) (p : ℝ) : Prop :=
  ∀ ε > 0, P {s | ε ≤ |f s - p|} ≤ ENNReal.ofReal (1 / (4 * size * ε ^ 2))

/-- The entries `post i` of a vectorised posterior, taken together, are the posterior of all unknowns, and `size` rows
of samples of all entries answer every question about the unknowns. -/
structure JointlyRight (P : Measure Stream) (S : Set ℝ) (prior : Fin k → ℝ → ℝ) (lik : (Fin k → ℝ) → ℝ)
    (post : Fin k → ℝ → ℝ) (size : ℕ) (rows : RandomState → World → List (Fin k → ℝ) × World) : Prop where
  /-- the product of the entries is prior times likelihood over the evidence -/
  posterior : IsPosterior volume (box k S) (fun θ => ∏ i, prior i (θ i)) lik fun θ => ∏ i, post i (θ i)
  /-- the rows are independent, each drawn from the posterior of all unknowns -/
  iid : FreshRun rows fun f => IIDSampleThen P size f (lawOn (box k S) fun θ =>
    (∏ i, prior i (θ i)) * lik θ / ∫ t in box k S, (∏ i, prior i (t i)) * lik t)
  /-- the share of rows in `B` is close to the posterior probability of `B` -/
  answers : ∀ B, MeasurableSet B → 0 < size → FreshStream rows fun f =>
    CloseTo P size (fun s => share B (f s)) (posteriorProb (box k S) (fun θ => ∏ i, prior i (θ i)) lik B)

end Conj.Spec
