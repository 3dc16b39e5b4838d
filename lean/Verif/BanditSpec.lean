import Verif.RvsSpec
import Verif.Models

/-!
# What Thompson sampling is
-/

open MeasureTheory

namespace Conj

namespace Spec

variable {k : ℕ}

/-- the total wait in group `i` during the first `T` plays -/
def waited (group : ℕ → Fin k) (wait : ℕ → ℝ) (T i : ℕ) : ℝ :=
  ∑ t ∈ Finset.range T, if (group t).val = i then wait t else 0

/-- how many of the first `T` plays were of group `i` -/
def sampled (group : ℕ → Fin k) (T i : ℕ) : ℝ := ∑ t ∈ Finset.range T, if (group t).val = i then 1 else 0

/-- Thompson sampling for the shortest wait, with gamma estimates of the mean waits that start at `Gamma(a i, b i)` and
count the total wait and the number of plays.  Given any past `H` of the first `T` plays, the next play is of group `g` with
the probability that `g` has the least mean according to the estimates, and, whatever the past, the wait then is drawn
from the true distribution of `g`. -/
structure IsThompson (P : Measure Stream) (true_dist : ℕ → Scipy.Cont) (a b : ℕ → ℝ) (group : ℕ → Stream → Fin k)
    (wait : ℕ → Stream → ℝ) : Prop where
  group_measurable : ∀ t, Measurable (group t)
  wait_measurable : ∀ t, Measurable (wait t)
  law : ∀ T (H : Set (Fin T → Fin k × ℝ)), MeasurableSet H → ∀ (g : Fin k) (A : Set ℝ), MeasurableSet A →
    P {s | (fun t : Fin T => (group t s, wait t s)) ∈ H ∧ group T s = g ∧ wait T s ∈ A} =
      (∫⁻ s in {s | (fun t : Fin T => (group t s, wait t s)) ∈ H},
        (Measure.pi fun i : Fin k => contLaw (Gamma.dist
          { alpha := a i + waited (fun t => group t s) (fun t => wait t s) T i
            beta := b i + sampled (fun t => group t s) T i }))
          {θ | ∀ j, j ≠ g → θ g < θ j} ∂P) * contLaw (true_dist g) A

/-- a distribution of waits: it has a density, waits are positive, and `m` and `v` are their mean and variance -/
structure IsWait (d : Scipy.Cont) (m v : ℝ) : Prop where
  meas : Measurable d.pdf
  prob : IsProbabilityMeasure (contLaw d)
  pos : ∀ᵐ x ∂contLaw d, 0 < x
  square : Integrable (fun x => x ^ 2) (contLaw d)
  mean : ∫ x, x ∂contLaw d = m
  var : ∫ x, (x - m) ^ 2 ∂contLaw d = v

end Spec

end Conj
