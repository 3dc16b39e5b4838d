import Verif.HyperSpec
import Verif.Models
import Verif.DistMap

/-!
# Random variables for the parameters of the prior (docs/examples/generalized-inputs.md, "PyMC")
-/

open MeasureTheory Set

namespace Conj

/-- positive pairs: values of `alpha` and `beta` -/
abbrev PosPair := Ioi (0 : ℝ) × Ioi (0 : ℝ)

/-- `Beta(alpha=alpha, beta=beta)` at one draw of the two -/
abbrev priorAt (h : PosPair) : Beta ℝ := ⟨h.1, h.2⟩

/-- docs/examples/generalized-inputs.md:
```
prior = Beta(alpha=alpha, beta=beta)
posterior = binomial_beta(n=N, x=X, prior=prior)
posterior_dist = pm.Beta.dist(alpha=posterior.alpha, beta=posterior.beta)
samples = pm.draw([alpha, beta, prior_dist, posterior_dist], draws=1000)
```
The law of `alpha`, `beta` and `posterior_dist` in one draw: PyMC draws `alpha` and `beta` from `ν`, evaluates
`posterior.alpha` and `posterior.beta` at them and draws from the Beta distribution. -/
noncomputable def pymcDraw (ν : Measure PosPair) (n x : ℝ) : Measure (PosPair × ℝ) :=
  Spec.twoStage ν (Ioo 0 1) fun h => (binomial_beta n x (priorAt h)).dist.pdf

/-- `pm.Gamma.dist(alpha=a, beta=b)`: shape and rate; a law on the positive numbers -/
noncomputable def pymcGamma (a b : ℝ) : Measure (Ioi (0 : ℝ)) :=
  (Spec.lawOn (Ioi 0) (Gamma.dist ⟨a, b⟩).pdf).comap (↑)

/-- `alpha = pm.Gamma.dist(alpha=1, beta=20)`, `beta = pm.Gamma.dist(alpha=1, beta=20)` -/
noncomputable def documentedHyper : Measure PosPair := (pymcGamma 1 20).prod (pymcGamma 1 20)

end Conj
