import Verif.Rvs
import Verif.Models

/-!
# The largest of several new observations

`docs/examples/bootstrap.md` compares the bootstrap with samples of the maximum of `n_new` new observations, drawn from
the posterior predictive distribution of one observation.
-/

namespace Conj

open Scipy

variable {ι : Type}

/-- `a.max(axis=0)` of an array of shape `(rows, cols)` whose entries, row after row, are `x`. numpy raises `ValueError`
for the maximum of nothing. -/
noncomputable def maxAxis0 (rows cols : ℕ) (x : List ℝ) : Except PyErr (List ℝ) :=
  if rows = 0 ∧ cols ≠ 0 then .error (.valueError "zero-size array to reduction operation maximum which has no identity")
  else .ok ((List.range cols).map fun j => ((List.range rows).map fun i => x.getD (i * cols + j) 0).max?.getD 0)

/-- `docs/examples/bootstrap.md:85-89`, `get_posterior_predictive(data, prior)` -/
noncomputable def getPosteriorPredictive (data : List ℕ) (prior : Gamma ℝ) : NegativeBinomial ℝ :=
  let x_total : ℝ := (data.sum : ℕ)
  let n : ℝ := (data.length : ℕ)
  let posterior := poisson_gamma x_total n prior
  poisson_gamma_predictive posterior

/-- `docs/examples/bootstrap.md:91-100`, `conjugate_stat(data)` made by `create_conjugate_stat(n_new, samples, prior)`.
`rvs((n_new, samples))` fills the array row after row. The page passes no `random_state`. -/
noncomputable def conjugateStat (lib : FrozenSamplers ι) (n_new samples : ℕ) (prior : Gamma ℝ) (data : List ℕ)
    (random_state : RandomState) (w : World) : Except PyErr (List ℝ) × World :=
  let posterior_predictive := getPosteriorPredictive data prior
  let draws := rvsDist lib (lib.disc posterior_predictive.dist) (n_new * samples) random_state w
  (maxAxis0 n_new samples draws.1, draws.2)

/-- The same statistic with the rate sampled first, as `docs/examples/unsupported-distributions.md:56-59` does:

    rates = posterior.dist.rvs(size=samples, random_state=rng)
    np.array([Poisson(lam=rate).dist.rvs(size=n_new, random_state=rng) for rate in rates]).max(axis=1)

numpy raises `ValueError` for the maximum of nothing. -/
noncomputable def twoStageStat (lib : FrozenSamplers ι) (n_new samples : ℕ) (posterior : Gamma ℝ)
    (random_state : RandomState) (w : World) : Except PyErr (List ℝ) × World :=
  let r := posteriorPredictiveSamplesEach lib (lib.cont posterior.dist)
    (fun rate => Draw.vec fun _ : Fin n_new => lib.disc (Poisson.dist ⟨rate⟩)) samples random_state w
  (if n_new = 0 ∧ samples ≠ 0 then
      .error (.valueError "zero-size array to reduction operation maximum which has no identity")
    else .ok (r.1.map fun x => (List.ofFn x).max?.getD 0), r.2)

end Conj
