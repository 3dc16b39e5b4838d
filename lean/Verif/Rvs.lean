import Verif.Sampling
import Verif.DistMap

/-!
# `rvs` of the frozen distributions behind `.dist`

Every class with a `.dist` property hands out a frozen SciPy distribution, and users draw from it with
`x.dist.rvs(size=..., random_state=...)`.  SciPy's samplers are parameters, one for each frozen
distribution.
-/

namespace Conj

open Scipy

/-- SciPy's samplers, with one for each frozen univariate distribution -/
structure FrozenSamplers (ι : Type) extends Samplers ι where
  cont : Cont → Draw ℝ
  disc : Disc → Draw ℝ

variable {ι : Type}

/-- `dist.rvs(size=size, random_state=random_state)` for scalar parameters: `size` draws, one after the
other, from the generator (the mixin of `distributions.py` passes `.dist` through unchanged) -/
def rvsDist (lib : FrozenSamplers ι) (d : Draw ℝ) (size : ℕ) (random_state : RandomState) (w : World) :
    List ℝ × World :=
  rvs lib.toSamplers random_state (List.replicate size d) w

/-- `Model(param=samples).dist.rvs(random_state=random_state)`: the parameters broadcast, one draw for
each entry of `samples`, in one `rvs` call -/
def rvsEachParam (lib : FrozenSamplers ι) (model : ℝ → Draw ℝ) (samples : List ℝ) (random_state : RandomState)
    (w : World) : List ℝ × World :=
  rvs lib.toSamplers random_state (samples.map model) w

/-- `docs/examples/unsupported-distributions.md:56-59`: sample the posterior, then sample the model once
for each sampled parameter.

    alpha_samples = posterior.dist.rvs(size=n_samples, random_state=rng)
    posterior_predictive_samples = Pareto(x_m=x_m, alpha=alpha_samples).dist.rvs(random_state=rng) -/
def posteriorPredictiveSamples (lib : FrozenSamplers ι) (posterior : Draw ℝ) (model : ℝ → Draw ℝ)
    (n_samples : ℕ) (random_state : RandomState) (w : World) : List ℝ × World :=
  let samples := rvsDist lib posterior n_samples random_state w
  rvsEachParam lib model samples.1 random_state samples.2

/-- The same for a model with a mean and a variance. The samples are used as
`docs/examples/bayesian-update.md:66-70` does, `variance ** 0.5` being the standard deviation:

    mean, variance = posterior.sample_mean(size, return_variance=True, random_state=rng)
    Normal(mu=mean, sigma=variance ** 0.5).dist.rvs(random_state=rng)

`sample` is the first call; the parameters of the second broadcast, one draw for each pair. -/
def predictiveFromSamples {A B C : Type} (lib : FrozenSamplers ι)
    (sample : RandomState → World → Sampled A B × World) (model : A → B → Draw C)
    (random_state : RandomState) (w : World) : List C × World :=
  match sample random_state w with
  | (.meanAndVariance mean variance, w') => rvs lib.toSamplers random_state (List.zipWith model mean variance) w'
  | (.mean _, w') => ([], w')

/-- One `rvs` call per pair, for models whose parameters do not broadcast (`stats.multivariate_normal`):

    [MultivariateNormal(m, c).dist.rvs(random_state=rng) for m, c in zip(mean, variance)] -/
def predictiveFromSamplesEach {A B C : Type} (lib : FrozenSamplers ι)
    (sample : RandomState → World → Sampled A B × World) (model : A → B → Draw C)
    (random_state : RandomState) (w : World) : List C × World :=
  match sample random_state w with
  | (.meanAndVariance mean variance, w') => rvsEach lib.toSamplers random_state (List.zipWith model mean variance) w'
  | (.mean _, w') => ([], w')

/-- Samples of a vector parameter, then one `rvs` call of the model for each of them -/
def posteriorPredictiveSamplesEach {A C : Type} (lib : FrozenSamplers ι) (posterior : Draw A) (model : A → Draw C)
    (n_samples : ℕ) (random_state : RandomState) (w : World) : List C × World :=
  let samples := rvs lib.toSamplers random_state (List.replicate n_samples posterior) w
  rvsEach lib.toSamplers random_state (samples.1.map model) samples.2

/-- the deviates several draws use, one after the other -/
def usedBy {A : Type} : (m : ℕ) → (Fin m → Draw A) → Stream → ℕ
  | 0, _, _ => 0
  | m + 1, d, s => (d 0).used s + usedBy m (fun i => d i.succ) (s.drop ((d 0).used s))

/-- their values -/
def valuesOf {A : Type} : (m : ℕ) → (Fin m → Draw A) → Stream → Fin m → A
  | 0, _, _ => fun i => i.elim0
  | m + 1, d, s => Fin.cons ((d 0).value s) (valuesOf m (fun i => d i.succ) (s.drop ((d 0).used s)))

/-- One row of an array of samples: `m` draws, one after the other. For instance
`Normal(mu=X_new @ beta, sigma=variance ** 0.5).dist.rvs(random_state=rng)`, where the parameters broadcast
to one draw for each row of `X_new`. -/
def Draw.vec {A : Type} {m : ℕ} (d : Fin m → Draw A) : Draw (Fin m → A) := ⟨valuesOf m d, usedBy m d⟩

end Conj
