import Verif.Dist
import Verif.NdArr
import Mathlib.LinearAlgebra.Matrix.NonsingularInverse
import Mathlib.Analysis.SpecialFunctions.Sqrt
import Mathlib.Analysis.SpecialFunctions.Pow.Real

/-!
# The sampling methods

`NormalInverseGamma`, `NormalGamma`, `NormalWishart`, `NormalInverseWishart` (`distributions.py`) and
`beta_geometric.rvs`, `compound_gamma.rvs`.

A random number generator is the stream of deviates it will produce.  SciPy's samplers are
parameters: a sampler looks at the stream, returns a value and says how many deviates it used.
`random_state=None` draws from numpy's global generator, an integer starts a new generator on every
`rvs` call, a `Generator` is used and advanced (SciPy documentation of `check_random_state`).
-/

namespace Conj

/-- the deviates a generator will produce -/
abbrev Stream := ℕ → ℝ

/-- the stream after `n` deviates were used -/
def Stream.drop (s : Stream) (n : ℕ) : Stream := fun i => s (n + i)

/-- one sampler: the value drawn from a stream, and the number of deviates used -/
structure Draw (A : Type) where
  value : Stream → A
  used : Stream → ℕ

/-- a sampler at work on a generator -/
def Draw.run {A : Type} (d : Draw A) (s : Stream) : A × Stream := (d.value s, s.drop (d.used s))

/-- several draws from one generator, one after the other -/
def drawAll {A : Type} : List (Draw A) → Stream → List A × Stream
  | [], s => ([], s)
  | d :: l, s =>
    let r := d.run s
    let q := drawAll l r.2
    (r.1 :: q.1, q.2)

/-- the argument `random_state` -/
inductive RandomState
  | none
  | seed (k : ℕ)
  | generator

/-- numpy's global generator, and the `Generator` the caller holds -/
structure World where
  global : Stream
  gen : Stream

/-- the samplers of SciPy, for a `ι`-dimensional multivariate normal -/
structure Samplers (ι : Type) where
  /-- the generator started from an integer seed -/
  seeded : ℕ → Stream
  invgamma : (a scale : ℝ) → Draw ℝ
  gamma : (a scale : ℝ) → Draw ℝ
  norm : (loc scale : ℝ) → Draw ℝ
  multivariate_normal : (mean : ι → ℝ) → (cov : Matrix ι ι ℝ) → Draw (ι → ℝ)
  wishart : (df : ℝ) → (scale : Matrix ι ι ℝ) → Draw (Matrix ι ι ℝ)
  invwishart : (df : ℝ) → (scale : Matrix ι ι ℝ) → Draw (Matrix ι ι ℝ)
  beta : (a b : ℝ) → Draw ℝ
  geom : (p : ℝ) → Draw ℝ

variable {ι : Type}

/-- one `rvs` call: it draws from the generator `random_state` designates -/
def rvs (lib : Samplers ι) {A : Type} (random_state : RandomState) (draws : List (Draw A)) (w : World) :
    List A × World :=
  match random_state with
  | .none => let r := drawAll draws w.global; (r.1, { w with global := r.2 })
  | .seed k => ((drawAll draws (lib.seeded k)).1, w)
  | .generator => let r := drawAll draws w.gen; (r.1, { w with gen := r.2 })

/-- a list comprehension `[dist(p).rvs(size=1, random_state=random_state) for p in params]`: one `rvs`
call per entry -/
def rvsEach (lib : Samplers ι) {A : Type} (random_state : RandomState) : List (Draw A) → World → List A × World
  | [], w => ([], w)
  | d :: l, w =>
    let r := rvs lib random_state [d] w
    let q := rvsEach lib random_state l r.2
    (r.1 ++ q.1, q.2)

/-! ## NormalInverseGamma -/

/-- `distributions.py:591-602`; `InverseGamma.dist` is `invgamma(a=alpha, scale=beta)` -/
def NormalInverseGamma.sample_variance {V M : Type} (lib : Samplers ι) (self : NormalInverseGamma ℝ V M)
    (size : ℕ) (random_state : RandomState) (w : World) : List ℝ × World :=
  rvs lib random_state (List.replicate size (lib.invgamma self.inverse_gamma.alpha self.inverse_gamma.beta)) w

/-- `distributions.py:604-606`: `sigma = (variance / nu) ** 0.5`, then one `rvs` call with the vector
of scales -/
noncomputable def NormalInverseGamma.sampleBeta1d {M : Type} (lib : Samplers ι) (self : NormalInverseGamma ℝ ℝ M)
    (nu : ℝ) (variance : List ℝ) (random_state : RandomState) (w : World) : List ℝ × World :=
  rvs lib random_state (variance.map (fun v => lib.norm self.mu (Real.sqrt (v / nu)))) w

/-- `distributions.py:642-668` with `delta_inverse is None` (then the constructor guarantees `nu`):
the samples of the mean, and the variances they were drawn with -/
noncomputable def NormalInverseGamma.sampleBoth1d {M : Type} (lib : Samplers ι)
    (self : NormalInverseGamma ℝ ℝ M) (nu : ℝ) (size : ℕ) (random_state : RandomState) (w : World) :
    (List ℝ × List ℝ) × World :=
  let variance := self.sample_variance lib size random_state w
  let beta := self.sampleBeta1d lib nu variance.1 random_state variance.2
  ((beta.1, variance.1), beta.2)

/-- `distributions.py:609`: `(delta_inverse[None, ...].T * variance).T`, an array indexed by sample, row,
column; `.T` reverses the axes -/
def scaledCovariances (delta_inverse : Matrix ι ι ℝ) (variance : List ℝ) : List (Matrix ι ι ℝ) :=
  -- `D[None, ...].T` has entry `D[j][i]` at `[i, j, 0]`; times `variance` along the last axis
  let T : ι → ι → ℝ → ℝ := fun i j v => delta_inverse j i * v
  -- `.T`: sample first, then the two axes in reverse order
  variance.map (fun v => Matrix.of (fun a b => T b a v))

/-- `distributions.py:608-617`: one `rvs` call per sample -/
def NormalInverseGamma.sampleBetaNd (lib : Samplers ι) (self : NormalInverseGamma ℝ (ι → ℝ) (Matrix ι ι ℝ))
    (delta_inverse : Matrix ι ι ℝ) (variance : List ℝ) (random_state : RandomState) (w : World) :
    List (ι → ℝ) × World :=
  rvsEach lib random_state
    ((scaledCovariances delta_inverse variance).map (fun v => lib.multivariate_normal self.mu v)) w

/-- `distributions.py:642-668` with a matrix `delta_inverse` -/
def NormalInverseGamma.sampleBothNd (lib : Samplers ι)
    (self : NormalInverseGamma ℝ (ι → ℝ) (Matrix ι ι ℝ)) (delta_inverse : Matrix ι ι ℝ) (size : ℕ)
    (random_state : RandomState) (w : World) : (List (ι → ℝ) × List ℝ) × World :=
  let variance := self.sample_variance lib size random_state w
  let beta := self.sampleBetaNd lib delta_inverse variance.1 random_state variance.2
  ((beta.1, variance.1), beta.2)

/-- what `sample_beta` returns: the samples, or the pair -/
inductive Sampled (B Var : Type)
  | mean (beta : List B)
  | meanAndVariance (beta : List B) (variance : List Var)
  deriving DecidableEq

/-- `if return_variance: return beta, variance; return beta` -/
def Sampled.of {B Var : Type} (return_variance : Bool) (r : List B × List Var) : Sampled B Var :=
  if return_variance then .meanAndVariance r.1 r.2 else .mean r.1

/-- `distributions.py:642-668` (`sample_beta`), `619-640` (`sample_mean` calls it with the same
arguments), scalar mean -/
noncomputable def NormalInverseGamma.sample_beta {M : Type} (lib : Samplers ι)
    (self : NormalInverseGamma ℝ ℝ M) (nu : ℝ) (size : ℕ) (return_variance : Bool)
    (random_state : RandomState) (w : World) : Sampled ℝ ℝ × World :=
  let r := self.sampleBoth1d lib nu size random_state w
  (Sampled.of return_variance r.1, r.2)

/-- `distributions.py:642-668`, vector mean -/
def NormalInverseGamma.sample_beta_nd (lib : Samplers ι)
    (self : NormalInverseGamma ℝ (ι → ℝ) (Matrix ι ι ℝ)) (delta_inverse : Matrix ι ι ℝ) (size : ℕ)
    (return_variance : Bool) (random_state : RandomState) (w : World) : Sampled (ι → ℝ) ℝ × World :=
  let r := self.sampleBothNd lib delta_inverse size random_state w
  (Sampled.of return_variance r.1, r.2)

/-! ## NormalGamma -/

/-- `distributions.py:1021-1034`; `Gamma.dist` is `gamma(a=alpha, scale=1 / beta)` -/
noncomputable def NormalGamma.sample_variance (lib : Samplers ι) (self : NormalGamma ℝ) (size : ℕ)
    (random_state : RandomState) (w : World) : List ℝ × World :=
  let g := rvs lib random_state (List.replicate size (lib.gamma self.gamma.alpha (1 / self.gamma.beta))) w
  let precision := g.1.map (fun g => self.lam * g)
  (precision.map (fun p => 1 / p), g.2)

/-- `distributions.py:1058-1081` (`sample_beta`; `sample_mean` calls it) -/
noncomputable def NormalGamma.sample_beta (lib : Samplers ι) (self : NormalGamma ℝ) (size : ℕ)
    (return_variance : Bool) (random_state : RandomState) (w : World) : Sampled ℝ ℝ × World :=
  let variance := self.sample_variance lib size random_state w
  let sigma := variance.1.map Real.sqrt
  let beta := rvs lib random_state (sigma.map (fun s => lib.norm self.mu s)) variance.2
  (Sampled.of return_variance (beta.1, variance.1), beta.2)

/-! ## NormalWishart, NormalInverseWishart -/

section
variable [Fintype ι] [DecidableEq ι]

/-- `distributions.py:1142-1168` for at least two dimensions (shapes: `Verif/SampleShapes.lean`) -/
noncomputable def NormalWishart.sample_variance (lib : Samplers ι)
    (self : NormalWishart ℝ (ι → ℝ) (Matrix ι ι ℝ)) (size : ℕ) (random_state : RandomState) (w : World) :
    List (Matrix ι ι ℝ) × World :=
  let r := rvs lib random_state (List.replicate size (lib.wishart self.wishart.nu self.wishart.V)) w
  (r.1.map (fun x => (self.lam • x)⁻¹), r.2)

/-- `distributions.py:1170-1203` -/
noncomputable def NormalWishart.sample_mean (lib : Samplers ι)
    (self : NormalWishart ℝ (ι → ℝ) (Matrix ι ι ℝ)) (size : ℕ) (return_variance : Bool)
    (random_state : RandomState) (w : World) : Sampled (ι → ℝ) (Matrix ι ι ℝ) × World :=
  let variance := self.sample_variance lib size random_state w
  let mean := rvsEach lib random_state (variance.1.map (fun cov => lib.multivariate_normal self.mu cov)) variance.2
  (Sampled.of return_variance (mean.1, variance.1), mean.2)
end

/-- `distributions.py:1236-1256` -/
noncomputable def NormalInverseWishart.sample_variance (lib : Samplers ι)
    (self : NormalInverseWishart ℝ (ι → ℝ) (Matrix ι ι ℝ)) (size : ℕ) (random_state : RandomState) (w : World) :
    List (Matrix ι ι ℝ) × World :=
  let r := rvs lib random_state (List.replicate size (lib.invwishart self.inverse_wishart.nu self.inverse_wishart.psi)) w
  (r.1.map (fun x => (1 / self.kappa) • x), r.2)

/-- `distributions.py:1258-1290` -/
noncomputable def NormalInverseWishart.sample_mean (lib : Samplers ι)
    (self : NormalInverseWishart ℝ (ι → ℝ) (Matrix ι ι ℝ)) (size : ℕ) (return_variance : Bool)
    (random_state : RandomState) (w : World) : Sampled (ι → ℝ) (Matrix ι ι ℝ) × World :=
  let variance := self.sample_variance lib size random_state w
  let mean := rvsEach lib random_state (variance.1.map (fun cov => lib.multivariate_normal self.mu cov)) variance.2
  (Sampled.of return_variance (mean.1, variance.1), mean.2)

/-! ## The hand-written distributions, for scalar parameters -/

/-- `_beta_geometric.py:31-46`: `size` draws of `p`, then `size` draws of the count, each in one `rvs`
call -/
def BetaGeometric.rvs (lib : Samplers ι) (self : BetaGeometric ℝ) (size : ℕ) (random_state : RandomState)
    (w : World) : List ℝ × World :=
  let p := Conj.rvs lib random_state (List.replicate size (lib.beta self.alpha self.beta)) w
  let result := Conj.rvs lib random_state (p.1.map (fun p => lib.geom p)) p.2
  (if !self.one_start then result.1.map (fun x => x - 1) else result.1, result.2)

/-- `_compound_gamma.py:24-34`; `CompoundGamma.dist` is `compound_gamma(a=alpha, b=beta, q=lam)` -/
noncomputable def CompoundGamma.rvs (lib : Samplers ι) (self : CompoundGamma ℝ) (size : ℕ)
    (random_state : RandomState) (w : World) : List ℝ × World :=
  let random_b := Conj.rvs lib random_state (List.replicate size (lib.gamma self.beta (1 / self.lam))) w
  Conj.rvs lib random_state (random_b.1.map (fun b => lib.gamma self.alpha (1 / b))) random_b.2

end Conj
