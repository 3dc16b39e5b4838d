import Verif.Rvs
import Verif.SampleShapes

/-!
# `rvs` of an object whose parameters are arrays

`docs/examples/sampling-distributions.md`: `Exponential(lam=lam).dist.rvs(size=size, random_state=rng)` with an array `lam`.
-/

namespace Conj

open Scipy NdArr

/-- the indices of an array (last axis first) in the order in which numpy fills it: the last axis runs fastest -/
def indices : List ℕ → List (List ℕ)
  | [] => [[]]
  | d :: s => (indices s).flatMap fun rest => (List.range d).map (· :: rest)

/-- `size=...` of SciPy's `rvs` as a shape, last axis first: a number stands for one axis -/
def SizeArg.scipy : SizeArg → Option (List ℕ)
  | .none => Option.none
  | .int k => some [k]
  | .tuple s => some s

/-- `x.dist.rvs(size=size, random_state=random_state)` for an object whose parameters have these shapes; `draw idx` is
SciPy's sampler with the parameters at `idx` after broadcasting. One draw per entry, in order. -/
def rvsArray {ι : Type} (lib : FrozenSamplers ι) (params : List (List ℕ)) (draw : List ℕ → Draw ℝ) (size : SizeArg)
    (random_state : RandomState) (w : World) : Except PyErr (NdArr ℝ) × World :=
  match scipyRvsShape params size.scipy with
  | .error e => (.error e, w)
  | .ok shape =>
    let r := rvs lib.toSamplers random_state ((indices shape).map draw) w
    (.ok { rshape := shape, get := fun idx => r.1.getD ((indices shape).idxOf idx) 0 }, r.2)

/-- `Exponential(lam=lam).dist.rvs(size=size, random_state=random_state)`, `docs/examples/sampling-distributions.md:31-57` -/
noncomputable def Exponential.rvsArray {ι : Type} (lib : FrozenSamplers ι) (lam : NdArr ℝ) (size : SizeArg)
    (random_state : RandomState) (w : World) : Except PyErr (NdArr ℝ) × World :=
  Conj.rvsArray lib [lam.rshape] (fun idx => lib.cont (Exponential.dist { lam := lam.atIdx idx })) size random_state w

/-- `Normal(mu=mu, sigma=sigma).dist.rvs(size=size, random_state=random_state)`,
`docs/examples/sampling-distributions.md:64-74` -/
noncomputable def Normal.rvsArray {ι : Type} (lib : FrozenSamplers ι) (mu sigma : NdArr ℝ) (size : SizeArg)
    (random_state : RandomState) (w : World) : Except PyErr (NdArr ℝ) × World :=
  Conj.rvsArray lib [mu.rshape, sigma.rshape]
    (fun idx => lib.cont (Normal.dist { mu := mu.atIdx idx, sigma := sigma.atIdx idx })) size random_state w

end Conj
