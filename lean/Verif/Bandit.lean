import Verif.Thompson
import Verif.Rvs

/-!
# The Thompson sampling loop of `docs/examples/thompson.md`, drawing from its generator

`Thompson.lean` has the loop with the random draws as inputs. Here they come from the generator `rng` that the script
hands to every `rvs` call; its state is the stream of deviates it will produce.
-/

namespace Conj

open Scipy

variable {ι : Type}

/-- entry `i` of a one-dimensional array of parameters -/
def entryAt (a : ArrExpr ℝ) (i : ℕ) : ℝ :=
  match a with
  | .ok A => A.get [i]
  | .error _ => 0

/-- the distribution at position `i` of a vectorised `Gamma` -/
def Gamma.entry (d : Gamma (ArrExpr ℝ)) (i : ℕ) : Gamma ℝ := { alpha := entryAt d.alpha i, beta := entryAt d.beta i }

/-- `docs/examples/thompson.md:63-71` (`thompson_step`) with its draws. `true_dist g` is
`true_dist[g].dist` of `sample_true_distribution` (lines 41-46); `estimate.dist.rvs(random_state=rng)` draws one value
for each entry of the parameters. -/
noncomputable def thompsonStep (lib : FrozenSamplers ι) (n_groups : ℕ) (true_dist : ℕ → Cont)
    (estimate : Gamma (ArrExpr ℝ)) (rng : Stream) : Except PyErr (Gamma (ArrExpr ℝ) × Stream) := do
  let sample := (Draw.vec fun i : Fin n_groups => lib.cont (estimate.entry i).dist).run rng
  let group_to_sample ← argmin (List.ofFn sample.1)
  let group_sample := (lib.cont (true_dist group_to_sample)).run sample.2
  let (x, n) ← bayesian_update_stats group_to_sample group_sample.1 n_groups
  return (exponential_gamma (.ok x) (.ok n) estimate, group_sample.2)

/-- `docs/examples/thompson.md:84-85`: `for _ in range(total_samples): estimate = thompson_step(estimate, rng)` -/
noncomputable def thompsonLoop (lib : FrozenSamplers ι) (n_groups : ℕ) (true_dist : ℕ → Cont) :
    ℕ → Gamma (ArrExpr ℝ) → Stream → Except PyErr (Gamma (ArrExpr ℝ) × Stream)
  | 0, estimate, rng => .ok (estimate, rng)
  | total_samples + 1, estimate, rng => do
    let (estimate, rng) ← thompsonLoop lib n_groups true_dist total_samples estimate rng
    thompsonStep lib n_groups true_dist estimate rng

end Conj
