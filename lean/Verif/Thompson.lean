import Verif.Models
import Verif.NdArr

/-!
# The Thompson sampling loop of `docs/examples/thompson.md`
-/

namespace Conj

/-- `np.zeros(k)` -/
def NdArr.zeros (k : ℕ) : NdArr ℝ := { rshape := [k], get := fun _ => 0 }

/-- `a[i] = v` for a one-dimensional array and a nonnegative index -/
def NdArr.set1 (a : NdArr ℝ) (i : ℕ) (v : ℝ) : Except PyErr (NdArr ℝ) :=
  match a.rshape with
  | [k] => if i < k then .ok { a with get := fun idx => if idx = [i] then v else a.get idx } else .error .indexError
  | _ => .error .indexError

/-- `np.argmin` of a list: the first position of the least entry (`ValueError` for an empty one) -/
noncomputable def argmin : List ℝ → Except PyErr ℕ
  | [] => .error (.valueError "attempt to get argmin of an empty sequence")
  | [_] => .ok 0
  | x :: l =>
    match argmin l with
    | .error e => .error e
    | .ok j => .ok (if x ≤ l.getD j 0 then 0 else j + 1)

/-- `docs/examples/thompson.md:49-60` (`bayesian_update_stats`) -/
def bayesian_update_stats (group_sampled : ℕ) (group_sample : ℝ) (n_groups : ℕ) :
    Except PyErr (NdArr ℝ × NdArr ℝ) := do
  let x ← (NdArr.zeros n_groups).set1 group_sampled group_sample
  let n ← (NdArr.zeros n_groups).set1 group_sampled 1
  return (x, n)

/-- `docs/examples/thompson.md:63-71` (`thompson_step`).  The two random draws are inputs: `sample`
is `estimate.dist.rvs(...)`, `trueSample g` what `sample_true_distribution(g)` returns. -/
noncomputable def thompson_step (n_groups : ℕ) (estimate : Gamma (ArrExpr ℝ)) (sample : List ℝ) (trueSample : ℕ → ℝ) :
    Except PyErr (Gamma (ArrExpr ℝ)) := do
  let group_to_sample ← argmin sample
  let group_sample := trueSample group_to_sample
  let (x, n) ← bayesian_update_stats group_to_sample group_sample n_groups
  return exponential_gamma (.ok x) (.ok n) estimate

/-- `docs/examples/thompson.md:84-85`: the loop; one entry of `draws` per iteration -/
noncomputable def thompson_run (n_groups : ℕ) :
    Gamma (ArrExpr ℝ) → List (List ℝ × (ℕ → ℝ)) → Except PyErr (Gamma (ArrExpr ℝ))
  | estimate, [] => .ok estimate
  | estimate, d :: draws => do
    let e ← thompson_step n_groups estimate d.1 d.2
    thompson_run n_groups e draws

end Conj
