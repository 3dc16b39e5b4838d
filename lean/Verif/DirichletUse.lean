import Verif.PyVal

/-!
# Using a Dirichlet distribution whose parameter is a Python value
-/

namespace Conj

/-- `distributions.py:161-166`: the parameters given to `scipy.stats.dirichlet`.  `self.alpha.ndim` exists for arrays
only.  Simplifications: arrays have one dimension (for more see `Verif/VectorDirichlet.lean`); the checks of SciPy, that the
parameters are positive and that there are at least two, are not part of this. -/
def Dirichlet.distParams {α : Type} (d : Dirichlet (SeqVal α)) : Except PyErr (List α) :=
  match d.alpha with
  | .arr l => .ok l
  | _ => .error .attributeError

/-- `docs/examples/bayesian-update.md:9-18`: one batch of counts after the other -/
def dirichletLoop {α : Type} [Add α] (batches : List (SeqVal α)) (prior : Dirichlet (SeqVal α)) :
    Except PyErr (Dirichlet (SeqVal α)) :=
  match batches with
  | [] => .ok prior
  | c :: rest => do
    let post ← multinomial_dirichlet c prior
    dirichletLoop rest post

end Conj
