import Verif.MatModels
import Verif.Plot

/-!
# The linear regression of the documentation: one covariate
-/

namespace Conj

/-- `docs/examples/linear-regression.md:45-46`: `create_X`, `np.stack([np.ones_like(x), x]).T` -/
def create_X {m : Type} (x : m → ℝ) : Matrix m (Fin 2) ℝ := fun i => ![1, x i]

/-- `docs/examples/linear-regression.md:26-28`: the training points, `np.linspace(-x_lim, x_lim, n_points)` -/
noncomputable def documentedPoints (x_lim : ℝ) (n_points : ℕ) : Fin (linspace (-x_lim) x_lim n_points).length → ℝ :=
  fun k => (linspace (-x_lim) x_lim n_points)[k]

end Conj
