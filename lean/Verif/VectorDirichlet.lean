import Verif.Sampling
import Verif.Plot

/-!
# Vectorised Dirichlet distributions: `VectorizedDist`, `Dirichlet.dist`, `Dirichlet.plot_pdf`
-/

namespace Conj

/-- the parameter `alpha`: a vector, or a matrix with one vector per row -/
inductive AlphaArr
  | vec (alpha : List ℝ)
  | mat (rows : List (List ℝ))

/-- SciPy's `dirichlet(alpha)`: `rvs(size)` draws a matrix (as a list of rows), `mean()` -/
structure DirichletLib where
  rvs : (alpha : List ℝ) → (size : ℕ) → Draw (List (List ℝ))
  mean : (alpha : List ℝ) → List ℝ

/-- what `Dirichlet.dist` returns -/
inductive DirichletDist
  | frozen (alpha : List ℝ)
  | vectorized (params : List (List ℝ))

/-- `distributions.py:161-166` -/
def AlphaArr.dist : AlphaArr → DirichletDist
  | .vec alpha => .frozen alpha
  | .mat rows => .vectorized rows

/-- a sample: of one vector, or one sample per row -/
inductive DirichletSample
  | matrix (rows : List (List ℝ))
  | stack (blocks : List (List (List ℝ)))

/-- `.rvs(size=size)`, or `.rvs(size=size, random_state=...)` when `random_state` is `some`.
`VectorizedDist.rvs` (`distributions.py:136-137`) has no parameter `random_state`: `TypeError`.  `np.stack` of no rows
is a `ValueError`. -/
def DirichletDist.rvs (sci : Samplers Unit) (lib : DirichletLib) (size : ℕ) (random_state : Option RandomState) (w : World) :
    DirichletDist → Except PyErr (DirichletSample × World)
  | .frozen alpha =>
    let r := Conj.rvs sci (random_state.getD .none) [lib.rvs alpha size] w
    .ok (.matrix (r.1.headD []), r.2)
  | .vectorized params =>
    match random_state with
    | some _ => .error .typeError
    | none =>
      if params = [] then .error (.valueError "need at least one array to stack")
      else
        let r := rvsEach sci .none (params.map fun param => lib.rvs param size) w
        .ok (.stack r.1, r.2)

/-- `distributions.py:139-140` -/
def DirichletDist.mean (lib : DirichletLib) : DirichletDist → Except PyErr (List (List ℝ))
  | .frozen alpha => .ok [lib.mean alpha]
  | .vectorized params =>
    if params = [] then .error (.valueError "need at least one array to stack") else .ok (params.map lib.mean)

/-- the columns of a matrix with `k` columns: `samples.T` -/
def columns (k : ℕ) (rows : List (List ℝ)) : List (List ℝ) :=
  (List.range k).map fun j => rows.map fun r => r.getD j 0

/-- `plot.py:193-228` as far as it computes: the sample each curve is estimated from, with its label.
`random_state` is always passed on (line 212). -/
def Dirichlet.plot_pdf (sci : Samplers Unit) (lib : DirichletLib) (alpha : AlphaArr) (samples : ℕ)
    (random_state : RandomState) (label : Label) (w : World) : Except PyErr (List (List ℝ × Option String)) := do
  let r ← alpha.dist.rvs sci lib samples (some random_state) w
  match r.1, alpha with
  | .matrix rows, .vec a => dirichletLines (columns a.length rows) label
  | _, _ => .error .typeError

end Conj
