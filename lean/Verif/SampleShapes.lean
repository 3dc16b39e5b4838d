import Verif.NdArr

/-!
# Shapes of the samples

Shapes are in numpy order (first axis first) except where `rshape` is written.  SciPy's rules used here:
a univariate `rvs(size=n)` has shape `(n,)`; `multivariate_normal.rvs`, `wishart.rvs` and `invwishart.rvs` remove every
axis of length one from `(size, ...)` (`_squeeze_output`); `np.linalg.inv` needs two axes.
-/

namespace Conj

/-- a numpy shape -/
abbrev Shape := List ℕ

/-- numpy's `squeeze`: drops the axes of length one -/
def squeeze (s : Shape) : Shape := s.filter (· ≠ 1)

/-- `np.stack` of arrays of these shapes -/
def stackShape : List Shape → Except PyErr Shape
  | [] => .error (.valueError "need at least one array to stack")
  | s :: l => if l.all (· = s) then .ok ((l.length + 1) :: s)
    else .error (.valueError "all input arrays must have the same shape")

/-- `multivariate_normal(mean, cov).rvs(size=1)` in `d` dimensions -/
def mvnOneShape (d : ℕ) : Shape := squeeze [1, d]

/-- `wishart(df, scale).rvs(size=size)`, also `invwishart` -/
def wishartShape (size d : ℕ) : Shape := squeeze [size, d, d]

/-- iterating over an array: the shapes of its entries along the first axis -/
def iterShape : Shape → List Shape
  | [] => []
  | n :: s => List.replicate n s

/-- `distributions.py:591-602` -/
def NIG.varianceShape (size : ℕ) : Shape := [size]

/-- `distributions.py:604-606`: a univariate normal with a vector of `size` scales -/
def NIG.beta1dShape (size : ℕ) : Shape := [size]

/-- `distributions.py:609`: `(delta_inverse[None, ...].T * variance).T`: `(d, d, 1)` times `(size,)`,
reversed -/
def NIG.scaledShape (size d : ℕ) : Except PyErr Shape :=
  match NdArr.bcast [1, d, d] [size] with
  | none => .error (.valueError "operands could not be broadcast together")
  | some u => .ok u  -- `rshape` of the product, so the shape of its transpose

/-- `distributions.py:608-617` -/
def NIG.betaNdShape (size d : ℕ) : Except PyErr Shape := do
  let v ← NIG.scaledShape size d
  stackShape ((iterShape v).map fun _ => mvnOneShape d)

/-- `np.linalg.inv` -/
def invShape (s : Shape) : Except PyErr Shape := if 2 ≤ s.length then .ok s else .error .linAlg

/-- `distributions.py:1142-1168` -/
def NW.varianceShape (size d : ℕ) : Except PyErr Shape := do
  let variance ← invShape (wishartShape size d)
  return if size = 1 then 1 :: variance else variance

/-- `distributions.py:1236-1256` -/
def NIW.varianceShape (size d : ℕ) : Except PyErr Shape :=
  let variance := wishartShape size d
  .ok (if size = 1 then 1 :: variance else variance)

/-- `distributions.py:1189-1198`, `1276-1285`: one `rvs(size=1)` per covariance -/
def meanShape (variance : Except PyErr Shape) (d : ℕ) : Except PyErr Shape := do
  let v ← variance
  stackShape ((iterShape v).map fun _ => mvnOneShape d)

/-! ## `rvs` of the hand-written distributions -/

/-- the argument `size` -/
inductive SizeArg
  | none
  | int (k : ℕ)
  | tuple (rshape : List ℕ)

/-- `size or ()` as a shape, last axis first: `None`, `0` and `()` are falsy -/
def SizeArg.orEmpty : SizeArg → List ℕ
  | .none => []
  | .int 0 => []
  | .int (k + 1) => [k + 1]
  | .tuple s => s

/-- `np.broadcast_shapes`, last axis first -/
def broadcastShapes : List (List ℕ) → Except PyErr (List ℕ)
  | [] => .ok []
  | s :: l => do
    let t ← broadcastShapes l
    match NdArr.bcast s t with
    | none => .error (.valueError "shape mismatch: objects cannot be broadcast to a single shape")
    | some u => .ok u

/-- SciPy's `squeeze_left`: axes of length one in front are dropped (last axis first: at the end of the list) -/
def squeezeLeft : List ℕ → List ℕ
  | [] => []
  | d :: s => if d = 1 ∧ squeezeLeft s = [] then [] else d :: squeezeLeft s

/-- SciPy's test of the shape of the parameters against `size`, axis by axis; missing axes count as one -/
def sizeMatches : List ℕ → List ℕ → Bool
  | [], _ => true
  | b :: bs, [] => (b = 1) && sizeMatches bs []
  | b :: bs, s :: ss => (b = 1 || b = s) && sizeMatches bs ss

/-- SciPy's `rvs(params, size=size)` (`_argcheck_rvs`): the parameters are broadcast against each other and their leading
axes of length one dropped; without `size` the result has that shape; with `size` it has the shape `size`, which the
parameters must match. -/
def scipyRvsShape (params : List (List ℕ)) (size : Option (List ℕ)) : Except PyErr (List ℕ) := do
  let bcast := squeezeLeft (← broadcastShapes params)
  let size := size.getD bcast
  if sizeMatches bcast size then .ok (size ++ List.replicate (bcast.length - size.length) 1)
  else .error (.valueError "`size` does not match the broadcast shape of the parameters")

/-- `_beta_geometric.py:31-46`: `a`, `b` are broadcast against each other first -/
def BetaGeometric.rvsShape (a b : List ℕ) (size : SizeArg) : Except PyErr (List ℕ) := do
  let ab ← broadcastShapes [a, b]
  let size ← broadcastShapes [ab, ab, size.orEmpty]
  let p ← scipyRvsShape [ab, ab] (some size)
  scipyRvsShape [p] (some size)

/-- `_compound_gamma.py:24-34`; the second `rvs` is called without `size` -/
def CompoundGamma.rvsShape (a b q : List ℕ) (size : SizeArg) : Except PyErr (List ℕ) := do
  let abq ← broadcastShapes [a, b, q]
  let size ← broadcastShapes [abq, abq, abq, size.orEmpty]
  let random_b ← scipyRvsShape [abq, abq] (some size)
  scipyRvsShape [abq, random_b] none

end Conj
