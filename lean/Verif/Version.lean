import Verif.DistMap

/-!
# The SciPy version test of `BetaNegativeBinomial.dist`
-/

namespace Conj

/-- a version as `packaging.version.parse` returns it (PEP 440); `pre` (`rc1`), `post`, `dev` and `local_`
are not part of `.release` -/
structure Version where
  epoch : ℕ := 0
  release : List ℕ
  pre : Option (String × ℕ) := none
  post : Option ℕ := none
  dev : Option ℕ := none
  local_ : Option String := none

/-- `a < b` for Python tuples of integers: the first difference decides, a proper prefix is smaller -/
def tupleLt : List ℕ → List ℕ → Bool
  | _, [] => false
  | [], _ :: _ => true
  | x :: l, y :: m => if x < y then true else if x = y then tupleLt l m else false

/-- `distributions.py:377-383`; `scipy` is `version.parse(scipy_version)` -/
noncomputable def BetaNegativeBinomial.distProperty (scipy : Version) (self : BetaNegativeBinomial ℝ) :
    Except PyErr Scipy.Disc :=
  if tupleLt scipy.release [1, 12, 0] then
    .error (.notImplemented "BetaNegativeBinomial.dist requires scipy >= 1.12.0")
  else .ok self.dist

end Conj
