import Verif.MemorySpec
import Verif.Models

/-!
# Dirichlet models in memory
-/

namespace Conj

/-- `distributions.py:143-152` -/
instance : Params Dirichlet where
  fmap f d := { alpha := f d.alpha }
  All p d := p d.alpha
  Rel R d d' := R d.alpha d'.alpha

/-- `distributions.py:143-152`: the argument of the constructor -/
instance : Trav Dirichlet where
  seq d := do
    let alpha ← d.alpha
    return { alpha := alpha }

/-- `distributions.py:187-198`, with the same kind of values for both parameters -/
abbrev DirichletMultinomialOf (A : Type) : Type := DirichletMultinomial A A

/-- `distributions.py:187-198` -/
instance : Params DirichletMultinomialOf where
  fmap f d := { alpha := f d.alpha, n := f d.n }
  All p d := p d.alpha ∧ p d.n
  Rel R d d' := R d.alpha d'.alpha ∧ R d.n d'.n

/-- `models.py:476-479`, `558-561`: the arguments of the constructor, in the order of the call -/
instance : Trav DirichletMultinomialOf where
  seq d := do
    let n ← d.n
    let alpha ← d.alpha
    return { alpha := alpha, n := n }

/-- `models.py:430-434` on values in memory.  Simplification: only for arguments that `+` accepts, as the theorems
assume; then `+` does not raise and the list comprehension is not reached (for it see `Verif/PyVal.lean`). -/
noncomputable instance instPySeqMemory : PySeq (Py Val) where
  tryAdd a x := .ok (a + x)
  zipAdd _ _ := .error .typeError

end Conj
