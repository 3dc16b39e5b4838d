import Verif.NdArr
import Verif.Params

/-!
# Specification of vectorised calls
-/

namespace Conj
namespace Spec

variable {β : Type}

/-- a function of numbers applied to array expressions, as a numpy ufunc does -/
def ufunc1 (f : β → β) (e : ArrExpr β) : ArrExpr β := Except.map (NdArr.map f) e

/-- a binary ufunc -/
def ufunc2 (f : β → β → β) (e e' : ArrExpr β) : ArrExpr β :=
  Except.bind e fun x => Except.bind e' fun y => NdArr.op f x y

/-- The call succeeded; every parameter of the result is an array that can be broadcast to `S`,
and at every index of `S` the parameters are those of the scalar distribution `scal idx`. -/
def ActsElementwise {D : Type → Type} [Params D] (S : List ℕ) (result : D (ArrExpr β))
    (scal : List ℕ → D β) : Prop :=
  ∃ post : D (NdArr β), result = fmap Except.ok post ∧
    Params.All (fun a => NdArr.FitsIn a.rshape S) post ∧
    ∀ idx, NdArr.InShape idx S → fmap (fun a => a.atIdx idx) post = scal idx

/-- `e` evaluates to an array whose shape is the broadcast of the shapes `used`: it fits exactly
the shapes all of them fit; when the shapes in `used` are incompatible it is a `ValueError`. -/
def HasShapeOf (e : ArrExpr β) (used : List (NdArr β)) : Prop :=
  (∀ S, (∃ a, e = .ok a ∧ NdArr.FitsIn a.rshape S) ↔ ∀ s ∈ used, NdArr.FitsIn s.rshape S) ∧
  ((¬ ∃ S, ∀ s ∈ used, NdArr.FitsIn s.rshape S) → ∃ msg, e = .error (.valueError msg))

/-! ## Indexing -/

/-- the same array: same shape, same entries -/
def SameArr (a b : NdArr β) : Prop :=
  a.rshape = b.rshape ∧ ∀ idx, NdArr.InShape idx a.rshape → a.get idx = b.get idx

/-- the same outcome: the same array or the same exception -/
def SameOutcome (e e' : ArrExpr β) : Prop := ExceptRel SameArr e e'

/-- an argument that can be indexed together with the others: a number, or an array of rank
`r + 1` whose first axis has length `L` -/
def SliceArg (r L : ℕ) (a : NdArr β) : Prop :=
  a.rshape = [] ∨ ∃ s : List ℕ, s.length = r ∧ a.rshape = s ++ [L]

end Spec
end Conj
