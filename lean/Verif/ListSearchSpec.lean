import Verif.EqualitySpec

/-!
# Specification: looking for a distribution
-/

namespace Conj.Spec

/-- the same class and the same parameters (numbers, flags or `None`) -/
def SameDistribution (x y : Inst) : Prop := x.cls = y.cls ∧ x.fields.map plain = y.fields.map plain

/-- The list and the object sought have only numbers, flags or `None` as parameters; instances of a class have the same
fields; there is one object at an address. -/
structure NumberList (x : Inst) (ys : List Inst) : Prop where
  sought : Plain x
  elements : ∀ y ∈ ys, Plain y
  fields : ∀ y ∈ ys, SameFields y x
  addresses : ∀ y ∈ ys, y.ref = x.ref → y = x

end Conj.Spec
