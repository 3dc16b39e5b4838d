import Verif.PyVal

/-!
# Specification: sequences
-/

namespace Conj.Spec

/-- a numpy array -/
def IsArray {α : Type} (v : SeqVal α) : Prop := ∃ l, v = .arr l

/-- a list, a tuple or an array, not a number -/
def IsSequence {α : Type} (v : SeqVal α) : Prop := ∃ l, v = .list l ∨ v = .tuple l ∨ v = .arr l

/-- the entries; a number counts as one entry -/
def entries {α : Type} : SeqVal α → List α
  | .num x => [x]
  | .list l => l
  | .tuple l => l
  | .arr l => l

/-- numpy can add them entry by entry -/
def Broadcast {α : Type} (v w : SeqVal α) : Prop :=
  (entries v).length = (entries w).length ∨ (entries v).length = 1 ∨ (entries w).length = 1

end Conj.Spec
