import Verif.Equality

/-!
# Specification: equal parameters
-/

namespace Conj.Spec

open Conj

/-- a number, flag or `None`, as a number or nothing -/
def plain : Cell → Option (Option ℝ)
  | .num x => some (some x)
  | .flag b => some (some (if b then 1 else 0))
  | .none => some none
  | _ => none

/-- all fields are numbers, flags or `None` -/
def Plain (x : Inst) : Prop := ∀ c ∈ x.fields, (plain c).isSome

/-- instances of a class have the same fields -/
def SameFields (x y : Inst) : Prop := x.cls = y.cls → x.fields.length = y.fields.length

/-- the two fields hold the same number, flag, `None`, or arrays with the same shape and entries -/
def SameValue : Cell → Cell → Prop
  | .arr _ a, .arr _ b => a.rshape = b.rshape ∧ ∀ i, NdArr.InShape i a.rshape → a.get i = b.get i
  | x, y => (plain x).isSome ∧ plain x = plain y

/-- the two fields hold different arrays (not one array under two names) without a truth value, having no entries or more
than one -/
def Apart : Cell → Cell → Prop
  | .arr r a, .arr s _ => r ≠ s ∧ a.rshape.prod ≠ 1
  | _, _ => False

/-- whatever the addresses of the two objects and of their arrays, `==` returns `True` if `P` holds and `False` if not -/
def EqDecides (v : Python) (o o' : Obj ℝ) (P : Prop) : Prop :=
  ∀ (r s : ℕ) (refs refs' : String → ℕ), r ≠ s →
    (P → pyEq v (o.inst r refs) (o'.inst s refs') = .ok (.bool true)) ∧
    (¬ P → pyEq v (o.inst r refs) (o'.inst s refs') = .ok (.bool false))

end Conj.Spec
