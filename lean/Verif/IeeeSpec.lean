import Verif.Ieee
import Verif.Params

/-!
# Specification: doubles, moderate sizes, and when two ways to compute agree
-/

namespace Conj.Spec

/-- `x` is a finite double: 53 significant bits, no bit below `2 ^ -1074`, below `2 ^ 1024` -/
def IsDouble (x : ℝ) : Prop := |x| < 2 ^ 1024 ∧ ∃ m e : ℤ, |m| ≤ 2 ^ 53 ∧ -1074 ≤ e ∧ x = m * 2 ^ e

/-- zero, or between `1e-25` and `1e25` in magnitude -/
def Moderate (x : ℝ) : Prop := x = 0 ∨ 1 / 10 ^ 25 ≤ |x| ∧ |x| ≤ 10 ^ 25

/-- an input of a model function: a double of moderate size -/
def Input (x : ℝ) : Prop := IsDouble x ∧ Moderate x

/-- every parameter computed with doubles is finite, and is the number computed with 53 bits and no bound on exponents -/
def SameNumbers {D : Type → Type} [Params D] (doubles : D F64) (floats : D (Fl (binary 53))) : Prop :=
  Params.Rel (fun (v : F64) y => v.value = some y.val) doubles floats

end Conj.Spec
