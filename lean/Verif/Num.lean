import Mathlib.Analysis.SpecialFunctions.Pow.Real
import Mathlib.Analysis.SpecialFunctions.Sqrt

/-!
# Numbers

`conjugate/_typing.py:4-19` declares `NUMERIC` as a protocol: anything that has the
arithmetic operators.  The model functions of `conjugate/models.py` are generic in it.
`PyNum` is that protocol: the four operators, Python literals and `x ** c` with a
literal exponent `c` (the only form of `**` the model functions use).
-/

namespace Conj

/-- Python exceptions the library (or Python itself under it) can raise.
Only the class is kept, plus the message where the library chooses it. -/
inductive PyErr
  | valueError (msg : String)
  | typeError
  | attributeError
  | indexError
  | zeroDivision
  | notImplemented (msg : String)
  | linAlg
  | overflow
  /-- not an exception: marks a numpy result whose entries are `nan` -/
  | nanResult
  deriving DecidableEq, Repr

/-- `conjugate/_typing.py:4-19`: the `NUMERIC` protocol. `lit q` is a Python numeric
literal (every literal of the modelled code is rational), `powq x c` is `x ** c`. -/
class PyNum (α : Type*) extends Add α, Sub α, Mul α, Div α where
  lit : ℚ → α
  powq : α → ℚ → α

export PyNum (lit powq)

/-- Ideal floats: real numbers. `x ** c` is `Real.rpow` (for a negative base and
fractional exponent Python leaves the reals: see `Verif/Checked.lean`). -/
noncomputable instance instPyNumReal : PyNum ℝ where
  toAdd := inferInstance
  toSub := inferInstance
  toMul := inferInstance
  toDiv := inferInstance
  lit q := (q : ℝ)
  powq x q := x ^ (q : ℝ)

section RealLemmas

@[simp] theorem lit_real (q : ℚ) : (lit q : ℝ) = (q : ℝ) := rfl

theorem powq_real (x : ℝ) (q : ℚ) : powq x q = x ^ (q : ℝ) := rfl

@[simp] theorem powq_two (x : ℝ) : powq x 2 = x ^ 2 := by
  rw [powq_real]; norm_num

@[simp] theorem powq_half (x : ℝ) : powq x (1 / 2) = Real.sqrt x := by
  rw [powq_real, Real.sqrt_eq_rpow]; norm_num

@[simp] theorem powq_half' (x : ℝ) : powq x 2⁻¹ = Real.sqrt x := by
  rw [← powq_half, one_div]

@[simp] theorem powq_neg_half (x : ℝ) (hx : 0 ≤ x) : powq x (-1 / 2) = (Real.sqrt x)⁻¹ := by
  rw [powq_real, Real.sqrt_eq_rpow, ← Real.rpow_neg hx]; norm_num

end RealLemmas

end Conj
