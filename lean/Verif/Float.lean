import Verif.Models
import Mathlib.Data.Int.Log

/-!
# Floating point numbers

`Fl F` is a number type for the model functions: every operation computes the real result and
rounds it.  How results are rounded is the parameter `F`; `binary p` rounds to `p` significant
bits, ties to even, as IEEE 754 does (`binary 53` for Python floats and `np.float64`, `binary 24`
for `np.float32`).  The exponent is not bounded: overflow, underflow, infinities and `nan` are not
modelled, and a division by zero is not an exception here (`Verif/Checked.lean` has those).
-/

namespace Conj

/-- how a float system rounds the result of `+ - * /` and of a literal, and its `**` -/
structure FloatArith where
  rnd : ℝ → ℝ
  pow : ℝ → ℚ → ℝ

/-- a float of the system `F` -/
@[ext] structure Fl (F : FloatArith) where
  val : ℝ

/-- `conjugate/_typing.py:4-19` for floats: each operator rounds -/
noncomputable instance instPyNumFl (F : FloatArith) : PyNum (Fl F) where
  add a b := ⟨F.rnd (a.val + b.val)⟩
  sub a b := ⟨F.rnd (a.val - b.val)⟩
  mul a b := ⟨F.rnd (a.val * b.val)⟩
  div a b := ⟨F.rnd (a.val / b.val)⟩
  lit q := ⟨F.rnd q⟩
  powq a c := ⟨F.pow a.val c⟩

/-- to the nearest integer, ties to even -/
noncomputable def roundHalfEven (x : ℝ) : ℤ :=
  if Int.fract x < 1 / 2 then ⌊x⌋
  else if 1 / 2 < Int.fract x then ⌊x⌋ + 1
  else if Even ⌊x⌋ then ⌊x⌋ else ⌊x⌋ + 1

/-- to `p` significant bits: `x / 2 ^ e` has `p` bits before the point -/
noncomputable def roundBits (p : ℕ) (x : ℝ) : ℝ :=
  if x = 0 then 0
  else
    let e := Int.log 2 |x| - (p - 1)
    roundHalfEven (x / 2 ^ e) * 2 ^ e

/-- binary floats with `p` significant bits; `**` is taken to be rounded correctly -/
noncomputable def binary (p : ℕ) : FloatArith where
  rnd := roundBits p
  pow x c := roundBits p (x ^ (c : ℝ))

namespace Fl
variable {F : FloatArith}

@[simp] theorem add_val (a b : Fl F) : (a + b).val = F.rnd (a.val + b.val) := rfl
@[simp] theorem sub_val (a b : Fl F) : (a - b).val = F.rnd (a.val - b.val) := rfl
@[simp] theorem mul_val (a b : Fl F) : (a * b).val = F.rnd (a.val * b.val) := rfl
@[simp] theorem div_val (a b : Fl F) : (a / b).val = F.rnd (a.val / b.val) := rfl
@[simp] theorem lit_val (q : ℚ) : (lit q : Fl F).val = F.rnd q := rfl
@[simp] theorem powq_val (a : Fl F) (c : ℚ) : (powq a c).val = F.pow a.val c := rfl

end Fl

end Conj
