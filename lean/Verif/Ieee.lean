import Verif.Float

/-!
# Double precision numbers

`F64` is `np.float64` (IEEE 754 binary64) as a number type for the model functions: signed zeros, subnormal numbers,
overflow to infinity, `nan`. Numpy's warnings are not modelled. Plain Python floats are the same numbers, but raise
where a division by zero or a power gives an infinity here (`Verif/Checked.lean` has the division).
-/

namespace Conj

/-- a double: `num x` is the nonzero number `x` -/
inductive F64
  | nan
  | inf (neg : Bool)
  | zero (neg : Bool)
  | num (x : ℝ)

namespace F64

/-- the number a double stands for, if it is finite -/
def value : F64 → Option ℝ
  | .zero _ => some 0
  | .num x => some x
  | _ => none

/-- the double written as a literal: `0` is the positive zero -/
noncomputable def ofReal (x : ℝ) : F64 := open Classical in if x = 0 then .zero false else .num x

/-- the sign bit of a double that is not `nan` -/
noncomputable def sign : F64 → Bool
  | .nan => false
  | .inf s => s
  | .zero s => s
  | .num x => open Classical in decide (x < 0)

/-- the exponent of the last bit: 53 significant bits, but no bit below `2 ^ -1074` -/
noncomputable def lastBit (x : ℝ) : ℤ := max (Int.log 2 |x| - 52) (-1074)

/-- an exact nonzero result is rounded to the nearest double, ties to even; what rounds to `2 ^ 1024` or more is an
infinity, what rounds to zero keeps its sign -/
noncomputable def round (x : ℝ) : F64 :=
  let m := roundHalfEven (x / 2 ^ lastBit x)
  open Classical in
  if m = 0 then .zero (decide (x < 0))
  else if 2 ^ 1024 ≤ |m * (2 : ℝ) ^ lastBit x| then .inf (decide (x < 0))
  else .num (m * 2 ^ lastBit x)

/-- IEEE 754 addition; an exact zero sum of numbers of opposite sign is the positive zero -/
noncomputable def add : F64 → F64 → F64
  | .nan, _ => .nan
  | _, .nan => .nan
  | .inf s, .inf t => if s = t then .inf s else .nan
  | .inf s, _ => .inf s
  | _, .inf t => .inf t
  | .zero s, .zero t => .zero (s && t)
  | .zero _, .num y => .num y
  | .num x, .zero _ => .num x
  | .num x, .num y => open Classical in if x + y = 0 then .zero false else round (x + y)

/-- IEEE 754 negation -/
noncomputable def neg : F64 → F64
  | .nan => .nan
  | .inf s => .inf (!s)
  | .zero s => .zero (!s)
  | .num x => .num (-x)

/-- IEEE 754 multiplication -/
noncomputable def mul (a b : F64) : F64 :=
  match a, b with
  | .nan, _ => .nan
  | _, .nan => .nan
  | .inf _, .zero _ => .nan
  | .zero _, .inf _ => .nan
  | .inf _, _ => .inf (a.sign != b.sign)
  | _, .inf _ => .inf (a.sign != b.sign)
  | .zero _, _ => .zero (a.sign != b.sign)
  | _, .zero _ => .zero (a.sign != b.sign)
  | .num x, .num y => round (x * y)

/-- IEEE 754 division -/
noncomputable def div (a b : F64) : F64 :=
  match a, b with
  | .nan, _ => .nan
  | _, .nan => .nan
  | .inf _, .inf _ => .nan
  | .zero _, .zero _ => .nan
  | .inf _, _ => .inf (a.sign != b.sign)
  | _, .inf _ => .zero (a.sign != b.sign)
  | .zero _, _ => .zero (a.sign != b.sign)
  | _, .zero _ => .inf (a.sign != b.sign)
  | .num x, .num y => round (x / y)

/-- `x ** c` for a literal `c`, taken to be rounded correctly. Odd integers are the exponents that keep a sign. -/
noncomputable def pow (a : F64) (c : ℚ) : F64 :=
  if c = 0 then .num 1
  else
    let s := a.sign && decide (c.den = 1 ∧ Odd c.num)
    match a with
    | .nan => .nan
    | .inf _ => if 0 < c then .inf s else .zero s
    | .zero _ => if 0 < c then .zero s else .inf s
    | .num x => open Classical in if x < 0 ∧ c.den ≠ 1 then .nan else round (x ^ (c : ℝ))

/-- `np.maximum`: a `nan` on either side is the result -/
noncomputable def maximum (a b : F64) : F64 :=
  match a, b with
  | .nan, _ => .nan
  | _, .nan => .nan
  | .inf false, _ => .inf false
  | _, .inf false => .inf false
  | .inf true, b => b
  | a, .inf true => a
  | a, b => open Classical in if (a.value.getD 0) < (b.value.getD 0) then b else a

end F64

/-- `conjugate/_typing.py:4-19` for `np.float64` -/
noncomputable instance instPyNumF64 : PyNum F64 where
  add := F64.add
  sub a b := F64.add a b.neg
  mul := F64.mul
  div := F64.div
  lit q := if q = 0 then .zero false else F64.round q
  powq := F64.pow

end Conj
