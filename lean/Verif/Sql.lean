import Verif.Num
import Verif.SqlSpec

/-!
# Model inputs that are PyPika terms

`docs/examples/sql.md`, `docs/examples/generalized-inputs.md:43-79`: data and prior may be PyPika terms. An operator on
two Python numbers computes; with a term on either side it builds a term. PyPika 0.48.9 (`poetry.lock:1642`) is modelled
from its source: `Term.__add__`, ... and `ArithmeticExpression.get_sql`.
-/

namespace Conj

open Spec.Sql (Tok)

/-- the operators of PyPika's `Arithmetic` -/
inductive ArithOp
  | add | sub | mul | div
  deriving DecidableEq

/-- a PyPika term: a wrapped Python number (`isFloat` decides how it is written), a field or aggregate, an
`ArithmeticExpression`, or `functions.Pow` with a number for exponent -/
inductive Term
  | num (x : ℝ) (isFloat : Bool)
  | field (name : String)
  | arith (op : ArithOp) (left right : Term)
  | pow (term : Term) (exponent : ℝ) (isFloat : Bool)

/-- `getattr(side, "operator", None)` -/
def Term.operator : Term → Option ArithOp
  | .arith op _ _ => some op
  | _ => none

/-- `ArithmeticExpression.add_order = [Arithmetic.add, Arithmetic.sub]` -/
def ArithOp.isAddOrder : ArithOp → Bool
  | .add => true
  | .sub => true
  | _ => false

/-- `ArithmeticExpression.left_needs_parens` -/
def leftNeedsParens (curr : ArithOp) : Option ArithOp → Bool
  | none => false
  | some op => if curr.isAddOrder then false else op.isAddOrder

/-- `ArithmeticExpression.right_needs_parens` -/
def rightNeedsParens (curr : ArithOp) : Option ArithOp → Bool
  | none => false
  | some op => if curr = .add then false else if curr = .div then true else op.isAddOrder

/-- `str` of a number: a minus sign and the digits -/
noncomputable def numText (x : ℝ) (isFloat : Bool) : List Tok :=
  open Classical in if x < 0 then [.minus, .num (-x) isFloat] else [.num x isFloat]

/-- the operator sign -/
def ArithOp.text : ArithOp → Tok
  | .add => .plus
  | .sub => .minus
  | .mul => .times
  | .div => .slash

/-- `"({})" if … else "{}"` -/
def parens (needed : Bool) (text : List Tok) : List Tok := if needed then .lparen :: (text ++ [.rparen]) else text

/-- `get_sql`: the text of a term -/
noncomputable def Term.text : Term → List Tok
  | .num x f => numText x f
  | .field s => [.col s]
  | .arith op l r =>
    parens (leftNeedsParens op l.operator) l.text ++ op.text :: parens (rightNeedsParens op r.operator) r.text
  | .pow t q f => .pow :: (t.text ++ .comma :: (numText q f ++ [.rparen]))

/-- a Python number or a PyPika term -/
inductive SqlVal
  | num (x : ℝ) (isFloat : Bool)
  | term (t : Term)

/-- `Term.wrap_constant` -/
def SqlVal.wrap : SqlVal → Term
  | .num x f => .num x f
  | .term t => t

/-- an operator: numbers are computed (exactly, a simplification), anything else becomes a term; `/` of numbers is a float -/
def SqlVal.op (o : ArithOp) (f : ℝ → ℝ → ℝ) : SqlVal → SqlVal → SqlVal
  | .num x a, .num y b => .num (f x y) (a || b || o = .div)
  | l, r => .term (.arith o l.wrap r.wrap)

/-- `value ** q` for a literal `q` -/
noncomputable def SqlVal.pow : SqlVal → ℚ → SqlVal
  | .num x a, q => .num (x ^ (q : ℝ)) (a || q.den ≠ 1 || q < 0)
  | .term t, q => .term (.pow t q (q.den ≠ 1))

/-- Python numbers and PyPika terms as model inputs -/
noncomputable instance : PyNum SqlVal where
  add := SqlVal.op .add (· + ·)
  sub := SqlVal.op .sub (· - ·)
  mul := SqlVal.op .mul (· * ·)
  div := SqlVal.op .div (· / ·)
  lit q := .num q (q.den ≠ 1)
  powq := SqlVal.pow

/-- the text of a value in a query -/
noncomputable def SqlVal.text (v : SqlVal) : List Tok := v.wrap.text

end Conj
