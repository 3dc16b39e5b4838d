import Verif.Num

/-!
# Expression objects as model inputs

`conjugate/_typing.py:4-19`: anything with the arithmetic operators may be passed.  `docs/examples/sql.md`
and `docs/examples/generalized-inputs.md` pass expression objects (pypika SQL terms, polars
columns, PyMC variables): an operator builds a node of an expression tree, nothing is computed.
-/

namespace Conj

/-- an expression object: a column, a literal, an operator applied to two expressions, a power with a
literal exponent or a function call (such as SQL `LN`) -/
inductive Expr
  | field (name : String)
  | literal (q : ℚ)
  | add (a b : Expr)
  | sub (a b : Expr)
  | mul (a b : Expr)
  | div (a b : Expr)
  | pow (a : Expr) (q : ℚ)
  | call1 (f : String) (a : Expr)
  | call2 (f : String) (a b : Expr)

/-- operators on expression objects build trees -/
instance : PyNum Expr where
  add := .add
  sub := .sub
  mul := .mul
  div := .div
  lit := .literal
  powq := .pow

/-- what the database (or dataframe engine) supplies: the row and the meaning of function names -/
structure Row (β : Type) where
  field : String → β
  fn1 : String → β → β
  fn2 : String → β → β → β

/-- evaluation of an expression on a row -/
def Expr.eval {β : Type} [PyNum β] (row : Row β) : Expr → β
  | .field s => row.field s
  | .literal q => lit q
  | .add a b => a.eval row + b.eval row
  | .sub a b => a.eval row - b.eval row
  | .mul a b => a.eval row * b.eval row
  | .div a b => a.eval row / b.eval row
  | .pow a q => powq (a.eval row) q
  | .call1 f a => row.fn1 f (a.eval row)
  | .call2 f a b => row.fn2 f (a.eval row) (b.eval row)

end Conj
