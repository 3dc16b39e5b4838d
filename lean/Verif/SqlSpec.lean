import Mathlib.Analysis.SpecialFunctions.Pow.Real

/-!
# Specification: what a database makes of the text of an arithmetic expression

The grammar of SQL value expressions, read from left to right: `*` and `/` bind tighter than `+` and `-`, operators of
one level associate to the left, a minus where an operand is expected is a sign, `--` starts a comment that goes to the
end of the line. Independent of the model.
-/

namespace Conj.Spec.Sql

/-- the tokens of an expression; `num x true` is written with a decimal point or exponent, `num x false` without one;
`pow` is `POW(`; `col` is a column or an aggregate such as `COUNT(*)` -/
inductive Tok
  | num (x : ℝ) (decimal : Bool)
  | col (name : String)
  | plus | minus | times | slash | lparen | rparen | comma | pow

/-- a database's arithmetic -/
structure Arith (V : Type) where
  lit : ℝ → Bool → V
  neg : V → V
  add : V → V → V
  sub : V → V → V
  mul : V → V → V
  div : V → V → V
  pow : V → V → V

/-- a database whose division is division -/
noncomputable def real : Arith ℝ where
  lit x _ := x
  neg := Neg.neg
  add := (· + ·)
  sub := (· - ·)
  mul := (· * ·)
  div := (· / ·)
  pow := (· ^ ·)

/-- a number with its SQL type -/
inductive Num
  | int (z : ℤ)
  | dec (x : ℝ)

/-- the number -/
def Num.val : Num → ℝ
  | .int z => z
  | .dec x => x

/-- an operation on numbers that keeps integers -/
def Num.op (f : ℤ → ℤ → ℤ) (g : ℝ → ℝ → ℝ) : Num → Num → Num
  | .int a, .int b => .int (f a b)
  | a, b => .dec (g a.val b.val)

/-- a database in which the quotient of two integers is an integer (PostgreSQL, SQLite, SQL Server) -/
noncomputable def integerDivision : Arith Num where
  lit x d := if d then .dec x else .int ⌊x⌋
  neg a := match a with
    | .int z => .int (-z)
    | .dec x => .dec (-x)
  add := Num.op (· + ·) (· + ·)
  sub := Num.op (· - ·) (· - ·)
  mul := Num.op (· * ·) (· * ·)
  div := Num.op Int.tdiv (· / ·)
  pow a b := .dec (a.val ^ b.val)

/-- the text up to the first `--` -/
def uncommented : List Tok → List Tok
  | .minus :: .minus :: _ => []
  | t :: r => t :: uncommented r
  | [] => []

variable {V : Type}

/-- what has been read before an operand: a sum to add it to or subtract it from, a product to multiply it with or
divide by it, a sign -/
structure Ctx (V : Type) where
  add : Option (Bool × V) := none
  mul : Option (Bool × V) := none
  neg : Bool := false

/-- what has been opened: a parenthesis, `POW(` before or after its comma -/
inductive Frame (V : Type)
  | paren
  | pow1
  | pow2 (a : V)

/-- the product after the next operand -/
def Ctx.operand (A : Arith V) (c : Ctx V) (v : V) : V :=
  let w := if c.neg then A.neg v else v
  match c.mul with
  | none => w
  | some (false, m) => A.mul m w
  | some (true, m) => A.div m w

/-- the sum after the last product -/
def finish (A : Arith V) (add : Option (Bool × V)) (m : V) : V :=
  match add with
  | none => m
  | some (false, s) => A.add s m
  | some (true, s) => A.sub s m

/-- either an operand is expected, or one has just been read: the sum before it and the product it belongs to -/
inductive State (V : Type)
  | wait (c : Ctx V)
  | after (add : Option (Bool × V)) (m : V)

/-- reading a text from left to right; `none` is a syntax error -/
def scan (A : Arith V) (row : String → V) : List (Frame V × Ctx V) → State V → List Tok → Option V
  | st, .wait c, .num x d :: r => scan A row st (.after c.add (c.operand A (A.lit x d))) r
  | st, .wait c, .col s :: r => scan A row st (.after c.add (c.operand A (row s))) r
  | st, .wait c, .minus :: r => if c.neg then none else scan A row st (.wait { c with neg := true }) r
  | st, .wait c, .lparen :: r => scan A row ((.paren, c) :: st) (.wait {}) r
  | st, .wait c, .pow :: r => scan A row ((.pow1, c) :: st) (.wait {}) r
  | st, .after a m, .times :: r => scan A row st (.wait { add := a, mul := some (false, m) }) r
  | st, .after a m, .slash :: r => scan A row st (.wait { add := a, mul := some (true, m) }) r
  | st, .after a m, .plus :: r => scan A row st (.wait { add := some (false, finish A a m) }) r
  | st, .after a m, .minus :: r => scan A row st (.wait { add := some (true, finish A a m) }) r
  | (.pow1, c) :: st, .after a m, .comma :: r => scan A row ((.pow2 (finish A a m), c) :: st) (.wait {}) r
  | (.paren, c) :: st, .after a m, .rparen :: r => scan A row st (.after c.add (c.operand A (finish A a m))) r
  | (.pow2 x, c) :: st, .after a m, .rparen :: r =>
    scan A row st (.after c.add (c.operand A (A.pow x (finish A a m)))) r
  | [], .after a m, [] => some (finish A a m)
  | _, _, _ => none

/-- the value of a text on a row (a group with its aggregates); `none` is a syntax error -/
def value (A : Arith V) (row : String → V) (text : List Tok) : Option V := scan A row [] (.wait {}) (uncommented text)

/-- the text has no comment in it and its value on the row is `x` -/
def Means (row : String → ℝ) (text : List Tok) (x : ℝ) : Prop :=
  uncommented text = text ∧ value real row text = some x

/-- a text that means `x` and does not begin with a minus sign -/
def Operand (row : String → ℝ) (text : List Tok) (x : ℝ) : Prop := Means row text x ∧ text.head? ≠ some .minus

/-- `a - b * c` and `a - b - c` -/
example (row : String → ℝ) :
    value real row [.col "a", .minus, .col "b", .times, .col "c"] = some (row "a" - row "b" * row "c") ∧
    value real row [.col "a", .minus, .col "b", .minus, .col "c"] = some (row "a" - row "b" - row "c") ∧
    value real row [.col "a", .slash, .lparen, .num 1 false, .plus, .minus, .num 2 false, .rparen] =
      some (row "a" / (1 + -2)) := ⟨rfl, rfl, rfl⟩

/-- a comment: `a --1` is `a` -/
example (row : String → ℝ) : value real row [.col "a", .minus, .minus, .num 1 false] = some (row "a") := rfl

/-- `1 / 2` in integers -/
example (row : String → Num) : value integerDivision row [.num 1 false, .slash, .num 2 false] = some (.int 0) := by
  simp [value, uncommented, scan, finish, Ctx.operand, integerDivision, Num.op]

end Conj.Spec.Sql
