import Verif.ToObj
import Verif.Params

/-!
# `==` between distributions

Every class is a plain `@dataclass` (`distributions.py:65`, `105`, ..., `1310`), so `==` is the method the decorator
writes: NotImplemented (which Python turns into `False`) for another class, otherwise the comparison of the fields.  Up to
Python 3.12 the fields are compared as tuples, which takes two references to the same object for equal without asking
it; since 3.13 as `self.a == other.a and self.b == other.b`.  Plot bounds are not fields.

Objects are told apart by a number, their address.  Simplifications: entries of arrays are numbers other than nan;
comparing arrays whose shapes do not broadcast raises (numpy 1.25 and later); the truth of an array without entries raises
(numpy 2.2 and later).
-/

namespace Conj

/-- the value of a field -/
inductive Cell
  /-- an `int`, `float` or numpy number, not nan -/
  | num (x : ℝ)
  | nan (ref : ℕ)
  | flag (b : Bool)
  /-- `None` -/
  | none
  | arr (ref : ℕ) (a : NdArr ℝ)
  /-- a SQL term (docs/examples/sql.md): its `==` builds the SQL condition -/
  | term (ref : ℕ)

/-- an instance: address, class, values of the fields in order, other attributes (the plot bounds, `plot.py:76-104`) -/
structure Inst where
  ref : ℕ
  cls : String
  fields : List Cell
  attrs : List (String × ℝ)

/-- what a comparison returns -/
inductive Compared
  | bool (b : Bool)
  | array (rshape : List ℕ) (get : List ℕ → Bool)
  /-- a SQL condition -/
  | condition

/-- `bool(c)`: an array has a truth value only with exactly one entry; a condition is an object like any other, so true -/
def Compared.truth : Compared → Except PyErr Bool
  | .bool b => .ok b
  | .array rshape get =>
    if rshape.prod = 1 then .ok (get (rshape.map fun _ => 0))
    else .error (.valueError "The truth value of an array with more than one element is ambiguous")
  | .condition => .ok true

open Classical in
/-- numpy's `a == b` -/
noncomputable def NdArr.compare (a b : NdArr ℝ) : Except PyErr Compared :=
  match NdArr.bcast a.rshape b.rshape with
  | .none => .error (.valueError "operands could not be broadcast together")
  | some u => .ok (.array u fun i => decide (a.get (NdArr.proj a.rshape i) = b.get (NdArr.proj b.rshape i)))

/-- `True` and `False` are the numbers 1 and 0 -/
def Cell.number? : Cell → Option ℝ
  | .num x => some x
  | .flag b => some (if b then 1 else 0)
  | _ => Option.none

open Classical in
/-- `x == y` -/
noncomputable def Cell.compare (x y : Cell) : Except PyErr Compared :=
  match x, y with
  | .term _, _ => .ok .condition
  | _, .term _ => .ok .condition
  | .arr _ a, .arr _ b => a.compare b
  | .arr _ a, y =>
    match y.number? with
    | some v => a.compare (.scalar v)
    | Option.none => .ok (.array a.rshape fun _ => false)
  | x, .arr _ b =>
    match x.number? with
    | some v => NdArr.compare (.scalar v) b
    | Option.none => .ok (.array b.rshape fun _ => false)
  | .none, .none => .ok (.bool true)
  | x, y =>
    match x.number?, y.number? with
    | some v, some w => .ok (.bool (decide (v = w)))
    | _, _ => .ok (.bool false)

/-- `x is y`, for the objects whose `==` may say something else -/
def Cell.is : Cell → Cell → Bool
  | .nan r, .nan s => r = s
  | .arr r _, .arr s _ => r = s
  | .term r, .term s => r = s
  | _, _ => false

/-- comparison of tuples of the same length -/
noncomputable def tupleCompare : List Cell → List Cell → Except PyErr Bool
  | x :: xs, y :: ys => do
    if x.is y then tupleCompare xs ys
    else if ← (← x.compare y).truth then tupleCompare xs ys
    else return false
  | _, _ => return true

/-- `x1 == y1 and x2 == y2 and ...` -/
noncomputable def chainCompare : List Cell → List Cell → Except PyErr Compared
  | [x], [y] => x.compare y
  | x :: xs, y :: ys => do
    let r ← x.compare y
    if ← r.truth then chainCompare xs ys else return r
  | _, _ => return .bool true

/-- Python's version -/
inductive Python
  | upTo312
  | since313

/-- `x == y` of two instances -/
noncomputable def pyEq (v : Python) (x y : Inst) : Except PyErr Compared :=
  if x.cls = y.cls then
    match v with
    | .upTo312 => (tupleCompare x.fields y.fields).map .bool
    | .since313 => if x.ref = y.ref then .ok (.bool true) else chainCompare x.fields y.fields
  else .ok (.bool false)

/-- the value of a field with an array at address `ref`; a number has no address of interest -/
def Value.cell (ref : ℕ) : Value ℝ → Cell
  | .arr a => if a.rshape = [] then .num (a.get []) else .arr ref a
  | .flag b => .flag b

/-- the instance at address `ref` with the parameters of `o`, the array of the field `name` at address `refs name` -/
def Obj.inst (ref : ℕ) (refs : String → ℕ) (o : Obj ℝ) : Inst :=
  { ref := ref, cls := o.cls, fields := o.fields.map fun f => f.2.cell (refs f.1), attrs := o.attrs }

end Conj
