import Verif.Slice

/-!
# Indexing in memory: views and copies

A numpy array is a buffer together with the places of its entries; several arrays may look into one buffer. `a[i]` on a vector
is a number, `a[1:3]` looks into the buffer of `a` (a view), `a[[0, 2]]` has a buffer of its own (a copy).

Simplifications: entries are real numbers; keys are an `int`, a numpy integer, a list of `int`s and a slice `start:stop`
without a step; `[:, key]` is modelled for two axes, which is what a covariance matrix has.
-/

namespace Conj.Views

/-- an array: its buffer, and for every index the place of the entry -/
structure NpArray where
  base : ℕ
  place : NdArr (List ℕ)

/-- the memory: contents of the buffers below `next` -/
structure Memory where
  cells : ℕ → List ℕ → ℝ
  next : ℕ

/-- applying a function to the entries -/
def over {β γ : Type} (f : β → γ) (a : NdArr β) : NdArr γ := { rshape := a.rshape, get := fun idx => f (a.get idx) }

/-- the entries of an array -/
def Memory.read (m : Memory) (a : NpArray) : NdArr ℝ := over (m.cells a.base) a.place

/-- Python code: may raise, may change the memory -/
abbrev Prog := StateT Memory (Except PyErr)

/-- a value of a field: a number, a `bool` or an array -/
inductive Item
  | num (x : ℝ)
  | flag (b : Bool)
  | arr (a : NpArray)

/-- a new array with its own buffer: numpy's `copy`, what `copy.deepcopy` does with an array -/
def newArray (a : NdArr ℝ) : Prog NpArray := fun m =>
  .ok ({ base := m.next, place := { rshape := a.rshape, get := id } },
    { cells := Function.update m.cells m.next a.get, next := m.next + 1 })

/-- numpy `a[key]`: a number if no axis is left, a copy for a list, a view otherwise -/
def subscript (a : NpArray) (key : Key) : Prog Item := do
  let v ← (a.place.getitem key : Except PyErr _)
  match key with
  | .ints _ => return .arr (← newArray ((← get).read { base := a.base, place := v }))
  | .int _ =>
    if v.rshape = [] then return .num ((← get).cells a.base (v.get []))
    else return .arr { base := a.base, place := v }
  | .slice _ _ => return .arr { base := a.base, place := v }

/-- `slice.py:12-16`, `take_slice`: every exception is swallowed; numbers and flags are not subscriptable -/
def takeItem (key : Key) (value : Item) : Prog Item :=
  match value with
  | .arr a => fun m =>
    match subscript a key m with
    | .ok r => .ok r
    | .error _ => .ok (.arr a, m)
  | v => return v

/-- `copy.deepcopy` of a value of a field -/
def deepcopy (value : Item) : Prog Item := do
  match value with
  | .arr a => return .arr (← newArray ((← get).read a))
  | v => return v

/-- a distribution: class and fields -/
structure Object where
  cls : String
  fields : List (String × Item)

/-- `slice.py:8-9`: `params`, `dataclasses.asdict(self)`, which deep-copies the values -/
def params (self : Object) : Prog (List (String × Item)) :=
  self.fields.mapM fun kv => do return (kv.1, ← deepcopy kv.2)

/-- `slice.py:11-20`: `SliceMixin.__getitem__` -/
def getitem (self : Object) (key : Key) : Prog Object := do
  let new_params ← (← params self).mapM fun kv => do return (kv.1, ← takeItem key kv.2)
  return { cls := self.cls, fields := new_params }

/-! ### The classes with their own `__getitem__` -/

/-- a key of `MultivariateNormal.__getitem__`; numpy integers are not instances of `int` -/
inductive MatKey
  | key (k : Key)
  | npInt (i : ℤ)

/-- what numpy sees: an integer is an integer -/
def MatKey.toKey : MatKey → Key
  | .key k => k
  | .npInt i => .int i

/-- numpy `a[:, key]` for two axes (stored last axis first), places only; too many indices for fewer axes -/
def colPlaces {β : Type} (a : NdArr β) (key : Key) : Except PyErr (NdArr β) :=
  match a.rshape with
  | [cols, rows] =>
    match key with
    | .int i =>
      match normIndex i cols with
      | none => .error .indexError
      | some j => .ok { rshape := [rows], get := fun idx => a.get (j :: idx) }
    | .ints l =>
      match l.mapM (fun i => normIndex i cols) with
      | none => .error .indexError
      | some p => .ok { rshape := [p.length, rows], get := fun idx => a.get (p.getD (idx.headD 0) 0 :: idx.tail) }
    | .slice start stop =>
      let p := slicePositions start stop cols
      .ok { rshape := [p.length, rows], get := fun idx => a.get (p.getD (idx.headD 0) 0 :: idx.tail) }
  | _ => .error .indexError

/-- numpy `a[:, key]`: a copy for a list, a view otherwise -/
def columns (a : NpArray) (key : Key) : Prog NpArray := do
  let v ← (colPlaces a.place key : Except PyErr _)
  match key with
  | .ints _ => newArray ((← get).read { base := a.base, place := v })
  | _ => return { base := a.base, place := v }

/-- numpy `a[i, i]`: a number -/
def diagonal (a : NpArray) (i : ℤ) : Prog ℝ := do
  let row ← (a.place.getitem (.int i) : Except PyErr _)
  let v ← (row.getitem (.int i) : Except PyErr _)
  return (← get).cells a.base (v.get [])

/-- subscripting a value that must be an array; Python numbers raise `TypeError` -/
def Item.array : Item → Except PyErr NpArray
  | .arr a => .ok a
  | _ => .error .typeError

/-- `distributions.py:481-485`: `MultivariateNormal.__getitem__` -/
noncomputable def mvnGetitem (mu cov : NpArray) (key : MatKey) : Prog Object :=
  match key with
  | .key (.int i) => do
    let m ← subscript mu (.int i)
    let s ← diagonal cov i
    return { cls := "Normal", fields := [("mu", m), ("sigma", .num (powq s (1 / 2)))] }
  | key => do
    let m ← subscript mu key.toKey
    let rows ← (← subscript cov key.toKey).array
    let block ← columns rows key.toKey
    return { cls := "MultivariateNormal", fields := [("mu", m), ("cov", .arr block)] }

/-- `distributions.py:709-715`: `MultivariateStudentT.__getitem__` -/
def mvtGetitem (mu sigma : NpArray) (nu : ℝ) (key : MatKey) : Prog Object :=
  match key with
  | .key (.int i) => do
    let m ← subscript mu (.int i)
    let s ← diagonal sigma i
    return { cls := "StudentT", fields := [("mu", m), ("sigma", .num s), ("nu", .num nu)] }
  | key => do
    let m ← subscript mu key.toKey
    let rows ← (← subscript sigma key.toKey).array
    let block ← columns rows key.toKey
    return { cls := "MultivariateStudentT", fields := [("mu", m), ("sigma", .arr block), ("nu", .num nu)] }

end Conj.Views
