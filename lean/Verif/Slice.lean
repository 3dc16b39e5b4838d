import Verif.NdArr
import Verif.Params

/-!
# Indexing of distributions (`conjugate/slice.py`)
-/

namespace Conj

variable {β : Type}

/-- Python's rule for an integer index into an axis of length `n` (negative counts from the end) -/
def normIndex (i : ℤ) (n : ℕ) : Option ℕ :=
  if 0 ≤ i then (if i < n then some i.toNat else none)
  else if -(n : ℤ) ≤ i then some (n + i).toNat else none

/-- Python's clipping of one end of a slice -/
def clipIndex (i : ℤ) (n : ℕ) : ℕ :=
  if 0 ≤ i then min i.toNat n else (n + i).toNat

/-- what can stand in `dist[key]`: an integer, a list of integers, a slice `start:stop` -/
inductive Key
  | int (i : ℤ)
  | ints (l : List ℤ)
  | slice (start stop : Option ℤ)

/-- the positions of a slice `start:stop` on an axis of length `n` -/
def slicePositions (start stop : Option ℤ) (n : ℕ) : List ℕ :=
  let lo := (start.map (clipIndex · n)).getD 0
  let hi := (stop.map (clipIndex · n)).getD n
  List.range' lo (hi - lo)

namespace NdArr

/-- the entries at positions `p` of the first axis -/
def pick (a : NdArr β) (p : List ℕ) : NdArr β :=
  { rshape := a.rshape.dropLast ++ [p.length]
    get := fun idx => a.get (idx.dropLast ++ [p.getD (idx.getLastD 0) 0]) }

/-- numpy `a[key]` on the first axis (stored last). A number (rank 0) raises. -/
def getitem (a : NdArr β) (key : Key) : Except PyErr (NdArr β) :=
  match a.rshape.getLast? with
  | none => .error .indexError
  | some n =>
    match key with
    | .int i =>
      match normIndex i n with
      | none => .error .indexError
      | some j => .ok { rshape := a.rshape.dropLast, get := fun idx => a.get (idx ++ [j]) }
    | .ints l =>
      match l.mapM (fun i => normIndex i n) with
      | none => .error .indexError
      | some p => .ok (a.pick p)
    | .slice start stop => .ok (a.pick (slicePositions start stop n))

end NdArr

/-- `slice.py:12-16`: `take_slice`; every exception is swallowed and the value kept. -/
def takeSlice (key : Key) (value : NdArr β) : NdArr β :=
  match value.getitem key with
  | .ok v => v
  | .error _ => value

/-- a value held by a dataclass field -/
inductive Value (β : Type)
  | arr (a : NdArr β)
  | flag (b : Bool)

/-- `value[key]`; a `bool` is not subscriptable (TypeError) -/
def Value.getitem (v : Value β) (key : Key) : Except PyErr (Value β) :=
  match v with
  | .arr a => (a.getitem key).map .arr
  | .flag _ => .error .typeError

/-- `slice.py:12-16` on a field value -/
def Value.takeSlice (key : Key) (v : Value β) : Value β :=
  match v.getitem key with
  | .ok v => v
  | .error _ => v

/-- a distribution instance: its class, its dataclass fields in order, and the other instance
attributes (`_min_value`, `_max_value`, set by `plot.py:76-104`) -/
structure Obj (β : Type) where
  cls : String
  fields : List (String × Value β)
  attrs : List (String × β)

/-- `self.__class__(**new_params)`: the generated dataclass constructor; the new instance has
no plot attributes -/
def Obj.construct (cls : String) (params : List (String × Value β)) : Obj β :=
  { cls := cls, fields := params, attrs := [] }

/-- `slice.py:7-20`. `asdict` deep-copies, so the original is not shared with the result. -/
def Obj.getitem (self : Obj β) (key : Key) : Obj β :=
  let new_params := self.fields.map (fun kv => (kv.1, kv.2.takeSlice key))
  Obj.construct self.cls new_params

end Conj
