import Verif.Models

/-!
# Python sequences as Dirichlet parameters

`Dirichlet.alpha` and the counts may be Python lists, tuples or numpy arrays
(`docs`, `tests/test_models.py`); `+` means something else for each of them.
-/

namespace Conj

/-- a value given for `alpha` or for the counts: a Python number, a `list`, a `tuple`, or a
one-dimensional numpy array, with entries in `α` -/
inductive SeqVal (α : Type)
  | num (x : α)
  | list (l : List α)
  | tuple (l : List α)
  | arr (l : List α)
  deriving DecidableEq

namespace SeqVal

variable {α : Type}

/-- numpy broadcasting of two one-dimensional arrays -/
def npAdd [Add α] (a b : List α) : Except PyErr (List α) :=
  if a.length = b.length then .ok (List.zipWith (· + ·) a b)
  else match a, b with
    | [x], b => .ok (b.map (fun y => x + y))
    | a, [y] => .ok (a.map (fun x => x + y))
    | _, _ => .error (.valueError "operands could not be broadcast together")

/-- Python's `a + b` -/
def add [Add α] : SeqVal α → SeqVal α → Except PyErr (SeqVal α)
  | num x, num y => .ok (num (x + y))
  | list l, list m => .ok (list (l ++ m))
  | tuple l, tuple m => .ok (tuple (l ++ m))
  | arr l, num y => .ok (arr (l.map (fun x => x + y)))
  | num x, arr m => .ok (arr (m.map (fun y => x + y)))
  | arr l, arr m => (npAdd l m).map arr
  | arr l, list m => (npAdd l m).map arr
  | arr l, tuple m => (npAdd l m).map arr
  | list l, arr m => (npAdd l m).map arr
  | tuple l, arr m => (npAdd l m).map arr
  | list _, tuple _ => .error .typeError
  | tuple _, list _ => .error .typeError
  | num _, list _ => .error .typeError
  | num _, tuple _ => .error .typeError
  | list _, num _ => .error .typeError
  | tuple _, num _ => .error .typeError

/-- `iter(v)` -/
def iter : SeqVal α → Except PyErr (List α)
  | num _ => .error .typeError
  | list l => .ok l
  | tuple l => .ok l
  | arr l => .ok l

/-- `[a_i + x_i for a_i, x_i in zip(a, x)]` -/
def zipAdd [Add α] (a x : SeqVal α) : Except PyErr (SeqVal α) := do
  let l ← a.iter
  let m ← x.iter
  return list (List.zipWith (· + ·) l m)

end SeqVal

/-- `models.py:430-434` on Python values -/
instance instPySeqVal {α : Type} [Add α] : PySeq (SeqVal α) where
  tryAdd := SeqVal.add
  zipAdd := SeqVal.zipAdd

end Conj
