import Verif.Equality

/-!
# Looking for a distribution in a list

Python's `list` asks every element in turn whether it is the object sought, or equal to it by the `==` that `@dataclass`
writes (`distributions.py:65`, `105`, ..., `1310`; `Verif/Equality.lean`).
-/

namespace Conj

/-- one question: `y is x or bool(y == x)` (`distributions.py:65`, ...: the `==` of `@dataclass`) -/
noncomputable def matches? (v : Python) (y x : Inst) : Except PyErr Bool := do
  if y.ref = x.ref then return true
  (← pyEq v y x).truth

/-- `x in ys` (`distributions.py:65`, ...) -/
noncomputable def listIn (v : Python) (x : Inst) : List Inst → Except PyErr Bool
  | [] => return false
  | y :: ys => do if ← matches? v y x then return true else listIn v x ys

/-- `ys.index(x)` (`distributions.py:65`, ...) -/
noncomputable def listIndex (v : Python) (x : Inst) : List Inst → Except PyErr ℕ
  | [] => .error (.valueError "is not in list")
  | y :: ys => do if ← matches? v y x then return 0 else return (← listIndex v x ys) + 1

/-- `ys.count(x)` (`distributions.py:65`, ...) -/
noncomputable def listCount (v : Python) (x : Inst) : List Inst → Except PyErr ℕ
  | [] => return 0
  | y :: ys => do
    let found ← matches? v y x
    let rest ← listCount v x ys
    return if found then rest + 1 else rest

/-- `ys.remove(x)` (`distributions.py:65`, ...) -/
noncomputable def listRemove (v : Python) (x : Inst) : List Inst → Except PyErr (List Inst)
  | [] => .error (.valueError "list.remove(x): x not in list")
  | y :: ys => do if ← matches? v y x then return ys else return y :: (← listRemove v x ys)

end Conj
