import Verif.MemorySpec

/-!
# `*` and `+` with distributions

Python's rule for `l * r` and `l + r`: the method of the left operand; if its class has none (or it declines), the
reflected method of the right operand; otherwise `TypeError`.  A numpy array on the left does not decline: it applies the
operator to each of its entries and the object.

Simplifications: entries are real numbers; zero-dimensional arrays are Python numbers; an empty array keeps its type.
-/

namespace Conj

/-- an instance: the classes with operators, or any other class, with its attribute `lam` if it has one -/
inductive DistObj
  | poisson (d : Poisson (NdArr ℝ))
  | exponential (d : Exponential (NdArr ℝ))
  | gamma (d : Gamma (NdArr ℝ))
  | negativeBinomial (d : NegativeBinomial (NdArr ℝ))
  | normal (d : Normal (NdArr ℝ))
  | other (lam : Option (NdArr ℝ))

/-- an operand or result: a number, an array of numbers, a distribution, an array of objects, or an instance of `cls` with
something that is not a number or array of numbers for its first parameter -/
inductive Thing
  | num (x : ℝ)
  | arr (a : NdArr ℝ)
  | dist (d : DistObj)
  | objects (rshape : List ℕ) (get : List ℕ → Except PyErr DistObj)
  | holds (cls : String) (param : Thing)

/-- `distributions.py:206-214`: arguments of the constructor, in order -/
instance : Trav Exponential where
  seq d := do
    let lam ← d.lam
    return { lam := lam }

/-- `other` is a number or an array: the class's `__mul__`, `none` if it has none
(`distributions.py:220-221`, `249-250`, `272-273`, `319-320`, `457-459`) -/
noncomputable def DistObj.mulMethod (other : NdArr ℝ) : DistObj → Option (Except PyErr DistObj)
  | .poisson d => some (Spec.object (Poisson.mul (Spec.exprs d) (.ok other)) |>.map .poisson)
  | .exponential d => some (Spec.object (Exponential.mul (Spec.exprs d) (.ok other)) |>.map .gamma)
  | .gamma d => some (Spec.object (Gamma.mul (Spec.exprs d) (.ok other)) |>.map .gamma)
  | .negativeBinomial d => some (Spec.object (NegativeBinomial.mul (Spec.exprs d) (.ok other)) |>.map .negativeBinomial)
  | .normal d => some (Spec.object (Normal.mul (Spec.exprs d) (.ok other)) |>.map .normal)
  | .other _ => none

/-- `__rmul__ = __mul__` (`distributions.py:223`, `252`, `275`, `322`, `461`) -/
noncomputable def DistObj.rmulMethod (other : NdArr ℝ) (d : DistObj) : Option (Except PyErr DistObj) := d.mulMethod other

/-- `number * d` -/
noncomputable def numberTimes (x : ℝ) (d : DistObj) : Except PyErr DistObj :=
  match d.rmulMethod (.scalar x) with
  | some r => r
  | none => .error .typeError

/-- `array * d`: numpy computes `entry * d` for every entry.  A number times numbers or arrays never raises (the lemma
`numberTimes_ok`), so the only exception is that of a class without the method, and an array without entries has none. -/
noncomputable def arrayTimes (a : NdArr ℝ) (d : DistObj) : Except PyErr Thing :=
  if (d.rmulMethod (.scalar 0)).isSome ∨ 0 ∈ a.rshape then .ok (.objects a.rshape fun i => numberTimes (a.get i) d)
  else .error .typeError

/-- `v * d` for a parameter `v`, a number or an array -/
noncomputable def paramTimes (v : NdArr ℝ) (d : DistObj) : Except PyErr Thing :=
  if v.rshape = [] then (numberTimes (v.get []) d).map .dist else arrayTimes v d

/-- the same methods called with a distribution: the bodies compute `parameter * other` -/
noncomputable def DistObj.mulDist (self other : DistObj) : Option (Except PyErr Thing) :=
  match self with
  | .poisson d => some ((paramTimes d.lam other).map (.holds "Poisson"))
  | .exponential _ => some (.ok (.holds "Gamma" (.dist other)))
  | .gamma d => some ((paramTimes d.alpha other).map (.holds "Gamma"))
  | .negativeBinomial d => some ((paramTimes d.n other).map (.holds "NegativeBinomial"))
  | .normal d => some (
      -- `** 0.5` of a distribution, or of an array of them, is a `TypeError`
      if 0 ∈ d.sigma.rshape then (paramTimes d.mu other).map (.holds "Normal") else .error .typeError)
  | .other _ => none

/-- `l * r` with a distribution on at least one side -/
noncomputable def pyMul : Thing → Thing → Except PyErr Thing
  | .dist d, .num x => (d.mulMethod (.scalar x)).elim (.error .typeError) (·.map .dist)
  | .dist d, .arr a =>
    match d.mulMethod a with
    | some r => r.map .dist
    -- `ndarray.__rmul__`: entry by entry
    | none => if 0 ∈ a.rshape then .ok (.objects a.rshape fun _ => .error .typeError) else .error .typeError
  | .num x, .dist d => (numberTimes x d).map .dist
  | .arr a, .dist d => arrayTimes a d
  | .dist d, .dist d' =>
    match d.mulDist d' with
    | some r => r
    | none => (d'.mulDist d).elim (.error .typeError) id
  | _, _ => .error (.notImplemented "not modelled")

/-- `x.lam` -/
def DistObj.lam? : DistObj → Option (NdArr ℝ)
  | .poisson d => some d.lam
  | .exponential d => some d.lam
  | .other lam => lam
  | _ => none

/-- `distributions.py:324-327`: `Poisson.__add__`, also `__radd__`; `lam` is the attribute of the other operand -/
noncomputable def poissonAdd (p : Poisson (NdArr ℝ)) : Option (NdArr ℝ) → Except PyErr Thing
  | none => .error .attributeError
  | some lam => Spec.object (Poisson.add (Spec.exprs p) (Spec.exprs ⟨lam⟩)) |>.map fun q => .dist (.poisson q)

/-- `l + r` -/
noncomputable def pyAdd : Thing → Thing → Except PyErr Thing
  | .num x, .num y => .ok (.num (x + y))
  | .dist (.poisson p), .dist d => poissonAdd p d.lam?
  | .dist (.poisson p), .num _ => poissonAdd p none
  | .dist (.poisson p), .arr _ => poissonAdd p none
  | .dist d, .dist (.poisson p) => poissonAdd p d.lam?
  | .num _, .dist (.poisson p) => poissonAdd p none
  | .arr a, .dist (.poisson p) => if 0 ∈ a.rshape then .ok (.arr a) else poissonAdd p none
  | .dist _, .dist _ => .error .typeError
  | .dist _, .num _ => .error .typeError
  | .num _, .dist _ => .error .typeError
  | .arr a, .dist _ => if 0 ∈ a.rshape then .ok (.arr a) else .error .typeError
  | .dist _, .arr a => if 0 ∈ a.rshape then .ok (.arr a) else .error .typeError
  | _, _ => .error (.notImplemented "not modelled")

/-- Python's `sum(things, start)` -/
noncomputable def pySum (things : List Thing) (start : Thing := .num 0) : Except PyErr Thing := things.foldlM pyAdd start

end Conj
