import Verif.Views

/-!
# Specification: results that keep their values
-/

namespace Conj.Spec

open Views

/-- the contents of a value of a field -/
def itemContents (m : Memory) : Item → Value ℝ
  | .num x => .arr (.scalar x)
  | .flag b => .flag b
  | .arr a => .arr (m.read a)

/-- what a user sees of a distribution: class, fields and their contents -/
def seen (m : Memory) (o : Object) : Obj ℝ :=
  { cls := o.cls, fields := o.fields.map fun kv => (kv.1, itemContents m kv.2), attrs := [] }

/-- the same array for a user: same shape, same entry at every index with one number per axis -/
def AlikeArray (a b : NdArr ℝ) : Prop := a.rshape = b.rshape ∧ ∀ idx, idx.length = a.rshape.length → a.get idx = b.get idx

/-- the same value -/
def AlikeValue : Value ℝ → Value ℝ → Prop
  | .arr a, .arr b => AlikeArray a b
  | .flag a, .flag b => a = b
  | _, _ => False

/-- the same distribution: class, names of the fields in order, values -/
def AlikeObj (o o' : Obj ℝ) : Prop :=
  o.cls = o'.cls ∧ List.Forall₂ (fun kv kv' => kv.1 = kv'.1 ∧ AlikeValue kv.2 kv'.2) o.fields o'.fields

/-- the array's buffer exists -/
def Exists (m : Memory) (a : NpArray) : Prop := a.base < m.next

/-- all arrays of the object exist -/
def ExistsObject (m : Memory) (o : Object) : Prop := ∀ kv ∈ o.fields, ∀ a, kv.2 = .arr a → Exists m a

/-- an entry set in place -/
structure Put where
  base : ℕ
  place : List ℕ
  new : ℝ

/-- the memory after entries were set in place, in order -/
def puts (m : Memory) : List Put → Memory
  | [] => m
  | w :: ws =>
    puts { m with cells := Function.update m.cells w.base (Function.update (m.cells w.base) w.place w.new) } ws

/-- one of the arrays of `o` looks into the buffer -/
def LooksInto (o : Object) (base : ℕ) : Prop := ∃ kv ∈ o.fields, ∃ a, kv.2 = .arr a ∧ a.base = base

/-- The result keeps its values whatever is later set in arrays that existed before, and setting entries of the result leaves
everything that existed before as it was. -/
def Detached (m : Memory) (o : Object) (m' : Memory) : Prop :=
  (∀ ws : List Put, (∀ w ∈ ws, w.base < m.next) → seen (puts m' ws) o = seen m' o) ∧
  ∀ ws : List Put, (∀ w ∈ ws, LooksInto o w.base) → ∀ a, Exists m a → (puts m' ws).read a = m.read a

/-- entry `i` of a vector -/
def vecEntry (a : NdArr ℝ) (i : ℕ) : ℝ := a.get [i]

/-- entry in row `i` and column `j` of a matrix (indices are stored last axis first) -/
def matEntry (a : NdArr ℝ) (i j : ℕ) : ℝ := a.get [j, i]

/-- the positions a key selects on an axis of length `d` -/
def selected (key : Key) (d : ℕ) : Option (List ℕ) :=
  match key with
  | .int i => (normIndex i d).map fun j => [j]
  | .ints l => l.mapM fun i => normIndex i d
  | .slice start stop => some (slicePositions start stop d)

/-- the sub-vector at the positions `p` -/
def subVector (mu : NdArr ℝ) (p : List ℕ) (v : Value ℝ) : Prop :=
  ∃ a, v = .arr a ∧ a.rshape = [p.length] ∧ ∀ i < p.length, vecEntry a i = vecEntry mu (p.getD i 0)

/-- the block with rows and columns `p` -/
def subMatrix (cov : NdArr ℝ) (p : List ℕ) (v : Value ℝ) : Prop :=
  ∃ a, v = .arr a ∧ a.rshape = [p.length, p.length] ∧
    ∀ i < p.length, ∀ j < p.length, matEntry a i j = matEntry cov (p.getD i 0) (p.getD j 0)

end Conj.Spec
