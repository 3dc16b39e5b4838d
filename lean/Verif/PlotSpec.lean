import Verif.PlotRun
import Verif.SumSpec

/-!
# Specification: what a plot should show
-/

open MeasureTheory

namespace Conj.Spec

open NdArr

/-- the graph of `f` over the points `xs` -/
def curve (xs : List ℝ) (f : ℝ → ℝ) : List (ℝ × ℝ) := xs.map fun x => (x, f x)

/-- entry `j` of a field: numbers and arrays of one entry stand for all -/
def entry (F : Field) (j : ℕ) : ℝ := F.arr.atIdx [j]

/-- distribution `j` of a vectorised object -/
def nth {D : Type → Type} [Params D] (d : D Field) (j : ℕ) : D ℝ := fmap (fun F => entry F j) d

/-- The object stands for `k` distributions: no parameter is a table, every parameter is a number or has one or `k`
entries, and one of them has `k`. (A row, shape `(1, k)`, is allowed.) -/
def IsVector {D : Type → Type} [Plottable D] (d : D Field) (k : ℕ) : Prop :=
  (∀ F ∈ Plottable.params d, FitsIn F.arr.rshape [k, 1]) ∧ ∃ F ∈ Plottable.params d, F.arr.rshape.head? = some k

/-- every parameter is a single number -/
def IsScalar {D : Type → Type} [Plottable D] (d : D Field) : Prop := ∀ F ∈ Plottable.params d, F.arr.rshape = []

/-- the label of line `j` of `k` (at least two) -/
def nthLabel (label : Option Label) (j : ℕ) : Label :=
  match label with
  | some (.str s) => .str (s ++ " " ++ toString (j + 1))
  | some (.fn f) => .str (f j)
  | some (.iter l) => (l[j]?).elim .none .str
  | _ => .none

/-- labels that can be given for `k` (at least two) lines: an iterable needs one entry for each -/
def LabelFits (label : Option Label) (k : ℕ) : Prop :=
  match label with
  | some (.iter l) => l.length = k
  | some .other => False
  | _ => True

/-- labels for a single line: nothing, a string, a function -/
def SingleLabel (label : Option Label) : Prop :=
  match label with
  | some (.iter _) => False
  | _ => True

/-- the object stands for `k` distributions (at least one) -/
def Objects {D : Type → Type} [Plottable D] (d : D Field) (k : ℕ) : Prop :=
  (k = 1 ∧ IsScalar d) ∨ (0 < k ∧ IsVector d k)

/-- a label that can be given for `k` lines -/
def LabelOk (label : Option Label) (k : ℕ) : Prop := if k = 1 then SingleLabel label else LabelFits label k

/-- the label line `j` of `k` should have -/
def lineLabel (label : Option Label) (k j : ℕ) : Label := if k = 1 then label.getD .none else nthLabel label j

/-- `k` lines over the points `xs`: line `j` is the graph of `g j` -/
def picture (xs : List ℝ) (k : ℕ) (label : Option Label) (g : ℕ → ℝ → ℝ) : List Line :=
  (List.range k).map fun j => { points := curve xs (g j), label := lineLabel label k j }

end Conj.Spec
