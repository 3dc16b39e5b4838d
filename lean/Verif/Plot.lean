import Verif.Num
import Verif.NdArr
import Mathlib.Algebra.Order.Round
import Mathlib.Algebra.BigOperators.Group.List.Basic
import Mathlib.Analysis.SpecialFunctions.Trigonometric.Basic

/-!
# Plotting support (`conjugate/plot.py`)

What is computed before matplotlib is called: the plot bounds kept on the instance, the grid of
x values, the table of y values, the labels and the ticks.  Bounds and grids are at exact reals.
matplotlib itself is not modelled: the result of a plot is the list of lines handed to it.
-/

namespace Conj

/-! ## Bounds -/

/-- the attributes `_min_value` and `_max_value` of an instance (`none`: not set) -/
structure PlotState (α : Type) where
  min : Option α := none
  max : Option α := none

namespace PlotState

variable {α : Type} [PyNum α]

/-- `plot.py:69-74`: reading `max_value` -/
def maxValue (s : PlotState α) : Except PyErr α :=
  match s.max with
  | none => .error (.valueError "Set the max value before plotting.")
  | some v => .ok v

/-- `plot.py:76-78` and `plot.py:80-83`: `set_max_value` (returns the instance itself) -/
def setMaxValue (s : PlotState α) (value : α) : PlotState α := { s with max := some value }

/-- `plot.py:85-90`: reading `min_value` stores the default `0.0` when none was set -/
def minValue (s : PlotState α) : α × PlotState α :=
  match s.min with
  | none => (lit 0, { s with min := some (lit 0) })
  | some v => (v, s)

/-- `plot.py:92-100`: `set_min_value` -/
def setMinValue (s : PlotState α) (value : α) : PlotState α := { s with min := some value }

/-- `plot.py:102-104`: `set_bounds` -/
def setBounds (s : PlotState α) (lower upper : α) : PlotState α :=
  (s.setMinValue lower).setMaxValue upper

end PlotState

/-- one call on a plottable instance -/
inductive PlotCall (α : Type)
  | setMax (value : α)
  | setMin (value : α)
  | setBounds (lower upper : α)
  | getMax
  | getMin

/-- the effect of a call on the instance (the value returned by the getters is above) -/
def PlotCall.step {α : Type} [PyNum α] (s : PlotState α) : PlotCall α → PlotState α
  | .setMax v => s.setMaxValue v
  | .setMin v => s.setMinValue v
  | .setBounds l u => s.setBounds l u
  | .getMax => s
  | .getMin => s.minValue.2

/-- the instance after a history of calls -/
def PlotState.run {α : Type} [PyNum α] (s : PlotState α) (calls : List (PlotCall α)) : PlotState α :=
  calls.foldl PlotCall.step s

/-! ## Grids -/

/-- `np.linspace(start, stop, num)`: `arange(num) * step + start` with the last entry set to
`stop` (numpy documentation; `num ≥ 2`) -/
noncomputable def linspace (start stop : ℝ) (num : ℕ) : List ℝ :=
  let step := (stop - start) / ((num - 1 : ℕ) : ℝ)
  (List.range num).map (fun i : ℕ => if i + 1 = num then stop else i * step + start)

/-- `np.arange(start, stop, 1)`: `ceil(stop - start)` entries (numpy documentation) -/
noncomputable def arange (start stop : ℝ) : List ℝ :=
  (List.range ⌈stop - start⌉₊).map (fun i : ℕ => start + i)

/-- `plot.py:161-162` -/
noncomputable def continuousXValues (min_value max_value : ℝ) : List ℝ :=
  linspace min_value max_value 100

/-- `plot.py:309-310` -/
noncomputable def discreteXValues (min_value max_value : ℝ) : List ℝ :=
  arange min_value (max_value + 1)

/-- `_create_x_values` on an instance: the minimum is read first, a missing maximum raises. -/
noncomputable def PlotState.xValues (grid : ℝ → ℝ → List ℝ) (s : PlotState ℝ) :
    Except PyErr (List ℝ) := do
  let lo := s.minValue.1
  let hi ← s.minValue.2.maxValue
  return grid lo hi

/-! ## Shape of the table of y values -/

/-- what `_reshape_x_values` looks at: is the field a Python `float`, and its shape as an array -/
structure FieldInfo where
  isFloat : Bool
  rshape : List ℕ

/-- `plot.py:106-112`: the shape of `x` (last axis first) for a grid of `N` points -/
def reshapedX (fields : List FieldInfo) (N : ℕ) : List ℕ :=
  if fields.any (fun f => !f.isFloat) then [1, N] else [N]

/-- the shape of `func(x)`: SciPy broadcasts `x` with every parameter; `none`: ValueError -/
def yShape (fields : List FieldInfo) (N : ℕ) : Option (List ℕ) :=
  fields.foldl (fun acc f => acc.bind (fun s => NdArr.bcast s f.rshape)) (some (reshapedX fields N))

/-! ## Labels -/

/-- the accepted kinds of `label` (`plot.py:24`) -/
inductive Label
  | none
  | str (s : String)
  | fn (f : ℕ → String)
  | iter (l : List String)
  | other

/-- `plot.py:27-42`; the entries are labels or `None` -/
def labelToIterable (label : Label) (ncols : ℕ) : Except PyErr (List (Option String)) :=
  match label with
  | .none => .ok (List.replicate ncols Option.none)
  | .str s => .ok ((List.range' 1 ncols).map (fun i => some (s ++ " " ++ toString i)))
  | .fn f => .ok ((List.range ncols).map (fun i => some (f i)))
  | .iter l => .ok (l.map some)
  | .other => .error (.valueError "Label must be None, a string, iterable, or callable.")

/-- what is passed to `ax.plot(..., label=...)` -/
inductive Resolved
  | single (l : Label)
  | perLine (l : List (Option String))

/-- `plot.py:45-57`; `yshape` is the shape of `yy`, last axis first -/
def resolveLabel (label : Label) (yrshape : List ℕ) : Except PyErr Resolved :=
  if yrshape.length = 1 then .ok (.single label)
  else
    match yrshape.reverse[1]? with
    | some ncols => if ncols ≠ 1 then (labelToIterable label ncols).map .perLine else .ok (.single label)
    | none => .error .indexError

/-- `itertools.zip_longest` -/
def zipLongest {γ δ : Type} : List γ → List δ → List (Option γ × Option δ)
  | [], l => l.map (fun b => (none, some b))
  | l, [] => l.map (fun a => (some a, none))
  | a :: s, b :: t => (some a, some b) :: zipLongest s t

/-- `plot.py:212-225`: one line per column of the sample matrix, with its label.  A column missing
(more labels than columns) is passed as `None` to `gaussian_kde`, which raises; `Col` is the type
of sample columns. -/
def dirichletLines {Col : Type} (columns : List Col) (label : Label) :
    Except PyErr (List (Col × Option String)) := do
  let labels ← labelToIterable label columns.length
  (zipLongest columns labels).mapM (fun p =>
    match p.1 with
    | none => .error .typeError
    | some c => .ok (c, p.2.join))

/-! ## The y values of discrete plots -/

/-- `plot.py:321-325`: a table of function values, one list per plotted distribution (column),
divided by the sum over the whole table when `conditional` -/
noncomputable def plotTable (conditional : Bool) (yy : List (List ℝ)) : List (List ℝ) :=
  if conditional then
    let total := (yy.map List.sum).sum
    yy.map (fun col => col.map (fun y => y / total))
  else yy

/-! ## Ticks -/

/-- `x[::5]` -/
def everyFifth {γ : Type} (x : List γ) : List γ :=
  (List.range ((x.length + 4) / 5)).filterMap (fun i => x[5 * i]?)

/-- major and minor ticks -/
structure Ticks where
  major : List ℝ
  minor : List ℝ

/-- `plot.py:348-352` -/
noncomputable def ticks (min_value max_value : ℝ) (x : List ℝ) : Ticks :=
  if max_value - min_value < 15 then { major := x, minor := [] }
  else { major := everyFifth x, minor := x }

/-! ## Bounds set by constructors -/

/-- a parameter that is a number or a numpy vector -/
inductive NumOrVec
  | num (x : ℝ)
  | vec (x : List ℝ)

/-- `arr.max()`; the maximum of an empty array is a `ValueError` -/
noncomputable def arrMax : List ℝ → Except PyErr ℝ
  | [] => .error (.valueError "zero-size array to reduction operation maximum which has no identity")
  | x :: l => .ok (l.foldl max x)

/-- `distributions.py:118-122` (`Binomial`), `293-297` (`Hypergeometric`, with `N`), `345-349`
(`BetaBinomial`), `371-375` (`BetaNegativeBinomial`): `__post_init__` -/
noncomputable def countPostInit (n : NumOrVec) : Except PyErr (PlotState ℝ) :=
  match n with
  | .vec l => do return { max := some (← arrMax l) }
  | .num n => .ok { max := some n }

/-- `distributions.py:78-79` (`Beta`) and `154-155` (`Dirichlet`) -/
def unitPostInit : PlotState ℝ := { max := some 1 }

/-- `distributions.py:501-503` (`Uniform`) -/
def uniformPostInit (low high : ℝ) : PlotState ℝ := { min := some low, max := some high }

/-- `distributions.py:885-887` (`VonMises`) -/
noncomputable def vonMisesPostInit : PlotState ℝ := { min := some (-Real.pi), max := some Real.pi }

/-- every other plottable class: no `__post_init__` -/
def noPostInit : PlotState ℝ := {}

end Conj
