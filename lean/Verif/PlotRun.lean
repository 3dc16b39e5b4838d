import Verif.Plot
import Verif.Params
import Verif.DistMap
import Verif.RvsArray
import Mathlib.MeasureTheory.Integral.Bochner.Set

/-!
# A whole call of `plot_pdf`, `plot_pmf` and `plot_cdf`

`conjugate/plot.py` from the instance to the lines that `ax.plot` draws: the grid, the values of the function on it
(SciPy broadcasts the grid against the parameters), the labels, and matplotlib's rule for tables.  Colours, styles, axis
labels and ticks are left out (`Plot.lean` has the ticks).
-/

open MeasureTheory

namespace Conj

open Scipy NdArr

/-- a dataclass field as `_reshape_x_values` and SciPy see it: a Python `float`, another number (an `int`, say), or a
numpy array -/
inductive Field
  | float (x : ℝ)
  | number (x : ℝ)
  | array (a : NdArr ℝ)

/-- `isinstance(value, float)` -/
def Field.isFloat : Field → Bool
  | .float _ => true
  | _ => false

/-- the field as an array -/
def Field.arr : Field → NdArr ℝ
  | .float x => .scalar x
  | .number x => .scalar x
  | .array a => a

/-- what the plot functions look at -/
def Field.info (F : Field) : FieldInfo := { isFloat := F.isFloat, rshape := F.arr.rshape }

/-- the classes with a plot mixin: their parameters as a list, and whether they have a flag (`one_start`, a `bool`) among
the dataclass fields -/
class Plottable (D : Type → Type) extends LawfulParams D where
  params : D Field → List Field
  hasFlag : Bool
  all_iff : ∀ {p : Field → Prop} {d : D Field}, Params.All p d ↔ ∀ F ∈ params d, p F

/-- `asdict(self).values()` -/
def fieldInfos {D : Type → Type} [Plottable D] (d : D Field) : List FieldInfo :=
  (Plottable.params d).map Field.info ++ if Plottable.hasFlag D then [{ isFloat := false, rshape := [] }] else []

/-- `_reshape_x_values` (`plot.py:106-112`): a column unless every field is a `float` -/
def xArray {D : Type → Type} [Plottable D] (d : D Field) (xs : List ℝ) : NdArr ℝ :=
  { rshape := reshapedX (fieldInfos d) xs.length, get := fun idx => xs.getD (idx.getLastD 0) 0 }

/-- `func(x)` where `func` is a method of the frozen distribution: the grid and the parameters are broadcast together -/
def evalOn {D : Type → Type} [Plottable D] (f : D ℝ → ℝ → ℝ) (d : D Field) (xs : List ℝ) : Except PyErr (NdArr ℝ) :=
  match yShape (fieldInfos d) xs.length with
  | none => .error (.valueError "shape mismatch: objects cannot be broadcast to a single shape")
  | some u => .ok { rshape := u, get := fun idx => f (fmap (fun F => F.arr.atIdx idx) d) ((xArray d xs).atIdx idx) }

/-- a line on the axes -/
structure Line where
  points : List (ℝ × ℝ)
  label : Label

/-- matplotlib: the labels of `n` lines. An iterable must have `n` entries, anything else labels every line. (Iterables
without a length are left out.) -/
def lineLabels (label : Resolved) (n : ℕ) : Except PyErr (List Label) :=
  let perLine (l : List (Option String)) : Except PyErr (List Label) :=
    if l.length = n then .ok (l.map fun o => o.elim .none .str)
    else .error (.valueError "label must be scalar or have the same length as the input data")
  match label with
  | .single (.iter l) => perLine (l.map some)
  | .single l => .ok (List.replicate n l)
  | .perLine l => perLine l

/-- column `j` of an array of rank one or two with `n` rows -/
def colOf (a : NdArr ℝ) (n j : ℕ) : List ℝ :=
  (List.range n).map fun i => a.get (if a.rshape.length = 1 then [i] else [j, i])

/-- number of columns; a vector is one column -/
def ncols (a : NdArr ℝ) : ℕ := if a.rshape.length = 1 then 1 else a.rshape.headD 1

/-- matplotlib's `ax.plot(x, y, label=...)` (not part of `/repo`; its documented rule): one line per column, a single
column is used with every column of the other argument; the number of rows must agree and more than two axes are an
error -/
def axPlot (x y : NdArr ℝ) (label : Resolved) : Except PyErr (List Line) :=
  if x.rshape.getLast? ≠ y.rshape.getLast? then .error (.valueError "x and y must have same first dimension")
  else if 2 < x.rshape.length ∨ 2 < y.rshape.length then .error (.valueError "x and y can be no greater than 2D")
  else if 1 < ncols x ∧ 1 < ncols y ∧ ncols x ≠ ncols y then .error (.valueError "x has columns but y has columns")
  else if ncols x = 0 ∨ ncols y = 0 then .ok []
  else do
    let n := max (ncols x) (ncols y)
    let rows := x.rshape.getLastD 0
    let labels ← lineLabels label n
    return (List.range n).map fun j =>
      { points := (colOf x rows (j % ncols x)).zip (colOf y rows (j % ncols y)), label := labels.getD j .none }

/-- `plot.py:175-179` and `337-341`: the label, if one was given -/
def labelArg (label : Option Label) (yy : NdArr ℝ) : Except PyErr Resolved :=
  match label with
  | none => .ok (.single .none)
  | some l => resolveLabel l yy.rshape

/-- `np.sum` -/
def npSum (a : NdArr ℝ) : ℝ := ((indices a.rshape).map a.get).sum

/-- `plot.py:121-127,161-162,171-187`, a continuous class: grid, function, label, lines -/
noncomputable def plotContinuous {D : Type → Type} [Plottable D] (func : Except PyErr (D ℝ → ℝ → ℝ)) (s : PlotState ℝ)
    (d : D Field) (label : Option Label) : Except PyErr (List Line) := do
  let xs ← s.xValues continuousXValues
  let f ← func
  let yy ← evalOn f d xs
  let l ← labelArg label yy
  axPlot (xArray d xs) yy l

/-- `plot.py:234-253,309-310,312-357`, a discrete class; `conditional` divides by the sum of the whole table -/
noncomputable def plotDiscrete {D : Type → Type} [Plottable D] (func : Except PyErr (D ℝ → ℝ → ℝ)) (s : PlotState ℝ)
    (d : D Field) (conditional : Bool) (label : Option Label) : Except PyErr (List Line) := do
  let xs ← s.xValues discreteXValues
  let f ← func
  let yy ← evalOn f d xs
  let yy := if conditional then yy.map (· / npSum yy) else yy
  let l ← labelArg label yy
  axPlot (xArray d xs) yy l

/-! ## The functions that are drawn -/

/-- SciPy's `cdf` of a continuous distribution: the integral of the pdf up to `x` -/
noncomputable def Scipy.Cont.cdf (d : Cont) (x : ℝ) : ℝ := ∫ t in Set.Iic x, d.pdf t

/-- SciPy's `pmf` at any number: zero off the integers -/
noncomputable def Scipy.Disc.pmfAt (d : Disc) (x : ℝ) : ℝ := if x = (⌊x⌋ : ℝ) then d.pmf ⌊x⌋ else 0

/-- SciPy's `cdf` of a discrete distribution: the sum of the pmf up to `x` -/
noncomputable def Scipy.Disc.cdf (d : Disc) (x : ℝ) : ℝ := ∑' k : ℤ, if (k : ℝ) ≤ x then d.pmf k else 0

/-- the classes with `plot_pdf`: the functions `dist.pdf` and `dist.cdf` for scalar parameters -/
class ContPlot (D : Type → Type) extends Plottable D where
  pdf : D ℝ → ℝ → ℝ
  cdf : Except PyErr (D ℝ → ℝ → ℝ)

/-- the classes with `plot_pmf`: the functions `dist.pmf` and `dist.cdf` for scalar parameters -/
class DiscPlot (D : Type → Type) extends Plottable D where
  pmf : D ℝ → ℝ → ℝ
  cdf : Except PyErr (D ℝ → ℝ → ℝ)

/-- `plot.py:129-143`: `self.plot_pdf(label=label)`; `s` holds the bounds of the instance -/
noncomputable def plot_pdf {D : Type → Type} [ContPlot D] (s : PlotState ℝ) (d : D Field) (label : Option Label) :
    Except PyErr (List Line) := plotContinuous (.ok ContPlot.pdf) s d label

/-- `plot.py:145-159`: `plot_cdf` of a continuous class -/
noncomputable def plot_cdf {D : Type → Type} [ContPlot D] (s : PlotState ℝ) (d : D Field) (label : Option Label) :
    Except PyErr (List Line) := plotContinuous ContPlot.cdf s d label

/-- `plot.py:255-283`: `plot_pmf` -/
noncomputable def plot_pmf {D : Type → Type} [DiscPlot D] (s : PlotState ℝ) (d : D Field) (conditional : Bool)
    (label : Option Label) : Except PyErr (List Line) := plotDiscrete (.ok DiscPlot.pmf) s d conditional label

/-- `plot.py:285-307`: `plot_cdf` of a discrete class -/
noncomputable def plot_cdf_discrete {D : Type → Type} [DiscPlot D] (s : PlotState ℝ) (d : D Field) (conditional : Bool)
    (label : Option Label) : Except PyErr (List Line) := plotDiscrete DiscPlot.cdf s d conditional label

/-! ## The classes -/

/-- `distributions.py:66-102` -/
instance : Plottable Beta where
  params d := [d.alpha, d.beta]
  hasFlag := false
  all_iff {p d} := by simp [Params.All]

/-- `distributions.py:206-218` -/
instance : Plottable Exponential where
  params d := [d.lam]
  hasFlag := false
  all_iff {p d} := by simp [Params.All]

/-- `distributions.py:227-247` -/
instance : Plottable Gamma where
  params d := [d.alpha, d.beta]
  hasFlag := false
  all_iff {p d} := by simp [Params.All]

/-- `distributions.py:426-440` -/
instance : Plottable Normal where
  params d := [d.mu, d.sigma]
  hasFlag := false
  all_iff {p d} := by simp [Params.All]

/-- `distributions.py:489-507` -/
instance : Plottable Uniform where
  params d := [d.low, d.high]
  hasFlag := false
  all_iff {p d} := by simp [Params.All]

/-- `distributions.py:511-525` -/
instance : Plottable Pareto where
  params d := [d.x_m, d.alpha]
  hasFlag := false
  all_iff {p d} := by simp [Params.All]

/-- `distributions.py:529-543` -/
instance : Plottable InverseGamma where
  params d := [d.alpha, d.beta]
  hasFlag := false
  all_iff {p d} := by simp [Params.All]

/-- `distributions.py:671-687` -/
instance : Plottable StudentT where
  params d := [d.mu, d.sigma, d.nu]
  hasFlag := false
  all_iff {p d} := by simp [Params.All]

/-- `distributions.py:719-733` -/
instance : Plottable Lomax where
  params d := [d.alpha, d.lam]
  hasFlag := false
  all_iff {p d} := by simp [Params.All]

/-- `distributions.py:737-753` -/
instance : Plottable CompoundGamma where
  params d := [d.alpha, d.beta, d.lam]
  hasFlag := false
  all_iff {p d} := by simp [Params.All]

/-- `distributions.py:873-891` -/
instance : Plottable VonMises where
  params d := [d.mu, d.kappa]
  hasFlag := false
  all_iff {p d} := by simp [Params.All]

/-- `distributions.py:955-997` -/
instance : Plottable ScaledInverseChiSquared where
  params d := [d.nu, d.sigma2]
  hasFlag := false
  all_iff {p d} := by simp [Params.All]

/-- `distributions.py:1293-1307` -/
instance : Plottable LogNormal where
  params d := [d.mu, d.sigma]
  hasFlag := false
  all_iff {p d} := by simp [Params.All]

/-- `distributions.py:1311-1356` -/
instance : Plottable Weibull where
  params d := [d.beta, d.theta]
  hasFlag := false
  all_iff {p d} := by simp [Params.All]

/-- `distributions.py:106-126` -/
instance : Plottable Binomial where
  params d := [d.n, d.p]
  hasFlag := false
  all_iff {p d} := by simp [Params.All]

/-- `distributions.py:256-270` -/
instance : Plottable NegativeBinomial where
  params d := [d.n, d.p]
  hasFlag := false
  all_iff {p d} := by simp [Params.All]

/-- `distributions.py:279-301` -/
instance : Plottable Hypergeometric where
  params d := [d.N, d.k, d.n]
  hasFlag := false
  all_iff {p d} := by simp [Params.All]

/-- `distributions.py:305-317` -/
instance : Plottable Poisson where
  params d := [d.lam]
  hasFlag := false
  all_iff {p d} := by simp [Params.All]

/-- `distributions.py:331-353` -/
instance : Plottable BetaBinomial where
  params d := [d.n, d.alpha, d.beta]
  hasFlag := false
  all_iff {p d} := by simp [Params.All]

/-- `distributions.py:357-383` -/
instance : Plottable BetaNegativeBinomial where
  params d := [d.n, d.alpha, d.beta]
  hasFlag := false
  all_iff {p d} := by simp [Params.All]

/-- `distributions.py:387-402` -/
instance : Plottable Geometric where
  params d := [d.p]
  hasFlag := true
  all_iff {p d} := by simp [Params.All]

/-- `distributions.py:406-422` -/
instance : Plottable BetaGeometric where
  params d := [d.alpha, d.beta]
  hasFlag := true
  all_iff {p d} := by simp [Params.All]

noncomputable instance : ContPlot Beta where
  pdf d := d.dist.pdf
  cdf := .ok fun d => d.dist.cdf

noncomputable instance : ContPlot Exponential where
  pdf d := d.dist.pdf
  cdf := .ok fun d => d.dist.cdf

noncomputable instance : ContPlot Gamma where
  pdf d := d.dist.pdf
  cdf := .ok fun d => d.dist.cdf

noncomputable instance : ContPlot Normal where
  pdf d := d.dist.pdf
  cdf := .ok fun d => d.dist.cdf

noncomputable instance : ContPlot Uniform where
  pdf d := d.dist.pdf
  cdf := .ok fun d => d.dist.cdf

noncomputable instance : ContPlot Pareto where
  pdf d := d.dist.pdf
  cdf := .ok fun d => d.dist.cdf

noncomputable instance : ContPlot InverseGamma where
  pdf d := d.dist.pdf
  cdf := .ok fun d => d.dist.cdf

noncomputable instance : ContPlot StudentT where
  pdf d := d.dist.pdf
  cdf := .ok fun d => d.dist.cdf

noncomputable instance : ContPlot Lomax where
  pdf d := d.dist.pdf
  cdf := .ok fun d => d.dist.cdf

/-- `_compound_gamma.py:11-35`: the class has no `cdf` -/
noncomputable instance : ContPlot CompoundGamma where
  pdf d := d.pdf
  cdf := .error .attributeError

noncomputable instance : ContPlot VonMises where
  pdf d := d.dist.pdf
  cdf := .ok fun d => d.dist.cdf

noncomputable instance : ContPlot ScaledInverseChiSquared where
  pdf d := d.dist.pdf
  cdf := .ok fun d => d.dist.cdf

noncomputable instance : ContPlot LogNormal where
  pdf d := d.dist.pdf
  cdf := .ok fun d => d.dist.cdf

noncomputable instance : ContPlot Weibull where
  pdf d := d.dist.pdf
  cdf := .ok fun d => d.dist.cdf

noncomputable instance : DiscPlot Binomial where
  pmf d := d.dist.pmfAt
  cdf := .ok fun d => d.dist.cdf

noncomputable instance : DiscPlot NegativeBinomial where
  pmf d := d.dist.pmfAt
  cdf := .ok fun d => d.dist.cdf

noncomputable instance : DiscPlot Hypergeometric where
  pmf d := d.dist.pmfAt
  cdf := .ok fun d => d.dist.cdf

noncomputable instance : DiscPlot Poisson where
  pmf d := d.dist.pmfAt
  cdf := .ok fun d => d.dist.cdf

noncomputable instance : DiscPlot BetaBinomial where
  pmf d := d.dist.pmfAt
  cdf := .ok fun d => d.dist.cdf

noncomputable instance : DiscPlot BetaNegativeBinomial where
  pmf d := d.dist.pmfAt
  cdf := .ok fun d => d.dist.cdf

noncomputable instance : DiscPlot Geometric where
  pmf d := d.dist.pmfAt
  cdf := .ok fun d => d.dist.cdf

/-- `_beta_geometric.py:18-48`: the class has no `cdf` -/
noncomputable instance : DiscPlot BetaGeometric where
  pmf d := d.pmf
  cdf := .error .attributeError

end Conj
