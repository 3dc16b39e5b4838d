import Verif.Num
import Mathlib.Analysis.SpecialFunctions.Gamma.Basic
import Mathlib.Analysis.SpecialFunctions.Trigonometric.Basic
import Mathlib.Analysis.SpecialFunctions.Complex.Arg
import Mathlib.MeasureTheory.Integral.IntervalIntegral.Basic

/-!
# What SciPy's constructors mean (trusted)

`scipy.stats` is not part of `/repo`.  This file writes down, once, the pdf / pmf that
SciPy documents for each frozen distribution the library builds.  Continuous families
are in standard form; `loc` and `scale` act by `pdf(x) = std((x - loc) / scale) / scale`.
For parameters outside a family's parameter space SciPy returns `nan`; the formulas
below are only used with a validity hypothesis in the theorems.
-/

open MeasureTheory

namespace Conj.Scipy

/-- `scipy.special.beta` -/
noncomputable def betaFn (a b : ℝ) : ℝ := Real.Gamma a * Real.Gamma b / Real.Gamma (a + b)

/-- `scipy.special.gammaln` on positive arguments -/
noncomputable def gammaln (a : ℝ) : ℝ := Real.log (Real.Gamma a)

/-- `scipy.special.i0`: the modified Bessel function of order zero -/
noncomputable def i0 (k : ℝ) : ℝ := (1 / Real.pi) * ∫ t in (0 : ℝ)..Real.pi, Real.exp (k * Real.cos t)

/-- `np.arctan2(y, x)`: the angle of the point `(x, y)` in `(-pi, pi]` -/
noncomputable def arctan2 (y x : ℝ) : ℝ := Complex.arg ⟨x, y⟩

/-- the binomial coefficient at real arguments, as in `scipy.special.binom` -/
noncomputable def choose (n k : ℝ) : ℝ :=
  Real.Gamma (n + 1) / (Real.Gamma (k + 1) * Real.Gamma (n - k + 1))

/-- continuous families (shape parameters only) -/
inductive Family
  | beta (a b : ℝ)
  | gamma (a : ℝ)
  | norm
  | t (df : ℝ)
  | invgamma (a : ℝ)
  | pareto (b : ℝ)
  | lomax (c : ℝ)
  | uniform
  | expon
  | lognorm (s : ℝ)
  | weibull_min (c : ℝ)
  | vonmises (kappa : ℝ)

open Classical in
/-- standard-form densities of SciPy's reference -/
noncomputable def Family.std : Family → ℝ → ℝ
  | .beta a b, x => if 0 ≤ x ∧ x ≤ 1 then
      Real.Gamma (a + b) / (Real.Gamma a * Real.Gamma b) * x ^ (a - 1) * (1 - x) ^ (b - 1) else 0
  | .gamma a, x => if 0 ≤ x then x ^ (a - 1) * Real.exp (-x) / Real.Gamma a else 0
  | .norm, x => Real.exp (-x ^ 2 / 2) / Real.sqrt (2 * Real.pi)
  | .t df, x => Real.Gamma ((df + 1) / 2) / (Real.sqrt (Real.pi * df) * Real.Gamma (df / 2))
      * (1 + x ^ 2 / df) ^ (-(df + 1) / 2)
  | .invgamma a, x => if 0 < x then x ^ (-a - 1) / Real.Gamma a * Real.exp (-1 / x) else 0
  | .pareto b, x => if 1 ≤ x then b / x ^ (b + 1) else 0
  | .lomax c, x => if 0 ≤ x then c / (1 + x) ^ (c + 1) else 0
  | .uniform, x => if 0 ≤ x ∧ x ≤ 1 then 1 else 0
  | .expon, x => if 0 ≤ x then Real.exp (-x) else 0
  | .lognorm s, x => if 0 < x then
      1 / (s * x * Real.sqrt (2 * Real.pi)) * Real.exp (-(Real.log x) ^ 2 / (2 * s ^ 2)) else 0
  | .weibull_min c, x => if 0 ≤ x then c * x ^ (c - 1) * Real.exp (-x ^ c) else 0
  | .vonmises kappa, x => Real.exp (kappa * Real.cos x) / (2 * Real.pi * i0 kappa)

/-- a frozen continuous distribution `stats.<family>(..., loc, scale)` -/
structure Cont where
  family : Family
  loc : ℝ := 0
  scale : ℝ := 1

/-- `frozen.pdf(x)` -/
noncomputable def Cont.pdf (d : Cont) (x : ℝ) : ℝ := d.family.std ((x - d.loc) / d.scale) / d.scale

/-- frozen discrete distributions -/
inductive DiscFamily
  | binom (n p : ℝ)
  | nbinom (n p : ℝ)
  | hypergeom (M n N : ℝ)
  | poisson (mu : ℝ)
  | betabinom (n a b : ℝ)
  | betanbinom (n a b : ℝ)
  | geom (p : ℝ)

open Classical in
/-- pmfs of SciPy's reference (`loc = 0`) -/
noncomputable def DiscFamily.pmf0 : DiscFamily → ℤ → ℝ
  | .binom n p, k => if 0 ≤ k ∧ (k : ℝ) ≤ n then choose n k * p ^ (k : ℝ) * (1 - p) ^ (n - k) else 0
  | .nbinom n p, k => if 0 ≤ k then
      choose (k + n - 1) k * p ^ n * (1 - p) ^ (k : ℝ) else 0
  | .hypergeom M n N, k => if max 0 (N - (M - n)) ≤ k ∧ (k : ℝ) ≤ min n N then
      choose n k * choose (M - n) (N - k) / choose M N else 0
  | .poisson mu, k => if 0 ≤ k then Real.exp (-mu) * mu ^ (k : ℝ) / Real.Gamma (k + 1) else 0
  | .betabinom n a b, k => if 0 ≤ k ∧ (k : ℝ) ≤ n then
      choose n k * betaFn (k + a) (n - k + b) / betaFn a b else 0
  | .betanbinom n a b, k => if 0 ≤ k then
      choose (n + k - 1) k * betaFn (a + n) (b + k) / betaFn a b else 0
  | .geom p, k => if 1 ≤ k then (1 - p) ^ ((k : ℝ) - 1) * p else 0

/-- `stats.<family>(..., loc=loc)`; the library only uses integer `loc`. -/
structure Disc where
  family : DiscFamily
  loc : ℤ := 0

/-- `frozen.pmf(k)` at integers -/
noncomputable def Disc.pmf (d : Disc) (k : ℤ) : ℝ := d.family.pmf0 (k - d.loc)

/-- On natural numbers `choose` is the usual binomial coefficient. -/
theorem choose_natCast {n k : ℕ} (h : k ≤ n) : choose n k = (n.choose k : ℝ) := by
  have h1 : (n : ℝ) - k = ((n - k : ℕ) : ℝ) := by push_cast [h]; ring
  rw [choose, h1, Real.Gamma_nat_eq_factorial, Real.Gamma_nat_eq_factorial,
    Real.Gamma_nat_eq_factorial, Nat.cast_choose ℝ h]

end Conj.Scipy
