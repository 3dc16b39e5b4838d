import Verif.Dist
import Mathlib.Analysis.SpecialFunctions.Gamma.Basic
import Mathlib.MeasureTheory.Integral.Bochner.Set
import Mathlib.MeasureTheory.Constructions.Pi

/-!
# SciPy's `dirichlet`, `multinomial` and `dirichlet_multinomial`

Formulas of the SciPy reference.  `k + 1` categories; a probability vector is given by its first `k`
entries, the last one is one minus their sum (SciPy accepts both forms in `dirichlet.pdf`), and densities are with
respect to Lebesgue measure in these `k` coordinates.
-/

open scoped BigOperators Nat

namespace Conj

variable {k : ℕ}

/-- the open simplex, in the first `k` coordinates -/
def simplex (k : ℕ) : Set (Fin k → ℝ) := {p | (∀ i, 0 < p i) ∧ ∑ i, p i < 1}

/-- the full probability vector -/
def fullVector (p : Fin k → ℝ) : Fin (k + 1) → ℝ := Fin.snoc p (1 - ∑ i, p i)

namespace Scipy

/-- `stats.dirichlet.pdf` -/
noncomputable def dirichletPdf (alpha : Fin (k + 1) → ℝ) (q : Fin (k + 1) → ℝ) : ℝ :=
  Real.Gamma (∑ i, alpha i) / (∏ i, Real.Gamma (alpha i)) * ∏ i, q i ^ (alpha i - 1)

/-- `stats.multinomial.pmf` -/
noncomputable def multinomialPmf (n : ℝ) (q : Fin (k + 1) → ℝ) (x : Fin (k + 1) → ℕ) : ℝ :=
  if (∑ i, (x i : ℝ)) = n then
    Real.Gamma (n + 1) / (∏ i, Real.Gamma (x i + 1)) * ∏ i, q i ^ x i
  else 0

/-- `stats.dirichlet_multinomial.pmf` -/
noncomputable def dirichletMultinomialPmf (alpha : Fin (k + 1) → ℝ) (n : ℝ) (x : Fin (k + 1) → ℕ) : ℝ :=
  if (∑ i, (x i : ℝ)) = n then
    Real.Gamma (∑ i, alpha i) * Real.Gamma (n + 1) / Real.Gamma (n + ∑ i, alpha i) *
      ∏ i, (Real.Gamma (x i + alpha i) / (Real.Gamma (alpha i) * Real.Gamma (x i + 1)))
  else 0

end Scipy

/-- `distributions.py:161-166`: the density of `stats.dirichlet(self.alpha)` -/
noncomputable def Dirichlet.pdf (self : Dirichlet (Fin (k + 1) → ℝ)) (q : Fin (k + 1) → ℝ) : ℝ :=
  Scipy.dirichletPdf self.alpha q

/-- `distributions.py:181-183`: `stats.multinomial(n=self.n, p=self.p)` -/
noncomputable def Multinomial.pmf (self : Multinomial ℝ (Fin (k + 1) → ℝ)) (x : Fin (k + 1) → ℕ) : ℝ :=
  Scipy.multinomialPmf self.n self.p x

/-- `distributions.py:201-203`: `stats.dirichlet_multinomial(self.alpha, self.n)` -/
noncomputable def DirichletMultinomial.pmf (self : DirichletMultinomial ℝ (Fin (k + 1) → ℝ))
    (x : Fin (k + 1) → ℕ) : ℝ :=
  Scipy.dirichletMultinomialPmf self.alpha self.n x

end Conj
