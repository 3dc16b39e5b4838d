import Verif.Dist
import Verif.Scipy
import Verif.DistMap
import Mathlib.LinearAlgebra.Matrix.NonsingularInverse

/-!
# What SciPy's multivariate constructors mean (trusted), and the matrix `.dist` properties

Densities of SciPy's reference for `multivariate_normal`, `multivariate_t`, `invwishart`,
`wishart` with positive definite matrix parameters, with respect to Lebesgue measure.
-/

namespace Conj.Scipy

open Matrix Real

variable {p : Type} [Fintype p] [DecidableEq p]

/-- the quadratic form `vᵀ A v` -/
def quad (A : Matrix p p ℝ) (v : p → ℝ) : ℝ := v ⬝ᵥ A *ᵥ v

/-- `stats.multivariate_normal(mean, cov).pdf(x)` -/
noncomputable def mvnPdf (mean : p → ℝ) (cov : Matrix p p ℝ) (x : p → ℝ) : ℝ :=
  exp (-(1 / 2) * quad cov⁻¹ (x - mean)) / √((2 * π) ^ (Fintype.card p : ℝ) * cov.det)

/-- `stats.multivariate_t(loc, shape, df).pdf(x)` -/
noncomputable def mvtPdf (loc : p → ℝ) (shape : Matrix p p ℝ) (df : ℝ) (x : p → ℝ) : ℝ :=
  let d : ℝ := (Fintype.card p : ℝ)
  Real.Gamma ((df + d) / 2) /
      (Real.Gamma (df / 2) * df ^ (d / 2) * π ^ (d / 2) * shape.det ^ ((1 : ℝ) / 2)) *
    (1 + 1 / df * quad shape⁻¹ (x - loc)) ^ (-(df + d) / 2)

/-- the multivariate gamma function (`scipy.special.multigammaln` is its log) -/
noncomputable def multigamma (a : ℝ) (d : ℕ) : ℝ :=
  π ^ ((d : ℝ) * (d - 1) / 4) * ∏ j ∈ Finset.range d, Real.Gamma (a - (j : ℝ) / 2)

/-- `stats.invwishart(df, scale).pdf(x)` at a positive definite `x` -/
noncomputable def invwishartPdf (df : ℝ) (scale x : Matrix p p ℝ) : ℝ :=
  let d : ℝ := (Fintype.card p : ℝ)
  scale.det ^ (df / 2) / (2 ^ (df * d / 2) * multigamma (df / 2) (Fintype.card p)) *
    x.det ^ (-(df + d + 1) / 2) * exp (-(1 / 2) * (scale * x⁻¹).trace)

/-- `stats.wishart(df, scale).pdf(x)` at a positive definite `x` -/
noncomputable def wishartPdf (df : ℝ) (scale x : Matrix p p ℝ) : ℝ :=
  let d : ℝ := (Fintype.card p : ℝ)
  x.det ^ ((df - d - 1) / 2) * exp (-(1 / 2) * (scale⁻¹ * x).trace) /
    (2 ^ (df * d / 2) * scale.det ^ (df / 2) * multigamma (df / 2) (Fintype.card p))

end Conj.Scipy

namespace Conj

open Scipy

variable {p : Type} [Fintype p] [DecidableEq p]

/-- `distributions.py:476-478`: `stats.multivariate_normal(mean=self.mu, cov=self.cov).pdf` -/
noncomputable def MultivariateNormal.pdf (self : MultivariateNormal (p → ℝ) (Matrix p p ℝ)) :
    (p → ℝ) → ℝ := mvnPdf self.mu self.cov

/-- `distributions.py:705-707`: `stats.multivariate_t(loc, shape, df).pdf` -/
noncomputable def MultivariateStudentT.pdf
    (self : MultivariateStudentT ℝ (p → ℝ) (Matrix p p ℝ)) : (p → ℝ) → ℝ :=
  mvtPdf self.mu self.sigma self.nu

/-- `distributions.py:1096-1098`: `stats.invwishart(df=self.nu, scale=self.psi).pdf` -/
noncomputable def InverseWishart.pdf (self : InverseWishart ℝ (Matrix p p ℝ)) :
    Matrix p p ℝ → ℝ := invwishartPdf self.nu self.psi

/-- `distributions.py:1114-1116`: `stats.wishart(df=self.nu, scale=self.V).pdf` -/
noncomputable def Wishart.pdf (self : Wishart ℝ (Matrix p p ℝ)) :
    Matrix p p ℝ → ℝ := wishartPdf self.nu self.V

/-- Joint density of (coefficients, variance) under a multivariate `NormalInverseGamma`
(`distributions.py:607-667`): the variance is drawn from an inverse gamma with `alpha` and `beta`, the
coefficients from `stats.multivariate_normal(self.mu, delta_inverse * variance)`. -/
noncomputable def NormalInverseGamma.jointPdfNd
    (self : NormalInverseGamma ℝ (p → ℝ) (Matrix p p ℝ)) (delta_inverse : Matrix p p ℝ)
    (beta : p → ℝ) (variance : ℝ) : ℝ :=
  (InverseGamma.dist { alpha := self.alpha, beta := self.beta }).pdf variance *
    mvnPdf self.mu (variance • delta_inverse) beta

/-- Joint density of (mean, covariance) under a `NormalInverseWishart` (the documented
distribution: covariance from an inverse Wishart with `nu` and `psi`, mean from a normal with
covariance divided by `kappa`; `distributions.py:1205-1225`). -/
noncomputable def NormalInverseWishart.jointPdf
    (self : NormalInverseWishart ℝ (p → ℝ) (Matrix p p ℝ)) (mean : p → ℝ)
    (cov : Matrix p p ℝ) : ℝ :=
  invwishartPdf self.nu self.psi cov * mvnPdf self.mu ((1 / self.kappa) • cov) mean

/-- Joint density of (mean, precision matrix) under a `NormalWishart` (the documented distribution:
precision from a Wishart with `nu` degrees of freedom and scale `W`, mean from a normal whose precision is `lam` times that;
`distributions.py:1119-1140`). -/
noncomputable def NormalWishart.jointPdf
    (self : NormalWishart ℝ (p → ℝ) (Matrix p p ℝ)) (mean : p → ℝ)
    (precision : Matrix p p ℝ) : ℝ :=
  wishartPdf self.nu self.W precision * mvnPdf self.mu (self.lam • precision)⁻¹ mean

end Conj
