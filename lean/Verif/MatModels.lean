import Verif.Dist
import Mathlib.LinearAlgebra.Matrix.NonsingularInverse
import Mathlib.Data.Real.Basic

/-!
# The matrix models of `conjugate/models.py`

Vectors are functions on a finite index type `p`, matrices are Mathlib matrices over `ℝ`
(exact arithmetic, no rounding).  Observations are one row per index of `m`;
`X.shape[0]` is the number of rows.  `y` is a one-dimensional response vector, for which
`y.T` is `y`.
-/

namespace Conj

open Matrix

variable {m p : Type} [Fintype m] [Fintype p] [DecidableEq p]

/-- a matrix inversion function that may raise -/
abbrev InvFn (p : Type) := Matrix p p ℝ → Except PyErr (Matrix p p ℝ)

/-- `np.linalg.inv`: raises `LinAlgError` for a singular matrix -/
noncomputable def linalgInv : InvFn p := fun A =>
  open Classical in if A.det = 0 then .error .linAlg else .ok A⁻¹

/-- `models.py:1370-1421`. `inv(None)` (no `delta_inverse`) is `LinAlgError` for
`np.linalg.inv`; other inversion functions are not consulted about `None` in the model. -/
noncomputable def linear_regression (X : Matrix m p ℝ) (y : m → ℝ)
    (prior : NormalInverseGamma ℝ (p → ℝ) (Matrix p p ℝ)) (inv : InvFn p := linalgInv) :
    Except PyErr (NormalInverseGamma ℝ (p → ℝ) (Matrix p p ℝ)) := do
  let N : ℝ := (Fintype.card m : ℝ)
  let delta ← match prior.delta_inverse with
    | none => .error .linAlg
    | some di => inv di
  let delta_post := (Xᵀ * X) + delta
  let delta_post_inverse ← inv delta_post
  let mu_post := delta_post_inverse *ᵥ (delta *ᵥ prior.mu + Xᵀ *ᵥ y)
  let alpha_post := prior.alpha + (1 / 2 * N)
  let beta_post := prior.beta +
    (1 / 2 * ((y ⬝ᵥ y) + (prior.mu ⬝ᵥ delta *ᵥ prior.mu) - (mu_post ⬝ᵥ delta_post *ᵥ mu_post)))
  NormalInverseGamma.new (mu := mu_post) (delta_inverse := some delta_post_inverse)
    (alpha := alpha_post) (beta := beta_post)

/-- `models.py:1424-1452`. With `delta_inverse = None` line 1443 evaluates `X @ None`:
TypeError. `eye` is `np.eye`. -/
noncomputable def linear_regression_predictive [DecidableEq m]
    (distribution : NormalInverseGamma ℝ (p → ℝ) (Matrix p p ℝ)) (X : Matrix m p ℝ) :
    Except PyErr (MultivariateStudentT ℝ (m → ℝ) (Matrix m m ℝ)) := do
  let mu := X *ᵥ distribution.mu
  let di ← match distribution.delta_inverse with
    | none => .error .typeError
    | some di => .ok di
  let sigma := (distribution.beta / distribution.alpha) • (1 + (X * di * Xᵀ))
  let nu := 2 * distribution.alpha
  return { mu := mu, sigma := sigma, nu := nu }

/-- `models.py:1718-1731` -/
noncomputable def multivariateNormalKnownPrecisionParams (n : ℝ) (x_bar_0 : p → ℝ)
    (precision_0 : Matrix p p ℝ) (x_bar : p → ℝ) (precision : Matrix p p ℝ)
    (inv : InvFn p := linalgInv) : Except PyErr ((p → ℝ) × Matrix p p ℝ) := do
  let i ← inv (precision_0 + n • precision)
  let mu_post := i *ᵥ ((precision_0 *ᵥ x_bar_0) + (n • (precision *ᵥ x_bar)))
  let precision_post := precision_0 + (n • precision)
  return (mu_post, precision_post)

/-- `models.py:1734-1769`. The helper is called without `inv` (lines 1761-1767), so it uses
its own default `np.linalg.inv`. -/
noncomputable def multivariate_normal_known_covariance (n : ℝ) (x_bar : p → ℝ)
    (cov : Matrix p p ℝ) (prior : MultivariateNormal (p → ℝ) (Matrix p p ℝ))
    (inv : InvFn p := linalgInv) :
    Except PyErr (MultivariateNormal (p → ℝ) (Matrix p p ℝ)) := do
  let mu_bar_0 := prior.mu
  let precision_0 ← inv prior.cov
  let precision ← inv cov
  let r ← multivariateNormalKnownPrecisionParams n mu_bar_0 precision_0 x_bar precision
  let cov_post ← inv r.2
  return { mu := r.1, cov := cov_post }

/-- `models.py:1772-1790` -/
def multivariate_normal_known_covariance_predictive
    (distribution : MultivariateNormal (p → ℝ) (Matrix p p ℝ)) (cov : Matrix p p ℝ) :
    MultivariateNormal (p → ℝ) (Matrix p p ℝ) :=
  { mu := distribution.mu, cov := distribution.cov + cov }

/-- `models.py:1793-1826`. The helper is called without `inv` (lines 1818-1824). -/
noncomputable def multivariate_normal_known_precision (n : ℝ) (x_bar : p → ℝ)
    (precision : Matrix p p ℝ) (prior : MultivariateNormal (p → ℝ) (Matrix p p ℝ))
    (inv : InvFn p := linalgInv) :
    Except PyErr (MultivariateNormal (p → ℝ) (Matrix p p ℝ)) := do
  let mu_0 := prior.mu
  let precision_0 ← inv prior.cov
  let r ← multivariateNormalKnownPrecisionParams n mu_0 precision_0 x_bar precision
  let cov_post ← inv r.2
  return { mu := r.1, cov := cov_post }

/-- `models.py:1829-1849` -/
noncomputable def multivariate_normal_known_precision_predictive
    (distribution : MultivariateNormal (p → ℝ) (Matrix p p ℝ)) (precision : Matrix p p ℝ)
    (inv : InvFn p := linalgInv) :
    Except PyErr (MultivariateNormal (p → ℝ) (Matrix p p ℝ)) := do
  let i ← inv precision
  return { mu := distribution.mu, cov := distribution.cov + i }

/-- numpy's `X - v` with `v` broadcast over the rows -/
def subRow (X : Matrix m p ℝ) (v : p → ℝ) : Matrix m p ℝ := Matrix.of fun i j => X i j - v j

/-- `models.py:1852-1876` -/
def multivariate_normal_known_mean (X : Matrix m p ℝ) (mu : p → ℝ)
    (prior : InverseWishart ℝ (Matrix p p ℝ)) : InverseWishart ℝ (Matrix p p ℝ) :=
  let nu_post := prior.nu + (Fintype.card m : ℝ)
  let psi_post := prior.psi + (subRow X mu)ᵀ * (subRow X mu)
  { nu := nu_post, psi := psi_post }

/-- `X.mean(axis=0)`; with no rows numpy returns `nan` entries (and a warning). -/
noncomputable def meanAxis0 (X : Matrix m p ℝ) : Except PyErr (p → ℝ) :=
  if Fintype.card m = 0 then .error .nanResult
  else .ok fun j => (∑ i, X i j) / (Fintype.card m : ℝ)

/-- `models.py:1879-1960`; `outer` is `np.outer`. `error nanResult` stands for a posterior
with `nan` entries (no rows). Division by a zero `kappa + n` (only for a negative `kappa`)
is excluded by the theorems' hypotheses. -/
noncomputable def multivariate_normal (X : Matrix m p ℝ)
    (prior : NormalInverseWishart ℝ (p → ℝ) (Matrix p p ℝ)) :
    Except PyErr (NormalInverseWishart ℝ (p → ℝ) (Matrix p p ℝ)) := do
  let n : ℝ := (Fintype.card m : ℝ)
  let X_mean ← meanAxis0 X
  let C := (subRow X X_mean)ᵀ * (subRow X X_mean)
  let mu_post := fun j => (prior.mu j * prior.kappa + n * X_mean j) / (prior.kappa + n)
  let kappa_post := prior.kappa + n
  let nu_post := prior.nu + n
  let mean_difference := X_mean - prior.mu
  let psi_post := prior.psi + C + Matrix.of fun i j =>
    vecMulVec mean_difference mean_difference i j * n * prior.kappa / kappa_post
  return { mu := mu_post, kappa := kappa_post, nu := nu_post, psi := psi_post }

/-- `models.py:1963-2065` -/
noncomputable def multivariate_normal_predictive
    (distribution : NormalInverseWishart ℝ (p → ℝ) (Matrix p p ℝ)) :
    MultivariateStudentT ℝ (p → ℝ) (Matrix p p ℝ) :=
  let np : ℝ := (Fintype.card p : ℝ)
  let mu := distribution.mu
  let nu := distribution.nu - np + 1
  let sigma := Matrix.of fun i j => (distribution.kappa + 1) * distribution.psi i j /
    (distribution.kappa * (distribution.nu - np + 1))
  { mu := mu, sigma := sigma, nu := nu }

/-- `distributions.py:480-485`, integer key -/
noncomputable def MultivariateNormal.getInt (self : MultivariateNormal (p → ℝ) (Matrix p p ℝ))
    (i : p) : Normal ℝ :=
  { mu := self.mu i, sigma := powq (self.cov i i) (1 / 2) }

/-- `distributions.py:480-485`, a list of indices (fancy indexing): `cov[key][:, key]` -/
def MultivariateNormal.getList {k : Type} (self : MultivariateNormal (p → ℝ) (Matrix p p ℝ))
    (key : k → p) : MultivariateNormal (k → ℝ) (Matrix k k ℝ) :=
  { mu := fun j => self.mu (key j), cov := self.cov.submatrix key key }

/-- `distributions.py:709-715`, integer key -/
def MultivariateStudentT.getInt (self : MultivariateStudentT ℝ (p → ℝ) (Matrix p p ℝ))
    (i : p) : StudentT ℝ :=
  { mu := self.mu i, sigma := self.sigma i i, nu := self.nu }

/-- `distributions.py:709-715`, a list of indices -/
def MultivariateStudentT.getList {k : Type}
    (self : MultivariateStudentT ℝ (p → ℝ) (Matrix p p ℝ)) (key : k → p) :
    MultivariateStudentT ℝ (k → ℝ) (Matrix k k ℝ) :=
  { mu := fun j => self.mu (key j), sigma := self.sigma.submatrix key key, nu := self.nu }

end Conj
