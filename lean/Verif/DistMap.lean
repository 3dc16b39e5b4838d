import Verif.Dist
import Verif.Scipy

/-!
# The `.dist` properties of `conjugate/distributions.py`, at real parameters

Each definition is the constructor call of the Python property, positional arguments
resolved to SciPy's signature (`stats.norm(loc, scale)`, `stats.uniform(loc, scale)`,
`stats.t(df, loc, scale)`, `stats.hypergeom(M, n, N)`, ...).
-/

namespace Conj

open Scipy

/-- `distributions.py:100-102`: `stats.beta(self.alpha, self.beta)` -/
def Beta.dist (self : Beta ℝ) : Cont := { family := .beta self.alpha self.beta }

/-- `distributions.py:124-126`: `stats.binom(n=self.n, p=self.p)` -/
def Binomial.dist (self : Binomial ℝ) : Disc := { family := .binom self.n self.p }

/-- `distributions.py:216-218`: `stats.expon(scale=self.lam)` -/
noncomputable def Exponential.dist (self : Exponential ℝ) : Cont :=
  { family := .expon, scale := self.lam }

/-- `distributions.py:245-247`: `stats.gamma(a=self.alpha, scale=1 / self.beta)` -/
noncomputable def Gamma.dist (self : Gamma ℝ) : Cont :=
  { family := .gamma self.alpha, scale := 1 / self.beta }

/-- `distributions.py:268-270`: `stats.nbinom(n=self.n, p=self.p)` -/
def NegativeBinomial.dist (self : NegativeBinomial ℝ) : Disc :=
  { family := .nbinom self.n self.p }

/-- `distributions.py:299-301`: `stats.hypergeom(self.N, self.k, self.n)`; SciPy's
parameters are (population, success states, draws). -/
def Hypergeometric.dist (self : Hypergeometric ℝ) : Disc :=
  { family := .hypergeom self.N self.k self.n }

/-- `distributions.py:315-317`: `stats.poisson(self.lam)` -/
def Poisson.dist (self : Poisson ℝ) : Disc := { family := .poisson self.lam }

/-- `distributions.py:351-353`: `stats.betabinom(self.n, self.alpha, self.beta)` -/
def BetaBinomial.dist (self : BetaBinomial ℝ) : Disc :=
  { family := .betabinom self.n self.alpha self.beta }

/-- `distributions.py:377-383`: `stats.betanbinom(self.n, self.alpha, self.beta)`, for a
SciPy new enough; the version test is modelled in `Verif/Version.lean`. -/
def BetaNegativeBinomial.dist (self : BetaNegativeBinomial ℝ) : Disc :=
  { family := .betanbinom self.n self.alpha self.beta }

/-- `distributions.py:399-402`: `stats.geom(self.p, loc=0 if one_start else -1)` -/
def Geometric.dist (self : Geometric ℝ) : Disc :=
  { family := .geom self.p, loc := if self.one_start then 0 else -1 }

/-- `distributions.py:438-440`: `stats.norm(self.mu, self.sigma)` -/
def Normal.dist (self : Normal ℝ) : Cont :=
  { family := .norm, loc := self.mu, scale := self.sigma }

/-- `distributions.py:505-507`: `stats.uniform(self.low, self.high)`; SciPy's positional
parameters are `loc` and `scale`. -/
def Uniform.dist (self : Uniform ℝ) : Cont :=
  { family := .uniform, loc := self.low, scale := self.high }

/-- `distributions.py:523-525`: `stats.pareto(self.alpha, scale=self.x_m)` -/
noncomputable def Pareto.dist (self : Pareto ℝ) : Cont :=
  { family := .pareto self.alpha, scale := self.x_m }

/-- `distributions.py:541-543`: `stats.invgamma(a=self.alpha, scale=self.beta)` -/
noncomputable def InverseGamma.dist (self : InverseGamma ℝ) : Cont :=
  { family := .invgamma self.alpha, scale := self.beta }

/-- `distributions.py:685-687`: `stats.t(self.nu, self.mu, self.sigma)` -/
def StudentT.dist (self : StudentT ℝ) : Cont :=
  { family := .t self.nu, loc := self.mu, scale := self.sigma }

/-- `distributions.py:731-733`: `stats.lomax(c=self.alpha, scale=self.lam)` -/
noncomputable def Lomax.dist (self : Lomax ℝ) : Cont :=
  { family := .lomax self.alpha, scale := self.lam }

/-- `distributions.py:889-891`: `stats.vonmises(loc=self.mu, kappa=self.kappa)` -/
noncomputable def VonMises.dist (self : VonMises ℝ) : Cont :=
  { family := .vonmises self.kappa, loc := self.mu }

/-- `distributions.py:995-997` -/
noncomputable def ScaledInverseChiSquared.dist (self : ScaledInverseChiSquared ℝ) : Cont :=
  { family := .invgamma (self.nu / 2), scale := self.nu * self.sigma2 / 2 }

/-- `distributions.py:1305-1307`: `stats.lognorm(s=self.sigma, loc=self.mu)` -/
noncomputable def LogNormal.dist (self : LogNormal ℝ) : Cont :=
  { family := .lognorm self.sigma, loc := self.mu }

/-- `distributions.py:1352-1356` -/
noncomputable def Weibull.dist (self : Weibull ℝ) : Cont :=
  let k := self.beta
  let lam := self.theta ^ (1 / self.beta)
  { family := .weibull_min k, scale := lam }

/-- `_beta_geometric.py:9-15` at scalars -/
noncomputable def betaGeometricPmf (x : ℝ) (a b : ℝ) (one_start : Bool := true) : ℝ :=
  let x := if !one_start then x + 1 else x
  betaFn (a + 1) (x + b) / betaFn a b

/-- `distributions.py:420-422` with `_beta_geometric.py:47-48`: `BetaGeometric.dist.pmf` -/
noncomputable def BetaGeometric.pmf (self : BetaGeometric ℝ) (x : ℝ) : ℝ :=
  betaGeometricPmf x self.alpha self.beta self.one_start

/-- `_compound_gamma.py:7-8` at scalars -/
noncomputable def compoundGammaPdf (x a b q : ℝ) : ℝ :=
  (x / q) ^ (a - 1) * (1 + (x / q)) ^ (-a - b) / (q * betaFn a b)

/-- `distributions.py:751-753` with `_compound_gamma.py:34-35`: `CompoundGamma.dist.pdf` -/
noncomputable def CompoundGamma.pdf (self : CompoundGamma ℝ) (x : ℝ) : ℝ :=
  compoundGammaPdf x self.alpha self.beta self.lam

/-- Joint density of (mean, variance) under a `NormalInverseGamma` with `nu`
(`distributions.py:594-609`): the variance is drawn from an inverse gamma with `alpha` and `beta`, then
the mean from `stats.norm(self.mu, (variance / self.nu) ** 0.5)`. -/
noncomputable def NormalInverseGamma.jointPdf {M : Type*} (self : NormalInverseGamma ℝ ℝ M)
    (nu : ℝ) (mean variance : ℝ) : ℝ :=
  (InverseGamma.dist { alpha := self.alpha, beta := self.beta }).pdf variance *
    (Normal.dist { mu := self.mu, sigma := powq (variance / nu) (1 / 2) }).pdf mean

/-- Joint density of (mean, precision) under a `NormalGamma` (`distributions.py:1021-1075`):
a gamma with `alpha` and `beta` gives the precision, the mean is drawn from a normal with standard
deviation `(1 / (self.lam * precision)) ** 0.5`. -/
noncomputable def NormalGamma.jointPdf (self : NormalGamma ℝ) (mean precision : ℝ) : ℝ :=
  (Gamma.dist { alpha := self.alpha, beta := self.beta }).pdf precision *
    (Normal.dist { mu := self.mu, sigma := powq (1 / (self.lam * precision)) (1 / 2) }).pdf mean

end Conj
