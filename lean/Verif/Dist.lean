import Verif.Num

/-!
# The dataclasses of `conjugate/distributions.py`

One structure per dataclass, same field names and order (`lambda`-like names are kept as
in Python: `lam`).  The plotting state added by the mixins lives in `Verif/Plot.lean`,
`.dist` in `Verif/DistMap.lean`, sampling in `Verif/Sampling.lean`.
Structures are generic in the number type, as in Python.
-/

namespace Conj

/-- `distributions.py:65-76` -/
@[ext] structure Beta (α : Type*) where
  alpha : α
  beta : α

/-- `distributions.py:105-116` -/
@[ext] structure Binomial (α : Type*) where
  n : α
  p : α

/-- `distributions.py:143-152`. `alpha` is the whole parameter array (`A`). -/
@[ext] structure Dirichlet (A : Type*) where
  alpha : A

/-- `distributions.py:169-180` -/
@[ext] structure Multinomial (α A : Type*) where
  n : α
  p : A

/-- `distributions.py:187-198` (field order: alpha, n) -/
@[ext] structure DirichletMultinomial (α A : Type*) where
  alpha : A
  n : α

/-- `distributions.py:205-214` -/
@[ext] structure Exponential (α : Type*) where
  lam : α

/-- `distributions.py:226-239` -/
@[ext] structure Gamma (α : Type*) where
  alpha : α
  beta : α

/-- `distributions.py:255-266` -/
@[ext] structure NegativeBinomial (α : Type*) where
  n : α
  p : α

/-- `distributions.py:278-291` -/
@[ext] structure Hypergeometric (α : Type*) where
  N : α
  k : α
  n : α

/-- `distributions.py:304-313` -/
@[ext] structure Poisson (α : Type*) where
  lam : α

/-- `distributions.py:330-343` -/
@[ext] structure BetaBinomial (α : Type*) where
  n : α
  alpha : α
  beta : α

/-- `distributions.py:356-369` -/
@[ext] structure BetaNegativeBinomial (α : Type*) where
  n : α
  alpha : α
  beta : α

/-- `distributions.py:386-397` -/
@[ext] structure Geometric (α : Type*) where
  p : α
  one_start : Bool := true

/-- `distributions.py:405-418` -/
@[ext] structure BetaGeometric (α : Type*) where
  alpha : α
  beta : α
  one_start : Bool := true

/-- `distributions.py:425-436` -/
@[ext] structure Normal (α : Type*) where
  mu : α
  sigma : α

/-- `distributions.py:464-475`. `V` vectors, `M` matrices. -/
@[ext] structure MultivariateNormal (V M : Type*) where
  mu : V
  cov : M

/-- `distributions.py:488-499` -/
@[ext] structure Uniform (α : Type*) where
  low : α
  high : α

/-- `distributions.py:510-521` -/
@[ext] structure Pareto (α : Type*) where
  x_m : α
  alpha : α

/-- `distributions.py:528-539` -/
@[ext] structure InverseGamma (α : Type*) where
  alpha : α
  beta : α

/-- `distributions.py:546-565`. `V` is the type of `mu` (a number for the univariate
model, a vector for regression), `M` the type of `delta_inverse`. -/
@[ext] structure NormalInverseGamma (α V M : Type*) where
  mu : V
  alpha : α
  beta : α
  delta_inverse : Option M
  nu : Option α

/-- `distributions.py:670-683` -/
@[ext] structure StudentT (α : Type*) where
  mu : α
  sigma : α
  nu : α

/-- `distributions.py:690-703` -/
@[ext] structure MultivariateStudentT (α V M : Type*) where
  mu : V
  sigma : M
  nu : α

/-- `distributions.py:718-729` -/
@[ext] structure Lomax (α : Type*) where
  alpha : α
  lam : α

/-- `distributions.py:736-749` -/
@[ext] structure CompoundGamma (α : Type*) where
  alpha : α
  beta : α
  lam : α

/-- `distributions.py:756-769` -/
@[ext] structure GammaKnownRateProportional (α : Type*) where
  a : α
  b : α
  c : α

/-- `distributions.py:793-808` -/
@[ext] structure GammaProportional (α : Type*) where
  p : α
  q : α
  r : α
  s : α

/-- `distributions.py:833-846` -/
@[ext] structure BetaProportional (α : Type*) where
  p : α
  q : α
  k : α

/-- `distributions.py:872-883` -/
@[ext] structure VonMises (α : Type*) where
  mu : α
  kappa : α

/-- `distributions.py:894-907` -/
@[ext] structure VonMisesKnownConcentration (α : Type*) where
  a : α
  b : α

/-- `distributions.py:925-937` -/
@[ext] structure VonMisesKnownDirectionProportional (α : Type*) where
  c : α
  r : α

/-- `distributions.py:954-965` -/
@[ext] structure ScaledInverseChiSquared (α : Type*) where
  nu : α
  sigma2 : α

/-- `distributions.py:1000-1015` -/
@[ext] structure NormalGamma (α : Type*) where
  mu : α
  lam : α
  alpha : α
  beta : α

/-- `distributions.py:1083-1094` -/
@[ext] structure InverseWishart (α M : Type*) where
  nu : α
  psi : M

/-- `distributions.py:1101-1112` -/
@[ext] structure Wishart (α M : Type*) where
  nu : α
  V : M

/-- `distributions.py:1119-1136` -/
@[ext] structure NormalWishart (α V M : Type*) where
  mu : V
  lam : α
  W : M
  nu : α

/-- `distributions.py:1205-1220` -/
@[ext] structure NormalInverseWishart (α V M : Type*) where
  mu : V
  kappa : α
  nu : α
  psi : M

/-- `distributions.py:1292-1303` -/
@[ext] structure LogNormal (α : Type*) where
  mu : α
  sigma : α

/-- `distributions.py:1310-1350` -/
@[ext] structure Weibull (α : Type*) where
  beta : α
  theta : α

variable {α V M : Type*}

/-! ## Constructors, conversions and arithmetic on distributions -/

/-- `distributions.py:59-62` -/
def getBetaParamFromMeanAndAlpha [PyNum α] (mean alpha : α) : α :=
  alpha * ((lit 1 / mean) - lit 1)

/-- `distributions.py:81-85` -/
def Beta.from_mean [PyNum α] (mean alpha : α) : Beta α :=
  { alpha := alpha, beta := getBetaParamFromMeanAndAlpha mean alpha }

/-- `distributions.py:87-89` -/
def Beta.uninformative [PyNum α] : Beta α := { alpha := lit 1, beta := lit 1 }

/-- `distributions.py:91-98` -/
def Beta.from_successes_and_failures [PyNum α] (successes failures : α) : Beta α :=
  { alpha := successes + lit 1, beta := failures + lit 1 }

/-- `distributions.py:157-159`: `np.ones(n)` as a function on `n` positions. -/
def Dirichlet.uninformative [PyNum α] (n : ℕ) : Dirichlet (Fin n → α) := ⟨fun _ => lit 1⟩

/-- `distributions.py:220-223` (`__rmul__ = __mul__`) -/
def Exponential.mul [PyNum α] (self : Exponential α) (other : α) : Gamma α :=
  { alpha := other, beta := lit 1 / self.lam }

/-- `distributions.py:241-243` -/
def Gamma.from_occurrences_in_intervals (occurrences intervals : α) : Gamma α :=
  { alpha := occurrences, beta := intervals }

/-- `distributions.py:249-252` -/
def Gamma.mul [PyNum α] (self : Gamma α) (other : α) : Gamma α :=
  { alpha := self.alpha * other, beta := self.beta }

/-- `distributions.py:272-275` -/
def NegativeBinomial.mul [PyNum α] (self : NegativeBinomial α) (other : α) :
    NegativeBinomial α :=
  { n := self.n * other, p := self.p }

/-- `distributions.py:319-322` -/
def Poisson.mul [PyNum α] (self : Poisson α) (other : α) : Poisson α :=
  { lam := self.lam * other }

/-- `distributions.py:324-327` -/
def Poisson.add [PyNum α] (self other : Poisson α) : Poisson α :=
  { lam := self.lam + other.lam }

/-- `distributions.py:442-445` -/
def Normal.uninformative [PyNum α] (sigma : α := lit 1) : Normal α :=
  { mu := lit 0, sigma := sigma }

/-- `distributions.py:447-450` -/
def Normal.from_mean_and_variance [PyNum α] (mean variance : α) : Normal α :=
  { mu := mean, sigma := powq variance (1 / 2) }

/-- `distributions.py:452-455` -/
def Normal.from_mean_and_precision [PyNum α] (mean precision : α) : Normal α :=
  { mu := mean, sigma := powq precision (-1 / 2) }

/-- `distributions.py:457-461` (`__rmul__ = __mul__`) -/
def Normal.mul [PyNum α] (self : Normal α) (other : α) : Normal α :=
  { mu := self.mu * other, sigma := powq (powq self.sigma 2 * other) (1 / 2) }

/-- `distributions.py:561-572`: the generated `__init__` followed by `__post_init__`. -/
def NormalInverseGamma.new (mu : V) (alpha beta : α)
    (delta_inverse : Option M := none) (nu : Option α := none) :
    Except PyErr (NormalInverseGamma α V M) :=
  if delta_inverse.isNone && nu.isNone then
    .error (.valueError "Either delta_inverse or nu must be provided.")
  else if delta_inverse.isSome && nu.isSome then
    .error (.valueError "Only one of delta_inverse or nu must be provided.")
  else
    .ok { mu, alpha, beta, delta_inverse, nu }

/-- `distributions.py:574-588` -/
def NormalInverseGamma.from_inverse_gamma (mu : V) (inverse_gamma : InverseGamma α)
    (delta_inverse : Option M := none) (nu : Option α := none) :
    Except PyErr (NormalInverseGamma α V M) :=
  NormalInverseGamma.new mu inverse_gamma.alpha inverse_gamma.beta delta_inverse nu

/-- `distributions.py:590-592` -/
def NormalInverseGamma.inverse_gamma (self : NormalInverseGamma α V M) : InverseGamma α :=
  { alpha := self.alpha, beta := self.beta }

/-- `distributions.py:967-984` -/
def ScaledInverseChiSquared.from_inverse_gamma [PyNum α] (inverse_gamma : InverseGamma α) :
    ScaledInverseChiSquared α :=
  let nu := inverse_gamma.alpha * lit 2
  let sigma2 := inverse_gamma.beta * lit 2 / nu
  { nu := nu, sigma2 := sigma2 }

/-- `distributions.py:986-993` -/
def ScaledInverseChiSquared.to_inverse_gamma [PyNum α] (self : ScaledInverseChiSquared α) :
    InverseGamma α :=
  { alpha := self.nu / lit 2, beta := self.nu * self.sigma2 / lit 2 }

/-- `distributions.py:1017-1019` -/
def NormalGamma.gamma (self : NormalGamma α) : Gamma α :=
  { alpha := self.alpha, beta := self.beta }

/-- `distributions.py:1138-1140` -/
def NormalWishart.wishart (self : NormalWishart α V M) : Wishart α M :=
  { nu := self.nu, V := self.W }

/-- `distributions.py:1222-1225` -/
def NormalInverseWishart.inverse_wishart (self : NormalInverseWishart α V M) :
    InverseWishart α M :=
  { nu := self.nu, psi := self.psi }

/-- `distributions.py:1227-1234` -/
def NormalInverseWishart.from_inverse_wishart (mu : V) (kappa : α)
    (inverse_wishart : InverseWishart α M) : NormalInverseWishart α V M :=
  { mu := mu, kappa := kappa, nu := inverse_wishart.nu, psi := inverse_wishart.psi }

/-! ## Log likelihoods of the proportional families

`ln`, `gammaln` and `i0` are arguments in Python as well (defaults `np.log`,
`scipy.special.gammaln`, `scipy.special.i0`). -/

/-- `distributions.py:771-790` -/
def GammaKnownRateProportional.approx_log_likelihood [PyNum α]
    (self : GammaKnownRateProportional α) (alpha beta : α) (ln gammaln : α → α) : α :=
  (alpha - lit 1) * ln self.a + alpha * self.c * ln beta - self.b * gammaln alpha

/-- `distributions.py:810-830` -/
def GammaProportional.approx_log_likelihood [PyNum α]
    (self : GammaProportional α) (alpha beta : α) (ln gammaln : α → α) : α :=
  (alpha - lit 1) * ln self.p - self.q * beta - self.r * gammaln alpha
    + self.s * alpha * ln beta

/-- `distributions.py:848-869` -/
def BetaProportional.approx_log_likelihood [PyNum α]
    (self : BetaProportional α) (alpha beta : α) (ln gammaln : α → α) : α :=
  self.k * gammaln (alpha + beta) + alpha * ln self.p + beta * ln self.q
    - self.k * gammaln alpha - self.k * gammaln beta

/-- `distributions.py:909-922` -/
def VonMisesKnownConcentration.log_likelihood [PyNum α]
    (self : VonMisesKnownConcentration α) (mu : α) (cos ln i0 : α → α) : α :=
  self.a + cos (mu - self.b) - ln (i0 self.a)

/-- `distributions.py:939-951` -/
def VonMisesKnownDirectionProportional.approx_log_likelihood [PyNum α]
    (self : VonMisesKnownDirectionProportional α) (kappa : α) (ln i0 : α → α) : α :=
  kappa * self.r - self.c * ln (i0 kappa)

end Conj
