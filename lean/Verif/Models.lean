import Verif.Dist

/-!
# The model functions of `conjugate/models.py` (scalar-statistic models)

Function by function, generic in the number type.  The decorators
`validate_prior_type` / `validate_distribution_type` are modelled in
`Verif/Calls.lean`; here are the bodies.  Matrix models are in `Verif/MatModels.lean`.
-/

namespace Conj

variable {α V M A : Type*}

/-- `models.py:101-110` -/
def getBinomialBetaPosteriorParams [PyNum α] (alpha_prior beta_prior n x : α) : α × α :=
  let alpha_post := alpha_prior + x
  let beta_post := beta_prior + (n - x)
  (alpha_post, beta_post)

/-- `models.py:113-165` -/
def binomial_beta [PyNum α] (n x : α) (prior : Beta α) : Beta α :=
  let p := getBinomialBetaPosteriorParams prior.alpha prior.beta n x
  { alpha := p.1, beta := p.2 }

/-- `models.py:168-220` -/
def binomial_beta_predictive (n : α) (distribution : Beta α) : BetaBinomial α :=
  { n := n, alpha := distribution.alpha, beta := distribution.beta }

/-- `models.py:223-255` -/
def bernoulli_beta [PyNum α] (x : α) (prior : Beta α) : Beta α :=
  binomial_beta (lit 1) x prior

/-- `models.py:258-271` -/
def bernoulli_beta_predictive [PyNum α] (distribution : Beta α) : BetaBinomial α :=
  binomial_beta_predictive (lit 1) distribution

/-- `models.py:274-293` -/
def negative_binomial_beta [PyNum α] (r n x : α) (prior : Beta α) : Beta α :=
  let alpha_post := prior.alpha + (r * n)
  let beta_post := prior.beta + x
  { alpha := alpha_post, beta := beta_post }

/-- `models.py:296-314` -/
def negative_binomial_beta_predictive (r : α) (distribution : Beta α) :
    BetaNegativeBinomial α :=
  { n := r, alpha := distribution.alpha, beta := distribution.beta }

/-- `models.py:317-343`. The argument `n` is overwritten by `prior.n` on line 339. -/
def hypergeometric_beta_binomial [PyNum α] (x_total _n : α) (prior : BetaBinomial α) :
    BetaBinomial α :=
  let n := prior.n
  let alpha_post := prior.alpha + x_total
  let beta_post := prior.beta + (n - x_total)
  { n := n, alpha := alpha_post, beta := beta_post }

/-- `models.py:346-401` -/
def geometric_beta [PyNum α] (x_total n : α) (prior : Beta α) (one_start : Bool := true) :
    Beta α :=
  let alpha_post := prior.alpha + n
  let beta_post := prior.beta + x_total
  let beta_post := if one_start then beta_post - n else beta_post
  { alpha := alpha_post, beta := beta_post }

/-- `models.py:404-427` -/
def geometric_beta_predictive (distribution : Beta α) (one_start : Bool := true) :
    BetaGeometric α :=
  { alpha := distribution.alpha, beta := distribution.beta, one_start := one_start }

/-- What `get_dirichlet_posterior_params` needs of its arguments: `a + x`, which may
raise, and `[a_i + x_i for a_i, x_i in zip(a, x)]`, which may raise as well.
Instances: arrays on a fixed index set (below), Python values (`Verif/PyVal.lean`). -/
class PySeq (A : Type*) where
  tryAdd : A → A → Except PyErr A
  zipAdd : A → A → Except PyErr A

/-- numpy arrays of the same shape `I`: `+` never raises. -/
instance instPySeqPi {I : Type*} [PyNum α] : PySeq (I → α) where
  tryAdd a x := .ok (fun i => a i + x i)
  zipAdd a x := .ok (fun i => a i + x i)

/-- `models.py:430-434` -/
def getDirichletPosteriorParams [PySeq A] (alpha_prior x : A) : Except PyErr A :=
  match PySeq.tryAdd alpha_prior x with
  | .ok r => .ok r
  | .error _ => PySeq.zipAdd alpha_prior x

/-- `models.py:437-442` -/
def getCategoricalDirichletPosteriorParams [PySeq A] (alpha_prior x : A) : Except PyErr A :=
  getDirichletPosteriorParams alpha_prior x

/-- `models.py:445-459` -/
def categorical_dirichlet [PySeq A] (x : A) (prior : Dirichlet A) :
    Except PyErr (Dirichlet A) := do
  let alpha_post ← getDirichletPosteriorParams prior.alpha x
  return { alpha := alpha_post }

/-- `models.py:462-479` -/
def categorical_dirichlet_predictive [PyNum α] (distribution : Dirichlet A)
    (n : α := lit 1) : DirichletMultinomial α A :=
  { n := n, alpha := distribution.alpha }

/-- `models.py:482-487` -/
def getMultiCategoricalDirichletPosteriorParams [PySeq A] (alpha_prior x : A) :
    Except PyErr A :=
  getDirichletPosteriorParams alpha_prior x

/-- `models.py:490-541` -/
def multinomial_dirichlet [PySeq A] (x : A) (prior : Dirichlet A) :
    Except PyErr (Dirichlet A) := do
  let alpha_post ← getDirichletPosteriorParams prior.alpha x
  return { alpha := alpha_post }

/-- `models.py:544-561` -/
def multinomial_dirichlet_predictive [PyNum α] (distribution : Dirichlet A)
    (n : α := lit 1) : DirichletMultinomial α A :=
  { n := n, alpha := distribution.alpha }

/-- `models.py:564-574` -/
def getPoissonGammaPosteriorParams [PyNum α] (alpha beta x_total n : α) : α × α :=
  let alpha_post := alpha + x_total
  let beta_post := beta + n
  (alpha_post, beta_post)

/-- `models.py:577-594` -/
def poisson_gamma [PyNum α] (x_total n : α) (prior : Gamma α) : Gamma α :=
  let p := getPoissonGammaPosteriorParams prior.alpha prior.beta x_total n
  { alpha := p.1, beta := p.2 }

/-- `models.py:597-617` -/
def poisson_gamma_predictive [PyNum α] (distribution : Gamma α) (n : α := lit 1) :
    NegativeBinomial α :=
  let n := n * distribution.alpha
  let p := distribution.beta / (lit 1 + distribution.beta)
  { n := n, p := p }

/-- `models.py:620-621`: literally the same function object. -/
def getExponentialGammaPosteriorParams [PyNum α] (alpha beta x_total n : α) : α × α :=
  getPoissonGammaPosteriorParams alpha beta x_total n

/-- `models.py:624-641` -/
def exponential_gamma [PyNum α] (x_total n : α) (prior : Gamma α) : Gamma α :=
  let p := getExponentialGammaPosteriorParams prior.alpha prior.beta x_total n
  { alpha := p.1, beta := p.2 }

/-- `models.py:644-695` -/
def exponential_gamma_predictive (distribution : Gamma α) : Lomax α :=
  { alpha := distribution.beta, lam := distribution.alpha }

/-- `models.py:698-764` -/
def gamma_known_shape [PyNum α] (x_total n alpha : α) (prior : Gamma α) : Gamma α :=
  let alpha_post := prior.alpha + n * alpha
  let beta_post := prior.beta + x_total
  { alpha := alpha_post, beta := beta_post }

/-- `models.py:767-783` -/
def gamma_known_shape_predictive (distribution : Gamma α) (alpha : α) : CompoundGamma α :=
  { alpha := alpha, beta := distribution.alpha, lam := distribution.beta }

/-- `models.py:786-809` -/
def inverse_gamma_known_rate [PyNum α] (reciprocal_x_total n alpha : α) (prior : Gamma α) :
    Gamma α :=
  let alpha_post := prior.alpha + n * alpha
  let beta_post := prior.beta + reciprocal_x_total
  { alpha := alpha_post, beta := beta_post }

/-- `models.py:812-879` -/
def normal_known_variance [PyNum α] (x_total n var : α) (prior : Normal α) : Normal α :=
  let mu_post := ((prior.mu / powq prior.sigma 2) + (x_total / var)) /
    ((lit 1 / powq prior.sigma 2) + (n / var))
  let var_post := lit 1 / ((lit 1 / powq prior.sigma 2) + (n / var))
  { mu := mu_post, sigma := powq var_post (1 / 2) }

/-- `models.py:882-945` -/
def normal_known_variance_predictive [PyNum α] (var : α) (distribution : Normal α) :
    Normal α :=
  let var_posterior_predictive := var + powq distribution.sigma 2
  { mu := distribution.mu, sigma := powq var_posterior_predictive (1 / 2) }

/-- `models.py:948-1014` -/
def normal_known_precision [PyNum α] (x_total n precision : α) (prior : Normal α) :
    Normal α :=
  normal_known_variance x_total n (lit 1 / precision) prior

/-- `models.py:1017-1086` -/
def normal_known_precision_predictive [PyNum α] (precision : α) (distribution : Normal α) :
    Normal α :=
  normal_known_variance_predictive (lit 1 / precision) distribution

/-- `models.py:1089-1100` -/
def normalKnownMeanInverseGammaPrior [PyNum α] (x_total x2_total n mu : α)
    (prior : InverseGamma α) : InverseGamma α :=
  let alpha_post := prior.alpha + (n / lit 2)
  let beta_post := prior.beta +
    (lit (1 / 2) * (x2_total - (lit 2 * mu * x_total) + (n * powq mu 2)))
  { alpha := alpha_post, beta := beta_post }

/-- The union `InverseGamma | ScaledInverseChiSquared` of `models.py:1110` -/
inductive VariancePrior (α : Type*)
  | inverseGamma (d : InverseGamma α)
  | scaledInverseChiSquared (d : ScaledInverseChiSquared α)

/-- `models.py:1103-1139` -/
def normal_known_mean [PyNum α] (x_total x2_total n mu : α) (prior : VariancePrior α) :
    VariancePrior α :=
  match prior with
  | .inverseGamma prior =>
    .inverseGamma (normalKnownMeanInverseGammaPrior x_total x2_total n mu prior)
  | .scaledInverseChiSquared prior =>
    .scaledInverseChiSquared (ScaledInverseChiSquared.from_inverse_gamma
      (normalKnownMeanInverseGammaPrior x_total x2_total n mu prior.to_inverse_gamma))

/-- `models.py:1142-1215` -/
def normal_known_mean_predictive [PyNum α] (mu : α) (distribution : VariancePrior α) :
    StudentT α :=
  let distribution := match distribution with
    | .scaledInverseChiSquared d => d.to_inverse_gamma
    | .inverseGamma d => d
  { mu := mu
    sigma := powq (distribution.beta / distribution.alpha) (1 / 2)
    nu := lit 2 * distribution.alpha }

/-- `models.py:1218-1235`; result order `mu_post, nu_post, alpha_post, beta_post`. -/
def normalUpdate [PyNum α] (x_total x2_total n mu_0 nu alpha beta : α) : α × α × α × α :=
  let x_mean := x_total / n
  let nu_post := nu + n
  let mu_post := ((nu * mu_0) + (n * x_mean)) / nu_post
  let alpha_post := alpha + (n / lit 2)
  let beta_post := beta +
    lit (1 / 2) * (powq mu_0 2 * nu + x2_total - powq mu_post 2 * nu_post)
  (mu_post, nu_post, alpha_post, beta_post)

/-- The union `NormalInverseGamma | NormalGamma` of `models.py:1244`. -/
inductive NormalPrior (α M : Type*)
  | nig (d : NormalInverseGamma α α M)
  | ng (d : NormalGamma α)

/-- `models.py:1238-1287` -/
def normal [PyNum α] (x_total x2_total n : α) (prior : NormalPrior α M) :
    Except PyErr (NormalPrior α M) :=
  match prior with
  | .nig prior =>
    match prior.nu with
    | none => .error (.valueError "nu must be provided for the prior")
    | some nu =>
      let r := normalUpdate x_total x2_total n prior.mu nu prior.alpha prior.beta
      (NormalInverseGamma.new (mu := r.1) (nu := some r.2.1) (alpha := r.2.2.1)
        (beta := r.2.2.2)).map .nig
  | .ng prior =>
    let r := normalUpdate x_total x2_total n prior.mu prior.lam prior.alpha prior.beta
    .ok (.ng { mu := r.1, lam := r.2.1, alpha := r.2.2.1, beta := r.2.2.2 })

/-- `models.py:1290-1318`; its `DeprecationWarning` is in `Warnings.lean` -/
def normal_normal_inverse_gamma [PyNum α] (x_total x2_total n : α)
    (prior : NormalInverseGamma α α M) : Except PyErr (NormalPrior α M) :=
  normal x_total x2_total n (.nig prior)

/-- `models.py:1321-1345`. With `nu = None` line 1340 evaluates `None + 1`: TypeError. -/
def normal_predictive [PyNum α] (distribution : NormalPrior α M) :
    Except PyErr (StudentT α) :=
  let body (mu nu alpha beta : α) : StudentT α :=
    let var := beta * (nu + lit 1) / (nu * alpha)
    { mu := mu, sigma := powq var (1 / 2), nu := lit 2 * alpha }
  match distribution with
  | .nig d =>
    match d.nu with
    | none => .error .typeError
    | some nu => .ok (body d.mu nu d.alpha d.beta)
  | .ng d => .ok (body d.mu d.lam d.alpha d.beta)

/-- `models.py:1348-1367`; its `DeprecationWarning` is in `Warnings.lean` -/
def normal_normal_inverse_gamma_predictive [PyNum α]
    (distribution : NormalInverseGamma α α M) : Except PyErr (StudentT α) :=
  normal_predictive (.nig distribution)

/-- `models.py:1455-1500`; `max_fn` is an argument in Python too (default `np.maximum`). -/
def uniform_pareto [PyNum α] (x_max n : α) (prior : Pareto α) (max_fn : α → α → α) :
    Pareto α :=
  let alpha_post := prior.alpha + n
  let x_m_post := max_fn prior.x_m x_max
  { x_m := x_m_post, alpha := alpha_post }

/-- `models.py:1503-1569`; `ln` is an argument in Python too (default `np.log`). -/
def pareto_gamma [PyNum α] (n ln_x_total x_m : α) (prior : Gamma α) (ln : α → α) :
    Gamma α :=
  let alpha_post := prior.alpha + n
  let beta_post := prior.beta + ln_x_total - n * ln x_m
  { alpha := alpha_post, beta := beta_post }

/-- `models.py:1572-1599` -/
def gamma [PyNum α] (x_total x_prod n : α) (prior : GammaProportional α) :
    GammaProportional α :=
  let p_post := prior.p * x_prod
  let q_post := prior.q + x_total
  let r_post := prior.r + n
  let s_post := prior.s + n
  { p := p_post, q := q_post, r := r_post, s := s_post }

/-- `models.py:1602-1627`. The argument `beta` is not used by the code. -/
def gamma_known_rate [PyNum α] (x_prod n _beta : α) (prior : GammaKnownRateProportional α) :
    GammaKnownRateProportional α :=
  let a_post := prior.a * x_prod
  let b_post := prior.b + n
  let c_post := prior.c + n
  { a := a_post, b := b_post, c := c_post }

/-- `models.py:1630-1656` -/
def beta [PyNum α] (x_prod one_minus_x_prod n : α) (prior : BetaProportional α) :
    BetaProportional α :=
  let p_post := prior.p * x_prod
  let q_post := prior.q * one_minus_x_prod
  let k_post := prior.k + n
  { p := p_post, q := q_post, k := k_post }

/-- `models.py:1659-1691`; `sin`, `cos`, `arctan2` are arguments in Python too. The
argument `n` is not used by the code. -/
def von_mises_known_concentration [PyNum α] (cos_total sin_total _n kappa : α)
    (prior : VonMisesKnownConcentration α) (sin cos : α → α) (arctan2 : α → α → α) :
    VonMisesKnownConcentration α :=
  let sin_total_post := prior.a * sin prior.b + sin_total
  let a_post := kappa * sin_total_post
  let b_post := arctan2 sin_total_post (prior.a * cos prior.b + cos_total)
  { a := a_post, b := b_post }

/-- `models.py:1694-1715` -/
def von_mises_known_direction [PyNum α] (centered_cos_total n : α)
    (prior : VonMisesKnownDirectionProportional α) : VonMisesKnownDirectionProportional α :=
  { c := prior.c + n, r := prior.r + centered_cos_total }

/-- `models.py:2068-2143` -/
def log_normal [PyNum α] (ln_x_total ln_x2_total n : α) (prior : NormalPrior α M) :
    Except PyErr (NormalPrior α M) :=
  normal ln_x_total ln_x2_total n prior

/-- `models.py:2146-2167` -/
def weibull_inverse_gamma_known_shape [PyNum α] (n x_beta_total : α)
    (prior : InverseGamma α) : InverseGamma α :=
  let alpha_post := prior.alpha + n
  let beta_post := prior.beta + x_beta_total
  { alpha := alpha_post, beta := beta_post }

end Conj
