import Verif.Calls

/-!
# The decorated functions of `models.py`

Generated by `tools/gen_calls.py` from the source: names, checked parameter, annotation, keyword
parameters and defaults of every decorated function, and the bodies of the scalar ones as
calls of the functions of `Verif/Models.lean`.
-/

namespace Conj

/-- a `VariancePrior` argument: one of the two classes of the union -/
def argVariancePrior (kw : String → Option PyVal) (name : String) : Except PyErr (VariancePrior ℝ) :=
  match argDist kw name with
  | .ok (.inverseGamma d) => .ok (.inverseGamma d)
  | .ok (.scaledInverseChiSquared d) => .ok (.scaledInverseChiSquared d)
  | _ => .error .attributeError

/-- a `NormalPrior` argument: one of the two classes of the union -/
def argNormalPrior (kw : String → Option PyVal) (name : String) : Except PyErr (NormalPrior ℝ Unit) :=
  match argDist kw name with
  | .ok (.normalInverseGamma d) => .ok (.nig d)
  | .ok (.normalGamma d) => .ok (.ng d)
  | _ => .error .attributeError

/-- the object that is returned -/
def VariancePrior.toDist : VariancePrior ℝ → DistVal
  | .inverseGamma d => .inverseGamma d
  | .scaledInverseChiSquared d => .scaledInverseChiSquared d

/-- the object that is returned -/
def NormalPrior.toDist : NormalPrior ℝ Unit → DistVal
  | .nig d => .normalInverseGamma d
  | .ng d => .normalGamma d

/-- a `Beta` argument: its attributes are read -/
def argBeta (kw : String → Option PyVal) (name : String) : Except PyErr (Beta ℝ) :=
  match argDist kw name with
  | .ok (.beta d) => .ok d
  | _ => .error .attributeError

/-- a `BetaBinomial` argument: its attributes are read -/
def argBetaBinomial (kw : String → Option PyVal) (name : String) : Except PyErr (BetaBinomial ℝ) :=
  match argDist kw name with
  | .ok (.betaBinomial d) => .ok d
  | _ => .error .attributeError

/-- a `BetaProportional` argument: its attributes are read -/
def argBetaProportional (kw : String → Option PyVal) (name : String) : Except PyErr (BetaProportional ℝ) :=
  match argDist kw name with
  | .ok (.betaProportional d) => .ok d
  | _ => .error .attributeError

/-- a `Dirichlet` argument: its attributes are read -/
def argDirichlet (kw : String → Option PyVal) (name : String) : Except PyErr (Dirichlet (SeqVal ℝ)) :=
  match argDist kw name with
  | .ok (.dirichlet d) => .ok d
  | _ => .error .attributeError

/-- a `Gamma` argument: its attributes are read -/
def argGamma (kw : String → Option PyVal) (name : String) : Except PyErr (Gamma ℝ) :=
  match argDist kw name with
  | .ok (.gamma d) => .ok d
  | _ => .error .attributeError

/-- a `GammaKnownRateProportional` argument: its attributes are read -/
def argGammaKnownRateProportional (kw : String → Option PyVal) (name : String) : Except PyErr (GammaKnownRateProportional ℝ) :=
  match argDist kw name with
  | .ok (.gammaKnownRateProportional d) => .ok d
  | _ => .error .attributeError

/-- a `GammaProportional` argument: its attributes are read -/
def argGammaProportional (kw : String → Option PyVal) (name : String) : Except PyErr (GammaProportional ℝ) :=
  match argDist kw name with
  | .ok (.gammaProportional d) => .ok d
  | _ => .error .attributeError

/-- a `InverseGamma` argument: its attributes are read -/
def argInverseGamma (kw : String → Option PyVal) (name : String) : Except PyErr (InverseGamma ℝ) :=
  match argDist kw name with
  | .ok (.inverseGamma d) => .ok d
  | _ => .error .attributeError

/-- a `Normal` argument: its attributes are read -/
def argNormal (kw : String → Option PyVal) (name : String) : Except PyErr (Normal ℝ) :=
  match argDist kw name with
  | .ok (.normal d) => .ok d
  | _ => .error .attributeError

/-- a `NormalInverseGamma` argument: its attributes are read -/
def argNormalInverseGamma (kw : String → Option PyVal) (name : String) : Except PyErr (NormalInverseGamma ℝ ℝ Unit) :=
  match argDist kw name with
  | .ok (.normalInverseGamma d) => .ok d
  | _ => .error .attributeError

/-- a `Pareto` argument: its attributes are read -/
def argPareto (kw : String → Option PyVal) (name : String) : Except PyErr (Pareto ℝ) :=
  match argDist kw name with
  | .ok (.pareto d) => .ok d
  | _ => .error .attributeError

/-- a `VonMisesKnownConcentration` argument: its attributes are read -/
def argVonMisesKnownConcentration (kw : String → Option PyVal) (name : String) : Except PyErr (VonMisesKnownConcentration ℝ) :=
  match argDist kw name with
  | .ok (.vonMisesKnownConcentration d) => .ok d
  | _ => .error .attributeError

/-- a `VonMisesKnownDirectionProportional` argument: its attributes are read -/
def argVonMisesKnownDirectionProportional (kw : String → Option PyVal) (name : String) : Except PyErr (VonMisesKnownDirectionProportional ℝ) :=
  match argDist kw name with
  | .ok (.vonMisesKnownDirectionProportional d) => .ok d
  | _ => .error .attributeError

/-- `models.py:113-114` -/
noncomputable def binomial_beta_sig : FnSig PyVal where
  name := "binomial_beta"
  checked := "prior"
  annotation := .cls .Beta
  params := [("n", none), ("x", none), ("prior", none)]

/-- the body of `binomial_beta` on bound arguments -/
noncomputable def binomial_beta_body (kw : String → Option PyVal) : Except PyErr PyVal := do
  let n' ← argNum kw "n"
  let x' ← argNum kw "x"
  let prior' ← argBeta kw "prior"
  return (DistVal.beta (Conj.binomial_beta n' x' prior')).toPy

/-- `models.py:168-169` -/
noncomputable def binomial_beta_predictive_sig : FnSig PyVal where
  name := "binomial_beta_predictive"
  checked := "distribution"
  annotation := .cls .Beta
  params := [("n", none), ("distribution", none)]

/-- the body of `binomial_beta_predictive` on bound arguments -/
noncomputable def binomial_beta_predictive_body (kw : String → Option PyVal) : Except PyErr PyVal := do
  let n' ← argNum kw "n"
  let distribution' ← argBeta kw "distribution"
  return (DistVal.betaBinomial (Conj.binomial_beta_predictive n' distribution')).toPy

/-- `models.py:223-224` -/
noncomputable def bernoulli_beta_sig : FnSig PyVal where
  name := "bernoulli_beta"
  checked := "prior"
  annotation := .cls .Beta
  params := [("x", none), ("prior", none)]

/-- the body of `bernoulli_beta` on bound arguments -/
noncomputable def bernoulli_beta_body (kw : String → Option PyVal) : Except PyErr PyVal := do
  let x' ← argNum kw "x"
  let prior' ← argBeta kw "prior"
  return (DistVal.beta (Conj.bernoulli_beta x' prior')).toPy

/-- `models.py:258-259` -/
noncomputable def bernoulli_beta_predictive_sig : FnSig PyVal where
  name := "bernoulli_beta_predictive"
  checked := "distribution"
  annotation := .cls .Beta
  params := [("distribution", none)]

/-- the body of `bernoulli_beta_predictive` on bound arguments -/
noncomputable def bernoulli_beta_predictive_body (kw : String → Option PyVal) : Except PyErr PyVal := do
  let distribution' ← argBeta kw "distribution"
  return (DistVal.betaBinomial (Conj.bernoulli_beta_predictive distribution')).toPy

/-- `models.py:274-275` -/
noncomputable def negative_binomial_beta_sig : FnSig PyVal where
  name := "negative_binomial_beta"
  checked := "prior"
  annotation := .cls .Beta
  params := [("r", none), ("n", none), ("x", none), ("prior", none)]

/-- the body of `negative_binomial_beta` on bound arguments -/
noncomputable def negative_binomial_beta_body (kw : String → Option PyVal) : Except PyErr PyVal := do
  let r' ← argNum kw "r"
  let n' ← argNum kw "n"
  let x' ← argNum kw "x"
  let prior' ← argBeta kw "prior"
  return (DistVal.beta (Conj.negative_binomial_beta r' n' x' prior')).toPy

/-- `models.py:296-301` -/
noncomputable def negative_binomial_beta_predictive_sig : FnSig PyVal where
  name := "negative_binomial_beta_predictive"
  checked := "distribution"
  annotation := .cls .Beta
  params := [("r", none), ("distribution", none)]

/-- the body of `negative_binomial_beta_predictive` on bound arguments -/
noncomputable def negative_binomial_beta_predictive_body (kw : String → Option PyVal) : Except PyErr PyVal := do
  let r' ← argNum kw "r"
  let distribution' ← argBeta kw "distribution"
  return (DistVal.betaNegativeBinomial (Conj.negative_binomial_beta_predictive r' distribution')).toPy

/-- `models.py:317-323` -/
noncomputable def hypergeometric_beta_binomial_sig : FnSig PyVal where
  name := "hypergeometric_beta_binomial"
  checked := "prior"
  annotation := .cls .BetaBinomial
  params := [("x_total", none), ("n", none), ("prior", none)]

/-- the body of `hypergeometric_beta_binomial` on bound arguments -/
noncomputable def hypergeometric_beta_binomial_body (kw : String → Option PyVal) : Except PyErr PyVal := do
  let x_total' ← argNum kw "x_total"
  let n' ← argNum kw "n"
  let prior' ← argBetaBinomial kw "prior"
  return (DistVal.betaBinomial (Conj.hypergeometric_beta_binomial x_total' n' prior')).toPy

/-- `models.py:346-347` -/
noncomputable def geometric_beta_sig : FnSig PyVal where
  name := "geometric_beta"
  checked := "prior"
  annotation := .cls .Beta
  params := [("x_total", none), ("n", none), ("prior", none), ("one_start", some (.bool true))]

/-- the body of `geometric_beta` on bound arguments -/
noncomputable def geometric_beta_body (kw : String → Option PyVal) : Except PyErr PyVal := do
  let x_total' ← argNum kw "x_total"
  let n' ← argNum kw "n"
  let prior' ← argBeta kw "prior"
  let one_start' ← argBool kw "one_start"
  return (DistVal.beta (Conj.geometric_beta x_total' n' prior' one_start')).toPy

/-- `models.py:404-409` -/
noncomputable def geometric_beta_predictive_sig : FnSig PyVal where
  name := "geometric_beta_predictive"
  checked := "distribution"
  annotation := .cls .Beta
  params := [("distribution", none), ("one_start", some (.bool true))]

/-- the body of `geometric_beta_predictive` on bound arguments -/
noncomputable def geometric_beta_predictive_body (kw : String → Option PyVal) : Except PyErr PyVal := do
  let distribution' ← argBeta kw "distribution"
  let one_start' ← argBool kw "one_start"
  return (DistVal.betaGeometric (Conj.geometric_beta_predictive distribution' one_start')).toPy

/-- `models.py:445-446` -/
noncomputable def categorical_dirichlet_sig : FnSig PyVal where
  name := "categorical_dirichlet"
  checked := "prior"
  annotation := .cls .Dirichlet
  params := [("x", none), ("prior", none)]

/-- the body of `categorical_dirichlet` on bound arguments -/
noncomputable def categorical_dirichlet_body (kw : String → Option PyVal) : Except PyErr PyVal := do
  let x' ← argSeq kw "x"
  let prior' ← argDirichlet kw "prior"
  let r ← Conj.categorical_dirichlet x' prior'
  return (DistVal.dirichlet (r)).toPy

/-- `models.py:462-467` -/
noncomputable def categorical_dirichlet_predictive_sig : FnSig PyVal where
  name := "categorical_dirichlet_predictive"
  checked := "distribution"
  annotation := .cls .Dirichlet
  params := [("distribution", none), ("n", some (.num 1))]

/-- the body of `categorical_dirichlet_predictive` on bound arguments -/
noncomputable def categorical_dirichlet_predictive_body (kw : String → Option PyVal) : Except PyErr PyVal := do
  let distribution' ← argDirichlet kw "distribution"
  let n' ← argNum kw "n"
  return (DistVal.dirichletMultinomial (Conj.categorical_dirichlet_predictive distribution' n')).toPy

/-- `models.py:490-491` -/
noncomputable def multinomial_dirichlet_sig : FnSig PyVal where
  name := "multinomial_dirichlet"
  checked := "prior"
  annotation := .cls .Dirichlet
  params := [("x", none), ("prior", none)]

/-- the body of `multinomial_dirichlet` on bound arguments -/
noncomputable def multinomial_dirichlet_body (kw : String → Option PyVal) : Except PyErr PyVal := do
  let x' ← argSeq kw "x"
  let prior' ← argDirichlet kw "prior"
  let r ← Conj.multinomial_dirichlet x' prior'
  return (DistVal.dirichlet (r)).toPy

/-- `models.py:544-549` -/
noncomputable def multinomial_dirichlet_predictive_sig : FnSig PyVal where
  name := "multinomial_dirichlet_predictive"
  checked := "distribution"
  annotation := .cls .Dirichlet
  params := [("distribution", none), ("n", some (.num 1))]

/-- the body of `multinomial_dirichlet_predictive` on bound arguments -/
noncomputable def multinomial_dirichlet_predictive_body (kw : String → Option PyVal) : Except PyErr PyVal := do
  let distribution' ← argDirichlet kw "distribution"
  let n' ← argNum kw "n"
  return (DistVal.dirichletMultinomial (Conj.multinomial_dirichlet_predictive distribution' n')).toPy

/-- `models.py:577-578` -/
noncomputable def poisson_gamma_sig : FnSig PyVal where
  name := "poisson_gamma"
  checked := "prior"
  annotation := .cls .Gamma
  params := [("x_total", none), ("n", none), ("prior", none)]

/-- the body of `poisson_gamma` on bound arguments -/
noncomputable def poisson_gamma_body (kw : String → Option PyVal) : Except PyErr PyVal := do
  let x_total' ← argNum kw "x_total"
  let n' ← argNum kw "n"
  let prior' ← argGamma kw "prior"
  return (DistVal.gamma (Conj.poisson_gamma x_total' n' prior')).toPy

/-- `models.py:597-602` -/
noncomputable def poisson_gamma_predictive_sig : FnSig PyVal where
  name := "poisson_gamma_predictive"
  checked := "distribution"
  annotation := .cls .Gamma
  params := [("distribution", none), ("n", some (.num 1))]

/-- the body of `poisson_gamma_predictive` on bound arguments -/
noncomputable def poisson_gamma_predictive_body (kw : String → Option PyVal) : Except PyErr PyVal := do
  let distribution' ← argGamma kw "distribution"
  let n' ← argNum kw "n"
  return (DistVal.negativeBinomial (Conj.poisson_gamma_predictive distribution' n')).toPy

/-- `models.py:624-625` -/
noncomputable def exponential_gamma_sig : FnSig PyVal where
  name := "exponential_gamma"
  checked := "prior"
  annotation := .cls .Gamma
  params := [("x_total", none), ("n", none), ("prior", none)]

/-- the body of `exponential_gamma` on bound arguments -/
noncomputable def exponential_gamma_body (kw : String → Option PyVal) : Except PyErr PyVal := do
  let x_total' ← argNum kw "x_total"
  let n' ← argNum kw "n"
  let prior' ← argGamma kw "prior"
  return (DistVal.gamma (Conj.exponential_gamma x_total' n' prior')).toPy

/-- `models.py:644-645` -/
noncomputable def exponential_gamma_predictive_sig : FnSig PyVal where
  name := "exponential_gamma_predictive"
  checked := "distribution"
  annotation := .cls .Gamma
  params := [("distribution", none)]

/-- the body of `exponential_gamma_predictive` on bound arguments -/
noncomputable def exponential_gamma_predictive_body (kw : String → Option PyVal) : Except PyErr PyVal := do
  let distribution' ← argGamma kw "distribution"
  return (DistVal.lomax (Conj.exponential_gamma_predictive distribution')).toPy

/-- `models.py:698-705` -/
noncomputable def gamma_known_shape_sig : FnSig PyVal where
  name := "gamma_known_shape"
  checked := "prior"
  annotation := .cls .Gamma
  params := [("x_total", none), ("n", none), ("alpha", none), ("prior", none)]

/-- the body of `gamma_known_shape` on bound arguments -/
noncomputable def gamma_known_shape_body (kw : String → Option PyVal) : Except PyErr PyVal := do
  let x_total' ← argNum kw "x_total"
  let n' ← argNum kw "n"
  let alpha' ← argNum kw "alpha"
  let prior' ← argGamma kw "prior"
  return (DistVal.gamma (Conj.gamma_known_shape x_total' n' alpha' prior')).toPy

/-- `models.py:767-772` -/
noncomputable def gamma_known_shape_predictive_sig : FnSig PyVal where
  name := "gamma_known_shape_predictive"
  checked := "distribution"
  annotation := .cls .Gamma
  params := [("distribution", none), ("alpha", none)]

/-- the body of `gamma_known_shape_predictive` on bound arguments -/
noncomputable def gamma_known_shape_predictive_body (kw : String → Option PyVal) : Except PyErr PyVal := do
  let distribution' ← argGamma kw "distribution"
  let alpha' ← argNum kw "alpha"
  return (DistVal.compoundGamma (Conj.gamma_known_shape_predictive distribution' alpha')).toPy

/-- `models.py:786-793` -/
noncomputable def inverse_gamma_known_rate_sig : FnSig PyVal where
  name := "inverse_gamma_known_rate"
  checked := "prior"
  annotation := .cls .Gamma
  params := [("reciprocal_x_total", none), ("n", none), ("alpha", none), ("prior", none)]

/-- the body of `inverse_gamma_known_rate` on bound arguments -/
noncomputable def inverse_gamma_known_rate_body (kw : String → Option PyVal) : Except PyErr PyVal := do
  let reciprocal_x_total' ← argNum kw "reciprocal_x_total"
  let n' ← argNum kw "n"
  let alpha' ← argNum kw "alpha"
  let prior' ← argGamma kw "prior"
  return (DistVal.gamma (Conj.inverse_gamma_known_rate reciprocal_x_total' n' alpha' prior')).toPy

/-- `models.py:812-819` -/
noncomputable def normal_known_variance_sig : FnSig PyVal where
  name := "normal_known_variance"
  checked := "prior"
  annotation := .cls .Normal
  params := [("x_total", none), ("n", none), ("var", none), ("prior", none)]

/-- the body of `normal_known_variance` on bound arguments -/
noncomputable def normal_known_variance_body (kw : String → Option PyVal) : Except PyErr PyVal := do
  let x_total' ← argNum kw "x_total"
  let n' ← argNum kw "n"
  let var' ← argNum kw "var"
  let prior' ← argNormal kw "prior"
  return (DistVal.normal (Conj.normal_known_variance x_total' n' var' prior')).toPy

/-- `models.py:882-883` -/
noncomputable def normal_known_variance_predictive_sig : FnSig PyVal where
  name := "normal_known_variance_predictive"
  checked := "distribution"
  annotation := .cls .Normal
  params := [("var", none), ("distribution", none)]

/-- the body of `normal_known_variance_predictive` on bound arguments -/
noncomputable def normal_known_variance_predictive_body (kw : String → Option PyVal) : Except PyErr PyVal := do
  let var' ← argNum kw "var"
  let distribution' ← argNormal kw "distribution"
  return (DistVal.normal (Conj.normal_known_variance_predictive var' distribution')).toPy

/-- `models.py:948-955` -/
noncomputable def normal_known_precision_sig : FnSig PyVal where
  name := "normal_known_precision"
  checked := "prior"
  annotation := .cls .Normal
  params := [("x_total", none), ("n", none), ("precision", none), ("prior", none)]

/-- the body of `normal_known_precision` on bound arguments -/
noncomputable def normal_known_precision_body (kw : String → Option PyVal) : Except PyErr PyVal := do
  let x_total' ← argNum kw "x_total"
  let n' ← argNum kw "n"
  let precision' ← argNum kw "precision"
  let prior' ← argNormal kw "prior"
  return (DistVal.normal (Conj.normal_known_precision x_total' n' precision' prior')).toPy

/-- `models.py:1017-1022` -/
noncomputable def normal_known_precision_predictive_sig : FnSig PyVal where
  name := "normal_known_precision_predictive"
  checked := "distribution"
  annotation := .cls .Normal
  params := [("precision", none), ("distribution", none)]

/-- the body of `normal_known_precision_predictive` on bound arguments -/
noncomputable def normal_known_precision_predictive_body (kw : String → Option PyVal) : Except PyErr PyVal := do
  let precision' ← argNum kw "precision"
  let distribution' ← argNormal kw "distribution"
  return (DistVal.normal (Conj.normal_known_precision_predictive precision' distribution')).toPy

/-- `models.py:1103-1111` -/
noncomputable def normal_known_mean_sig : FnSig PyVal where
  name := "normal_known_mean"
  checked := "prior"
  annotation := .union [.InverseGamma, .ScaledInverseChiSquared]
  params := [("x_total", none), ("x2_total", none), ("n", none), ("mu", none), ("prior", none)]

/-- the body of `normal_known_mean` on bound arguments -/
noncomputable def normal_known_mean_body (kw : String → Option PyVal) : Except PyErr PyVal := do
  let x_total' ← argNum kw "x_total"
  let x2_total' ← argNum kw "x2_total"
  let n' ← argNum kw "n"
  let mu' ← argNum kw "mu"
  let prior' ← argVariancePrior kw "prior"
  return (Conj.normal_known_mean x_total' x2_total' n' mu' prior').toDist.toPy

/-- `models.py:1142-1147` -/
noncomputable def normal_known_mean_predictive_sig : FnSig PyVal where
  name := "normal_known_mean_predictive"
  checked := "distribution"
  annotation := .union [.InverseGamma, .ScaledInverseChiSquared]
  params := [("mu", none), ("distribution", none)]

/-- the body of `normal_known_mean_predictive` on bound arguments -/
noncomputable def normal_known_mean_predictive_body (kw : String → Option PyVal) : Except PyErr PyVal := do
  let mu' ← argNum kw "mu"
  let distribution' ← argVariancePrior kw "distribution"
  return (DistVal.studentT (Conj.normal_known_mean_predictive mu' distribution')).toPy

/-- `models.py:1238-1245` -/
noncomputable def normal_sig : FnSig PyVal where
  name := "normal"
  checked := "prior"
  annotation := .union [.NormalInverseGamma, .NormalGamma]
  params := [("x_total", none), ("x2_total", none), ("n", none), ("prior", none)]

/-- the body of `normal` on bound arguments -/
noncomputable def normal_body (kw : String → Option PyVal) : Except PyErr PyVal := do
  let x_total' ← argNum kw "x_total"
  let x2_total' ← argNum kw "x2_total"
  let n' ← argNum kw "n"
  let prior' ← argNormalPrior kw "prior"
  let r ← Conj.normal x_total' x2_total' n' prior'
  return (r).toDist.toPy

/-- `models.py:1290-1297` -/
noncomputable def normal_normal_inverse_gamma_sig : FnSig PyVal where
  name := "normal_normal_inverse_gamma"
  checked := "prior"
  annotation := .cls .NormalInverseGamma
  params := [("x_total", none), ("x2_total", none), ("n", none), ("prior", none)]

/-- the body of `normal_normal_inverse_gamma` on bound arguments -/
noncomputable def normal_normal_inverse_gamma_body (kw : String → Option PyVal) : Except PyErr PyVal := do
  let x_total' ← argNum kw "x_total"
  let x2_total' ← argNum kw "x2_total"
  let n' ← argNum kw "n"
  let prior' ← argNormalInverseGamma kw "prior"
  let r ← Conj.normal_normal_inverse_gamma x_total' x2_total' n' prior'
  return (r).toDist.toPy

/-- `models.py:1321-1325` -/
noncomputable def normal_predictive_sig : FnSig PyVal where
  name := "normal_predictive"
  checked := "distribution"
  annotation := .union [.NormalInverseGamma, .NormalGamma]
  params := [("distribution", none)]

/-- the body of `normal_predictive` on bound arguments -/
noncomputable def normal_predictive_body (kw : String → Option PyVal) : Except PyErr PyVal := do
  let distribution' ← argNormalPrior kw "distribution"
  let r ← Conj.normal_predictive distribution'
  return (DistVal.studentT (r)).toPy

/-- `models.py:1348-1352` -/
noncomputable def normal_normal_inverse_gamma_predictive_sig : FnSig PyVal where
  name := "normal_normal_inverse_gamma_predictive"
  checked := "distribution"
  annotation := .cls .NormalInverseGamma
  params := [("distribution", none)]

/-- the body of `normal_normal_inverse_gamma_predictive` on bound arguments -/
noncomputable def normal_normal_inverse_gamma_predictive_body (kw : String → Option PyVal) : Except PyErr PyVal := do
  let distribution' ← argNormalInverseGamma kw "distribution"
  let r ← Conj.normal_normal_inverse_gamma_predictive distribution'
  return (DistVal.studentT (r)).toPy

/-- `models.py:1370-1377` -/
noncomputable def linear_regression_sig : FnSig PyVal where
  name := "linear_regression"
  checked := "prior"
  annotation := .cls .NormalInverseGamma
  params := [("X", none), ("y", none), ("prior", none), ("inv", some (.other "function"))]

/-- `models.py:1424-1430` -/
noncomputable def linear_regression_predictive_sig : FnSig PyVal where
  name := "linear_regression_predictive"
  checked := "distribution"
  annotation := .cls .NormalInverseGamma
  params := [("distribution", none), ("X", none), ("eye", some (.other "function"))]

/-- `models.py:1455-1462` -/
noncomputable def uniform_pareto_sig : FnSig PyVal where
  name := "uniform_pareto"
  checked := "prior"
  annotation := .cls .Pareto
  params := [("x_max", none), ("n", none), ("prior", none), ("max_fn", some (.fn2 max))]

/-- the body of `uniform_pareto` on bound arguments -/
noncomputable def uniform_pareto_body (kw : String → Option PyVal) : Except PyErr PyVal := do
  let x_max' ← argNum kw "x_max"
  let n' ← argNum kw "n"
  let prior' ← argPareto kw "prior"
  let max_fn' ← argFn2 kw "max_fn"
  return (DistVal.pareto (Conj.uniform_pareto x_max' n' prior' max_fn')).toPy

/-- `models.py:1503-1511` -/
noncomputable def pareto_gamma_sig : FnSig PyVal where
  name := "pareto_gamma"
  checked := "prior"
  annotation := .cls .Gamma
  params := [("n", none), ("ln_x_total", none), ("x_m", none), ("prior", none), ("ln", some (.fn1 Real.log))]

/-- the body of `pareto_gamma` on bound arguments -/
noncomputable def pareto_gamma_body (kw : String → Option PyVal) : Except PyErr PyVal := do
  let n' ← argNum kw "n"
  let ln_x_total' ← argNum kw "ln_x_total"
  let x_m' ← argNum kw "x_m"
  let prior' ← argGamma kw "prior"
  let ln' ← argFn1 kw "ln"
  return (DistVal.gamma (Conj.pareto_gamma n' ln_x_total' x_m' prior' ln')).toPy

/-- `models.py:1572-1579` -/
noncomputable def gamma_sig : FnSig PyVal where
  name := "gamma"
  checked := "prior"
  annotation := .cls .GammaProportional
  params := [("x_total", none), ("x_prod", none), ("n", none), ("prior", none)]

/-- the body of `gamma` on bound arguments -/
noncomputable def gamma_body (kw : String → Option PyVal) : Except PyErr PyVal := do
  let x_total' ← argNum kw "x_total"
  let x_prod' ← argNum kw "x_prod"
  let n' ← argNum kw "n"
  let prior' ← argGammaProportional kw "prior"
  return (DistVal.gammaProportional (Conj.gamma x_total' x_prod' n' prior')).toPy

/-- `models.py:1602-1609` -/
noncomputable def gamma_known_rate_sig : FnSig PyVal where
  name := "gamma_known_rate"
  checked := "prior"
  annotation := .cls .GammaKnownRateProportional
  params := [("x_prod", none), ("n", none), ("beta", none), ("prior", none)]

/-- the body of `gamma_known_rate` on bound arguments -/
noncomputable def gamma_known_rate_body (kw : String → Option PyVal) : Except PyErr PyVal := do
  let x_prod' ← argNum kw "x_prod"
  let n' ← argNum kw "n"
  let beta' ← argNum kw "beta"
  let prior' ← argGammaKnownRateProportional kw "prior"
  return (DistVal.gammaKnownRateProportional (Conj.gamma_known_rate x_prod' n' beta' prior')).toPy

/-- `models.py:1630-1637` -/
noncomputable def beta_sig : FnSig PyVal where
  name := "beta"
  checked := "prior"
  annotation := .cls .BetaProportional
  params := [("x_prod", none), ("one_minus_x_prod", none), ("n", none), ("prior", none)]

/-- the body of `beta` on bound arguments -/
noncomputable def beta_body (kw : String → Option PyVal) : Except PyErr PyVal := do
  let x_prod' ← argNum kw "x_prod"
  let one_minus_x_prod' ← argNum kw "one_minus_x_prod"
  let n' ← argNum kw "n"
  let prior' ← argBetaProportional kw "prior"
  return (DistVal.betaProportional (Conj.beta x_prod' one_minus_x_prod' n' prior')).toPy

/-- `models.py:1659-1670` -/
noncomputable def von_mises_known_concentration_sig : FnSig PyVal where
  name := "von_mises_known_concentration"
  checked := "prior"
  annotation := .cls .VonMisesKnownConcentration
  params := [("cos_total", none), ("sin_total", none), ("n", none), ("kappa", none), ("prior", none), ("sin", some (.fn1 Real.sin)), ("cos", some (.fn1 Real.cos)), ("arctan2", some (.fn2 Scipy.arctan2))]

/-- the body of `von_mises_known_concentration` on bound arguments -/
noncomputable def von_mises_known_concentration_body (kw : String → Option PyVal) : Except PyErr PyVal := do
  let cos_total' ← argNum kw "cos_total"
  let sin_total' ← argNum kw "sin_total"
  let n' ← argNum kw "n"
  let kappa' ← argNum kw "kappa"
  let prior' ← argVonMisesKnownConcentration kw "prior"
  let sin' ← argFn1 kw "sin"
  let cos' ← argFn1 kw "cos"
  let arctan2' ← argFn2 kw "arctan2"
  return (DistVal.vonMisesKnownConcentration (Conj.von_mises_known_concentration cos_total' sin_total' n' kappa' prior' sin' cos' arctan2')).toPy

/-- `models.py:1694-1700` -/
noncomputable def von_mises_known_direction_sig : FnSig PyVal where
  name := "von_mises_known_direction"
  checked := "prior"
  annotation := .cls .VonMisesKnownDirectionProportional
  params := [("centered_cos_total", none), ("n", none), ("prior", none)]

/-- the body of `von_mises_known_direction` on bound arguments -/
noncomputable def von_mises_known_direction_body (kw : String → Option PyVal) : Except PyErr PyVal := do
  let centered_cos_total' ← argNum kw "centered_cos_total"
  let n' ← argNum kw "n"
  let prior' ← argVonMisesKnownDirectionProportional kw "prior"
  return (DistVal.vonMisesKnownDirectionProportional (Conj.von_mises_known_direction centered_cos_total' n' prior')).toPy

/-- `models.py:1734-1742` -/
noncomputable def multivariate_normal_known_covariance_sig : FnSig PyVal where
  name := "multivariate_normal_known_covariance"
  checked := "prior"
  annotation := .cls .MultivariateNormal
  params := [("n", none), ("x_bar", none), ("cov", none), ("prior", none), ("inv", some (.other "function"))]

/-- `models.py:1772-1777` -/
noncomputable def multivariate_normal_known_covariance_predictive_sig : FnSig PyVal where
  name := "multivariate_normal_known_covariance_predictive"
  checked := "distribution"
  annotation := .cls .MultivariateNormal
  params := [("distribution", none), ("cov", none)]

/-- `models.py:1793-1801` -/
noncomputable def multivariate_normal_known_precision_sig : FnSig PyVal where
  name := "multivariate_normal_known_precision"
  checked := "prior"
  annotation := .cls .MultivariateNormal
  params := [("n", none), ("x_bar", none), ("precision", none), ("prior", none), ("inv", some (.other "function"))]

/-- `models.py:1829-1835` -/
noncomputable def multivariate_normal_known_precision_predictive_sig : FnSig PyVal where
  name := "multivariate_normal_known_precision_predictive"
  checked := "distribution"
  annotation := .cls .MultivariateNormal
  params := [("distribution", none), ("precision", none), ("inv", some (.other "function"))]

/-- `models.py:1852-1858` -/
noncomputable def multivariate_normal_known_mean_sig : FnSig PyVal where
  name := "multivariate_normal_known_mean"
  checked := "prior"
  annotation := .cls .InverseWishart
  params := [("X", none), ("mu", none), ("prior", none)]

/-- `models.py:1879-1885` -/
noncomputable def multivariate_normal_sig : FnSig PyVal where
  name := "multivariate_normal"
  checked := "prior"
  annotation := .cls .NormalInverseWishart
  params := [("X", none), ("prior", none), ("outer", some (.other "function"))]

/-- `models.py:1963-1967` -/
noncomputable def multivariate_normal_predictive_sig : FnSig PyVal where
  name := "multivariate_normal_predictive"
  checked := "distribution"
  annotation := .cls .NormalInverseWishart
  params := [("distribution", none)]

/-- `models.py:2068-2075` -/
noncomputable def log_normal_sig : FnSig PyVal where
  name := "log_normal"
  checked := "prior"
  annotation := .union [.NormalInverseGamma, .NormalGamma]
  params := [("ln_x_total", none), ("ln_x2_total", none), ("n", none), ("prior", none)]

/-- the body of `log_normal` on bound arguments -/
noncomputable def log_normal_body (kw : String → Option PyVal) : Except PyErr PyVal := do
  let ln_x_total' ← argNum kw "ln_x_total"
  let ln_x2_total' ← argNum kw "ln_x2_total"
  let n' ← argNum kw "n"
  let prior' ← argNormalPrior kw "prior"
  let r ← Conj.log_normal ln_x_total' ln_x2_total' n' prior'
  return (r).toDist.toPy

/-- `models.py:2146-2152` -/
noncomputable def weibull_inverse_gamma_known_shape_sig : FnSig PyVal where
  name := "weibull_inverse_gamma_known_shape"
  checked := "prior"
  annotation := .cls .InverseGamma
  params := [("n", none), ("x_beta_total", none), ("prior", none)]

/-- the body of `weibull_inverse_gamma_known_shape` on bound arguments -/
noncomputable def weibull_inverse_gamma_known_shape_body (kw : String → Option PyVal) : Except PyErr PyVal := do
  let n' ← argNum kw "n"
  let x_beta_total' ← argNum kw "x_beta_total"
  let prior' ← argInverseGamma kw "prior"
  return (DistVal.inverseGamma (Conj.weibull_inverse_gamma_known_shape n' x_beta_total' prior')).toPy

/-- all decorated functions of `models.py` -/
noncomputable def decorated : List (FnSig PyVal) :=
  [binomial_beta_sig,
   binomial_beta_predictive_sig,
   bernoulli_beta_sig,
   bernoulli_beta_predictive_sig,
   negative_binomial_beta_sig,
   negative_binomial_beta_predictive_sig,
   hypergeometric_beta_binomial_sig,
   geometric_beta_sig,
   geometric_beta_predictive_sig,
   categorical_dirichlet_sig,
   categorical_dirichlet_predictive_sig,
   multinomial_dirichlet_sig,
   multinomial_dirichlet_predictive_sig,
   poisson_gamma_sig,
   poisson_gamma_predictive_sig,
   exponential_gamma_sig,
   exponential_gamma_predictive_sig,
   gamma_known_shape_sig,
   gamma_known_shape_predictive_sig,
   inverse_gamma_known_rate_sig,
   normal_known_variance_sig,
   normal_known_variance_predictive_sig,
   normal_known_precision_sig,
   normal_known_precision_predictive_sig,
   normal_known_mean_sig,
   normal_known_mean_predictive_sig,
   normal_sig,
   normal_normal_inverse_gamma_sig,
   normal_predictive_sig,
   normal_normal_inverse_gamma_predictive_sig,
   linear_regression_sig,
   linear_regression_predictive_sig,
   uniform_pareto_sig,
   pareto_gamma_sig,
   gamma_sig,
   gamma_known_rate_sig,
   beta_sig,
   von_mises_known_concentration_sig,
   von_mises_known_direction_sig,
   multivariate_normal_known_covariance_sig,
   multivariate_normal_known_covariance_predictive_sig,
   multivariate_normal_known_precision_sig,
   multivariate_normal_known_precision_predictive_sig,
   multivariate_normal_known_mean_sig,
   multivariate_normal_sig,
   multivariate_normal_predictive_sig,
   log_normal_sig,
   weibull_inverse_gamma_known_shape_sig]

end Conj
