import Verif.PyVal
import Verif.Models
import Verif.Scipy

/-!
# Calling the model functions (`models.py:73-98` and Python's keyword binding)

Every public model function is keyword-only (`def f(*, ...)`) and wrapped by `validate_prior_type`
or `validate_distribution_type`.  Here a call is a list of positional values and a list of keyword
arguments; exceptions are values.
-/

namespace Conj

/-- the distribution classes of `conjugate/distributions.py`; none is a subclass of another -/
inductive Cls
  | Beta | Binomial | Dirichlet | Multinomial | DirichletMultinomial | Exponential | Gamma
  | NegativeBinomial | Hypergeometric | Poisson | BetaBinomial | BetaNegativeBinomial | Geometric
  | BetaGeometric | Normal | MultivariateNormal | Uniform | Pareto | InverseGamma
  | NormalInverseGamma | StudentT | MultivariateStudentT | Lomax | CompoundGamma
  | GammaKnownRateProportional | GammaProportional | BetaProportional | VonMises
  | VonMisesKnownConcentration | VonMisesKnownDirectionProportional | ScaledInverseChiSquared
  | NormalGamma | InverseWishart | Wishart | NormalWishart | NormalInverseWishart | LogNormal
  | Weibull
  deriving DecidableEq

/-- `cls.__name__` -/
def Cls.name : Cls → String
  | Beta => "Beta" | Binomial => "Binomial" | Dirichlet => "Dirichlet"
  | Multinomial => "Multinomial" | DirichletMultinomial => "DirichletMultinomial"
  | Exponential => "Exponential" | Gamma => "Gamma" | NegativeBinomial => "NegativeBinomial"
  | Hypergeometric => "Hypergeometric" | Poisson => "Poisson" | BetaBinomial => "BetaBinomial"
  | BetaNegativeBinomial => "BetaNegativeBinomial" | Geometric => "Geometric"
  | BetaGeometric => "BetaGeometric" | Normal => "Normal"
  | MultivariateNormal => "MultivariateNormal" | Uniform => "Uniform" | Pareto => "Pareto"
  | InverseGamma => "InverseGamma" | NormalInverseGamma => "NormalInverseGamma"
  | StudentT => "StudentT" | MultivariateStudentT => "MultivariateStudentT" | Lomax => "Lomax"
  | CompoundGamma => "CompoundGamma"
  | GammaKnownRateProportional => "GammaKnownRateProportional"
  | GammaProportional => "GammaProportional" | BetaProportional => "BetaProportional"
  | VonMises => "VonMises" | VonMisesKnownConcentration => "VonMisesKnownConcentration"
  | VonMisesKnownDirectionProportional => "VonMisesKnownDirectionProportional"
  | ScaledInverseChiSquared => "ScaledInverseChiSquared" | NormalGamma => "NormalGamma"
  | InverseWishart => "InverseWishart" | Wishart => "Wishart" | NormalWishart => "NormalWishart"
  | NormalInverseWishart => "NormalInverseWishart" | LogNormal => "LogNormal"
  | Weibull => "Weibull"

/-- a Python class: its `__name__` and the library classes it is, or inherits from -/
structure PyType where
  name : String
  supers : List Cls

/-- `type(None)` -/
def noneType : PyType := ⟨"NoneType", []⟩

/-- the checked parameter's annotation: one class, or a union of classes -/
inductive Annotation
  | cls (c : Cls)
  | union (cs : List Cls)

/-- the classes an annotation accepts -/
def Annotation.accepted : Annotation → List Cls
  | .cls c => [c]
  | .union cs => cs

/-- `isinstance(value, expected_type)`, by the type of the value -/
def isInstance (t : PyType) (a : Annotation) : Bool := a.accepted.any (fun c => decide (c ∈ t.supers))

/-- `expected_type.__name__`: a `types.UnionType` has no such attribute (Python 3.10 - 3.13) -/
def Annotation.pyName : Annotation → Except PyErr String
  | .cls c => .ok c.name
  | .union _ => .error .attributeError

/-- a decorated function: its name, the parameter its decorator checks, that parameter's
annotation, and its keyword-only parameters with their defaults -/
structure FnSig (V : Type) where
  name : String
  checked : String
  annotation : Annotation
  params : List (String × Option V)

section
variable {V R : Type}

/-- a call of the undecorated function: no positional arguments, every required keyword given, no
unknown keyword, else TypeError; then the body sees the given values and the defaults -/
def FnSig.pyCall (sig : FnSig V) (body : (String → Option V) → Except PyErr R) (args : List V)
    (kwargs : List (String × V)) : Except PyErr R :=
  if args ≠ [] then .error .typeError
  else if kwargs.any (fun p => (sig.params.lookup p.1).isNone) then .error .typeError
  else if sig.params.any (fun p => p.2.isNone && (kwargs.lookup p.1).isNone) then .error .typeError
  else body (fun name => (kwargs.lookup name).or ((sig.params.lookup name).join))

/-- `models.py:73-90`: the wrapper `validate_type` puts around a function.  Every decorated
function annotates the checked parameter, so `expected_type is not None`. -/
def FnSig.invoke (typeOf : V → PyType) (sig : FnSig V) (body : (String → Option V) → Except PyErr R)
    (args : List V) (kwargs : List (String × V)) : Except PyErr R :=
  let received := match kwargs.lookup sig.checked with
    | some v => typeOf v
    | none => noneType
  if !isInstance received sig.annotation then
    match sig.annotation.pyName with
    | .error e => .error e
    | .ok expected => .error (.valueError ("Expected " ++ sig.checked ++ " to be of type '" ++ expected ++
        "', got '" ++ received.name ++ "' instead."))
  else sig.pyCall body args kwargs

end

/-! ## Python values -/

/-- an instance of a distribution class with numeric parameters; the classes with matrix
parameters are kept without their contents -/
inductive DistVal
  | beta (d : Beta ℝ)
  | binomial (d : Binomial ℝ)
  | dirichlet (d : Dirichlet (SeqVal ℝ))
  | dirichletMultinomial (d : DirichletMultinomial ℝ (SeqVal ℝ))
  | exponential (d : Exponential ℝ)
  | gamma (d : Gamma ℝ)
  | negativeBinomial (d : NegativeBinomial ℝ)
  | hypergeometric (d : Hypergeometric ℝ)
  | poisson (d : Poisson ℝ)
  | betaBinomial (d : BetaBinomial ℝ)
  | betaNegativeBinomial (d : BetaNegativeBinomial ℝ)
  | geometric (d : Geometric ℝ)
  | betaGeometric (d : BetaGeometric ℝ)
  | normal (d : Normal ℝ)
  | uniform (d : Uniform ℝ)
  | pareto (d : Pareto ℝ)
  | inverseGamma (d : InverseGamma ℝ)
  | normalInverseGamma (d : NormalInverseGamma ℝ ℝ Unit)
  | studentT (d : StudentT ℝ)
  | lomax (d : Lomax ℝ)
  | compoundGamma (d : CompoundGamma ℝ)
  | gammaKnownRateProportional (d : GammaKnownRateProportional ℝ)
  | gammaProportional (d : GammaProportional ℝ)
  | betaProportional (d : BetaProportional ℝ)
  | vonMises (d : VonMises ℝ)
  | vonMisesKnownConcentration (d : VonMisesKnownConcentration ℝ)
  | vonMisesKnownDirectionProportional (d : VonMisesKnownDirectionProportional ℝ)
  | scaledInverseChiSquared (d : ScaledInverseChiSquared ℝ)
  | normalGamma (d : NormalGamma ℝ)
  | logNormal (d : LogNormal ℝ)
  | weibull (d : Weibull ℝ)
  | matrix (c : Cls)

/-- the class of an instance -/
def DistVal.cls : DistVal → Cls
  | beta _ => .Beta | binomial _ => .Binomial | dirichlet _ => .Dirichlet
  | dirichletMultinomial _ => .DirichletMultinomial | exponential _ => .Exponential
  | gamma _ => .Gamma | negativeBinomial _ => .NegativeBinomial
  | hypergeometric _ => .Hypergeometric | poisson _ => .Poisson | betaBinomial _ => .BetaBinomial
  | betaNegativeBinomial _ => .BetaNegativeBinomial | geometric _ => .Geometric
  | betaGeometric _ => .BetaGeometric | normal _ => .Normal | uniform _ => .Uniform
  | pareto _ => .Pareto | inverseGamma _ => .InverseGamma
  | normalInverseGamma _ => .NormalInverseGamma | studentT _ => .StudentT | lomax _ => .Lomax
  | compoundGamma _ => .CompoundGamma
  | gammaKnownRateProportional _ => .GammaKnownRateProportional
  | gammaProportional _ => .GammaProportional | betaProportional _ => .BetaProportional
  | vonMises _ => .VonMises | vonMisesKnownConcentration _ => .VonMisesKnownConcentration
  | vonMisesKnownDirectionProportional _ => .VonMisesKnownDirectionProportional
  | scaledInverseChiSquared _ => .ScaledInverseChiSquared | normalGamma _ => .NormalGamma
  | logNormal _ => .LogNormal | weibull _ => .Weibull | matrix c => c

/-- values passed to, and returned by, the model functions -/
inductive PyVal
  | none
  | bool (b : Bool)
  | num (x : ℝ)
  | seq (s : SeqVal ℝ)
  | fn1 (f : ℝ → ℝ)
  | fn2 (f : ℝ → ℝ → ℝ)
  /-- an instance of a distribution class, or of a user's subclass of it called `typeName` -/
  | inst (typeName : String) (d : DistVal)
  | other (typeName : String)

/-- `type(v)` -/
def PyVal.typeOf : PyVal → PyType
  | .none => noneType
  | .bool _ => ⟨"bool", []⟩
  | .num _ => ⟨"float", []⟩
  | .seq (.num _) => ⟨"float", []⟩
  | .seq (.list _) => ⟨"list", []⟩
  | .seq (.tuple _) => ⟨"tuple", []⟩
  | .seq (.arr _) => ⟨"ndarray", []⟩
  | .fn1 _ => ⟨"ufunc", []⟩
  | .fn2 _ => ⟨"ufunc", []⟩
  | .inst t d => ⟨t, [d.cls]⟩
  | .other t => ⟨t, []⟩

/-- a constructor call of the library returns an instance of exactly that class -/
def DistVal.toPy (d : DistVal) : PyVal := .inst d.cls.name d

/-- use of a bound argument as a number (anything else fails in the arithmetic) -/
def argNum (kw : String → Option PyVal) (name : String) : Except PyErr ℝ :=
  match kw name with
  | some (.num x) => .ok x
  | _ => .error .typeError

/-- use of a bound argument as a truth value -/
def argBool (kw : String → Option PyVal) (name : String) : Except PyErr Bool :=
  match kw name with
  | some (.bool b) => .ok b
  | _ => .error .typeError

/-- use of a bound argument as a Dirichlet parameter -/
def argSeq (kw : String → Option PyVal) (name : String) : Except PyErr (SeqVal ℝ) :=
  match kw name with
  | some (.seq s) => .ok s
  | some (.num x) => .ok (.num x)
  | _ => .error .typeError

/-- use of a bound argument as a function of one number -/
def argFn1 (kw : String → Option PyVal) (name : String) : Except PyErr (ℝ → ℝ) :=
  match kw name with
  | some (.fn1 f) => .ok f
  | _ => .error .typeError

/-- use of a bound argument as a function of two numbers -/
def argFn2 (kw : String → Option PyVal) (name : String) : Except PyErr (ℝ → ℝ → ℝ) :=
  match kw name with
  | some (.fn2 f) => .ok f
  | _ => .error .typeError

/-- use of a bound argument as a distribution: attribute access fails on anything else -/
def argDist (kw : String → Option PyVal) (name : String) : Except PyErr DistVal :=
  match kw name with
  | some (.inst _ d) => .ok d
  | _ => .error .attributeError

end Conj
