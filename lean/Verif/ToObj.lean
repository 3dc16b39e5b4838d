import Verif.Slice

/-! Written by `tools/gen_elementwise.py`. -/

/-!
# Distributions as Python objects

The instance (class name, dataclass fields in order) of every class with `SliceMixin`.
-/

namespace Conj

variable {β : Type}

/-- an instance of `Beta` (`conjugate/distributions.py`, class `Beta`) -/
def Beta.toObj (d : Beta (NdArr β)) : Obj β :=
  { cls := "Beta", fields := [("alpha", .arr d.alpha), ("beta", .arr d.beta)], attrs := [] }

/-- an instance of `Gamma` (`conjugate/distributions.py`, class `Gamma`) -/
def Gamma.toObj (d : Gamma (NdArr β)) : Obj β :=
  { cls := "Gamma", fields := [("alpha", .arr d.alpha), ("beta", .arr d.beta)], attrs := [] }

/-- an instance of `InverseGamma` (`conjugate/distributions.py`, class `InverseGamma`) -/
def InverseGamma.toObj (d : InverseGamma (NdArr β)) : Obj β :=
  { cls := "InverseGamma", fields := [("alpha", .arr d.alpha), ("beta", .arr d.beta)], attrs := [] }

/-- an instance of `Normal` (`conjugate/distributions.py`, class `Normal`) -/
def Normal.toObj (d : Normal (NdArr β)) : Obj β :=
  { cls := "Normal", fields := [("mu", .arr d.mu), ("sigma", .arr d.sigma)], attrs := [] }

/-- an instance of `BetaBinomial` (`conjugate/distributions.py`, class `BetaBinomial`) -/
def BetaBinomial.toObj (d : BetaBinomial (NdArr β)) : Obj β :=
  { cls := "BetaBinomial", fields := [("n", .arr d.n), ("alpha", .arr d.alpha), ("beta", .arr d.beta)], attrs := [] }

/-- an instance of `BetaNegativeBinomial` (`conjugate/distributions.py`, class `BetaNegativeBinomial`) -/
def BetaNegativeBinomial.toObj (d : BetaNegativeBinomial (NdArr β)) : Obj β :=
  { cls := "BetaNegativeBinomial", fields := [("n", .arr d.n), ("alpha", .arr d.alpha), ("beta", .arr d.beta)], attrs := [] }

/-- an instance of `BetaGeometric` (`conjugate/distributions.py`, class `BetaGeometric`) -/
def BetaGeometric.toObj (d : BetaGeometric (NdArr β)) : Obj β :=
  { cls := "BetaGeometric", fields := [("alpha", .arr d.alpha), ("beta", .arr d.beta), ("one_start", .flag d.one_start)], attrs := [] }

/-- an instance of `NegativeBinomial` (`conjugate/distributions.py`, class `NegativeBinomial`) -/
def NegativeBinomial.toObj (d : NegativeBinomial (NdArr β)) : Obj β :=
  { cls := "NegativeBinomial", fields := [("n", .arr d.n), ("p", .arr d.p)], attrs := [] }

/-- an instance of `Lomax` (`conjugate/distributions.py`, class `Lomax`) -/
def Lomax.toObj (d : Lomax (NdArr β)) : Obj β :=
  { cls := "Lomax", fields := [("alpha", .arr d.alpha), ("lam", .arr d.lam)], attrs := [] }

/-- an instance of `CompoundGamma` (`conjugate/distributions.py`, class `CompoundGamma`) -/
def CompoundGamma.toObj (d : CompoundGamma (NdArr β)) : Obj β :=
  { cls := "CompoundGamma", fields := [("alpha", .arr d.alpha), ("beta", .arr d.beta), ("lam", .arr d.lam)], attrs := [] }

/-- an instance of `StudentT` (`conjugate/distributions.py`, class `StudentT`) -/
def StudentT.toObj (d : StudentT (NdArr β)) : Obj β :=
  { cls := "StudentT", fields := [("mu", .arr d.mu), ("sigma", .arr d.sigma), ("nu", .arr d.nu)], attrs := [] }

/-- an instance of `ScaledInverseChiSquared` (`conjugate/distributions.py`, class `ScaledInverseChiSquared`) -/
def ScaledInverseChiSquared.toObj (d : ScaledInverseChiSquared (NdArr β)) : Obj β :=
  { cls := "ScaledInverseChiSquared", fields := [("nu", .arr d.nu), ("sigma2", .arr d.sigma2)], attrs := [] }

/-- an instance of `Pareto` (`conjugate/distributions.py`, class `Pareto`) -/
def Pareto.toObj (d : Pareto (NdArr β)) : Obj β :=
  { cls := "Pareto", fields := [("x_m", .arr d.x_m), ("alpha", .arr d.alpha)], attrs := [] }

/-- an instance of `Binomial` (`conjugate/distributions.py`, class `Binomial`) -/
def Binomial.toObj (d : Binomial (NdArr β)) : Obj β :=
  { cls := "Binomial", fields := [("n", .arr d.n), ("p", .arr d.p)], attrs := [] }

/-- an instance of `Exponential` (`conjugate/distributions.py`, class `Exponential`) -/
def Exponential.toObj (d : Exponential (NdArr β)) : Obj β :=
  { cls := "Exponential", fields := [("lam", .arr d.lam)], attrs := [] }

/-- an instance of `Hypergeometric` (`conjugate/distributions.py`, class `Hypergeometric`) -/
def Hypergeometric.toObj (d : Hypergeometric (NdArr β)) : Obj β :=
  { cls := "Hypergeometric", fields := [("N", .arr d.N), ("k", .arr d.k), ("n", .arr d.n)], attrs := [] }

/-- an instance of `Poisson` (`conjugate/distributions.py`, class `Poisson`) -/
def Poisson.toObj (d : Poisson (NdArr β)) : Obj β :=
  { cls := "Poisson", fields := [("lam", .arr d.lam)], attrs := [] }

/-- an instance of `Geometric` (`conjugate/distributions.py`, class `Geometric`) -/
def Geometric.toObj (d : Geometric (NdArr β)) : Obj β :=
  { cls := "Geometric", fields := [("p", .arr d.p), ("one_start", .flag d.one_start)], attrs := [] }

/-- an instance of `Uniform` (`conjugate/distributions.py`, class `Uniform`) -/
def Uniform.toObj (d : Uniform (NdArr β)) : Obj β :=
  { cls := "Uniform", fields := [("low", .arr d.low), ("high", .arr d.high)], attrs := [] }

/-- an instance of `VonMises` (`conjugate/distributions.py`, class `VonMises`) -/
def VonMises.toObj (d : VonMises (NdArr β)) : Obj β :=
  { cls := "VonMises", fields := [("mu", .arr d.mu), ("kappa", .arr d.kappa)], attrs := [] }

/-- an instance of `LogNormal` (`conjugate/distributions.py`, class `LogNormal`) -/
def LogNormal.toObj (d : LogNormal (NdArr β)) : Obj β :=
  { cls := "LogNormal", fields := [("mu", .arr d.mu), ("sigma", .arr d.sigma)], attrs := [] }

/-- an instance of `Weibull` (`conjugate/distributions.py`, class `Weibull`) -/
def Weibull.toObj (d : Weibull (NdArr β)) : Obj β :=
  { cls := "Weibull", fields := [("beta", .arr d.beta), ("theta", .arr d.theta)], attrs := [] }

end Conj
