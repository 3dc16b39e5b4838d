import Verif.ToObj

/-! Written by `tools/gen_elementwise.py`. -/

/-!
# C59 for every class with `SliceMixin`: `dist[key]` is an instance of the same class with each
parameter indexed (where it can be) and the flags kept
-/

namespace Conj

variable {β : Type}

theorem Value.takeSlice_arr (key : Key) (a : NdArr β) :
    Value.takeSlice key (.arr a) = .arr (Conj.takeSlice key a) := by
  simp only [Value.takeSlice, Value.getitem, Conj.takeSlice]
  cases a.getitem key <;> rfl

theorem C59_Beta_slice (d : Beta (NdArr β)) (key : Key) :
    d.toObj.getitem key =
        { cls := "Beta", fields := [("alpha", .arr (takeSlice key d.alpha)), ("beta", .arr (takeSlice key d.beta))], attrs := [] } ∧
      d.toObj.getitem key = (fmap (takeSlice key) d).toObj := by
  constructor <;>
  · simp only [Beta.toObj, Obj.getitem, Obj.construct, List.map_cons, List.map_nil, Value.takeSlice_arr]
    try rfl

theorem C59_Gamma_slice (d : Gamma (NdArr β)) (key : Key) :
    d.toObj.getitem key =
        { cls := "Gamma", fields := [("alpha", .arr (takeSlice key d.alpha)), ("beta", .arr (takeSlice key d.beta))], attrs := [] } ∧
      d.toObj.getitem key = (fmap (takeSlice key) d).toObj := by
  constructor <;>
  · simp only [Gamma.toObj, Obj.getitem, Obj.construct, List.map_cons, List.map_nil, Value.takeSlice_arr]
    try rfl

theorem C59_InverseGamma_slice (d : InverseGamma (NdArr β)) (key : Key) :
    d.toObj.getitem key =
        { cls := "InverseGamma", fields := [("alpha", .arr (takeSlice key d.alpha)), ("beta", .arr (takeSlice key d.beta))], attrs := [] } ∧
      d.toObj.getitem key = (fmap (takeSlice key) d).toObj := by
  constructor <;>
  · simp only [InverseGamma.toObj, Obj.getitem, Obj.construct, List.map_cons, List.map_nil, Value.takeSlice_arr]
    try rfl

theorem C59_Normal_slice (d : Normal (NdArr β)) (key : Key) :
    d.toObj.getitem key =
        { cls := "Normal", fields := [("mu", .arr (takeSlice key d.mu)), ("sigma", .arr (takeSlice key d.sigma))], attrs := [] } ∧
      d.toObj.getitem key = (fmap (takeSlice key) d).toObj := by
  constructor <;>
  · simp only [Normal.toObj, Obj.getitem, Obj.construct, List.map_cons, List.map_nil, Value.takeSlice_arr]
    try rfl

theorem C59_BetaBinomial_slice (d : BetaBinomial (NdArr β)) (key : Key) :
    d.toObj.getitem key =
        { cls := "BetaBinomial", fields := [("n", .arr (takeSlice key d.n)), ("alpha", .arr (takeSlice key d.alpha)), ("beta", .arr (takeSlice key d.beta))], attrs := [] } ∧
      d.toObj.getitem key = (fmap (takeSlice key) d).toObj := by
  constructor <;>
  · simp only [BetaBinomial.toObj, Obj.getitem, Obj.construct, List.map_cons, List.map_nil, Value.takeSlice_arr]
    try rfl

theorem C59_BetaNegativeBinomial_slice (d : BetaNegativeBinomial (NdArr β)) (key : Key) :
    d.toObj.getitem key =
        { cls := "BetaNegativeBinomial", fields := [("n", .arr (takeSlice key d.n)), ("alpha", .arr (takeSlice key d.alpha)), ("beta", .arr (takeSlice key d.beta))], attrs := [] } ∧
      d.toObj.getitem key = (fmap (takeSlice key) d).toObj := by
  constructor <;>
  · simp only [BetaNegativeBinomial.toObj, Obj.getitem, Obj.construct, List.map_cons, List.map_nil, Value.takeSlice_arr]
    try rfl

theorem C59_BetaGeometric_slice (d : BetaGeometric (NdArr β)) (key : Key) :
    d.toObj.getitem key =
        { cls := "BetaGeometric", fields := [("alpha", .arr (takeSlice key d.alpha)), ("beta", .arr (takeSlice key d.beta)), ("one_start", .flag d.one_start)], attrs := [] } ∧
      d.toObj.getitem key = (fmap (takeSlice key) d).toObj := by
  constructor <;>
  · simp only [BetaGeometric.toObj, Obj.getitem, Obj.construct, List.map_cons, List.map_nil, Value.takeSlice_arr]
    try rfl

theorem C59_NegativeBinomial_slice (d : NegativeBinomial (NdArr β)) (key : Key) :
    d.toObj.getitem key =
        { cls := "NegativeBinomial", fields := [("n", .arr (takeSlice key d.n)), ("p", .arr (takeSlice key d.p))], attrs := [] } ∧
      d.toObj.getitem key = (fmap (takeSlice key) d).toObj := by
  constructor <;>
  · simp only [NegativeBinomial.toObj, Obj.getitem, Obj.construct, List.map_cons, List.map_nil, Value.takeSlice_arr]
    try rfl

theorem C59_Lomax_slice (d : Lomax (NdArr β)) (key : Key) :
    d.toObj.getitem key =
        { cls := "Lomax", fields := [("alpha", .arr (takeSlice key d.alpha)), ("lam", .arr (takeSlice key d.lam))], attrs := [] } ∧
      d.toObj.getitem key = (fmap (takeSlice key) d).toObj := by
  constructor <;>
  · simp only [Lomax.toObj, Obj.getitem, Obj.construct, List.map_cons, List.map_nil, Value.takeSlice_arr]
    try rfl

theorem C59_CompoundGamma_slice (d : CompoundGamma (NdArr β)) (key : Key) :
    d.toObj.getitem key =
        { cls := "CompoundGamma", fields := [("alpha", .arr (takeSlice key d.alpha)), ("beta", .arr (takeSlice key d.beta)), ("lam", .arr (takeSlice key d.lam))], attrs := [] } ∧
      d.toObj.getitem key = (fmap (takeSlice key) d).toObj := by
  constructor <;>
  · simp only [CompoundGamma.toObj, Obj.getitem, Obj.construct, List.map_cons, List.map_nil, Value.takeSlice_arr]
    try rfl

theorem C59_StudentT_slice (d : StudentT (NdArr β)) (key : Key) :
    d.toObj.getitem key =
        { cls := "StudentT", fields := [("mu", .arr (takeSlice key d.mu)), ("sigma", .arr (takeSlice key d.sigma)), ("nu", .arr (takeSlice key d.nu))], attrs := [] } ∧
      d.toObj.getitem key = (fmap (takeSlice key) d).toObj := by
  constructor <;>
  · simp only [StudentT.toObj, Obj.getitem, Obj.construct, List.map_cons, List.map_nil, Value.takeSlice_arr]
    try rfl

theorem C59_ScaledInverseChiSquared_slice (d : ScaledInverseChiSquared (NdArr β)) (key : Key) :
    d.toObj.getitem key =
        { cls := "ScaledInverseChiSquared", fields := [("nu", .arr (takeSlice key d.nu)), ("sigma2", .arr (takeSlice key d.sigma2))], attrs := [] } ∧
      d.toObj.getitem key = (fmap (takeSlice key) d).toObj := by
  constructor <;>
  · simp only [ScaledInverseChiSquared.toObj, Obj.getitem, Obj.construct, List.map_cons, List.map_nil, Value.takeSlice_arr]
    try rfl

theorem C59_Pareto_slice (d : Pareto (NdArr β)) (key : Key) :
    d.toObj.getitem key =
        { cls := "Pareto", fields := [("x_m", .arr (takeSlice key d.x_m)), ("alpha", .arr (takeSlice key d.alpha))], attrs := [] } ∧
      d.toObj.getitem key = (fmap (takeSlice key) d).toObj := by
  constructor <;>
  · simp only [Pareto.toObj, Obj.getitem, Obj.construct, List.map_cons, List.map_nil, Value.takeSlice_arr]
    try rfl

theorem C59_Binomial_slice (d : Binomial (NdArr β)) (key : Key) :
    d.toObj.getitem key =
        { cls := "Binomial", fields := [("n", .arr (takeSlice key d.n)), ("p", .arr (takeSlice key d.p))], attrs := [] } ∧
      d.toObj.getitem key = (fmap (takeSlice key) d).toObj := by
  constructor <;>
  · simp only [Binomial.toObj, Obj.getitem, Obj.construct, List.map_cons, List.map_nil, Value.takeSlice_arr]
    try rfl

theorem C59_Exponential_slice (d : Exponential (NdArr β)) (key : Key) :
    d.toObj.getitem key =
        { cls := "Exponential", fields := [("lam", .arr (takeSlice key d.lam))], attrs := [] } ∧
      d.toObj.getitem key = (fmap (takeSlice key) d).toObj := by
  constructor <;>
  · simp only [Exponential.toObj, Obj.getitem, Obj.construct, List.map_cons, List.map_nil, Value.takeSlice_arr]
    try rfl

theorem C59_Hypergeometric_slice (d : Hypergeometric (NdArr β)) (key : Key) :
    d.toObj.getitem key =
        { cls := "Hypergeometric", fields := [("N", .arr (takeSlice key d.N)), ("k", .arr (takeSlice key d.k)), ("n", .arr (takeSlice key d.n))], attrs := [] } ∧
      d.toObj.getitem key = (fmap (takeSlice key) d).toObj := by
  constructor <;>
  · simp only [Hypergeometric.toObj, Obj.getitem, Obj.construct, List.map_cons, List.map_nil, Value.takeSlice_arr]
    try rfl

theorem C59_Poisson_slice (d : Poisson (NdArr β)) (key : Key) :
    d.toObj.getitem key =
        { cls := "Poisson", fields := [("lam", .arr (takeSlice key d.lam))], attrs := [] } ∧
      d.toObj.getitem key = (fmap (takeSlice key) d).toObj := by
  constructor <;>
  · simp only [Poisson.toObj, Obj.getitem, Obj.construct, List.map_cons, List.map_nil, Value.takeSlice_arr]
    try rfl

theorem C59_Geometric_slice (d : Geometric (NdArr β)) (key : Key) :
    d.toObj.getitem key =
        { cls := "Geometric", fields := [("p", .arr (takeSlice key d.p)), ("one_start", .flag d.one_start)], attrs := [] } ∧
      d.toObj.getitem key = (fmap (takeSlice key) d).toObj := by
  constructor <;>
  · simp only [Geometric.toObj, Obj.getitem, Obj.construct, List.map_cons, List.map_nil, Value.takeSlice_arr]
    try rfl

theorem C59_Uniform_slice (d : Uniform (NdArr β)) (key : Key) :
    d.toObj.getitem key =
        { cls := "Uniform", fields := [("low", .arr (takeSlice key d.low)), ("high", .arr (takeSlice key d.high))], attrs := [] } ∧
      d.toObj.getitem key = (fmap (takeSlice key) d).toObj := by
  constructor <;>
  · simp only [Uniform.toObj, Obj.getitem, Obj.construct, List.map_cons, List.map_nil, Value.takeSlice_arr]
    try rfl

theorem C59_VonMises_slice (d : VonMises (NdArr β)) (key : Key) :
    d.toObj.getitem key =
        { cls := "VonMises", fields := [("mu", .arr (takeSlice key d.mu)), ("kappa", .arr (takeSlice key d.kappa))], attrs := [] } ∧
      d.toObj.getitem key = (fmap (takeSlice key) d).toObj := by
  constructor <;>
  · simp only [VonMises.toObj, Obj.getitem, Obj.construct, List.map_cons, List.map_nil, Value.takeSlice_arr]
    try rfl

theorem C59_LogNormal_slice (d : LogNormal (NdArr β)) (key : Key) :
    d.toObj.getitem key =
        { cls := "LogNormal", fields := [("mu", .arr (takeSlice key d.mu)), ("sigma", .arr (takeSlice key d.sigma))], attrs := [] } ∧
      d.toObj.getitem key = (fmap (takeSlice key) d).toObj := by
  constructor <;>
  · simp only [LogNormal.toObj, Obj.getitem, Obj.construct, List.map_cons, List.map_nil, Value.takeSlice_arr]
    try rfl

theorem C59_Weibull_slice (d : Weibull (NdArr β)) (key : Key) :
    d.toObj.getitem key =
        { cls := "Weibull", fields := [("beta", .arr (takeSlice key d.beta)), ("theta", .arr (takeSlice key d.theta))], attrs := [] } ∧
      d.toObj.getitem key = (fmap (takeSlice key) d).toObj := by
  constructor <;>
  · simp only [Weibull.toObj, Obj.getitem, Obj.construct, List.map_cons, List.map_nil, Value.takeSlice_arr]
    try rfl

end Conj
