import Verif.Props.SliceClasses

/-!
# C57: what is indexed is the object

The theorems of `Props/SliceCommutes` index each parameter with `takeSlice`; for every class with `SliceMixin` this is what
`dist[key]` does.
-/

namespace Conj

variable {β : Type}

/-- C57. For every class, `dist[key]` is the object with each parameter indexed. -/
theorem C57_indexing (key : Key) :
    (∀ d : Beta (NdArr β), d.toObj.getitem key = (fmap (takeSlice key) d).toObj) ∧
    (∀ d : Gamma (NdArr β), d.toObj.getitem key = (fmap (takeSlice key) d).toObj) ∧
    (∀ d : InverseGamma (NdArr β), d.toObj.getitem key = (fmap (takeSlice key) d).toObj) ∧
    (∀ d : Normal (NdArr β), d.toObj.getitem key = (fmap (takeSlice key) d).toObj) ∧
    (∀ d : BetaBinomial (NdArr β), d.toObj.getitem key = (fmap (takeSlice key) d).toObj) ∧
    (∀ d : BetaNegativeBinomial (NdArr β), d.toObj.getitem key = (fmap (takeSlice key) d).toObj) ∧
    (∀ d : BetaGeometric (NdArr β), d.toObj.getitem key = (fmap (takeSlice key) d).toObj) ∧
    (∀ d : NegativeBinomial (NdArr β), d.toObj.getitem key = (fmap (takeSlice key) d).toObj) ∧
    (∀ d : Lomax (NdArr β), d.toObj.getitem key = (fmap (takeSlice key) d).toObj) ∧
    (∀ d : CompoundGamma (NdArr β), d.toObj.getitem key = (fmap (takeSlice key) d).toObj) ∧
    (∀ d : StudentT (NdArr β), d.toObj.getitem key = (fmap (takeSlice key) d).toObj) ∧
    (∀ d : ScaledInverseChiSquared (NdArr β), d.toObj.getitem key = (fmap (takeSlice key) d).toObj) ∧
    (∀ d : Pareto (NdArr β), d.toObj.getitem key = (fmap (takeSlice key) d).toObj) ∧
    (∀ d : Binomial (NdArr β), d.toObj.getitem key = (fmap (takeSlice key) d).toObj) ∧
    (∀ d : Exponential (NdArr β), d.toObj.getitem key = (fmap (takeSlice key) d).toObj) ∧
    (∀ d : Hypergeometric (NdArr β), d.toObj.getitem key = (fmap (takeSlice key) d).toObj) ∧
    (∀ d : Poisson (NdArr β), d.toObj.getitem key = (fmap (takeSlice key) d).toObj) ∧
    (∀ d : Geometric (NdArr β), d.toObj.getitem key = (fmap (takeSlice key) d).toObj) ∧
    (∀ d : Uniform (NdArr β), d.toObj.getitem key = (fmap (takeSlice key) d).toObj) ∧
    (∀ d : VonMises (NdArr β), d.toObj.getitem key = (fmap (takeSlice key) d).toObj) ∧
    (∀ d : LogNormal (NdArr β), d.toObj.getitem key = (fmap (takeSlice key) d).toObj) ∧
    (∀ d : Weibull (NdArr β), d.toObj.getitem key = (fmap (takeSlice key) d).toObj) :=
  ⟨fun d => (C59_Beta_slice d key).2,
    fun d => (C59_Gamma_slice d key).2,
    fun d => (C59_InverseGamma_slice d key).2,
    fun d => (C59_Normal_slice d key).2,
    fun d => (C59_BetaBinomial_slice d key).2,
    fun d => (C59_BetaNegativeBinomial_slice d key).2,
    fun d => (C59_BetaGeometric_slice d key).2,
    fun d => (C59_NegativeBinomial_slice d key).2,
    fun d => (C59_Lomax_slice d key).2,
    fun d => (C59_CompoundGamma_slice d key).2,
    fun d => (C59_StudentT_slice d key).2,
    fun d => (C59_ScaledInverseChiSquared_slice d key).2,
    fun d => (C59_Pareto_slice d key).2,
    fun d => (C59_Binomial_slice d key).2,
    fun d => (C59_Exponential_slice d key).2,
    fun d => (C59_Hypergeometric_slice d key).2,
    fun d => (C59_Poisson_slice d key).2,
    fun d => (C59_Geometric_slice d key).2,
    fun d => (C59_Uniform_slice d key).2,
    fun d => (C59_VonMises_slice d key).2,
    fun d => (C59_LogNormal_slice d key).2,
    fun d => (C59_Weibull_slice d key).2⟩

end Conj
