import Verif.Lemmas.Mvn
import Verif.Lemmas.Mvt
import Mathlib.Probability.Distributions.Gaussian.Multivariate

/-! Laws with multivariate normal and t densities, and their marginals. -/

open MeasureTheory Set Real Matrix ProbabilityTheory

set_option linter.unusedSectionVars false

namespace Conj

open Scipy Spec

variable {p k : Type} [Fintype p] [DecidableEq p] [Fintype k] [DecidableEq k]

/-- the law with a given Lebesgue density -/
noncomputable def densLaw {X : Type} [MeasureSpace X] (f : X → ℝ) : Measure X :=
  volume.withDensity fun x => ENNReal.ofReal (f x)

theorem phi_eq (z : ℝ) : phi z = gaussianPDFReal 0 1 z := by
  simp only [phi, gaussianPDFReal]
  rw [div_eq_inv_mul]
  congr 2 <;> simp <;> ring

theorem integrable_phi : Integrable phi := by
  rw [show phi = gaussianPDFReal 0 1 from funext phi_eq]
  exact integrable_gaussianPDFReal 0 1

theorem phi_nonneg (z : ℝ) : 0 ≤ phi z := by unfold phi; positivity

theorem pi_gaussian_eq :
    Measure.pi (fun _ : p => gaussianReal 0 1) = densLaw fun z : p → ℝ => ∏ i, phi (z i) := by
  refine Measure.pi_eq fun s hs => ?_
  rw [densLaw, withDensity_apply _ (MeasurableSet.univ_pi hs), volume_pi, Measure.restrict_pi_pi,
    ← ofReal_integral_eq_lintegral_ofReal]
  · rw [integral_fintype_prod_eq_prod (f := fun _ => phi),
      ENNReal.ofReal_prod_of_nonneg fun i _ => integral_nonneg fun z => phi_nonneg z]
    refine Finset.prod_congr rfl fun i _ => ?_
    rw [gaussianReal_apply_eq_integral _ one_ne_zero]
    simp only [phi_eq]
  · exact Integrable.fintype_prod fun i => integrable_phi.restrict
  · exact Filter.Eventually.of_forall fun z => Finset.prod_nonneg fun i _ => phi_nonneg _

theorem measurable_prod_phi : Measurable fun z : p → ℝ => ∏ i, phi (z i) := by
  unfold phi; fun_prop

theorem mvnLaw_eq_map {S B : Matrix p p ℝ} (hS : S.PosDef) (hB : B * Bᵀ = S) (μ : p → ℝ) :
    densLaw (mvnPdf μ S) =
      (densLaw fun z : p → ℝ => ∏ i, phi (z i)).map (fun z => μ + B *ᵥ z) := by
  ext s hs
  rw [Measure.map_apply (measurable_affine B μ) hs, densLaw, densLaw, withDensity_apply _ hs,
    withDensity_apply _ (measurable_affine B μ hs), ← lintegral_indicator hs,
    ← lintegral_indicator (measurable_affine B μ hs),
    lintegral_affine (sqrt_det_ne_zero hS hB) μ
      ((measurable_mvnPdf μ S).ennreal_ofReal.indicator hs)]
  refine lintegral_congr fun z => ?_
  by_cases h : μ + B *ᵥ z ∈ s
  · rw [indicator_of_mem h, indicator_of_mem (by exact h),
      ← ENNReal.ofReal_mul (mvnPdf_pos hS _ _).le, mvnPdf_affine hS hB]
  · rw [indicator_of_notMem h, indicator_of_notMem (by exact h), zero_mul]

open scoped MatrixOrder in
theorem sqrt_mul_sqrtT {S : Matrix p p ℝ} (hS : S.PosDef) : CFC.sqrt S * (CFC.sqrt S)ᵀ = S := by
  have h0 : 0 ≤ S := nonneg_iff_posSemidef.2 hS.posSemidef
  have h1 : (CFC.sqrt S).PosSemidef := nonneg_iff_posSemidef.1 (CFC.sqrt_nonneg S)
  have h2 : (CFC.sqrt S)ᵀ = CFC.sqrt S := by
    have := h1.isHermitian
    rwa [Matrix.IsHermitian, conjTranspose_eq_transpose_of_trivial] at this
  rw [h2, CFC.sqrt_mul_sqrt_self S h0]

theorem mvnLaw_eq_gaussian {S : Matrix p p ℝ} (hS : S.PosDef) (μ : p → ℝ) :
    densLaw (mvnPdf μ S) =
      (multivariateGaussian (WithLp.toLp 2 μ) S).map (fun x => x.ofLp) := by
  have hB := sqrt_mul_sqrtT hS
  rw [mvnLaw_eq_map hS hB, ← pi_gaussian_eq, multivariateGaussian, ← map_pi_eq_stdGaussian,
    Measure.map_map (by fun_prop) (by fun_prop), Measure.map_map (by fun_prop) (by fun_prop)]
  rfl

/-- marginal on any set of distinct coordinates -/
theorem mvnLaw_map {S : Matrix p p ℝ} (hS : S.PosDef) (μ : p → ℝ) (key : k → p)
    (hk : Function.Injective key) :
    (densLaw (mvnPdf μ S)).map (fun x j => x (key j)) =
      densLaw (mvnPdf (fun j => μ (key j)) (S.submatrix key key)) := by
  rw [mvnLaw_eq_gaussian hS, mvnLaw_eq_gaussian (hS.submatrix hk)]
  rw [Measure.map_map (by fun_prop) (by fun_prop)]
  let L : EuclideanSpace ℝ p →L[ℝ] EuclideanSpace ℝ k :=
    LinearMap.toContinuousLinearMap
      { toFun := fun x => WithLp.toLp 2 fun j => x (key j)
        map_add' := fun x y => by ext; simp
        map_smul' := fun c x => by ext; simp }
  have hL : ∀ x j, L x j = x (key j) := fun x j => rfl
  have h1 : ((fun (x : p → ℝ) (j : k) => x (key j)) ∘ fun x : EuclideanSpace ℝ p => x.ofLp) =
      (fun x : EuclideanSpace ℝ k => x.ofLp) ∘ L := rfl
  rw [h1, ← Measure.map_map (by fun_prop) (by fun_prop)]
  congr 1
  apply IsGaussian.ext
  · simp only [id_eq, integral_id_multivariateGaussian]
    rw [ContinuousLinearMap.integral_id_map, integral_id_multivariateGaussian]
    · rfl
    · exact IsGaussian.integrable_id
  rw [← ContinuousLinearMap.toBilinForm_inj]
  refine LinearMap.BilinForm.ext_basis (EuclideanSpace.basisFun k ℝ).toBasis fun i j ↦ ?_
  rw [ContinuousLinearMap.toBilinForm_apply, ContinuousLinearMap.toBilinForm_apply,
    covarianceBilin_apply_eq_cov, covariance_map]
  · have (i : k) : (fun u ↦ inner ℝ ((EuclideanSpace.basisFun k ℝ).toBasis i) u) ∘
        L = fun u ↦ u (key i) := by ext; simp [PiLp.inner_apply, hL]
    simp_rw [this, covariance_eval_multivariateGaussian hS.posSemidef,
      covarianceBilin_multivariateGaussian (hS.submatrix hk).posSemidef]
    simp
  any_goals exact Measurable.aestronglyMeasurable (by fun_prop)
  · fun_prop
  · exact IsGaussian.memLp_two_id

/-- a multivariate t is an inverse-gamma mixture of normals -/
theorem mvtLaw_apply {S : Matrix p p ℝ} (hS : S.PosDef) (μ : p → ℝ) {nu : ℝ} (hn : 0 < nu)
    {s : Set (p → ℝ)} (hs : MeasurableSet s) :
    densLaw (mvtPdf μ S nu) s =
      ∫⁻ v in Ioi (0 : ℝ), ENNReal.ofReal ((InverseGamma.dist ⟨nu / 2, nu / 2⟩).pdf v) *
        densLaw (mvnPdf μ (v • S)) s := by
  have hn2 : 0 < nu / 2 := by positivity
  have key : ∀ v : ℝ, 0 < v → ∀ y : p → ℝ,
      ENNReal.ofReal ((InverseGamma.dist ⟨nu / 2, nu / 2⟩).pdf v) *
        ENNReal.ofReal (mvnPdf μ (v • S) y) =
      ENNReal.ofReal (mvtPdf μ S nu y) * ENNReal.ofReal
        ((InverseGamma.dist ⟨nu / 2 + 1 / 2 * (Fintype.card p : ℝ),
          nu / 2 + 1 / 2 * quad S⁻¹ (y - μ)⟩).pdf v) := by
    intro v hv y
    have h := invgamma_mul_mvn hn2 hn2 hS hv μ y
    rw [div_self hn2.ne', one_smul, show 2 * (nu / 2) = nu by ring] at h
    rw [← ENNReal.ofReal_mul' (mvnPdf_pos (posDef_smul hS hv) _ _).le, h,
      ENNReal.ofReal_mul (mvtPdf_pos hS hn _ _).le]
  have hq : ∀ y : p → ℝ, 0 < nu / 2 + 1 / 2 * quad S⁻¹ (y - μ) := fun y => by
    have := quad_nonneg hS.inv.posSemidef (y - μ); positivity
  have ha' : 0 < nu / 2 + 1 / 2 * (Fintype.card p : ℝ) := by positivity
  have e1 : ∀ y : p → ℝ, ∫⁻ v in Ioi (0 : ℝ), ENNReal.ofReal (mvtPdf μ S nu y) * ENNReal.ofReal
        ((InverseGamma.dist ⟨nu / 2 + 1 / 2 * (Fintype.card p : ℝ),
          nu / 2 + 1 / 2 * quad S⁻¹ (y - μ)⟩).pdf v) = ENNReal.ofReal (mvtPdf μ S nu y) := by
    intro y
    have hd := InverseGamma.isDensity ⟨nu / 2 + 1 / 2 * (Fintype.card p : ℝ),
          nu / 2 + 1 / 2 * quad S⁻¹ (y - μ)⟩ ha' (hq y)
    rw [lintegral_const_mul' _ _ ENNReal.ofReal_ne_top, ← ofReal_integral_eq_lintegral_ofReal hd.2.1,
      hd.2.2, ENNReal.ofReal_one, mul_one]
    filter_upwards [ae_restrict_mem measurableSet_Ioi] with v hv using hd.1 v hv
  rw [densLaw, withDensity_apply _ hs]
  rw [setLIntegral_congr_fun hs (fun y _ => (e1 y).symm), lintegral_lintegral_swap]
  · refine setLIntegral_congr_fun measurableSet_Ioi fun v hv => ?_
    rw [densLaw, withDensity_apply _ hs, ← lintegral_const_mul' _ _ ENNReal.ofReal_ne_top]
    refine lintegral_congr fun y => ?_
    rw [key v hv]
  · have hmeas : Measurable (fun θ : (p → ℝ) × ℝ => ENNReal.ofReal (((nu / 2) ^ (nu / 2) /
        Real.Gamma (nu / 2) * θ.2 ^ (-(nu / 2) - 1) * exp (-((nu / 2) / θ.2))) *
        ((√((2 * π) ^ (Fintype.card p : ℝ) * S.det))⁻¹ *
      θ.2 ^ (-((Fintype.card p : ℝ) / 2)) * exp (-(1 / 2 * quad S⁻¹ (θ.1 - μ) / θ.2))))) := by
      have := (continuous_quad S⁻¹).measurable
      have h2 : Measurable fun θ : (p → ℝ) × ℝ => quad S⁻¹ (θ.1 - μ) :=
        this.comp (measurable_fst.sub_const μ)
      fun_prop
    refine hmeas.aemeasurable.congr ?_
    rw [Measure.prod_restrict]
    filter_upwards [ae_restrict_mem (hs.prod measurableSet_Ioi)] with θ hθ
    have hp2 : 0 < θ.2 := hθ.2
    simp only [Function.uncurry]
    rw [← key θ.2 hp2, ← ENNReal.ofReal_mul' (mvnPdf_pos (posDef_smul hS hp2) _ _).le,
      InverseGamma.pdf_eq ⟨nu / 2, nu / 2⟩ hn2 hp2, mvnPdf_smul hS hp2]

/-- marginal of a multivariate t on any set of distinct coordinates -/
theorem mvtLaw_map {S : Matrix p p ℝ} (hS : S.PosDef) (μ : p → ℝ) {nu : ℝ} (hn : 0 < nu)
    (key : k → p) (hk : Function.Injective key) :
    (densLaw (mvtPdf μ S nu)).map (fun x j => x (key j)) =
      densLaw (mvtPdf (fun j => μ (key j)) (S.submatrix key key) nu) := by
  have hmk : Measurable fun (x : p → ℝ) (j : k) => x (key j) := by fun_prop
  ext s hs
  rw [Measure.map_apply hmk hs, mvtLaw_apply hS μ hn (hmk hs),
    mvtLaw_apply (hS.submatrix hk) _ hn hs]
  refine setLIntegral_congr_fun measurableSet_Ioi fun v hv => ?_
  rw [← Measure.map_apply hmk hs, mvnLaw_map (posDef_smul hS hv) μ key hk]
  rfl

/-- one-dimensional laws as laws on arrays of length one -/
theorem densLaw_unit (f : ℝ → ℝ) (hf : Measurable f) :
    (densLaw fun x : Unit → ℝ => f (x ())).map (fun x => x ()) = densLaw f := by
  have hp := volume_preserving_funUnique Unit ℝ
  ext s hs
  rw [Measure.map_apply (by fun_prop) hs, densLaw, densLaw, withDensity_apply _ hs,
    withDensity_apply _ (by exact (measurable_pi_apply ()) hs)]
  exact hp.setLIntegral_comp_preimage hs hf.ennreal_ofReal

end Conj
