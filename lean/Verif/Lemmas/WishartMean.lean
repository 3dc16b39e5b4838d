import Verif.Lemmas.WishartMoments
import Verif.Props.Forecast

/-!
# The mean of an inverse Wishart, exactly, and second moments under the normal inverse-Wishart law
-/

open MeasureTheory Set Filter Topology Matrix

namespace Conj

open Scipy Spec

/-- a law whose expected squared distance from every point is known has the mean and variance this gives -/
theorem Spec.MeanVar.of_sq {μ : Measure ℝ} {m v : ℝ} (hp : IsProbabilityMeasure μ) (hv : 0 ≤ v)
    (h : ∀ c : ℝ, ∫⁻ x, ENNReal.ofReal ((x - c) ^ 2) ∂μ = ENNReal.ofReal (v + (m - c) ^ 2)) : MeanVar μ m v := by
  have hi : ∀ c : ℝ, Integrable (fun x => (x - c) ^ 2) μ := fun c => by
    refine ⟨(by fun_prop : Measurable fun x : ℝ => (x - c) ^ 2).aestronglyMeasurable, ?_⟩
    rw [hasFiniteIntegral_iff_ofReal (Eventually.of_forall fun x => sq_nonneg _), h c]
    exact ENNReal.ofReal_lt_top
  have hv' : ∀ c : ℝ, ∫ x, (x - c) ^ 2 ∂μ = v + (m - c) ^ 2 := fun c => by
    rw [integral_eq_lintegral_of_nonneg_ae (Eventually.of_forall fun x => sq_nonneg _)
      (by fun_prop : Measurable fun x : ℝ => (x - c) ^ 2).aestronglyMeasurable, h c,
      ENNReal.toReal_ofReal (by positivity)]
  have e : ∀ x : ℝ, x = ((x - 0) ^ 2 + 1 - (x - 1) ^ 2) / 2 := fun x => by ring
  refine ⟨hp, ?_, ?_, ?_⟩
  · have h0 := hi 0
    simp only [sub_zero] at h0
    exact (memLp_two_iff_integrable_sq aestronglyMeasurable_id).2 h0
  · have : ∫ x, x ∂μ = ∫ x, ((x - 0) ^ 2 + 1 - (x - 1) ^ 2) / 2 ∂μ := integral_congr_ae (Eventually.of_forall e)
    have hA : Integrable (fun x : ℝ => (x - 0) ^ 2 + 1) μ := (hi 0).add (integrable_const _)
    rw [this, integral_div, integral_sub hA (hi 1), integral_add (hi 0) (integrable_const _),
      hv', hv', integral_const, probReal_univ, one_smul]
    ring
  · rw [hv']; ring

section
variable {p : Type} [Fintype p] [DecidableEq p]

/-- the expected squared distance of a combination of normal coordinates from a point -/
theorem mvn_lin_sq {S : Matrix p p ℝ} (hS : S.PosDef) (m u : p → ℝ) (c : ℝ) :
    ∫⁻ x, ENNReal.ofReal ((u ⬝ᵥ x - c) ^ 2) ∂lawOn univ (mvnPdf m S) =
      ENNReal.ofReal (quad S u + (u ⬝ᵥ m - c) ^ 2) := by
  have hp := mvn_prob hS m
  have h2 := mvn_sq hS m u
  have hq : 0 ≤ quad S u := quad_nonneg hS.posSemidef u
  have hm : Measurable fun x : p → ℝ => u ⬝ᵥ x := by
    have : Continuous fun x : p → ℝ => u ⬝ᵥ x := by fun_prop
    exact this.measurable
  have hI2 : Integrable (fun x : p → ℝ => (u ⬝ᵥ x) ^ 2) (lawOn univ (mvnPdf m S)) := by
    refine ⟨(hm.pow_const 2).aestronglyMeasurable, ?_⟩
    rw [hasFiniteIntegral_iff_ofReal (Eventually.of_forall fun x => sq_nonneg _), h2]
    exact ENNReal.ofReal_lt_top
  have hv2 : ∫ x, (u ⬝ᵥ x) ^ 2 ∂lawOn univ (mvnPdf m S) = quad S u + (u ⬝ᵥ m) ^ 2 := by
    rw [integral_eq_lintegral_of_nonneg_ae (Eventually.of_forall fun x => sq_nonneg _) (hm.pow_const 2).aestronglyMeasurable,
      h2, ENNReal.toReal_ofReal (by positivity)]
  have hI1 : Integrable (fun x : p → ℝ => u ⬝ᵥ x) (lawOn univ (mvnPdf m S)) := by
    simp only [dotProduct]
    exact integrable_finsetSum _ fun i _ => (mvn_expect hS m i).1.const_mul _
  have hv1 : ∫ x, u ⬝ᵥ x ∂lawOn univ (mvnPdf m S) = u ⬝ᵥ m := by
    simp only [dotProduct]
    rw [integral_finsetSum _ fun i _ => (mvn_expect hS m i).1.const_mul _]
    refine Finset.sum_congr rfl fun i _ => ?_
    rw [integral_const_mul, (mvn_expect hS m i).2]
  have e : ∀ x : p → ℝ, (u ⬝ᵥ x - c) ^ 2 = (u ⬝ᵥ x) ^ 2 - 2 * c * (u ⬝ᵥ x) + c ^ 2 := fun x => by ring
  have hI : Integrable (fun x : p → ℝ => (u ⬝ᵥ x - c) ^ 2) (lawOn univ (mvnPdf m S)) := by
    simp only [e]
    exact (hI2.sub (hI1.const_mul _)).add (integrable_const _)
  rw [← ofReal_integral_eq_lintegral_ofReal hI (Eventually.of_forall fun x => sq_nonneg _)]
  congr 1
  simp only [e]
  have hA : Integrable (fun x : p → ℝ => (u ⬝ᵥ x) ^ 2 - 2 * c * (u ⬝ᵥ x)) (lawOn univ (mvnPdf m S)) :=
    hI2.sub (hI1.const_mul _)
  rw [integral_add hA (integrable_const _), integral_sub hI2 (hI1.const_mul _), hv2,
    integral_const_mul, hv1, integral_const, probReal_univ, one_smul]
  ring

end

variable {n : ℕ}

/-- under the normal inverse-Wishart law, one observation of which each covariance is multiplied by `1 / w` -/
theorem niw_obs_sq {kappa nu w : ℝ} (hk : 0 < kappa) (hw : 0 < w) (hnu : (n : ℝ) - 1 < nu)
    {psi : Matrix (Fin n) (Fin n) ℝ} (hpsi : psi.PosDef) (mu u : Fin n → ℝ) (c : ℝ) :
    ∫⁻ x, ENNReal.ofReal ((u ⬝ᵥ x - c) ^ 2) ∂(volume.withDensity fun x => ENNReal.ofReal
      (mvtPdf mu (((kappa + w) / (kappa * w * (nu - n + 1))) • psi) (nu - n + 1) x)) =
    ENNReal.ofReal (1 / w + 1 / kappa) * ∫⁻ s, ENNReal.ofReal (quad (symOf s) u) ∂iwLaw nu psi +
      ENNReal.ofReal ((u ⬝ᵥ mu - c) ^ 2) := by
  have hS : MeasurableSet {θ : (Fin n → ℝ) × (UpperIdx n → ℝ) | (symOf θ.2).PosDef} :=
    measurableSet_posDef.preimage measurable_snd
  have hF : Measurable fun x : Fin n → ℝ => ENNReal.ofReal ((u ⬝ᵥ x - c) ^ 2) := by
    have : Continuous fun x : Fin n → ℝ => (u ⬝ᵥ x - c) ^ 2 := by fun_prop
    exact this.measurable.ennreal_ofReal
  have hL : Measurable fun q : ((Fin n → ℝ) × (UpperIdx n → ℝ)) × (Fin n → ℝ) =>
      mvnPdf q.1.1 ((1 / w) • symOf q.1.2) q.2 :=
    measurable_mvnPdf_all.comp (f := fun q : ((Fin n → ℝ) × (UpperIdx n → ℝ)) × (Fin n → ℝ) =>
      (q.2, q.1.1, (1 / w) • symOf q.1.2))
      (measurable_snd.prodMk ((measurable_fst.comp measurable_fst).prodMk
        ((measurable_const_smul_matrix (m := Fin n) (n := Fin n) (1 / w)).comp
          (measurable_symOf.comp (measurable_snd.comp measurable_fst)))))
  rw [mixture_law hS (niw_isDensity hk hnu hpsi mu) hL
    (fun θ hθ x => (mvnPdf_pos (posDef_smul hθ (one_div_pos.2 hw)) _ _).le) (measurable_mvtPdf _ _ _)
    (fun x => niw_scaled_predictive hk hw hnu hpsi mu x) hF]
  have hq : Measurable fun s : UpperIdx n → ℝ => quad (symOf s) u := measurable_quad_symOf u
  have hlin : Measurable fun x : Fin n → ℝ => u ⬝ᵥ x := by
    have : Continuous fun x : Fin n → ℝ => u ⬝ᵥ x := by fun_prop
    exact this.measurable
  have e1 : ∀ᵐ θ ∂lawOn {θ : (Fin n → ℝ) × (UpperIdx n → ℝ) | (symOf θ.2).PosDef} (fun θ =>
      invwishartPdf nu psi (symOf θ.2) * mvnPdf mu ((1 / kappa) • symOf θ.2) θ.1),
      ∫⁻ x, ENNReal.ofReal ((u ⬝ᵥ x - c) ^ 2) ∂(volume.withDensity fun x =>
        ENNReal.ofReal (mvnPdf θ.1 ((1 / w) • symOf θ.2) x)) =
      ENNReal.ofReal (1 / w * quad (symOf θ.2) u + (u ⬝ᵥ θ.1 - c) ^ 2) := by
    filter_upwards [ae_lawOn_mem hS _] with θ hθ
    rw [← lawOn_univ, mvn_lin_sq (posDef_smul hθ (one_div_pos.2 hw)), quad_smul]
  rw [lintegral_congr_ae e1, niw_lintegral hk hnu hpsi mu
    (F := fun θ => ENNReal.ofReal (1 / w * quad (symOf θ.2) u + (u ⬝ᵥ θ.1 - c) ^ 2))
    (((hq.comp measurable_snd).const_mul _).add (((hlin.comp measurable_fst).sub_const _).pow_const 2)).ennreal_ofReal]
  have e2 : ∀ᵐ s ∂iwLaw nu psi, ∫⁻ x, ENNReal.ofReal (1 / w * quad (symOf s) u + (u ⬝ᵥ x - c) ^ 2)
      ∂lawOn univ (mvnPdf mu ((1 / kappa) • symOf s)) =
      ENNReal.ofReal (1 / w + 1 / kappa) * ENNReal.ofReal (quad (symOf s) u) + ENNReal.ofReal ((u ⬝ᵥ mu - c) ^ 2) := by
    filter_upwards [ae_lawOn_mem measurableSet_posDef fun s => invwishartPdf nu psi (symOf s)] with s hs
    have hpr := mvn_prob (posDef_smul hs (one_div_pos.2 hk)) mu
    have hqs : 0 ≤ quad (symOf s) u := quad_nonneg (PosDef.posSemidef hs) u
    have e3 : ∀ x : Fin n → ℝ, ENNReal.ofReal (1 / w * quad (symOf s) u + (u ⬝ᵥ x - c) ^ 2) =
        ENNReal.ofReal (1 / w * quad (symOf s) u) + ENNReal.ofReal ((u ⬝ᵥ x - c) ^ 2) := fun x =>
      ENNReal.ofReal_add (by positivity) (sq_nonneg _)
    simp only [e3]
    rw [lintegral_add_left measurable_const, lintegral_const, measure_univ, mul_one,
      mvn_lin_sq (posDef_smul hs (one_div_pos.2 hk)), quad_smul, ← ENNReal.ofReal_add (by positivity) (by positivity),
      ← ENNReal.ofReal_mul (by positivity), ← ENNReal.ofReal_add (by positivity) (by positivity)]
    congr 1; ring
  have := iwLaw_prob hpsi hnu
  rw [lintegral_congr_ae e2, lintegral_add_right _ measurable_const, lintegral_const, measure_univ, mul_one,
    lintegral_const_mul' _ _ ENNReal.ofReal_ne_top]

theorem niw_obs_prob {kappa nu w : ℝ} (hk : 0 < kappa) (hw : 0 < w) (hnu : (n : ℝ) - 1 < nu)
    {psi : Matrix (Fin n) (Fin n) ℝ} (hpsi : psi.PosDef) (mu : Fin n → ℝ) :
    IsProbabilityMeasure (volume.withDensity fun x => ENNReal.ofReal
      (mvtPdf mu (((kappa + w) / (kappa * w * (nu - n + 1))) • psi) (nu - n + 1) x)) := by
  have hS : MeasurableSet {θ : (Fin n → ℝ) × (UpperIdx n → ℝ) | (symOf θ.2).PosDef} :=
    measurableSet_posDef.preimage measurable_snd
  have hL : Measurable fun q : ((Fin n → ℝ) × (UpperIdx n → ℝ)) × (Fin n → ℝ) =>
      mvnPdf q.1.1 ((1 / w) • symOf q.1.2) q.2 :=
    measurable_mvnPdf_all.comp (f := fun q : ((Fin n → ℝ) × (UpperIdx n → ℝ)) × (Fin n → ℝ) =>
      (q.2, q.1.1, (1 / w) • symOf q.1.2))
      (measurable_snd.prodMk ((measurable_fst.comp measurable_fst).prodMk
        ((measurable_const_smul_matrix (m := Fin n) (n := Fin n) (1 / w)).comp
          (measurable_symOf.comp (measurable_snd.comp measurable_fst)))))
  refine mixture_law_prob hS (niw_isDensity hk hnu hpsi mu) hL
    (fun θ hθ x => (mvnPdf_pos (posDef_smul hθ (one_div_pos.2 hw)) _ _).le) (fun θ hθ => ?_) (measurable_mvtPdf _ _ _)
    (fun x => niw_scaled_predictive hk hw hnu hpsi mu x)
  rw [← lawOn_univ]
  exact mvn_prob (posDef_smul hθ (one_div_pos.2 hw)) _

/-- the expected quadratic form of an inverse Wishart matrix is the one of `psi / (nu - n - 1)` -/
theorem iw_quad {nu : ℝ} (hnu : (n : ℝ) + 1 < nu) {psi : Matrix (Fin n) (Fin n) ℝ} (hpsi : psi.PosDef) (u : Fin n → ℝ) :
    ∫⁻ s, ENNReal.ofReal (quad (symOf s) u) ∂iwLaw nu psi = ENNReal.ofReal (quad psi u / (nu - n - 1)) := by
  have hden : 0 < nu - n - 1 := by linarith
  have hq : 0 ≤ quad psi u := quad_nonneg hpsi.posSemidef u
  have h := niw_obs_sq (kappa := 1) (w := 1) one_pos one_pos (by linarith : (n : ℝ) - 1 < nu) hpsi 0 u 0
  have hm : (((1 : ℝ) + 1) / (1 * 1 * (nu - n + 1))) = 1 / ((nu - n + 1) / 2) := by
    have : 0 < nu - n + 1 := by linarith
    field_simp; norm_num
  have hmvt := mvt_sq (n := n) (a := (nu - n + 1) / 2) (b := 1) (by linarith) one_pos hpsi u
  rw [← hm, show 2 * ((nu - n + 1) / 2) = nu - n + 1 by ring] at hmvt
  simp only [sub_zero, dotProduct_zero] at h
  rw [hmvt] at h
  have e : (1 : ℝ) / ((nu - n + 1) / 2 - 1) * quad psi u = (1 / 1 + 1 / 1) * (quad psi u / (nu - n - 1)) := by
    rw [show (nu - n + 1) / 2 - 1 = (nu - n - 1) / 2 by ring]
    field_simp; ring
  rw [e, ENNReal.ofReal_mul (by norm_num)] at h
  simp only [ne_eq, OfNat.ofNat_ne_zero, not_false_eq_true, zero_pow, ENNReal.ofReal_zero, add_zero] at h
  exact ((ENNReal.mul_right_inj (by norm_num) ENNReal.ofReal_ne_top).1 h).symm

theorem iw_quad_integral {nu : ℝ} (hnu : (n : ℝ) + 1 < nu) {psi : Matrix (Fin n) (Fin n) ℝ} (hpsi : psi.PosDef)
    (u : Fin n → ℝ) : Integrable (fun s => quad (symOf s) u) (iwLaw nu psi) ∧
      ∫ s, quad (symOf s) u ∂iwLaw nu psi = quad psi u / (nu - n - 1) := by
  have hden : 0 < nu - n - 1 := by linarith
  have hq : 0 ≤ quad psi u := quad_nonneg hpsi.posSemidef u
  have h := iw_quad hnu hpsi u
  have hpos : 0 ≤ᵐ[iwLaw nu psi] fun s => quad (symOf s) u := by
    filter_upwards [ae_lawOn_mem measurableSet_posDef fun s => invwishartPdf nu psi (symOf s)] with s hs
    exact quad_nonneg (PosDef.posSemidef hs) u
  constructor
  · refine ⟨(measurable_quad_symOf u).aestronglyMeasurable, ?_⟩
    rw [hasFiniteIntegral_iff_ofReal hpos, h]
    exact ENNReal.ofReal_lt_top
  · rw [integral_eq_lintegral_of_nonneg_ae hpos (measurable_quad_symOf u).aestronglyMeasurable, h,
      ENNReal.toReal_ofReal (by positivity)]

/-- an entry of a symmetric matrix from its quadratic form -/
theorem entry_of_quad {S : Matrix (Fin n) (Fin n) ℝ} (hS : S.IsHermitian) (i j : Fin n) :
    S i j = (quad S (Pi.single i 1 + Pi.single j 1) - quad S (Pi.single i 1) - quad S (Pi.single j 1)) / 2 := by
  have h : S j i = S i j := by
    have := congrFun (congrFun hS i) j
    simpa [conjTranspose_apply] using this
  simp only [quad, mulVec_add, dotProduct_add, add_dotProduct, mulVec_single_one, single_dotProduct, col_apply, one_mul]
  rw [h]; ring

/-- the mean of an inverse Wishart -/
theorem iw_mean {nu : ℝ} (hnu : (n : ℝ) + 1 < nu) {psi : Matrix (Fin n) (Fin n) ℝ} (hpsi : psi.PosDef) (i j : Fin n) :
    Integrable (fun s => symOf s i j) (iwLaw nu psi) ∧ ∫ s, symOf s i j ∂iwLaw nu psi = psi i j / (nu - n - 1) := by
  have e : (fun s : UpperIdx n → ℝ => symOf s i j) =ᵐ[iwLaw nu psi] fun s => (quad (symOf s) (Pi.single i 1 + Pi.single j 1) -
      quad (symOf s) (Pi.single i 1) - quad (symOf s) (Pi.single j 1)) / 2 := by
    filter_upwards [ae_lawOn_mem measurableSet_posDef fun s => invwishartPdf nu psi (symOf s)] with s hs
    exact entry_of_quad (PosDef.isHermitian hs) i j
  have h1 := iw_quad_integral hnu hpsi (Pi.single i 1 + Pi.single j 1)
  have h2 := iw_quad_integral hnu hpsi (Pi.single i 1)
  have h3 := iw_quad_integral hnu hpsi (Pi.single j 1)
  refine ⟨(((h1.1.sub h2.1).sub h3.1).div_const 2).congr e.symm, ?_⟩
  have hA : Integrable (fun s => quad (symOf s) (Pi.single i 1 + Pi.single j 1) - quad (symOf s) (Pi.single i 1))
      (iwLaw nu psi) := h1.1.sub h2.1
  rw [integral_congr_ae e, integral_div, integral_sub hA h3.1, integral_sub h1.1 h2.1, h1.2, h2.2, h3.2,
    entry_of_quad hpsi.isHermitian i j]
  ring

end Conj
