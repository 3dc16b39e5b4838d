import Verif.Lemmas.WishartMean
import Verif.Props.CalibrationVector
import Verif.Props.ForecastVector
import Verif.Lemmas.MatAlg

/-!
# C42 and C111 for covariance matrices and vectors of means

The mean of a covariance matrix under `InverseWishart` and `NormalInverseWishart`, what the data do to it, and the
mean and variance of every combination of the coordinates of a new observation.
-/

open MeasureTheory Set Filter Matrix

namespace Conj

open Scipy Spec

section
variable {p : Type} [Fintype p] [DecidableEq p]

theorem measurable_dot (u : p → ℝ) : Measurable fun x : p → ℝ => u ⬝ᵥ x := by
  have : Continuous fun x : p → ℝ => u ⬝ᵥ x := by fun_prop
  exact this.measurable

/-- a combination of the coordinates of a normal vector -/
theorem mvn_lin_meanVar {S : Matrix p p ℝ} (hS : S.PosDef) (m u : p → ℝ) :
    MeanVar ((densLaw (mvnPdf m S)).map fun x => u ⬝ᵥ x) (u ⬝ᵥ m) (quad S u) := by
  have hp := mvn_prob hS m
  rw [lawOn_univ] at hp
  have hp' : IsProbabilityMeasure (densLaw (mvnPdf m S)) := hp
  refine MeanVar.of_sq (Measure.isProbabilityMeasure_map (measurable_dot u).aemeasurable) (quad_nonneg hS.posSemidef u) fun c => ?_
  have hF : Measurable fun x : ℝ => ENNReal.ofReal ((x - c) ^ 2) := by fun_prop
  rw [lintegral_map hF (measurable_dot u)]
  have := mvn_lin_sq hS m u c
  rwa [lawOn_univ] at this

theorem inv_sub_inv {A B : Matrix p p ℝ} (hA : IsUnit A.det) (hAB : IsUnit (A + B).det) :
    A⁻¹ - (A + B)⁻¹ = (A + B)⁻¹ * (B + B * A⁻¹ * B) * (A + B)⁻¹ := by
  have e : B + B * A⁻¹ * B = (A + B) * A⁻¹ * (A + B) - (A + B) := by
    rw [add_mul, mul_nonsing_inv _ hA, add_mul, one_mul, mul_add, mul_assoc B A⁻¹ A, nonsing_inv_mul _ hA, mul_one]
    abel
  rw [e, mul_sub, sub_mul, nonsing_inv_mul _ hAB, one_mul, ← mul_assoc, ← mul_assoc, nonsing_inv_mul _ hAB, one_mul,
    mul_assoc, mul_nonsing_inv _ hAB, mul_one]

theorem conj_posSemidef {C M : Matrix p p ℝ} (hC : Cᵀ = C) (hM : M.PosSemidef) : (C * M * C).PosSemidef := by
  have := hM.mul_mul_conjTranspose_same C
  rwa [conjTranspose_eq_transpose_of_trivial, hC] at this

/-- adding precision never makes a combination less certain -/
theorem quad_inv_add_le {A B : Matrix p p ℝ} (hA : A.PosDef) (hB : B.PosSemidef) (u : p → ℝ) :
    quad (A + B)⁻¹ u ≤ quad A⁻¹ u := by
  have hAB := hA.add_posSemidef hB
  have hT : ∀ {M : Matrix p p ℝ}, M.IsHermitian → Mᵀ = M := fun h => by
    have := h.eq
    rwa [conjTranspose_eq_transpose_of_trivial] at this
  have h1 : (A⁻¹ - (A + B)⁻¹).PosSemidef := by
    rw [inv_sub_inv (posDef_unit hA) (posDef_unit hAB)]
    exact conj_posSemidef (hT hAB.inv.isHermitian) (hB.add (conj_posSemidef (hT hB.isHermitian) hA.inv.posSemidef))
  have h2 := quad_nonneg h1 u
  simp only [quad, sub_mulVec, dotProduct_sub] at h2 ⊢
  linarith

theorem quad_inv_add_lt {A B : Matrix p p ℝ} (hA : A.PosDef) (hB : B.PosDef) {u : p → ℝ} (hu : u ≠ 0) :
    quad (A + B)⁻¹ u < quad A⁻¹ u := by
  have hAB := hA.add hB
  have hT : ∀ {M : Matrix p p ℝ}, M.IsHermitian → Mᵀ = M := fun h => by
    have := h.eq
    rwa [conjTranspose_eq_transpose_of_trivial] at this
  have hM : (B + B * A⁻¹ * B).PosDef := hB.add_posSemidef (conj_posSemidef (hT hB.isHermitian) hA.inv.posSemidef)
  have h1 : 0 < quad (A⁻¹ - (A + B)⁻¹) u := by
    rw [inv_sub_inv (posDef_unit hA) (posDef_unit hAB)]
    have hv : (A + B)⁻¹ *ᵥ u ≠ 0 := fun h => hu (by
      have := congrArg (fun v => (A + B) *ᵥ v) h
      simpa [mulVec_mulVec, mul_nonsing_inv _ (posDef_unit hAB)] using this)
    have h3 := quad_pos hM hv
    have e : quad ((A + B)⁻¹ * (B + B * A⁻¹ * B) * (A + B)⁻¹) u = quad (B + B * A⁻¹ * B) ((A + B)⁻¹ *ᵥ u) := by
      simp only [quad]
      rw [← mulVec_mulVec, ← mulVec_mulVec, dotProduct_mulVec u, ← mulVec_transpose, hT hAB.inv.isHermitian]
    rwa [e]
  simp only [quad, sub_mulVec, dotProduct_sub] at h1 ⊢
  linarith

/-- C42. Multivariate normal with known covariance: the posterior variance of every combination of the coordinates of the mean is below
its prior variance and below the variance of the same combination of the averages of the data. -/
theorem C42_multivariate_normal_known_covariance (xs : List (p → ℝ)) (hne : xs ≠ []) (x_bar : p → ℝ)
    (hx : (xs.length : ℝ) • x_bar = xs.sum) (cov : Matrix p p ℝ) (hc : cov.PosDef)
    (prior : MultivariateNormal (p → ℝ) (Matrix p p ℝ)) (hS : prior.cov.PosDef) :
    ∃ post, multivariate_normal_known_covariance (xs.length : ℝ) x_bar cov prior = .ok post ∧
      ∀ u : p → ℝ, u ≠ 0 → ∃ m v m' v', MeanVar ((densLaw prior.pdf).map fun x => u ⬝ᵥ x) m v ∧
        MeanVar ((densLaw post.pdf).map fun x => u ⬝ᵥ x) m' v' ∧ v' < v ∧ v' < (u ⬝ᵥ cov *ᵥ u) / xs.length := by
  have hn : (0 : ℝ) < xs.length := by exact_mod_cast List.length_pos_iff.2 hne
  have hB : ((xs.length : ℝ) • cov⁻¹).PosDef := hc.inv.smul hn
  have hA := hS.inv.add hB
  refine ⟨_, mvn_known_cov_eq xs.length x_bar _ hx hc prior hS, fun u hu => ?_⟩
  refine ⟨_, _, _, _, mvn_lin_meanVar hS _ u, mvn_lin_meanVar hA.inv _ u, ?_, ?_⟩
  · have := quad_inv_add_lt hS.inv hB hu
    rwa [nonsing_inv_nonsing_inv _ (posDef_unit hS)] at this
  · have := quad_inv_add_lt hB hS.inv hu
    rw [add_comm] at this
    refine this.trans_eq ?_
    have e : ((xs.length : ℝ) • cov⁻¹)⁻¹ = (1 / (xs.length : ℝ)) • cov := by
      refine inv_eq_right_inv ?_
      rw [Matrix.smul_mul, Matrix.mul_smul, nonsing_inv_mul _ (posDef_unit hc), smul_smul, mul_one_div_cancel hn.ne', one_smul]
    rw [e, quad_smul, quad]
    ring

/-- C42. The same with known precision. -/
theorem C42_multivariate_normal_known_precision (xs : List (p → ℝ)) (hne : xs ≠ []) (x_bar : p → ℝ)
    (hx : (xs.length : ℝ) • x_bar = xs.sum) (precision : Matrix p p ℝ) (hc : precision.PosDef)
    (prior : MultivariateNormal (p → ℝ) (Matrix p p ℝ)) (hS : prior.cov.PosDef) :
    ∃ post, multivariate_normal_known_precision (xs.length : ℝ) x_bar precision prior = .ok post ∧
      ∀ u : p → ℝ, u ≠ 0 → ∃ m v m' v', MeanVar ((densLaw prior.pdf).map fun x => u ⬝ᵥ x) m v ∧
        MeanVar ((densLaw post.pdf).map fun x => u ⬝ᵥ x) m' v' ∧ v' < v ∧
          v' < (u ⬝ᵥ precision⁻¹ *ᵥ u) / xs.length := by
  obtain ⟨post, h1, h2⟩ := C42_multivariate_normal_known_covariance xs hne x_bar hx precision⁻¹ hc.inv prior hS
  refine ⟨post, ?_, h2⟩
  rw [mvn_known_cov_eq xs.length x_bar _ hx hc.inv prior hS] at h1
  rw [mvn_known_prec_eq xs.length x_bar _ hx hc prior hS, ← h1, nonsing_inv_nonsing_inv _ (posDef_unit hc)]

/-- C42. Linear regression: whatever the noise variance `s`, no combination of the coefficients is less certain after the data than before. -/
theorem C42_linear_regression {m : Type} [Fintype m] [DecidableEq m] (X : Matrix m p ℝ) (y : m → ℝ)
    (prior : NormalInverseGamma ℝ (p → ℝ) (Matrix p p ℝ)) (Δ : Matrix p p ℝ) (hp : prior.delta_inverse = some Δ)
    (hD : Δ.PosDef) :
    ∃ post Δ', linear_regression X y prior = .ok post ∧ post.delta_inverse = some Δ' ∧
      ∀ s : ℝ, 0 < s → ∀ u : p → ℝ, ∃ m v m' v',
        MeanVar ((densLaw (MultivariateNormal.mk prior.mu (s • Δ)).pdf).map fun x => u ⬝ᵥ x) m v ∧
        MeanVar ((densLaw (MultivariateNormal.mk post.mu (s • Δ')).pdf).map fun x => u ⬝ᵥ x) m' v' ∧ v' ≤ v := by
  have hB : (Xᵀ * X).PosSemidef := by
    have := posSemidef_conjTranspose_mul_self X
    rwa [conjTranspose_eq_transpose_of_trivial] at this
  have hA : (Xᵀ * X + Δ⁻¹).PosDef := by rw [add_comm]; exact hD.inv.add_posSemidef hB
  refine ⟨_, _, linear_regression_eq X y prior hp hD, rfl, fun s hs u => ?_⟩
  refine ⟨_, _, _, _, mvn_lin_meanVar (hD.smul hs) _ u, mvn_lin_meanVar (hA.inv.smul hs) _ u, ?_⟩
  rw [quad_smul, quad_smul]
  refine mul_le_mul_of_nonneg_left ?_ hs.le
  have := quad_inv_add_le hD.inv hB u
  rwa [nonsing_inv_nonsing_inv _ (posDef_unit hD), add_comm] at this

end

variable {n : ℕ}

/-- C42. Covariance unknown, mean known: the posterior mean of every entry of the covariance matrix lies between its prior mean and the
average of the products of deviations in the data. -/
theorem C42_multivariate_normal_known_mean {m : Type} [Fintype m] [Nonempty m] (X : Matrix m (Fin n) ℝ) (mu : Fin n → ℝ)
    (prior : InverseWishart ℝ (Matrix (Fin n) (Fin n) ℝ)) (hnu : (n : ℝ) + 1 < prior.nu) (hpsi : prior.psi.PosDef)
    (i j : Fin n) :
    ∃ a b, Integrable (fun c => symOf c i j) (lawOn {c | (symOf c).PosDef} fun c => prior.pdf (symOf c)) ∧
      ∫ c, symOf c i j ∂(lawOn {c | (symOf c).PosDef} fun c => prior.pdf (symOf c)) = a ∧
      Integrable (fun c => symOf c i j) (lawOn {c | (symOf c).PosDef}
        fun c => (multivariate_normal_known_mean X mu prior).pdf (symOf c)) ∧
      ∫ c, symOf c i j ∂(lawOn {c | (symOf c).PosDef}
        fun c => (multivariate_normal_known_mean X mu prior).pdf (symOf c)) = b ∧
      Between b a ((∑ r, (X r i - mu i) * (X r j - mu j)) / Fintype.card m) := by
  have hc : (0 : ℝ) < Fintype.card m := by exact_mod_cast Fintype.card_pos
  have hps : ((subRow X mu)ᵀ * subRow X mu).PosSemidef := by
    have := posSemidef_conjTranspose_mul_self (subRow X mu)
    rwa [conjTranspose_eq_transpose_of_trivial] at this
  have h1 := iw_mean hnu hpsi i j
  have h2 := iw_mean (nu := (multivariate_normal_known_mean X mu prior).nu)
    (psi := (multivariate_normal_known_mean X mu prior).psi)
    (by simp only [multivariate_normal_known_mean]; linarith) (hpsi.add_posSemidef hps) i j
  refine ⟨_, _, h1.1, h1.2, h2.1, h2.2, ?_⟩
  have e : (∑ r, (X r i - mu i) * (X r j - mu j)) = ((subRow X mu)ᵀ * subRow X mu) i j := by
    simp [mul_apply, subRow]
  rw [e]
  simp only [multivariate_normal_known_mean, Matrix.add_apply]
  set s := ((subRow X mu)ᵀ * subRow X mu) i j
  set c : ℝ := (Fintype.card m : ℝ)
  have hd : 0 < prior.nu - n - 1 := by linarith
  have hd' : 0 < prior.nu + c - n - 1 := by linarith
  set a := prior.psi i j / (prior.nu - n - 1) with ha
  have e1 : prior.psi i j = a * (prior.nu - n - 1) := by rw [ha]; field_simp
  have e2 : s = s / c * c := by field_simp
  set b := s / c
  have h := between_of_weights (a := a) (b := b) hd.le hc.le (by linarith)
  have e4 : (prior.nu - n - 1) + c = prior.nu + c - n - 1 := by ring
  rw [e4] at h
  rw [e1, e2]
  convert h using 2
  ring

/-- C111. Multivariate normal, mean and covariance unknown: every combination of the coordinates of the prediction has the mean of that
combination of the mean; its variance is the variance of that, plus the mean of its variance given the covariance matrix. -/
theorem C111_multivariate_normal (d : NormalInverseWishart ℝ (Fin n → ℝ) (Matrix (Fin n) (Fin n) ℝ)) (hk : 0 < d.kappa)
    (hnu : (n : ℝ) + 1 < d.nu) (hpsi : d.psi.PosDef) (u : Fin n → ℝ) :
    ∃ m v e, MeanVar ((niwLaw d).map fun t => u ⬝ᵥ t.1) m v ∧
      Integrable (fun t => u ⬝ᵥ symOf t.2 *ᵥ u) (niwLaw d) ∧ ∫ t, u ⬝ᵥ symOf t.2 *ᵥ u ∂niwLaw d = e ∧
      MeanVar ((densLaw (multivariate_normal_predictive d).pdf).map fun x => u ⬝ᵥ x) m (v + e) := by
  have hnu1 : (n : ℝ) - 1 < d.nu := by linarith
  have hden : 0 < d.nu - n - 1 := by linarith
  have hq : 0 ≤ quad d.psi u := quad_nonneg hpsi.posSemidef u
  have hS : MeasurableSet {θ : (Fin n → ℝ) × (UpperIdx n → ℝ) | (symOf θ.2).PosDef} :=
    measurableSet_posDef.preimage measurable_snd
  have hpn : IsProbabilityMeasure (niwLaw d) := lawOn_prob hS (niw_isDensity hk hnu1 hpsi d.mu)
  have hpi := iwLaw_prob hpsi hnu1
  have hu1 : Measurable fun t : (Fin n → ℝ) × (UpperIdx n → ℝ) => u ⬝ᵥ t.1 := (measurable_dot u).comp measurable_fst
  have hu2 : Measurable fun t : (Fin n → ℝ) × (UpperIdx n → ℝ) => quad (symOf t.2) u :=
    (measurable_quad_symOf u).comp measurable_snd
  have hquad : ∫⁻ t, ENNReal.ofReal (quad (symOf t.2) u) ∂niwLaw d = ENNReal.ofReal (quad d.psi u / (d.nu - n - 1)) := by
    have h := niw_lintegral hk hnu1 hpsi d.mu (F := fun t => ENNReal.ofReal (quad (symOf t.2) u)) hu2.ennreal_ofReal
    have e2 : ∀ᵐ c ∂iwLaw d.nu d.psi, ∫⁻ _, ENNReal.ofReal (quad (symOf c) u)
        ∂lawOn univ (mvnPdf d.mu ((1 / d.kappa) • symOf c)) = ENNReal.ofReal (quad (symOf c) u) := by
      filter_upwards [ae_lawOn_mem measurableSet_posDef fun c => invwishartPdf d.nu d.psi (symOf c)] with c hc
      have := mvn_prob (posDef_smul hc (one_div_pos.2 hk)) d.mu
      rw [lintegral_const, measure_univ, mul_one]
    rw [lintegral_congr_ae e2, iw_quad hnu hpsi u] at h
    exact h
  have hpos : 0 ≤ᵐ[niwLaw d] fun t => quad (symOf t.2) u := by
    filter_upwards [ae_lawOn_mem hS fun t => d.jointPdf t.1 (symOf t.2)] with t ht
    exact quad_nonneg (PosDef.posSemidef ht) u
  refine ⟨u ⬝ᵥ d.mu, 1 / d.kappa * (quad d.psi u / (d.nu - n - 1)), quad d.psi u / (d.nu - n - 1), ?_, ?_, ?_, ?_⟩
  · refine MeanVar.of_sq (Measure.isProbabilityMeasure_map hu1.aemeasurable) (by positivity) fun c => ?_
    have hF : Measurable fun x : ℝ => ENNReal.ofReal ((x - c) ^ 2) := by fun_prop
    rw [lintegral_map hF hu1]
    have h := niw_lintegral hk hnu1 hpsi d.mu (F := fun t => ENNReal.ofReal ((u ⬝ᵥ t.1 - c) ^ 2)) (hF.comp hu1)
    have e2 : ∀ᵐ s ∂iwLaw d.nu d.psi, ∫⁻ x, ENNReal.ofReal ((u ⬝ᵥ x - c) ^ 2)
        ∂lawOn univ (mvnPdf d.mu ((1 / d.kappa) • symOf s)) =
          ENNReal.ofReal (1 / d.kappa) * ENNReal.ofReal (quad (symOf s) u) + ENNReal.ofReal ((u ⬝ᵥ d.mu - c) ^ 2) := by
      filter_upwards [ae_lawOn_mem measurableSet_posDef fun c => invwishartPdf d.nu d.psi (symOf c)] with s hs
      have hqs : 0 ≤ quad (symOf s) u := quad_nonneg (PosDef.posSemidef hs) u
      rw [mvn_lin_sq (posDef_smul hs (one_div_pos.2 hk)), quad_smul, ENNReal.ofReal_add (by positivity) (by positivity),
        ENNReal.ofReal_mul (by positivity)]
    rw [lintegral_congr_ae e2, lintegral_add_right _ measurable_const, lintegral_const, measure_univ, mul_one,
      lintegral_const_mul' _ _ ENNReal.ofReal_ne_top, iw_quad hnu hpsi u, ← ENNReal.ofReal_mul (by positivity),
      ← ENNReal.ofReal_add (by positivity) (by positivity)] at h
    exact h
  · refine ⟨hu2.aestronglyMeasurable, ?_⟩
    rw [show (fun t : (Fin n → ℝ) × (UpperIdx n → ℝ) => u ⬝ᵥ symOf t.2 *ᵥ u) = fun t => quad (symOf t.2) u from rfl,
      hasFiniteIntegral_iff_ofReal hpos]
    exact hquad.trans_lt ENNReal.ofReal_lt_top
  · have := integral_eq_lintegral_of_nonneg_ae hpos hu2.aestronglyMeasurable
    rw [hquad, ENNReal.toReal_ofReal (by positivity)] at this
    exact this
  · have hpp : IsProbabilityMeasure (densLaw (multivariate_normal_predictive d).pdf) := by
      have := niw_obs_prob hk one_pos hnu1 hpsi d.mu
      rw [add_comm d.kappa, mul_one] at this
      rw [niw_predictive_eq]
      exact this
    refine MeanVar.of_sq (Measure.isProbabilityMeasure_map (measurable_dot u).aemeasurable) (by positivity) fun c => ?_
    have hF : Measurable fun x : ℝ => ENNReal.ofReal ((x - c) ^ 2) := by fun_prop
    rw [lintegral_map hF (measurable_dot u)]
    have h := niw_obs_sq hk one_pos hnu1 hpsi d.mu u c
    rw [iw_quad hnu hpsi u, ← ENNReal.ofReal_mul (by positivity), ← ENNReal.ofReal_add (by positivity) (by positivity)] at h
    rw [niw_predictive_eq]
    rw [add_comm d.kappa, mul_one] at h
    refine h.trans ?_
    congr 1
    ring

example := C42_multivariate_normal_known_covariance [![1, 2], ![3, 0]] (by simp) ![2, 1] (by ext i; fin_cases i <;> simp <;> norm_num)
  !![2, 1; 1, 2] exampleCov_posDef ⟨![0, 1], (1 : Matrix (Fin 2) (Fin 2) ℝ)⟩ PosDef.one
example := C42_linear_regression (!![1, 0; 1, 1; 1, 2] : Matrix (Fin 3) (Fin 2) ℝ) ![1, 2, 4]
  ⟨![0, 1], 2, 1, some 1, none⟩ 1 rfl PosDef.one
example := C42_multivariate_normal_known_mean (!![1, 0; 1, 1; 1, 2] : Matrix (Fin 3) (Fin 2) ℝ) ![1, 2] ⟨4, 1⟩ (by norm_num)
  PosDef.one 0 1
example := C111_multivariate_normal (⟨![0, 1], 2, 4, 1⟩ : NormalInverseWishart ℝ (Fin 2 → ℝ) (Matrix (Fin 2) (Fin 2) ℝ))
  (by norm_num) (by norm_num) PosDef.one ![1, -1]

end Conj
