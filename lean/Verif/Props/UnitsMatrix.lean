import Verif.Props.Units
import Verif.Props.Proportional
import Verif.Lemmas.MatAlg

/-!
# C101 for vectors and matrices: other units, other features, another origin of the angles
-/

open MeasureTheory Set Real
open scoped Matrix

namespace Conj

open Scipy Spec Matrix

variable {p : Type} [Fintype p] [DecidableEq p] {m : Type} [Fintype m] [DecidableEq m]

/-! ## The change-of-variables relations -/

/-- What `RescaledVec` says about probabilities: every event has the same probability in both units. -/
theorem RescaledVec.law {A : Matrix p p ℝ} (hA : A.det ≠ 0) {b : p → ℝ} {f g : (p → ℝ) → ℝ} (h : RescaledVec A b f g)
    (hg : Measurable g) (B : Set (p → ℝ)) (hB : MeasurableSet B) :
    ∫ x in {x | A *ᵥ x + b ∈ B}, f x = ∫ y in B, g y := by
  have hm : MeasurableSet {x | A *ᵥ x + b ∈ B} := by
    have := measurable_affine A b
    simp only [add_comm b] at this
    exact this hB
  rw [← integral_indicator hB, integral_affine hA b (hg.indicator hB), ← integral_indicator hm]
  congr 1
  funext x
  by_cases hx : A *ᵥ x + b ∈ B
  · rw [indicator_of_mem (show x ∈ {x | A *ᵥ x + b ∈ B} from hx), add_comm b, indicator_of_mem hx, h x, mul_comm]
  · rw [indicator_of_notMem (show x ∉ {x | A *ᵥ x + b ∈ B} from hx), add_comm b, indicator_of_notMem hx, zero_mul]

theorem mulVec_inv_cancel {A : Matrix p p ℝ} (hA : A.det ≠ 0) (x : p → ℝ) : A *ᵥ (A⁻¹ *ᵥ x) = x := by
  rw [mulVec_mulVec, mul_nonsing_inv _ hA.isUnit, one_mulVec]

theorem inv_mulVec_cancel {A : Matrix p p ℝ} (hA : A.det ≠ 0) (x : p → ℝ) : A⁻¹ *ᵥ (A *ᵥ x) = x := by
  rw [mulVec_mulVec, nonsing_inv_mul _ hA.isUnit, one_mulVec]

theorem conj_posDef {A : Matrix p p ℝ} (hA : A.det ≠ 0) {S : Matrix p p ℝ} (hS : S.PosDef) : (A * S * Aᵀ).PosDef := by
  have hu : IsUnit A := (isUnit_iff_isUnit_det _).2 hA.isUnit
  have := (IsUnit.posDef_star_right_conjugate_iff hu (x := S)).2 hS
  rwa [star_eq_conjTranspose, conjTranspose_eq_transpose_of_trivial] at this

theorem conj_inv {A : Matrix p p ℝ} (S : Matrix p p ℝ) : (A * S * Aᵀ)⁻¹ = A⁻¹ᵀ * S⁻¹ * A⁻¹ := by
  rw [Matrix.mul_inv_rev, Matrix.mul_inv_rev, transpose_nonsing_inv, Matrix.mul_assoc]

theorem conj_surj {A : Matrix p p ℝ} (hA : A.det ≠ 0) {T : Matrix p p ℝ} (hT : T.PosDef) :
    ∃ S : Matrix p p ℝ, S.PosDef ∧ A * S * Aᵀ = T := by
  have hB : A⁻¹.det ≠ 0 := by rw [det_nonsing_inv, Ring.inverse_eq_inv']; exact inv_ne_zero hA
  refine ⟨A⁻¹ * T * A⁻¹ᵀ, conj_posDef hB hT, ?_⟩
  have h1 := mul_nonsing_inv A hA.isUnit
  have h2 : A⁻¹ᵀ * Aᵀ = 1 := by rw [← transpose_mul, h1, transpose_one]
  calc A * (A⁻¹ * T * A⁻¹ᵀ) * Aᵀ = (A * A⁻¹) * T * (A⁻¹ᵀ * Aᵀ) := by simp only [Matrix.mul_assoc]
    _ = T := by rw [h1, h2, Matrix.one_mul, Matrix.mul_one]

theorem RescaledVec.unique {A : Matrix p p ℝ} (hA : A.det ≠ 0) {b : p → ℝ} {f g h : (p → ℝ) → ℝ}
    (h1 : RescaledVec A b f g) (h2 : RescaledVec A b f h) : ∀ y, g y = h y := by
  intro y
  have e := (h1 (A⁻¹ *ᵥ (y - b))).symm.trans (h2 (A⁻¹ *ᵥ (y - b)))
  rw [mulVec_inv_cancel hA, sub_add_cancel] at e
  exact mul_left_cancel₀ (abs_pos.2 hA).ne' e

theorem RescaledCov.unique {A : Matrix p p ℝ} (hA : A.det ≠ 0) {f g h : Matrix p p ℝ → ℝ}
    (h1 : RescaledCov A f g) (h2 : RescaledCov A f h) : ∀ T : Matrix p p ℝ, T.PosDef → g T = h T := by
  intro T hT
  obtain ⟨S, hS, rfl⟩ := conj_surj hA hT
  exact mul_left_cancel₀ (pow_pos (abs_pos.2 hA) _).ne' ((h1 S hS).symm.trans (h2 S hS))

theorem RescaledMeanCov.unique {A : Matrix p p ℝ} (hA : A.det ≠ 0) {b : p → ℝ} {f g h : (p → ℝ) → Matrix p p ℝ → ℝ}
    (h1 : RescaledMeanCov A b f g) (h2 : RescaledMeanCov A b f h) :
    ∀ (y : p → ℝ) (T : Matrix p p ℝ), T.PosDef → g y T = h y T := by
  intro y T hT
  obtain ⟨S, hS, rfl⟩ := conj_surj hA hT
  have e := (h1 (A⁻¹ *ᵥ (y - b)) S hS).symm.trans (h2 (A⁻¹ *ᵥ (y - b)) S hS)
  rw [mulVec_inv_cancel hA, sub_add_cancel] at e
  have := abs_pos.2 hA
  exact mul_left_cancel₀ (by positivity) e

theorem RescaledCoef.unique {A : Matrix p p ℝ} (hA : A.det ≠ 0) {s : ℝ} (hs : 0 < s) {f g h : (p → ℝ) → ℝ → ℝ}
    (h1 : RescaledCoef A s f g) (h2 : RescaledCoef A s f h) : ∀ y v, 0 < v → g y v = h y v := by
  intro y v hv
  have e := (h1 (A⁻¹ *ᵥ y) (v / s) (by positivity)).symm.trans (h2 (A⁻¹ *ᵥ y) (v / s) (by positivity))
  rw [mulVec_inv_cancel hA, mul_div_cancel₀ _ hs.ne'] at e
  have := abs_pos.2 hA
  exact mul_left_cancel₀ (by positivity) e

/-! ## The densities -/

theorem quad_conj {A : Matrix p p ℝ} (hA : A.det ≠ 0) (S : Matrix p p ℝ) (b x y : p → ℝ) :
    quad (A * S * Aᵀ)⁻¹ (A *ᵥ x + b - (A *ᵥ y + b)) = quad S⁻¹ (x - y) := by
  rw [add_sub_add_right_eq_sub, ← mulVec_sub, conj_inv]
  simp only [quad]
  rw [← mulVec_mulVec, inv_mulVec_cancel hA, ← mulVec_mulVec, dotProduct_mulVec, vecMul_transpose,
    inv_mulVec_cancel hA]

theorem det_conj (A S : Matrix p p ℝ) : (A * S * Aᵀ).det = A.det ^ 2 * S.det := by
  rw [det_mul, det_mul, det_transpose]; ring

theorem mvnPdf_rescaled {A : Matrix p p ℝ} (hA : A.det ≠ 0) (b mu : p → ℝ) (S : Matrix p p ℝ) :
    RescaledVec A b (mvnPdf mu S) (mvnPdf (A *ᵥ mu + b) (A * S * Aᵀ)) := by
  intro x
  have h := abs_pos.2 hA
  rw [mvnPdf, mvnPdf, quad_conj hA, det_conj, mul_left_comm, Real.sqrt_mul (sq_nonneg A.det), Real.sqrt_sq_eq_abs]
  rw [← mul_div_assoc, mul_div_mul_left _ _ h.ne']

theorem sq_rpow_half (a x : ℝ) : (a ^ 2) ^ (x / 2) = |a| ^ x := by
  rw [← sq_abs, ← Real.rpow_natCast, ← Real.rpow_mul (abs_nonneg a)]
  congr 1
  push_cast
  ring

theorem mvtPdf_rescaled {A : Matrix p p ℝ} (hA : A.det ≠ 0) (b mu : p → ℝ) {S : Matrix p p ℝ} (hS : S.PosDef) (nu : ℝ) :
    RescaledVec A b (mvtPdf mu S nu) (mvtPdf (A *ᵥ mu + b) (A * S * Aᵀ) nu) := by
  intro x
  have h := abs_pos.2 hA
  have hd := posDef_det hS
  simp only [mvtPdf]
  rw [quad_conj hA, det_conj, mul_rpow (by positivity) hd.le, sq_rpow_half, Real.rpow_one]
  rw [← mul_assoc]
  congr 1
  rw [mul_left_comm _ |A.det|, ← mul_div_assoc, mul_div_mul_left _ _ h.ne']

theorem invwishartPdf_rescaled {A : Matrix p p ℝ} (hA : A.det ≠ 0) {psi : Matrix p p ℝ} (hpsi : psi.PosDef) (nu : ℝ) :
    RescaledCov A (invwishartPdf nu psi) (invwishartPdf nu (A * psi * Aᵀ)) := by
  intro S hS
  have h := abs_pos.2 hA
  have hd := posDef_det hS
  have hp := posDef_det hpsi
  have ht : (A * psi * Aᵀ * (A * S * Aᵀ)⁻¹).trace = (psi * S⁻¹).trace := by
    have h1 : Aᵀ * A⁻¹ᵀ = 1 := by rw [← transpose_mul, nonsing_inv_mul _ hA.isUnit, transpose_one]
    rw [conj_inv, show A * psi * Aᵀ * (A⁻¹ᵀ * S⁻¹ * A⁻¹) = A * (psi * (Aᵀ * A⁻¹ᵀ) * S⁻¹ * A⁻¹) by
      simp only [Matrix.mul_assoc], h1, Matrix.mul_one, trace_mul_comm, Matrix.mul_assoc, nonsing_inv_mul _ hA.isUnit,
      Matrix.mul_one]
  simp only [invwishartPdf]
  rw [ht, det_conj, det_conj, mul_rpow (by positivity) hp.le, mul_rpow (by positivity) hd.le, sq_rpow_half, sq_rpow_half]
  have e : |A.det| ^ (Fintype.card p + 1) * (|A.det| ^ nu * |A.det| ^ (-(nu + (Fintype.card p : ℝ) + 1))) = 1 := by
    rw [← Real.rpow_natCast, ← Real.rpow_add h, ← Real.rpow_add h]
    push_cast
    rw [show (Fintype.card p : ℝ) + 1 + (nu + -(nu + (Fintype.card p : ℝ) + 1)) = 0 by ring, Real.rpow_zero]
  generalize |A.det| ^ (Fintype.card p + 1) = u at *
  generalize |A.det| ^ nu = v at *
  generalize |A.det| ^ (-(nu + (Fintype.card p : ℝ) + 1)) = w at *
  generalize 2 ^ (nu * (Fintype.card p : ℝ) / 2) * multigamma (nu / 2) (Fintype.card p) = k at *
  linear_combination (-(psi.det ^ (nu / 2) / k * S.det ^ (-(nu + (Fintype.card p : ℝ) + 1) / 2) *
    exp (-(1 / 2) * (psi * S⁻¹).trace))) * e

/-- The multivariate normal distributions that are the same in other units. -/
theorem MultivariateNormal.rescaled_iff {d d' : MultivariateNormal (p → ℝ) (Matrix p p ℝ)} (hd : d.cov.PosDef)
    (hd' : d'.cov.PosDef) {A : Matrix p p ℝ} (hA : A.det ≠ 0) (b : p → ℝ) :
    RescaledVec A b d.pdf d'.pdf ↔ d' = ⟨A *ᵥ d.mu + b, A * d.cov * Aᵀ⟩ := by
  have base := mvnPdf_rescaled hA b d.mu d.cov
  constructor
  · intro h
    exact C97_multivariate_normal _ _ hd' (conj_posDef hA hd) (RescaledVec.unique hA h base)
  · rintro rfl
    exact base

theorem InverseWishart.rescaled_iff [Nonempty p] {d d' : InverseWishart ℝ (Matrix p p ℝ)}
    (hn : (Fintype.card p : ℝ) - 1 < d.nu) (hd : d.psi.PosDef) (hn' : (Fintype.card p : ℝ) - 1 < d'.nu)
    (hd' : d'.psi.PosDef) {A : Matrix p p ℝ} (hA : A.det ≠ 0) :
    RescaledCov A d.pdf d'.pdf ↔ d' = ⟨d.nu, A * d.psi * Aᵀ⟩ := by
  have base := invwishartPdf_rescaled hA hd d.nu
  constructor
  · intro h
    exact C97_inverse_wishart _ _ hn' hd' hn (conj_posDef hA hd) (RescaledCov.unique hA h base)
  · rintro rfl
    exact base

theorem NormalInverseWishart.rescaled {A : Matrix p p ℝ} (hA : A.det ≠ 0) (b mu : p → ℝ) (k nu : ℝ)
    {psi : Matrix p p ℝ} (hpsi : psi.PosDef) :
    RescaledMeanCov A b (NormalInverseWishart.mk mu k nu psi).jointPdf
      (NormalInverseWishart.mk (A *ᵥ mu + b) k nu (A * psi * Aᵀ)).jointPdf := by
  intro x S hS
  have h1 := invwishartPdf_rescaled hA hpsi nu S hS
  have h2 := mvnPdf_rescaled hA b mu ((1 / k) • S) x
  simp only [NormalInverseWishart.jointPdf]
  rw [h1, h2, Matrix.mul_smul, Matrix.smul_mul]
  ring

theorem NormalInverseWishart.rescaled_iff [Nonempty p] {d d' : NormalInverseWishart ℝ (p → ℝ) (Matrix p p ℝ)}
    (hk : 0 < d.kappa) (hn : (Fintype.card p : ℝ) - 1 < d.nu) (hd : d.psi.PosDef)
    (hk' : 0 < d'.kappa) (hn' : (Fintype.card p : ℝ) - 1 < d'.nu)
    (hd' : d'.psi.PosDef) {A : Matrix p p ℝ} (hA : A.det ≠ 0) (b : p → ℝ) :
    RescaledMeanCov A b d.jointPdf d'.jointPdf ↔ d' = ⟨A *ᵥ d.mu + b, d.kappa, d.nu, A * d.psi * Aᵀ⟩ := by
  have base := NormalInverseWishart.rescaled hA b d.mu d.kappa d.nu hd
  constructor
  · intro h
    exact C97_normal_inverse_wishart _ _ hk' hn' hd' hk hn (conj_posDef hA hd) (RescaledMeanCov.unique hA h base)
  · rintro rfl
    exact base

/-! ## Multivariate normal data: every observation `x` becomes `A *ᵥ x + b` -/

theorem exists_shift {A : Matrix p p ℝ} (hA : A.det ≠ 0) (b : p → ℝ) : ∃ b0, A *ᵥ b0 = b :=
  ⟨A⁻¹ *ᵥ b, mulVec_inv_cancel hA b⟩

/-- C101, `multivariate_normal_known_covariance`: `n` observations with mean `x_bar`. -/
theorem C101_multivariate_normal_known_covariance {prior prior' : MultivariateNormal (p → ℝ) (Matrix p p ℝ)}
    (hp : prior.cov.PosDef) (hp' : prior'.cov.PosDef) {A : Matrix p p ℝ} (hA : A.det ≠ 0) (b : p → ℝ)
    (h : RescaledVec A b prior.pdf prior'.pdf) {cov : Matrix p p ℝ} (hc : cov.PosDef) (n : ℕ) (x_bar : p → ℝ) :
    ∃ post post', multivariate_normal_known_covariance (n : ℝ) x_bar cov prior = .ok post ∧
      multivariate_normal_known_covariance (n : ℝ) (A *ᵥ x_bar + b) (A * cov * Aᵀ) prior' = .ok post' ∧
      RescaledVec A b post.pdf post'.pdf := by
  obtain rfl := (MultivariateNormal.rescaled_iff hp hp' hA b).1 h
  obtain ⟨b0, rfl⟩ := exists_shift hA b
  refine ⟨_, _, mvn_known_cov_eq n x_bar _ rfl hc prior hp,
    mvn_known_cov_eq n (A *ᵥ x_bar + A *ᵥ b0) _ rfl (conj_posDef hA hc) _ hp', ?_⟩
  have hL : (prior.cov⁻¹ + (n : ℝ) • cov⁻¹).PosDef := hp.inv.add_posSemidef (natSmul_posSemidef hc.inv _)
  have key : ∀ (S : Matrix p p ℝ) (v : p → ℝ), (A * S * Aᵀ)⁻¹ *ᵥ (A *ᵥ v + A *ᵥ b0) = A⁻¹ᵀ *ᵥ (S⁻¹ *ᵥ (v + b0)) := by
    intro S v
    rw [← mulVec_add, conj_inv, ← mulVec_mulVec, inv_mulVec_cancel hA, ← mulVec_mulVec]
  have hP : (A * prior.cov * Aᵀ)⁻¹ + (n : ℝ) • (A * cov * Aᵀ)⁻¹ = A⁻¹ᵀ * (prior.cov⁻¹ + (n : ℝ) • cov⁻¹) * A⁻¹ := by
    rw [conj_inv, conj_inv, Matrix.mul_add, Matrix.add_mul, Matrix.mul_smul, Matrix.smul_mul]
  have hI : (A⁻¹ᵀ * (prior.cov⁻¹ + (n : ℝ) • cov⁻¹) * A⁻¹)⁻¹ = A * (prior.cov⁻¹ + (n : ℝ) • cov⁻¹)⁻¹ * Aᵀ := by
    rw [Matrix.mul_inv_rev, Matrix.mul_inv_rev, ← transpose_nonsing_inv, nonsing_inv_nonsing_inv _ hA.isUnit,
      Matrix.mul_assoc]
  have hAT : ∀ v : p → ℝ, Aᵀ *ᵥ (A⁻¹ᵀ *ᵥ v) = v := by
    intro v
    rw [mulVec_mulVec, ← transpose_mul, nonsing_inv_mul _ hA.isUnit, transpose_one, one_mulVec]
  have hm : (prior.cov⁻¹ + (n : ℝ) • cov⁻¹)⁻¹ *ᵥ (prior.cov⁻¹ *ᵥ (prior.mu + b0) + (n : ℝ) • cov⁻¹ *ᵥ (x_bar + b0)) =
      (prior.cov⁻¹ + (n : ℝ) • cov⁻¹)⁻¹ *ᵥ (prior.cov⁻¹ *ᵥ prior.mu + cov⁻¹ *ᵥ ((n : ℝ) • x_bar)) + b0 := by
    have : prior.cov⁻¹ *ᵥ (prior.mu + b0) + (n : ℝ) • cov⁻¹ *ᵥ (x_bar + b0) =
        (prior.cov⁻¹ *ᵥ prior.mu + cov⁻¹ *ᵥ ((n : ℝ) • x_bar)) + (prior.cov⁻¹ + (n : ℝ) • cov⁻¹) *ᵥ b0 := by
      rw [mulVec_add, mulVec_add, mulVec_smul, add_mulVec, smul_mulVec, smul_add]
      abel
    rw [this, mulVec_add, inv_mulVec_cancel (posDef_det hL).ne']
  have base := mvnPdf_rescaled hA (A *ᵥ b0)
    ((prior.cov⁻¹ + (n : ℝ) • cov⁻¹)⁻¹ *ᵥ (prior.cov⁻¹ *ᵥ prior.mu + cov⁻¹ *ᵥ ((n : ℝ) • x_bar)))
    (prior.cov⁻¹ + (n : ℝ) • cov⁻¹)⁻¹
  have e2 : (A * prior.cov * Aᵀ)⁻¹ *ᵥ (A *ᵥ prior.mu + A *ᵥ b0) +
      (A * cov * Aᵀ)⁻¹ *ᵥ ((n : ℝ) • (A *ᵥ x_bar + A *ᵥ b0)) =
      A⁻¹ᵀ *ᵥ (prior.cov⁻¹ *ᵥ (prior.mu + b0) + (n : ℝ) • cov⁻¹ *ᵥ (x_bar + b0)) := by
    rw [mulVec_smul, key, key, mulVec_add A⁻¹ᵀ, mulVec_smul]
  simp only [MultivariateNormal.pdf]
  rw [hP, hI, e2, ← mulVec_mulVec, hAT, ← mulVec_mulVec, hm, mulVec_add A]
  exact base

/-- C101, `multivariate_normal_known_precision`: the known precision changes to the inverse of the changed covariance. -/
theorem C101_multivariate_normal_known_precision {prior prior' : MultivariateNormal (p → ℝ) (Matrix p p ℝ)}
    (hp : prior.cov.PosDef) (hp' : prior'.cov.PosDef) {A : Matrix p p ℝ} (hA : A.det ≠ 0) (b : p → ℝ)
    (h : RescaledVec A b prior.pdf prior'.pdf) {precision : Matrix p p ℝ} (hc : precision.PosDef) (n : ℕ)
    (x_bar : p → ℝ) :
    ∃ post post', multivariate_normal_known_precision (n : ℝ) x_bar precision prior = .ok post ∧
      multivariate_normal_known_precision (n : ℝ) (A *ᵥ x_bar + b) (A⁻¹ᵀ * precision * A⁻¹) prior' = .ok post' ∧
      RescaledVec A b post.pdf post'.pdf := by
  obtain ⟨post, post', h1, h2, h3⟩ := C101_multivariate_normal_known_covariance hp hp' hA b h hc.inv n x_bar
  refine ⟨post, post', ?_, ?_, h3⟩
  · rw [mvn_known_cov_eq n x_bar _ rfl hc.inv prior hp, nonsing_inv_nonsing_inv _ (posDef_unit hc)] at h1
    rw [mvn_known_prec_eq n x_bar _ rfl hc prior hp, h1]
  · have e : (A * precision⁻¹ * Aᵀ)⁻¹ = A⁻¹ᵀ * precision * A⁻¹ := by
      rw [conj_inv, nonsing_inv_nonsing_inv _ (posDef_unit hc)]
    have hP : (A⁻¹ᵀ * precision * A⁻¹).PosDef := e ▸ (conj_posDef hA hc.inv).inv
    rw [mvn_known_cov_eq n _ _ rfl (conj_posDef hA hc.inv) prior' hp', e] at h2
    rw [mvn_known_prec_eq n _ _ rfl hP prior' hp', h2]

/-- C101, `multivariate_normal_known_covariance_predictive`. -/
theorem C101_multivariate_normal_known_covariance_predictive {e e' : MultivariateNormal (p → ℝ) (Matrix p p ℝ)}
    (he : e.cov.PosDef) (he' : e'.cov.PosDef) {A : Matrix p p ℝ} (hA : A.det ≠ 0) (b : p → ℝ)
    (h : RescaledVec A b e.pdf e'.pdf) (cov : Matrix p p ℝ) :
    RescaledVec A b (multivariate_normal_known_covariance_predictive e cov).pdf
      (multivariate_normal_known_covariance_predictive e' (A * cov * Aᵀ)).pdf := by
  obtain rfl := (MultivariateNormal.rescaled_iff he he' hA b).1 h
  have := mvnPdf_rescaled hA b e.mu (e.cov + cov)
  rw [Matrix.mul_add, Matrix.add_mul] at this
  exact this

omit [DecidableEq p] [Fintype m] [DecidableEq m] in
theorem subRow_affine (A : Matrix p p ℝ) (b mu : p → ℝ) (X : Matrix m p ℝ) :
    subRow (Matrix.of fun i => A *ᵥ X i + b) (A *ᵥ mu + b) = subRow X mu * Aᵀ := by
  ext i j
  simp only [subRow, of_apply, mul_apply, transpose_apply, Pi.add_apply, mulVec, dotProduct]
  rw [add_sub_add_right_eq_sub, ← Finset.sum_sub_distrib]
  exact Finset.sum_congr rfl fun k _ => by ring

/-- C101, `multivariate_normal_known_mean`: one observation per row of `X`. -/
theorem C101_multivariate_normal_known_mean [Nonempty p] {prior prior' : InverseWishart ℝ (Matrix p p ℝ)}
    (hn : (Fintype.card p : ℝ) - 1 < prior.nu) (hd : prior.psi.PosDef) (hn' : (Fintype.card p : ℝ) - 1 < prior'.nu)
    (hd' : prior'.psi.PosDef) {A : Matrix p p ℝ} (hA : A.det ≠ 0) (b : p → ℝ)
    (h : RescaledCov A prior.pdf prior'.pdf) (X : Matrix m p ℝ) (mu : p → ℝ) :
    RescaledCov A (multivariate_normal_known_mean X mu prior).pdf
      (multivariate_normal_known_mean (Matrix.of fun i => A *ᵥ X i + b) (A *ᵥ mu + b) prior').pdf := by
  obtain rfl := (InverseWishart.rescaled_iff hn hd hn' hd' hA).1 h
  have base := invwishartPdf_rescaled hA (hd.add_posSemidef (subRow_gram_posSemidef X mu)) (prior.nu + (Fintype.card m : ℝ))
  have e : A * (prior.psi + (subRow X mu)ᵀ * subRow X mu) * Aᵀ =
      A * prior.psi * Aᵀ + (subRow X mu * Aᵀ)ᵀ * (subRow X mu * Aᵀ) := by
    rw [transpose_mul, transpose_transpose]
    simp only [Matrix.mul_add, Matrix.add_mul, Matrix.mul_assoc]
  rw [e] at base
  simp only [multivariate_normal_known_mean, subRow_affine]
  exact base

/-- C101, `multivariate_normal`: mean and covariance unknown, at least one observation. -/
theorem C101_multivariate_normal [Nonempty p] [Nonempty m] {prior prior' : NormalInverseWishart ℝ (p → ℝ) (Matrix p p ℝ)}
    (hk : 0 < prior.kappa) (hn : (Fintype.card p : ℝ) - 1 < prior.nu) (hd : prior.psi.PosDef)
    (hk' : 0 < prior'.kappa) (hn' : (Fintype.card p : ℝ) - 1 < prior'.nu)
    (hd' : prior'.psi.PosDef) {A : Matrix p p ℝ} (hA : A.det ≠ 0) (b : p → ℝ)
    (h : RescaledMeanCov A b prior.jointPdf prior'.jointPdf) (X : Matrix m p ℝ) :
    ∃ post post', multivariate_normal X prior = .ok post ∧
      multivariate_normal (Matrix.of fun i => A *ᵥ X i + b) prior' = .ok post' ∧
      RescaledMeanCov A b post.jointPdf post'.jointPdf := by
  obtain rfl := (NormalInverseWishart.rescaled_iff hk hn hd hk' hn' hd' hA b).1 h
  obtain ⟨mu, k, nu, psi⟩ := prior
  have hN : 0 < (Fintype.card m : ℝ) := by exact_mod_cast Fintype.card_pos
  have hN0 : Fintype.card m ≠ 0 := Fintype.card_ne_zero
  obtain ⟨xb, hxb⟩ : ∃ xb : p → ℝ, xb = fun j => (∑ i, X i j) / (Fintype.card m : ℝ) := ⟨_, rfl⟩
  have hmean : (fun j => (∑ i, (Matrix.of fun i => A *ᵥ X i + b) i j) / (Fintype.card m : ℝ)) = A *ᵥ xb + b := by
    funext j
    simp only [of_apply, Pi.add_apply, Finset.sum_add_distrib, Finset.sum_const, Finset.card_univ, nsmul_eq_mul, hxb,
      mulVec, dotProduct]
    rw [add_div, mul_div_cancel_left₀ _ hN.ne', Finset.sum_comm]
    congr 1
    rw [Finset.sum_div]
    exact Finset.sum_congr rfl fun l _ => by rw [← Finset.mul_sum, mul_div_assoc]
  have hpost : (psi + (subRow X xb)ᵀ * subRow X xb + Matrix.of fun i j =>
      vecMulVec (xb - mu) (xb - mu) i j * (Fintype.card m : ℝ) * k / (k + (Fintype.card m : ℝ))).PosDef := by
    have h1 := hd.add_posSemidef (subRow_gram_posSemidef X xb)
    have h2 : (vecMulVec (xb - mu) (xb - mu)).PosSemidef := by
      have := posSemidef_vecMulVec_self_star (xb - mu)
      rwa [star_trivial] at this
    have hk0 : (0 : ℝ) < k := hk
    refine h1.add_posSemidef ?_
    convert h2.smul (show (0 : ℝ) ≤ (Fintype.card m : ℝ) * k / (k + (Fintype.card m : ℝ)) by positivity) using 1
    ext i j
    simp only [of_apply, Matrix.smul_apply, smul_eq_mul]
    ring
  have base := NormalInverseWishart.rescaled hA b
    (fun j => (mu j * k + (Fintype.card m : ℝ) * xb j) / (k + (Fintype.card m : ℝ))) (k + (Fintype.card m : ℝ))
    (nu + (Fintype.card m : ℝ)) hpost
  have hk0 : (0 : ℝ) < k := hk
  refine ⟨_, _, ?_, ?_, base⟩
  · simp only [multivariate_normal, meanAxis0, hN0, if_false, bind, Except.bind, pure, Except.pure, ← hxb]
  · simp only [multivariate_normal, meanAxis0, hN0, if_false, bind, Except.bind, pure, Except.pure, hmean, subRow_affine,
      Except.ok.injEq, NormalInverseWishart.mk.injEq, true_and]
    constructor
    · funext j
      have hs : ∀ v : p → ℝ, (A *ᵥ v + b) j = (∑ l, A j l * v l) + b j := fun v => rfl
      rw [hs, hs, hs]
      rw [div_eq_iff (by positivity), add_mul, add_mul, Finset.sum_mul, mul_add, Finset.mul_sum, Finset.sum_mul]
      have : ∀ l, A j l * ((mu l * k + (Fintype.card m : ℝ) * xb l) / (k + (Fintype.card m : ℝ))) * (k + (Fintype.card m : ℝ)) =
          A j l * mu l * k + (Fintype.card m : ℝ) * (A j l * xb l) := fun l => by
        field_simp
      rw [Finset.sum_congr rfl fun l _ => this l, Finset.sum_add_distrib]
      ring
    · rw [add_sub_add_right_eq_sub, ← mulVec_sub]
      have e1 : A * (psi + (subRow X xb)ᵀ * subRow X xb) * Aᵀ =
          A * psi * Aᵀ + (subRow X xb * Aᵀ)ᵀ * (subRow X xb * Aᵀ) := by
        rw [transpose_mul, transpose_transpose]
        simp only [Matrix.mul_add, Matrix.add_mul, Matrix.mul_assoc]
      have e2 : ∀ v : p → ℝ, vecMulVec (A *ᵥ v) (A *ᵥ v) = A * vecMulVec v v * Aᵀ := by
        intro v
        rw [mul_vecMulVec, vecMulVec_mul, vecMul_transpose]
      have e3 : ∀ (W : Matrix p p ℝ) (t k' : ℝ), (Matrix.of fun i j => W i j * t * k / k') = (t * k / k') • W := by
        intro W t k'
        ext i j
        simp only [of_apply, Matrix.smul_apply, smul_eq_mul]
        ring
      rw [e2, e3, e3, Matrix.mul_add, Matrix.add_mul, e1, Matrix.mul_smul, Matrix.smul_mul]

/-- C101, `multivariate_normal_predictive`. -/
theorem C101_multivariate_normal_predictive [Nonempty p] {e e' : NormalInverseWishart ℝ (p → ℝ) (Matrix p p ℝ)}
    (hk : 0 < e.kappa) (hn : (Fintype.card p : ℝ) - 1 < e.nu) (hd : e.psi.PosDef)
    (hk' : 0 < e'.kappa) (hn' : (Fintype.card p : ℝ) - 1 < e'.nu)
    (hd' : e'.psi.PosDef) {A : Matrix p p ℝ} (hA : A.det ≠ 0) (b : p → ℝ)
    (h : RescaledMeanCov A b e.jointPdf e'.jointPdf) :
    RescaledVec A b (multivariate_normal_predictive e).pdf (multivariate_normal_predictive e').pdf := by
  obtain rfl := (NormalInverseWishart.rescaled_iff hk hn hd hk' hn' hd' hA b).1 h
  obtain ⟨mu, k, nu, psi⟩ := e
  have hk0 : (0 : ℝ) < k := hk
  have hn0 : (Fintype.card p : ℝ) - 1 < nu := hn
  have hpos : 0 < nu - (Fintype.card p : ℝ) + 1 := by linarith
  have e3 : ∀ W : Matrix p p ℝ, (Matrix.of fun i j => (k + 1) * W i j / (k * (nu - (Fintype.card p : ℝ) + 1))) =
      ((k + 1) / (k * (nu - (Fintype.card p : ℝ) + 1))) • W := by
    intro W
    ext i j
    simp only [of_apply, Matrix.smul_apply, smul_eq_mul]
    ring
  have base := mvtPdf_rescaled hA b mu (posDef_smul hd (c := (k + 1) / (k * (nu - (Fintype.card p : ℝ) + 1)))
    (by positivity)) (nu - (Fintype.card p : ℝ) + 1)
  rw [Matrix.mul_smul, Matrix.smul_mul] at base
  simp only [multivariate_normal_predictive, MultivariateStudentT.pdf, e3]
  exact base

/-! ## Linear regression: features `X * R` (other units or other combinations), outcome `c • y` -/

theorem nigNd_rescaled {A : Matrix p p ℝ} (hA : A.det ≠ 0) {s : ℝ} (hs : 0 < s)
    (d d' : NormalInverseGamma ℝ (p → ℝ) (Matrix p p ℝ)) (D : Matrix p p ℝ) (h1 : d'.mu = A *ᵥ d.mu)
    (h2 : d'.alpha = d.alpha) (h3 : d'.beta = s * d.beta) :
    RescaledCoef A s (d.jointPdfNd D) (d'.jointPdfNd (s⁻¹ • (A * D * Aᵀ))) := by
  intro β v hv
  have e1 := mvnPdf_rescaled hA 0 d.mu (v • D) β
  have e2 := Cont.rescaled (.invgamma d.alpha) 0 d.beta hs 0 v
  rw [abs_of_pos hs, mul_zero, add_zero, add_zero] at e2
  simp only [NormalInverseGamma.jointPdfNd, h1, h2, h3, InverseGamma.dist]
  rw [add_zero, add_zero] at e1
  rw [e1, smul_smul, show s * v * s⁻¹ = v by field_simp, Matrix.mul_smul, Matrix.smul_mul]
  rw [e2]
  ring

theorem nigNd_rescaled_iff {A : Matrix p p ℝ} (hA : A.det ≠ 0) {s : ℝ} (hs : 0 < s)
    {d d' : NormalInverseGamma ℝ (p → ℝ) (Matrix p p ℝ)} {D D' : Matrix p p ℝ} (hD : D.PosDef) (ha : 0 < d.alpha)
    (hb : 0 < d.beta) (hD' : D'.PosDef) (ha' : 0 < d'.alpha) (hb' : 0 < d'.beta) :
    RescaledCoef A s (d.jointPdfNd D) (d'.jointPdfNd D') ↔
      d'.mu = A *ᵥ d.mu ∧ D' = s⁻¹ • (A * D * Aᵀ) ∧ d'.alpha = d.alpha ∧ d'.beta = s * d.beta := by
  constructor
  · intro h
    have base := nigNd_rescaled hA hs d { d with mu := A *ᵥ d.mu, beta := s * d.beta } D rfl rfl rfl
    exact C97_normal_inverse_gamma_nd d' { d with mu := A *ᵥ d.mu, beta := s * d.beta } D' _ hD' ha' hb' (posDef_smul (conj_posDef hA hD) (inv_pos.2 hs)) ha
      (mul_pos hs hb) (RescaledCoef.unique hA hs h base)
  · rintro ⟨h1, rfl, h2, h3⟩
    exact nigNd_rescaled hA hs d d' D h1 h2 h3

theorem det_smul_inv_ne {R : Matrix p p ℝ} (hR : R.det ≠ 0) {c : ℝ} (hc : c ≠ 0) : (c • R⁻¹).det ≠ 0 := by
  rw [det_smul, det_nonsing_inv, Ring.inverse_eq_inv']
  exact mul_ne_zero (pow_ne_zero _ hc) (inv_ne_zero hR)

theorem conj_smul_inv (R D : Matrix p p ℝ) {c : ℝ} (hc : c ≠ 0) :
    (c ^ 2)⁻¹ • ((c • R⁻¹) * D * (c • R⁻¹)ᵀ) = R⁻¹ * D * R⁻¹ᵀ := by
  rw [transpose_smul, Matrix.smul_mul, Matrix.smul_mul, Matrix.mul_smul, smul_smul, smul_smul]
  rw [show (c ^ 2)⁻¹ * c * c = 1 by field_simp, one_smul]

/-- C101, `linear_regression`: with the features `X * R` and the outcome `c • y`, the coefficients are `c • R⁻¹`
times the old ones and the variance `c ^ 2` times the old one. -/
theorem C101_linear_regression {prior prior' : NormalInverseGamma ℝ (p → ℝ) (Matrix p p ℝ)} {D D' : Matrix p p ℝ}
    (hi : prior.delta_inverse = some D) (hi' : prior'.delta_inverse = some D') (hD : D.PosDef) (ha : 0 < prior.alpha)
    (hb : 0 < prior.beta) (hD' : D'.PosDef) (ha' : 0 < prior'.alpha) (hb' : 0 < prior'.beta) {R : Matrix p p ℝ}
    (hR : R.det ≠ 0) {c : ℝ} (hc : c ≠ 0)
    (h : RescaledCoef (c • R⁻¹) (c ^ 2) (prior.jointPdfNd D) (prior'.jointPdfNd D')) (X : Matrix m p ℝ) (y : m → ℝ) :
    ∃ post post' E E', linear_regression X y prior = .ok post ∧ linear_regression (X * R) (c • y) prior' = .ok post' ∧
      post.delta_inverse = some E ∧ post'.delta_inverse = some E' ∧
      RescaledCoef (c • R⁻¹) (c ^ 2) (post.jointPdfNd E) (post'.jointPdfNd E') := by
  have hA := det_smul_inv_ne hR hc
  have hs : 0 < c ^ 2 := by positivity
  obtain ⟨h1, h2, h3, h4⟩ := (nigNd_rescaled_iff hA hs hD ha hb hD' ha' hb').1 h
  rw [conj_smul_inv R D hc] at h2
  subst h2
  refine ⟨_, _, _, _, linear_regression_eq X y prior hi hD, linear_regression_eq (X * R) (c • y) prior' hi' hD', rfl, rfl, ?_⟩
  have hRR := nonsing_inv_mul R hR.isUnit
  have hRR' := mul_nonsing_inv R hR.isUnit
  have hRT : R⁻¹ᵀ * Rᵀ = 1 := by rw [← transpose_mul, hRR', transpose_one]
  have hRT' : Rᵀ * R⁻¹ᵀ = 1 := by rw [← transpose_mul, hRR, transpose_one]
  have hDi : (R⁻¹ * D * R⁻¹ᵀ)⁻¹ = Rᵀ * D⁻¹ * R := by rw [conj_inv, nonsing_inv_nonsing_inv _ hR.isUnit]
  have hg : (X * R)ᵀ * (X * R) + Rᵀ * D⁻¹ * R = Rᵀ * (Xᵀ * X + D⁻¹) * R := by
    rw [transpose_mul]
    simp only [Matrix.mul_add, Matrix.add_mul, Matrix.mul_assoc]
  have hgi : (Rᵀ * (Xᵀ * X + D⁻¹) * R)⁻¹ = R⁻¹ * (Xᵀ * X + D⁻¹)⁻¹ * R⁻¹ᵀ := by
    rw [Matrix.mul_inv_rev, Matrix.mul_inv_rev, transpose_nonsing_inv, Matrix.mul_assoc]
  have hX : X * R * (R⁻¹ * D * R⁻¹ᵀ) * (X * R)ᵀ = X * D * Xᵀ := by
    rw [transpose_mul]
    calc X * R * (R⁻¹ * D * R⁻¹ᵀ) * (Rᵀ * Xᵀ) = X * (R * R⁻¹) * D * (R⁻¹ᵀ * Rᵀ) * Xᵀ := by simp only [Matrix.mul_assoc]
      _ = X * D * Xᵀ := by rw [hRR', hRT, Matrix.mul_one, Matrix.mul_one]
  have hr : c • y - (X * R) *ᵥ prior'.mu = c • (y - X *ᵥ prior.mu) := by
    rw [h1, smul_mulVec, mulVec_smul, ← mulVec_mulVec, mulVec_inv_cancel hR, smul_sub]
  have hv : (Rᵀ * D⁻¹ * R) *ᵥ prior'.mu + (X * R)ᵀ *ᵥ (c • y) = c • (Rᵀ *ᵥ (D⁻¹ *ᵥ prior.mu + Xᵀ *ᵥ y)) := by
    rw [h1, smul_mulVec, mulVec_smul, mulVec_smul, transpose_mul, ← mulVec_mulVec, mulVec_inv_cancel hR, ← mulVec_mulVec,
      ← mulVec_mulVec, mulVec_add, smul_add]
  rw [hDi, hg, hgi, hX, hr, hv]
  rw [← conj_smul_inv R _ hc]
  refine nigNd_rescaled hA hs _ _ _ ?_ ?_ ?_
  · simp only
    rw [conj_smul_inv R _ hc, mulVec_smul, ← mulVec_mulVec, ← mulVec_mulVec, smul_mulVec, mulVec_mulVec _ R⁻¹ᵀ, hRT,
      one_mulVec]
  · simp only [h3]
  · simp only [h4, quad_smul_vec]
    ring

/-- C101, `linear_regression_predictive`. -/
theorem C101_linear_regression_predictive {e e' : NormalInverseGamma ℝ (p → ℝ) (Matrix p p ℝ)} {D D' : Matrix p p ℝ}
    (hi : e.delta_inverse = some D) (hi' : e'.delta_inverse = some D') (hD : D.PosDef) (ha : 0 < e.alpha)
    (hb : 0 < e.beta) (hD' : D'.PosDef) (ha' : 0 < e'.alpha) (hb' : 0 < e'.beta) {R : Matrix p p ℝ}
    (hR : R.det ≠ 0) {c : ℝ} (hc : c ≠ 0)
    (h : RescaledCoef (c • R⁻¹) (c ^ 2) (e.jointPdfNd D) (e'.jointPdfNd D')) (X : Matrix m p ℝ) :
    ∃ t t', linear_regression_predictive e X = .ok t ∧ linear_regression_predictive e' (X * R) = .ok t' ∧
      RescaledVec (c • (1 : Matrix m m ℝ)) 0 t.pdf t'.pdf := by
  have hA := det_smul_inv_ne hR hc
  have hs : 0 < c ^ 2 := by positivity
  obtain ⟨h1, h2, h3, h4⟩ := (nigNd_rescaled_iff hA hs hD ha hb hD' ha' hb').1 h
  rw [conj_smul_inv R D hc] at h2
  subst h2
  have hRR' := mul_nonsing_inv R hR.isUnit
  have hRT : R⁻¹ᵀ * Rᵀ = 1 := by rw [← transpose_mul, hRR', transpose_one]
  have hX : X * R * (R⁻¹ * D * R⁻¹ᵀ) * (X * R)ᵀ = X * D * Xᵀ := by
    rw [transpose_mul]
    calc X * R * (R⁻¹ * D * R⁻¹ᵀ) * (Rᵀ * Xᵀ) = X * (R * R⁻¹) * D * (R⁻¹ᵀ * Rᵀ) * Xᵀ := by simp only [Matrix.mul_assoc]
      _ = X * D * Xᵀ := by rw [hRR', hRT, Matrix.mul_one, Matrix.mul_one]
  have hpd : (1 + X * D * Xᵀ).PosDef := by
    have := posSemidef_conj hD.posSemidef Xᵀ
    rw [transpose_transpose] at this
    exact PosDef.one.add_posSemidef this
  have hc1 : (c • (1 : Matrix m m ℝ)).det ≠ 0 := by rw [det_smul, det_one, mul_one]; exact pow_ne_zero _ hc
  have base := mvtPdf_rescaled hc1 0 (X *ᵥ e.mu) (posDef_smul hpd (c := e.beta / e.alpha) (by positivity)) (2 * e.alpha)
  refine ⟨⟨X *ᵥ e.mu, (e.beta / e.alpha) • (1 + X * D * Xᵀ), 2 * e.alpha⟩,
    ⟨(X * R) *ᵥ e'.mu, (e'.beta / e'.alpha) • (1 + X * R * (R⁻¹ * D * R⁻¹ᵀ) * (X * R)ᵀ), 2 * e'.alpha⟩, ?_, ?_, ?_⟩
  · simp [linear_regression_predictive, hi, bind, Except.bind, pure, Except.pure]
  · simp [linear_regression_predictive, hi', bind, Except.bind, pure, Except.pure]
  · simp only [MultivariateStudentT.pdf]
    rw [hX, h3, h4, h1]
    convert base using 2
    · rw [add_zero, smul_mulVec, mulVec_smul, smul_mulVec, one_mulVec, ← mulVec_mulVec, mulVec_inv_cancel hR]
    · rw [transpose_smul, transpose_one, Matrix.smul_mul, Matrix.mul_smul, Matrix.one_mul, Matrix.mul_one, smul_smul,
        smul_smul]
      congr 1
      ring

/-! ## Angles: another zero direction -/

/-- Full statement of C101 for `von_mises_known_concentration`: measuring the angles from another zero direction turns
the posterior's log density `a * cos (mu - b)` and leaves it otherwise the same. -/
def C101_von_mises_statement (kappa : ℝ) (prior : VonMisesKnownConcentration ℝ) (xs : List ℝ) (t : ℝ) : Prop :=
  let post := von_mises_known_concentration (xs.map cos).sum (xs.map sin).sum (xs.length : ℝ) kappa prior sin cos arctan2
  let post' := von_mises_known_concentration ((xs.map (· + t)).map cos).sum ((xs.map (· + t)).map sin).sum
    ((xs.map (· + t)).length : ℝ) kappa ⟨prior.a, prior.b + t⟩ sin cos arctan2
  ∀ mu, post'.a * cos (mu + t - post'.b) = post.a * cos (mu - post.b)

theorem sum_rotate (xs : List ℝ) (t : ℝ) :
    ((xs.map (· + t)).map cos).sum = cos t * (xs.map cos).sum - sin t * (xs.map sin).sum ∧
      ((xs.map (· + t)).map sin).sum = cos t * (xs.map sin).sum + sin t * (xs.map cos).sum := by
  induction xs with
  | nil => simp
  | cons x l ih =>
    simp only [List.map_cons, List.sum_cons, ih.1, ih.2, cos_add, sin_add]
    constructor <;> ring

/-- C101, `von_mises_known_concentration`: the direction turns with the angles. Missing: the concentration, for which
the claim is false. -/
theorem C101_von_mises_known_concentration_partial (kappa : ℝ) (prior : VonMisesKnownConcentration ℝ) (xs : List ℝ) (t : ℝ)
    (hne : ¬ (prior.a * cos prior.b + (xs.map cos).sum = 0 ∧ prior.a * sin prior.b + (xs.map sin).sum = 0)) (mu : ℝ) :
    cos (mu + t - (von_mises_known_concentration ((xs.map (· + t)).map cos).sum ((xs.map (· + t)).map sin).sum
      ((xs.map (· + t)).length : ℝ) kappa ⟨prior.a, prior.b + t⟩ sin cos arctan2).b) =
    cos (mu - (von_mises_known_concentration (xs.map cos).sum (xs.map sin).sum (xs.length : ℝ) kappa prior sin cos arctan2).b) := by
  obtain ⟨r1, r2⟩ := sum_rotate xs t
  simp only [von_mises_known_concentration, r1, r2, cos_add prior.b, sin_add prior.b]
  obtain ⟨S, hS⟩ : ∃ S, S = prior.a * sin prior.b + (xs.map sin).sum := ⟨_, rfl⟩
  obtain ⟨C, hC⟩ : ∃ C, C = prior.a * cos prior.b + (xs.map cos).sum := ⟨_, rfl⟩
  rw [show prior.a * (sin prior.b * cos t + cos prior.b * sin t) + (cos t * (xs.map sin).sum + sin t * (xs.map cos).sum) =
      cos t * S + sin t * C by rw [hS, hC]; ring,
    show prior.a * (cos prior.b * cos t - sin prior.b * sin t) + (cos t * (xs.map cos).sum - sin t * (xs.map sin).sum) =
      cos t * C - sin t * S by rw [hS, hC]; ring, ← hS, ← hC]
  rw [← hS, ← hC] at hne
  have hpos : 0 < C ^ 2 + S ^ 2 := by
    rcases not_and_or.1 hne with h | h
    · have := pow_pos (abs_pos.2 h) 2; rw [sq_abs] at this; positivity
    · have := pow_pos (abs_pos.2 h) 2; rw [sq_abs] at this; positivity
  have hr : 0 < √(C ^ 2 + S ^ 2) := Real.sqrt_pos.2 hpos
  obtain ⟨p1, p2⟩ := arctan2_polar S C
  obtain ⟨q1, q2⟩ := arctan2_polar (cos t * S + sin t * C) (cos t * C - sin t * S)
  have hcs := cos_sq_add_sin_sq t
  rw [show (cos t * C - sin t * S) ^ 2 + (cos t * S + sin t * C) ^ 2 = C ^ 2 + S ^ 2 by
    linear_combination (C ^ 2 + S ^ 2) * hcs] at q1 q2
  apply mul_left_cancel₀ hr.ne'
  rw [cos_sub, cos_sub, cos_add, sin_add]
  generalize √(C ^ 2 + S ^ 2) = r at *
  generalize arctan2 (cos t * S + sin t * C) (cos t * C - sin t * S) = w at *
  generalize arctan2 S C = u at *
  linear_combination (cos mu * cos t - sin mu * sin t) * q1 + (sin mu * cos t + cos mu * sin t) * q2 - cos mu * p1 -
    sin mu * p2 + (cos mu * C + sin mu * S) * hcs

/-- C101 is false for `von_mises_known_concentration`, whatever the prior and the data, unless they cancel: there is
another zero direction in which the posterior is a different one. -/
theorem C101_von_mises_known_concentration_false (kappa : ℝ) (hk : 0 < kappa) (prior : VonMisesKnownConcentration ℝ)
    (xs : List ℝ)
    (hne : ¬ (prior.a * cos prior.b + (xs.map cos).sum = 0 ∧ prior.a * sin prior.b + (xs.map sin).sum = 0)) :
    ∃ t, ¬ C101_von_mises_statement kappa prior xs t := by
  by_contra hall
  push Not at hall
  have ha : ∀ t, kappa * (prior.a * sin (prior.b + t) + ((xs.map (· + t)).map sin).sum) =
      kappa * (prior.a * sin prior.b + (xs.map sin).sum) := by
    intro t
    have h := hall t (von_mises_known_concentration (xs.map cos).sum (xs.map sin).sum (xs.length : ℝ) kappa prior sin cos
      arctan2).b
    rw [C101_von_mises_known_concentration_partial kappa prior xs t hne, sub_self, cos_zero, mul_one, mul_one] at h
    exact h
  have h1 := mul_left_cancel₀ hk.ne' (ha π)
  have h2 := mul_left_cancel₀ hk.ne' (ha (π / 2))
  rw [(sum_rotate xs π).2, sin_add_pi, cos_pi, sin_pi] at h1
  rw [(sum_rotate xs (π / 2)).2, sin_add_pi_div_two, cos_pi_div_two, sin_pi_div_two] at h2
  exact hne ⟨by linarith, by linarith⟩

/-- C101, `von_mises_known_direction`: the concentration's posterior does not depend on the zero direction. -/
theorem C101_von_mises_known_direction (prior : VonMisesKnownDirectionProportional ℝ) (xs : List ℝ) (mu t : ℝ) :
    von_mises_known_direction ((xs.map (· + t)).map fun x => cos (x - (mu + t))).sum ((xs.map (· + t)).length : ℝ) prior =
      von_mises_known_direction (xs.map fun x => cos (x - mu)).sum (xs.length : ℝ) prior := by
  have : ((xs.map (· + t)).map fun x => cos (x - (mu + t))) = xs.map fun x => cos (x - mu) := by
    rw [List.map_map]
    exact List.map_congr_left fun x _ => by simp only [Function.comp]; congr 1; ring
  rw [this, List.length_map]

/-! ## Examples -/

theorem exampleA_det : (!![2, 1; 0, 3] : Matrix (Fin 2) (Fin 2) ℝ).det ≠ 0 := by
  rw [det_fin_two_of]; norm_num

example := C101_multivariate_normal_known_covariance (prior := ⟨![0, 1], 1⟩) PosDef.one (conj_posDef exampleA_det PosDef.one)
  exampleA_det ![5, -1] ((MultivariateNormal.rescaled_iff PosDef.one (conj_posDef exampleA_det PosDef.one) exampleA_det _).2 rfl)
  (cov := 1) PosDef.one 3 ![4, 4]
example := C101_multivariate_normal_known_precision (prior := ⟨![0, 1], 1⟩) PosDef.one (conj_posDef exampleA_det PosDef.one)
  exampleA_det ![5, -1] ((MultivariateNormal.rescaled_iff PosDef.one (conj_posDef exampleA_det PosDef.one) exampleA_det _).2 rfl)
  (precision := 1) PosDef.one 3 ![4, 4]
example := C101_multivariate_normal_known_covariance_predictive (e := ⟨![0, 1], 1⟩) PosDef.one
  (conj_posDef exampleA_det PosDef.one) exampleA_det ![5, -1]
  ((MultivariateNormal.rescaled_iff PosDef.one (conj_posDef exampleA_det PosDef.one) exampleA_det _).2 rfl) 1
example := C101_multivariate_normal_known_mean (prior := ⟨4, 1⟩) (by norm_num) PosDef.one (by norm_num)
  (conj_posDef exampleA_det PosDef.one) exampleA_det ![5, -1]
  ((InverseWishart.rescaled_iff (by norm_num) PosDef.one (by norm_num) (conj_posDef exampleA_det PosDef.one) exampleA_det).2 rfl)
  (!![1, 2; 3, -1; 0, 5] : Matrix (Fin 3) (Fin 2) ℝ) ![1, 1]
example := C101_multivariate_normal (prior := ⟨![0, 1], 2, 4, 1⟩) (by norm_num) (by norm_num) PosDef.one (by norm_num)
  (by norm_num) (conj_posDef exampleA_det PosDef.one) exampleA_det ![5, -1]
  ((NormalInverseWishart.rescaled_iff (by norm_num) (by norm_num) PosDef.one (by norm_num) (by norm_num)
    (conj_posDef exampleA_det PosDef.one) exampleA_det _).2 rfl) (!![1, 2; 3, -1; 0, 5] : Matrix (Fin 3) (Fin 2) ℝ)
example := C101_multivariate_normal_predictive (e := ⟨![0, 1], 2, 4, 1⟩) (by norm_num) (by norm_num) PosDef.one (by norm_num)
  (by norm_num) (conj_posDef exampleA_det PosDef.one) exampleA_det ![5, -1]
  ((NormalInverseWishart.rescaled_iff (by norm_num) (by norm_num) PosDef.one (by norm_num) (by norm_num)
    (conj_posDef exampleA_det PosDef.one) exampleA_det _).2 rfl)
example := C101_linear_regression (prior := ⟨![0, 1], 2, 3, some 1, none⟩)
  (prior' := ⟨(2 • !![2, 1; 0, 3]⁻¹) *ᵥ ![0, 1], 2, 2 ^ 2 * 3, some ((2 ^ 2)⁻¹ • ((2 • !![2, 1; 0, 3]⁻¹) * 1 * (2 • !![2, 1; 0, 3]⁻¹)ᵀ)), none⟩)
  rfl rfl PosDef.one (by norm_num) (by norm_num) (posDef_smul (conj_posDef (det_smul_inv_ne exampleA_det two_ne_zero) PosDef.one) (by norm_num))
  (by norm_num) (by norm_num) exampleA_det two_ne_zero
  (nigNd_rescaled (det_smul_inv_ne exampleA_det two_ne_zero) (by norm_num) _ _ 1 rfl rfl rfl)
  (!![1, 2; 3, -1; 0, 5] : Matrix (Fin 3) (Fin 2) ℝ) ![1, 2, 3]
example := C101_linear_regression_predictive (e := ⟨![0, 1], 2, 3, some 1, none⟩)
  (e' := ⟨(2 • !![2, 1; 0, 3]⁻¹) *ᵥ ![0, 1], 2, 2 ^ 2 * 3, some ((2 ^ 2)⁻¹ • ((2 • !![2, 1; 0, 3]⁻¹) * 1 * (2 • !![2, 1; 0, 3]⁻¹)ᵀ)), none⟩)
  rfl rfl PosDef.one (by norm_num) (by norm_num) (posDef_smul (conj_posDef (det_smul_inv_ne exampleA_det two_ne_zero) PosDef.one) (by norm_num))
  (by norm_num) (by norm_num) exampleA_det two_ne_zero
  (nigNd_rescaled (det_smul_inv_ne exampleA_det two_ne_zero) (by norm_num) _ _ 1 rfl rfl rfl)
  (!![1, 2; 3, -1; 0, 5] : Matrix (Fin 3) (Fin 2) ℝ)
example : ∃ t, ¬ C101_von_mises_statement 2 ⟨1, 0⟩ [1] t :=
  C101_von_mises_known_concentration_false 2 two_pos ⟨1, 0⟩ [1] (by
    simp only [List.map_cons, List.map_nil, List.sum_cons, List.sum_nil, sin_zero, cos_zero]
    intro h
    have := h.1
    have := cos_one_pos
    linarith)

end Conj
