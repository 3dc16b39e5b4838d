import Verif.Lemmas.Bayes
import Verif.DistMap
import Mathlib.Probability.Distributions.Beta
import Mathlib.Probability.Distributions.Gaussian.Real
import Mathlib.MeasureTheory.Integral.Gamma

/-! Densities of the library's `.dist` objects in closed form, and their normalisation. -/

open MeasureTheory Set Real

namespace Conj

open Scipy Spec

/-! ### Beta -/

theorem betaFn_pos {a b : ℝ} (ha : 0 < a) (hb : 0 < b) : 0 < betaFn a b :=
  ProbabilityTheory.beta_pos ha hb

theorem Beta.pdf_eq (d : Beta ℝ) {p : ℝ} (hp : p ∈ Ioo (0 : ℝ) 1) :
    d.dist.pdf p = (betaFn d.alpha d.beta)⁻¹ * p ^ (d.alpha - 1) * (1 - p) ^ (d.beta - 1) := by
  simp only [Beta.dist, Cont.pdf, sub_zero, div_one, Family.std, betaFn]
  rw [if_pos ⟨hp.1.le, hp.2.le⟩, inv_div]

theorem Beta.isDensity (d : Beta ℝ) (ha : 0 < d.alpha) (hb : 0 < d.beta) :
    IsDensity volume (Ioo 0 1) d.dist.pdf := by
  apply isDensity_of_integral
  · intro p hp
    rw [Beta.pdf_eq d hp]
    have := betaFn_pos ha hb
    have h1 := rpow_nonneg hp.1.le (d.alpha - 1)
    have h2 := rpow_nonneg (sub_nonneg.2 hp.2.le) (d.beta - 1)
    positivity
  · have h := ProbabilityTheory.lintegral_betaPDF_eq_one ha hb
    rw [ProbabilityTheory.lintegral_betaPDF] at h
    have h0 : ∀ p ∈ Ioo (0 : ℝ) 1, d.dist.pdf p =
        1 / ProbabilityTheory.beta d.alpha d.beta * p ^ (d.alpha - 1) * (1 - p) ^ (d.beta - 1) := by
      intro p hp
      rw [Beta.pdf_eq d hp, one_div]; rfl
    rw [setIntegral_congr_fun measurableSet_Ioo h0, integral_eq_lintegral_of_nonneg_ae, h]
    · simp
    · filter_upwards [ae_restrict_mem measurableSet_Ioo] with p hp
      have := ProbabilityTheory.beta_pos ha hb
      have h1 := rpow_nonneg hp.1.le (d.alpha - 1)
      have h2 := rpow_nonneg (sub_nonneg.2 hp.2.le) (d.beta - 1)
      simp only [Pi.zero_apply]
      positivity
    · apply Measurable.aestronglyMeasurable
      fun_prop

/-! ### Gamma -/

theorem Gamma.pdf_eq (d : Gamma ℝ) (hb : 0 < d.beta) {x : ℝ} (hx : 0 < x) :
    d.dist.pdf x = d.beta ^ d.alpha / Real.Gamma d.alpha * x ^ (d.alpha - 1) * exp (-(d.beta * x)) := by
  simp only [Gamma.dist, Cont.pdf, sub_zero, Family.std]
  have h : x / (1 / d.beta) = d.beta * x := by field_simp
  rw [h, if_pos (by positivity), mul_rpow hb.le hx.le, rpow_sub_one hb.ne']
  field_simp

theorem integral_gamma_kernel {a b : ℝ} (ha : 0 < a) (hb : 0 < b) :
    ∫ x in Ioi (0 : ℝ), x ^ (a - 1) * exp (-(b * x)) = Real.Gamma a / b ^ a := by
  rw [Real.integral_rpow_mul_exp_neg_mul_Ioi ha hb, one_div, inv_rpow hb.le]
  field_simp

theorem Gamma.isDensity (d : Gamma ℝ) (ha : 0 < d.alpha) (hb : 0 < d.beta) :
    IsDensity volume (Ioi 0) d.dist.pdf := by
  have hG := Real.Gamma_pos_of_pos ha
  apply isDensity_of_integral
  · intro x (hx : 0 < x)
    rw [Gamma.pdf_eq d hb hx]
    positivity
  · rw [setIntegral_congr_fun measurableSet_Ioi (fun x hx => Gamma.pdf_eq d hb hx)]
    simp_rw [mul_assoc]
    rw [integral_const_mul, integral_gamma_kernel ha hb]
    have : 0 < d.beta ^ d.alpha := rpow_pos_of_pos hb _
    field_simp

/-! ### Inverse gamma -/

theorem InverseGamma.pdf_eq (d : InverseGamma ℝ) (hb : 0 < d.beta) {x : ℝ} (hx : 0 < x) :
    d.dist.pdf x =
      d.beta ^ d.alpha / Real.Gamma d.alpha * x ^ (-d.alpha - 1) * exp (-(d.beta / x)) := by
  simp only [InverseGamma.dist, Cont.pdf, sub_zero, Family.std]
  have h : 0 < x / d.beta := by positivity
  rw [if_pos h, div_rpow hx.le hb.le, rpow_sub_one hb.ne', rpow_neg hb.le]
  have e : -1 / (x / d.beta) = -(d.beta / x) := by field_simp
  rw [e]
  have : 0 < d.beta ^ d.alpha := rpow_pos_of_pos hb _
  field_simp

theorem integral_invgamma_kernel {a b : ℝ} (ha : 0 < a) (hb : 0 < b) :
    ∫ x in Ioi (0 : ℝ), x ^ (-a - 1) * exp (-(b / x)) = Real.Gamma a / b ^ a := by
  rw [← integral_gamma_kernel ha hb,
    ← integral_comp_rpow_Ioi (fun y => y ^ (a - 1) * exp (-(b * y))) (p := -1) (by norm_num)]
  apply setIntegral_congr_fun measurableSet_Ioi
  intro x (hx : 0 < x)
  simp only [smul_eq_mul, abs_neg, abs_one, one_mul]
  have h1 : x ^ (-1 : ℝ) = x⁻¹ := rpow_neg_one x
  rw [h1, inv_rpow hx.le, ← rpow_neg hx.le, ← mul_assoc, ← rpow_add hx, div_eq_mul_inv]
  ring_nf

theorem InverseGamma.isDensity (d : InverseGamma ℝ) (ha : 0 < d.alpha) (hb : 0 < d.beta) :
    IsDensity volume (Ioi 0) d.dist.pdf := by
  have hG := Real.Gamma_pos_of_pos ha
  apply isDensity_of_integral
  · intro x (hx : 0 < x)
    rw [InverseGamma.pdf_eq d hb hx]
    positivity
  · rw [setIntegral_congr_fun measurableSet_Ioi (fun x hx => InverseGamma.pdf_eq d hb hx)]
    simp_rw [mul_assoc]
    rw [integral_const_mul, integral_invgamma_kernel ha hb]
    have : 0 < d.beta ^ d.alpha := rpow_pos_of_pos hb _
    field_simp

/-! ### Normal -/

theorem Normal.pdf_eq (d : Normal ℝ) (hs : 0 < d.sigma) (x : ℝ) :
    d.dist.pdf x = 1 / (d.sigma * √(2 * π)) * exp (-(x - d.mu) ^ 2 / (2 * d.sigma ^ 2)) := by
  simp only [Normal.dist, Cont.pdf, Family.std]
  have : -((x - d.mu) / d.sigma) ^ 2 / 2 = -(x - d.mu) ^ 2 / (2 * d.sigma ^ 2) := by
    field_simp
  rw [this]
  field_simp

theorem Normal.pdf_eq_gaussian (d : Normal ℝ) (hs : 0 < d.sigma) :
    d.dist.pdf = ProbabilityTheory.gaussianPDFReal d.mu (Real.toNNReal (d.sigma ^ 2)) := by
  ext x
  rw [Normal.pdf_eq d hs, ProbabilityTheory.gaussianPDFReal_def]
  simp only [Real.coe_toNNReal _ (sq_nonneg d.sigma)]
  rw [Real.sqrt_mul (x := 2 * π) (by positivity) (d.sigma ^ 2), Real.sqrt_sq hs.le, one_div,
    mul_comm d.sigma]

theorem Normal.isDensity (d : Normal ℝ) (hs : 0 < d.sigma) :
    IsDensity volume univ d.dist.pdf := by
  apply isDensity_of_integral
  · intro x _
    rw [Normal.pdf_eq d hs]
    positivity
  · rw [Measure.restrict_univ, Normal.pdf_eq_gaussian d hs]
    apply ProbabilityTheory.integral_gaussianPDFReal_eq_one
    simp [hs.ne']

/-! ### Pareto -/

theorem Pareto.pdf_eq (d : Pareto ℝ) (hm : 0 < d.x_m) {x : ℝ} (hx : d.x_m ≤ x) :
    d.dist.pdf x = d.alpha * d.x_m ^ d.alpha / x ^ (d.alpha + 1) := by
  have hx0 : 0 < x := hm.trans_le hx
  simp only [Pareto.dist, Cont.pdf, sub_zero, Family.std]
  rw [if_pos ((one_le_div hm).2 hx), div_rpow hx0.le hm.le, rpow_add_one hm.ne']
  field_simp

theorem Pareto.pdf_eq_zero (d : Pareto ℝ) (hm : 0 < d.x_m) {x : ℝ} (hx : x < d.x_m) :
    d.dist.pdf x = 0 := by
  simp only [Pareto.dist, Cont.pdf, sub_zero, Family.std]
  rw [if_neg (by rw [one_le_div hm]; exact not_le.2 hx), zero_div]

theorem Pareto.isDensity_Ici (d : Pareto ℝ) (hm : 0 < d.x_m) (ha : 0 < d.alpha) :
    IsDensity volume (Ici d.x_m) d.dist.pdf := by
  apply isDensity_of_integral
  · intro x hx
    have hx0 : 0 < x := hm.trans_le hx
    rw [Pareto.pdf_eq d hm hx]
    positivity
  · have h : ∀ x ∈ Ici d.x_m, d.dist.pdf x =
        d.alpha * d.x_m ^ d.alpha * x ^ (-(d.alpha + 1)) := by
      intro x hx
      have hx0 : 0 < x := hm.trans_le hx
      rw [Pareto.pdf_eq d hm hx, rpow_neg hx0.le, div_eq_mul_inv]
    rw [setIntegral_congr_fun measurableSet_Ici h, integral_Ici_eq_integral_Ioi,
      integral_const_mul, integral_Ioi_rpow_of_lt (by linarith) hm]
    have : -(d.alpha + 1) + 1 = -d.alpha := by ring
    rw [this, rpow_neg hm.le]
    have : 0 < d.x_m ^ d.alpha := rpow_pos_of_pos hm _
    field_simp

theorem Pareto.isDensity (d : Pareto ℝ) (hm : 0 < d.x_m) (ha : 0 < d.alpha) :
    IsDensity volume (Ioi 0) d.dist.pdf := by
  have h := Pareto.isDensity_Ici d hm ha
  apply isDensity_of_integral
  · intro x _
    rcases lt_or_ge x d.x_m with hx | hx
    · rw [Pareto.pdf_eq_zero d hm hx]
    · exact h.1 x hx
  · rw [← h.2.2]
    apply setIntegral_eq_of_subset_of_forall_sdiff_eq_zero measurableSet_Ioi
    · intro x hx; exact hm.trans_le hx
    · intro x hx
      exact Pareto.pdf_eq_zero d hm (not_le.1 hx.2)

end Conj
