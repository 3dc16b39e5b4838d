import Verif.Spec

/-! Helper lemmas turning normalisation + algebra into the specifications of `Verif/Spec.lean`. -/

open MeasureTheory

namespace Conj.Spec

variable {Θ : Type*} [MeasurableSpace Θ] {μ : Measure Θ} {S : Set Θ}

theorem isDensity_of_integral {f : Θ → ℝ} (h0 : ∀ θ ∈ S, 0 ≤ f θ)
    (h1 : ∫ θ in S, f θ ∂μ = 1) : IsDensity μ S f := by
  refine ⟨h0, ?_, h1⟩
  by_contra h
  have := integral_undef h
  rw [h1] at this
  exact one_ne_zero this

theorem IsPosterior.of_density (hS : MeasurableSet S) {prior lik post : Θ → ℝ}
    (hd : IsDensity μ S post) {c : ℝ} (hc : 0 < c)
    (h : ∀ θ ∈ S, prior θ * lik θ = c * post θ) : IsPosterior μ S prior lik post := by
  have hi : ∫ θ in S, prior θ * lik θ ∂μ = c := by
    rw [setIntegral_congr_fun hS h, integral_const_mul, hd.2.2, mul_one]
  refine ⟨by rw [hi]; exact hc, fun θ hθ => ?_⟩
  rw [hi, h θ hθ]
  field_simp

theorem IsPredictive.of_density (hS : MeasurableSet S) {lik dens dens' : Θ → ℝ}
    (hd : IsDensity μ S dens') {c : ℝ}
    (h : ∀ θ ∈ S, lik θ * dens θ = c * dens' θ) : IsPredictive μ S lik dens c := by
  refine ⟨?_, ?_⟩
  · rw [integrableOn_congr_fun h hS]
    exact hd.2.1.const_mul c
  · rw [setIntegral_congr_fun hS h, integral_const_mul, hd.2.2, mul_one]

/-- A posterior in the sense of `IsPosterior` integrates to one. -/
theorem IsPosterior.integral_eq_one (hS : MeasurableSet S) {prior lik post : Θ → ℝ}
    (h : IsPosterior μ S prior lik post) : ∫ θ in S, post θ ∂μ = 1 := by
  rw [setIntegral_congr_fun hS h.2]
  simp only [div_eq_mul_inv]
  rw [integral_mul_const]
  exact mul_inv_cancel₀ h.1.ne'

/-- Bayes posteriors are unique on the parameter set. -/
theorem IsPosterior.unique {prior lik post post' : Θ → ℝ}
    (h : IsPosterior μ S prior lik post) (h' : IsPosterior μ S prior lik post') :
    ∀ θ ∈ S, post θ = post' θ := fun θ hθ => (h.2 θ hθ).trans (h'.2 θ hθ).symm

end Conj.Spec
