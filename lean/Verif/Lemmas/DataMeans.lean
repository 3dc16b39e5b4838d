import Verif.Lemmas.DiscreteMeans
import Mathlib.MeasureTheory.Function.JacobianOneDim

/-! Means of the sufficient statistics under the continuous families. -/

open MeasureTheory Set Filter Topology ProbabilityTheory

set_option linter.unusedSectionVars false

namespace Conj

open Scipy Spec

/-- change of variables on the line -/
theorem lawOn_map {S S' : Set ℝ} {φ φ' f g : ℝ → ℝ} (hS : MeasurableSet S) (hm : Measurable φ)
    (hd : ∀ t ∈ S, HasDerivAt φ (φ' t) t) (hi : InjOn φ S) (him : φ '' S = S')
    (hfg : ∀ t ∈ S, f t = |φ' t| * g (φ t)) : (lawOn S f).map φ = lawOn S' g := by
  ext A hA
  have hSA : MeasurableSet (S ∩ φ ⁻¹' A) := hS.inter (hm hA)
  have e : A ∩ S' = φ '' (S ∩ φ ⁻¹' A) := by
    rw [image_inter_preimage, him, inter_comm]
  rw [Measure.map_apply hm hA, lawOn, lawOn, withDensity_apply _ (hm hA), withDensity_apply _ hA,
    Measure.restrict_restrict (hm hA), Measure.restrict_restrict hA, e,
    lintegral_image_eq_lintegral_abs_deriv_mul hSA (fun t ht => (hd t ht.1).hasDerivWithinAt)
      (hi.mono inter_subset_left), inter_comm]
  refine setLIntegral_congr_fun hSA fun t ht => ?_
  rw [hfg t ht.1, ENNReal.ofReal_mul (abs_nonneg _)]

theorem expect_map {μ : Measure ℝ} {φ T U : ℝ → ℝ} {c : ℝ} (hφ : Measurable φ) (hT : Measurable T)
    (h : ∀ᵐ t ∂μ, T (φ t) = U t) (hU : Integrable U μ ∧ ∫ t, U t ∂μ = c) :
    Integrable T (μ.map φ) ∧ ∫ x, T x ∂μ.map φ = c := by
  constructor
  · rw [integrable_map_measure hT.aestronglyMeasurable hφ.aemeasurable]
    exact hU.1.congr (h.mono fun t ht => ht.symm)
  · rw [integral_map hφ.aemeasurable hT.aestronglyMeasurable, integral_congr_ae h, hU.2]

/-! ## Gamma, inverse gamma, exponential -/

theorem gamma_prob {a b : ℝ} (ha : 0 < a) (hb : 0 < b) : IsProbabilityMeasure (contLaw (Gamma.dist ⟨a, b⟩)) := by
  rw [gamma_lawOn _ hb]; exact lawOn_prob measurableSet_Ioi (Gamma.isDensity _ ha hb)

theorem gamma_expect {a b : ℝ} (ha : 0 < a) (hb : 0 < b) :
    Integrable (fun x => x) (contLaw (Gamma.dist ⟨a, b⟩)) ∧ ∫ x, x ∂contLaw (Gamma.dist ⟨a, b⟩) = a / b := by
  rw [gamma_lawOn _ hb]
  exact mean_of_tilt measurableSet_Ioi (Gamma.isDensity ⟨a, b⟩ ha hb)
    (Gamma.isDensity ⟨a + 1, b⟩ (by simp only; positivity) hb) fun x hx => Gamma.tilt ⟨a, b⟩ ha hb hx

theorem gamma_pos {a b : ℝ} (hb : 0 < b) : ∀ᵐ x ∂contLaw (Gamma.dist ⟨a, b⟩), 0 < x := by
  rw [gamma_lawOn _ hb]; exact ae_lawOn_mem measurableSet_Ioi _

theorem invgamma_prob {a b : ℝ} (ha : 0 < a) (hb : 0 < b) :
    IsProbabilityMeasure (contLaw (InverseGamma.dist ⟨a, b⟩)) := by
  rw [invgamma_lawOn _ hb]; exact lawOn_prob measurableSet_Ioi (InverseGamma.isDensity _ ha hb)

theorem invgamma_pos {a b : ℝ} (hb : 0 < b) : ∀ᵐ x ∂contLaw (InverseGamma.dist ⟨a, b⟩), 0 < x := by
  rw [invgamma_lawOn _ hb]; exact ae_lawOn_mem measurableSet_Ioi _

theorem invgamma_recip_expect {a b : ℝ} (ha : 0 < a) (hb : 0 < b) :
    Integrable (fun x => 1 / x) (contLaw (InverseGamma.dist ⟨a, b⟩)) ∧
    ∫ x, 1 / x ∂contLaw (InverseGamma.dist ⟨a, b⟩) = a / b := by
  rw [invgamma_lawOn _ hb]
  refine mean_of_tilt measurableSet_Ioi (InverseGamma.isDensity ⟨a, b⟩ ha hb)
    (InverseGamma.isDensity ⟨a + 1, b⟩ (by simp only; positivity) hb) fun x hx => ?_
  have hx : 0 < x := hx
  have h := InverseGamma.tilt ⟨a + 1, b⟩ (by simp only; linarith) hb hx
  simp only [add_sub_cancel_right] at h
  have h' : (InverseGamma.dist ⟨a, b⟩).pdf x = a / b * (x * (InverseGamma.dist ⟨a + 1, b⟩).pdf x) := by
    rw [h]; field_simp
  rw [h']; field_simp

theorem exponential_as_gamma {s : ℝ} (hs : 0 < s) :
    contLaw (Exponential.dist ⟨s⟩) = contLaw (Gamma.dist ⟨1, 1 / s⟩) := by
  rw [gamma_lawOn _ (by positivity)]
  rw [contLaw_eq_lawOn _ measurableSet_Ioi (S := Ioi 0)]
  · refine lawOn_congr measurableSet_Ioi fun x hx => ?_
    have hx : 0 < x := hx
    rw [Exponential.pdf_eq s hs hx.le, Gamma.pdf_eq _ (by positivity) hx]
    simp
    field_simp
  · filter_upwards [Measure.ae_ne volume (0 : ℝ)] with x h0 hx
    have hx' : x < 0 := lt_of_le_of_ne (not_lt.1 hx) h0
    simp only [Exponential.dist, Cont.pdf, Family.std, sub_zero]
    rw [if_neg (not_le.2 (div_neg_of_neg_of_pos hx' hs)), zero_div]

/-! ## Pareto, Weibull -/

theorem pareto_law {m a : ℝ} (hm : 0 < m) (ha : 0 < a) :
    contLaw (Pareto.dist ⟨m, a⟩) = (contLaw (Gamma.dist ⟨1, a⟩)).map fun t => m * Real.exp t := by
  rw [gamma_lawOn _ ha, lawOn_map (S' := Ioi m) (φ' := fun t => m * Real.exp t) (g := (Pareto.dist ⟨m, a⟩).pdf)
    measurableSet_Ioi (by fun_prop)]
  · refine contLaw_eq_lawOn _ measurableSet_Ioi ?_
    filter_upwards [Measure.ae_ne volume m] with x h0 hx
    exact Pareto.pdf_eq_zero _ hm (lt_of_le_of_ne (not_lt.1 hx) h0)
  · exact fun t _ => (Real.hasDerivAt_exp t).const_mul m
  · intro x _ y _ h
    exact Real.exp_injective (mul_left_cancel₀ hm.ne' h)
  · ext x
    constructor
    · rintro ⟨t, ht, rfl⟩
      exact lt_mul_of_one_lt_right hm (Real.one_lt_exp_iff.2 ht)
    · intro hx
      have hx : m < x := hx
      refine ⟨Real.log (x / m), Real.log_pos ((one_lt_div hm).2 hx), ?_⟩
      simp only
      rw [Real.exp_log (div_pos (hm.trans hx) hm)]
      field_simp
  · intro t ht
    have ht : 0 < t := ht
    have h1 : m ≤ m * Real.exp t := le_mul_of_one_le_right hm.le (Real.one_le_exp ht.le)
    rw [Gamma.pdf_eq _ ha ht, Pareto.pdf_eq ⟨m, a⟩ hm h1, abs_of_pos (by positivity)]
    simp only [sub_self, Real.rpow_zero, Real.rpow_one, Real.Gamma_one, mul_one, div_one]
    rw [Real.rpow_add (by positivity), Real.rpow_one, Real.mul_rpow hm.le (Real.exp_pos t).le, ← Real.exp_mul,
      Real.exp_neg, mul_comm t a]
    have := Real.exp_pos (a * t)
    have := Real.rpow_pos_of_pos hm a
    field_simp

theorem pareto_prob {m a : ℝ} (hm : 0 < m) (ha : 0 < a) : IsProbabilityMeasure (contLaw (Pareto.dist ⟨m, a⟩)) := by
  rw [pareto_law hm ha]
  have := gamma_prob one_pos ha
  exact Measure.isProbabilityMeasure_map (by fun_prop)

theorem pareto_ge {m a : ℝ} (hm : 0 < m) (ha : 0 < a) : ∀ᵐ x ∂contLaw (Pareto.dist ⟨m, a⟩), m ≤ x := by
  rw [pareto_law hm ha, ae_map_iff (by fun_prop) measurableSet_Ici]
  filter_upwards [gamma_pos ha] with t ht
  exact le_mul_of_one_le_right hm.le (Real.one_le_exp ht.le)

theorem pareto_log_expect {m a : ℝ} (hm : 0 < m) (ha : 0 < a) :
    Integrable Real.log (contLaw (Pareto.dist ⟨m, a⟩)) ∧
    ∫ x, Real.log x ∂contLaw (Pareto.dist ⟨m, a⟩) = Real.log m + 1 / a := by
  rw [pareto_law hm ha]
  have hp := gamma_prob one_pos ha
  have hg := gamma_expect one_pos ha
  refine expect_map (U := fun t => Real.log m + t) (by fun_prop) Real.measurable_log (Eventually.of_forall fun t => ?_)
    ⟨(integrable_const _).add hg.1, ?_⟩
  · rw [Real.log_mul hm.ne' (Real.exp_pos t).ne', Real.log_exp]
  · rw [integral_add (integrable_const _) hg.1, hg.2, integral_const]
    simp

theorem weibull_law {k θ : ℝ} (hk : 0 < k) (hθ : 0 < θ) :
    contLaw (Weibull.dist ⟨k, θ⟩) = (contLaw (Gamma.dist ⟨1, 1 / θ⟩)).map fun t => t ^ (1 / k) := by
  rw [gamma_lawOn _ (by positivity), lawOn_map (S' := Ioi 0) (φ' := fun t => 1 / k * t ^ (1 / k - 1))
    (g := (Weibull.dist ⟨k, θ⟩).pdf) measurableSet_Ioi (by fun_prop)]
  · refine contLaw_eq_lawOn _ measurableSet_Ioi ?_
    filter_upwards [Measure.ae_ne volume (0 : ℝ)] with x h0 hx
    have hx' : x < 0 := lt_of_le_of_ne (not_lt.1 hx) h0
    simp only [Weibull.dist, Cont.pdf, Family.std, sub_zero]
    rw [if_neg (not_le.2 (div_neg_of_neg_of_pos hx' (by positivity))), zero_div]
  · intro t ht
    exact Real.hasDerivAt_rpow_const (Or.inl (ne_of_gt ht))
  · intro x hx y hy h
    exact (Real.rpow_left_inj (le_of_lt hx) (le_of_lt hy) (by positivity)).1 h
  · ext x
    constructor
    · rintro ⟨t, ht, rfl⟩
      exact Real.rpow_pos_of_pos ht _
    · intro hx
      have hx : 0 < x := hx
      refine ⟨x ^ k, Real.rpow_pos_of_pos hx _, ?_⟩
      simp only
      rw [← Real.rpow_mul hx.le, mul_one_div_cancel hk.ne', Real.rpow_one]
  · intro t ht
    have ht : 0 < t := ht
    rw [Gamma.pdf_eq _ (by positivity) ht, Weibull.pdf_eq k θ hk hθ (Real.rpow_pos_of_pos ht _), abs_of_pos (by positivity)]
    simp only [sub_self, Real.rpow_zero, Real.rpow_one, Real.Gamma_one, mul_one, div_one]
    rw [← Real.rpow_mul ht.le, ← Real.rpow_mul ht.le, one_div_mul_cancel hk.ne', Real.rpow_one]
    have e : t ^ (1 / k - 1) * t ^ (1 / k * (k - 1)) = 1 := by
      rw [← Real.rpow_add ht, show 1 / k - 1 + 1 / k * (k - 1) = 0 by field_simp; ring, Real.rpow_zero]
    rw [show 1 / k * t ^ (1 / k - 1) * (k * t ^ (1 / k * (k - 1)) / θ * Real.exp (-(t / θ))) =
      (t ^ (1 / k - 1) * t ^ (1 / k * (k - 1))) * (1 / θ * Real.exp (-(t / θ))) by field_simp, e, one_mul]
    congr 3
    ring

theorem weibull_prob {k θ : ℝ} (hk : 0 < k) (hθ : 0 < θ) : IsProbabilityMeasure (contLaw (Weibull.dist ⟨k, θ⟩)) := by
  rw [weibull_law hk hθ]
  have := gamma_prob one_pos (one_div_pos.2 hθ)
  exact Measure.isProbabilityMeasure_map (by fun_prop)

theorem weibull_pos {k θ : ℝ} (hk : 0 < k) (hθ : 0 < θ) : ∀ᵐ x ∂contLaw (Weibull.dist ⟨k, θ⟩), 0 < x := by
  rw [weibull_law hk hθ, ae_map_iff (by fun_prop) measurableSet_Ioi]
  filter_upwards [gamma_pos (a := 1) (one_div_pos.2 hθ)] with t ht
  exact Real.rpow_pos_of_pos ht _

theorem weibull_pow_expect {k θ : ℝ} (hk : 0 < k) (hθ : 0 < θ) :
    Integrable (fun x => x ^ k) (contLaw (Weibull.dist ⟨k, θ⟩)) ∧
    ∫ x, x ^ k ∂contLaw (Weibull.dist ⟨k, θ⟩) = θ := by
  rw [weibull_law hk hθ]
  have hg := gamma_expect one_pos (one_div_pos.2 hθ)
  refine expect_map (U := fun t => t) (by fun_prop) (by fun_prop) ?_ ⟨hg.1, by rw [hg.2, one_div_one_div]⟩
  filter_upwards [gamma_pos (a := 1) (one_div_pos.2 hθ)] with t ht
  rw [← Real.rpow_mul ht.le, one_div_mul_cancel hk.ne', Real.rpow_one]

/-! ## Normal -/

theorem normal_prob (m : ℝ) {s : ℝ} (hs : 0 < s) : IsProbabilityMeasure (contLaw (Normal.dist ⟨m, s⟩)) := by
  rw [normal_law m hs]; infer_instance

theorem normal_expect (m : ℝ) {s : ℝ} (hs : 0 < s) :
    Integrable (fun x => x) (contLaw (Normal.dist ⟨m, s⟩)) ∧ ∫ x, x ∂contLaw (Normal.dist ⟨m, s⟩) = m := by
  rw [normal_law m hs]
  exact ⟨(memLp_id_gaussianReal 1).integrable le_rfl, integral_id_gaussianReal⟩

theorem normal_expect_sq (m : ℝ) {s : ℝ} (hs : 0 < s) :
    Integrable (fun x => x ^ 2) (contLaw (Normal.dist ⟨m, s⟩)) ∧
    ∫ x, x ^ 2 ∂contLaw (Normal.dist ⟨m, s⟩) = s ^ 2 + m ^ 2 := by
  rw [normal_law m hs]
  have h2 : MemLp (fun x : ℝ => x) 2 (gaussianReal m (Real.toNNReal (s ^ 2))) := memLp_id_gaussianReal 2
  refine ⟨h2.integrable_sq, ?_⟩
  have hv := variance_eq_sub h2
  have hm : ∫ x, x ∂gaussianReal m (Real.toNNReal (s ^ 2)) = m := integral_id_gaussianReal
  rw [hm, variance_fun_id_gaussianReal, Real.coe_toNNReal _ (sq_nonneg s)] at hv
  have : ∫ x, x ^ 2 ∂gaussianReal m (Real.toNNReal (s ^ 2)) = s ^ 2 + m ^ 2 := by
    have e : (fun x : ℝ => x) ^ 2 = fun x => x ^ 2 := rfl
    rw [e] at hv
    linarith
  exact this

end Conj
