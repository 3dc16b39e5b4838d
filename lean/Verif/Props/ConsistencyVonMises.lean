import Verif.Lemmas.VonMisesLimit
import Verif.Props.Proportional
import Verif.Props.Consistency
import Mathlib.Analysis.Real.Pi.Bounds

/-!
# Learning the true direction (C88): von Mises data

The claim is false for half of the directions: the posterior then points the opposite way.
-/

open MeasureTheory Set Filter Topology

namespace Conj

open Scipy Spec

variable {Ω : Type} [MeasurableSpace Ω] {Q : Measure Ω}

theorem angleLaw_eq (k b : ℝ) : angleLaw k b =
    lawOn (Ioc (-Real.pi) Real.pi) (VonMises.dist { mu := b, kappa := k }).pdf := by
  have h1 : ∫ t in Ioc (-Real.pi) Real.pi, Real.exp (k * Real.cos (t - b)) = 2 * Real.pi * i0 k := by
    have h := angle_shift k b (g := fun _ => 1) (fun _ => rfl)
    simp only [mul_one] at h
    rw [h]
    have hc : Continuous fun s : ℝ => Real.exp (k * Real.cos s) := by fun_prop
    have hs := intervalIntegral.integral_add_adjacent_intervals (hc.intervalIntegrable (-Real.pi) 0)
      (hc.intervalIntegrable (μ := volume) 0 Real.pi)
    have hn := intervalIntegral.integral_comp_neg (a := -Real.pi) (b := 0) (fun s => Real.exp (k * Real.cos s))
    simp only [Real.cos_neg, neg_neg, neg_zero] at hn
    rw [← hs, hn, i0]
    have := Real.pi_pos.ne'
    field_simp
    ring
  have h2 : (VonMises.dist { mu := b, kappa := k }).pdf = fun θ => Real.exp (k * Real.cos (θ - b)) / (2 * Real.pi * i0 k) := by
    funext θ
    rw [VonMises.pdf_eq]
  rw [angleLaw, h1, h2]

theorem von_mises_averages {X : ℕ → Ω → ℝ} {kappa mu₀ : ℝ} (hk : 0 < kappa)
    (h : IIDFrom Q X (lawOn (Ioc (-Real.pi) Real.pi) (VonMises.dist { mu := mu₀, kappa := kappa }).pdf)) :
    ∃ A > 0, ∀ᵐ ω ∂Q,
      Tendsto (fun n : ℕ => (∑ i ∈ Finset.range n, Real.cos (X i ω)) / n) atTop (𝓝 (A * Real.cos mu₀)) ∧
      Tendsto (fun n : ℕ => (∑ i ∈ Finset.range n, Real.sin (X i ω)) / n) atTop (𝓝 (A * Real.sin mu₀)) := by
  rw [← angleLaw_eq] at h
  obtain ⟨A, hA, i1, i2, e1, e2⟩ := angle_moments hk mu₀
  refine ⟨A, hA, ?_⟩
  have h1 := iid_average h Real.measurable_cos i1
  have h2 := iid_average h Real.measurable_sin i2
  rw [e1] at h1
  rw [e2] at h2
  filter_upwards [h1, h2] with ω a b using ⟨a, b⟩

/-- C88. The field `b` of the posterior tends to the true direction, for every direction other than `π`. -/
theorem C88_von_mises_direction_field {X : ℕ → Ω → ℝ} (prior : VonMisesKnownConcentration ℝ) {kappa mu₀ : ℝ}
    (hk : 0 < kappa) (hm : |mu₀| < Real.pi)
    (h : IIDFrom Q X (lawOn (Ioc (-Real.pi) Real.pi) (VonMises.dist { mu := mu₀, kappa := kappa }).pdf)) :
    ∀ᵐ ω ∂Q, Tendsto (fun n : ℕ => (von_mises_known_concentration (∑ i ∈ Finset.range n, Real.cos (X i ω))
      (∑ i ∈ Finset.range n, Real.sin (X i ω)) (n : ℝ) kappa prior Real.sin Real.cos arctan2).b) atTop (𝓝 mu₀) := by
  obtain ⟨A, hA, hav⟩ := von_mises_averages hk h
  filter_upwards [hav] with ω ⟨h1, h2⟩
  exact tendsto_arctan2 hA hm (average_const_add h2) (average_const_add h1)

/-- the posterior after many observations: the field `a` tends to plus or minus infinity -/
theorem von_mises_limit {X : ℕ → Ω → ℝ} (prior : VonMisesKnownConcentration ℝ) {kappa mu₀ : ℝ}
    (hk : 0 < kappa)
    (h : IIDFrom Q X (lawOn (Ioc (-Real.pi) Real.pi) (VonMises.dist { mu := mu₀, kappa := kappa }).pdf)) :
    ∀ᵐ ω ∂Q,
      (0 < Real.sin mu₀ → Tendsto (fun n : ℕ => (von_mises_known_concentration (∑ i ∈ Finset.range n, Real.cos (X i ω))
        (∑ i ∈ Finset.range n, Real.sin (X i ω)) (n : ℝ) kappa prior Real.sin Real.cos arctan2).a) atTop atTop) ∧
      (Real.sin mu₀ < 0 → Tendsto (fun n : ℕ => -(von_mises_known_concentration (∑ i ∈ Finset.range n, Real.cos (X i ω))
        (∑ i ∈ Finset.range n, Real.sin (X i ω)) (n : ℝ) kappa prior Real.sin Real.cos arctan2).a) atTop atTop) := by
  obtain ⟨A, hA, hav⟩ := von_mises_averages hk h
  filter_upwards [hav] with ω ⟨h1, h2⟩
  have h3 := average_mul (c := kappa) (average_const_add (c := prior.a * Real.sin prior.b) h2)
  refine ⟨fun hs => atTop_of_average h3 (by positivity), fun hs => ?_⟩
  have h4 : Tendsto (fun n : ℕ => -(kappa * (prior.a * Real.sin prior.b + ∑ i ∈ Finset.range n, Real.sin (X i ω))) / (n : ℝ))
      atTop (𝓝 (-(kappa * (A * Real.sin mu₀)))) := by
    simpa only [neg_div] using h3.neg
  refine atTop_of_average h4 ?_
  have := mul_pos hk hA
  nlinarith

/-- C88 for directions between 0 and π: the posterior of the direction concentrates at the true direction. Missing:
directions outside this range, see `C88_von_mises_opposite`. -/
theorem C88_von_mises_known_concentration_partial {X : ℕ → Ω → ℝ} (prior : VonMisesKnownConcentration ℝ)
    {kappa mu₀ : ℝ} (hk : 0 < kappa) (h0 : 0 < mu₀) (hpi : mu₀ < Real.pi)
    (h : IIDFrom Q X (lawOn (Ioc (-Real.pi) Real.pi) (VonMises.dist { mu := mu₀, kappa := kappa }).pdf)) :
    ∀ᵐ ω ∂Q, ConcentratesAt (fun n : ℕ =>
      let post := von_mises_known_concentration (∑ i ∈ Finset.range n, Real.cos (X i ω))
        (∑ i ∈ Finset.range n, Real.sin (X i ω)) (n : ℝ) kappa prior Real.sin Real.cos arctan2
      lawOn (Ioc (-Real.pi) Real.pi) (VonMises.dist { mu := post.b, kappa := post.a }).pdf) mu₀ := by
  have hm : |mu₀| < Real.pi := by rwa [abs_of_pos h0]
  filter_upwards [C88_von_mises_direction_field prior hk hm h, von_mises_limit prior hk h] with ω hb ⟨ha, _⟩
  have := concentrates_angle hm (ha (Real.sin_pos_of_pos_of_lt_pi h0 hpi)) hb
  simpa only [angleLaw_eq] using this

/-- C88 is false for directions between -π and 0: the posterior concentrates at the opposite direction, because
the concentration it reports is `kappa` times the sum of the sines, which is negative. -/
theorem C88_von_mises_opposite {X : ℕ → Ω → ℝ} (prior : VonMisesKnownConcentration ℝ)
    {kappa mu₀ : ℝ} (hk : 0 < kappa) (h0 : mu₀ < 0) (hpi : -Real.pi < mu₀)
    (h : IIDFrom Q X (lawOn (Ioc (-Real.pi) Real.pi) (VonMises.dist { mu := mu₀, kappa := kappa }).pdf)) :
    ∀ᵐ ω ∂Q, ConcentratesAt (fun n : ℕ =>
      let post := von_mises_known_concentration (∑ i ∈ Finset.range n, Real.cos (X i ω))
        (∑ i ∈ Finset.range n, Real.sin (X i ω)) (n : ℝ) kappa prior Real.sin Real.cos arctan2
      lawOn (Ioc (-Real.pi) Real.pi) (VonMises.dist { mu := post.b, kappa := post.a }).pdf) (mu₀ + Real.pi) := by
  have hm : |mu₀| < Real.pi := by rw [abs_of_neg h0]; linarith
  have hm' : |mu₀ + Real.pi| < Real.pi := by rw [abs_of_pos (by linarith)]; linarith
  have hs : Real.sin mu₀ < 0 := Real.sin_neg_of_neg_of_neg_pi_lt h0 hpi
  filter_upwards [C88_von_mises_direction_field prior hk hm h, von_mises_limit prior hk h] with ω hb ⟨_, ha⟩
  have := concentrates_angle hm' (ha hs) (hb.add_const Real.pi)
  have e : ∀ k b : ℝ, angleLaw (-k) (b + Real.pi) = angleLaw k b := fun k b => by rw [← angle_neg, neg_neg]
  simpa only [e, angleLaw_eq] using this

example : ∃ (Q : Measure (ℕ → ℝ)) (X : ℕ → (ℕ → ℝ) → ℝ), IsProbabilityMeasure Q ∧
    IIDFrom Q X (lawOn (Ioc (-Real.pi) Real.pi) (VonMises.dist { mu := -1, kappa := 2 }).pdf) ∧
    ∀ᵐ ω ∂Q, ConcentratesAt (fun n : ℕ =>
      let post := von_mises_known_concentration (∑ i ∈ Finset.range n, Real.cos (X i ω))
        (∑ i ∈ Finset.range n, Real.sin (X i ω)) (n : ℝ) 2 ⟨1, -1⟩ Real.sin Real.cos arctan2
      lawOn (Ioc (-Real.pi) Real.pi) (VonMises.dist { mu := post.b, kappa := post.a }).pdf) (-1 + Real.pi) := by
  have := angle_prob 2 (-1)
  rw [angleLaw_eq] at this
  obtain ⟨Q, X, hQ, h⟩ := exists_iid (lawOn (Ioc (-Real.pi) Real.pi) (VonMises.dist { mu := -1, kappa := 2 }).pdf)
  exact ⟨Q, X, hQ, h, C88_von_mises_opposite _ two_pos (by norm_num) (by linarith [Real.pi_gt_three]) h⟩

example : ∃ (Q : Measure (ℕ → ℝ)) (X : ℕ → (ℕ → ℝ) → ℝ), IsProbabilityMeasure Q ∧
    IIDFrom Q X (lawOn (Ioc (-Real.pi) Real.pi) (VonMises.dist { mu := 1, kappa := 2 }).pdf) ∧
    ∀ᵐ ω ∂Q, ConcentratesAt (fun n : ℕ =>
      let post := von_mises_known_concentration (∑ i ∈ Finset.range n, Real.cos (X i ω))
        (∑ i ∈ Finset.range n, Real.sin (X i ω)) (n : ℝ) 2 ⟨1, 1⟩ Real.sin Real.cos arctan2
      lawOn (Ioc (-Real.pi) Real.pi) (VonMises.dist { mu := post.b, kappa := post.a }).pdf) 1 := by
  have := angle_prob 2 1
  rw [angleLaw_eq] at this
  obtain ⟨Q, X, hQ, h⟩ := exists_iid (lawOn (Ioc (-Real.pi) Real.pi) (VonMises.dist { mu := 1, kappa := 2 }).pdf)
  exact ⟨Q, X, hQ, h, C88_von_mises_known_concentration_partial _ two_pos one_pos (by linarith [Real.pi_gt_three]) h⟩

end Conj
