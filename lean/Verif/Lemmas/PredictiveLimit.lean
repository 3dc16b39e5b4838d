import Verif.Lemmas.ConcentrationJoint

/-! Averages of a likelihood over posteriors that concentrate. -/

open MeasureTheory Set Filter Topology

namespace Conj

open Scipy Spec

section
variable {Y : Type} [MeasurableSpace Y] [PseudoMetricSpace Y] [OpensMeasurableSpace Y] {post : ℕ → Measure Y} {y : Y}
  {S : Set Y} {g G : Y → ℝ} {L C : ℝ}

/-- the average of `g` tends to its limit at the point of concentration, if the averages of `g ^ 2` stay bounded -/
theorem expect_tendsto (hp : ∀ᶠ n in atTop, IsProbabilityMeasure (post n)) (hc : ConcentratesAt post y)
    (hS : ∀ᶠ n in atTop, ∀ᵐ θ ∂post n, θ ∈ S) (hg : ∀ᶠ n in atTop, Integrable g (post n))
    (hlim : Tendsto g (𝓝[S] y) (𝓝 L)) (hG : ∀ θ ∈ S, g θ ^ 2 ≤ G θ)
    (hC : ∀ᶠ n in atTop, Integrable G (post n) ∧ ∫ θ, G θ ∂post n ≤ C) :
    Tendsto (fun n => ∫ θ, g θ ∂post n) atTop (𝓝 L) := by
  rw [Metric.tendsto_nhds]
  intro ε hε
  obtain ⟨δ, hδ, hball⟩ := (Metric.tendsto_nhdsWithin_nhds.1 hlim) (ε / 4) (by positivity)
  set t : ℝ := ε / (4 * (|C| + 1)) with ht
  have htpos : 0 < t := by positivity
  set K : ℝ := 1 / t + |L| with hK
  have hKpos : 0 < K := by positivity
  have hfar := ConcentratesAt.compl hp hc hδ
  have hsmall : ∀ᶠ n in atTop, post n (Metric.ball y δ)ᶜ < ENNReal.ofReal (ε / (4 * K)) :=
    hfar.eventually_lt_const (by simpa using (by positivity : 0 < ε / (4 * K)))
  filter_upwards [hp, hS, hg, hC, hsmall] with n hpn hSn hgn hCn hsn
  have hreal : (post n).real (Metric.ball y δ)ᶜ < ε / (4 * K) := by
    rw [Measure.real, ← ENNReal.lt_ofReal_iff_toReal_lt (measure_ne_top _ _)]
    exact hsn
  have hsub : ∫ θ, g θ ∂post n - L = ∫ θ, (g θ - L) ∂post n := by
    rw [integral_sub hgn (integrable_const _)]; simp
  rw [Real.dist_eq, hsub]
  have hind : Integrable (fun θ => (Metric.ball y δ)ᶜ.indicator (fun _ => K) θ) (post n) :=
    (integrable_const K).indicator measurableSet_ball.compl
  have hfirst : Integrable (fun θ => ε / 4 + t * G θ) (post n) := (integrable_const _).add (hCn.1.const_mul t)
  have hbound : Integrable (fun θ => ε / 4 + t * G θ + (Metric.ball y δ)ᶜ.indicator (fun _ => K) θ) (post n) :=
    hfirst.add hind
  have hle : ∀ᵐ θ ∂post n, |g θ - L| ≤ ε / 4 + t * G θ + (Metric.ball y δ)ᶜ.indicator (fun _ => K) θ := by
    filter_upwards [hSn] with θ hθ
    have hsq := hG θ hθ
    have hG0 : 0 ≤ t * G θ := mul_nonneg htpos.le ((sq_nonneg _).trans hsq)
    by_cases hb : θ ∈ Metric.ball y δ
    · have := hball hθ hb
      rw [Real.dist_eq] at this
      rw [indicator_of_notMem (by simpa using hb)]
      linarith
    · rw [indicator_of_mem (by simpa using hb)]
      have h1 : |g θ| ≤ t * g θ ^ 2 + 1 / t := by
        have e : |g θ| * t ≤ (t * |g θ|) ^ 2 + 1 := by nlinarith [sq_nonneg (t * |g θ| - 1), abs_nonneg (g θ)]
        have e2 : t * g θ ^ 2 + 1 / t = ((t * |g θ|) ^ 2 + 1) / t := by
          rw [mul_pow, sq_abs]; field_simp
        rw [e2, le_div_iff₀ htpos]
        exact e
      have h2 : |g θ - L| ≤ |g θ| + |L| := abs_sub _ _
      have h3 : t * g θ ^ 2 ≤ t * G θ := mul_le_mul_of_nonneg_left hsq htpos.le
      rw [hK]
      linarith
  calc |∫ θ, (g θ - L) ∂post n| ≤ ∫ θ, |g θ - L| ∂post n := abs_integral_le_integral_abs
    _ ≤ ∫ θ, (ε / 4 + t * G θ + (Metric.ball y δ)ᶜ.indicator (fun _ => K) θ) ∂post n :=
        integral_mono_ae (hgn.sub (integrable_const _)).abs hbound hle
    _ = ε / 4 + t * ∫ θ, G θ ∂post n + K * (post n).real (Metric.ball y δ)ᶜ := by
        rw [integral_add hfirst hind,
          integral_add (integrable_const _) (hCn.1.const_mul t), integral_const_mul,
          integral_indicator_const _ measurableSet_ball.compl]
        simp [mul_comm]
    _ < ε := by
        have h1 : t * ∫ θ, G θ ∂post n ≤ ε / 4 := by
          have : t * ∫ θ, G θ ∂post n ≤ t * (|C| + 1) :=
            mul_le_mul_of_nonneg_left (hCn.2.trans ((le_abs_self C).trans (by linarith))) htpos.le
          have e : t * (|C| + 1) = ε / 4 := by rw [ht]; field_simp
          linarith
        have h2 : K * (post n).real (Metric.ball y δ)ᶜ < ε / 4 := by
          have := mul_lt_mul_of_pos_left hreal hKpos
          have e : K * (ε / (4 * K)) = ε / 4 := by field_simp
          linarith
        linarith

end

section
variable {X : Type} [MeasureSpace X] [PseudoMetricSpace X] [OpensMeasurableSpace X] {S : Set X} {f : ℕ → X → ℝ}
  {lik G : X → ℝ} {pred : ℕ → ℝ} {y : X} {L C : ℝ}

omit [PseudoMetricSpace X] [OpensMeasurableSpace X] in
/-- an expectation under a density is an integral against the law -/
theorem predictive_integral {f : X → ℝ} {pred : ℝ} (hS : MeasurableSet S) (hf : IsDensity volume S f)
    (h : IsPredictive volume S lik f pred) : Integrable lik (lawOn S f) ∧ ∫ x, lik x ∂lawOn S f = pred := by
  have hfm : AEMeasurable (fun x => Real.toNNReal (f x)) (volume.restrict S) :=
    hf.2.1.aestronglyMeasurable.aemeasurable.real_toNNReal
  have e : lawOn S f = (volume.restrict S).withDensity fun x => ((Real.toNNReal (f x) : NNReal) : ENNReal) := rfl
  have h' : ∀ x ∈ S, Real.toNNReal (f x) • lik x = lik x * f x := by
    intro x hx
    rw [NNReal.smul_def, Real.coe_toNNReal _ (hf.1 x hx), smul_eq_mul, mul_comm]
  constructor
  · rw [e, integrable_withDensity_iff_integrable_smul₀ hfm]
    exact h.1.congr ((ae_restrict_mem hS).mono fun x hx => (h' x hx).symm)
  · rw [e, integral_withDensity_eq_integral_smul₀ hfm, setIntegral_congr_fun hS h', h.2]

/-- predictive probabilities under concentrating posteriors, second moment of the likelihood bounded -/
theorem predictive_tendsto_of_moment (hS : MeasurableSet S) (hf : ∀ᶠ n in atTop, IsDensity volume S (f n))
    (hpred : ∀ᶠ n in atTop, IsPredictive volume S lik (f n) (pred n)) (hc : ConcentratesAt (fun n => lawOn S (f n)) y)
    (hlim : Tendsto lik (𝓝[S] y) (𝓝 L)) (hG : ∀ θ ∈ S, lik θ ^ 2 ≤ G θ)
    (hC : ∀ᶠ n in atTop, Integrable G (lawOn S (f n)) ∧ ∫ θ, G θ ∂lawOn S (f n) ≤ C) :
    Tendsto pred atTop (𝓝 L) := by
  have h := expect_tendsto (post := fun n => lawOn S (f n)) (hf.mono fun n h => lawOn_prob hS h) hc
    (Eventually.of_forall fun n => ae_lawOn_mem hS (f n))
    ((hf.and hpred).mono fun n h => (predictive_integral hS h.1 h.2).1) hlim hG hC
  refine h.congr' ?_
  filter_upwards [hf, hpred] with n h1 h2
  exact (predictive_integral hS h1 h2).2

/-- predictive probabilities under concentrating posteriors, bounded likelihood -/
theorem predictive_tendsto (hS : MeasurableSet S) (hf : ∀ᶠ n in atTop, IsDensity volume S (f n))
    (hpred : ∀ᶠ n in atTop, IsPredictive volume S lik (f n) (pred n)) (hc : ConcentratesAt (fun n => lawOn S (f n)) y)
    (hlim : Tendsto lik (𝓝[S] y) (𝓝 L)) (hC : ∀ θ ∈ S, |lik θ| ≤ C) :
    Tendsto pred atTop (𝓝 L) := by
  refine predictive_tendsto_of_moment (G := fun _ => C ^ 2) (C := C ^ 2) hS hf hpred hc hlim (fun θ hθ => ?_) ?_
  · rw [← sq_abs]
    exact pow_le_pow_left₀ (abs_nonneg _) (hC θ hθ) 2
  · filter_upwards [hf] with n hn
    have := lawOn_prob hS hn
    exact ⟨integrable_const _, by simp⟩

end

end Conj
