import Verif.Lemmas.LogConcave
import Verif.Lemmas.Gibbs
import Mathlib.Analysis.Convex.Topology

/-!
# Integrable log-concave kernels have all polynomial moments
-/

open MeasureTheory Set Filter Topology

namespace Conj

open Scipy Spec

variable {E : Type} [NormedAddCommGroup E] [NormedSpace ℝ E] [FiniteDimensional ℝ E] [MeasureSpace E] [BorelSpace E]
  [(volume : Measure E).IsAddHaarMeasure]

/-- a convex set that contains a ball and points arbitrarily far away has infinite volume -/
theorem convex_volume_top {A : Set E} (hA : Convex ℝ A) {x₀ : E} {d : ℝ} (hd : 0 < d) (hball : Metric.ball x₀ d ⊆ A)
    (hfar : ∀ R : ℝ, ∃ x ∈ A, R ≤ ‖x - x₀‖) : volume A = ⊤ := by
  have hb : 0 < volume (Metric.ball (0 : E) (d / 2)) := Metric.measure_ball_pos volume 0 (by positivity)
  have hN : ∀ N : ℕ, (N : ENNReal) * volume (Metric.ball (0 : E) (d / 2)) ≤ volume A := by
    intro N
    obtain ⟨x, hx, hR⟩ := hfar (2 * d * (N + 1))
    have hr : 0 < ‖x - x₀‖ := lt_of_lt_of_le (by positivity) hR
    set c : ℕ → E := fun i => x₀ + (i * d / ‖x - x₀‖) • (x - x₀) with hc
    have hsub : (⋃ i ∈ Finset.range N, Metric.ball (c i) (d / 2)) ⊆ A := by
      intro z hz
      simp only [mem_iUnion, Finset.mem_range, exists_prop] at hz
      obtain ⟨i, hi, hz⟩ := hz
      set t : ℝ := i * d / ‖x - x₀‖ with ht
      have ht0 : 0 ≤ t := by positivity
      have ht1 : t ≤ 1 / 2 := by
        rw [ht, div_le_iff₀ hr]
        have : (i : ℝ) ≤ N := by exact_mod_cast hi.le
        nlinarith
      have h1t : 0 < 1 - t := by linarith
      have hw : x₀ + (1 - t)⁻¹ • (z - c i) ∈ A := by
        refine hball ?_
        rw [mem_ball_iff_norm, add_sub_cancel_left, norm_smul, Real.norm_of_nonneg (inv_nonneg.2 h1t.le)]
        have h2 : ‖z - c i‖ < d / 2 := mem_ball_iff_norm.1 hz
        have h3 : (1 - t)⁻¹ ≤ 2 := by
          rw [inv_le_comm₀ h1t two_pos]
          linarith
        calc (1 - t)⁻¹ * ‖z - c i‖ ≤ 2 * ‖z - c i‖ := mul_le_mul_of_nonneg_right h3 (norm_nonneg _)
          _ < d := by linarith
      have := hA hw hx h1t.le ht0 (by ring)
      have e : (1 - t) • (x₀ + (1 - t)⁻¹ • (z - c i)) + t • x = z := by
        rw [smul_add, smul_smul, mul_inv_cancel₀ h1t.ne', one_smul, hc]
        simp only [← ht]
        rw [sub_smul, one_smul, smul_sub]
        abel
      rwa [e] at this
    have hdisj : PairwiseDisjoint (↑(Finset.range N)) fun i => Metric.ball (c i) (d / 2) := by
      intro i _ j _ hij
      refine Metric.ball_disjoint_ball ?_
      rw [dist_eq_norm, hc]
      have e : x₀ + ((i : ℝ) * d / ‖x - x₀‖) • (x - x₀) - (x₀ + ((j : ℝ) * d / ‖x - x₀‖) • (x - x₀)) =
          (((i : ℝ) - j) * d / ‖x - x₀‖) • (x - x₀) := by
        rw [sub_mul, sub_div, sub_smul]
        abel
      rw [e, norm_smul, Real.norm_eq_abs, abs_div, abs_of_pos hr, div_mul_cancel₀ _ hr.ne', abs_mul, abs_of_pos hd]
      have h1 : (1 : ℝ) ≤ |(i : ℝ) - j| := by
        have : (1 : ℤ) ≤ |(i : ℤ) - j| := Int.one_le_abs (sub_ne_zero.2 (by exact_mod_cast hij))
        exact_mod_cast this
      nlinarith
    calc (N : ENNReal) * volume (Metric.ball (0 : E) (d / 2))
        = ∑ i ∈ Finset.range N, volume (Metric.ball (c i) (d / 2)) := by
          rw [Finset.sum_congr rfl fun i _ => Measure.addHaar_ball_center volume (c i) (d / 2)]
          simp
      _ = volume (⋃ i ∈ Finset.range N, Metric.ball (c i) (d / 2)) :=
          (measure_biUnion_finset hdisj fun i _ => measurableSet_ball).symm
      _ ≤ volume A := measure_mono hsub
  by_contra hfin
  obtain ⟨N, hN'⟩ := ENNReal.exists_nat_mul_gt hb.ne' hfin
  exact absurd (hN N) (not_le.2 hN')

/-- an integrable log-concave function decays exponentially -/
theorem concave_decay {U : Set E} (hU : IsOpen U) {H : E → ℝ} (hc : ConcaveOn ℝ U H) (hcont : ContinuousOn H U) {x₀ : E}
    (hx0 : x₀ ∈ U) (hint : IntegrableOn (fun x => Real.exp (H x)) U) :
    ∃ R > 0, ∀ x ∈ U, R ≤ ‖x - x₀‖ → H x ≤ H x₀ - ‖x - x₀‖ / R := by
  have hAm : Convex ℝ {x | x ∈ U ∧ H x₀ - 1 ≤ H x} := hc.convex_ge _
  have hAfin : volume {x | x ∈ U ∧ H x₀ - 1 ≤ H x} ≠ ⊤ := by
    intro htop
    have hmeas : AEMeasurable (fun x => Real.exp (H x)) (volume.restrict U) :=
      hint.aestronglyMeasurable.aemeasurable
    have h1 : ∫⁻ x in U, ENNReal.ofReal (Real.exp (H x)) < ⊤ := hint.lintegral_lt_top
    have h2 := meas_ge_le_lintegral_div (μ := volume.restrict U) hmeas.ennreal_ofReal
      (ε := ENNReal.ofReal (Real.exp (H x₀ - 1))) (ENNReal.ofReal_pos.2 (Real.exp_pos _)).ne' ENNReal.ofReal_ne_top
    have h3 : {x | x ∈ U ∧ H x₀ - 1 ≤ H x} =
        {x | ENNReal.ofReal (Real.exp (H x₀ - 1)) ≤ ENNReal.ofReal (Real.exp (H x))} ∩ U := by
      ext x
      simp only [mem_setOf_eq, mem_inter_iff, ENNReal.ofReal_le_ofReal_iff (Real.exp_pos _).le, Real.exp_le_exp]
      tauto
    have h4 := Measure.le_restrict_apply (μ := volume) U
      {x | ENNReal.ofReal (Real.exp (H x₀ - 1)) ≤ ENNReal.ofReal (Real.exp (H x))}
    rw [← h3, htop] at h4
    have h5 := h4.trans h2
    rw [top_le_iff] at h5
    exact (ENNReal.div_lt_top h1.ne (ENNReal.ofReal_pos.2 (Real.exp_pos _)).ne').ne h5
  obtain ⟨d, hd, hdU⟩ : ∃ d > 0, Metric.ball x₀ d ⊆ {x | x ∈ U ∧ H x₀ - 1 ≤ H x} := by
    have hn : {x | x ∈ U ∧ H x₀ - 1 ≤ H x} ∈ 𝓝 x₀ := by
      filter_upwards [hU.mem_nhds hx0, (hcont.continuousAt (hU.mem_nhds hx0)).eventually
        (lt_mem_nhds (show H x₀ - 1 < H x₀ by linarith))] with x h1 h2 using ⟨h1, h2.le⟩
    exact Metric.mem_nhds_iff.1 hn
  have hb : ∃ R : ℝ, ∀ x ∈ {x | x ∈ U ∧ H x₀ - 1 ≤ H x}, ‖x - x₀‖ < R := by
    by_contra hcon
    push Not at hcon
    exact hAfin (convex_volume_top hAm hd hdU hcon)
  obtain ⟨R, hR⟩ := hb
  have hR0 : 0 < R := by
    have := hR x₀ ⟨hx0, by linarith⟩
    rwa [sub_self, norm_zero] at this
  refine ⟨R, hR0, fun x hx hxR => ?_⟩
  have := concave_outside hc (a := 1) hR0 hx0 (fun y hy hyU => ?_) hx hxR
  · rwa [one_mul] at this
  · by_contra hcon
    have := hR y ⟨hyU, by linarith⟩
    rw [mem_sphere_iff_norm] at hy
    linarith

/-- an integrable log-concave function stays integrable after multiplication by a function of polynomial growth -/
theorem concave_poly {U : Set E} (hU : IsOpen U) {H : E → ℝ} (hc : ConcaveOn ℝ U H) (hcont : ContinuousOn H U) {x₀ : E}
    (hx0 : x₀ ∈ U) (hint : IntegrableOn (fun x => Real.exp (H x)) U) {L : E → ℝ} (hL : ContinuousOn L U) {C : ℝ} {m : ℕ}
    (hb : ∀ x ∈ U, |L x| ≤ C * (1 + ‖x‖) ^ m) : IntegrableOn (fun x => Real.exp (H x) * L x) U := by
  obtain ⟨R, hR, hdec⟩ := concave_decay hU hc hcont hx0 hint
  have hC : 0 ≤ C := by
    have h1 := (abs_nonneg _).trans (hb x₀ hx0)
    by_contra hcon
    have : C * (1 + ‖x₀‖) ^ m < 0 := mul_neg_of_neg_of_pos (not_le.1 hcon) (by positivity)
    linarith
  have hexp : ContinuousOn (fun x => Real.exp (H x)) U := Real.continuous_exp.comp_continuousOn hcont
  have hmeas : AEStronglyMeasurable (fun x => Real.exp (H x) * L x) (volume.restrict U) :=
    (hexp.mul hL).aestronglyMeasurable hU.measurableSet
  -- the exponential beats the polynomial
  obtain ⟨M, hM⟩ : ∃ M, ∀ x : E, (1 + ‖x‖) ^ m * Real.exp (-(‖x - x₀‖ / R)) ≤ M * Real.exp (-(‖x - x₀‖ / (2 * R))) := by
    have hK : 0 < 1 + ‖x₀‖ + 2 * R := by positivity
    refine ⟨(1 + ‖x₀‖ + 2 * R) ^ m * (m.factorial * Real.exp 1), fun x => ?_⟩
    have h1 : 1 + ‖x‖ ≤ (1 + ‖x₀‖ + 2 * R) * (1 + ‖x - x₀‖ / (2 * R)) := by
      have h2 : ‖x‖ ≤ ‖x₀‖ + ‖x - x₀‖ := by
        calc ‖x‖ = ‖x₀ + (x - x₀)‖ := by rw [add_sub_cancel]
          _ ≤ _ := norm_add_le _ _
      have h3 : (1 + ‖x₀‖ + 2 * R) * (1 + ‖x - x₀‖ / (2 * R)) =
          1 + ‖x₀‖ + 2 * R + (1 + ‖x₀‖) * (‖x - x₀‖ / (2 * R)) + ‖x - x₀‖ := by
        field_simp
        ring
      have h4 : 0 ≤ (1 + ‖x₀‖) * (‖x - x₀‖ / (2 * R)) := by positivity
      linarith
    have h2 : (1 + ‖x - x₀‖ / (2 * R)) ^ m ≤ m.factorial * Real.exp (1 + ‖x - x₀‖ / (2 * R)) := by
      have := Real.pow_div_factorial_le_exp (1 + ‖x - x₀‖ / (2 * R)) (by positivity) m
      rw [div_le_iff₀ (by positivity)] at this
      linarith
    calc (1 + ‖x‖) ^ m * Real.exp (-(‖x - x₀‖ / R))
        ≤ ((1 + ‖x₀‖ + 2 * R) * (1 + ‖x - x₀‖ / (2 * R))) ^ m * Real.exp (-(‖x - x₀‖ / R)) := by gcongr
      _ ≤ (1 + ‖x₀‖ + 2 * R) ^ m * (m.factorial * Real.exp (1 + ‖x - x₀‖ / (2 * R))) * Real.exp (-(‖x - x₀‖ / R)) := by
          rw [mul_pow]; gcongr
      _ = _ := by
          rw [mul_assoc, mul_assoc, mul_assoc, mul_assoc, ← Real.exp_add, ← Real.exp_add]
          congr 3
          field_simp
          ring
  have hdom : Integrable fun x : E => Real.exp (-(‖x - x₀‖ / (2 * R))) := by
    have h1 : Integrable fun y : E => Real.exp (-‖y‖) := by simpa using integrable_exp_neg_norm (0 : E)
    have h2 := h1.comp_smul (R := (2 * R)⁻¹) (by positivity)
    have h3 := h2.comp_sub_right x₀
    refine h3.congr (Eventually.of_forall fun x => ?_)
    simp only [norm_smul, Real.norm_of_nonneg (show 0 ≤ (2 * R)⁻¹ by positivity)]
    congr 2
    rw [div_eq_inv_mul]
  have hD := (hdom.const_mul (C * Real.exp (H x₀) * M)).integrableOn (s := U)
  have hI := hint.const_mul (C * (1 + ‖x₀‖ + R) ^ m)
  refine Integrable.mono' (hI.add hD) hmeas ?_
  filter_upwards [ae_restrict_mem hU.measurableSet] with x hx
  have hM0 : 0 ≤ M := by
    have := hM x₀
    simp only [sub_self, norm_zero, zero_div, neg_zero, Real.exp_zero, mul_one] at this
    exact le_trans (by positivity) this
  rw [Real.norm_eq_abs, abs_mul, abs_of_pos (Real.exp_pos _)]
  simp only [Pi.add_apply]
  rcases lt_or_ge ‖x - x₀‖ R with h | h
  · have h1 : 1 + ‖x‖ ≤ 1 + ‖x₀‖ + R := by
      have : ‖x‖ ≤ ‖x₀‖ + ‖x - x₀‖ := by
        calc ‖x‖ = ‖x₀ + (x - x₀)‖ := by rw [add_sub_cancel]
          _ ≤ _ := norm_add_le _ _
      linarith
    have h2 : |L x| ≤ C * (1 + ‖x₀‖ + R) ^ m :=
      (hb x hx).trans (mul_le_mul_of_nonneg_left (pow_le_pow_left₀ (by positivity) h1 m) hC)
    have h3 : 0 ≤ C * Real.exp (H x₀) * M * Real.exp (-(‖x - x₀‖ / (2 * R))) := by positivity
    have h4 := mul_le_mul_of_nonneg_left h2 (Real.exp_pos (H x)).le
    linarith
  · have h1 := hdec x hx h
    have h2 : Real.exp (H x) ≤ Real.exp (H x₀) * Real.exp (-(‖x - x₀‖ / R)) := by
      rw [← Real.exp_add]
      exact Real.exp_le_exp.2 (by linarith)
    have h3 : 0 ≤ C * (1 + ‖x₀‖ + R) ^ m * Real.exp (H x) := by positivity
    calc Real.exp (H x) * |L x| ≤ (Real.exp (H x₀) * Real.exp (-(‖x - x₀‖ / R))) * (C * (1 + ‖x‖) ^ m) :=
          mul_le_mul h2 (hb x hx) (abs_nonneg _) (by positivity)
      _ = C * Real.exp (H x₀) * ((1 + ‖x‖) ^ m * Real.exp (-(‖x - x₀‖ / R))) := by ring
      _ ≤ C * Real.exp (H x₀) * (M * Real.exp (-(‖x - x₀‖ / (2 * R)))) :=
          mul_le_mul_of_nonneg_left (hM x) (by positivity)
      _ ≤ _ := by linarith

end Conj
