import Mathlib.Probability.Martingale.BorelCantelli
import Mathlib.Probability.Martingale.Convergence
import Mathlib.MeasureTheory.Function.ConditionalExpectation.PullOut
import Mathlib.Analysis.Asymptotics.SpecificAsymptotics

/-!
# Averages of martingale differences
-/

open MeasureTheory Filter Topology Finset

namespace Conj

/-- Kronecker's lemma -/
theorem kronecker {b y : ℕ → ℝ} (hb : Monotone b) (hbt : Tendsto b atTop atTop) {c : ℝ}
    (hy : Tendsto (fun n => ∑ t ∈ range n, y t) atTop (𝓝 c)) :
    Tendsto (fun n => (∑ t ∈ range n, b t * y t) / b n) atTop (𝓝 0) := by
  obtain ⟨R, hR⟩ : ∃ R : ℕ → ℝ, R = fun n => ∑ t ∈ range n, y t := ⟨_, rfl⟩
  rw [← hR] at hy
  have hstep : ∀ n, R (n + 1) = R n + y n := fun n => by rw [hR]; exact sum_range_succ _ _
  have habel : ∀ n, ∑ t ∈ range n, b t * y t =
      b n * (R n - c) - ∑ t ∈ range n, (b (t + 1) - b t) * (R (t + 1) - c) + c * b 0 := by
    intro n
    induction n with
    | zero => simp [hR]; ring
    | succ n ih => rw [sum_range_succ, sum_range_succ, ih, hstep]; ring
  have hw : ∀ t, 0 ≤ b (t + 1) - b t := fun t => sub_nonneg.2 (hb (Nat.le_succ t))
  have htel : ∀ n, ∑ t ∈ range n, (b (t + 1) - b t) = b n - b 0 := fun n => sum_range_sub _ _
  have ho : (fun n => ∑ t ∈ range n, (b (t + 1) - b t) * (R (t + 1) - c)) =o[atTop] fun n => b n - b 0 := by
    have h1 : (fun t => (b (t + 1) - b t) * (R (t + 1) - c)) =o[atTop] fun t => b (t + 1) - b t := by
      have h2 : (fun t => R (t + 1) - c) =o[atTop] fun _ : ℕ => (1 : ℝ) := by
        rw [Asymptotics.isLittleO_one_iff]
        simpa using (hy.comp (tendsto_add_atTop_nat 1)).sub_const c
      simpa using (Asymptotics.isBigO_refl (fun t => b (t + 1) - b t) atTop).mul_isLittleO h2
    have h3 := h1.sum_range hw (by simp only [htel]; exact tendsto_atTop_add_const_right _ _ hbt)
    simpa only [htel] using h3
  have ho' : (fun n => ∑ t ∈ range n, (b (t + 1) - b t) * (R (t + 1) - c)) =o[atTop] b := by
    refine ho.trans_isBigO ?_
    refine (Asymptotics.isBigO_refl b atTop).sub ?_
    refine Asymptotics.IsLittleO.isBigO ?_
    rw [Asymptotics.isLittleO_const_left]
    exact Or.inr (tendsto_norm_atTop_atTop.comp hbt)
  have hq := ho'.tendsto_div_nhds_zero
  have h0 : Tendsto (fun n => c * b 0 / b n) atTop (𝓝 0) := hbt.const_div_atTop _
  have hR0 : Tendsto (fun n => R n - c) atTop (𝓝 0) := by simpa using hy.sub_const c
  have := (hR0.sub hq).add h0
  simp only [sub_zero, add_zero] at this
  refine this.congr' ?_
  filter_upwards [hbt.eventually_gt_atTop 0] with n hn
  rw [habel n]
  field_simp

variable {Ω : Type*} {m0 : MeasurableSpace Ω} {μ : Measure Ω} [IsProbabilityMeasure μ] {ℱ : Filtration ℕ m0}

/-- a sum of martingale differences with summable variances converges -/
theorem sum_converges {D : ℕ → Ω → ℝ} (hD : ∀ t, StronglyMeasurable[ℱ (t + 1)] (D t)) (h2 : ∀ t, MemLp (D t) 2 μ)
    (hc : ∀ t, μ[D t | ℱ t] =ᵐ[μ] 0) {C : ℝ} (hC : ∀ n, ∑ t ∈ range n, ∫ ω, D t ω ^ 2 ∂μ ≤ C) :
    ∀ᵐ ω ∂μ, ∃ c, Tendsto (fun n => ∑ t ∈ range n, D t ω) atTop (𝓝 c) := by
  obtain ⟨M, hM⟩ : ∃ M : ℕ → Ω → ℝ, M = fun n => ∑ t ∈ range n, D t := ⟨_, rfl⟩
  have hM2 : ∀ n, MemLp (M n) 2 μ := fun n => by rw [hM]; exact memLp_finsetSum' _ fun t _ => h2 t
  have hMi : ∀ n, Integrable (M n) μ := fun n => (hM2 n).integrable one_le_two
  have hMa : StronglyAdapted ℱ M := fun n => by
    rw [hM]
    exact Finset.stronglyMeasurable_sum _ fun t ht => (hD t).mono (ℱ.mono (by simpa using ht))
  have hsub : ∀ n, M (n + 1) - M n = D n := fun n => by rw [hM]; simp [sum_range_succ]
  have hmart : Martingale M ℱ μ :=
    martingale_of_condExp_sub_eq_zero_nat hMa hMi fun n => by rw [hsub]; exact hc n
  have hsq : ∀ n, ∫ ω, M n ω ^ 2 ∂μ = ∑ t ∈ range n, ∫ ω, D t ω ^ 2 ∂μ := by
    intro n
    induction n with
    | zero => simp [hM]
    | succ n ih =>
      have hcross : ∫ ω, M n ω * D n ω ∂μ = 0 := by
        have hi : Integrable (M n * D n) μ := (hM2 n).integrable_mul (h2 n)
        have h := condExp_mul_of_stronglyMeasurable_left (hMa n) hi ((h2 n).integrable one_le_two)
        rw [show (fun ω => M n ω * D n ω) = M n * D n from rfl, ← integral_condExp (ℱ.le n), integral_congr_ae h]
        refine integral_eq_zero_of_ae ?_
        filter_upwards [hc n] with ω hω
        simp [hω]
      have e : ∀ ω, M (n + 1) ω ^ 2 = M n ω ^ 2 + (2 * (M n ω * D n ω) + D n ω ^ 2) := by
        intro ω
        have := congrFun (hsub n) ω
        simp only [Pi.sub_apply] at this
        rw [← this]; ring
      simp only [e]
      rw [integral_add (hM2 n).integrable_sq, integral_add, integral_const_mul, hcross, ih, sum_range_succ]
      · ring
      · exact ((hM2 n).integrable_mul (h2 n)).const_mul 2
      · exact (h2 n).integrable_sq
      · exact (((hM2 n).integrable_mul (h2 n)).const_mul 2).add (h2 n).integrable_sq
  have hbound : ∀ n, eLpNorm (M n) 1 μ ≤ (Real.toNNReal (1 + C) : NNReal) := by
    intro n
    rw [eLpNorm_one_eq_lintegral_enorm, ← ofReal_integral_norm_eq_lintegral_enorm (hMi n)]
    refine ENNReal.ofReal_le_ofReal ?_
    calc ∫ ω, ‖M n ω‖ ∂μ ≤ ∫ ω, (1 + M n ω ^ 2) ∂μ := by
          refine integral_mono (hMi n).norm ((integrable_const 1).add (hM2 n).integrable_sq) fun ω => ?_
          simp only [Real.norm_eq_abs, Pi.add_apply]
          nlinarith [sq_abs (M n ω), sq_nonneg (|M n ω| - 1), abs_nonneg (M n ω)]
      _ = 1 + ∫ ω, M n ω ^ 2 ∂μ := by
          rw [integral_add (integrable_const 1) (hM2 n).integrable_sq]; simp
      _ ≤ 1 + C := by rw [hsq]; exact add_le_add_right (hC n) 1
  filter_upwards [hmart.submartingale.exists_ae_tendsto_of_bdd hbound] with ω hω
  obtain ⟨c, hc⟩ := hω
  exact ⟨c, by simpa [hM] using hc⟩

/-- the average of bounded martingale differences tends to zero -/
theorem average_bounded {D : ℕ → Ω → ℝ} (hD : ∀ t, StronglyMeasurable[ℱ (t + 1)] (D t))
    (hb : ∀ t ω, |D t ω| ≤ 1) (hc : ∀ t, μ[D t | ℱ t] =ᵐ[μ] 0) :
    ∀ᵐ ω ∂μ, Tendsto (fun n : ℕ => (∑ t ∈ range n, D t ω) / n) atTop (𝓝 0) := by
  have hm : ∀ t, StronglyMeasurable (D t) := fun t => (hD t).mono (ℱ.le _)
  have hi : ∀ t, MemLp (D t) 2 μ := fun t =>
    MemLp.of_bound (hm t).aestronglyMeasurable 1 (Eventually.of_forall fun ω => by simpa using hb t ω)
  have hsumC : ∀ n : ℕ, ∑ t ∈ range n, (1 : ℝ) / ((t : ℝ) + 1) ^ 2 ≤ 2 - 2 / ((n : ℝ) + 1) := by
    intro n
    induction n with
    | zero => simp
    | succ n ih =>
      rw [sum_range_succ]
      have h0 : (0 : ℝ) ≤ n := Nat.cast_nonneg n
      have : (1 : ℝ) / ((n : ℝ) + 1) ^ 2 ≤ 2 / ((n : ℝ) + 1) - 2 / ((n : ℝ) + 1 + 1) := by
        rw [div_sub_div _ _ (by positivity) (by positivity), div_le_div_iff₀ (by positivity) (by positivity)]
        nlinarith
      push_cast
      linarith
  have := sum_converges (μ := μ) (ℱ := ℱ) (D := fun t ω => D t ω / ((t : ℝ) + 1)) (C := 2)
    (fun t => by simpa [div_eq_mul_inv] using (hD t).mul_const ((t : ℝ) + 1)⁻¹)
    (fun t => by simpa [div_eq_mul_inv] using (hi t).mul_const ((t : ℝ) + 1)⁻¹)
    (fun t => by
      have e : (fun ω => D t ω / ((t : ℝ) + 1)) = ((t : ℝ) + 1)⁻¹ • D t := by
        funext ω; simp [div_eq_inv_mul]
      rw [e]
      refine (condExp_smul _ _ _).trans ?_
      filter_upwards [hc t] with ω hω
      simp [hω])
    (fun n => by
      refine le_trans (sum_le_sum fun t _ => ?_) ((hsumC n).trans (sub_le_self _ (by positivity)))
      have hle : ∀ ω, (D t ω / ((t : ℝ) + 1)) ^ 2 ≤ 1 / ((t : ℝ) + 1) ^ 2 := by
        intro ω
        rw [div_pow]
        refine div_le_div_of_nonneg_right ?_ (by positivity)
        rw [← sq_abs]
        exact pow_le_one₀ (abs_nonneg _) (hb t ω)
      calc ∫ ω, (D t ω / ((t : ℝ) + 1)) ^ 2 ∂μ ≤ ∫ _, 1 / ((t : ℝ) + 1) ^ 2 ∂μ := by
            refine integral_mono_of_nonneg (Eventually.of_forall fun ω => sq_nonneg _) (integrable_const _)
              (Eventually.of_forall hle)
        _ = _ := by simp)
  filter_upwards [this] with ω hω
  obtain ⟨c, hc⟩ := hω
  have hk := kronecker (b := fun t : ℕ => (t : ℝ) + 1) (fun a b h => by simpa using h)
    (tendsto_atTop_add_const_right _ _ tendsto_natCast_atTop_atTop) hc
  have hk2 : Tendsto (fun n : ℕ => (∑ t ∈ range n, D t ω) / ((n : ℝ) + 1)) atTop (𝓝 0) := by
    refine hk.congr fun n => ?_
    congr 1
    refine sum_congr rfl fun t _ => ?_
    have : (0 : ℝ) < (t : ℝ) + 1 := by positivity
    field_simp
  have h1 : Tendsto (fun n : ℕ => ((n : ℝ) + 1) / n) atTop (𝓝 1) := by
    have : Tendsto (fun n : ℕ => 1 + 1 / (n : ℝ)) atTop (𝓝 (1 + 0)) :=
      tendsto_const_nhds.add tendsto_one_div_atTop_nhds_zero_nat
    rw [add_zero] at this
    refine this.congr' ?_
    filter_upwards [eventually_gt_atTop 0] with n hn
    have : (0 : ℝ) < n := by exact_mod_cast hn
    field_simp
  have := hk2.mul h1
  rw [zero_mul] at this
  refine this.congr' ?_
  filter_upwards [eventually_gt_atTop 0] with n hn
  have : (0 : ℝ) < n := by exact_mod_cast hn
  field_simp

/-- how often something has happened before time `n` -/
noncomputable def times (A : ℕ → Set Ω) (n : ℕ) (ω : Ω) : ℝ := ∑ t ∈ range n, (A t).indicator 1 ω

theorem times_nonneg (A : ℕ → Set Ω) (n : ℕ) (ω : Ω) : 0 ≤ times A n ω :=
  sum_nonneg fun _ _ => Set.indicator_nonneg (fun _ _ => zero_le_one) _

theorem times_succ (A : ℕ → Set Ω) (n : ℕ) (ω : Ω) : times A (n + 1) ω = times A n ω + (A n).indicator 1 ω :=
  sum_range_succ _ _

theorem times_mono (A : ℕ → Set Ω) (ω : Ω) : Monotone fun n => times A n ω :=
  monotone_nat_of_le_succ fun n => by
    rw [times_succ]; exact le_add_of_nonneg_right (Set.indicator_nonneg (fun _ _ => zero_le_one) _)

/-- what is observed when `A` happens, centred, averages to zero over the times `A` happened -/
theorem average_when {A : ℕ → Set Ω} (hA : ∀ t, MeasurableSet[ℱ (t + 1)] (A t)) {D : ℕ → Ω → ℝ}
    (hD : ∀ t, StronglyMeasurable[ℱ (t + 1)] (D t)) (h2 : ∀ t, MemLp (D t) 2 μ) (hz : ∀ t ω, ω ∉ A t → D t ω = 0)
    (hc : ∀ t, μ[D t | ℱ t] =ᵐ[μ] 0) {v : ℝ} (hv0 : 0 ≤ v)
    (hv : ∀ t (w : Ω → ℝ), StronglyMeasurable[ℱ t] w → (∀ ω, 0 ≤ w ω) → (∀ ω, w ω ≤ 1) →
      ∫ ω, w ω * D t ω ^ 2 ∂μ = v * ∫ ω, w ω * (A t).indicator 1 ω ∂μ) :
    ∀ᵐ ω ∂μ, Tendsto (fun n => times A n ω) atTop atTop →
      Tendsto (fun n => (∑ t ∈ range n, D t ω) / times A n ω) atTop (𝓝 0) := by
  obtain ⟨w, hw⟩ : ∃ w : ℕ → Ω → ℝ, w = fun t ω => (times A t ω + 1)⁻¹ := ⟨_, rfl⟩
  have htm : ∀ n, StronglyMeasurable[ℱ n] (times A n) := fun n => by
    have : times A n = ∑ t ∈ range n, (A t).indicator 1 := by funext ω; simp [times]
    rw [this]
    exact Finset.stronglyMeasurable_sum _ fun t ht =>
      (stronglyMeasurable_one.indicator (hA t)).mono (ℱ.mono (by simpa using ht))
  have hwm : ∀ t, StronglyMeasurable[ℱ t] (w t) := fun t => by
    rw [hw]
    have : Measurable[ℱ t] fun ω => (times A t ω + 1)⁻¹ := ((htm t).measurable.add_const 1).inv
    exact this.stronglyMeasurable
  have hw0 : ∀ t ω, 0 < w t ω := fun t ω => by
    rw [hw]; have := times_nonneg A t ω; positivity
  have hw1 : ∀ t ω, w t ω ≤ 1 := fun t ω => by
    rw [hw]; exact inv_le_one_of_one_le₀ (by linarith [times_nonneg A t ω])
  have hpt : ∀ n ω, ∑ t ∈ range n, w t ω ^ 2 * (A t).indicator 1 ω ≤ 2 - 2 / (times A n ω + 1) := by
    intro n ω
    induction n with
    | zero => simp [times]
    | succ n ih =>
      rw [sum_range_succ, times_succ]
      have hN := times_nonneg A n ω
      by_cases h : ω ∈ A n
      · simp only [Set.indicator_of_mem h, Pi.one_apply, mul_one]
        have : w n ω ^ 2 ≤ 2 / (times A n ω + 1) - 2 / (times A n ω + 1 + 1) := by
          rw [hw]; simp only [inv_pow]
          rw [div_sub_div _ _ (by positivity) (by positivity), inv_eq_one_div,
            div_le_div_iff₀ (by positivity) (by positivity)]
          nlinarith
        linarith
      · simp only [Set.indicator_of_notMem h, mul_zero, add_zero]
        exact ih
  have hwD2 : ∀ t, MemLp (fun ω => w t ω * D t ω) 2 μ := fun t => by
    refine (h2 t).mono ((((hwm t).mono (ℱ.le t)).mul ((hD t).mono (ℱ.le _))).aestronglyMeasurable)
      (Eventually.of_forall fun ω => ?_)
    rw [norm_mul, Real.norm_eq_abs, abs_of_pos (hw0 t ω)]
    exact mul_le_of_le_one_left (norm_nonneg _) (hw1 t ω)
  have hind : ∀ t, Integrable (fun ω => w t ω ^ 2 * (A t).indicator 1 ω) μ := fun t => by
    refine Integrable.of_bound (C := 1) ?_ (Eventually.of_forall fun ω => ?_)
    · exact ((((hwm t).mono (ℱ.le t)).pow 2).mul
        (stronglyMeasurable_one.indicator (ℱ.le _ _ (hA t)))).aestronglyMeasurable
    · rw [Real.norm_eq_abs, abs_of_nonneg (mul_nonneg (sq_nonneg _) (Set.indicator_nonneg (fun _ _ => zero_le_one) _))]
      exact mul_le_one₀ (pow_le_one₀ (hw0 t ω).le (hw1 t ω)) (Set.indicator_nonneg (fun _ _ => zero_le_one) _)
        (Set.indicator_le_self' (fun _ _ => zero_le_one) _)
  have key := sum_converges (μ := μ) (ℱ := ℱ) (D := fun t ω => w t ω * D t ω) (C := v * 2)
    (fun t => ((hwm t).mono (ℱ.mono (Nat.le_succ t))).mul (hD t)) hwD2
    (fun t => by
      refine (condExp_mul_of_stronglyMeasurable_left (hwm t) ((hwD2 t).integrable one_le_two)
        ((h2 t).integrable one_le_two)).trans ?_
      filter_upwards [hc t] with ω hω
      simp [hω])
    (fun n => by
      have e : ∀ t, ∫ ω, (w t ω * D t ω) ^ 2 ∂μ = v * ∫ ω, w t ω ^ 2 * (A t).indicator 1 ω ∂μ := fun t => by
        simp only [mul_pow]
        exact hv t (fun ω => w t ω ^ 2) ((hwm t).pow 2) (fun ω => sq_nonneg _)
          fun ω => pow_le_one₀ (hw0 t ω).le (hw1 t ω)
      simp only [e]
      rw [← mul_sum, ← integral_finset_sum _ fun t _ => hind t]
      refine mul_le_mul_of_nonneg_left ?_ hv0
      calc ∫ ω, ∑ t ∈ range n, w t ω ^ 2 * (A t).indicator 1 ω ∂μ ≤ ∫ _, (2 : ℝ) ∂μ := by
            refine integral_mono (integrable_finset_sum _ fun t _ => hind t) (integrable_const _) fun ω => ?_
            refine (hpt n ω).trans (sub_le_self _ ?_)
            have := times_nonneg A n ω
            positivity
        _ = 2 := by simp)
  filter_upwards [key] with ω hω hN
  obtain ⟨c, hc⟩ := hω
  have hk := kronecker (b := fun n => times A n ω + 1) (fun a b h => by simpa using times_mono A ω h)
    (tendsto_atTop_add_const_right _ _ hN) hc
  have hk2 : Tendsto (fun n => (∑ t ∈ range n, D t ω) / (times A n ω + 1)) atTop (𝓝 0) := by
    refine hk.congr fun n => ?_
    congr 1
    refine sum_congr rfl fun t _ => ?_
    have : (0 : ℝ) < times A t ω + 1 := by have := times_nonneg A t ω; positivity
    simp only [hw]
    field_simp
  have h1 : Tendsto (fun n => (times A n ω + 1) / times A n ω) atTop (𝓝 1) := by
    have : Tendsto (fun n => 1 + 1 / times A n ω) atTop (𝓝 (1 + 0)) :=
      tendsto_const_nhds.add (hN.const_div_atTop 1)
    rw [add_zero] at this
    refine this.congr' ?_
    filter_upwards [hN.eventually_gt_atTop 0] with n hn
    field_simp
  have := hk2.mul h1
  rw [zero_mul] at this
  refine this.congr' ?_
  filter_upwards [hN.eventually_gt_atTop 0] with n hn
  have : (0 : ℝ) < times A n ω + 1 := by linarith
  field_simp

end Conj
