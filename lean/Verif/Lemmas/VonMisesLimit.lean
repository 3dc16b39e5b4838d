import Verif.Lemmas.LawOn
import Verif.Lemmas.ConcentrationJoint
import Verif.DistMap
import Mathlib.MeasureTheory.Integral.IntervalIntegral.Periodic
import Mathlib.Analysis.SpecialFunctions.Integrals.Basic
import Mathlib.Analysis.SpecialFunctions.Complex.Arg

/-!
# Von Mises distributions: moments and concentration
-/

open MeasureTheory Set Filter Topology

namespace Conj

open Scipy Spec

/-- the law of an angle in `(-π, π]` with density proportional to `exp (k cos (θ - b))` -/
noncomputable def angleLaw (k b : ℝ) : Measure ℝ :=
  lawOn (Ioc (-Real.pi) Real.pi) fun θ => Real.exp (k * Real.cos (θ - b)) /
    ∫ t in Ioc (-Real.pi) Real.pi, Real.exp (k * Real.cos (t - b))

theorem angle_continuous (k b : ℝ) : Continuous fun θ : ℝ => Real.exp (k * Real.cos (θ - b)) := by fun_prop

theorem angle_integrable (k b : ℝ) :
    IntegrableOn (fun θ : ℝ => Real.exp (k * Real.cos (θ - b))) (Ioc (-Real.pi) Real.pi) :=
  ((angle_continuous k b).integrableOn_Icc).mono_set Ioc_subset_Icc_self

theorem angle_norm_pos (k b : ℝ) : 0 < ∫ t in Ioc (-Real.pi) Real.pi, Real.exp (k * Real.cos (t - b)) := by
  have hpi := Real.pi_pos
  rw [← intervalIntegral.integral_of_le (by linarith)]
  exact intervalIntegral.intervalIntegral_pos_of_pos ((angle_continuous k b).intervalIntegrable _ _)
    (fun _ => Real.exp_pos _) (by linarith)

theorem angle_isDensity (k b : ℝ) : IsDensity volume (Ioc (-Real.pi) Real.pi) fun θ =>
    Real.exp (k * Real.cos (θ - b)) / ∫ t in Ioc (-Real.pi) Real.pi, Real.exp (k * Real.cos (t - b)) := by
  have hp := angle_norm_pos k b
  refine ⟨fun θ _ => by positivity, (angle_integrable k b).div_const _, ?_⟩
  rw [integral_div, div_self hp.ne']

theorem angle_prob (k b : ℝ) : IsProbabilityMeasure (angleLaw k b) :=
  lawOn_prob measurableSet_Ioc (angle_isDensity k b)

theorem angle_neg (k b : ℝ) : angleLaw (-k) b = angleLaw k (b + Real.pi) := by
  have : ∀ θ, -k * Real.cos (θ - b) = k * Real.cos (θ - (b + Real.pi)) := by
    intro θ
    have : θ - (b + Real.pi) = θ - b - Real.pi := by ring
    rw [this, Real.cos_sub_pi]
    ring
  simp only [angleLaw, this]

theorem angle_tail {k b m δ : ℝ} (hk : 0 ≤ k) (hδ : 0 < δ) (hm1 : |m| + 4 * δ ≤ Real.pi) (hb : |b - m| ≤ δ) :
    angleLaw k b (Metric.ball m (4 * δ))ᶜ ≤
      ENNReal.ofReal (Real.pi / δ * Real.exp (-(k * (Real.cos δ - Real.cos (3 * δ))))) := by
  have hpi := Real.pi_pos
  obtain ⟨hb1, hb2⟩ := abs_le.1 hb
  have hm2 := neg_abs_le m
  have hm3 := le_abs_self m
  have hδπ : 4 * δ ≤ Real.pi := by linarith [abs_nonneg m]
  -- the normaliser
  have hlow : 2 * δ * Real.exp (k * Real.cos δ) ≤ ∫ t in Ioc (-Real.pi) Real.pi, Real.exp (k * Real.cos (t - b)) := by
    have h1 : ∫ t in Ioc (b - δ) (b + δ), Real.exp (k * Real.cos δ) ≤
        ∫ t in Ioc (b - δ) (b + δ), Real.exp (k * Real.cos (t - b)) := by
      refine setIntegral_mono_on ?_ (((angle_continuous k b).integrableOn_Icc).mono_set Ioc_subset_Icc_self)
        measurableSet_Ioc fun t ht => ?_
      · exact (continuous_const.integrableOn_Icc).mono_set Ioc_subset_Icc_self
      · refine Real.exp_le_exp.2 (mul_le_mul_of_nonneg_left ?_ hk)
        rw [← Real.cos_abs (t - b)]
        refine Real.cos_le_cos_of_nonneg_of_le_pi (abs_nonneg _) (by linarith) ?_
        rw [abs_le]
        constructor <;> linarith [ht.1, ht.2]
    have h2 : ∫ t in Ioc (b - δ) (b + δ), Real.exp (k * Real.cos (t - b)) ≤
        ∫ t in Ioc (-Real.pi) Real.pi, Real.exp (k * Real.cos (t - b)) := by
      refine setIntegral_mono_set (angle_integrable k b) (Eventually.of_forall fun _ => (Real.exp_pos _).le) ?_
      refine HasSubset.Subset.eventuallyLE fun t ht => ?_
      constructor <;> linarith [ht.1, ht.2]
    refine le_trans (le_of_eq ?_) (h1.trans h2)
    rw [setIntegral_const, smul_eq_mul, Real.volume_real_Ioc_of_le (by linarith)]
    ring
  -- the density away from the centre
  have hup : ∀ t ∈ Ioc (-Real.pi) Real.pi, t ∈ (Metric.ball m (4 * δ))ᶜ → Real.cos (t - b) ≤ Real.cos (3 * δ) := by
    intro t ht hc
    have hc' : 4 * δ ≤ |t - m| := by
      rw [mem_compl_iff, Metric.mem_ball, not_lt, Real.dist_eq] at hc
      exact hc
    have h3 : 3 * δ ≤ |t - b| := by
      have := abs_sub_abs_le_abs_sub (t - m) (b - m)
      have e : t - m - (b - m) = t - b := by ring
      rw [e] at this
      linarith
    rw [← Real.cos_abs (t - b)]
    by_cases hle : |t - b| ≤ Real.pi
    · exact Real.cos_le_cos_of_nonneg_of_le_pi (by linarith) hle h3
    · have h4 : |t - b| ≤ 2 * Real.pi - 3 * δ := by
        rw [abs_le]
        constructor <;> linarith [ht.1, ht.2]
      have e : Real.cos |t - b| = Real.cos (2 * Real.pi - |t - b|) := (Real.cos_two_pi_sub _).symm
      rw [e]
      exact Real.cos_le_cos_of_nonneg_of_le_pi (by linarith) (by linarith) (by linarith)
  have hp := angle_norm_pos k b
  set Z := ∫ t in Ioc (-Real.pi) Real.pi, Real.exp (k * Real.cos (t - b)) with hZ
  rw [angleLaw, lawOn, withDensity_apply _ measurableSet_ball.compl]
  have hbound : ∀ t ∈ Ioc (-Real.pi) Real.pi, t ∈ (Metric.ball m (4 * δ))ᶜ →
      ENNReal.ofReal (Real.exp (k * Real.cos (t - b)) / Z) ≤
        ENNReal.ofReal (Real.exp (k * Real.cos (3 * δ)) / (2 * δ * Real.exp (k * Real.cos δ))) := by
    intro t ht hc
    refine ENNReal.ofReal_le_ofReal (div_le_div₀ (Real.exp_pos _).le ?_ (by positivity) hlow)
    exact Real.exp_le_exp.2 (mul_le_mul_of_nonneg_left (hup t ht hc) hk)
  rw [Measure.restrict_restrict measurableSet_ball.compl]
  calc _ ≤ ∫⁻ t in (Metric.ball m (4 * δ))ᶜ ∩ Ioc (-Real.pi) Real.pi,
        ENNReal.ofReal (Real.exp (k * Real.cos (3 * δ)) / (2 * δ * Real.exp (k * Real.cos δ))) :=
        setLIntegral_mono' (measurableSet_ball.compl.inter measurableSet_Ioc) fun t ht => hbound t ht.2 ht.1
    _ ≤ ENNReal.ofReal (Real.exp (k * Real.cos (3 * δ)) / (2 * δ * Real.exp (k * Real.cos δ))) *
        volume (Ioc (-Real.pi) Real.pi) := by
        rw [setLIntegral_const]
        exact mul_le_mul_right (measure_mono inter_subset_right) _
    _ = _ := by
        rw [Real.volume_Ioc, ← ENNReal.ofReal_mul (by positivity)]
        congr 1
        have e : -(k * (Real.cos δ - Real.cos (3 * δ))) = k * Real.cos (3 * δ) - k * Real.cos δ := by ring
        rw [e, Real.exp_sub]
        field_simp
        ring

/-- a concentration tending to infinity and a direction tending to `m` -/
theorem concentrates_angle {k b : ℕ → ℝ} {m : ℝ} (hm : |m| < Real.pi) (hk : Tendsto k atTop atTop)
    (hb : Tendsto b atTop (𝓝 m)) : ConcentratesAt (fun n => angleLaw (k n) (b n)) m := by
  refine concentrates_of_compl (Eventually.of_forall fun n => angle_prob _ _) fun ε hε => ?_
  set δ := min ε (Real.pi - |m|) / 4 with hδ
  have hpos : 0 < δ := by
    have : 0 < Real.pi - |m| := by linarith
    have := lt_min hε this
    positivity
  have h1 : 4 * δ ≤ ε := by rw [hδ]; linarith [min_le_left ε (Real.pi - |m|)]
  have h2 : |m| + 4 * δ ≤ Real.pi := by rw [hδ]; linarith [min_le_right ε (Real.pi - |m|)]
  have hgap : 0 < Real.cos δ - Real.cos (3 * δ) := by
    have := Real.cos_lt_cos_of_nonneg_of_le_pi (x := δ) (y := 3 * δ) hpos.le (by linarith [abs_nonneg m]) (by linarith)
    linarith
  have hz : Tendsto (fun n => ENNReal.ofReal (Real.pi / δ * Real.exp (-(k n * (Real.cos δ - Real.cos (3 * δ))))))
      atTop (𝓝 0) := by
    have h3 : Tendsto (fun n => Real.exp (-(k n * (Real.cos δ - Real.cos (3 * δ))))) atTop (𝓝 0) :=
      Real.tendsto_exp_neg_atTop_nhds_zero.comp (hk.atTop_mul_const hgap)
    have := ENNReal.tendsto_ofReal (h3.const_mul (Real.pi / δ))
    simpa using this
  have hev : ∀ᶠ n in atTop, |b n - m| ≤ δ := by
    have := (Metric.tendsto_nhds.1 hb) δ hpos
    filter_upwards [this] with n hn
    rw [Real.dist_eq] at hn
    exact hn.le
  refine tendsto_of_tendsto_of_tendsto_of_le_of_le' tendsto_const_nhds hz (Eventually.of_forall fun _ => zero_le) ?_
  filter_upwards [hev, hk.eventually_ge_atTop 0] with n hn hkn
  exact (measure_mono (compl_subset_compl.2 (Metric.ball_subset_ball h1))).trans (angle_tail hkn hpos h2 hn)

/-! ## Moments -/

theorem angle_shift (k b : ℝ) {g : ℝ → ℝ} (hg : Function.Periodic g (2 * Real.pi)) :
    ∫ t in Ioc (-Real.pi) Real.pi, Real.exp (k * Real.cos (t - b)) * g t =
      ∫ s in (-Real.pi)..Real.pi, Real.exp (k * Real.cos s) * g (s + b) := by
  have hpi := Real.pi_pos
  have hper : Function.Periodic (fun t => Real.exp (k * Real.cos (t - b)) * g t) (2 * Real.pi) := by
    intro t
    beta_reduce
    rw [hg t]
    have : t + 2 * Real.pi - b = t - b + 2 * Real.pi := by ring
    rw [this, Real.cos_add_two_pi]
  have h1 := hper.intervalIntegral_add_eq (-Real.pi) (-Real.pi + b)
  rw [← intervalIntegral.integral_of_le (by linarith)]
  have e1 : -Real.pi + 2 * Real.pi = Real.pi := by ring
  have e2 : -Real.pi + b + 2 * Real.pi = Real.pi + b := by ring
  rw [e1, e2] at h1
  rw [h1, ← intervalIntegral.integral_comp_add_right (fun t => Real.exp (k * Real.cos (t - b)) * g t) b]
  simp only [add_sub_cancel_right]

theorem angle_odd (k : ℝ) : ∫ s in (-Real.pi)..Real.pi, Real.exp (k * Real.cos s) * Real.sin s = 0 := by
  have h := intervalIntegral.integral_comp_neg (a := -Real.pi) (b := Real.pi)
    (fun s => Real.exp (k * Real.cos s) * Real.sin s)
  simp only [Real.cos_neg, Real.sin_neg, neg_neg, mul_neg, intervalIntegral.integral_neg] at h
  linarith

theorem angle_even_pos {k : ℝ} (hk : 0 < k) : 0 < ∫ s in (-Real.pi)..Real.pi, Real.exp (k * Real.cos s) * Real.cos s := by
  have hpi := Real.pi_pos
  have hc : ∫ s in (-Real.pi)..Real.pi, Real.cos s = 0 := by simp
  have e : ∫ s in (-Real.pi)..Real.pi, Real.exp (k * Real.cos s) * Real.cos s =
      ∫ s in (-Real.pi)..Real.pi, (Real.exp (k * Real.cos s) - 1) * Real.cos s := by
    have : ∀ s, (Real.exp (k * Real.cos s) - 1) * Real.cos s = Real.exp (k * Real.cos s) * Real.cos s - Real.cos s :=
      fun s => by ring
    simp only [this]
    rw [intervalIntegral.integral_sub, hc, sub_zero]
    · exact (by fun_prop : Continuous fun s => Real.exp (k * Real.cos s) * Real.cos s).intervalIntegrable _ _
    · exact Real.continuous_cos.intervalIntegrable _ _
  rw [e]
  refine intervalIntegral.integral_pos (by linarith) (by fun_prop) (fun s _ => ?_) ⟨0, ⟨by linarith, by linarith⟩, ?_⟩
  · rcases le_total 0 (Real.cos s) with h | h
    · exact mul_nonneg (by linarith [Real.one_le_exp (mul_nonneg hk.le h)]) h
    · have : Real.exp (k * Real.cos s) ≤ 1 := Real.exp_le_one_iff.2 (mul_nonpos_of_nonneg_of_nonpos hk.le h)
      exact mul_nonneg_of_nonpos_of_nonpos (by linarith) h
  · rw [Real.cos_zero, mul_one, mul_one, sub_pos]
    exact Real.one_lt_exp_iff.2 hk

/-- the mean resultant: `E cos` and `E sin` are the coordinates of a positive multiple of the direction -/
theorem angle_moments {k : ℝ} (hk : 0 < k) (b : ℝ) : ∃ A > 0,
    Integrable Real.cos (angleLaw k b) ∧ Integrable Real.sin (angleLaw k b) ∧
      ∫ x, Real.cos x ∂angleLaw k b = A * Real.cos b ∧ ∫ x, Real.sin x ∂angleLaw k b = A * Real.sin b := by
  have hp := angle_norm_pos k b
  have := angle_prob k b
  set Z := ∫ t in Ioc (-Real.pi) Real.pi, Real.exp (k * Real.cos (t - b)) with hZ
  have key : ∀ g : ℝ → ℝ, Continuous g → ∫ x, g x ∂angleLaw k b =
      (∫ t in Ioc (-Real.pi) Real.pi, Real.exp (k * Real.cos (t - b)) * g t) / Z := by
    intro g hg
    rw [angleLaw, lawOn, integral_withDensity_eq_integral_toReal_smul₀]
    · rw [← integral_div]
      refine integral_congr_ae (Eventually.of_forall fun t => ?_)
      beta_reduce
      rw [ENNReal.toReal_ofReal (by positivity), smul_eq_mul, ← hZ]
      ring
    · exact ((angle_continuous k b).measurable.div_const _).ennreal_ofReal.aemeasurable
    · exact Eventually.of_forall fun _ => ENNReal.ofReal_lt_top
  have i1 : IntervalIntegrable (fun s => Real.exp (k * Real.cos s) * Real.cos s) volume (-Real.pi) Real.pi :=
    (by fun_prop : Continuous fun s => Real.exp (k * Real.cos s) * Real.cos s).intervalIntegrable _ _
  have i2 : IntervalIntegrable (fun s => Real.exp (k * Real.cos s) * Real.sin s) volume (-Real.pi) Real.pi :=
    (by fun_prop : Continuous fun s => Real.exp (k * Real.cos s) * Real.sin s).intervalIntegrable _ _
  refine ⟨(∫ s in (-Real.pi)..Real.pi, Real.exp (k * Real.cos s) * Real.cos s) / Z,
    div_pos (angle_even_pos hk) hp, ?_, ?_, ?_, ?_⟩
  · exact Integrable.of_bound Real.continuous_cos.aestronglyMeasurable 1
      (Eventually.of_forall fun x => Real.abs_cos_le_one x)
  · exact Integrable.of_bound Real.continuous_sin.aestronglyMeasurable 1
      (Eventually.of_forall fun x => Real.abs_sin_le_one x)
  · rw [key _ Real.continuous_cos, angle_shift k b Real.cos_periodic]
    have e : ∀ s, Real.exp (k * Real.cos s) * Real.cos (s + b) =
        Real.cos b * (Real.exp (k * Real.cos s) * Real.cos s) - Real.sin b * (Real.exp (k * Real.cos s) * Real.sin s) :=
      fun s => by rw [Real.cos_add]; ring
    simp only [e]
    rw [intervalIntegral.integral_sub (i1.const_mul _) (i2.const_mul _), intervalIntegral.integral_const_mul,
      intervalIntegral.integral_const_mul, angle_odd]
    ring
  · rw [key _ Real.continuous_sin, angle_shift k b Real.sin_periodic]
    have e : ∀ s, Real.exp (k * Real.cos s) * Real.sin (s + b) =
        Real.cos b * (Real.exp (k * Real.cos s) * Real.sin s) + Real.sin b * (Real.exp (k * Real.cos s) * Real.cos s) :=
      fun s => by rw [Real.sin_add]; ring
    simp only [e]
    rw [intervalIntegral.integral_add (i2.const_mul _) (i1.const_mul _), intervalIntegral.integral_const_mul,
      intervalIntegral.integral_const_mul, angle_odd]
    ring

/-- `np.arctan2` of averages -/
theorem tendsto_arctan2 {y x : ℕ → ℝ} {A m : ℝ} (hA : 0 < A) (hm : |m| < Real.pi)
    (hy : Tendsto (fun n : ℕ => y n / n) atTop (𝓝 (A * Real.sin m)))
    (hx : Tendsto (fun n : ℕ => x n / n) atTop (𝓝 (A * Real.cos m))) :
    Tendsto (fun n => arctan2 (y n) (x n)) atTop (𝓝 m) := by
  obtain ⟨hm1, hm2⟩ := abs_lt.1 hm
  have hlim : Tendsto (fun n : ℕ => (⟨x n / n, y n / n⟩ : ℂ)) atTop (𝓝 ⟨A * Real.cos m, A * Real.sin m⟩) := by
    have h1 : Tendsto (fun n : ℕ => ((x n / n : ℝ) : ℂ) + ((y n / n : ℝ) : ℂ) * Complex.I) atTop
        (𝓝 (((A * Real.cos m : ℝ) : ℂ) + ((A * Real.sin m : ℝ) : ℂ) * Complex.I)) :=
      ((Complex.continuous_ofReal.tendsto _).comp hx).add (((Complex.continuous_ofReal.tendsto _).comp hy).mul_const _)
    have e : ∀ u v : ℝ, ((u : ℝ) : ℂ) + ((v : ℝ) : ℂ) * Complex.I = ⟨u, v⟩ := fun u v =>
      (Complex.mk_eq_add_mul_I u v).symm
    simpa only [e] using h1
  have hpt : (⟨A * Real.cos m, A * Real.sin m⟩ : ℂ) = (A : ℂ) * (Complex.cos m + Complex.sin m * Complex.I) := by
    apply Complex.ext <;> simp [Complex.cos_ofReal_re, Complex.sin_ofReal_re, Complex.cos_ofReal_im, Complex.sin_ofReal_im]
  have harg : Complex.arg (⟨A * Real.cos m, A * Real.sin m⟩ : ℂ) = m := by
    rw [hpt]
    exact Complex.arg_mul_cos_add_sin_mul_I hA ⟨hm1, hm2.le⟩
  have hslit : (⟨A * Real.cos m, A * Real.sin m⟩ : ℂ) ∈ Complex.slitPlane := by
    rw [Complex.mem_slitPlane_iff_arg]
    refine ⟨by rw [harg]; exact hm2.ne, ?_⟩
    rw [hpt]
    refine mul_ne_zero (by exact_mod_cast hA.ne') ?_
    rw [← Complex.exp_mul_I]
    exact Complex.exp_ne_zero _
  have h2 := ((Complex.continuousAt_arg hslit).tendsto).comp hlim
  rw [harg] at h2
  refine h2.congr' ?_
  filter_upwards [eventually_gt_atTop 0] with n hn
  have hn' : (0 : ℝ) < n := by positivity
  have e : (⟨x n / n, y n / n⟩ : ℂ) = ((1 / n : ℝ) : ℂ) * ⟨x n, y n⟩ := by
    apply Complex.ext <;> simp <;> ring
  simp only [Function.comp_apply, arctan2]
  rw [e, Complex.arg_real_mul _ (by positivity)]

end Conj
