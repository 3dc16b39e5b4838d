import Verif.Lemmas.LawOn
import Verif.Lemmas.ConcentrationJoint
import Mathlib.Analysis.Convex.Function
import Mathlib.Analysis.SpecialFunctions.JapaneseBracket
import Mathlib.MeasureTheory.Integral.IntegralEqImproper
import Mathlib.MeasureTheory.Measure.Haar.Basic

/-!
# Log-concave kernels concentrate at the maximum of the limiting exponent
-/

open MeasureTheory Set Filter Topology

namespace Conj

open Scipy Spec

variable {E : Type} [NormedAddCommGroup E] [NormedSpace ℝ E] [FiniteDimensional ℝ E] [MeasureSpace E] [BorelSpace E]
  [(volume : Measure E).IsAddHaarMeasure]

omit [FiniteDimensional ℝ E] [MeasureSpace E] [BorelSpace E] [(volume : Measure E).IsAddHaarMeasure] in
/-- a concave function that has dropped by `a` on the sphere keeps dropping at that rate -/
theorem concave_outside {U : Set E} {H : E → ℝ} (hc : ConcaveOn ℝ U H) {x₀ : E} {e a : ℝ} (he : 0 < e) (hx0 : x₀ ∈ U)
    (hs : ∀ y ∈ Metric.sphere x₀ e, y ∈ U → H y ≤ H x₀ - a) {x : E} (hx : x ∈ U) (h : e ≤ ‖x - x₀‖) :
    H x ≤ H x₀ - a * (‖x - x₀‖ / e) := by
  have hd : 0 < ‖x - x₀‖ := by linarith
  have ht : 0 < e / ‖x - x₀‖ := by positivity
  have ht1 : e / ‖x - x₀‖ ≤ 1 := (div_le_one hd).2 h
  have h1 := hc.2 hx0 hx (sub_nonneg.2 ht1) ht.le (by ring)
  have hmem := hc.1 hx0 hx (sub_nonneg.2 ht1) ht.le (by ring)
  have e1 : (1 - e / ‖x - x₀‖) • x₀ + (e / ‖x - x₀‖) • x = x₀ + (e / ‖x - x₀‖) • (x - x₀) := by
    rw [sub_smul, one_smul, smul_sub]
    abel
  rw [e1] at h1 hmem
  have h2 := hs (x₀ + (e / ‖x - x₀‖) • (x - x₀)) (by
    rw [mem_sphere_iff_norm, add_sub_cancel_left, norm_smul, Real.norm_of_nonneg ht.le, div_mul_cancel₀ _ hd.ne']) hmem
  simp only [smul_eq_mul] at h1
  have h3 : e / ‖x - x₀‖ * (H x - H x₀) ≤ -a := by linarith
  have h4 : H x - H x₀ ≤ -a / (e / ‖x - x₀‖) := by
    rw [le_div_iff₀ ht]
    linarith
  have e2 : -a / (e / ‖x - x₀‖) = -(a * (‖x - x₀‖ / e)) := by
    rw [div_div_eq_mul_div, neg_mul, neg_div, mul_div_assoc]
  linarith

theorem integrable_exp_neg_norm (x₀ : E) : Integrable fun x : E => Real.exp (-‖x - x₀‖) := by
  have h0 : Integrable fun x : E => Real.exp (-‖x‖) := by
    set r : ℕ := Module.finrank ℝ E + 1 with hr
    have h := (integrable_one_add_norm (μ := (volume : Measure E)) (E := E) (r := r)
      (by rw [hr]; push_cast; linarith)).const_mul (r.factorial * Real.exp 1)
    refine h.mono' (by fun_prop) (Eventually.of_forall fun x => ?_)
    rw [Real.norm_of_nonneg (Real.exp_pos _).le, Real.rpow_neg (by positivity), Real.rpow_natCast, ← div_eq_mul_inv,
      le_div_iff₀ (by positivity)]
    have h1 := Real.pow_div_factorial_le_exp (1 + ‖x‖) (by positivity) r
    rw [div_le_iff₀ (by positivity)] at h1
    calc Real.exp (-‖x‖) * (1 + ‖x‖) ^ r ≤ Real.exp (-‖x‖) * (Real.exp (1 + ‖x‖) * r.factorial) := by gcongr
      _ = r.factorial * Real.exp 1 := by
          rw [← mul_assoc, ← Real.exp_add, show -‖x‖ + (1 + ‖x‖) = 1 by ring]
          ring
  exact h0.comp_sub_right x₀

section fixed
variable {U : Set E} (hU : IsOpen U) {H : E → ℝ} (hc : ConcaveOn ℝ U H) (hcont : ContinuousOn H U) {x₀ : E} {e a : ℝ}
  (he : 0 < e) (hb : Metric.closedBall x₀ e ⊆ U) (ha : e ≤ a)

include hU hc hcont he hb ha in
theorem concave_tail {ρ b : ℝ} (hρ : 0 < ρ) (hρe : ρ ≤ e) (hs : ∀ y ∈ Metric.sphere x₀ e, H y ≤ H x₀ - a)
    (hm : ∀ y ∈ Metric.closedBall x₀ ρ, H x₀ - b ≤ H y) :
    IntegrableOn (fun x => Real.exp (H x)) U ∧
      lawOn U (fun x => Real.exp (H x) / ∫ t in U, Real.exp (H t)) (Metric.ball x₀ e)ᶜ ≤
        ENNReal.ofReal (Real.exp e * (∫ x : E, Real.exp (-‖x - x₀‖)) / volume.real (Metric.closedBall x₀ ρ) *
          Real.exp (b - a)) := by
  have hx0 : x₀ ∈ U := hb (Metric.mem_closedBall_self he.le)
  have hexp : ContinuousOn (fun x => Real.exp (H x)) U := Real.continuous_exp.comp_continuousOn hcont
  have hmeas : AEMeasurable (fun x => Real.exp (H x)) (volume.restrict U) := hexp.aemeasurable hU.measurableSet
  have hR : ∀ x ∈ U ∩ (Metric.ball x₀ e)ᶜ,
      Real.exp (H x) ≤ Real.exp (H x₀ - a + e) * Real.exp (-‖x - x₀‖) := by
    rintro x ⟨hx, hx'⟩
    have hd : e ≤ ‖x - x₀‖ := by
      rwa [mem_compl_iff, Metric.mem_ball, not_lt, dist_eq_norm] at hx'
    rw [← Real.exp_add]
    refine Real.exp_le_exp.2 ((concave_outside hc he hx0 (fun y hy _ => hs y hy) hx hd).trans ?_)
    have h1 : a * (‖x - x₀‖ / e) = a + a * ((‖x - x₀‖ - e) / e) := by field_simp; ring
    have h2 : ‖x - x₀‖ - e ≤ a * ((‖x - x₀‖ - e) / e) := by
      calc ‖x - x₀‖ - e = e * ((‖x - x₀‖ - e) / e) := by field_simp
        _ ≤ a * ((‖x - x₀‖ - e) / e) :=
          mul_le_mul_of_nonneg_right ha (div_nonneg (sub_nonneg.2 hd) he.le)
    linarith
  have hSm : MeasurableSet (U ∩ (Metric.ball x₀ e)ᶜ) := hU.measurableSet.inter measurableSet_ball.compl
  have hd : Integrable fun x : E => Real.exp (H x₀ - a + e) * Real.exp (-‖x - x₀‖) :=
    (integrable_exp_neg_norm x₀).const_mul _
  have iR : IntegrableOn (fun x => Real.exp (H x)) (U ∩ (Metric.ball x₀ e)ᶜ) := by
    refine Integrable.mono' hd.integrableOn (hmeas.mono_set inter_subset_left).aestronglyMeasurable ?_
    filter_upwards [ae_restrict_mem hSm] with x hx'
    rw [Real.norm_eq_abs, abs_of_pos (Real.exp_pos _)]
    exact hR x hx'
  have iM : IntegrableOn (fun x => Real.exp (H x)) (Metric.closedBall x₀ e) :=
    (hexp.mono hb).integrableOn_compact (isCompact_closedBall x₀ e)
  have hint : IntegrableOn (fun x => Real.exp (H x)) U := by
    refine (iR.union iM).mono_set fun x hx' => ?_
    by_cases h : x ∈ Metric.ball x₀ e
    · exact Or.inr (Metric.ball_subset_closedBall h)
    · exact Or.inl ⟨hx', h⟩
  refine ⟨hint, ?_⟩
  have hV : 0 < volume.real (Metric.closedBall x₀ ρ) :=
    ENNReal.toReal_pos (Metric.measure_closedBall_pos volume x₀ hρ).ne' measure_closedBall_lt_top.ne
  have hZ : volume.real (Metric.closedBall x₀ ρ) * Real.exp (H x₀ - b) ≤ ∫ t in U, Real.exp (H t) := by
    have hsub : Metric.closedBall x₀ ρ ⊆ U := (Metric.closedBall_subset_closedBall hρe).trans hb
    have h1 : ∫ t in Metric.closedBall x₀ ρ, Real.exp (H x₀ - b) ≤ ∫ t in Metric.closedBall x₀ ρ, Real.exp (H t) :=
      setIntegral_mono_on (integrableOn_const measure_closedBall_lt_top.ne) (hint.mono_set hsub)
        measurableSet_closedBall fun t ht => Real.exp_le_exp.2 (hm t ht)
    have h2 : ∫ t in Metric.closedBall x₀ ρ, Real.exp (H t) ≤ ∫ t in U, Real.exp (H t) :=
      setIntegral_mono_set hint (Eventually.of_forall fun _ => (Real.exp_pos _).le) (LE.le.eventuallyLE hsub)
    refine le_trans (le_of_eq ?_) (h1.trans h2)
    rw [setIntegral_const, smul_eq_mul]
  set Z := ∫ t in U, Real.exp (H t) with hZdef
  have hZ0 : 0 < Z := lt_of_lt_of_le (by positivity) hZ
  set C := ∫ x : E, Real.exp (-‖x - x₀‖) with hC
  have hC0 : 0 ≤ C := integral_nonneg fun _ => (Real.exp_pos _).le
  rw [lawOn, withDensity_apply _ measurableSet_ball.compl, Measure.restrict_restrict measurableSet_ball.compl,
    inter_comm]
  calc _ ≤ ∫⁻ x in U ∩ (Metric.ball x₀ e)ᶜ, ENNReal.ofReal (Real.exp (H x₀ - a + e) * Real.exp (-‖x - x₀‖) / Z) :=
          setLIntegral_mono' hSm fun x hx' =>
            ENNReal.ofReal_le_ofReal (div_le_div_of_nonneg_right (hR x hx') hZ0.le)
    _ ≤ ∫⁻ x, ENNReal.ofReal (Real.exp (H x₀ - a + e) * Real.exp (-‖x - x₀‖) / Z) := setLIntegral_le_lintegral _ _
    _ = ENNReal.ofReal (Real.exp (H x₀ - a + e) * C / Z) := by
        rw [← ofReal_integral_eq_lintegral_ofReal (hd.div_const _) (Eventually.of_forall fun x => by positivity),
          integral_div, integral_const_mul]
    _ ≤ _ := by
        refine ENNReal.ofReal_le_ofReal ?_
        rw [div_le_iff₀ hZ0]
        have e1 : Real.exp (H x₀ - a + e) = Real.exp e * Real.exp (b - a) * Real.exp (H x₀ - b) := by
          rw [← Real.exp_add, ← Real.exp_add]; congr 1; ring
        calc Real.exp (H x₀ - a + e) * C
            = Real.exp e * C / volume.real (Metric.closedBall x₀ ρ) * Real.exp (b - a) *
              (volume.real (Metric.closedBall x₀ ρ) * Real.exp (H x₀ - b)) := by
              rw [e1]; field_simp
          _ ≤ _ := mul_le_mul_of_nonneg_left hZ (by positivity)

end fixed

/-- kernels `exp (H n)` whose exponents are concave and, divided by `n`, tend to a function with a strict maximum
at `x₀`: from some `n` on the kernel is integrable, and the normalised law concentrates at `x₀` -/
theorem concentrates_concave {U : Set E} (hU : IsOpen U) {H : ℕ → E → ℝ} {h : E → ℝ} {x₀ : E} (hx0 : x₀ ∈ U)
    (hc : ∀ᶠ n in atTop, ConcaveOn ℝ U (H n)) (hcont : ∀ n, ContinuousOn (H n) U)
    (hlim : ∀ K ⊆ U, IsCompact K → TendstoUniformlyOn (fun (n : ℕ) x => H n x / n) h atTop K)
    (hh : ContinuousOn h U) (hmax : ∀ x ∈ U, x ≠ x₀ → h x < h x₀) :
    (∀ᶠ n in atTop, IntegrableOn (fun x => Real.exp (H n x)) U) ∧
      ConcentratesAt (fun n => lawOn U fun x => Real.exp (H n x) / ∫ t in U, Real.exp (H n t)) x₀ := by
  have key : ∀ ε > 0, ∃ e > 0, e ≤ ε ∧ ∃ C ≥ 0, ∃ η > 0, ∀ᶠ n : ℕ in atTop,
      IntegrableOn (fun x => Real.exp (H n x)) U ∧
      lawOn U (fun x => Real.exp (H n x) / ∫ t in U, Real.exp (H n t)) (Metric.ball x₀ e)ᶜ ≤
        ENNReal.ofReal (C * Real.exp (-(n * η))) := by
    intro ε hε
    obtain ⟨δ, hδ, hδU⟩ := Metric.nhds_basis_closedBall.mem_iff.1 (hU.mem_nhds hx0)
    set e := min ε δ with he
    have he0 : 0 < e := lt_min hε hδ
    have heU : Metric.closedBall x₀ e ⊆ U := (Metric.closedBall_subset_closedBall (min_le_right _ _)).trans hδU
    have hsU : Metric.sphere x₀ e ⊆ U := Metric.sphere_subset_closedBall.trans heU
    -- the drop of the limit on the sphere
    obtain ⟨η, hη, hdrop⟩ : ∃ η > 0, ∀ y ∈ Metric.sphere x₀ e, h y ≤ h x₀ - η := by
      rcases (Metric.sphere x₀ e).eq_empty_or_nonempty with hemp | hne
      · exact ⟨1, one_pos, fun y hy => by simp [hemp] at hy⟩
      · obtain ⟨y, hy, hymax⟩ := (isCompact_sphere x₀ e).exists_isMaxOn hne (hh.mono hsU)
        refine ⟨h x₀ - h y, sub_pos.2 (hmax y (hsU hy) ?_), fun z hz => ?_⟩
        · rintro rfl
          rw [Metric.mem_sphere, dist_self] at hy
          exact he0.ne hy
        · have := hymax hz
          rw [sub_sub_cancel]
          exact this
    obtain ⟨d, hd, hd2⟩ := Metric.continuousAt_iff.1 (hh.continuousAt (hU.mem_nhds hx0)) (η / 16) (by positivity)
    set ρ := min e (d / 2) with hρ
    have hρ0 : 0 < ρ := lt_min he0 (by positivity)
    have hρle : ρ ≤ e := min_le_left _ _
    have hu := Metric.tendstoUniformlyOn_iff.1 (hlim _ heU (isCompact_closedBall x₀ e)) (η / 16) (by positivity)
    have hbig : ∀ᶠ n : ℕ in atTop, e ≤ n * (η / 2) :=
      (tendsto_natCast_atTop_atTop.atTop_mul_const (by positivity)).eventually_ge_atTop e
    refine ⟨e, he0, min_le_left _ _,
      Real.exp e * (∫ x : E, Real.exp (-‖x - x₀‖)) / volume.real (Metric.closedBall x₀ ρ),
      div_nonneg (mul_nonneg (Real.exp_pos _).le (integral_nonneg fun _ => (Real.exp_pos _).le)) measureReal_nonneg,
      η / 4, by positivity, ?_⟩
    filter_upwards [hu, hc, hbig, eventually_gt_atTop 0] with n hn hcn hbn hn0
    have hn' : (0 : ℝ) < n := by positivity
    have hnear : ∀ y ∈ Metric.closedBall x₀ e, |H n y - n * h y| ≤ n * (η / 16) := by
      intro y hy
      have := hn y hy
      rw [Real.dist_eq, abs_sub_comm] at this
      calc |H n y - n * h y| = n * |H n y / n - h y| := by
            rw [← abs_of_pos hn', ← abs_mul, abs_of_pos hn']
            congr 1
            field_simp
        _ ≤ n * (η / 16) := mul_le_mul_of_nonneg_left this.le hn'.le
    have h0 := abs_le.1 (hnear x₀ (Metric.mem_closedBall_self he0.le))
    have hs : ∀ y ∈ Metric.sphere x₀ e, H n y ≤ H n x₀ - n * (η / 2) := by
      intro y hy
      have h1 := abs_le.1 (hnear y (Metric.sphere_subset_closedBall hy))
      have h2 := mul_le_mul_of_nonneg_left (hdrop y hy) hn'.le
      have h3 := mul_pos hn' hη
      linarith [h1.1, h1.2, h0.1, h0.2]
    have hm : ∀ y ∈ Metric.closedBall x₀ ρ, H n x₀ - n * (η / 4) ≤ H n y := by
      intro y hy
      have h1 := abs_le.1 (hnear y (Metric.closedBall_subset_closedBall hρle hy))
      have h2 : h x₀ - η / 16 ≤ h y := by
        have hlt : dist y x₀ < d := lt_of_le_of_lt (Metric.mem_closedBall.1 hy)
          (lt_of_le_of_lt (min_le_right _ _) (by linarith))
        have := hd2 hlt
        rw [Real.dist_eq] at this
        linarith [(abs_lt.1 this).1]
      have h2 := mul_le_mul_of_nonneg_left h2 hn'.le
      have h3 := mul_pos hn' hη
      linarith [h1.1, h1.2, h0.1, h0.2]
    have := concave_tail hU hcn (hcont n) he0 heU hbn hρ0 hρle hs hm
    refine ⟨this.1, this.2.trans (le_of_eq ?_)⟩
    congr 3
    ring
  have hprob : ∀ᶠ n in atTop, IntegrableOn (fun x => Real.exp (H n x)) U := by
    obtain ⟨e, -, -, C, -, η, -, h⟩ := key 1 one_pos
    filter_upwards [h] with n hn using hn.1
  refine ⟨hprob, concentrates_of_compl ?_ fun ε hε => ?_⟩
  · filter_upwards [hprob] with n hn
    refine lawOn_prob hU.measurableSet ⟨fun x _ => ?_, hn.div_const _, ?_⟩
    · exact div_nonneg (Real.exp_pos _).le (integral_nonneg fun _ => (Real.exp_pos _).le)
    · rw [integral_div, div_self]
      refine ((setIntegral_pos_iff_support_of_nonneg_ae (Eventually.of_forall fun _ => (Real.exp_pos _).le) hn).2 ?_).ne'
      rw [Function.support_eq_univ (f := fun x => Real.exp (H n x)) fun x => (Real.exp_pos _).ne', univ_inter]
      exact hU.measure_pos volume ⟨x₀, hx0⟩
  · obtain ⟨e, he0, hle, C, hC, η, hη, h⟩ := key ε hε
    have hz : Tendsto (fun n : ℕ => ENNReal.ofReal (C * Real.exp (-(n * η)))) atTop (𝓝 0) := by
      have h3 : Tendsto (fun n : ℕ => Real.exp (-((n : ℝ) * η))) atTop (𝓝 0) :=
        Real.tendsto_exp_neg_atTop_nhds_zero.comp (tendsto_natCast_atTop_atTop.atTop_mul_const hη)
      have := ENNReal.tendsto_ofReal (h3.const_mul C)
      simpa using this
    refine tendsto_of_tendsto_of_tendsto_of_le_of_le' tendsto_const_nhds hz (Eventually.of_forall fun _ => zero_le) ?_
    filter_upwards [h] with n hn
    exact (measure_mono (compl_subset_compl.2 (Metric.ball_subset_ball hle))).trans hn.2

/-- the same for exponents that are sums of finitely many fixed functions with coefficients growing like `n` -/
theorem concentrates_family {ι : Type} [Fintype ι] {U : Set E} (hU : IsOpen U) {c : ℕ → ι → ℝ} {c₀ : ι → ℝ} {T : ι → E → ℝ}
    {x₀ : E} (hx0 : x₀ ∈ U) (hT : ∀ j, ContinuousOn (T j) U)
    (hc : ∀ᶠ n in atTop, ConcaveOn ℝ U fun x => ∑ j, c n j * T j x)
    (hlim : ∀ j, Tendsto (fun n : ℕ => c n j / n) atTop (𝓝 (c₀ j)))
    (hmax : ∀ x ∈ U, x ≠ x₀ → ∑ j, c₀ j * T j x < ∑ j, c₀ j * T j x₀) :
    (∀ᶠ n in atTop, IntegrableOn (fun x => Real.exp (∑ j, c n j * T j x)) U) ∧
      ConcentratesAt (fun n => lawOn U fun x => Real.exp (∑ j, c n j * T j x) /
        ∫ t in U, Real.exp (∑ j, c n j * T j t)) x₀ := by
  refine concentrates_concave hU (H := fun n x => ∑ j, c n j * T j x) (h := fun x => ∑ j, c₀ j * T j x) hx0 hc
    (fun n => continuousOn_finset_sum _ fun j _ => continuousOn_const.mul (hT j)) ?_
    (continuousOn_finset_sum _ fun j _ => continuousOn_const.mul (hT j)) hmax
  intro K hKU hK
  have hbound : ∀ j, ∃ M, ∀ x ∈ K, |T j x| ≤ M := fun j => by
    obtain ⟨M, hM⟩ := hK.exists_bound_of_continuousOn ((hT j).mono hKU)
    exact ⟨M, hM⟩
  choose M hM using hbound
  rw [Metric.tendstoUniformlyOn_iff]
  intro ε hε
  have hz : Tendsto (fun n : ℕ => ∑ j, |c n j / n - c₀ j| * M j) atTop (𝓝 0) := by
    have : Tendsto (fun n : ℕ => ∑ j, |c n j / n - c₀ j| * M j) atTop (𝓝 (∑ j, |c₀ j - c₀ j| * M j)) :=
      tendsto_finset_sum _ fun j _ => (((hlim j).sub_const _).abs).mul_const _
    simpa using this
  filter_upwards [hz.eventually (gt_mem_nhds hε)] with n hn x hx
  rw [dist_comm, Real.dist_eq, Finset.sum_div, ← Finset.sum_sub_distrib]
  refine lt_of_le_of_lt (Finset.abs_sum_le_sum_abs _ _ |>.trans (Finset.sum_le_sum fun j _ => ?_)) hn
  rw [show c n j * T j x / n - c₀ j * T j x = (c n j / n - c₀ j) * T j x by ring, abs_mul]
  exact mul_le_mul_of_nonneg_left (hM j x hx) (abs_nonneg _)

end Conj
