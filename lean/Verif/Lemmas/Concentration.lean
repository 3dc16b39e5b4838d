import Verif.ConsistencySpec
import Verif.Lemmas.LawFamilies
import Verif.Lemmas.Sums
import Mathlib.Probability.StrongLaw
import Mathlib.Probability.Independence.InfinitePi
import Mathlib.Probability.Distributions.Gaussian.Real

/-! Concentration from moments, and the strong law of large numbers. -/

open MeasureTheory Set Filter Topology ProbabilityTheory

set_option linter.unusedSectionVars false

namespace Conj

open Scipy Spec

/-! ## Independent data -/

section
variable {Ω A B : Type} [MeasurableSpace Ω] [MeasurableSpace A] [MeasurableSpace B]

theorem exists_iid (law : Measure A) [IsProbabilityMeasure law] :
    ∃ (Q : Measure (ℕ → A)) (X : ℕ → (ℕ → A) → A), IsProbabilityMeasure Q ∧ IIDFrom Q X law := by
  refine ⟨Measure.infinitePi fun _ => law, fun i xs => xs i, inferInstance, fun i => measurable_pi_apply i,
    fun i => ?_, ?_⟩
  · exact Measure.infinitePi_map_eval (μ := fun _ : ℕ => law) i
  · exact iIndepFun_infinitePi (P := fun _ : ℕ => law) (X := fun _ x => x) fun _ => measurable_id

/-- the strong law of large numbers for a statistic of the observations -/
theorem iid_average {Q : Measure Ω} {X : ℕ → Ω → A} {law : Measure A} (h : IIDFrom Q X law) {T : A → ℝ}
    (hT : Measurable T) (hi : Integrable T law) :
    ∀ᵐ ω ∂Q, Tendsto (fun n : ℕ => (∑ i ∈ Finset.range n, T (X i ω)) / n) atTop (𝓝 (∫ x, T x ∂law)) := by
  have hm := h.measurable
  have e : ∫ x, T x ∂law = ∫ ω, T (X 0 ω) ∂Q := by
    rw [← h.law 0, integral_map (hm 0).aemeasurable hT.aestronglyMeasurable]
  rw [e]
  refine strong_law_ae_real (fun i ω => T (X i ω)) ?_ ?_ ?_
  · have := hi
    rw [← h.law 0] at this
    exact this.comp_measurable (hm 0)
  · intro i j hij
    exact (h.indep.indepFun hij).comp hT hT
  · intro i
    refine ⟨(hT.comp (hm i)).aemeasurable, (hT.comp (hm 0)).aemeasurable, ?_⟩
    rw [show (fun ω => T (X i ω)) = T ∘ X i from rfl, show (fun ω => T (X 0 ω)) = T ∘ X 0 from rfl,
      ← Measure.map_map hT (hm i), ← Measure.map_map hT (hm 0), h.law i, h.law 0]

/-- all observations have a property of almost every draw -/
theorem iid_forall {Q : Measure Ω} {X : ℕ → Ω → A} {law : Measure A} (h : IIDFrom Q X law) {p : A → Prop}
    (hp : ∀ᵐ x ∂law, p x) : ∀ᵐ ω ∂Q, ∀ i, p (X i ω) := by
  rw [ae_all_iff]
  intro i
  have := hp
  rw [← h.law i] at this
  exact ae_of_ae_map (h.measurable i).aemeasurable this

end

/-! ## Limits of parameters -/

section
variable {A B : ℕ → ℝ} {a b c d : ℝ}

theorem tendsto_const_div : Tendsto (fun n : ℕ => c / (n : ℝ)) atTop (𝓝 0) :=
  tendsto_const_nhds.div_atTop tendsto_natCast_atTop_atTop

theorem average_const_add (h : Tendsto (fun n : ℕ => A n / n) atTop (𝓝 a)) :
    Tendsto (fun n : ℕ => (c + A n) / n) atTop (𝓝 a) := by
  simpa [add_div] using (tendsto_const_div (c := c)).add h

theorem average_linear : Tendsto (fun n : ℕ => (d * n) / (n : ℝ)) atTop (𝓝 d) := by
  refine tendsto_const_nhds.congr' ?_
  filter_upwards [eventually_gt_atTop 0] with n hn
  field_simp

theorem average_sub (h : Tendsto (fun n : ℕ => A n / n) atTop (𝓝 a))
    (h' : Tendsto (fun n : ℕ => B n / n) atTop (𝓝 b)) :
    Tendsto (fun n : ℕ => (A n - B n) / n) atTop (𝓝 (a - b)) := by
  simpa [sub_div] using h.sub h'

theorem average_add (h : Tendsto (fun n : ℕ => A n / n) atTop (𝓝 a))
    (h' : Tendsto (fun n : ℕ => B n / n) atTop (𝓝 b)) :
    Tendsto (fun n : ℕ => (A n + B n) / n) atTop (𝓝 (a + b)) := by
  simpa [add_div] using h.add h'

theorem average_mul (h : Tendsto (fun n : ℕ => A n / n) atTop (𝓝 a)) :
    Tendsto (fun n : ℕ => (c * A n) / n) atTop (𝓝 (c * a)) := by
  simpa [mul_div_assoc] using h.const_mul c

theorem ratio_of_averages (h : Tendsto (fun n : ℕ => A n / n) atTop (𝓝 a))
    (h' : Tendsto (fun n : ℕ => B n / n) atTop (𝓝 b)) (hb : b ≠ 0) :
    Tendsto (fun n => A n / B n) atTop (𝓝 (a / b)) := by
  refine (h.div h' hb).congr' ?_
  filter_upwards [eventually_gt_atTop 0] with n hn
  have hn' : (n : ℝ) ≠ 0 := by positivity
  simp only [Pi.div_apply]
  rw [div_div_div_cancel_right₀ hn']

theorem atTop_of_average (h : Tendsto (fun n : ℕ => B n / n) atTop (𝓝 b)) (hb : 0 < b) :
    Tendsto B atTop atTop := by
  refine (h.pos_mul_atTop hb tendsto_natCast_atTop_atTop).congr' ?_
  filter_upwards [eventually_gt_atTop 0] with n hn
  have hn' : (n : ℝ) ≠ 0 := by positivity
  field_simp

end

/-! ## Concentration -/

theorem concentrates_of_moments {post : ℕ → Measure ℝ} {mean var : ℕ → ℝ} {x₀ : ℝ}
    (hp : ∀ᶠ n in atTop, IsProbabilityMeasure (post n))
    (h2 : ∀ᶠ n in atTop, ∫⁻ x, ENNReal.ofReal ((x - mean n) ^ 2) ∂post n ≤ ENNReal.ofReal (var n))
    (hm : Tendsto mean atTop (𝓝 x₀)) (hv : Tendsto var atTop (𝓝 0)) : ConcentratesAt post x₀ := by
  intro ε hε
  have hz : Tendsto (fun n => ENNReal.ofReal (var n / (ε / 2) ^ 2)) atTop (𝓝 0) := by
    have := ENNReal.tendsto_ofReal (hv.div_const ((ε / 2) ^ 2))
    simpa using this
  have hb : ∀ᶠ n in atTop, 1 - ENNReal.ofReal (var n / (ε / 2) ^ 2) ≤ post n (Metric.ball x₀ ε) := by
    have hclose : ∀ᶠ n in atTop, dist (mean n) x₀ < ε / 2 := by
      have := Metric.tendsto_nhds.1 hm (ε / 2) (by positivity)
      exact this
    filter_upwards [hp, h2, hclose] with n hpn h2n hcn
    have hms : MeasurableSet (Metric.ball x₀ ε) := measurableSet_ball
    have hc : (Metric.ball x₀ ε)ᶜ ⊆ {x | ENNReal.ofReal ((ε / 2) ^ 2) ≤ ENNReal.ofReal ((x - mean n) ^ 2)} := by
      intro x hx
      have hx' : ε ≤ dist x x₀ := by simpa [Metric.mem_ball, not_lt] using hx
      have h3 : ε / 2 ≤ |x - mean n| := by
        have := dist_triangle x (mean n) x₀
        rw [Real.dist_eq x (mean n)] at this
        linarith
      have : (ε / 2) ^ 2 ≤ (x - mean n) ^ 2 := by
        rw [← sq_abs (x - mean n)]
        exact pow_le_pow_left₀ (by positivity) h3 2
      exact ENNReal.ofReal_le_ofReal this
    have hmk := mul_meas_ge_le_lintegral₀ (μ := post n) (f := fun x => ENNReal.ofReal ((x - mean n) ^ 2))
      (by fun_prop) (ENNReal.ofReal ((ε / 2) ^ 2))
    have hε2 : ENNReal.ofReal ((ε / 2) ^ 2) ≠ 0 := by
      simp only [ne_eq, ENNReal.ofReal_eq_zero, not_le]; positivity
    have hcomp : post n (Metric.ball x₀ ε)ᶜ ≤ ENNReal.ofReal (var n / (ε / 2) ^ 2) := by
      refine (measure_mono hc).trans ?_
      rw [ENNReal.ofReal_div_of_pos (by positivity), ENNReal.le_div_iff_mul_le (Or.inl hε2) (Or.inl ENNReal.ofReal_ne_top),
        mul_comm]
      exact hmk.trans h2n
    rw [prob_compl_eq_one_sub hms] at hcomp
    exact tsub_le_iff_tsub_le.1 hcomp
  have hle : ∀ᶠ n in atTop, post n (Metric.ball x₀ ε) ≤ 1 := by
    filter_upwards [hp] with n hpn
    exact prob_le_one
  have hl : Tendsto (fun n => 1 - ENNReal.ofReal (var n / (ε / 2) ^ 2)) atTop (𝓝 1) := by
    have := ENNReal.Tendsto.sub (tendsto_const_nhds (x := (1 : ENNReal))) hz (Or.inl ENNReal.one_ne_top)
    simpa using this
  exact tendsto_of_tendsto_of_tendsto_of_le_of_le' hl tendsto_const_nhds hb hle

/-- the quantiles of concentrating laws -/
theorem ppf_tendsto {post : ℕ → Measure ℝ} {x₀ q : ℝ} (hp : ∀ᶠ n in atTop, IsProbabilityMeasure (post n))
    (hc : ConcentratesAt post x₀) (h0 : 0 < q) (h1 : q < 1) : Tendsto (fun n => ppf (post n) q) atTop (𝓝 x₀) := by
  rw [Metric.tendsto_nhds]
  intro ε hε
  have hq : ENNReal.ofReal q < 1 := by rw [← ENNReal.ofReal_one]; exact (ENNReal.ofReal_lt_ofReal_iff one_pos).2 h1
  have hq' : ENNReal.ofReal (1 - q) < 1 := by
    rw [← ENNReal.ofReal_one]; exact (ENNReal.ofReal_lt_ofReal_iff one_pos).2 (by linarith)
  filter_upwards [hp, (hc (ε / 2) (by positivity)).eventually (lt_mem_nhds hq),
    (hc (ε / 2) (by positivity)).eventually (lt_mem_nhds hq')] with n hpn hn1 hn2
  rw [Real.ball_eq_Ioo] at hn1 hn2
  have hup : x₀ + ε / 2 ∈ {x | ENNReal.ofReal q ≤ post n (Iic x)} :=
    hn1.le.trans (measure_mono fun x hx => hx.2.le)
  have hlow : ∀ x ∈ {x | ENNReal.ofReal q ≤ post n (Iic x)}, x₀ - ε / 2 ≤ x := by
    intro x hx
    by_contra hlt
    push Not at hlt
    have hd : post n (Iic x) + post n (Ioo (x₀ - ε / 2) (x₀ + ε / 2)) ≤ 1 := by
      rw [← measure_union _ measurableSet_Ioo]
      · exact prob_le_one
      · rw [Set.disjoint_left]
        intro y hy hy'
        exact absurd (hy'.1.trans_le hy) (not_lt.2 hlt.le)
    have : ENNReal.ofReal q + ENNReal.ofReal (1 - q) < post n (Iic x) + post n (Ioo (x₀ - ε / 2) (x₀ + ε / 2)) :=
      ENNReal.add_lt_add_of_le_of_lt ENNReal.ofReal_ne_top hx hn2
    rw [← ENNReal.ofReal_add h0.le (by linarith), add_sub_cancel, ENNReal.ofReal_one] at this
    exact absurd (this.trans_le hd) (lt_irrefl _)
  have h3 : ppf (post n) q ≤ x₀ + ε / 2 := csInf_le ⟨_, hlow⟩ hup
  have h4 : x₀ - ε / 2 ≤ ppf (post n) q := le_csInf ⟨_, hup⟩ hlow
  rw [Real.dist_eq, abs_lt]
  constructor <;> linarith

theorem recovers_of_moments {post : ℕ → Measure ℝ} {mean var : ℕ → ℝ} {x₀ : ℝ}
    (hp : ∀ᶠ n in atTop, IsProbabilityMeasure (post n))
    (h2 : ∀ᶠ n in atTop, ∫⁻ x, ENNReal.ofReal ((x - mean n) ^ 2) ∂post n ≤ ENNReal.ofReal (var n))
    (hm : Tendsto mean atTop (𝓝 x₀)) (hv : Tendsto var atTop (𝓝 0))
    (hmean : ∀ᶠ n in atTop, Integrable (fun x => x) (post n) ∧ ∫ x, x ∂post n = mean n) : Recovers post x₀ where
  concentrates := concentrates_of_moments hp h2 hm hv
  mean_exists := hmean.mono fun _ h => h.1
  mean := hm.congr' (hmean.mono fun _ h => h.2.symm)
  quantile _ h0 h1 := ppf_tendsto hp (concentrates_of_moments hp h2 hm hv) h0 h1

/-- there is at most one point of concentration -/
theorem concentrates_unique {Y : Type} [MeasurableSpace Y] [MetricSpace Y] [OpensMeasurableSpace Y]
    {post : ℕ → Measure Y} {x y : Y} (hp : ∀ᶠ n in atTop, IsProbabilityMeasure (post n))
    (hx : ConcentratesAt post x) (hy : ConcentratesAt post y) : x = y := by
  by_contra hne
  have hd : 0 < dist x y / 2 := by have := dist_pos.2 hne; linarith
  have h := (hx _ hd).add (hy _ hd)
  have hle : ∀ᶠ n in atTop, post n (Metric.ball x (dist x y / 2)) + post n (Metric.ball y (dist x y / 2)) ≤ 1 := by
    filter_upwards [hp] with n hpn
    rw [← measure_union (Metric.ball_disjoint_ball (by linarith)) measurableSet_ball]
    exact prob_le_one
  have := le_of_tendsto h hle
  norm_num at this

section moments
variable {X : Type} [MeasureSpace X] {S : Set X} {f f1 f2 : X → ℝ} {c1 c2 : ℝ}

theorem mean_of_tilt (hS : MeasurableSet S) (hf : IsDensity volume S f) (hf1 : IsDensity volume S f1) {T : X → ℝ}
    (h1 : ∀ x ∈ S, T x * f x = c1 * f1 x) :
    Integrable T (lawOn S f) ∧ ∫ x, T x ∂lawOn S f = c1 := by
  have hfm : AEMeasurable (fun x => Real.toNNReal (f x)) (volume.restrict S) :=
    hf.2.1.aestronglyMeasurable.aemeasurable.real_toNNReal
  have e : lawOn S f = (volume.restrict S).withDensity fun x => ((Real.toNNReal (f x) : NNReal) : ENNReal) := rfl
  have h : ∀ x ∈ S, Real.toNNReal (f x) • T x = c1 * f1 x := by
    intro x hx
    rw [NNReal.smul_def, Real.coe_toNNReal _ (hf.1 x hx), smul_eq_mul, mul_comm, h1 x hx]
  constructor
  · rw [e, integrable_withDensity_iff_integrable_smul₀ hfm]
    exact (hf1.2.1.const_mul c1).congr ((ae_restrict_mem hS).mono fun x hx => (h x hx).symm)
  · rw [e, integral_withDensity_eq_integral_smul₀ hfm, setIntegral_congr_fun hS h, integral_const_mul, hf1.2.2,
      mul_one]

theorem variance_of_tilt' {T : X → ℝ} (hT : Measurable T) (hS : MeasurableSet S) (hf : IsDensity volume S f) (hf1 : IsDensity volume S f1)
    (hf2 : IsDensity volume S f2) (h1 : ∀ x ∈ S, T x * f x = c1 * f1 x) (h2 : ∀ x ∈ S, T x * f1 x = c2 * f2 x) :
    ∫⁻ x, ENNReal.ofReal ((T x - c1) ^ 2) ∂lawOn S f = ENNReal.ofReal (c1 * c2 - c1 ^ 2) := by
  rw [lintegral_lawOn hf (by fun_prop)]
  have e : ∀ x ∈ S, f x * (T x - c1) ^ 2 = c1 * c2 * f2 x - 2 * c1 * (c1 * f1 x) + c1 ^ 2 * f x := by
    intro x hx
    rw [← h1 x hx, show c1 * c2 * f2 x = T x * (T x * f x) by rw [h1 x hx, mul_assoc, ← h2 x hx]; ring]
    ring
  have hi : IntegrableOn (fun x => f x * (T x - c1) ^ 2) S :=
    (((hf2.2.1.const_mul (c1 * c2)).sub ((hf1.2.1.const_mul c1).const_mul (2 * c1))).add
      (hf.2.1.const_mul (c1 ^ 2))).congr ((ae_restrict_mem hS).mono fun x hx => (e x hx).symm)
  have e2 : ∫ x in S, f x * (T x - c1) ^ 2 = c1 * c2 - c1 ^ 2 := by
    rw [setIntegral_congr_fun hS e, integral_add, integral_sub, integral_const_mul, integral_const_mul,
      integral_const_mul, integral_const_mul, hf.2.2, hf1.2.2, hf2.2.2]
    · ring
    · exact hf2.2.1.const_mul (c1 * c2)
    · exact (hf1.2.1.const_mul c1).const_mul (2 * c1)
    · exact (hf2.2.1.const_mul (c1 * c2)).sub ((hf1.2.1.const_mul c1).const_mul (2 * c1))
    · exact hf.2.1.const_mul (c1 ^ 2)
  rw [← e2, ofReal_integral_eq_lintegral_ofReal hi]
  · refine setLIntegral_congr_fun hS fun x hx => ?_
    rw [ENNReal.ofReal_mul (hf.1 x hx)]
  · filter_upwards [ae_restrict_mem hS] with x hx
    exact mul_nonneg (hf.1 x hx) (sq_nonneg _)

theorem variance_of_tilt {S : Set ℝ} {f f1 f2 : ℝ → ℝ} (hS : MeasurableSet S) (hf : IsDensity volume S f)
    (hf1 : IsDensity volume S f1) (hf2 : IsDensity volume S f2) (h1 : ∀ x ∈ S, x * f x = c1 * f1 x)
    (h2 : ∀ x ∈ S, x * f1 x = c2 * f2 x) :
    ∫⁻ x, ENNReal.ofReal ((x - c1) ^ 2) ∂lawOn S f = ENNReal.ofReal (c1 * c2 - c1 ^ 2) :=
  variance_of_tilt' measurable_id hS hf hf1 hf2 h1 h2

end moments

/-! ## The families -/

theorem Beta.tilt (d : Beta ℝ) (ha : 0 < d.alpha) (hb : 0 < d.beta) {x : ℝ} (hx : x ∈ Ioo (0 : ℝ) 1) :
    x * d.dist.pdf x = d.alpha / (d.alpha + d.beta) * (Beta.dist ⟨d.alpha + 1, d.beta⟩).pdf x := by
  rw [Beta.pdf_eq d hx, Beta.pdf_eq _ hx]
  have e : betaFn (d.alpha + 1) d.beta = d.alpha / (d.alpha + d.beta) * betaFn d.alpha d.beta := by
    have hab : d.alpha + d.beta ≠ 0 := by positivity
    simp only [betaFn]
    rw [Real.Gamma_add_one ha.ne', show d.alpha + 1 + d.beta = d.alpha + d.beta + 1 by ring, Real.Gamma_add_one hab]
    have h1 := Real.Gamma_pos_of_pos (show 0 < d.alpha + d.beta by positivity)
    field_simp
  have h2 := betaFn_pos ha hb
  rw [e, show d.alpha + 1 - 1 = d.alpha - 1 + 1 by ring, Real.rpow_add hx.1, Real.rpow_one]
  field_simp

theorem recovers_beta {a b : ℕ → ℝ} {p : ℝ} (ha : ∀ n, 0 < a n) (hb : ∀ n, 0 < b n)
    (hlim : Tendsto (fun n => a n / (a n + b n)) atTop (𝓝 p)) (hinf : Tendsto (fun n => a n + b n) atTop atTop) :
    Recovers (fun n => contLaw (Beta.dist ⟨a n, b n⟩)) p := by
  refine recovers_of_moments (mean := fun n => a n / (a n + b n)) (var := fun n => 1 / (a n + b n))
    (Eventually.of_forall fun n => ?_) (Eventually.of_forall fun n => ?_) hlim (tendsto_const_nhds.div_atTop hinf)
    (Eventually.of_forall fun n => ?_)
  · rw [beta_lawOn]; exact lawOn_prob measurableSet_Ioo (Beta.isDensity _ (ha n) (hb n))
  · have h1 := ha n
    have h2 := hb n
    have h1' : 0 < a n + 1 := by positivity
    have h1'' : 0 < a n + 1 + 1 := by positivity
    rw [beta_lawOn, variance_of_tilt measurableSet_Ioo (Beta.isDensity ⟨a n, b n⟩ h1 h2)
      (Beta.isDensity ⟨a n + 1, b n⟩ h1' h2) (Beta.isDensity ⟨a n + 1 + 1, b n⟩ h1'' h2)
      (fun x hx => Beta.tilt ⟨a n, b n⟩ h1 h2 hx) (fun x hx => Beta.tilt ⟨a n + 1, b n⟩ h1' h2 hx)]
    refine ENNReal.ofReal_le_ofReal ?_
    simp only
    rw [div_mul_div_comm, div_pow, div_sub_div _ _ (by positivity) (by positivity), div_le_div_iff₀ (by positivity) (by positivity)]
    nlinarith [mul_pos h1 h2, mul_pos (mul_pos h1 h2) h1, mul_pos (mul_pos h1 h2) h2, pow_pos h1 3, pow_pos h2 3, pow_pos h1 4, pow_pos h2 4, mul_pos (pow_pos h1 2) (pow_pos h2 2), mul_pos (pow_pos h1 3) h2, mul_pos h1 (pow_pos h2 3)]
  · have h1' : 0 < a n + 1 := by have := ha n; positivity
    rw [beta_lawOn]
    exact mean_of_tilt measurableSet_Ioo (Beta.isDensity ⟨a n, b n⟩ (ha n) (hb n))
      (Beta.isDensity ⟨a n + 1, b n⟩ h1' (hb n)) fun x hx => Beta.tilt ⟨a n, b n⟩ (ha n) (hb n) hx

theorem Gamma.tilt (d : Gamma ℝ) (ha : 0 < d.alpha) (hb : 0 < d.beta) {x : ℝ} (hx : x ∈ Ioi (0 : ℝ)) :
    x * d.dist.pdf x = d.alpha / d.beta * (Gamma.dist ⟨d.alpha + 1, d.beta⟩).pdf x := by
  have hx : 0 < x := hx
  rw [Gamma.pdf_eq d hb hx, Gamma.pdf_eq ⟨d.alpha + 1, d.beta⟩ hb hx]
  simp only
  have h1 := Real.Gamma_pos_of_pos ha
  rw [Real.Gamma_add_one ha.ne', show d.alpha + 1 - 1 = d.alpha - 1 + 1 by ring, Real.rpow_add hx, Real.rpow_add hb,
    Real.rpow_one, Real.rpow_one]
  field_simp

theorem recovers_gamma {a b : ℕ → ℝ} {m : ℝ} (ha : ∀ n, 0 < a n) (hb : ∀ n, 0 < b n)
    (hlim : Tendsto (fun n => a n / b n) atTop (𝓝 m)) (hinf : Tendsto b atTop atTop) :
    Recovers (fun n => contLaw (Gamma.dist ⟨a n, b n⟩)) m := by
  refine recovers_of_moments (mean := fun n => a n / b n) (var := fun n => a n / b n / b n)
    (Eventually.of_forall fun n => ?_) (Eventually.of_forall fun n => ?_) hlim (hlim.div_atTop hinf)
    (Eventually.of_forall fun n => ?_)
  · rw [gamma_lawOn _ (hb n)]; exact lawOn_prob measurableSet_Ioi (Gamma.isDensity _ (ha n) (hb n))
  · have h1 := ha n
    have h2 := hb n
    have h1' : 0 < a n + 1 := by positivity
    have h1'' : 0 < a n + 1 + 1 := by positivity
    rw [gamma_lawOn _ h2, variance_of_tilt measurableSet_Ioi (Gamma.isDensity ⟨a n, b n⟩ h1 h2)
      (Gamma.isDensity ⟨a n + 1, b n⟩ h1' h2) (Gamma.isDensity ⟨a n + 1 + 1, b n⟩ h1'' h2)
      (fun x hx => Gamma.tilt ⟨a n, b n⟩ h1 h2 hx) (fun x hx => Gamma.tilt ⟨a n + 1, b n⟩ h1' h2 hx)]
    refine (congrArg ENNReal.ofReal ?_).le
    simp only
    field_simp
    ring
  · have h1' : 0 < a n + 1 := by have := ha n; positivity
    rw [gamma_lawOn _ (hb n)]
    exact mean_of_tilt measurableSet_Ioi (Gamma.isDensity ⟨a n, b n⟩ (ha n) (hb n))
      (Gamma.isDensity ⟨a n + 1, b n⟩ h1' (hb n)) fun x hx => Gamma.tilt ⟨a n, b n⟩ (ha n) (hb n) hx

theorem InverseGamma.tilt (d : InverseGamma ℝ) (ha : 1 < d.alpha) (hb : 0 < d.beta) {x : ℝ} (hx : x ∈ Ioi (0 : ℝ)) :
    x * d.dist.pdf x = d.beta / (d.alpha - 1) * (InverseGamma.dist ⟨d.alpha - 1, d.beta⟩).pdf x := by
  have hx : 0 < x := hx
  rw [InverseGamma.pdf_eq d hb hx, InverseGamma.pdf_eq ⟨d.alpha - 1, d.beta⟩ hb hx]
  simp only
  have h0 : 0 < d.alpha - 1 := by linarith
  have h1 := Real.Gamma_pos_of_pos h0
  have e : Real.Gamma d.alpha = (d.alpha - 1) * Real.Gamma (d.alpha - 1) := by
    rw [← Real.Gamma_add_one h0.ne']; congr 1; ring
  rw [e, show -(d.alpha - 1) - 1 = -d.alpha - 1 + 1 by ring, Real.rpow_add hx, Real.rpow_sub_one hb.ne', Real.rpow_one]
  field_simp

theorem recovers_invgamma {a b : ℕ → ℝ} {m : ℝ} (hb : ∀ n, 0 < b n)
    (hlim : Tendsto (fun n => b n / a n) atTop (𝓝 m)) (hinf : Tendsto a atTop atTop) :
    Recovers (fun n => contLaw (InverseGamma.dist ⟨a n, b n⟩)) m := by
  have hbig : ∀ᶠ n in atTop, 3 < a n := hinf.eventually_gt_atTop 3
  have hr : ∀ c : ℝ, Tendsto (fun n => a n / (a n - c)) atTop (𝓝 1) := by
    intro c
    have h1 : Tendsto (fun n => 1 - c / a n) atTop (𝓝 (1 - 0)) :=
      tendsto_const_nhds.sub (tendsto_const_nhds.div_atTop hinf)
    have h2 := h1.inv₀ (by norm_num)
    rw [sub_zero, inv_one] at h2
    refine h2.congr' ?_
    filter_upwards [hbig] with n hn
    rw [one_sub_div (by linarith), inv_div]
  have hmean : Tendsto (fun n => b n / (a n - 1)) atTop (𝓝 m) := by
    have := hlim.mul (hr 1)
    rw [mul_one] at this
    refine this.congr' ?_
    filter_upwards [hbig] with n hn
    rw [div_mul_div_cancel₀ (by linarith)]
  have hvar : Tendsto (fun n => (b n / (a n - 1)) ^ 2 * (1 / (a n - 2))) atTop (𝓝 0) := by
    have h1 : Tendsto (fun n => a n - 2) atTop atTop := tendsto_atTop_add_const_right _ _ hinf
    have := (hmean.pow 2).mul (tendsto_const_nhds (x := (1 : ℝ)).div_atTop h1)
    rwa [mul_zero] at this
  refine recovers_of_moments (mean := fun n => b n / (a n - 1)) (var := fun n => (b n / (a n - 1)) ^ 2 * (1 / (a n - 2)))
    ?_ ?_ hmean hvar ?_
  · filter_upwards [hbig] with n hn
    rw [invgamma_lawOn _ (hb n)]
    exact lawOn_prob measurableSet_Ioi (InverseGamma.isDensity _ (by simp only; linarith) (hb n))
  · filter_upwards [hbig] with n hn
    have h2 := hb n
    have h3 : 0 < a n - 1 := by linarith
    have h4 : 0 < a n - 2 := by linarith
    rw [invgamma_lawOn _ h2, variance_of_tilt measurableSet_Ioi (InverseGamma.isDensity ⟨a n, b n⟩ (by simp only; linarith) h2)
      (InverseGamma.isDensity ⟨a n - 1, b n⟩ (by simp only; linarith) h2)
      (InverseGamma.isDensity ⟨a n - 1 - 1, b n⟩ (by simp only; linarith) h2)
      (fun x hx => InverseGamma.tilt ⟨a n, b n⟩ (by simp only; linarith) h2 hx)
      (fun x hx => InverseGamma.tilt ⟨a n - 1, b n⟩ (by simp only; linarith) h2 hx)]
    refine (congrArg ENNReal.ofReal ?_).le
    simp only
    rw [show a n - 1 - 1 = a n - 2 by ring]
    field_simp
    ring
  · filter_upwards [hbig] with n hn
    have h2 := hb n
    rw [invgamma_lawOn _ h2]
    exact mean_of_tilt measurableSet_Ioi (InverseGamma.isDensity ⟨a n, b n⟩ (by simp only; linarith) h2)
      (InverseGamma.isDensity ⟨a n - 1, b n⟩ (by simp only; linarith) h2)
      fun x hx => InverseGamma.tilt ⟨a n, b n⟩ (by simp only; linarith) h2 hx

theorem recovers_normal {mu s : ℕ → ℝ} {m : ℝ} (hs : ∀ n, 0 < s n) (hlim : Tendsto mu atTop (𝓝 m))
    (hs0 : Tendsto (fun n => s n ^ 2) atTop (𝓝 0)) :
    Recovers (fun n => contLaw (Normal.dist ⟨mu n, s n⟩)) m := by
  refine recovers_of_moments (mean := mu) (var := fun n => s n ^ 2)
    (Eventually.of_forall fun n => ?_) (Eventually.of_forall fun n => ?_) hlim hs0
    (Eventually.of_forall fun n => ?_)
  · rw [norm_lawOn]; exact lawOn_prob MeasurableSet.univ (Normal.isDensity _ (hs n))
  · rw [normal_law _ (hs n)]
    have h := variance_id_gaussianReal (μ := mu n) (v := Real.toNNReal (s n ^ 2))
    have hm := integral_id_gaussianReal (μ := mu n) (v := Real.toNNReal (s n ^ 2))
    have hf : evariance id (gaussianReal (mu n) (Real.toNNReal (s n ^ 2))) ≠ ⊤ :=
      (evariance_lt_top (memLp_id_gaussianReal 2)).ne
    have h' : evariance id (gaussianReal (mu n) (Real.toNNReal (s n ^ 2))) = ENNReal.ofReal (s n ^ 2) := by
      rw [← ENNReal.ofReal_toReal hf]
      congr 1
      exact h.trans (Real.coe_toNNReal _ (sq_nonneg _))
    rw [evariance_eq_lintegral_ofReal] at h'
    simp only [id] at h'
    rw [hm] at h'
    exact h'.le
  · rw [normal_law _ (hs n)]
    exact ⟨(memLp_id_gaussianReal 1).integrable le_rfl, integral_id_gaussianReal⟩

/-! ## Parameters that lead to concentration -/

structure BetaLimit (d : ℕ → Beta ℝ) (p : ℝ) : Prop where
  alpha_pos : ∀ n, 0 < (d n).alpha
  beta_pos : ∀ n, 0 < (d n).beta
  ratio : Tendsto (fun n => (d n).alpha / ((d n).alpha + (d n).beta)) atTop (𝓝 p)
  total : Tendsto (fun n => (d n).alpha + (d n).beta) atTop atTop

theorem BetaLimit.recovers {d : ℕ → Beta ℝ} {p : ℝ} (h : BetaLimit d p) : Recovers (fun n => contLaw (d n).dist) p :=
  recovers_beta h.alpha_pos h.beta_pos h.ratio h.total

structure GammaLimit (d : ℕ → Gamma ℝ) (m : ℝ) : Prop where
  alpha_pos : ∀ n, 0 < (d n).alpha
  beta_pos : ∀ n, 0 < (d n).beta
  ratio : Tendsto (fun n => (d n).alpha / (d n).beta) atTop (𝓝 m)
  total : Tendsto (fun n => (d n).beta) atTop atTop

theorem GammaLimit.recovers {d : ℕ → Gamma ℝ} {p : ℝ} (h : GammaLimit d p) : Recovers (fun n => contLaw (d n).dist) p :=
  recovers_gamma h.alpha_pos h.beta_pos h.ratio h.total

structure InverseGammaLimit (d : ℕ → InverseGamma ℝ) (m : ℝ) : Prop where
  beta_pos : ∀ n, 0 < (d n).beta
  ratio : Tendsto (fun n => (d n).beta / (d n).alpha) atTop (𝓝 m)
  total : Tendsto (fun n => (d n).alpha) atTop atTop

theorem InverseGammaLimit.recovers {d : ℕ → InverseGamma ℝ} {p : ℝ} (h : InverseGammaLimit d p) :
    Recovers (fun n => contLaw (d n).dist) p :=
  recovers_invgamma h.beta_pos h.ratio h.total

structure NormalLimit (d : ℕ → Normal ℝ) (m : ℝ) : Prop where
  sigma_pos : ∀ n, 0 < (d n).sigma
  mu : Tendsto (fun n => (d n).mu) atTop (𝓝 m)
  sigma : Tendsto (fun n => (d n).sigma ^ 2) atTop (𝓝 0)

theorem NormalLimit.recovers {d : ℕ → Normal ℝ} {p : ℝ} (h : NormalLimit d p) :
    Recovers (fun n => contLaw (d n).dist) p :=
  recovers_normal h.sigma_pos h.mu h.sigma

end Conj
