import Verif.Lemmas.DataMeans

/-! Concentration of laws on product spaces, and of the Pareto, normal-inverse-gamma and
normal-gamma families. -/

open MeasureTheory Set Filter Topology

set_option linter.unusedSectionVars false

namespace Conj

open Scipy Spec

section
variable {Y : Type} [MeasurableSpace Y] [PseudoMetricSpace Y] [OpensMeasurableSpace Y] {post : ℕ → Measure Y} {y : Y}

theorem concentrates_of_compl (hp : ∀ᶠ n in atTop, IsProbabilityMeasure (post n))
    (h : ∀ ε > 0, Tendsto (fun n => post n (Metric.ball y ε)ᶜ) atTop (𝓝 0)) : ConcentratesAt post y := by
  intro ε hε
  have h1 := ENNReal.Tendsto.sub (tendsto_const_nhds (x := (1 : ENNReal))) (h ε hε) (Or.inl ENNReal.one_ne_top)
  rw [tsub_zero] at h1
  refine h1.congr' ?_
  filter_upwards [hp] with n hn
  rw [prob_compl_eq_one_sub measurableSet_ball, ENNReal.sub_sub_cancel ENNReal.one_ne_top prob_le_one]

theorem ConcentratesAt.compl (hp : ∀ᶠ n in atTop, IsProbabilityMeasure (post n)) (h : ConcentratesAt post y)
    {ε : ℝ} (hε : 0 < ε) : Tendsto (fun n => post n (Metric.ball y ε)ᶜ) atTop (𝓝 0) := by
  have h1 := ENNReal.Tendsto.sub (tendsto_const_nhds (x := (1 : ENNReal))) (h ε hε) (Or.inl ENNReal.one_ne_top)
  rw [tsub_self] at h1
  refine h1.congr' ?_
  filter_upwards [hp] with n hn
  rw [prob_compl_eq_one_sub measurableSet_ball]

/-- coordinatewise concentration is joint concentration -/
theorem concentrates_of_coords {ι : Type} [Fintype ι] {f : ι → Y → ℝ} (hf : ∀ i, Measurable (f i))
    (hp : ∀ᶠ n in atTop, IsProbabilityMeasure (post n))
    (hball : ∀ ε > 0, ∀ z, (∀ i, dist (f i z) (f i y) < ε) → dist z y < ε)
    (h : ∀ i, ConcentratesAt (fun n => (post n).map (f i)) (f i y)) : ConcentratesAt post y := by
  refine concentrates_of_compl hp fun ε hε => ?_
  have hpm : ∀ i, ∀ᶠ n in atTop, IsProbabilityMeasure ((post n).map (f i)) := fun i => by
    filter_upwards [hp] with n hn
    exact Measure.isProbabilityMeasure_map (hf i).aemeasurable
  have hs : Tendsto (fun n => ∑ i, (post n).map (f i) (Metric.ball (f i y) ε)ᶜ) atTop (𝓝 0) := by
    have := tendsto_finsetSum Finset.univ fun i _ => ConcentratesAt.compl (hpm i) (h i) hε
    simpa using this
  refine tendsto_of_tendsto_of_tendsto_of_le_of_le tendsto_const_nhds hs (fun n => zero_le) fun n => ?_
  have hsub : (Metric.ball y ε)ᶜ ⊆ ⋃ i, f i ⁻¹' (Metric.ball (f i y) ε)ᶜ := by
    intro z hz
    by_contra hc
    simp only [mem_iUnion, mem_preimage, mem_compl_iff, not_exists, not_not, Metric.mem_ball] at hc
    exact hz (hball ε hε z hc)
  refine (measure_mono hsub).trans ((measure_iUnion_fintype_le _ _).trans (Finset.sum_le_sum fun i _ => ?_))
  rw [Measure.map_apply (hf i) measurableSet_ball.compl]

theorem ConcentratesAt.shift (h : ConcentratesAt post y) (k : ℕ) : ConcentratesAt (fun n => post (n + k)) y :=
  fun ε hε => (h ε hε).comp (tendsto_add_atTop_nat k)

end

theorem concentrates_prod {post : ℕ → Measure (ℝ × ℝ)} {x y : ℝ} (hp : ∀ᶠ n in atTop, IsProbabilityMeasure (post n))
    (h1 : ConcentratesAt (fun n => (post n).map Prod.fst) x) (h2 : ConcentratesAt (fun n => (post n).map Prod.snd) y) :
    ConcentratesAt post (x, y) := by
  refine concentrates_of_coords (ι := Bool) (f := fun b p => if b then p.1 else p.2) ?_ hp ?_ ?_
  · intro b; cases b <;> simp <;> fun_prop
  · intro ε hε z hz
    rw [Prod.dist_eq, max_lt_iff]
    exact ⟨by simpa using hz true, by simpa using hz false⟩
  · intro b; cases b
    · simpa using h2
    · simpa using h1

theorem concentrates_pi {p : Type} [Fintype p] {post : ℕ → Measure (p → ℝ)} {y : p → ℝ}
    (hp : ∀ᶠ n in atTop, IsProbabilityMeasure (post n))
    (h : ∀ i, ConcentratesAt (fun n => (post n).map fun x => x i) (y i)) : ConcentratesAt post y :=
  concentrates_of_coords (f := fun i (x : p → ℝ) => x i) (fun i => measurable_pi_apply i) hp
    (fun _ hε _ hz => (dist_pi_lt_iff hε).2 hz) h

/-! ## Pareto -/

theorem Pareto.tilt (d : Pareto ℝ) (hm : 0 < d.x_m) (ha : 1 < d.alpha) {x : ℝ} (hx : x ∈ Ioi (0 : ℝ)) :
    x * d.dist.pdf x = d.alpha * d.x_m / (d.alpha - 1) * (Pareto.dist ⟨d.x_m, d.alpha - 1⟩).pdf x := by
  have hx : 0 < x := hx
  rcases lt_or_ge x d.x_m with h | h
  · rw [Pareto.pdf_eq_zero d hm h, Pareto.pdf_eq_zero ⟨d.x_m, d.alpha - 1⟩ hm h, mul_zero, mul_zero]
  · rw [Pareto.pdf_eq d hm h, Pareto.pdf_eq ⟨d.x_m, d.alpha - 1⟩ hm h]
    have h0 : d.alpha - 1 ≠ 0 := by linarith
    simp only [sub_add_cancel]
    rw [Real.rpow_sub_one hm.ne', Real.rpow_add_one hx.ne']
    have := Real.rpow_pos_of_pos hx d.alpha
    field_simp

theorem pareto_lawOn (d : Pareto ℝ) (hm : 0 < d.x_m) : contLaw d.dist = lawOn (Ioi 0) d.dist.pdf :=
  contLaw_eq_lawOn _ measurableSet_Ioi (Eventually.of_forall fun _ hx =>
    Pareto.pdf_eq_zero d hm (lt_of_le_of_lt (not_lt.1 hx) hm))

theorem recovers_pareto {m a : ℕ → ℝ} {θ : ℝ} (hm : ∀ n, 0 < m n) (hlim : Tendsto m atTop (𝓝 θ))
    (hinf : Tendsto a atTop atTop) : Recovers (fun n => contLaw (Pareto.dist ⟨m n, a n⟩)) θ := by
  have hbig : ∀ᶠ n in atTop, 3 < a n := hinf.eventually_gt_atTop 3
  have hr : ∀ c : ℝ, Tendsto (fun n => a n / (a n - c)) atTop (𝓝 1) := by
    intro c
    have h1 : Tendsto (fun n => 1 - c / a n) atTop (𝓝 (1 - 0)) :=
      tendsto_const_nhds.sub (tendsto_const_nhds.div_atTop hinf)
    rw [sub_zero] at h1
    have h2 := h1.inv₀ one_ne_zero
    rw [inv_one] at h2
    refine h2.congr' ?_
    filter_upwards [hinf.eventually_gt_atTop (max c 0)] with n hn
    have h0 : 0 < a n := (le_max_right _ _).trans_lt hn
    have hc : c < a n := (le_max_left _ _).trans_lt hn
    have : a n - c ≠ 0 := by linarith
    rw [show 1 - c / a n = (a n - c) / a n by field_simp, inv_div]
  have hq : ∀ c : ℝ, Tendsto (fun n => 1 / (a n - c)) atTop (𝓝 0) := fun c =>
    tendsto_const_nhds.div_atTop (tendsto_atTop_add_const_right _ (-c) hinf)
  refine recovers_of_moments (mean := fun n => m n * (a n / (a n - 1)))
    (var := fun n => m n ^ 2 * ((a n / (a n - 1)) * (1 / (a n - 1)) * (1 / (a n - 2)))) ?_ ?_ ?_ ?_ ?_
  · filter_upwards [hbig] with n hn
    rw [pareto_lawOn _ (hm n)]
    exact lawOn_prob measurableSet_Ioi (Pareto.isDensity _ (hm n) (by simp only; linarith))
  · filter_upwards [hbig] with n hn
    have h1 : a n - 1 ≠ 0 := by linarith
    have h2 : a n - 2 ≠ 0 := by linarith
    have h3 : a n - 1 - 1 ≠ 0 := by ring_nf; ring_nf at h2; exact h2
    have hv := variance_of_tilt measurableSet_Ioi
      (Pareto.isDensity ⟨m n, a n⟩ (hm n) (by simp only; linarith))
      (Pareto.isDensity ⟨m n, a n - 1⟩ (hm n) (by simp only; linarith))
      (Pareto.isDensity ⟨m n, a n - 1 - 1⟩ (hm n) (by simp only; linarith))
      (fun x hx => Pareto.tilt ⟨m n, a n⟩ (hm n) (by simp only; linarith) hx)
      (fun x hx => Pareto.tilt ⟨m n, a n - 1⟩ (hm n) (by simp only; linarith) hx)
    rw [pareto_lawOn _ (hm n), show m n * (a n / (a n - 1)) = a n * m n / (a n - 1) by ring]
    refine hv.le.trans (ENNReal.ofReal_le_ofReal (le_of_eq ?_))
    simp only
    rw [show a n - 2 = a n - 1 - 1 by ring]
    field_simp
    ring
  · simpa using hlim.mul (hr 1)
  · simpa using (hlim.pow 2).mul (((hr 1).mul (hq 1)).mul (hq 2))
  · filter_upwards [hbig] with n hn
    rw [pareto_lawOn _ (hm n), show m n * (a n / (a n - 1)) = a n * m n / (a n - 1) by ring]
    exact mean_of_tilt measurableSet_Ioi (Pareto.isDensity ⟨m n, a n⟩ (hm n) (by simp only; linarith))
      (Pareto.isDensity ⟨m n, a n - 1⟩ (hm n) (by simp only; linarith))
      fun x hx => Pareto.tilt ⟨m n, a n⟩ (hm n) (by simp only; linarith) hx

/-! ## Normal with random variance -/

section
variable {g : ℝ → ℝ} {V : ℝ → ℝ} {m c : ℝ}

/-- (mean, scale parameter): the scale parameter has density `g`, the mean is normal with variance `V` of it -/
noncomputable def scaleMix (g V : ℝ → ℝ) (m : ℝ) : ℝ × ℝ → ℝ :=
  fun p => g p.2 * (Normal.dist ⟨m, √(V p.2)⟩).pdf p.1

variable (hg : IsDensity volume (Ioi 0) g) (hV : ∀ y ∈ Ioi (0 : ℝ), 0 < V y)
  (hd : IsDensity volume (univ ×ˢ Ioi 0) (scaleMix g V m))
include hg hV hd

theorem scaleMix_lintegral {F : ℝ × ℝ → ENNReal} (hF : Measurable F) :
    ∫⁻ z, F z ∂lawOn (univ ×ˢ Ioi 0) (scaleMix g V m) =
      ∫⁻ y, ∫⁻ x, F (x, y) ∂contLaw (Normal.dist ⟨m, √(V y)⟩) ∂lawOn (Ioi 0) g := by
  have := lintegral_lawOn_prod (S := univ) (h := fun x y => (Normal.dist ⟨m, √(V y)⟩).pdf x) measurableSet_Ioi hg
    (fun y hy => Normal.isDensity ⟨m, √(V y)⟩ (Real.sqrt_pos.2 (hV y hy))) hd hF
  rw [show scaleMix g V m = fun p : ℝ × ℝ => g p.2 * (Normal.dist ⟨m, √(V p.2)⟩).pdf p.1 from rfl, this]
  simp only [lawOn_univ]
  rfl

theorem scaleMix_snd : (lawOn (univ ×ˢ Ioi 0) (scaleMix g V m)).map Prod.snd = lawOn (Ioi 0) g := by
  ext A hA
  rw [Measure.map_apply measurable_snd hA, ← lintegral_indicator_one (measurable_snd hA),
    scaleMix_lintegral hg hV hd (F := (Prod.snd ⁻¹' A).indicator 1) (measurable_one.indicator (measurable_snd hA)), ← lintegral_indicator_one hA]
  refine lintegral_congr_ae ?_
  filter_upwards [ae_lawOn_mem measurableSet_Ioi g] with y hy
  have := normal_prob m (Real.sqrt_pos.2 (hV y hy))
  rw [show (fun x : ℝ => (Prod.snd ⁻¹' A).indicator (1 : ℝ × ℝ → ENNReal) (x, y)) =
    fun _ => A.indicator 1 y from rfl, lintegral_const, measure_univ, mul_one]

theorem scaleMix_fst :
    ∫⁻ x, ENNReal.ofReal ((x - m) ^ 2) ∂(lawOn (univ ×ˢ Ioi 0) (scaleMix g V m)).map Prod.fst =
      ∫⁻ y, ENNReal.ofReal (V y) ∂lawOn (Ioi 0) g := by
  rw [lintegral_map (by fun_prop) measurable_fst, scaleMix_lintegral hg hV hd (by fun_prop)]
  refine lintegral_congr_ae ?_
  filter_upwards [ae_lawOn_mem measurableSet_Ioi g] with y hy
  have hs := Real.sqrt_pos.2 (hV y hy)
  rw [normal_law m hs, Real.sq_sqrt (hV y hy).le]
  have h2 : MemLp (fun x : ℝ => x) 2 (ProbabilityTheory.gaussianReal m (Real.toNNReal (V y))) :=
    ProbabilityTheory.memLp_id_gaussianReal 2
  have hv := ProbabilityTheory.variance_fun_id_gaussianReal (μ := m) (v := Real.toNNReal (V y))
  have he := ProbabilityTheory.evariance_eq_lintegral_ofReal (fun x : ℝ => x)
    (ProbabilityTheory.gaussianReal m (Real.toNNReal (V y)))
  have hm : ∫ x, x ∂ProbabilityTheory.gaussianReal m (Real.toNNReal (V y)) = m :=
    ProbabilityTheory.integral_id_gaussianReal
  rw [hm] at he
  rw [← he, ← h2.ofReal_variance_eq, hv, Real.coe_toNNReal _ (hV y hy).le]

/-- the mean's marginal is symmetric about `m` -/
theorem scaleMix_reflect :
    ((lawOn (univ ×ˢ Ioi 0) (scaleMix g V m)).map Prod.fst).map (fun x => 2 * m - x) =
      (lawOn (univ ×ˢ Ioi 0) (scaleMix g V m)).map Prod.fst := by
  ext A hA
  have hr : Measurable fun x : ℝ => 2 * m - x := by fun_prop
  rw [Measure.map_apply hr hA, ← lintegral_indicator_one (hr hA), ← lintegral_indicator_one hA,
    lintegral_map (measurable_one.indicator (hr hA)) measurable_fst, lintegral_map (measurable_one.indicator hA) measurable_fst,
    scaleMix_lintegral hg hV hd (F := fun z => ((fun x => 2 * m - x) ⁻¹' A).indicator 1 z.1)
      ((measurable_one.indicator (hr hA)).comp measurable_fst),
    scaleMix_lintegral hg hV hd (F := fun z => A.indicator 1 z.1) ((measurable_one.indicator hA).comp measurable_fst)]
  refine lintegral_congr_ae ?_
  filter_upwards [ae_lawOn_mem measurableSet_Ioi g] with y hy
  have hs := Real.sqrt_pos.2 (hV y hy)
  rw [lintegral_indicator_one (hr hA), lintegral_indicator_one hA, normal_law m hs, ← Measure.map_apply hr hA,
    ProbabilityTheory.gaussianReal_map_const_sub, show 2 * m - m = m by ring]

/-- the mean's marginal has mean `m` -/
theorem scaleMix_mean {c : ℝ} (hc : ∫⁻ y, ENNReal.ofReal (V y) ∂lawOn (Ioi 0) g ≤ ENNReal.ofReal c) :
    Integrable (fun x => x) ((lawOn (univ ×ˢ Ioi 0) (scaleMix g V m)).map Prod.fst) ∧
      ∫ x, x ∂(lawOn (univ ×ˢ Ioi 0) (scaleMix g V m)).map Prod.fst = m := by
  have hp : IsProbabilityMeasure (lawOn (univ ×ˢ Ioi 0) (scaleMix g V m)) :=
    lawOn_prob (MeasurableSet.univ.prod measurableSet_Ioi) hd
  have hp' : IsProbabilityMeasure ((lawOn (univ ×ˢ Ioi 0) (scaleMix g V m)).map Prod.fst) :=
    Measure.isProbabilityMeasure_map measurable_fst.aemeasurable
  have hi2 : Integrable (fun x : ℝ => (x - m) ^ 2) ((lawOn (univ ×ˢ Ioi 0) (scaleMix g V m)).map Prod.fst) := by
    refine ⟨by fun_prop, ?_⟩
    rw [hasFiniteIntegral_iff_ofReal (Eventually.of_forall fun x => sq_nonneg _), scaleMix_fst hg hV hd]
    exact hc.trans_lt ENNReal.ofReal_lt_top
  have hi : Integrable (fun x : ℝ => x - m) ((lawOn (univ ×ˢ Ioi 0) (scaleMix g V m)).map Prod.fst) := by
    refine (hi2.add (integrable_const (1 : ℝ))).mono' (by fun_prop) (Eventually.of_forall fun x => ?_)
    rw [Real.norm_eq_abs, Pi.add_apply, ← sq_abs]
    nlinarith [sq_nonneg (|x - m| - 1), abs_nonneg (x - m)]
  have hx : Integrable (fun x : ℝ => x) ((lawOn (univ ×ˢ Ioi 0) (scaleMix g V m)).map Prod.fst) := by
    have := hi.add (integrable_const m)
    refine this.congr (Eventually.of_forall fun x => ?_)
    simp
  refine ⟨hx, ?_⟩
  have e : ∫ x, x ∂(lawOn (univ ×ˢ Ioi 0) (scaleMix g V m)).map Prod.fst =
      ∫ x, (2 * m - x) ∂(lawOn (univ ×ˢ Ioi 0) (scaleMix g V m)).map Prod.fst := by
    conv_lhs => rw [← scaleMix_reflect hg hV hd]
    rw [integral_map (by fun_prop) (by fun_prop)]
  rw [integral_sub (integrable_const _) hx, integral_const] at e
  simp only [probReal_univ, one_smul] at e
  linarith

end

/-- a sequence of scale mixtures whose means tend to `m₀` and whose scales concentrate at `v₀` -/
structure MixLimit (g V : ℕ → ℝ → ℝ) (m c : ℕ → ℝ) (m₀ v₀ : ℝ) : Prop where
  hg : ∀ᶠ n in atTop, IsDensity volume (Ioi 0) (g n)
  hV : ∀ᶠ n in atTop, ∀ y ∈ Ioi (0 : ℝ), 0 < V n y
  hd : ∀ᶠ n in atTop, IsDensity volume (univ ×ˢ Ioi 0) (scaleMix (g n) (V n) (m n))
  hc : ∀ᶠ n in atTop, ∫⁻ y, ENNReal.ofReal (V n y) ∂lawOn (Ioi 0) (g n) ≤ ENNReal.ofReal (c n)
  hv : ConcentratesAt (fun n => lawOn (Ioi 0) (g n)) v₀
  hm : Tendsto m atTop (𝓝 m₀)
  hc0 : Tendsto c atTop (𝓝 0)

/-- joint concentration of a scale mixture -/
theorem concentrates_scaleMix {g V : ℕ → ℝ → ℝ} {m c : ℕ → ℝ} {m₀ v₀ : ℝ}
    (hg : ∀ᶠ n in atTop, IsDensity volume (Ioi 0) (g n)) (hV : ∀ᶠ n in atTop, ∀ y ∈ Ioi (0 : ℝ), 0 < V n y)
    (hd : ∀ᶠ n in atTop, IsDensity volume (univ ×ˢ Ioi 0) (scaleMix (g n) (V n) (m n)))
    (hc : ∀ᶠ n in atTop, ∫⁻ y, ENNReal.ofReal (V n y) ∂lawOn (Ioi 0) (g n) ≤ ENNReal.ofReal (c n))
    (hv : ConcentratesAt (fun n => lawOn (Ioi 0) (g n)) v₀) (hm : Tendsto m atTop (𝓝 m₀))
    (hc0 : Tendsto c atTop (𝓝 0)) :
    ConcentratesAt (fun n => lawOn (univ ×ˢ Ioi 0) (scaleMix (g n) (V n) (m n))) (m₀, v₀) := by
  have hp : ∀ᶠ n in atTop, IsProbabilityMeasure (lawOn (univ ×ˢ Ioi 0) (scaleMix (g n) (V n) (m n))) := by
    filter_upwards [hd] with n hn
    exact lawOn_prob (MeasurableSet.univ.prod measurableSet_Ioi) hn
  refine concentrates_prod hp (concentrates_of_moments (mean := m) (var := c) ?_ ?_ hm hc0) ?_
  · filter_upwards [hp] with n hn
    exact Measure.isProbabilityMeasure_map measurable_fst.aemeasurable
  · filter_upwards [hg, hV, hd, hc] with n h1 h2 h3 h4
    rw [scaleMix_fst h1 h2 h3]
    exact h4
  · intro ε hε
    refine (hv ε hε).congr' ?_
    filter_upwards [hg, hV, hd] with n h1 h2 h3
    rw [scaleMix_snd h1 h2 h3]

theorem MixLimit.concentrates {g V : ℕ → ℝ → ℝ} {m c : ℕ → ℝ} {m₀ v₀ : ℝ} (h : MixLimit g V m c m₀ v₀) :
    ConcentratesAt (fun n => lawOn (univ ×ˢ Ioi 0) (scaleMix (g n) (V n) (m n))) (m₀, v₀) :=
  concentrates_scaleMix h.hg h.hV h.hd h.hc h.hv h.hm h.hc0

theorem MixLimit.recovers {g V : ℕ → ℝ → ℝ} {m c : ℕ → ℝ} {m₀ v₀ : ℝ} (h : MixLimit g V m c m₀ v₀) :
    Recovers (fun n => (lawOn (univ ×ˢ Ioi 0) (scaleMix (g n) (V n) (m n))).map Prod.fst) m₀ := by
  refine recovers_of_moments (mean := m) (var := c) ?_ ?_ h.hm h.hc0 ?_
  · filter_upwards [h.hd] with n hn
    have := lawOn_prob (MeasurableSet.univ.prod measurableSet_Ioi) hn
    exact Measure.isProbabilityMeasure_map measurable_fst.aemeasurable
  · filter_upwards [h.hg, h.hV, h.hd, h.hc] with n h1 h2 h3 h4
    rw [scaleMix_fst h1 h2 h3]
    exact h4
  · filter_upwards [h.hg, h.hV, h.hd, h.hc] with n h1 h2 h3 h4
    exact scaleMix_mean h1 h2 h3 h4

theorem lintegral_of_expect {μ : Measure ℝ} {T : ℝ → ℝ} {c : ℝ} (h : Integrable T μ ∧ ∫ x, T x ∂μ = c)
    (h0 : ∀ᵐ x ∂μ, 0 ≤ T x) : ∫⁻ x, ENNReal.ofReal (T x) ∂μ = ENNReal.ofReal c := by
  rw [← ofReal_integral_eq_lintegral_ofReal h.1 h0, h.2]

theorem nig_limit {mu nu a b : ℕ → ℝ} {m₀ v₀ : ℝ} (hnu : ∀ n, 0 < nu n) (hb : ∀ n, 0 < b n)
    (hm : Tendsto mu atTop (𝓝 m₀)) (hv : Tendsto (fun n => b n / a n) atTop (𝓝 v₀)) (ha : Tendsto a atTop atTop)
    (hn : Tendsto nu atTop atTop) :
    MixLimit (fun n => (InverseGamma.dist ⟨a n, b n⟩).pdf) (fun n y => y / nu n) mu (fun n => b n / (a n - 1) / nu n)
      m₀ v₀ := by
  have hbig : ∀ᶠ n in atTop, 2 < a n := ha.eventually_gt_atTop 2
  have hw : Tendsto (fun n => b n / (a n - 1) / nu n) atTop (𝓝 0) := by
    have h1 : Tendsto (fun n => 2 * (b n / a n)) atTop (𝓝 (2 * v₀)) := hv.const_mul 2
    have h2 := h1.div_atTop hn
    refine tendsto_of_tendsto_of_tendsto_of_le_of_le' tendsto_const_nhds h2 ?_ ?_
    · filter_upwards [hbig] with n h
      have := hb n; have := hnu n
      have : 0 < a n - 1 := by linarith
      positivity
    · filter_upwards [hbig] with n h
      have h3 := hb n
      refine div_le_div_of_nonneg_right ?_ (hnu n).le
      have : 0 < a n - 1 := by linarith
      have : 0 < a n := by linarith
      rw [div_le_iff₀ (by assumption)]
      rw [show 2 * (b n / a n) * (a n - 1) = b n * (2 * (a n - 1) / a n) by field_simp]
      refine le_mul_of_one_le_right h3.le ?_
      rw [le_div_iff₀ (by assumption)]
      linarith
  refine ⟨?_, ?_, ?_, ?_, ?_, hm, hw⟩
  · filter_upwards [hbig] with n h
    exact InverseGamma.isDensity _ (by simp only; linarith) (hb n)
  · exact Eventually.of_forall fun n y hy => div_pos hy (hnu n)
  · filter_upwards [hbig] with n h
    exact nigPdf_isDensity _ _ _ _ (hnu n) (by linarith) (hb n)
  · filter_upwards [hbig] with n h
    have h1 := mean_of_tilt measurableSet_Ioi (InverseGamma.isDensity ⟨a n, b n⟩ (by simp only; linarith) (hb n))
      (InverseGamma.isDensity ⟨a n - 1, b n⟩ (by simp only; linarith) (hb n)) (T := fun x => x)
      (fun x hx => InverseGamma.tilt ⟨a n, b n⟩ (by simp only; linarith) (hb n) hx)
    refine (lintegral_of_expect (T := fun y => y / nu n) ⟨h1.1.div_const _, ?_⟩ ?_).le
    · rw [integral_div, h1.2]
    · filter_upwards [ae_lawOn_mem measurableSet_Ioi _] with y hy
      exact (div_pos hy (hnu n)).le
  · have := (recovers_invgamma hb hv ha).concentrates
    exact (funext fun n => invgamma_lawOn ⟨a n, b n⟩ (hb n)) ▸ this

theorem concentrates_nig {mu nu a b : ℕ → ℝ} {m₀ v₀ : ℝ} (hnu : ∀ n, 0 < nu n) (hb : ∀ n, 0 < b n)
    (hm : Tendsto mu atTop (𝓝 m₀)) (hv : Tendsto (fun n => b n / a n) atTop (𝓝 v₀)) (ha : Tendsto a atTop atTop)
    (hn : Tendsto nu atTop atTop) :
    ConcentratesAt (fun n => lawOn (univ ×ˢ Ioi 0) (nigPdf (mu n) (nu n) (a n) (b n))) (m₀, v₀) :=
  (nig_limit hnu hb hm hv ha hn).concentrates

theorem Gamma.tilt_inv (d : Gamma ℝ) (ha : 1 < d.alpha) (hb : 0 < d.beta) {x : ℝ} (hx : x ∈ Ioi (0 : ℝ)) :
    1 / x * d.dist.pdf x = d.beta / (d.alpha - 1) * (Gamma.dist ⟨d.alpha - 1, d.beta⟩).pdf x := by
  have h0 : 0 < d.alpha - 1 := by linarith
  have h := Gamma.tilt ⟨d.alpha - 1, d.beta⟩ h0 hb hx
  have hx : 0 < x := hx
  simp only [sub_add_cancel] at h
  have h' : d.dist.pdf x = d.beta / (d.alpha - 1) * (x * (Gamma.dist ⟨d.alpha - 1, d.beta⟩).pdf x) := by
    rw [h]; field_simp
  rw [h']; field_simp

theorem ng_limit {mu lam a b : ℕ → ℝ} {m₀ t₀ : ℝ} (hlam : ∀ n, 0 < lam n) (ha : ∀ n, 0 < a n) (hb : ∀ n, 0 < b n)
    (hm : Tendsto mu atTop (𝓝 m₀)) (ht : Tendsto (fun n => a n / b n) atTop (𝓝 t₀)) (ht0 : t₀ ≠ 0)
    (hbt : Tendsto b atTop atTop) (hat : Tendsto a atTop atTop)
    (hn : Tendsto lam atTop atTop) :
    MixLimit (fun n => (Gamma.dist ⟨a n, b n⟩).pdf) (fun n y => 1 / (lam n * y)) mu (fun n => b n / (a n - 1) / lam n)
      m₀ t₀ := by
  have hbig : ∀ᶠ n in atTop, 2 < a n := hat.eventually_gt_atTop 2
  have hw : Tendsto (fun n => b n / (a n - 1) / lam n) atTop (𝓝 0) := by
    have hv : Tendsto (fun n => b n / a n) atTop (𝓝 t₀⁻¹) := by
      refine (ht.inv₀ ht0).congr fun n => ?_
      rw [inv_div]
    have h1 : Tendsto (fun n => 2 * (b n / a n)) atTop (𝓝 (2 * t₀⁻¹)) := hv.const_mul 2
    have h2 := h1.div_atTop hn
    refine tendsto_of_tendsto_of_tendsto_of_le_of_le' tendsto_const_nhds h2 ?_ ?_
    · filter_upwards [hbig] with n h
      have := hb n; have := hlam n
      have : 0 < a n - 1 := by linarith
      positivity
    · filter_upwards [hbig] with n h
      have h3 := hb n
      refine div_le_div_of_nonneg_right ?_ (hlam n).le
      have : 0 < a n - 1 := by linarith
      have : 0 < a n := by linarith
      rw [div_le_iff₀ (by assumption)]
      rw [show 2 * (b n / a n) * (a n - 1) = b n * (2 * (a n - 1) / a n) by field_simp]
      refine le_mul_of_one_le_right h3.le ?_
      rw [le_div_iff₀ (by assumption)]
      linarith
  refine ⟨?_, ?_, ?_, ?_, ?_, hm, hw⟩
  · exact Eventually.of_forall fun n => Gamma.isDensity _ (ha n) (hb n)
  · exact Eventually.of_forall fun n y hy => one_div_pos.2 (mul_pos (hlam n) hy)
  · exact Eventually.of_forall fun n => ngPdf_isDensity _ _ _ _ (hlam n) (ha n) (hb n)
  · filter_upwards [hbig] with n h
    have h1 := mean_of_tilt measurableSet_Ioi (Gamma.isDensity ⟨a n, b n⟩ (ha n) (hb n))
      (Gamma.isDensity ⟨a n - 1, b n⟩ (by simp only; linarith) (hb n)) (T := fun x => 1 / x)
      (fun x hx => Gamma.tilt_inv ⟨a n, b n⟩ (by simp only; linarith) (hb n) hx)
    have e : (fun y : ℝ => 1 / (lam n * y)) = fun y => 1 / y / lam n := by
      funext y; rw [div_div, mul_comm]
    rw [show (fun y : ℝ => ENNReal.ofReal (1 / (lam n * y))) = fun y => ENNReal.ofReal (1 / y / lam n) from
      funext fun y => congrArg ENNReal.ofReal (congrFun e y)]
    refine (lintegral_of_expect (T := fun y => 1 / y / lam n) ⟨h1.1.div_const _, ?_⟩ ?_).le
    · rw [integral_div, h1.2]
    · filter_upwards [ae_lawOn_mem measurableSet_Ioi _] with y hy
      have hy : 0 < y := hy
      have := hlam n
      positivity
  · have := (recovers_gamma ha hb ht hbt).concentrates
    exact (funext fun n => gamma_lawOn ⟨a n, b n⟩ (hb n)) ▸ this

theorem concentrates_ng {mu lam a b : ℕ → ℝ} {m₀ t₀ : ℝ} (hlam : ∀ n, 0 < lam n) (ha : ∀ n, 0 < a n) (hb : ∀ n, 0 < b n)
    (hm : Tendsto mu atTop (𝓝 m₀)) (ht : Tendsto (fun n => a n / b n) atTop (𝓝 t₀)) (ht0 : t₀ ≠ 0)
    (hbt : Tendsto b atTop atTop) (hat : Tendsto a atTop atTop)
    (hn : Tendsto lam atTop atTop) :
    ConcentratesAt (fun n => lawOn (univ ×ˢ Ioi 0) (ngPdf (mu n) (lam n) (a n) (b n))) (m₀, t₀) :=
  (ng_limit hlam ha hb hm ht ht0 hbt hat hn).concentrates

/-! ## Uniform data -/

theorem iid_hits {Ω A : Type} [MeasurableSpace Ω] [MeasurableSpace A] {Q : Measure Ω} {X : ℕ → Ω → A} {law : Measure A}
    [IsFiniteMeasure law] (h : IIDFrom Q X law) {B : Set A} (hB : MeasurableSet B) (hpos : law B ≠ 0) :
    ∀ᵐ ω ∂Q, ∃ i, X i ω ∈ B := by
  have hi : Integrable (B.indicator fun _ => (1 : ℝ)) law := (integrable_const _).indicator hB
  filter_upwards [iid_average h (T := B.indicator fun _ => (1 : ℝ)) (measurable_const.indicator hB) hi] with ω hω
  by_contra hc
  push Not at hc
  have hz : ∀ i, B.indicator (fun _ => (1 : ℝ)) (X i ω) = 0 := fun i => indicator_of_notMem (hc i) _
  simp only [hz, Finset.sum_const_zero, zero_div, integral_indicator hB] at hω
  have := tendsto_nhds_unique hω tendsto_const_nhds
  rw [setIntegral_const, smul_eq_mul, mul_one, Measure.real, ENNReal.toReal_eq_zero_iff] at this
  exact this.elim hpos (measure_ne_top law B)

theorem uniform_lawOn {θ : ℝ} (hθ : 0 < θ) :
    contLaw (Uniform.dist ⟨0, θ⟩) = lawOn (Ioo 0 θ) fun _ => 1 / θ := by
  rw [contLaw_eq_lawOn _ (measurableSet_Ioo (a := 0) (b := θ))]
  · refine lawOn_congr measurableSet_Ioo fun x hx => ?_
    rw [Uniform.pdf_zero θ hθ hx.1.le, if_pos hx.2.le]
  · filter_upwards [Measure.ae_ne volume (0 : ℝ), Measure.ae_ne volume θ] with x h0 h1 hx
    simp only [Uniform.dist, Cont.pdf, Family.std, sub_zero]
    rw [if_neg, zero_div]
    rintro ⟨h2, h3⟩
    have h2 : 0 ≤ x := by
      by_contra hc
      exact absurd (div_neg_of_neg_of_pos (not_le.1 hc) hθ) (not_lt.2 h2)
    rw [div_le_one hθ] at h3
    exact hx ⟨lt_of_le_of_ne h2 (Ne.symm h0), lt_of_le_of_ne h3 h1⟩

theorem uniform_prob {θ : ℝ} (hθ : 0 < θ) : IsProbabilityMeasure (contLaw (Uniform.dist ⟨0, θ⟩)) := by
  rw [uniform_lawOn hθ]
  refine ⟨?_⟩
  rw [lawOn, withDensity_apply _ MeasurableSet.univ, Measure.restrict_univ, lintegral_const, Measure.restrict_apply_univ,
    Real.volume_Ioo, sub_zero, ← ENNReal.ofReal_mul (by positivity), one_div_mul_cancel hθ.ne', ENNReal.ofReal_one]

theorem uniform_mem {θ : ℝ} (hθ : 0 < θ) : ∀ᵐ x ∂contLaw (Uniform.dist ⟨0, θ⟩), x ∈ Ioo 0 θ := by
  rw [uniform_lawOn hθ]; exact ae_lawOn_mem measurableSet_Ioo _

theorem uniform_top {θ c : ℝ} (hθ : 0 < θ) (hc : c < θ) : contLaw (Uniform.dist ⟨0, θ⟩) (Ioi c) ≠ 0 := by
  rw [uniform_lawOn hθ, lawOn, withDensity_apply _ measurableSet_Ioi, lintegral_const,
    Measure.restrict_apply_univ, Measure.restrict_apply measurableSet_Ioi]
  have : Ioi c ∩ Ioo 0 θ = Ioo (max c 0) θ := by
    ext x; simp only [mem_inter_iff, mem_Ioi, mem_Ioo, max_lt_iff, and_assoc]
  rw [this, Real.volume_Ioo]
  have h1 : 0 < θ - max c 0 := sub_pos.2 (max_lt hc hθ)
  exact mul_ne_zero (by simpa using hθ) (by simpa using h1)

/-- the running maximum of uniform data reaches the end point -/
theorem uniform_max {Ω : Type} [MeasurableSpace Ω] {Q : Measure Ω} {X : ℕ → Ω → ℝ} {θ : ℝ} (hθ : 0 < θ)
    (h : IIDFrom Q X (contLaw (Uniform.dist ⟨0, θ⟩))) :
    ∀ᵐ ω ∂Q, Tendsto (fun n => (Finset.range (n + 1)).sup' ⟨0, by simp⟩ fun i => X i ω) atTop (𝓝 θ) := by
  have := uniform_prob hθ
  have hk : ∀ᵐ ω ∂Q, ∀ k : ℕ, ∃ i, X i ω ∈ Ioi (θ - 1 / ((k : ℝ) + 1)) := by
    rw [ae_all_iff]
    exact fun k => iid_hits h measurableSet_Ioi (uniform_top hθ (sub_lt_self θ (by positivity)))
  filter_upwards [hk, iid_forall h (uniform_mem hθ)] with ω hω hx
  rw [Metric.tendsto_atTop]
  intro ε hε
  obtain ⟨k, hk⟩ := exists_nat_one_div_lt hε
  obtain ⟨i, hi⟩ := hω k
  have hi : θ - 1 / ((k : ℝ) + 1) < X i ω := hi
  refine ⟨i, fun n hn => ?_⟩
  have h1 : X i ω ≤ (Finset.range (n + 1)).sup' ⟨0, by simp⟩ fun i => X i ω :=
    Finset.le_sup' (fun i => X i ω) (by simp; omega)
  have h2 : ((Finset.range (n + 1)).sup' ⟨0, by simp⟩ fun i => X i ω) ≤ θ :=
    Finset.sup'_le _ _ fun i _ => (hx i).2.le
  rw [Real.dist_eq, abs_lt]
  constructor <;> linarith

end Conj
