import Verif.Lemmas.ConcentrationJoint
import Verif.Props.Marginals
import Verif.Lemmas.NiwNorm
import Verif.Lemmas.MatAlg
import Mathlib.Topology.Instances.Matrix

/-! Concentration of multivariate laws: normal vectors, normal vectors whose covariance is itself random, and
random covariance matrices. -/

open MeasureTheory Set Filter Topology Matrix

set_option linter.unusedSectionVars false

namespace Conj

open Scipy Spec

variable {p : Type} [Fintype p] [DecidableEq p]

/-! ## Normal vectors -/

theorem mvn_prob {S : Matrix p p ℝ} (hS : S.PosDef) (m : p → ℝ) : IsProbabilityMeasure (lawOn univ (mvnPdf m S)) :=
  lawOn_prob MeasurableSet.univ (mvn_isDensity hS m)

theorem mvn_coord {S : Matrix p p ℝ} (hS : S.PosDef) (m : p → ℝ) (i : p) :
    (lawOn univ (mvnPdf m S)).map (fun x => x i) = contLaw (Normal.dist ⟨m i, √(S i i)⟩) := by
  have h := C56_multivariate_normal_int ⟨m, S⟩ hS i
  simp only [MultivariateNormal.getInt, powq_half] at h
  rw [lawOn_univ]
  exact h

theorem mvn_expect {S : Matrix p p ℝ} (hS : S.PosDef) (m : p → ℝ) (i : p) :
    Integrable (fun x => x i) (lawOn univ (mvnPdf m S)) ∧ ∫ x, x i ∂lawOn univ (mvnPdf m S) = m i := by
  obtain ⟨h1, h2⟩ := normal_expect (m i) (Real.sqrt_pos.2 (diag_pos hS i))
  rw [← mvn_coord hS m i] at h1 h2
  have hm : Measurable fun x : p → ℝ => x i := measurable_pi_apply i
  constructor
  · exact h1.comp_measurable hm
  · rw [integral_map (f := fun x : ℝ => x) hm.aemeasurable measurable_id.aestronglyMeasurable] at h2
    exact h2

theorem mvn_expect_mul {S : Matrix p p ℝ} (hS : S.PosDef) (m : p → ℝ) (i j : p) :
    Integrable (fun x => x i * x j) (lawOn univ (mvnPdf m S)) ∧
      ∫ x, x i * x j ∂lawOn univ (mvnPdf m S) = S i j + m i * m j := by
  have hlaw : lawOn univ (mvnPdf m S) =
      (ProbabilityTheory.multivariateGaussian (WithLp.toLp 2 m) S).map (fun x => x.ofLp) := by
    rw [lawOn_univ]; exact mvnLaw_eq_gaussian hS m
  have hmeas : Measurable fun x : EuclideanSpace ℝ p => x.ofLp := by fun_prop
  have hL : ∀ i, MemLp (fun x : p → ℝ => x i) 2 (lawOn univ (mvnPdf m S)) := by
    intro i
    have h1 : MemLp (fun x : ℝ => x) 2 ((lawOn univ (mvnPdf m S)).map fun x => x i) := by
      rw [mvn_coord hS m i, normal_law _ (Real.sqrt_pos.2 (diag_pos hS i))]
      exact ProbabilityTheory.memLp_id_gaussianReal 2
    exact h1.comp_of_map (measurable_pi_apply i).aemeasurable
  have := mvn_prob hS m
  have hc : ProbabilityTheory.covariance (fun x : p → ℝ => x i) (fun x => x j) (lawOn univ (mvnPdf m S)) = S i j := by
    rw [hlaw, ProbabilityTheory.covariance_map (measurable_pi_apply i).aestronglyMeasurable
      (measurable_pi_apply j).aestronglyMeasurable hmeas.aemeasurable]
    exact ProbabilityTheory.covariance_eval_multivariateGaussian hS.posSemidef i j
  rw [ProbabilityTheory.covariance_eq_sub (hL i) (hL j), (mvn_expect hS m i).2, (mvn_expect hS m j).2] at hc
  refine ⟨(hL i).integrable_mul (hL j), ?_⟩
  have e : ∫ x, x i * x j ∂lawOn univ (mvnPdf m S) =
    ∫ x, ((fun x : p → ℝ => x i) * fun x : p → ℝ => x j) x ∂lawOn univ (mvnPdf m S) := rfl
  rw [e]
  linarith

theorem normal_sq_lintegral (m : ℝ) {v : ℝ} (hv : 0 < v) :
    ∫⁻ x, ENNReal.ofReal ((x - m) ^ 2) ∂contLaw (Normal.dist ⟨m, √v⟩) = ENNReal.ofReal v := by
  have hs := Real.sqrt_pos.2 hv
  rw [normal_law m hs, Real.sq_sqrt hv.le]
  have h2 : MemLp (fun x : ℝ => x) 2 (ProbabilityTheory.gaussianReal m (Real.toNNReal v)) :=
    ProbabilityTheory.memLp_id_gaussianReal 2
  have hv' := ProbabilityTheory.variance_fun_id_gaussianReal (μ := m) (v := Real.toNNReal v)
  have he := ProbabilityTheory.evariance_eq_lintegral_ofReal (fun x : ℝ => x)
    (ProbabilityTheory.gaussianReal m (Real.toNNReal v))
  have hm : ∫ x, x ∂ProbabilityTheory.gaussianReal m (Real.toNNReal v) = m :=
    ProbabilityTheory.integral_id_gaussianReal
  rw [hm] at he
  rw [← he, ← h2.ofReal_variance_eq, hv', Real.coe_toNNReal _ hv.le]

theorem mvn_tail {S : Matrix p p ℝ} (hS : S.PosDef) (m : p → ℝ) (i : p) {ε : ℝ} (hε : 0 < ε) :
    lawOn univ (mvnPdf m S) {x | ε ≤ |x i - m i|} ≤ ENNReal.ofReal (S i i / ε ^ 2) := by
  have hv := diag_pos hS i
  have hm : Measurable fun x : p → ℝ => x i := measurable_pi_apply i
  have hset : MeasurableSet {y : ℝ | ε ≤ |y - m i|} := measurableSet_le measurable_const (by fun_prop)
  have e : lawOn univ (mvnPdf m S) {x | ε ≤ |x i - m i|} =
      contLaw (Normal.dist ⟨m i, √(S i i)⟩) {y | ε ≤ |y - m i|} := by
    rw [← mvn_coord hS m i, Measure.map_apply hm hset]
    rfl
  rw [e]
  have hmk := mul_meas_ge_le_lintegral₀ (μ := contLaw (Normal.dist ⟨m i, √(S i i)⟩))
    (f := fun x => ENNReal.ofReal ((x - m i) ^ 2)) (by fun_prop) (ENNReal.ofReal (ε ^ 2))
  rw [normal_sq_lintegral (m i) hv] at hmk
  have hε2 : ENNReal.ofReal (ε ^ 2) ≠ 0 := by
    simp only [ne_eq, ENNReal.ofReal_eq_zero, not_le]; positivity
  rw [ENNReal.ofReal_div_of_pos (by positivity), ENNReal.le_div_iff_mul_le (Or.inl hε2) (Or.inl ENNReal.ofReal_ne_top),
    mul_comm]
  refine le_trans ?_ hmk
  refine mul_le_mul_right (measure_mono fun x hx => ?_) _
  refine ENNReal.ofReal_le_ofReal ?_
  rw [← sq_abs (x - m i)]
  exact pow_le_pow_left₀ hε.le hx 2

theorem concentrates_mvn {m : ℕ → p → ℝ} {S : ℕ → Matrix p p ℝ} {m₀ : p → ℝ} (hS : ∀ n, (S n).PosDef)
    (hm : ∀ i, Tendsto (fun n => m n i) atTop (𝓝 (m₀ i))) (h0 : ∀ i, Tendsto (fun n => S n i i) atTop (𝓝 0)) :
    ConcentratesAt (fun n => lawOn univ (mvnPdf (m n) (S n))) m₀ := by
  refine concentrates_pi (Eventually.of_forall fun n => mvn_prob (hS n) _) fun i => ?_
  simp only [mvn_coord (hS _)]
  refine (recovers_normal (fun n => Real.sqrt_pos.2 (diag_pos (hS n) i)) (hm i) ?_).concentrates
  exact (h0 i).congr fun n => (Real.sq_sqrt (diag_pos (hS n) i).le).symm

/-! ## A random covariance -/

section mix
variable {Y : Type} [MeasureSpace Y] [PseudoMetricSpace Y] [OpensMeasurableSpace Y] [SFinite (volume : Measure Y)]
  {T : Set Y}

theorem mix_apply (hT : MeasurableSet T) {g : Y → ℝ} {C : Y → Matrix p p ℝ} {m : p → ℝ}
    (hg : IsDensity volume T g) (hC : ∀ y ∈ T, (C y).PosDef)
    (hd : IsDensity (volume : Measure ((p → ℝ) × Y)) (univ ×ˢ T) (fun θ => g θ.2 * mvnPdf m (C θ.2) θ.1))
    {A : Set ((p → ℝ) × Y)} (hA : MeasurableSet A) :
    lawOn (univ ×ˢ T) (fun θ : (p → ℝ) × Y => g θ.2 * mvnPdf m (C θ.2) θ.1) A =
      ∫⁻ y, lawOn univ (mvnPdf m (C y)) {x | (x, y) ∈ A} ∂lawOn T g := by
  have h := lintegral_lawOn_prod (S := univ) (h := fun x y => mvnPdf m (C y) x) hT hg
    (fun y hy => mvn_isDensity (hC y hy) m) hd (F := A.indicator 1) (measurable_one.indicator hA)
  rw [lintegral_indicator_one hA] at h
  rw [h]
  refine lintegral_congr fun y => ?_
  have hy : MeasurableSet {x : p → ℝ | (x, y) ∈ A} := hA.preimage (by fun_prop : Measurable fun x : p → ℝ => (x, y))
  rw [← lintegral_indicator_one hy]
  rfl

theorem concentrates_mix (hT : MeasurableSet T) {g : ℕ → Y → ℝ} {C : ℕ → Y → Matrix p p ℝ} {m : ℕ → p → ℝ}
    {m₀ : p → ℝ} {y₀ : Y} {w : ℕ → p → ℝ} {t : p → Y → ℝ} {B δ : ℝ}
    (hg : ∀ n, IsDensity volume T (g n)) (hC : ∀ n, ∀ y ∈ T, (C n y).PosDef)
    (hd : ∀ n, IsDensity (volume : Measure ((p → ℝ) × Y)) (univ ×ˢ T)
      (fun θ => g n θ.2 * mvnPdf (m n) (C n θ.2) θ.1))
    (hw : ∀ n, ∀ y ∈ T, ∀ i, C n y i i = w n i * t i y) (hw1 : ∀ n i, 0 ≤ w n i)
    (hw0 : ∀ i, Tendsto (fun n => w n i) atTop (𝓝 0)) (hδ : 0 < δ) (hB : ∀ y ∈ Metric.ball y₀ δ, ∀ i, t i y ≤ B)
    (hm : ∀ i, Tendsto (fun n => m n i) atTop (𝓝 (m₀ i))) (hc : ConcentratesAt (fun n => lawOn T (g n)) y₀) :
    ConcentratesAt (fun n => lawOn (univ ×ˢ T) (fun θ : (p → ℝ) × Y => g n θ.2 * mvnPdf (m n) (C n θ.2) θ.1))
      (m₀, y₀) := by
  refine concentrates_of_compl (Eventually.of_forall fun n => lawOn_prob (MeasurableSet.univ.prod hT) (hd n))
    fun ε hε => ?_
  have hδ' : 0 < min δ ε := lt_min hδ hε
  have hpg : ∀ᶠ n in atTop, IsProbabilityMeasure (lawOn T (g n)) := Eventually.of_forall fun n => lawOn_prob hT (hg n)
  have hmain : Tendsto (fun n => lawOn T (g n) (Metric.ball y₀ (min δ ε))ᶜ +
      ∑ i, ENNReal.ofReal (w n i * B / (ε / 2) ^ 2)) atTop (𝓝 0) := by
    have h1 := ConcentratesAt.compl hpg hc hδ'
    have h2 : ∀ i ∈ (Finset.univ : Finset p), Tendsto (fun n => ENNReal.ofReal (w n i * B / (ε / 2) ^ 2)) atTop (𝓝 0) := by
      intro i _
      have := ENNReal.tendsto_ofReal (((hw0 i).mul_const B).div_const ((ε / 2) ^ 2))
      simpa using this
    have := h1.add (tendsto_finsetSum _ h2)
    simpa using this
  refine tendsto_of_tendsto_of_tendsto_of_le_of_le' tendsto_const_nhds hmain (Eventually.of_forall fun n => zero_le) ?_
  have hclose : ∀ᶠ n in atTop, ∀ i, dist (m n i) (m₀ i) < ε / 2 := by
    rw [eventually_all]
    exact fun i => Metric.tendsto_nhds.1 (hm i) (ε / 2) (by positivity)
  filter_upwards [hclose] with n hn
  have hpn := lawOn_prob hT (hg n)
  have hbm : MeasurableSet (Metric.ball y₀ (min δ ε)) := measurableSet_ball
  have hA1 : MeasurableSet {θ : (p → ℝ) × Y | θ.2 ∈ (Metric.ball y₀ (min δ ε))ᶜ} := hbm.compl.preimage measurable_snd
  have hA2 : ∀ i, MeasurableSet {θ : (p → ℝ) × Y | θ.2 ∈ Metric.ball y₀ (min δ ε) ∧ ε / 2 ≤ |θ.1 i - m n i|} := by
    intro i
    refine (hbm.preimage measurable_snd).inter ?_
    exact measurableSet_le (f := fun _ : (p → ℝ) × Y => ε / 2) (g := fun θ : (p → ℝ) × Y => |θ.1 i - m n i|)
      measurable_const (by fun_prop)
  have hsub : (Metric.ball (m₀, y₀) ε)ᶜ ⊆ {θ : (p → ℝ) × Y | θ.2 ∈ (Metric.ball y₀ (min δ ε))ᶜ} ∪
      ⋃ i, {θ : (p → ℝ) × Y | θ.2 ∈ Metric.ball y₀ (min δ ε) ∧ ε / 2 ≤ |θ.1 i - m n i|} := by
    intro θ hθ
    by_contra hcon
    rw [mem_union, not_or, mem_iUnion, not_exists] at hcon
    obtain ⟨h1, h2⟩ := hcon
    have h1 : θ.2 ∈ Metric.ball y₀ (min δ ε) := by
      by_contra h; exact h1 h
    refine hθ ?_
    rw [Metric.mem_ball, Prod.dist_eq, max_lt_iff, dist_pi_lt_iff hε]
    refine ⟨fun i => ?_, lt_of_lt_of_le h1 (min_le_right _ _)⟩
    have h3 : |θ.1 i - m n i| < ε / 2 := by
      by_contra h; exact h2 i ⟨h1, not_lt.1 h⟩
    have := dist_triangle (θ.1 i) (m n i) (m₀ i)
    have h4 := hn i
    rw [Real.dist_eq (θ.1 i) (m n i)] at this
    linarith
  refine (measure_mono hsub).trans ((measure_union_le _ _).trans (add_le_add ?_ ?_))
  · rw [mix_apply hT (hg n) (hC n) (hd n) hA1, ← lintegral_indicator_one hbm.compl]
    refine lintegral_mono_ae ?_
    filter_upwards [ae_lawOn_mem hT (g n)] with y hy
    have := mvn_prob (hC n y hy) (m n)
    by_cases h : y ∈ (Metric.ball y₀ (min δ ε))ᶜ
    · rw [indicator_of_mem h]; exact prob_le_one
    · rw [indicator_of_notMem h]
      simp [h]
  · refine (measure_iUnion_fintype_le _ _).trans (Finset.sum_le_sum fun i _ => ?_)
    rw [mix_apply hT (hg n) (hC n) (hd n) (hA2 i)]
    have : ∫⁻ _, ENNReal.ofReal (w n i * B / (ε / 2) ^ 2) ∂lawOn T (g n) = ENNReal.ofReal (w n i * B / (ε / 2) ^ 2) := by
      rw [lintegral_const, measure_univ, mul_one]
    rw [← this]
    refine lintegral_mono_ae ?_
    filter_upwards [ae_lawOn_mem hT (g n)] with y hy
    by_cases h : y ∈ Metric.ball y₀ (min δ ε)
    · have hset : {x : p → ℝ | y ∈ Metric.ball y₀ (min δ ε) ∧ ε / 2 ≤ |x i - m n i|} =
          {x | ε / 2 ≤ |x i - m n i|} := by
        ext x; simp only [mem_ofPred_eq]; exact and_iff_right h
      rw [hset]
      refine (mvn_tail (hC n y hy) (m n) i (by positivity)).trans (ENNReal.ofReal_le_ofReal ?_)
      refine div_le_div_of_nonneg_right ?_ (by positivity)
      rw [hw n y hy i]
      exact mul_le_mul_of_nonneg_left (hB y (Metric.ball_subset_ball (min_le_left _ _) h) i) (hw1 n i)
    · have hset : {x : p → ℝ | y ∈ Metric.ball y₀ (min δ ε) ∧ ε / 2 ≤ |x i - m n i|} = ∅ := by
        ext x; simp only [mem_ofPred_eq, mem_empty_iff_false, iff_false]; exact fun hx => h hx.1
      rw [hset, measure_empty]
      exact zero_le

end mix

/-! ## Limits of matrices -/

theorem tendsto_matrix_inv' {I : Type} {l : Filter I} {A : I → Matrix p p ℝ} {A₀ : Matrix p p ℝ} (h : Tendsto A l (𝓝 A₀))
    (hd : A₀.det ≠ 0) : Tendsto (fun n => (A n)⁻¹) l (𝓝 A₀⁻¹) := by
  simp only [Matrix.inv_def, Ring.inverse_eq_inv']
  have h1 : Tendsto (fun n => (A n).det) l (𝓝 A₀.det) :=
    ((continuous_id.matrix_det (n := p) (R := ℝ)).tendsto A₀).comp h
  have h2 : Tendsto (fun n => (A n).adjugate) l (𝓝 A₀.adjugate) :=
    ((continuous_id.matrix_adjugate (n := p) (R := ℝ)).tendsto A₀).comp h
  exact (h1.inv₀ hd).smul h2

theorem tendsto_matrix_inv {A : ℕ → Matrix p p ℝ} {A₀ : Matrix p p ℝ} (h : Tendsto A atTop (𝓝 A₀))
    (hd : A₀.det ≠ 0) : Tendsto (fun n => (A n)⁻¹) atTop (𝓝 A₀⁻¹) := tendsto_matrix_inv' h hd

section
variable {A : ℕ → Matrix p p ℝ} {A₀ : Matrix p p ℝ} (hA : ∀ n, (A n).PosDef)
  (h : Tendsto (fun n : ℕ => (n : ℝ)⁻¹ • A n) atTop (𝓝 A₀)) (hd : A₀.det ≠ 0)
include hA h hd

theorem average_inv : Tendsto (fun n : ℕ => (n : ℝ) • (A n)⁻¹) atTop (𝓝 A₀⁻¹) := by
  refine (tendsto_matrix_inv h hd).congr' ?_
  filter_upwards [eventually_gt_atTop 0] with n hn
  have hn' : (n : ℝ) ≠ 0 := by positivity
  have hu := posDef_unit (hA n)
  refine Matrix.inv_eq_right_inv ?_
  rw [Matrix.smul_mul, Matrix.mul_smul, smul_smul, inv_mul_cancel₀ hn', one_smul, Matrix.mul_nonsing_inv _ hu]

theorem average_inv_zero (i j : p) : Tendsto (fun n : ℕ => (A n)⁻¹ i j) atTop (𝓝 0) := by
  have h1 := average_inv hA h hd
  have h2 : Tendsto (fun n : ℕ => ((n : ℝ) • (A n)⁻¹) i j) atTop (𝓝 (A₀⁻¹ i j)) :=
    ((continuous_id.matrix_elem i j).tendsto _).comp h1
  have h3 := h2.div_atTop tendsto_natCast_atTop_atTop
  refine h3.congr' ?_
  filter_upwards [eventually_gt_atTop 0] with n hn
  have hn' : (n : ℝ) ≠ 0 := by positivity
  rw [Matrix.smul_apply, smul_eq_mul, mul_div_cancel_left₀ _ hn']

theorem average_solve {b : ℕ → p → ℝ} {b₀ : p → ℝ} (hb : Tendsto (fun n : ℕ => (n : ℝ)⁻¹ • b n) atTop (𝓝 b₀)) :
    Tendsto (fun n : ℕ => (A n)⁻¹ *ᵥ b n) atTop (𝓝 (A₀⁻¹ *ᵥ b₀)) := by
  have h1 : Tendsto (fun n : ℕ => ((n : ℝ) • (A n)⁻¹) *ᵥ ((n : ℝ)⁻¹ • b n)) atTop (𝓝 (A₀⁻¹ *ᵥ b₀)) := by
    have h0 := average_inv hA h hd
    refine tendsto_pi_nhds.2 fun i => ?_
    simp only [mulVec, dotProduct]
    refine tendsto_finsetSum _ fun j _ => Tendsto.mul ?_ (tendsto_pi_nhds.1 hb j)
    exact ((continuous_id.matrix_elem i j).tendsto _).comp h0
  refine h1.congr' ?_
  filter_upwards [eventually_gt_atTop 0] with n hn
  have hn' : (n : ℝ) ≠ 0 := by positivity
  rw [Matrix.smul_mulVec, Matrix.mulVec_smul, smul_smul, mul_inv_cancel₀ hn', one_smul]

end

theorem average_matrix_const (A₀ : Matrix p p ℝ) : Tendsto (fun n : ℕ => (n : ℝ)⁻¹ • A₀) atTop (𝓝 0) := by
  have h := (tendsto_inv_atTop_zero.comp (tendsto_natCast_atTop_atTop (R := ℝ))).smul_const A₀
  rwa [zero_smul] at h

theorem average_vec_const (b : p → ℝ) : Tendsto (fun n : ℕ => (n : ℝ)⁻¹ • b) atTop (𝓝 0) := by
  have h := (tendsto_inv_atTop_zero.comp (tendsto_natCast_atTop_atTop (R := ℝ))).smul_const b
  rwa [zero_smul] at h

theorem average_matrix_linear (A₀ : Matrix p p ℝ) : Tendsto (fun n : ℕ => (n : ℝ)⁻¹ • ((n : ℝ) • A₀)) atTop (𝓝 A₀) := by
  refine tendsto_const_nhds.congr' ?_
  filter_upwards [eventually_gt_atTop 0] with n hn
  have hn' : (n : ℝ) ≠ 0 := by positivity
  rw [smul_smul, inv_mul_cancel₀ hn', one_smul]

end Conj
