import Verif.Lemmas.StudentLimit
import Verif.Lemmas.RegressionLimit
import Verif.Props.Regression
import Verif.Props.MultivariateNormal
import Verif.Props.Consistency

/-!
# Learning the true parameter (C88, C93): multivariate normal data
-/

open MeasureTheory Set Filter Topology Matrix

set_option linter.unusedSectionVars false

namespace Conj

open Scipy Spec

variable {Ω : Type} [MeasurableSpace Ω] {Q : Measure Ω} {p : Type} [Fintype p] [DecidableEq p]

theorem sum_vec_apply (x : ℕ → p → ℝ) (n : ℕ) (j : p) :
    (∑ i ∈ Finset.range n, x i) j = ∑ i ∈ Finset.range n, x i j := by
  rw [Finset.sum_apply]

theorem average_vec {x : ℕ → p → ℝ} {m : p → ℝ}
    (h : ∀ j, Tendsto (fun n : ℕ => (∑ i ∈ Finset.range n, x i j) / n) atTop (𝓝 (m j))) :
    Tendsto (fun n : ℕ => (n : ℝ)⁻¹ • ∑ i ∈ Finset.range n, x i) atTop (𝓝 m) := by
  refine tendsto_pi_nhds.2 fun j => (h j).congr fun n => ?_
  rw [Pi.smul_apply, sum_vec_apply, smul_eq_mul, div_eq_inv_mul]

theorem mvn_averages {X : ℕ → Ω → p → ℝ} {m₀ : p → ℝ} {S : Matrix p p ℝ} (hS : S.PosDef)
    (h : IIDFrom Q X (lawOn univ (mvnPdf m₀ S))) :
    ∀ᵐ ω ∂Q, ∀ j, Tendsto (fun n : ℕ => (∑ i ∈ Finset.range n, X i ω j) / n) atTop (𝓝 (m₀ j)) := by
  rw [ae_all_iff]
  intro j
  obtain ⟨hi, hm⟩ := mvn_expect hS m₀ j
  have := iid_average h (measurable_pi_apply j) hi
  rwa [hm] at this

theorem mvn_averages_mul {X : ℕ → Ω → p → ℝ} {m₀ : p → ℝ} {S : Matrix p p ℝ} (hS : S.PosDef)
    (h : IIDFrom Q X (lawOn univ (mvnPdf m₀ S))) :
    ∀ᵐ ω ∂Q, ∀ j k, Tendsto (fun n : ℕ => (∑ i ∈ Finset.range n, X i ω j * X i ω k) / n) atTop
      (𝓝 (S j k + m₀ j * m₀ k)) := by
  rw [ae_all_iff]
  intro j
  rw [ae_all_iff]
  intro k
  obtain ⟨hi, hm⟩ := mvn_expect_mul hS m₀ j k
  have := iid_average h (T := fun x => x j * x k) (by fun_prop) hi
  rwa [hm] at this

/-- the posterior after `n` observations -/
theorem known_cov_limit {x : ℕ → p → ℝ} {m₀ : p → ℝ}
    (h : ∀ j, Tendsto (fun n : ℕ => (∑ i ∈ Finset.range n, x i j) / n) atTop (𝓝 (m₀ j)))
    {cov : Matrix p p ℝ} (hc : cov.PosDef) (prior : MultivariateNormal (p → ℝ) (Matrix p p ℝ))
    (hp : prior.cov.PosDef) :
    ∃ post : ℕ → MultivariateNormal (p → ℝ) (Matrix p p ℝ),
      (∀ n : ℕ, ∀ x_bar : p → ℝ, (n : ℝ) • x_bar = ∑ i ∈ Finset.range n, x i →
        multivariate_normal_known_covariance (n : ℝ) x_bar cov prior = .ok (post n)) ∧
      (∀ n, (post n).cov.PosDef) ∧ Tendsto (fun n => (post n).mu) atTop (𝓝 m₀) ∧
      ∀ i j, Tendsto (fun n => (post n).cov i j) atTop (𝓝 0) := by
  have hA : ∀ n : ℕ, (prior.cov⁻¹ + (n : ℝ) • cov⁻¹).PosDef := fun n =>
    hp.inv.add_posSemidef (natSmul_posSemidef hc.inv n)
  have hlim : Tendsto (fun n : ℕ => (n : ℝ)⁻¹ • (prior.cov⁻¹ + (n : ℝ) • cov⁻¹)) atTop (𝓝 cov⁻¹) := by
    have := (average_matrix_const prior.cov⁻¹).add (average_matrix_linear cov⁻¹)
    rw [zero_add] at this
    exact this.congr fun n => (smul_add _ _ _).symm
  have hd : (cov⁻¹).det ≠ 0 := (posDef_det hc.inv).ne'
  have hb : Tendsto (fun n : ℕ => (n : ℝ)⁻¹ • (prior.cov⁻¹ *ᵥ prior.mu + cov⁻¹ *ᵥ ∑ i ∈ Finset.range n, x i)) atTop
      (𝓝 (cov⁻¹ *ᵥ m₀)) := by
    have h1 : Tendsto (fun n : ℕ => cov⁻¹ *ᵥ ((n : ℝ)⁻¹ • ∑ i ∈ Finset.range n, x i)) atTop (𝓝 (cov⁻¹ *ᵥ m₀)) :=
      ((continuous_const.matrix_mulVec continuous_id).tendsto m₀).comp (average_vec h)
    have := (average_vec_const (prior.cov⁻¹ *ᵥ prior.mu)).add h1
    rw [zero_add] at this
    exact this.congr fun n => by rw [smul_add, mulVec_smul]
  refine ⟨fun n => ⟨(prior.cov⁻¹ + (n : ℝ) • cov⁻¹)⁻¹ *ᵥ
    (prior.cov⁻¹ *ᵥ prior.mu + cov⁻¹ *ᵥ ∑ i ∈ Finset.range n, x i), (prior.cov⁻¹ + (n : ℝ) • cov⁻¹)⁻¹⟩,
    fun n x_bar hx => mvn_known_cov_eq n x_bar _ hx hc prior hp, fun n => (hA n).inv, ?_,
    average_inv_zero hA hlim hd⟩
  have := average_solve hA hlim hd hb
  rwa [mulVec_mulVec, nonsing_inv_mul _ (posDef_unit hc.inv), one_mulVec] at this

theorem mean_times {x : ℕ → p → ℝ} (n : ℕ) :
    ((n + 1 : ℕ) : ℝ) • (fun j => (∑ i ∈ Finset.range (n + 1), x i j) / ((n + 1 : ℕ) : ℝ)) =
      ∑ i ∈ Finset.range (n + 1), x i := by
  funext j
  have : ((n + 1 : ℕ) : ℝ) ≠ 0 := by positivity
  rw [Pi.smul_apply, sum_vec_apply, smul_eq_mul, mul_div_cancel₀ _ this]

/-- C88. Multivariate normal data with known covariance: the posterior of the mean vector. -/
theorem C88_multivariate_normal_known_covariance {X : ℕ → Ω → p → ℝ}
    (prior : MultivariateNormal (p → ℝ) (Matrix p p ℝ)) (hp : prior.cov.PosDef) {cov : Matrix p p ℝ}
    (hc : cov.PosDef) (m₀ : p → ℝ) (h : IIDFrom Q X (lawOn univ (mvnPdf m₀ cov))) :
    ∀ᵐ ω ∂Q, ∃ post : ℕ → MultivariateNormal (p → ℝ) (Matrix p p ℝ),
      (∀ n : ℕ, multivariate_normal_known_covariance ((n + 1 : ℕ) : ℝ)
        (fun j => (∑ i ∈ Finset.range (n + 1), X i ω j) / ((n + 1 : ℕ) : ℝ)) cov prior = .ok (post n)) ∧
      ConcentratesAt (fun n => lawOn univ (post n).pdf) m₀ := by
  filter_upwards [mvn_averages hc h] with ω hω
  obtain ⟨post, h1, h2, h3, h4⟩ := known_cov_limit hω hc prior hp
  have hs := tendsto_add_atTop_nat 1
  refine ⟨fun n => post (n + 1), fun n => h1 (n + 1) _ (mean_times n), ?_⟩
  exact concentrates_mvn (m := fun n => (post (n + 1)).mu) (S := fun n => (post (n + 1)).cov) (fun n => h2 _)
    (fun i => (tendsto_pi_nhds.1 h3 i).comp hs) fun i => (h4 i i).comp hs

/-- C88. The variant with a known precision matrix. -/
theorem C88_multivariate_normal_known_precision {X : ℕ → Ω → p → ℝ}
    (prior : MultivariateNormal (p → ℝ) (Matrix p p ℝ)) (hp : prior.cov.PosDef) {precision : Matrix p p ℝ}
    (hc : precision.PosDef) (m₀ : p → ℝ) (h : IIDFrom Q X (lawOn univ (mvnPdf m₀ precision⁻¹))) :
    ∀ᵐ ω ∂Q, ∃ post : ℕ → MultivariateNormal (p → ℝ) (Matrix p p ℝ),
      (∀ n : ℕ, multivariate_normal_known_precision ((n + 1 : ℕ) : ℝ)
        (fun j => (∑ i ∈ Finset.range (n + 1), X i ω j) / ((n + 1 : ℕ) : ℝ)) precision prior = .ok (post n)) ∧
      ConcentratesAt (fun n => lawOn univ (post n).pdf) m₀ := by
  filter_upwards [C88_multivariate_normal_known_covariance prior hp hc.inv m₀ h] with ω ⟨post, h1, h2⟩
  refine ⟨post, fun n => ?_, h2⟩
  rw [← h1 n, mvn_known_prec_eq _ _ _ (mean_times n) hc prior hp, mvn_known_cov_eq _ _ _ (mean_times n) hc.inv prior hp,
    nonsing_inv_nonsing_inv _ (posDef_unit hc)]

example : ∃ (Q : Measure (ℕ → Fin 2 → ℝ)) (X : ℕ → (ℕ → Fin 2 → ℝ) → Fin 2 → ℝ), IsProbabilityMeasure Q ∧
    IIDFrom Q X (lawOn univ (mvnPdf ![1, -3] !![2, 1; 1, 2])) ∧
    ∀ᵐ ω ∂Q, ∃ post : ℕ → MultivariateNormal (Fin 2 → ℝ) (Matrix (Fin 2) (Fin 2) ℝ),
      (∀ n : ℕ, multivariate_normal_known_covariance ((n + 1 : ℕ) : ℝ)
        (fun j => (∑ i ∈ Finset.range (n + 1), X i ω j) / ((n + 1 : ℕ) : ℝ)) !![2, 1; 1, 2] ⟨![0, 1], 1⟩ =
          .ok (post n)) ∧
      ConcentratesAt (fun n => lawOn univ (post n).pdf) ![1, -3] := by
  have := mvn_prob exampleCov_posDef ![1, -3]
  obtain ⟨Q, X, hQ, h⟩ := exists_iid (lawOn univ (mvnPdf ![1, -3] !![2, 1; 1, 2]))
  exact ⟨Q, X, hQ, h, C88_multivariate_normal_known_covariance ⟨![0, 1], 1⟩ PosDef.one exampleCov_posDef _ h⟩

/-! ## Predictions -/

theorem tendsto_mvnPdf {m : ℕ → p → ℝ} {S : ℕ → Matrix p p ℝ} {m₀ : p → ℝ} {S₀ : Matrix p p ℝ} (hS : S₀.PosDef)
    (hm : Tendsto m atTop (𝓝 m₀)) (h : ∀ i j, Tendsto (fun n => S n i j) atTop (𝓝 (S₀ i j))) (x : p → ℝ) :
    Tendsto (fun n => mvnPdf (m n) (S n) x) atTop (𝓝 (mvnPdf m₀ S₀ x)) := by
  have hdet := posDef_det hS
  have hM := tendsto_matrix h
  have h1 : Tendsto (fun n => (S n).det) atTop (𝓝 S₀.det) :=
    ((continuous_id.matrix_det (n := p) (R := ℝ)).tendsto S₀).comp hM
  have h2 := tendsto_quad (fun i j => tendsto_entry (tendsto_matrix_inv hM hdet.ne') i j) (v := fun n => x - m n)
    (v₀ := x - m₀) fun i => tendsto_const_nhds.sub (tendsto_pi_nhds.1 hm i)
  unfold mvnPdf
  refine Tendsto.div ((Real.continuous_exp.tendsto _).comp (h2.const_mul _))
    ((Real.continuous_sqrt.tendsto _).comp (h1.const_mul _)) ?_
  have := Real.pi_pos
  positivity

/-- C93. Multivariate normal data with known covariance. -/
theorem C93_multivariate_normal_known_covariance {X : ℕ → Ω → p → ℝ}
    (prior : MultivariateNormal (p → ℝ) (Matrix p p ℝ)) (hp : prior.cov.PosDef) {cov : Matrix p p ℝ}
    (hc : cov.PosDef) (m₀ : p → ℝ) (h : IIDFrom Q X (lawOn univ (mvnPdf m₀ cov))) :
    ∀ᵐ ω ∂Q, ∃ post : ℕ → MultivariateNormal (p → ℝ) (Matrix p p ℝ),
      (∀ n : ℕ, multivariate_normal_known_covariance ((n + 1 : ℕ) : ℝ)
        (fun j => (∑ i ∈ Finset.range (n + 1), X i ω j) / ((n + 1 : ℕ) : ℝ)) cov prior = .ok (post n)) ∧
      ∀ x, Tendsto (fun n => (multivariate_normal_known_covariance_predictive (post n) cov).pdf x) atTop
        (𝓝 ((MultivariateNormal.mk m₀ cov).pdf x)) := by
  filter_upwards [mvn_averages hc h] with ω hω
  obtain ⟨post, h1, -, h3, h4⟩ := known_cov_limit hω hc prior hp
  have hs := tendsto_add_atTop_nat 1
  refine ⟨fun n => post (n + 1), fun n => h1 (n + 1) _ (mean_times n), fun x => ?_⟩
  refine tendsto_mvnPdf hc (h3.comp hs) (fun i j => ?_) x
  have := ((h4 i j).comp hs).add_const (cov i j)
  rwa [zero_add] at this

/-- C93. The variant with a known precision matrix. -/
theorem C93_multivariate_normal_known_precision {X : ℕ → Ω → p → ℝ}
    (prior : MultivariateNormal (p → ℝ) (Matrix p p ℝ)) (hp : prior.cov.PosDef) {precision : Matrix p p ℝ}
    (hc : precision.PosDef) (m₀ : p → ℝ) (h : IIDFrom Q X (lawOn univ (mvnPdf m₀ precision⁻¹))) :
    ∀ᵐ ω ∂Q, ∃ post pred : ℕ → MultivariateNormal (p → ℝ) (Matrix p p ℝ),
      (∀ n : ℕ, multivariate_normal_known_precision ((n + 1 : ℕ) : ℝ)
        (fun j => (∑ i ∈ Finset.range (n + 1), X i ω j) / ((n + 1 : ℕ) : ℝ)) precision prior = .ok (post n) ∧
        multivariate_normal_known_precision_predictive (post n) precision = .ok (pred n)) ∧
      ∀ x, Tendsto (fun n => (pred n).pdf x) atTop (𝓝 ((MultivariateNormal.mk m₀ precision⁻¹).pdf x)) := by
  filter_upwards [C93_multivariate_normal_known_covariance prior hp hc.inv m₀ h] with ω ⟨post, h1, h2⟩
  refine ⟨post, fun n => multivariate_normal_known_covariance_predictive (post n) precision⁻¹, fun n => ⟨?_, ?_⟩, h2⟩
  · rw [← h1 n, mvn_known_prec_eq _ _ _ (mean_times n) hc prior hp, mvn_known_cov_eq _ _ _ (mean_times n) hc.inv prior hp,
      nonsing_inv_nonsing_inv _ (posDef_unit hc)]
  · simp [multivariate_normal_known_precision_predictive, linalgInv_posDef hc, Bind.bind, Except.bind,
      Pure.pure, Except.pure, multivariate_normal_known_covariance_predictive]

example : ∃ (Q : Measure (ℕ → Fin 2 → ℝ)) (X : ℕ → (ℕ → Fin 2 → ℝ) → Fin 2 → ℝ), IsProbabilityMeasure Q ∧
    IIDFrom Q X (lawOn univ (mvnPdf ![1, -3] !![2, 1; 1, 2])) ∧
    ∀ᵐ ω ∂Q, ∃ post : ℕ → MultivariateNormal (Fin 2 → ℝ) (Matrix (Fin 2) (Fin 2) ℝ),
      (∀ n : ℕ, multivariate_normal_known_covariance ((n + 1 : ℕ) : ℝ)
        (fun j => (∑ i ∈ Finset.range (n + 1), X i ω j) / ((n + 1 : ℕ) : ℝ)) !![2, 1; 1, 2] ⟨![0, 1], 1⟩ =
          .ok (post n)) ∧
      ∀ x, Tendsto (fun n => (multivariate_normal_known_covariance_predictive (post n) !![2, 1; 1, 2]).pdf x) atTop
        (𝓝 ((MultivariateNormal.mk ![1, -3] !![2, 1; 1, 2]).pdf x)) := by
  have := mvn_prob exampleCov_posDef ![1, -3]
  obtain ⟨Q, X, hQ, h⟩ := exists_iid (lawOn univ (mvnPdf ![1, -3] !![2, 1; 1, 2]))
  exact ⟨Q, X, hQ, h, C93_multivariate_normal_known_covariance ⟨![0, 1], 1⟩ PosDef.one exampleCov_posDef _ h⟩

/-! ## Linear regression -/

/-- the law of a pair (covariates, response): the covariates have law `F`, the response is a linear function of
them plus independent normal noise -/
noncomputable def regressionLaw (F : Measure (p → ℝ)) (β₀ : p → ℝ) (variance : ℝ) : Measure ((p → ℝ) × ℝ) :=
  (F.prod (contLaw (Normal.dist { mu := 0, sigma := √variance }))).map fun q => (q.1, q.1 ⬝ᵥ β₀ + q.2)

theorem regression_map_measurable (β₀ : p → ℝ) :
    Measurable fun q : (p → ℝ) × ℝ => (q.1, q.1 ⬝ᵥ β₀ + q.2) := by
  unfold dotProduct
  fun_prop

theorem regression_averages {F : Measure (p → ℝ)} [IsProbabilityMeasure F]
    (hF : ∀ j k, Integrable (fun x => x j * x k) F) (β₀ : p → ℝ) {v : ℝ} (hv : 0 < v)
    {Z : ℕ → Ω → (p → ℝ) × ℝ} (h : IIDFrom Q Z (regressionLaw F β₀ v)) :
    ∀ᵐ ω ∂Q, (∀ j k, Tendsto (fun n : ℕ => (∑ i ∈ Finset.range n, (Z i ω).1 j * (Z i ω).1 k) / n) atTop
        (𝓝 (Matrix.of (fun j k => ∫ x, x j * x k ∂F) j k))) ∧
      (∀ j, Tendsto (fun n : ℕ => (∑ i ∈ Finset.range n, (Z i ω).1 j * (Z i ω).2) / n) atTop
        (𝓝 ((Matrix.of (fun j k => ∫ x, x j * x k ∂F) *ᵥ β₀) j))) ∧
      Tendsto (fun n : ℕ => (∑ i ∈ Finset.range n, (Z i ω).2 * (Z i ω).2) / n) atTop
        (𝓝 (quad (Matrix.of fun j k => ∫ x, x j * x k ∂F) β₀ + v)) := by
  have hs : 0 < √v := Real.sqrt_pos.2 hv
  have := normal_prob 0 hs
  obtain ⟨hN, h0⟩ := normal_expect 0 hs
  obtain ⟨hN2, hv2⟩ := normal_expect_sq 0 hs
  simp only [pow_two, mul_zero, add_zero, Real.mul_self_sqrt hv.le] at hN2 hv2
  have hφ := regression_map_measurable β₀
  have key : ∀ T : (p → ℝ) × ℝ → ℝ, Measurable T →
      Integrable (fun q : (p → ℝ) × ℝ => T (q.1, q.1 ⬝ᵥ β₀ + q.2)) (F.prod (contLaw (Normal.dist ⟨0, √v⟩))) →
      ∀ᵐ ω ∂Q, Tendsto (fun n : ℕ => (∑ i ∈ Finset.range n, T (Z i ω)) / n) atTop
        (𝓝 (∫ q : (p → ℝ) × ℝ, T (q.1, q.1 ⬝ᵥ β₀ + q.2) ∂(F.prod (contLaw (Normal.dist ⟨0, √v⟩))))) := by
    intro T hT hi
    have hi' : Integrable T (regressionLaw F β₀ v) :=
      (integrable_map_measure hT.aestronglyMeasurable hφ.aemeasurable).2 hi
    have := iid_average h hT hi'
    rwa [regressionLaw, integral_map hφ.aemeasurable hT.aestronglyMeasurable] at this
  have k1 : ∀ j k, ∀ᵐ ω ∂Q, Tendsto (fun n : ℕ => (∑ i ∈ Finset.range n, (Z i ω).1 j * (Z i ω).1 k) / n) atTop
        (𝓝 (∫ x, x j * x k ∂F)) := by
    intro j k
    have hi : Integrable (fun q : (p → ℝ) × ℝ => q.1 j * q.1 k) (F.prod (contLaw (Normal.dist ⟨0, √v⟩))) := by
      simpa using Integrable.mul_prod (f := fun x : p → ℝ => x j * x k) (g := fun _ : ℝ => (1 : ℝ))
        (ν := contLaw (Normal.dist ⟨0, √v⟩)) (hF j k) (integrable_const _)
    have h1 := key (fun z => z.1 j * z.1 k) (by fun_prop) hi
    have h2 := integral_prod_mul (μ := F) (ν := contLaw (Normal.dist ⟨0, √v⟩)) (fun x : p → ℝ => x j * x k)
      (fun _ : ℝ => (1 : ℝ))
    simp only [mul_one, integral_const, probReal_univ, smul_eq_mul] at h2
    simpa only [h2] using h1
  have k2 : ∀ j, ∀ᵐ ω ∂Q, Tendsto (fun n : ℕ => (∑ i ∈ Finset.range n, (Z i ω).1 j * (Z i ω).2) / n) atTop
        (𝓝 ((Matrix.of (fun j k => ∫ x, x j * x k ∂F) *ᵥ β₀) j)) := by
    intro j
    obtain ⟨hi, he⟩ := cross_moment hF hN h0 β₀ j
    have h1 := key (fun z => z.1 j * z.2) (by fun_prop) hi
    simp only [he] at h1
    exact h1
  have k3 : ∀ᵐ ω ∂Q, Tendsto (fun n : ℕ => (∑ i ∈ Finset.range n, (Z i ω).2 * (Z i ω).2) / n) atTop
        (𝓝 (quad (Matrix.of fun j k => ∫ x, x j * x k ∂F) β₀ + v)) := by
    obtain ⟨hi, he⟩ := square_moment hF hN hN2 h0 hv2 β₀
    have h1 := key (fun z => z.2 * z.2) (by fun_prop) hi
    simp only [he] at h1
    exact h1
  have k1' := ae_all_iff.2 fun j => ae_all_iff.2 fun k => k1 j k
  have k2' := ae_all_iff.2 k2
  filter_upwards [k1', k2', k3] with ω a b c using ⟨a, b, c⟩

/-- C88. Linear regression: the joint posterior of coefficients and variance concentrates at the true values, and
the posterior of the variance also recovers the true variance. The covariates may have any law with finite second
moments that form a positive definite matrix. -/
theorem C88_linear_regression {F : Measure (p → ℝ)} [IsProbabilityMeasure F]
    (hF : ∀ j k, Integrable (fun x => x j * x k) F) (hM : (Matrix.of fun j k => ∫ x, x j * x k ∂F).PosDef)
    (β₀ : p → ℝ) {v : ℝ} (hv : 0 < v) {Z : ℕ → Ω → (p → ℝ) × ℝ} (h : IIDFrom Q Z (regressionLaw F β₀ v))
    (prior : NormalInverseGamma ℝ (p → ℝ) (Matrix p p ℝ)) (D : Matrix p p ℝ)
    (hp : prior.delta_inverse = some D) (hD : D.PosDef) (ha : 0 < prior.alpha) (hb : 0 < prior.beta) :
    ∀ᵐ ω ∂Q, ∃ (post : ℕ → NormalInverseGamma ℝ (p → ℝ) (Matrix p p ℝ)) (D' : ℕ → Matrix p p ℝ),
      (∀ n, linear_regression (Matrix.of fun (i : Fin n) j => (Z i ω).1 j) (fun i : Fin n => (Z i ω).2) prior =
        .ok (post n) ∧ (post n).delta_inverse = some (D' n)) ∧
      ConcentratesAt (fun n => lawOn (univ ×ˢ Ioi (0 : ℝ)) fun θ : (p → ℝ) × ℝ => (post n).jointPdfNd (D' n) θ.1 θ.2)
        (β₀, v) ∧
      Recovers (fun n => contLaw (post n).inverse_gamma.dist) v := by
  filter_upwards [regression_averages hF β₀ hv h] with ω ⟨k1, k2, k3⟩
  obtain ⟨mu, alpha, beta, D', r1, r2, r3, r4, r5, r6⟩ := regression_limit hM k1 k2 k3 prior hp hD ha hb
  have hrec : Recovers (fun n => contLaw (InverseGamma.dist ⟨alpha n, beta n⟩)) v :=
    recovers_invgamma (fun n => (r2 n).2.2) r5 r4
  refine ⟨fun n => ⟨mu n, alpha n, beta n, some (D' n), none⟩, D', fun n => ⟨r1 n, rfl⟩, ?_, hrec⟩
  have hc : ConcentratesAt (fun n => lawOn (Ioi (0 : ℝ)) (InverseGamma.dist ⟨alpha n, beta n⟩).pdf) v := by
    have := hrec.concentrates
    have e : ∀ n, contLaw (InverseGamma.dist ⟨alpha n, beta n⟩) =
        lawOn (Ioi (0 : ℝ)) (InverseGamma.dist ⟨alpha n, beta n⟩).pdf := fun n =>
      invgamma_lawOn ⟨alpha n, beta n⟩ (r2 n).2.2
    simpa only [e] using this
  refine concentrates_mix (T := Ioi (0 : ℝ)) (g := fun n => (InverseGamma.dist ⟨alpha n, beta n⟩).pdf)
    (C := fun n y => y • D' n) (m := mu) (w := fun n i => D' n i i) (t := fun _ y => y) (B := v + 1) (δ := 1)
    measurableSet_Ioi (fun n => InverseGamma.isDensity _ (r2 n).2.1 (r2 n).2.2)
    (fun n y hy => posDef_smul (r2 n).1 hy) (fun n => nigNd_isDensity (r2 n).2.1 (r2 n).2.2 (r2 n).1 (mu n))
    (fun n y _ i => by rw [Matrix.smul_apply, smul_eq_mul, mul_comm]) (fun n i => (r2 n).1.diag_pos.le)
    (fun i => r6 i i) one_pos ?_ r3 hc
  intro y hy i
  rw [Metric.mem_ball, Real.dist_eq] at hy
  linarith [(abs_lt.1 hy).2]

/-- C93. Linear regression: for every new design, the predictive density of the responses tends to the density of
independent normal responses with the true coefficients and variance. -/
theorem C93_linear_regression {m : Type} [Fintype m] [DecidableEq m] {F : Measure (p → ℝ)} [IsProbabilityMeasure F]
    (hF : ∀ j k, Integrable (fun x => x j * x k) F) (hM : (Matrix.of fun j k => ∫ x, x j * x k ∂F).PosDef)
    (β₀ : p → ℝ) {v : ℝ} (hv : 0 < v) {Z : ℕ → Ω → (p → ℝ) × ℝ} (h : IIDFrom Q Z (regressionLaw F β₀ v))
    (prior : NormalInverseGamma ℝ (p → ℝ) (Matrix p p ℝ)) (D : Matrix p p ℝ)
    (hp : prior.delta_inverse = some D) (hD : D.PosDef) (ha : 0 < prior.alpha) (hb : 0 < prior.beta) :
    ∀ᵐ ω ∂Q, ∃ post : ℕ → NormalInverseGamma ℝ (p → ℝ) (Matrix p p ℝ),
      (∀ n, linear_regression (Matrix.of fun (i : Fin n) j => (Z i ω).1 j) (fun i : Fin n => (Z i ω).2) prior =
        .ok (post n)) ∧
      ∀ X_new : Matrix m p ℝ, ∃ t : ℕ → MultivariateStudentT ℝ (m → ℝ) (Matrix m m ℝ),
        (∀ n, linear_regression_predictive (post n) X_new = .ok (t n)) ∧
        ∀ y : m → ℝ, Tendsto (fun n => (t n).pdf y) atTop
          (𝓝 (∏ i, (Normal.dist { mu := (X_new *ᵥ β₀) i, sigma := √v }).pdf (y i))) := by
  filter_upwards [regression_averages hF β₀ hv h] with ω ⟨k1, k2, k3⟩
  obtain ⟨mu, alpha, beta, D', r1, r2, r3, r4, r5, r6⟩ := regression_limit hM k1 k2 k3 prior hp hD ha hb
  refine ⟨fun n => ⟨mu n, alpha n, beta n, some (D' n), none⟩, r1, fun X_new => ?_⟩
  refine ⟨fun n => ⟨X_new *ᵥ mu n, (beta n / alpha n) • (1 + X_new * D' n * X_newᵀ), 2 * alpha n⟩, fun n => ?_,
    fun y => ?_⟩
  · simp [linear_regression_predictive, Bind.bind, Except.bind, Pure.pure, Except.pure]
  rw [prod_normal_eq_mvn hv (X_new *ᵥ β₀) y]
  refine tendsto_mvtPdf (posDef_smul PosDef.one hv) (fun n => ?_) ?_ (fun i j => ?_)
    (r4.const_mul_atTop (by norm_num : (0 : ℝ) < 2)) y
  · refine posDef_smul (PosDef.one.add_posSemidef ?_) (div_pos (r2 n).2.2 (r2 n).2.1)
    have := posSemidef_conj (r2 n).1.posSemidef X_newᵀ
    rwa [transpose_transpose] at this
  · refine tendsto_pi_nhds.2 fun i => ?_
    simp only [mulVec, dotProduct]
    exact tendsto_finsetSum _ fun j _ => (r3 j).const_mul _
  · have h1 : Tendsto (fun n => (X_new * D' n * X_newᵀ) i j) atTop (𝓝 0) := by
      simp only [mul_apply]
      have : Tendsto (fun n => ∑ k, (∑ l, X_new i l * D' n l k) * X_newᵀ k j) atTop
          (𝓝 (∑ k, (∑ l, X_new i l * 0) * X_newᵀ k j)) :=
        tendsto_finsetSum _ fun k _ => (tendsto_finsetSum _ fun l _ => (r6 l k).const_mul _).mul_const _
      simpa using this
    have h2 := r5.mul (h1.const_add ((1 : Matrix m m ℝ) i j))
    rw [add_zero] at h2
    exact h2

/-- normal covariates with the second moments of `exampleCov` -/
theorem example_moments : (∀ j k, Integrable (fun x : Fin 2 → ℝ => x j * x k) (lawOn univ (mvnPdf 0 !![2, 1; 1, 2]))) ∧
    (Matrix.of fun j k => ∫ x : Fin 2 → ℝ, x j * x k ∂lawOn univ (mvnPdf 0 !![2, 1; 1, 2])) = !![2, 1; 1, 2] := by
  have h := fun j k => mvn_expect_mul exampleCov_posDef (0 : Fin 2 → ℝ) j k
  refine ⟨fun j k => (h j k).1, ?_⟩
  ext j k
  rw [Matrix.of_apply, (h j k).2]
  simp

theorem example_regression_prob : IsProbabilityMeasure
    (regressionLaw (lawOn univ (mvnPdf 0 !![2, 1; 1, 2])) ![1, -3] 2) := by
  have := mvn_prob exampleCov_posDef 0
  have := normal_prob 0 (Real.sqrt_pos.2 (two_pos : (0 : ℝ) < 2))
  exact Measure.isProbabilityMeasure_map (regression_map_measurable _).aemeasurable

example : ∃ (Q : Measure (ℕ → (Fin 2 → ℝ) × ℝ)) (Z : ℕ → (ℕ → (Fin 2 → ℝ) × ℝ) → (Fin 2 → ℝ) × ℝ),
    IsProbabilityMeasure Q ∧ IIDFrom Q Z (regressionLaw (lawOn univ (mvnPdf 0 !![2, 1; 1, 2])) ![1, -3] 2) ∧
    ∀ᵐ ω ∂Q, ∃ (post : ℕ → NormalInverseGamma ℝ (Fin 2 → ℝ) (Matrix (Fin 2) (Fin 2) ℝ))
      (D' : ℕ → Matrix (Fin 2) (Fin 2) ℝ),
      (∀ n, linear_regression (Matrix.of fun (i : Fin n) j => (Z i ω).1 j) (fun i : Fin n => (Z i ω).2)
        ⟨![0, 1], 3, 2, some 1, none⟩ = .ok (post n) ∧ (post n).delta_inverse = some (D' n)) ∧
      ConcentratesAt (fun n => lawOn (univ ×ˢ Ioi (0 : ℝ)) fun θ : (Fin 2 → ℝ) × ℝ =>
        (post n).jointPdfNd (D' n) θ.1 θ.2) (![1, -3], 2) ∧
      Recovers (fun n => contLaw (post n).inverse_gamma.dist) 2 := by
  have := mvn_prob exampleCov_posDef 0
  have := example_regression_prob
  obtain ⟨Q, Z, hQ, h⟩ := exists_iid (regressionLaw (lawOn univ (mvnPdf 0 !![2, 1; 1, 2])) ![1, -3] 2)
  exact ⟨Q, Z, hQ, h, C88_linear_regression example_moments.1 (by rw [example_moments.2]; exact exampleCov_posDef) _ two_pos h
    ⟨![0, 1], 3, 2, some 1, none⟩ 1 rfl PosDef.one (by norm_num) (by norm_num)⟩

end Conj
