import Verif.Props.ConsistencyMatrix

/-!
# Recovering every coordinate of a vector of parameters (C92)
-/

open MeasureTheory Set Filter Topology Matrix

set_option linter.unusedSectionVars false

namespace Conj

open Scipy Spec

variable {Ω : Type} [MeasurableSpace Ω] {Q : Measure Ω} {p : Type} [Fintype p] [DecidableEq p]

/-- C92. Multivariate normal data with known covariance: every coordinate of the mean. -/
theorem C92_multivariate_normal_known_covariance {X : ℕ → Ω → p → ℝ}
    (prior : MultivariateNormal (p → ℝ) (Matrix p p ℝ)) (hp : prior.cov.PosDef) {cov : Matrix p p ℝ}
    (hc : cov.PosDef) (m₀ : p → ℝ) (h : IIDFrom Q X (lawOn univ (mvnPdf m₀ cov))) :
    ∀ᵐ ω ∂Q, ∃ post : ℕ → MultivariateNormal (p → ℝ) (Matrix p p ℝ),
      (∀ n : ℕ, multivariate_normal_known_covariance ((n + 1 : ℕ) : ℝ)
        (fun j => (∑ i ∈ Finset.range (n + 1), X i ω j) / ((n + 1 : ℕ) : ℝ)) cov prior = .ok (post n)) ∧
      ∀ j, Recovers (fun n => (lawOn univ (post n).pdf).map fun x => x j) (m₀ j) := by
  filter_upwards [mvn_averages hc h] with ω hω
  obtain ⟨post, h1, h2, h3, h4⟩ := known_cov_limit hω hc prior hp
  have hs := tendsto_add_atTop_nat 1
  refine ⟨fun n => post (n + 1), fun n => h1 (n + 1) _ (mean_times n), fun j => ?_⟩
  have e : ∀ n, (lawOn univ (post (n + 1)).pdf).map (fun x => x j) =
      contLaw (Normal.dist ⟨(post (n + 1)).mu j, √((post (n + 1)).cov j j)⟩) := fun n => mvn_coord (h2 _) _ j
  simp only [e]
  refine recovers_normal (fun n => Real.sqrt_pos.2 (diag_pos (h2 _) j)) ((tendsto_pi_nhds.1 h3 j).comp hs) ?_
  exact ((h4 j j).comp hs).congr fun n => (Real.sq_sqrt (diag_pos (h2 _) j).le).symm

/-- C92. The variant with a known precision matrix. -/
theorem C92_multivariate_normal_known_precision {X : ℕ → Ω → p → ℝ}
    (prior : MultivariateNormal (p → ℝ) (Matrix p p ℝ)) (hp : prior.cov.PosDef) {precision : Matrix p p ℝ}
    (hc : precision.PosDef) (m₀ : p → ℝ) (h : IIDFrom Q X (lawOn univ (mvnPdf m₀ precision⁻¹))) :
    ∀ᵐ ω ∂Q, ∃ post : ℕ → MultivariateNormal (p → ℝ) (Matrix p p ℝ),
      (∀ n : ℕ, multivariate_normal_known_precision ((n + 1 : ℕ) : ℝ)
        (fun j => (∑ i ∈ Finset.range (n + 1), X i ω j) / ((n + 1 : ℕ) : ℝ)) precision prior = .ok (post n)) ∧
      ∀ j, Recovers (fun n => (lawOn univ (post n).pdf).map fun x => x j) (m₀ j) := by
  filter_upwards [C92_multivariate_normal_known_covariance prior hp hc.inv m₀ h] with ω ⟨post, h1, h2⟩
  refine ⟨post, fun n => ?_, h2⟩
  rw [← h1 n, mvn_known_prec_eq _ _ _ (mean_times n) hc prior hp, mvn_known_cov_eq _ _ _ (mean_times n) hc.inv prior hp,
    nonsing_inv_nonsing_inv _ (posDef_unit hc)]

example : ∃ (Q : Measure (ℕ → Fin 2 → ℝ)) (X : ℕ → (ℕ → Fin 2 → ℝ) → Fin 2 → ℝ), IsProbabilityMeasure Q ∧
    IIDFrom Q X (lawOn univ (mvnPdf ![1, -3] !![2, 1; 1, 2])) ∧
    ∀ᵐ ω ∂Q, ∃ post : ℕ → MultivariateNormal (Fin 2 → ℝ) (Matrix (Fin 2) (Fin 2) ℝ),
      (∀ n : ℕ, multivariate_normal_known_covariance ((n + 1 : ℕ) : ℝ)
        (fun j => (∑ i ∈ Finset.range (n + 1), X i ω j) / ((n + 1 : ℕ) : ℝ)) !![2, 1; 1, 2] ⟨![0, 1], 1⟩ =
          .ok (post n)) ∧
      ∀ j, Recovers (fun n => (lawOn univ (post n).pdf).map fun x => x j) (![1, -3] j) := by
  have := mvn_prob exampleCov_posDef ![1, -3]
  obtain ⟨Q, X, hQ, h⟩ := exists_iid (lawOn univ (mvnPdf ![1, -3] !![2, 1; 1, 2]))
  exact ⟨Q, X, hQ, h, C92_multivariate_normal_known_covariance ⟨![0, 1], 1⟩ PosDef.one exampleCov_posDef _ h⟩

/-! ## Linear regression -/

/-- one coefficient of a regression posterior, as a normal with random variance -/
theorem nigNd_coord {a b : ℝ} (ha : 0 < a) (hb : 0 < b) {D : Matrix p p ℝ} (hD : D.PosDef) (m : p → ℝ) (j : p) :
    (lawOn (univ ×ˢ Ioi (0 : ℝ)) fun θ : (p → ℝ) × ℝ =>
      (InverseGamma.dist ⟨a, b⟩).pdf θ.2 * mvnPdf m (θ.2 • D) θ.1).map (fun θ => θ.1 j) =
    (lawOn (univ ×ˢ Ioi 0) (scaleMix (InverseGamma.dist ⟨a, b⟩).pdf (fun y => y / (1 / D j j)) (m j))).map Prod.fst := by
  have hDj := diag_pos hD j
  have hm : Measurable fun θ : (p → ℝ) × ℝ => θ.1 j := by fun_prop
  have hg := InverseGamma.isDensity ⟨a, b⟩ ha hb
  have hV : ∀ y ∈ Ioi (0 : ℝ), 0 < y / (1 / D j j) := fun y hy => div_pos hy (by positivity)
  have hd := nigPdf_isDensity (m j) (1 / D j j) a b (by positivity) ha hb
  ext A hA
  rw [Measure.map_apply hm hA, Measure.map_apply measurable_fst hA,
    mix_apply (C := fun y => y • D) measurableSet_Ioi hg (fun y hy => posDef_smul hD hy) (nigNd_isDensity ha hb hD m) (hm hA),
    ← lintegral_indicator_one (measurable_fst hA),
    scaleMix_lintegral hg hV hd (measurable_one.indicator (measurable_fst hA))]
  refine lintegral_congr_ae ?_
  filter_upwards [ae_lawOn_mem measurableSet_Ioi _] with y hy
  have h1 := mvn_coord (posDef_smul hD hy) m j
  have h2 : contLaw (Normal.dist ⟨m j, √(y / (1 / D j j))⟩) A =
      ∫⁻ x, (Prod.fst ⁻¹' A : Set (ℝ × ℝ)).indicator 1 (x, y) ∂contLaw (Normal.dist ⟨m j, √(y / (1 / D j j))⟩) := by
    rw [← lintegral_indicator_one hA]; rfl
  rw [← h2, show y / (1 / D j j) = (y • D) j j by rw [Matrix.smul_apply, smul_eq_mul]; field_simp, ← h1,
    Measure.map_apply (measurable_pi_apply j) hA]
  rfl

/-- C92. Linear regression: every coefficient. -/
theorem C92_linear_regression {F : Measure (p → ℝ)} [IsProbabilityMeasure F]
    (hF : ∀ j k, Integrable (fun x => x j * x k) F) (hM : (Matrix.of fun j k => ∫ x, x j * x k ∂F).PosDef)
    (β₀ : p → ℝ) {v : ℝ} (hv : 0 < v) {Z : ℕ → Ω → (p → ℝ) × ℝ} (h : IIDFrom Q Z (regressionLaw F β₀ v))
    (prior : NormalInverseGamma ℝ (p → ℝ) (Matrix p p ℝ)) (D : Matrix p p ℝ)
    (hp : prior.delta_inverse = some D) (hD : D.PosDef) (ha : 0 < prior.alpha) (hb : 0 < prior.beta) :
    ∀ᵐ ω ∂Q, ∃ (post : ℕ → NormalInverseGamma ℝ (p → ℝ) (Matrix p p ℝ)) (D' : ℕ → Matrix p p ℝ),
      (∀ n, linear_regression (Matrix.of fun (i : Fin n) j => (Z i ω).1 j) (fun i : Fin n => (Z i ω).2) prior =
        .ok (post n) ∧ (post n).delta_inverse = some (D' n)) ∧
      ∀ j, Recovers (fun n => (lawOn (univ ×ˢ Ioi (0 : ℝ)) fun θ : (p → ℝ) × ℝ =>
        (post n).jointPdfNd (D' n) θ.1 θ.2).map fun θ => θ.1 j) (β₀ j) := by
  filter_upwards [regression_averages hF β₀ hv h] with ω ⟨k1, k2, k3⟩
  obtain ⟨mu, alpha, beta, D', r1, r2, r3, r4, r5, r6⟩ := regression_limit hM k1 k2 k3 prior hp hD ha hb
  refine ⟨fun n => ⟨mu n, alpha n, beta n, some (D' n), none⟩, D', fun n => ⟨r1 n, rfl⟩, fun j => ?_⟩
  have hDj : ∀ n, 0 < D' n j j := fun n => diag_pos (r2 n).1 j
  have hinf : Tendsto (fun n => 1 / D' n j j) atTop atTop := by
    have : Tendsto (fun n => D' n j j) atTop (𝓝[>] 0) :=
      tendsto_nhdsWithin_iff.2 ⟨r6 j j, Eventually.of_forall fun n => hDj n⟩
    simpa only [one_div, Function.comp_def] using tendsto_inv_nhdsGT_zero.comp this
  have hrec := (nig_limit (mu := fun n => mu n j) (nu := fun n => 1 / D' n j j) (a := alpha) (b := beta)
    (fun n => one_div_pos.2 (hDj n)) (fun n => (r2 n).2.2) (r3 j) r5 r4 hinf).recovers
  have e : ∀ n, (lawOn (univ ×ˢ Ioi (0 : ℝ)) fun θ : (p → ℝ) × ℝ =>
      NormalInverseGamma.jointPdfNd ⟨mu n, alpha n, beta n, some (D' n), none⟩ (D' n) θ.1 θ.2).map (fun θ => θ.1 j) =
      (lawOn (univ ×ˢ Ioi 0) (scaleMix (InverseGamma.dist ⟨alpha n, beta n⟩).pdf (fun y => y / (1 / D' n j j))
        (mu n j))).map Prod.fst := fun n => nigNd_coord (r2 n).2.1 (r2 n).2.2 (r2 n).1 (mu n) j
  simp only [e]
  exact hrec

example : ∃ (Q : Measure (ℕ → (Fin 2 → ℝ) × ℝ)) (Z : ℕ → (ℕ → (Fin 2 → ℝ) × ℝ) → (Fin 2 → ℝ) × ℝ),
    IsProbabilityMeasure Q ∧ IIDFrom Q Z (regressionLaw (lawOn univ (mvnPdf 0 !![2, 1; 1, 2])) ![1, -3] 2) ∧
    ∀ᵐ ω ∂Q, ∃ (post : ℕ → NormalInverseGamma ℝ (Fin 2 → ℝ) (Matrix (Fin 2) (Fin 2) ℝ))
      (D' : ℕ → Matrix (Fin 2) (Fin 2) ℝ),
      (∀ n, linear_regression (Matrix.of fun (i : Fin n) j => (Z i ω).1 j) (fun i : Fin n => (Z i ω).2)
        ⟨![0, 1], 3, 2, some 1, none⟩ = .ok (post n) ∧ (post n).delta_inverse = some (D' n)) ∧
      ∀ j, Recovers (fun n => (lawOn (univ ×ˢ Ioi (0 : ℝ)) fun θ : (Fin 2 → ℝ) × ℝ =>
        (post n).jointPdfNd (D' n) θ.1 θ.2).map fun θ => θ.1 j) (![1, -3] j) := by
  have := mvn_prob exampleCov_posDef 0
  have := example_regression_prob
  obtain ⟨Q, Z, hQ, h⟩ := exists_iid (regressionLaw (lawOn univ (mvnPdf 0 !![2, 1; 1, 2])) ![1, -3] 2)
  exact ⟨Q, Z, hQ, h, C92_linear_regression example_moments.1 (by rw [example_moments.2]; exact exampleCov_posDef) _ two_pos h
    ⟨![0, 1], 3, 2, some 1, none⟩ 1 rfl PosDef.one (by norm_num) (by norm_num)⟩

end Conj
