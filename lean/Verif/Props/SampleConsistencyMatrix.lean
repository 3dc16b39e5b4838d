import Verif.Props.SampleConsistency
import Verif.Props.ConsistencyWishart
import Verif.Lemmas.Quantile
import Verif.Lemmas.TwoStage

/-!
# C96: posterior samples gather at the true values: covariance matrices, single parameters
-/

open MeasureTheory Set Filter Topology Matrix

set_option linter.unusedSectionVars false

namespace Conj

open Scipy Spec

variable {Ω : Type} [MeasurableSpace Ω] {Q : Measure Ω} {P : Measure Stream} [IsProbabilityMeasure P] {d : ℕ}

instance matrix_opensMeasurable {m n : ℕ} : OpensMeasurableSpace (Matrix (Fin m) (Fin n) ℝ) :=
  inferInstanceAs (OpensMeasurableSpace (Fin m → Fin n → ℝ))

theorem niw_law_prob (D : NormalInverseWishart ℝ (Fin d → ℝ) (Matrix (Fin d) (Fin d) ℝ)) (hk : 0 < D.kappa)
    (hnu : (d : ℝ) - 1 < D.nu) (hpsi : D.psi.PosDef) :
    IsProbabilityMeasure (lawOn {θ : (Fin d → ℝ) × (UpperIdx d → ℝ) | (symOf θ.2).PosDef} fun θ =>
      D.jointPdf θ.1 (symOf θ.2)) := by
  have hset : {θ : (Fin d → ℝ) × (UpperIdx d → ℝ) | (symOf θ.2).PosDef} =
      univ ×ˢ {c | (symOf c).PosDef} := by ext θ; simp
  exact lawOn_prob (hset ▸ MeasurableSet.univ.prod measurableSet_posDef) (niw_isDensity hk hnu hpsi D.mu)

theorem niw_limit_of_posts {x : ℕ → Fin d → ℝ} {m₀ : Fin d → ℝ} {S : Matrix (Fin d) (Fin d) ℝ}
    (h1 : ∀ j, Tendsto (fun n : ℕ => (∑ i ∈ Finset.range n, x i j) / n) atTop (𝓝 (m₀ j)))
    (h2 : ∀ j k, Tendsto (fun n : ℕ => (∑ i ∈ Finset.range n, x i j * x i k) / n) atTop (𝓝 (S j k + m₀ j * m₀ k)))
    (prior : NormalInverseWishart ℝ (Fin d → ℝ) (Matrix (Fin d) (Fin d) ℝ)) (hk : 0 < prior.kappa)
    (hnu : (d : ℝ) - 1 < prior.nu) (hpsi : prior.psi.PosDef)
    {post : ℕ → NormalInverseWishart ℝ (Fin d → ℝ) (Matrix (Fin d) (Fin d) ℝ)}
    (h : ∀ n : ℕ, multivariate_normal (Matrix.of fun (i : Fin (n + 1)) j => x i j) prior = .ok (post n)) :
    (∀ n, 0 < (post n).kappa ∧ (d : ℝ) - 1 < (post n).nu ∧ (post n).psi.PosDef) ∧
      Tendsto (fun n => (post n).kappa) atTop atTop := by
  obtain ⟨post', r1, r2, -, r4, -⟩ := niw_limit h1 h2 prior hk hnu hpsi
  have e : post' = post := funext fun n => Except.ok.inj ((r1 n).symm.trans (h n))
  rw [← e]
  exact ⟨r2, r4⟩

/-- C96 does not hold of NormalInverseWishart: the reported covariances gather at the zero matrix. -/
theorem C96_multivariate_normal_law (lib : Samplers (Fin d)) (hmvn : CorrectNormal lib P)
    (hiw : CorrectInvWishart lib P) {X : ℕ → Ω → Fin d → ℝ}
    (prior : NormalInverseWishart ℝ (Fin d → ℝ) (Matrix (Fin d) (Fin d) ℝ)) (hk : 0 < prior.kappa)
    (hnu : (d : ℝ) - 1 < prior.nu) (hpsi : prior.psi.PosDef) (m₀ : Fin d → ℝ) {cov : Matrix (Fin d) (Fin d) ℝ}
    (hc : cov.PosDef) (h : IIDFrom Q X (lawOn univ (mvnPdf m₀ cov))) (size : ℕ) :
    ∀ᵐ ω ∂Q, ∃ post : ℕ → NormalInverseWishart ℝ (Fin d → ℝ) (Matrix (Fin d) (Fin d) ℝ),
      (∀ n : ℕ, multivariate_normal (Matrix.of fun (i : Fin (n + 1)) j => X i ω j) prior = .ok (post n)) ∧
      SamplesGatherAt P (fun n => (post n).sample_mean lib size true) m₀ 0 := by
  filter_upwards [C88_multivariate_normal prior hk hnu hpsi m₀ hc h, mvn_averages hc h, mvn_averages_mul hc h] with ω
    ⟨post, h1, h2⟩ a1 a2
  obtain ⟨valid, hl⟩ := niw_limit_of_posts a1 a2 prior hk hnu hpsi h1
  refine ⟨post, h1, ?_⟩
  have hμ := fun n => niw_law_prob (post n) (valid n).1 (valid n).2.1 (valid n).2.2
  have hg : ∀ n, Measurable fun θ : (Fin d → ℝ) × (UpperIdx d → ℝ) => (θ.1, (1 / (post n).kappa) • symOf θ.2) :=
    fun n => measurable_fst.prodMk ((measurable_const_smul_matrix _).comp (measurable_symOf.comp measurable_snd))
  refine gathers (fun n => map_prob (hμ n) (hg n))
    (fun n => C86_normal_inverse_wishart lib hmvn hiw (post n) (valid n).1 (valid n).2.1 (valid n).2.2 size true)
    fun U hU hmU V hV hmV => ?_
  refine concentrates_through h2 hμ hg (hU.measurableSet.prod hV.measurableSet) ?_
  obtain ⟨δ₁, hδ₁, hsub₁⟩ := Metric.isOpen_iff.1 hU m₀ hmU
  have hcont : Continuous fun z : ℝ × (UpperIdx d → ℝ) => z.1 • symOf z.2 :=
    continuous_fst.smul (continuous_symOf.comp continuous_snd)
  have hn : V ∈ 𝓝 ((fun z : ℝ × (UpperIdx d → ℝ) => z.1 • symOf z.2) (0, upperOf cov)) := by
    simp only [zero_smul]
    exact hV.mem_nhds hmV
  obtain ⟨δ₂, hδ₂, hsub₂⟩ := Metric.mem_nhds_iff.1 (hcont.continuousAt hn)
  refine ⟨min δ₁ δ₂, lt_min hδ₁ hδ₂, ?_⟩
  have hk0 : Tendsto (fun n => 1 / (post n).kappa) atTop (𝓝 0) := tendsto_const_nhds.div_atTop hl
  filter_upwards [hk0 (Metric.ball_mem_nhds 0 hδ₂)] with n hn x hx
  rw [Metric.mem_ball, Prod.dist_eq, max_lt_iff, lt_min_iff, lt_min_iff] at hx
  refine ⟨hsub₁ hx.1.1, ?_⟩
  have : (1 / (post n).kappa, x.2) ∈ Metric.ball ((0 : ℝ), upperOf cov) δ₂ := by
    rw [Metric.mem_ball, Prod.dist_eq, max_lt_iff]
    exact ⟨hn, hx.2.2⟩
  exact hsub₂ this

/-- C96 does not hold of NormalInverseWishart, for any data, prior, covariance and number of samples. -/
theorem C96_multivariate_normal_false (hd : 0 < d) (lib : Samplers (Fin d)) (hmvn : CorrectNormal lib P)
    (hiw : CorrectInvWishart lib P) {X : ℕ → Ω → Fin d → ℝ}
    (prior : NormalInverseWishart ℝ (Fin d → ℝ) (Matrix (Fin d) (Fin d) ℝ)) (hk : 0 < prior.kappa)
    (hnu : (d : ℝ) - 1 < prior.nu) (hpsi : prior.psi.PosDef) (m₀ : Fin d → ℝ) {cov : Matrix (Fin d) (Fin d) ℝ}
    (hc : cov.PosDef) (h : IIDFrom Q X (lawOn univ (mvnPdf m₀ cov))) (size : ℕ) (hs : size ≠ 0) :
    ∀ᵐ ω ∂Q, ∃ post : ℕ → NormalInverseWishart ℝ (Fin d → ℝ) (Matrix (Fin d) (Fin d) ℝ),
      (∀ n : ℕ, multivariate_normal (Matrix.of fun (i : Fin (n + 1)) j => X i ω j) prior = .ok (post n)) ∧
      ¬ SamplesGatherAt P (fun n => (post n).sample_mean lib size true) m₀ cov := by
  filter_upwards [C96_multivariate_normal_law lib hmvn hiw prior hk hnu hpsi m₀ hc h size, mvn_averages hc h,
    mvn_averages_mul hc h] with ω ⟨post, h1, h2⟩ a1 a2
  obtain ⟨valid, -⟩ := niw_limit_of_posts a1 a2 prior hk hnu hpsi h1
  have hμ := fun n => niw_law_prob (post n) (valid n).1 (valid n).2.1 (valid n).2.2
  have hg : ∀ n, Measurable fun θ : (Fin d → ℝ) × (UpperIdx d → ℝ) => (θ.1, (1 / (post n).kappa) • symOf θ.2) :=
    fun n => measurable_fst.prodMk ((measurable_const_smul_matrix _).comp (measurable_symOf.comp measurable_snd))
  refine ⟨post, h1, not_gathers hs (fun n => map_prob (hμ n) (hg n))
    (fun n => C86_normal_inverse_wishart lib hmvn hiw (post n) (valid n).1 (valid n).2.1 (valid n).2.2 size true) h2 ?_⟩
  intro e
  have := hc.diag_pos (i := ⟨0, hd⟩)
  rw [← e] at this
  exact lt_irrefl _ this

/-- C96 for NormalInverseWishart, as far as it holds: the means gather at the true mean, and the reported covariances
multiplied by `kappa` gather at the true covariance. -/
theorem C96_multivariate_normal_partial (lib : Samplers (Fin d)) (hmvn : CorrectNormal lib P)
    (hiw : CorrectInvWishart lib P) {X : ℕ → Ω → Fin d → ℝ}
    (prior : NormalInverseWishart ℝ (Fin d → ℝ) (Matrix (Fin d) (Fin d) ℝ)) (hk : 0 < prior.kappa)
    (hnu : (d : ℝ) - 1 < prior.nu) (hpsi : prior.psi.PosDef) (m₀ : Fin d → ℝ) {cov : Matrix (Fin d) (Fin d) ℝ}
    (hc : cov.PosDef) (h : IIDFrom Q X (lawOn univ (mvnPdf m₀ cov))) (size : ℕ) :
    ∀ᵐ ω ∂Q, ∃ post : ℕ → NormalInverseWishart ℝ (Fin d → ℝ) (Matrix (Fin d) (Fin d) ℝ),
      (∀ n : ℕ, multivariate_normal (Matrix.of fun (i : Fin (n + 1)) j => X i ω j) prior = .ok (post n)) ∧
      SamplesGatherAt P (fun n rs w => (mapVariance (fun S => (post n).kappa • S) ((post n).sample_mean lib size true rs w).1,
        ((post n).sample_mean lib size true rs w).2)) m₀ cov := by
  filter_upwards [C88_multivariate_normal prior hk hnu hpsi m₀ hc h, mvn_averages hc h, mvn_averages_mul hc h] with ω
    ⟨post, h1, h2⟩ a1 a2
  obtain ⟨valid, -⟩ := niw_limit_of_posts a1 a2 prior hk hnu hpsi h1
  refine ⟨post, h1, ?_⟩
  have hμ := fun n => niw_law_prob (post n) (valid n).1 (valid n).2.1 (valid n).2.2
  have hg : ∀ n, Measurable fun θ : (Fin d → ℝ) × (UpperIdx d → ℝ) => (θ.1, (1 / (post n).kappa) • symOf θ.2) :=
    fun n => measurable_fst.prodMk ((measurable_const_smul_matrix _).comp (measurable_symOf.comp measurable_snd))
  have hg2 : ∀ n, Measurable fun θ : (Fin d → ℝ) × Matrix (Fin d) (Fin d) ℝ => (θ.1, (post n).kappa • θ.2) :=
    fun n => measurable_fst.prodMk ((measurable_const_smul_matrix _).comp measurable_snd)
  have hg3 : Measurable fun θ : (Fin d → ℝ) × (UpperIdx d → ℝ) => (θ.1, symOf θ.2) :=
    measurable_fst.prodMk (measurable_symOf.comp measurable_snd)
  have e : ∀ n, ((lawOn {θ : (Fin d → ℝ) × (UpperIdx d → ℝ) | (symOf θ.2).PosDef} fun θ =>
      (post n).jointPdf θ.1 (symOf θ.2)).map fun θ => (θ.1, (1 / (post n).kappa) • symOf θ.2)).map
        (fun θ : (Fin d → ℝ) × Matrix (Fin d) (Fin d) ℝ => (θ.1, (post n).kappa • θ.2)) =
      (lawOn {θ : (Fin d → ℝ) × (UpperIdx d → ℝ) | (symOf θ.2).PosDef} fun θ =>
        (post n).jointPdf θ.1 (symOf θ.2)).map fun θ => (θ.1, symOf θ.2) := by
    intro n
    rw [Measure.map_map (hg2 n) (hg n)]
    congr 1
    funext θ
    have := (valid n).1.ne'
    simp only [Function.comp_apply, Prod.mk.injEq, true_and]
    rw [smul_smul, mul_one_div_cancel this, one_smul]
  have run := fun n => C86_normal_inverse_wishart lib hmvn hiw (post n) (valid n).1 (valid n).2.1 (valid n).2.2 size true
  refine gathers (size := size) (fun n => map_prob (hμ n) hg3) (fun n => ⟨fun global => ?_, fun gen => ?_⟩)
    fun U hU hmU V hV hmV => ?_
  · have := map_prob (hμ n) (hg n)
    have := sampled_map ((run n).1 global) (g := fun S => (post n).kappa • S) (measurable_const_smul_matrix _)
    rwa [e n] at this
  · have := map_prob (hμ n) (hg n)
    have := sampled_map ((run n).2 gen) (g := fun S => (post n).kappa • S) (measurable_const_smul_matrix _)
    rwa [e n] at this
  · refine concentrates_through h2 hμ (fun _ => hg3) (hU.measurableSet.prod hV.measurableSet) ?_
    have hcont : Continuous (fun θ : (Fin d → ℝ) × (UpperIdx d → ℝ) => (θ.1, symOf θ.2)) :=
      continuous_fst.prodMk (continuous_symOf.comp continuous_snd)
    have hsym : symOf (upperOf cov) = cov := symOf_upperOf (by
      have := hc.isHermitian.eq
      rwa [conjTranspose_eq_transpose_of_trivial] at this)
    have hn : U ×ˢ V ∈ 𝓝 ((fun θ : (Fin d → ℝ) × (UpperIdx d → ℝ) => (θ.1, symOf θ.2)) (m₀, upperOf cov)) := by
      simp only [hsym]
      exact (hU.prod hV).mem_nhds ⟨hmU, hmV⟩
    obtain ⟨δ, hδ, hsub⟩ := Metric.mem_nhds_iff.1 (hcont.continuousAt hn)
    exact ⟨δ, hδ, .of_forall fun n x hx => hsub hx⟩

example : ∃ (lib : Samplers (Fin 2)) (Q : Measure (ℕ → Fin 2 → ℝ)) (X : ℕ → (ℕ → Fin 2 → ℝ) → Fin 2 → ℝ),
    IsProbabilityMeasure Q ∧ IIDFrom Q X (lawOn univ (mvnPdf ![1, -3] !![2, 1; 1, 2])) ∧
    ∀ᵐ ω ∂Q, ∃ post : ℕ → NormalInverseWishart ℝ (Fin 2 → ℝ) (Matrix (Fin 2) (Fin 2) ℝ),
      (∀ n : ℕ, multivariate_normal (Matrix.of fun (i : Fin (n + 1)) j => X i ω j) ⟨![0, 1], 1, 4, 1⟩ = .ok (post n)) ∧
      ¬ SamplesGatherAt streamLaw (fun n => (post n).sample_mean lib 1000 true) ![1, -3] !![2, 1; 1, 2] := by
  obtain ⟨lib, -, hmvn, hiw, -⟩ := exists_library 2
  have := mvn_prob exampleCov_posDef ![1, -3]
  obtain ⟨Q, X, hQ, h⟩ := exists_iid (lawOn univ (mvnPdf ![1, -3] !![2, 1; 1, 2]))
  exact ⟨lib, Q, X, hQ, h, C96_multivariate_normal_false two_pos lib hmvn hiw ⟨![0, 1], 1, 4, 1⟩ one_pos (by norm_num)
    PosDef.one _ exampleCov_posDef h 1000 (by norm_num)⟩

/-! ## Posteriors of a single parameter -/

/-- C96. `posterior.dist.rvs(size)`: when posteriors of a real parameter concentrate at the true value, samples of any
fixed size gather there. -/
theorem C96_rvs {ι : Type} (lib : FrozenSamplers ι) (hlib : CorrectFrozen lib P) (post : ℕ → Cont)
    (hp : ∀ n, IsProbabilityMeasure (contLaw (post n))) (hm : ∀ n, Measurable (post n).pdf) {x₀ : ℝ}
    (h : ConcentratesAt (fun n => contLaw (post n)) x₀) (size : ℕ) :
    RvsGatherAt P (fun n => rvsDist lib (lib.cont (post n)) size) x₀ := by
  refine rvs_gathers (J := fun n => contLaw (post n)) (size := size) hp (fun n => ?_) fun U hU hx => ?_
  · have h₀ := hlib.cont (fun _ : Unit => post n) univ ((hm n).comp measurable_snd) fun _ _ => hp n
    have key := iid_replicate h₀ (mem_univ ()) size
    exact ⟨fun _ => key, fun _ => key⟩
  · obtain ⟨δ, hδ, hsub⟩ := Metric.isOpen_iff.1 hU x₀ hx
    exact tendsto_of_tendsto_of_tendsto_of_le_of_le (h δ hδ) tendsto_const_nhds (fun n => measure_mono hsub)
      fun n => by have := hp n; exact prob_le_one

theorem BetaLimit.rvs {ι : Type} {lib : FrozenSamplers ι} (hlib : CorrectFrozen lib P) {D : ℕ → Beta ℝ} {p : ℝ}
    (h : BetaLimit D p) (size : ℕ) : RvsGatherAt P (fun n => rvsDist lib (lib.cont (D n).dist) size) p := by
  refine C96_rvs lib hlib _ (fun n => ?_) (fun n => measurable_pdf (measurable_std_beta _ _) _ _)
    h.recovers.concentrates size
  show IsProbabilityMeasure (contLaw (D n).dist)
  rw [beta_lawOn]
  exact lawOn_prob measurableSet_Ioo (Beta.isDensity _ (h.alpha_pos n) (h.beta_pos n))

theorem GammaLimit.rvs {ι : Type} {lib : FrozenSamplers ι} (hlib : CorrectFrozen lib P) {D : ℕ → Gamma ℝ} {p : ℝ}
    (h : GammaLimit D p) (size : ℕ) : RvsGatherAt P (fun n => rvsDist lib (lib.cont (D n).dist) size) p := by
  refine C96_rvs lib hlib _ (fun n => ?_) (fun n => measurable_pdf (measurable_std_gamma _) _ _)
    h.recovers.concentrates size
  show IsProbabilityMeasure (contLaw (D n).dist)
  rw [gamma_lawOn _ (h.beta_pos n)]
  exact lawOn_prob measurableSet_Ioi (Gamma.isDensity _ (h.alpha_pos n) (h.beta_pos n))

theorem NormalLimit.rvs {ι : Type} {lib : FrozenSamplers ι} (hlib : CorrectFrozen lib P) {D : ℕ → Normal ℝ} {p : ℝ}
    (h : NormalLimit D p) (size : ℕ) : RvsGatherAt P (fun n => rvsDist lib (lib.cont (D n).dist) size) p :=
  C96_rvs lib hlib _ (fun n => normal_prob _ (h.sigma_pos n)) (fun _ => measurable_pdf measurable_std_norm _ _)
    h.recovers.concentrates size

/-- C96. `binomial_beta`: samples of any fixed size from the posterior gather at the true parameter. -/
theorem C96_binomial_beta {ι : Type} (lib : FrozenSamplers ι) (hlib : CorrectFrozen lib P)
    {X : ℕ → Ω → ℤ} (prior : Beta ℝ) (ha : 0 < prior.alpha) (hb : 0 < prior.beta) (N : ℕ)
    (hN : 0 < N) {p₀ : ℝ} (h0 : 0 ≤ p₀) (h1 : p₀ ≤ 1) (h : IIDFrom Q X (discLaw (Binomial.dist ⟨N, p₀⟩))) (size : ℕ) :
    ∀ᵐ ω ∂Q, RvsGatherAt P (fun n => rvsDist lib (lib.cont
      (binomial_beta (n * N : ℝ) (∑ i ∈ Finset.range n, (X i ω : ℝ)) prior).dist) size) p₀ :=
  (binomial_beta_limit prior ha hb N hN h0 h1 h).mono fun _ h => h.rvs hlib size

/-- C96. `bernoulli_beta`: samples of any fixed size from the posterior gather at the true parameter. -/
theorem C96_bernoulli_beta {ι : Type} (lib : FrozenSamplers ι) (hlib : CorrectFrozen lib P)
    {X : ℕ → Ω → ℤ} (prior : Beta ℝ) (ha : 0 < prior.alpha) (hb : 0 < prior.beta)
    {p₀ : ℝ} (h0 : 0 ≤ p₀) (h1 : p₀ ≤ 1) (h : IIDFrom Q X (discLaw (Binomial.dist ⟨1, p₀⟩))) (size : ℕ) :
    ∀ᵐ ω ∂Q, RvsGatherAt P (fun n => rvsDist lib (lib.cont
      ((List.range n).foldl (fun d i => bernoulli_beta (X i ω : ℝ) d) prior).dist) size) p₀ :=
  (bernoulli_beta_limit prior ha hb h0 h1 h).mono fun _ h => h.rvs hlib size

/-- C96. `negative_binomial_beta`: samples of any fixed size from the posterior gather at the true parameter. -/
theorem C96_negative_binomial_beta {ι : Type} (lib : FrozenSamplers ι) (hlib : CorrectFrozen lib P)
    {X : ℕ → Ω → ℤ} (prior : Beta ℝ) (ha : 0 < prior.alpha) (hb : 0 < prior.beta)
    (r : ℝ) (hr : 0 < r) {p₀ : ℝ} (h0 : 0 < p₀) (h1 : p₀ ≤ 1)
    (h : IIDFrom Q X (discLaw (NegativeBinomial.dist ⟨r, p₀⟩))) (size : ℕ) :
    ∀ᵐ ω ∂Q, RvsGatherAt P (fun n => rvsDist lib (lib.cont
      (negative_binomial_beta r (n : ℝ) (∑ i ∈ Finset.range n, (X i ω : ℝ)) prior).dist) size) p₀ :=
  (negative_binomial_beta_limit prior ha hb r hr h0 h1 h).mono fun _ h => h.rvs hlib size

/-- C96. `geometric_beta`: samples of any fixed size from the posterior gather at the true parameter. -/
theorem C96_geometric_beta {ι : Type} (lib : FrozenSamplers ι) (hlib : CorrectFrozen lib P)
    {X : ℕ → Ω → ℤ} (prior : Beta ℝ) (ha : 0 < prior.alpha) (hb : 0 < prior.beta)
    (one_start : Bool) {p₀ : ℝ} (h0 : 0 < p₀) (h1 : p₀ ≤ 1)
    (h : IIDFrom Q X (discLaw (Geometric.dist ⟨p₀, one_start⟩))) (size : ℕ) :
    ∀ᵐ ω ∂Q, RvsGatherAt P (fun n => rvsDist lib (lib.cont
      (geometric_beta (∑ i ∈ Finset.range n, (X i ω : ℝ)) (n : ℝ) prior one_start).dist) size) p₀ :=
  (geometric_beta_limit prior ha hb one_start h0 h1 h).mono fun _ h => h.rvs hlib size

/-- C96. `poisson_gamma`: samples of any fixed size from the posterior gather at the true parameter. -/
theorem C96_poisson_gamma {ι : Type} (lib : FrozenSamplers ι) (hlib : CorrectFrozen lib P)
    {X : ℕ → Ω → ℤ} (prior : Gamma ℝ) (ha : 0 < prior.alpha) (hb : 0 < prior.beta)
    {l₀ : ℝ} (hl : 0 < l₀) (h : IIDFrom Q X (discLaw (Poisson.dist ⟨l₀⟩))) (size : ℕ) :
    ∀ᵐ ω ∂Q, RvsGatherAt P (fun n => rvsDist lib (lib.cont
      (poisson_gamma (∑ i ∈ Finset.range n, (X i ω : ℝ)) (n : ℝ) prior).dist) size) l₀ :=
  (poisson_gamma_limit prior ha hb hl h).mono fun _ h => h.rvs hlib size

/-- C96. `gamma_known_shape`: samples of any fixed size from the posterior gather at the true parameter. -/
theorem C96_gamma_known_shape {ι : Type} (lib : FrozenSamplers ι) (hlib : CorrectFrozen lib P)
    {X : ℕ → Ω → ℝ} (prior : Gamma ℝ) (ha : 0 < prior.alpha) (hb : 0 < prior.beta)
    (shape : ℝ) (hk : 0 < shape) {r : ℝ} (hr : 0 < r) (h : IIDFrom Q X (contLaw (Gamma.dist ⟨shape, r⟩))) (size : ℕ) :
    ∀ᵐ ω ∂Q, RvsGatherAt P (fun n => rvsDist lib (lib.cont
      (gamma_known_shape (∑ i ∈ Finset.range n, X i ω) (n : ℝ) shape prior).dist) size) r :=
  (gamma_known_shape_limit prior ha hb shape hk hr h).mono fun _ h => h.rvs hlib size

/-- C96. `inverse_gamma_known_rate`: samples of any fixed size from the posterior gather at the true parameter. -/
theorem C96_inverse_gamma_known_rate {ι : Type} (lib : FrozenSamplers ι) (hlib : CorrectFrozen lib P)
    {X : ℕ → Ω → ℝ} (prior : Gamma ℝ) (ha : 0 < prior.alpha)
    (hb : 0 < prior.beta) (shape : ℝ) (hk : 0 < shape) {s : ℝ} (hs : 0 < s)
    (h : IIDFrom Q X (contLaw (InverseGamma.dist ⟨shape, s⟩))) (size : ℕ) :
    ∀ᵐ ω ∂Q, RvsGatherAt P (fun n => rvsDist lib (lib.cont
      (inverse_gamma_known_rate (∑ i ∈ Finset.range n, 1 / X i ω) (n : ℝ) shape prior).dist) size) s :=
  (inverse_gamma_known_rate_limit prior ha hb shape hk hs h).mono fun _ h => h.rvs hlib size

/-- C96. `pareto_gamma`: samples of any fixed size from the posterior gather at the true parameter. -/
theorem C96_pareto_gamma {ι : Type} (lib : FrozenSamplers ι) (hlib : CorrectFrozen lib P)
    {X : ℕ → Ω → ℝ} (prior : Gamma ℝ) (ha : 0 < prior.alpha) (hb : 0 < prior.beta)
    (x_m : ℝ) (hm : 0 < x_m) {a : ℝ} (ha0 : 0 < a) (h : IIDFrom Q X (contLaw (Pareto.dist ⟨x_m, a⟩))) (size : ℕ) :
    ∀ᵐ ω ∂Q, RvsGatherAt P (fun n => rvsDist lib (lib.cont
      (pareto_gamma (n : ℝ) (∑ i ∈ Finset.range n, Real.log (X i ω)) x_m prior Real.log).dist) size) a :=
  (pareto_gamma_limit prior ha hb x_m hm ha0 h).mono fun _ h => h.rvs hlib size

/-- C96. `normal_known_variance`: samples of any fixed size from the posterior gather at the true parameter. -/
theorem C96_normal_known_variance {ι : Type} (lib : FrozenSamplers ι) (hlib : CorrectFrozen lib P)
    {X : ℕ → Ω → ℝ} (prior : Normal ℝ) (hs : 0 < prior.sigma) (var : ℝ)
    (hv : 0 < var) (m₀ : ℝ) (h : IIDFrom Q X (contLaw (Normal.dist ⟨m₀, √var⟩))) (size : ℕ) :
    ∀ᵐ ω ∂Q, RvsGatherAt P (fun n => rvsDist lib (lib.cont
      (normal_known_variance (∑ i ∈ Finset.range n, X i ω) (n : ℝ) var prior).dist) size) m₀ :=
  (normal_known_variance_limit prior hs var hv m₀ h).mono fun _ h => h.rvs hlib size

/-- C96. `normal_known_precision`: samples of any fixed size from the posterior gather at the true parameter. -/
theorem C96_normal_known_precision {ι : Type} (lib : FrozenSamplers ι) (hlib : CorrectFrozen lib P)
    {X : ℕ → Ω → ℝ} (prior : Normal ℝ) (hs : 0 < prior.sigma) (precision : ℝ)
    (hp : 0 < precision) (m₀ : ℝ) (h : IIDFrom Q X (contLaw (Normal.dist ⟨m₀, √(1 / precision)⟩))) (size : ℕ) :
    ∀ᵐ ω ∂Q, RvsGatherAt P (fun n => rvsDist lib (lib.cont
      (normal_known_precision (∑ i ∈ Finset.range n, X i ω) (n : ℝ) precision prior).dist) size) m₀ :=
  (normal_known_precision_limit prior hs precision hp m₀ h).mono fun _ h => h.rvs hlib size

/-- C96 does not hold of `exponential_gamma`: data with rate `r` make the samples gather at `1 / r`. -/
theorem C96_exponential_gamma_law {ι : Type} (lib : FrozenSamplers ι) (hlib : CorrectFrozen lib P)
    {X : ℕ → Ω → ℝ} (prior : Gamma ℝ) (ha : 0 < prior.alpha) (hb : 0 < prior.beta)
    {r : ℝ} (hr : 0 < r) (h : IIDFrom Q X (contLaw (Gamma.dist ⟨1, r⟩))) (size : ℕ) :
    ∀ᵐ ω ∂Q, RvsGatherAt P (fun n => rvsDist lib (lib.cont
      (exponential_gamma (∑ i ∈ Finset.range n, X i ω) (n : ℝ) prior).dist) size) (1 / r) :=
  (exponential_gamma_limit prior ha hb hr h).mono fun _ h =>
    C96_rvs lib hlib _ h.1 (fun _ => measurable_pdf (measurable_std_gamma _) _ _) h.2.concentrates size

example : ∃ (lib : FrozenSamplers (Fin 1)) (Q : Measure (ℕ → ℤ)) (X : ℕ → (ℕ → ℤ) → ℤ), IsProbabilityMeasure Q ∧
    IIDFrom Q X (discLaw (Poisson.dist ⟨(3 : ℝ)⟩)) ∧ ∀ᵐ ω ∂Q, RvsGatherAt streamLaw (fun n => rvsDist lib (lib.cont
      (poisson_gamma (∑ i ∈ Finset.range n, (X i ω : ℝ)) (n : ℝ) ⟨1, 1⟩).dist) 1000) 3 := by
  obtain ⟨lib, hlib, -⟩ := exists_frozen_library 1
  have := poisson_prob (l := 3) (by norm_num)
  obtain ⟨Q, X, hQ, h⟩ := exists_iid (discLaw (Poisson.dist ⟨(3 : ℝ)⟩))
  exact ⟨lib, Q, X, hQ, h, C96_poisson_gamma lib hlib ⟨1, 1⟩ one_pos one_pos (by norm_num) h 1000⟩

end Conj
