import Verif.Lemmas.Gather
import Verif.Props.SamplingLaws
import Verif.Props.ConsistencyNormal
import Verif.Props.ConsistencyMatrix

/-!
# C96: posterior samples gather at the true mean and variance
-/

open MeasureTheory Set Filter Topology Matrix

set_option linter.unusedSectionVars false

namespace Conj

open Scipy Spec

variable {Ω : Type} [MeasurableSpace Ω] {Q : Measure Ω} {P : Measure Stream} [IsProbabilityMeasure P]

theorem nig_law_prob {M : Type} (d : NormalInverseGamma ℝ ℝ M) {nu : ℝ} (hnu : 0 < nu) (ha : 0 < d.alpha)
    (hb : 0 < d.beta) : IsProbabilityMeasure (lawOn (univ ×ˢ Ioi 0) fun θ : ℝ × ℝ => d.jointPdf nu θ.1 θ.2) := by
  have hpdf : (fun θ : ℝ × ℝ => d.jointPdf nu θ.1 θ.2) = nigPdf d.mu nu d.alpha d.beta := by
    funext θ
    simp [NormalInverseGamma.jointPdf, nigPdf, NormalInverseGamma.inverse_gamma]
  rw [hpdf]
  exact lawOn_prob (MeasurableSet.univ.prod measurableSet_Ioi) (nigPdf_isDensity d.mu nu d.alpha d.beta hnu ha hb)

/-- C96. Normal data, NormalInverseGamma prior (docs/examples/bayesian-update.md): whatever the number of samples, the
samples of mean and variance gather at the true mean and variance as the data grow. -/
theorem C96_normal_nig {ι M : Type} (lib : Samplers ι) (hlib : CorrectScalar lib P) {X : ℕ → Ω → ℝ}
    (prior : NormalInverseGamma ℝ ℝ M) (nu : ℝ)
    (hn : prior.nu = some nu) (hnu : 0 < nu) (ha : 0 < prior.alpha) (hb : 0 < prior.beta) (m₀ : ℝ) {v₀ : ℝ} (hv : 0 < v₀)
    (h : IIDFrom Q X (contLaw (Normal.dist ⟨m₀, √v₀⟩))) (size : ℕ) :
    ∀ᵐ ω ∂Q, ∃ (post : ℕ → NormalInverseGamma ℝ ℝ M) (nu' : ℕ → ℝ),
      (∀ n, (post n).nu = some (nu' n) ∧ normal (∑ i ∈ Finset.range (n + 1), X i ω)
        (∑ i ∈ Finset.range (n + 1), X i ω ^ 2) ((n + 1 : ℕ) : ℝ) (.nig prior) = .ok (.nig (post n))) ∧
      SamplesGatherAt P (fun n => (post n).sample_beta lib (nu' n) size true) m₀ v₀ := by
  filter_upwards [C88_normal_nig prior nu hn hnu ha hb m₀ hv h] with ω ⟨post, nu', h1, h2⟩
  refine ⟨post, nu', h1, ?_⟩
  have valid : ∀ n, 0 < nu' n ∧ 0 < (post n).alpha ∧ 0 < (post n).beta := by
    intro n
    obtain ⟨e1, e2⟩ := h1 n
    have hr := normal_numbers_valid (fun i => X i ω) n (mu := prior.mu) hnu ha hb
    simp only [normal, hn] at e2
    have e3 := Except.ok.inj e2
    have e4 := NormalPrior.nig.inj e3
    rw [← e4] at e1 ⊢
    have e5 := Option.some.inj e1
    rw [← e5]
    exact hr
  have hJ := fun n => nig_law_prob (post n) (valid n).1 (valid n).2.1 (valid n).2.2
  exact gathers hJ (fun n => C86_normal_inverse_gamma lib hlib (post n) (valid n).2.1 (valid n).2.2 (nu' n)
    (valid n).1 size true) (box_of_concentrates hJ h2)

/-- C96. Log-normal data, NormalInverseGamma prior: mean and variance of the logarithm. -/
theorem C96_log_normal_nig {ι M : Type} (lib : Samplers ι) (hlib : CorrectScalar lib P) {X : ℕ → Ω → ℝ}
    (prior : NormalInverseGamma ℝ ℝ M) (nu : ℝ)
    (hn : prior.nu = some nu) (hnu : 0 < nu) (ha : 0 < prior.alpha) (hb : 0 < prior.beta) (m₀ : ℝ) {v₀ : ℝ} (hv : 0 < v₀)
    (h : IIDFrom Q X (lawOn (Ioi 0) (logNormalPdf m₀ v₀))) (size : ℕ) :
    ∀ᵐ ω ∂Q, ∃ (post : ℕ → NormalInverseGamma ℝ ℝ M) (nu' : ℕ → ℝ),
      (∀ n, (post n).nu = some (nu' n) ∧ log_normal (∑ i ∈ Finset.range (n + 1), Real.log (X i ω))
        (∑ i ∈ Finset.range (n + 1), Real.log (X i ω) ^ 2) ((n + 1 : ℕ) : ℝ) (.nig prior) = .ok (.nig (post n))) ∧
      SamplesGatherAt P (fun n => (post n).sample_beta lib (nu' n) size true) m₀ v₀ :=
  C96_normal_nig lib hlib prior nu hn hnu ha hb m₀ hv (log_normal_logs hv h) size

example : ∃ (lib : Samplers (Fin 1)) (Q : Measure (ℕ → ℝ)) (X : ℕ → (ℕ → ℝ) → ℝ), IsProbabilityMeasure Q ∧
    IIDFrom Q X (contLaw (Normal.dist ⟨(5 : ℝ), √(5 / 2)⟩)) ∧
    ∀ᵐ ω ∂Q, ∃ (post : ℕ → NormalInverseGamma ℝ ℝ Unit) (nu' : ℕ → ℝ),
      (∀ n, (post n).nu = some (nu' n) ∧ normal (∑ i ∈ Finset.range (n + 1), X i ω) (∑ i ∈ Finset.range (n + 1), X i ω ^ 2)
        ((n + 1 : ℕ) : ℝ) (.nig ⟨0, 1, 1, none, some 1⟩) = .ok (.nig (post n))) ∧
      SamplesGatherAt streamLaw (fun n => (post n).sample_beta lib (nu' n) 1000 true) 5 (5 / 2) := by
  obtain ⟨lib, hlib, -⟩ := exists_library 1
  have := normal_prob 5 (s := √(5 / 2)) (by positivity)
  obtain ⟨Q, X, hQ, h⟩ := exists_iid (contLaw (Normal.dist ⟨(5 : ℝ), √(5 / 2)⟩))
  exact ⟨lib, Q, X, hQ, h, C96_normal_nig lib hlib ⟨0, 1, 1, none, some 1⟩ 1 rfl one_pos one_pos one_pos 5 (by norm_num) h 1000⟩

/-- C96. Linear regression: the samples of coefficients and variance gather at the true ones. -/
theorem C96_linear_regression {p : Type} [Fintype p] [DecidableEq p] (lib : Samplers p) (hlib : CorrectScalar lib P)
    (hmvn : CorrectNormal lib P) {F : Measure (p → ℝ)} [IsProbabilityMeasure F]
    (hF : ∀ j k, Integrable (fun x => x j * x k) F) (hM : (Matrix.of fun j k => ∫ x, x j * x k ∂F).PosDef)
    (β₀ : p → ℝ) {v : ℝ} (hv : 0 < v) {Z : ℕ → Ω → (p → ℝ) × ℝ} (h : IIDFrom Q Z (regressionLaw F β₀ v))
    (prior : NormalInverseGamma ℝ (p → ℝ) (Matrix p p ℝ)) (D : Matrix p p ℝ)
    (hp : prior.delta_inverse = some D) (hD : D.PosDef) (ha : 0 < prior.alpha) (hb : 0 < prior.beta) (size : ℕ) :
    ∀ᵐ ω ∂Q, ∃ (post : ℕ → NormalInverseGamma ℝ (p → ℝ) (Matrix p p ℝ)) (D' : ℕ → Matrix p p ℝ),
      (∀ n, linear_regression (Matrix.of fun (i : Fin n) j => (Z i ω).1 j) (fun i : Fin n => (Z i ω).2) prior =
        .ok (post n) ∧ (post n).delta_inverse = some (D' n)) ∧
      SamplesGatherAt P (fun n => (post n).sample_beta_nd lib (D' n) size true) β₀ v := by
  filter_upwards [regression_averages hF β₀ hv h, C88_linear_regression hF hM β₀ hv h prior D hp hD ha hb] with ω
    ⟨k1, k2, k3⟩ ⟨post, D', h1, h2, _⟩
  obtain ⟨mu, alpha, beta, D'', r1, r2, -⟩ := regression_limit hM k1 k2 k3 prior hp hD ha hb
  refine ⟨post, D', h1, ?_⟩
  have valid : ∀ n, (D' n).PosDef ∧ 0 < (post n).alpha ∧ 0 < (post n).beta := by
    intro n
    obtain ⟨e1, e2⟩ := h1 n
    rw [r1 n] at e1
    have e3 := Except.ok.inj e1
    rw [← e3] at e2 ⊢
    rw [← Option.some.inj e2]
    exact r2 n
  have hJ : ∀ n, IsProbabilityMeasure (lawOn (univ ×ˢ Ioi (0 : ℝ)) fun θ : (p → ℝ) × ℝ =>
      (post n).jointPdfNd (D' n) θ.1 θ.2) := fun n =>
    lawOn_prob (MeasurableSet.univ.prod measurableSet_Ioi) (nigNd_isDensity (valid n).2.1 (valid n).2.2 (valid n).1 _)
  exact gathers hJ (fun n => C86_normal_inverse_gamma_nd lib hlib hmvn (post n) (valid n).2.1 (valid n).2.2 (D' n)
    (valid n).1 size true) (box_of_concentrates hJ h2)

/-! ## NormalGamma -/

theorem ng_law_prob (d : NormalGamma ℝ) (hlam : 0 < d.lam) (ha : 0 < d.alpha)
    (hb : 0 < d.beta) : IsProbabilityMeasure (lawOn (univ ×ˢ Ioi 0) fun θ : ℝ × ℝ => d.jointPdf θ.1 θ.2) := by
  have hpdf : (fun θ : ℝ × ℝ => d.jointPdf θ.1 θ.2) = ngPdf d.mu d.lam d.alpha d.beta := by
    funext θ
    simp [NormalGamma.jointPdf, ngPdf]
  rw [hpdf]
  exact lawOn_prob (MeasurableSet.univ.prod measurableSet_Ioi) (ngPdf_isDensity d.mu d.lam d.alpha d.beta hlam ha hb)

/-- the posteriors of `normal` with a NormalGamma prior: their parameters are valid and `lam` grows without bound -/
theorem normal_ng_posterior {M : Type} (x : ℕ → ℝ) (prior : NormalGamma ℝ) (hlam : 0 < prior.lam)
    (ha : 0 < prior.alpha) (hb : 0 < prior.beta) {post : ℕ → NormalGamma ℝ}
    (h : ∀ n, normal (∑ i ∈ Finset.range (n + 1), x i) (∑ i ∈ Finset.range (n + 1), x i ^ 2) ((n + 1 : ℕ) : ℝ)
        (.ng prior : NormalPrior ℝ M) = .ok (.ng (post n))) :
    (∀ n, 0 < (post n).lam ∧ 0 < (post n).alpha ∧ 0 < (post n).beta) ∧
      Tendsto (fun n => (post n).lam) atTop atTop := by
  have e : ∀ n, post n = (fun r : ℝ × ℝ × ℝ × ℝ => (⟨r.1, r.2.1, r.2.2.1, r.2.2.2⟩ : NormalGamma ℝ))
      (normalUpdate (∑ i ∈ Finset.range (n + 1), x i) (∑ i ∈ Finset.range (n + 1), x i ^ 2)
        ((n + 1 : ℕ) : ℝ) prior.mu prior.lam prior.alpha prior.beta) := fun n =>
    (NormalPrior.ng.inj (Except.ok.inj (h n))).symm
  constructor
  · intro n
    rw [e n]
    exact normal_numbers_valid x n hlam ha hb
  · simp only [e, normalUpdate]
    exact tendsto_atTop_add_const_left _ _ (tendsto_natCast_atTop_atTop.comp (tendsto_add_atTop_nat 1))

/-- C96 does not hold of NormalGamma: the reported variances gather at zero, whatever the true variance. -/
theorem C96_normal_ng_law {ι M : Type} (lib : Samplers ι) (hlib : CorrectScalar lib P) {X : ℕ → Ω → ℝ}
    (prior : NormalGamma ℝ) (hlam : 0 < prior.lam) (ha : 0 < prior.alpha) (hb : 0 < prior.beta) (m₀ : ℝ) {t₀ : ℝ}
    (ht : 0 < t₀) (h : IIDFrom Q X (contLaw (Normal.dist ⟨m₀, √(1 / t₀)⟩))) (size : ℕ) :
    ∀ᵐ ω ∂Q, ∃ post : ℕ → NormalGamma ℝ,
      (∀ n, normal (∑ i ∈ Finset.range (n + 1), X i ω) (∑ i ∈ Finset.range (n + 1), X i ω ^ 2) ((n + 1 : ℕ) : ℝ)
        (.ng prior : NormalPrior ℝ M) = .ok (.ng (post n))) ∧
      SamplesGatherAt P (fun n => (post n).sample_beta lib size true) m₀ 0 := by
  filter_upwards [C88_normal_ng (M := M) prior hlam ha hb m₀ ht h] with ω ⟨post, h1, h2⟩
  obtain ⟨valid, hl⟩ := normal_ng_posterior _ prior hlam ha hb h1
  refine ⟨post, h1, ?_⟩
  have hμ := fun n => ng_law_prob (post n) (valid n).1 (valid n).2.1 (valid n).2.2
  have hg : ∀ n, Measurable fun θ : ℝ × ℝ => (θ.1, 1 / ((post n).lam * θ.2)) := fun n => by fun_prop
  refine gathers (fun n => map_prob (hμ n) (hg n))
    (fun n => C86_normal_gamma lib hlib (post n) (valid n).1 (valid n).2.1 (valid n).2.2 size true)
    fun U hU hmU V hV hmV => ?_
  refine concentrates_through h2 hμ hg (hU.measurableSet.prod hV.measurableSet) ?_
  obtain ⟨δ₁, hδ₁, hsub₁⟩ := Metric.isOpen_iff.1 hU m₀ hmU
  obtain ⟨ε, hε, hsub₂⟩ := Metric.isOpen_iff.1 hV 0 hmV
  refine ⟨min δ₁ (t₀ / 2), by positivity, ?_⟩
  filter_upwards [hl.eventually_gt_atTop (2 / (t₀ * ε))] with n hn x hx
  rw [Metric.mem_ball, Prod.dist_eq, max_lt_iff, lt_min_iff, lt_min_iff] at hx
  refine ⟨hsub₁ hx.1.1, hsub₂ ?_⟩
  have hx2 := hx.2.2
  rw [Real.dist_eq, abs_lt] at hx2
  have hx3 : t₀ / 2 < x.2 := by linarith [hx2.1]
  have hpos : 0 < (post n).lam * x.2 := mul_pos (valid n).1 (by linarith)
  rw [Metric.mem_ball, Real.dist_eq, sub_zero, abs_of_pos (one_div_pos.2 hpos), div_lt_iff₀ hpos]
  rw [div_lt_iff₀ (by positivity)] at hn
  nlinarith [(valid n).1, mul_pos hε (valid n).1]

/-- C96 does not hold of NormalGamma, for any data, prior, true variance and number of samples. -/
theorem C96_normal_ng_false {ι M : Type} (lib : Samplers ι) (hlib : CorrectScalar lib P) {X : ℕ → Ω → ℝ}
    (prior : NormalGamma ℝ) (hlam : 0 < prior.lam) (ha : 0 < prior.alpha) (hb : 0 < prior.beta) (m₀ : ℝ) {t₀ : ℝ}
    (ht : 0 < t₀) (h : IIDFrom Q X (contLaw (Normal.dist ⟨m₀, √(1 / t₀)⟩))) (size : ℕ) (hs : size ≠ 0) :
    ∀ᵐ ω ∂Q, ∃ post : ℕ → NormalGamma ℝ,
      (∀ n, normal (∑ i ∈ Finset.range (n + 1), X i ω) (∑ i ∈ Finset.range (n + 1), X i ω ^ 2) ((n + 1 : ℕ) : ℝ)
        (.ng prior : NormalPrior ℝ M) = .ok (.ng (post n))) ∧
      ¬ SamplesGatherAt P (fun n => (post n).sample_beta lib size true) m₀ (1 / t₀) := by
  filter_upwards [C96_normal_ng_law (M := M) lib hlib prior hlam ha hb m₀ ht h size] with ω ⟨post, h1, h2⟩
  obtain ⟨valid, -⟩ := normal_ng_posterior _ prior hlam ha hb h1
  have hμ := fun n => ng_law_prob (post n) (valid n).1 (valid n).2.1 (valid n).2.2
  have hg : ∀ n, Measurable fun θ : ℝ × ℝ => (θ.1, 1 / ((post n).lam * θ.2)) := fun n => by fun_prop
  exact ⟨post, h1, not_gathers hs (fun n => map_prob (hμ n) (hg n))
    (fun n => C86_normal_gamma lib hlib (post n) (valid n).1 (valid n).2.1 (valid n).2.2 size true) h2
    (one_div_pos.2 ht).ne⟩

/-- C96 for NormalGamma, as far as it holds: the means gather at the true mean, and the reported variances multiplied
by `lam` gather at the true variance. -/
theorem C96_normal_ng_partial {ι M : Type} (lib : Samplers ι) (hlib : CorrectScalar lib P) {X : ℕ → Ω → ℝ}
    (prior : NormalGamma ℝ) (hlam : 0 < prior.lam) (ha : 0 < prior.alpha) (hb : 0 < prior.beta) (m₀ : ℝ) {t₀ : ℝ}
    (ht : 0 < t₀) (h : IIDFrom Q X (contLaw (Normal.dist ⟨m₀, √(1 / t₀)⟩))) (size : ℕ) :
    ∀ᵐ ω ∂Q, ∃ post : ℕ → NormalGamma ℝ,
      (∀ n, normal (∑ i ∈ Finset.range (n + 1), X i ω) (∑ i ∈ Finset.range (n + 1), X i ω ^ 2) ((n + 1 : ℕ) : ℝ)
        (.ng prior : NormalPrior ℝ M) = .ok (.ng (post n))) ∧
      SamplesGatherAt P (fun n rs w => (mapVariance (fun v => (post n).lam * v) ((post n).sample_beta lib size true rs w).1,
        ((post n).sample_beta lib size true rs w).2)) m₀ (1 / t₀) := by
  filter_upwards [C88_normal_ng (M := M) prior hlam ha hb m₀ ht h] with ω ⟨post, h1, h2⟩
  obtain ⟨valid, -⟩ := normal_ng_posterior _ prior hlam ha hb h1
  refine ⟨post, h1, ?_⟩
  have hμ := fun n => ng_law_prob (post n) (valid n).1 (valid n).2.1 (valid n).2.2
  have hg : ∀ n, Measurable fun θ : ℝ × ℝ => (θ.1, 1 / ((post n).lam * θ.2)) := fun n => by fun_prop
  have hg2 : ∀ n, Measurable fun θ : ℝ × ℝ => (θ.1, (post n).lam * θ.2) := fun n => by fun_prop
  have hg3 : Measurable fun θ : ℝ × ℝ => (θ.1, 1 / θ.2) := by fun_prop
  have hp1 := fun n => map_prob (hμ n) (hg n)
  have hp3 := fun n => map_prob (hμ n) hg3
  have e : ∀ n, ((lawOn (univ ×ˢ Ioi 0) fun θ : ℝ × ℝ => (post n).jointPdf θ.1 θ.2).map
      fun θ => (θ.1, 1 / ((post n).lam * θ.2))).map (fun θ : ℝ × ℝ => (θ.1, (post n).lam * θ.2)) =
      (lawOn (univ ×ˢ Ioi 0) fun θ : ℝ × ℝ => (post n).jointPdf θ.1 θ.2).map fun θ => (θ.1, 1 / θ.2) := by
    intro n
    rw [Measure.map_map (hg2 n) (hg n)]
    congr 1
    funext θ
    have := (valid n).1.ne'
    simp only [Function.comp_apply, Prod.mk.injEq, true_and]
    rw [one_div, mul_inv, mul_inv_cancel_left₀ this, one_div]
  have run := fun n => C86_normal_gamma lib hlib (post n) (valid n).1 (valid n).2.1 (valid n).2.2 size true
  refine gathers (size := size) hp3 (fun n => ⟨fun global => ?_, fun gen => ?_⟩) fun U hU hmU V hV hmV => ?_
  · have := hp1 n
    have := sampled_map ((run n).1 global) (g := fun v => (post n).lam * v) (by fun_prop)
    rwa [e n] at this
  · have := hp1 n
    have := sampled_map ((run n).2 gen) (g := fun v => (post n).lam * v) (by fun_prop)
    rwa [e n] at this
  · refine concentrates_through h2 hμ (fun _ => hg3) (hU.measurableSet.prod hV.measurableSet) ?_
    have hc : ContinuousAt (fun θ : ℝ × ℝ => (θ.1, 1 / θ.2)) (m₀, t₀) :=
      continuousAt_fst.prodMk (continuousAt_const.div continuousAt_snd ht.ne')
    have hn : U ×ˢ V ∈ 𝓝 (m₀, 1 / t₀) := (hU.prod hV).mem_nhds ⟨hmU, hmV⟩
    obtain ⟨δ, hδ, hsub⟩ := Metric.mem_nhds_iff.1 (hc hn)
    exact ⟨δ, hδ, .of_forall fun n x hx => hsub hx⟩

example : ∃ (lib : Samplers (Fin 1)) (Q : Measure (ℕ → ℝ)) (X : ℕ → (ℕ → ℝ) → ℝ), IsProbabilityMeasure Q ∧
    IIDFrom Q X (contLaw (Normal.dist ⟨(5 : ℝ), √(1 / 4)⟩)) ∧
    ∀ᵐ ω ∂Q, ∃ post : ℕ → NormalGamma ℝ,
      (∀ n, normal (∑ i ∈ Finset.range (n + 1), X i ω) (∑ i ∈ Finset.range (n + 1), X i ω ^ 2)
        ((n + 1 : ℕ) : ℝ) (.ng ⟨0, 1, 1, 1⟩ : NormalPrior ℝ Unit) = .ok (.ng (post n))) ∧
      ¬ SamplesGatherAt streamLaw (fun n => (post n).sample_beta lib 1000 true) 5 (1 / 4) := by
  obtain ⟨lib, hlib, -⟩ := exists_library 1
  have := normal_prob 5 (s := √(1 / 4)) (by positivity)
  obtain ⟨Q, X, hQ, h⟩ := exists_iid (contLaw (Normal.dist ⟨(5 : ℝ), √(1 / 4)⟩))
  exact ⟨lib, Q, X, hQ, h, C96_normal_ng_false lib hlib ⟨0, 1, 1, 1⟩ one_pos one_pos one_pos 5 (by norm_num) h 1000
    (by norm_num)⟩

end Conj
