import Verif.Lemmas.LogConcave
import Verif.Lemmas.Gibbs
import Verif.Props.ConsistencyVonMises

/-!
# Learning the true parameters (C88): posteriors known up to a constant
-/

open MeasureTheory Set Filter Topology

namespace Conj

open Scipy Spec

variable {Ω : Type} [MeasurableSpace Ω] {Q : Measure Ω}

theorem log_prod_range {x : ℕ → ℝ} (hx : ∀ i, 0 < x i) {c : ℝ} (hc : 0 < c) (n : ℕ) :
    Real.log (c * ∏ i ∈ Finset.range n, x i) = Real.log c + ∑ i ∈ Finset.range n, Real.log (x i) := by
  rw [Real.log_mul hc.ne' (Finset.prod_pos fun i _ => hx i).ne', Real.log_prod fun i _ => (hx i).ne']

theorem eventually_nonneg_average {B : ℕ → ℝ} {b : ℝ} (h : Tendsto (fun n : ℕ => B n / n) atTop (𝓝 b)) (hb : 0 < b) :
    ∀ᶠ n in atTop, 0 ≤ B n :=
  (atTop_of_average h hb).eventually_ge_atTop 0

theorem average_const_add_n (c : ℝ) : Tendsto (fun n : ℕ => (c + (n : ℝ)) / n) atTop (𝓝 1) :=
  average_const_add average_n

/-! ## Gamma data, unknown shape and rate -/

theorem gamma_kernel_concave {lp q r s : ℝ} (hs : 0 ≤ s) (hrs : s ≤ r) :
    ConcaveOn ℝ (Ioi 0 ×ˢ Ioi 0) fun θ : ℝ × ℝ =>
      (θ.1 - 1) * lp - q * θ.2 - r * gammaln θ.1 + s * θ.1 * Real.log θ.2 := by
  have hU : Convex ℝ (Ioi (0 : ℝ) ×ˢ Ioi (0 : ℝ)) := (convex_Ioi 0).prod (convex_Ioi 0)
  have h1 : ConcaveOn ℝ (Ioi 0 ×ˢ Ioi 0) fun θ : ℝ × ℝ => (θ.1 - 1) * lp - q * θ.2 := by
    refine ⟨hU, fun x _ y _ a b _ _ hab => le_of_eq ?_⟩
    simp only [Prod.fst_add, Prod.snd_add, Prod.smul_fst, Prod.smul_snd, smul_eq_mul]
    rw [show b = 1 - a by linarith]
    ring
  have h2 : ConcaveOn ℝ (Ioi 0 ×ˢ Ioi 0) fun θ : ℝ × ℝ => (r - s) * -gammaln θ.1 := by
    have := (gammaln_convex.comp_linearMap (LinearMap.fst ℝ ℝ ℝ)).subset (fun θ hθ => hθ.1) hU
    exact (this.neg).smul (sub_nonneg.2 hrs)
  have h3 : ConcaveOn ℝ (Ioi 0 ×ˢ Ioi 0) fun θ : ℝ × ℝ => s * -gammaPart θ := gammaPart_convex.neg.smul hs
  refine ((h1.add h2).add h3).congr fun θ _ => ?_
  simp only [Pi.add_apply, gammaPart]
  ring

/-- C88. The condition `s ≤ r` on the prior cannot be dropped: see `C95_gamma_never_normalisable`. -/
theorem C88_gamma {X : ℕ → Ω → ℝ} (prior : GammaProportional ℝ) (hp : 0 < prior.p) (hsr : prior.s ≤ prior.r)
    {a b : ℝ} (ha : 0 < a) (hb : 0 < b) (h : IIDFrom Q X (contLaw (Gamma.dist ⟨a, b⟩))) :
    ∀ᵐ ω ∂Q, KernelsConcentrate (Ioi 0 ×ˢ Ioi 0) (fun (n : ℕ) (θ : ℝ × ℝ) => Real.exp
      ((gamma (∑ i ∈ Finset.range n, X i ω) (∏ i ∈ Finset.range n, X i ω) (n : ℝ) prior).approx_log_likelihood
        θ.1 θ.2 Real.log gammaln)) (a, b) := by
  filter_upwards [iid_average h (T := Real.log) Real.measurable_log (gamma_log_integrable ha hb),
    iid_average h (T := fun x => x) measurable_id (gamma_expect ha hb).1, iid_forall h (gamma_pos hb)] with ω hl hx hpos
  have hr := average_const_add_n prior.r
  have hs := average_const_add_n prior.s
  have hlp : Tendsto (fun n : ℕ => Real.log (prior.p * ∏ i ∈ Finset.range n, X i ω) / n) atTop
      (𝓝 (∫ x, Real.log x ∂contLaw (Gamma.dist ⟨a, b⟩))) := by
    simp only [log_prod_range hpos hp]
    exact average_const_add hl
  have key := concentrates_family (E := ℝ × ℝ) (U := Ioi 0 ×ˢ Ioi 0) (isOpen_Ioi.prod isOpen_Ioi) (ι := Fin 4)
    (c := fun n => ![Real.log (prior.p * ∏ i ∈ Finset.range n, X i ω), prior.q + ∑ i ∈ Finset.range n, X i ω,
      prior.r + n, prior.s + n])
    (c₀ := ![∫ x, Real.log x ∂contLaw (Gamma.dist ⟨a, b⟩), ∫ x, x ∂contLaw (Gamma.dist ⟨a, b⟩), 1, 1])
    (T := ![fun θ => θ.1 - 1, fun θ => -θ.2, fun θ => -gammaln θ.1, fun θ => θ.1 * Real.log θ.2])
    (x₀ := (a, b)) ⟨ha, hb⟩ (fun j => ?_) ?_ (fun j => ?_) ?_
  · refine ⟨?_, ?_⟩
    · refine key.1.mono fun n hn => ?_
      simpa [Fin.sum_univ_four, GammaProportional.approx_log_likelihood, gamma, sub_eq_add_neg, mul_comm, mul_assoc,
        mul_left_comm] using hn
    · have := key.2
      simpa [Fin.sum_univ_four, GammaProportional.approx_log_likelihood, gamma, sub_eq_add_neg, mul_comm, mul_assoc,
        mul_left_comm] using this
  · fin_cases j
    · exact (continuous_fst.sub continuous_const).continuousOn
    · exact continuous_snd.neg.continuousOn
    · exact (gammaln_continuousOn.comp continuous_fst.continuousOn fun θ hθ => hθ.1).neg
    · exact continuous_fst.continuousOn.mul (continuous_snd.continuousOn.log fun θ hθ => ne_of_gt hθ.2)
  · filter_upwards [eventually_nonneg_average hs one_pos] with n hn
    have := gamma_kernel_concave (lp := Real.log (prior.p * ∏ i ∈ Finset.range n, X i ω))
      (q := prior.q + ∑ i ∈ Finset.range n, X i ω) (r := prior.r + n) (s := prior.s + n) hn (by linarith)
    refine this.congr fun θ _ => ?_
    simp [Fin.sum_univ_four]
    ring
  · fin_cases j
    · exact hlp
    · exact average_const_add hx
    · exact hr
    · exact hs
  · rintro ⟨a', b'⟩ ⟨ha', hb'⟩ hne
    have := gamma_strict_max ha' hb' ha hb hne
    simp [Fin.sum_univ_four]
    simp only [gammaPart] at this
    linarith

example : ∃ (Q : Measure (ℕ → ℝ)) (X : ℕ → (ℕ → ℝ) → ℝ), IsProbabilityMeasure Q ∧
    IIDFrom Q X (contLaw (Gamma.dist ⟨(2 : ℝ), 3⟩)) ∧ ∀ᵐ ω ∂Q, KernelsConcentrate (Ioi 0 ×ˢ Ioi 0)
      (fun (n : ℕ) (θ : ℝ × ℝ) => Real.exp
        ((gamma (∑ i ∈ Finset.range n, X i ω) (∏ i ∈ Finset.range n, X i ω) (n : ℝ) ⟨1, 1, 1, 1⟩).approx_log_likelihood
          θ.1 θ.2 Real.log gammaln)) (2, 3) := by
  have := gamma_prob (a := 2) (b := 3) (by norm_num) (by norm_num)
  obtain ⟨Q, X, hQ, h⟩ := exists_iid (contLaw (Gamma.dist ⟨(2 : ℝ), 3⟩))
  exact ⟨Q, X, hQ, h, C88_gamma _ one_pos le_rfl (by norm_num) (by norm_num) h⟩

/-! ## Gamma data, unknown shape, known rate -/

/-- C88 -/
theorem C88_gamma_known_rate {X : ℕ → Ω → ℝ} (prior : GammaKnownRateProportional ℝ) (hp : 0 < prior.a)
    {a b : ℝ} (ha : 0 < a) (hb : 0 < b) (h : IIDFrom Q X (contLaw (Gamma.dist ⟨a, b⟩))) :
    ∀ᵐ ω ∂Q, KernelsConcentrate (Ioi 0) (fun (n : ℕ) (alpha : ℝ) => Real.exp
      ((gamma_known_rate (∏ i ∈ Finset.range n, X i ω) (n : ℝ) b prior).approx_log_likelihood
        alpha b Real.log gammaln)) a := by
  filter_upwards [iid_average h (T := Real.log) Real.measurable_log (gamma_log_integrable ha hb),
    iid_forall h (gamma_pos hb)] with ω hl hpos
  have hr := average_const_add_n prior.b
  have hs := average_const_add_n prior.c
  have hlp : Tendsto (fun n : ℕ => Real.log (prior.a * ∏ i ∈ Finset.range n, X i ω) / n) atTop
      (𝓝 (∫ x, Real.log x ∂contLaw (Gamma.dist ⟨a, b⟩))) := by
    simp only [log_prod_range hpos hp]
    exact average_const_add hl
  have key := concentrates_family (E := ℝ) (U := Ioi 0) isOpen_Ioi (ι := Fin 3)
    (c := fun n => ![Real.log (prior.a * ∏ i ∈ Finset.range n, X i ω), prior.c + n, prior.b + n])
    (c₀ := ![∫ x, Real.log x ∂contLaw (Gamma.dist ⟨a, b⟩), 1, 1])
    (T := ![fun α => α - 1, fun α => α * Real.log b, fun α => -gammaln α])
    (x₀ := a) ha (fun j => ?_) ?_ (fun j => ?_) ?_
  · refine ⟨?_, ?_⟩
    · refine key.1.mono fun n hn => ?_
      simpa [Fin.sum_univ_three, GammaKnownRateProportional.approx_log_likelihood, gamma_known_rate, sub_eq_add_neg, mul_comm,
        mul_assoc, mul_left_comm] using hn
    · have := key.2
      simpa [Fin.sum_univ_three, GammaKnownRateProportional.approx_log_likelihood, gamma_known_rate, sub_eq_add_neg, mul_comm,
        mul_assoc, mul_left_comm] using this
  · fin_cases j
    · exact (continuous_id.sub continuous_const).continuousOn
    · exact (continuous_id.mul continuous_const).continuousOn
    · exact gammaln_continuousOn.neg
  · filter_upwards [eventually_nonneg_average hr one_pos] with n hn
    have h1 : ConcaveOn ℝ (Ioi 0) fun α : ℝ => (α - 1) * Real.log (prior.a * ∏ i ∈ Finset.range n, X i ω) +
        (prior.c + n) * (α * Real.log b) := by
      refine ⟨convex_Ioi 0, fun x _ y _ s t _ _ hst => le_of_eq ?_⟩
      simp only [smul_eq_mul]
      rw [show t = 1 - s by linarith]
      ring
    have h2 : ConcaveOn ℝ (Ioi 0) fun α : ℝ => (prior.b + n) * -gammaln α := gammaln_convex.neg.smul hn
    refine (h1.add h2).congr fun α _ => ?_
    simp [Fin.sum_univ_three]
    ring
  · fin_cases j
    · exact hlp
    · exact hs
    · exact hr
  · intro a' ha' hne
    have := gamma_strict_max (a := a') (b := b) ha' hb ha hb (by simpa using hne)
    simp [Fin.sum_univ_three]
    simp only [gammaPart] at this
    linarith

example : ∃ (Q : Measure (ℕ → ℝ)) (X : ℕ → (ℕ → ℝ) → ℝ), IsProbabilityMeasure Q ∧
    IIDFrom Q X (contLaw (Gamma.dist ⟨(2 : ℝ), 3⟩)) ∧ ∀ᵐ ω ∂Q, KernelsConcentrate (Ioi 0)
      (fun (n : ℕ) (alpha : ℝ) => Real.exp
        ((gamma_known_rate (∏ i ∈ Finset.range n, X i ω) (n : ℝ) 3 ⟨1, 1, 1⟩).approx_log_likelihood
          alpha 3 Real.log gammaln)) 2 := by
  have := gamma_prob (a := 2) (b := 3) (by norm_num) (by norm_num)
  obtain ⟨Q, X, hQ, h⟩ := exists_iid (contLaw (Gamma.dist ⟨(2 : ℝ), 3⟩))
  exact ⟨Q, X, hQ, h, C88_gamma_known_rate _ one_pos (by norm_num) (by norm_num) h⟩

/-! ## Beta data -/

/-- C88 -/
theorem C88_beta {X : ℕ → Ω → ℝ} (prior : BetaProportional ℝ) (hp : 0 < prior.p) (hq : 0 < prior.q)
    {a b : ℝ} (ha : 0 < a) (hb : 0 < b) (h : IIDFrom Q X (contLaw (Beta.dist ⟨a, b⟩))) :
    ∀ᵐ ω ∂Q, KernelsConcentrate (Ioi 0 ×ˢ Ioi 0) (fun (n : ℕ) (θ : ℝ × ℝ) => Real.exp
      ((beta (∏ i ∈ Finset.range n, X i ω) (∏ i ∈ Finset.range n, (1 - X i ω)) (n : ℝ) prior).approx_log_likelihood
        θ.1 θ.2 Real.log gammaln)) (a, b) := by
  have hin : ∀ᵐ x ∂contLaw (Beta.dist ⟨a, b⟩), x ∈ Ioo (0 : ℝ) 1 := by
    rw [beta_lawOn ⟨a, b⟩]
    exact ae_lawOn_mem measurableSet_Ioo _
  filter_upwards [iid_average h (T := Real.log) Real.measurable_log (beta_log_integrable ha hb).1,
    iid_average h (T := fun x => Real.log (1 - x)) (Real.measurable_log.comp (by fun_prop)) (beta_log_integrable ha hb).2,
    iid_forall h hin] with ω hl hl' hpos
  have hk := average_const_add_n prior.k
  have hlp : Tendsto (fun n : ℕ => Real.log (prior.p * ∏ i ∈ Finset.range n, X i ω) / n) atTop
      (𝓝 (∫ x, Real.log x ∂contLaw (Beta.dist ⟨a, b⟩))) := by
    simp only [log_prod_range (fun i => (hpos i).1) hp]
    exact average_const_add hl
  have hlq : Tendsto (fun n : ℕ => Real.log (prior.q * ∏ i ∈ Finset.range n, (1 - X i ω)) / n) atTop
      (𝓝 (∫ x, Real.log (1 - x) ∂contLaw (Beta.dist ⟨a, b⟩))) := by
    simp only [log_prod_range (fun i => sub_pos.2 (hpos i).2) hq]
    exact average_const_add hl'
  have key := concentrates_family (E := ℝ × ℝ) (U := Ioi 0 ×ˢ Ioi 0) (isOpen_Ioi.prod isOpen_Ioi) (ι := Fin 3)
    (c := fun n => ![Real.log (prior.p * ∏ i ∈ Finset.range n, X i ω),
      Real.log (prior.q * ∏ i ∈ Finset.range n, (1 - X i ω)), prior.k + n])
    (c₀ := ![∫ x, Real.log x ∂contLaw (Beta.dist ⟨a, b⟩), ∫ x, Real.log (1 - x) ∂contLaw (Beta.dist ⟨a, b⟩), 1])
    (T := ![fun θ => θ.1, fun θ => θ.2, fun θ => -betaPart θ])
    (x₀ := (a, b)) ⟨ha, hb⟩ (fun j => ?_) ?_ (fun j => ?_) ?_
  · have e : ∀ (n : ℕ) (θ : ℝ × ℝ),
        (beta (∏ i ∈ Finset.range n, X i ω) (∏ i ∈ Finset.range n, (1 - X i ω)) (n : ℝ) prior).approx_log_likelihood
          θ.1 θ.2 Real.log gammaln =
        ∑ j, ![Real.log (prior.p * ∏ i ∈ Finset.range n, X i ω),
          Real.log (prior.q * ∏ i ∈ Finset.range n, (1 - X i ω)), prior.k + n] j *
          (![fun θ => θ.1, fun θ => θ.2, fun θ => -betaPart θ] : Fin 3 → ℝ × ℝ → ℝ) j θ := by
      intro n θ
      simp [Fin.sum_univ_three, BetaProportional.approx_log_likelihood, beta, betaPart]
      ring
    refine ⟨?_, ?_⟩
    · refine key.1.mono fun n hn => ?_
      simpa only [e] using hn
    · simpa only [e] using key.2
  · fin_cases j
    · exact continuous_fst.continuousOn
    · exact continuous_snd.continuousOn
    · exact (((gammaln_continuousOn.comp continuous_fst.continuousOn fun θ hθ => hθ.1).add
        (gammaln_continuousOn.comp continuous_snd.continuousOn fun θ hθ => hθ.2)).sub
        (gammaln_continuousOn.comp (continuous_fst.add continuous_snd).continuousOn
          fun θ hθ => add_pos (mem_Ioi.1 hθ.1) (mem_Ioi.1 hθ.2))).neg
  · filter_upwards [eventually_nonneg_average hk one_pos] with n hn
    have h1 : ConcaveOn ℝ (Ioi 0 ×ˢ Ioi 0) fun θ : ℝ × ℝ =>
        Real.log (prior.p * ∏ i ∈ Finset.range n, X i ω) * θ.1 +
          Real.log (prior.q * ∏ i ∈ Finset.range n, (1 - X i ω)) * θ.2 := by
      refine ⟨(convex_Ioi 0).prod (convex_Ioi 0), fun x _ y _ s t _ _ hst => le_of_eq ?_⟩
      simp only [Prod.fst_add, Prod.snd_add, Prod.smul_fst, Prod.smul_snd, smul_eq_mul]
      ring
    have h2 : ConcaveOn ℝ (Ioi 0 ×ˢ Ioi 0) fun θ : ℝ × ℝ => (prior.k + n) * -betaPart θ :=
      betaPart_convex.neg.smul hn
    refine (h1.add h2).congr fun θ _ => ?_
    simp [Fin.sum_univ_three]
  · fin_cases j
    · exact hlp
    · exact hlq
    · exact hk
  · rintro ⟨a', b'⟩ ⟨ha', hb'⟩ hne
    have := beta_strict_max ha' hb' ha hb hne
    simp [Fin.sum_univ_three]
    linarith

example : ∃ (Q : Measure (ℕ → ℝ)) (X : ℕ → (ℕ → ℝ) → ℝ), IsProbabilityMeasure Q ∧
    IIDFrom Q X (contLaw (Beta.dist ⟨(2 : ℝ), 3⟩)) ∧ ∀ᵐ ω ∂Q, KernelsConcentrate (Ioi 0 ×ˢ Ioi 0)
      (fun (n : ℕ) (θ : ℝ × ℝ) => Real.exp
      ((beta (∏ i ∈ Finset.range n, X i ω) (∏ i ∈ Finset.range n, (1 - X i ω)) (n : ℝ) ⟨1, 1, 1⟩).approx_log_likelihood
        θ.1 θ.2 Real.log gammaln)) (2, 3) := by
  have : IsProbabilityMeasure (contLaw (Beta.dist ⟨(2 : ℝ), 3⟩)) := by
    rw [beta_lawOn ⟨2, 3⟩]
    exact lawOn_prob measurableSet_Ioo (Beta.isDensity ⟨2, 3⟩ (by norm_num) (by norm_num))
  obtain ⟨Q, X, hQ, h⟩ := exists_iid (contLaw (Beta.dist ⟨(2 : ℝ), 3⟩))
  exact ⟨Q, X, hQ, h, C88_beta _ one_pos one_pos (by norm_num) (by norm_num) h⟩

/-! ## Von Mises data, unknown concentration, known direction -/

theorem VonMises.pdf_exp (mu k x : ℝ) : (VonMises.dist { mu := mu, kappa := k }).pdf x =
    Real.exp (k * Real.cos (x - mu) - Real.log (i0 k) - Real.log (2 * Real.pi)) := by
  have h0 := i0_pos k
  rw [VonMises.pdf_eq, Real.exp_sub, Real.exp_sub, Real.exp_log h0, Real.exp_log (by positivity)]
  field_simp

theorem angle_open (k mu : ℝ) : lawOn (Ioc (-Real.pi) Real.pi) (VonMises.dist { mu := mu, kappa := k }).pdf =
    lawOn (Ioo (-Real.pi) Real.pi) (VonMises.dist { mu := mu, kappa := k }).pdf := by
  rw [lawOn, lawOn, Measure.restrict_congr_set Ioo_ae_eq_Ioc]

theorem vonMises_density (k mu : ℝ) : IsDensity volume (Ioo (-Real.pi) Real.pi) (VonMises.dist { mu := mu, kappa := k }).pdf := by
  have hc : Continuous (VonMises.dist { mu := mu, kappa := k }).pdf := by
    rw [show (VonMises.dist { mu := mu, kappa := k }).pdf = _ from funext (VonMises.pdf_exp mu k)]
    fun_prop
  have hi : IntegrableOn (VonMises.dist { mu := mu, kappa := k }).pdf (Ioo (-Real.pi) Real.pi) :=
    hc.integrableOn_Icc.mono_set Ioo_subset_Icc_self
  have h0 : ∀ x, 0 ≤ (VonMises.dist { mu := mu, kappa := k }).pdf x := fun x => by
    rw [VonMises.pdf_exp]; positivity
  refine ⟨fun x _ => h0 x, hi, ?_⟩
  have h1 := (angle_prob k mu).measure_univ
  rw [angleLaw_eq, angle_open, lawOn, withDensity_apply _ MeasurableSet.univ, Measure.restrict_univ,
    ← ofReal_integral_eq_lintegral_ofReal hi (Eventually.of_forall h0), ENNReal.ofReal_eq_one] at h1
  exact h1

theorem log_i0_convex : ConvexOn ℝ univ fun k => Real.log (i0 k) := by
  refine ⟨convex_univ, fun k1 _ k2 _ s t hs ht hst => ?_⟩
  have := partition_convex (c := s * Real.log (i0 k1) + t * Real.log (i0 k2) - Real.log (i0 (s * k1 + t * k2)))
    measurableSet_Ioo (vonMises_density k1 0) (vonMises_density k2 0) (vonMises_density (s * k1 + t * k2) 0) hs ht hst
    fun x hx => by
      rw [VonMises.pdf_exp, VonMises.pdf_exp, VonMises.pdf_exp, ← Real.exp_mul, ← Real.exp_mul,
        ← Real.exp_add, ← Real.exp_add]
      congr 1
      rw [show t = 1 - s by linarith]
      ring
  simp only [smul_eq_mul]
  linarith

theorem log_i0_continuous : Continuous fun k => Real.log (i0 k) := by
  have := log_i0_convex.continuousOn isOpen_univ
  exact continuousOn_univ.1 this

theorem vonMises_strict_max {k k0 mu : ℝ} (hne : k ≠ k0) :
    k * (∫ x, Real.cos (x - mu) ∂lawOn (Ioc (-Real.pi) Real.pi) (VonMises.dist ⟨mu, k0⟩).pdf) - Real.log (i0 k) <
    k0 * (∫ x, Real.cos (x - mu) ∂lawOn (Ioc (-Real.pi) Real.pi) (VonMises.dist ⟨mu, k0⟩).pdf) - Real.log (i0 k0) := by
  rw [angle_open]
  have hp := lawOn_prob measurableSet_Ioo (vonMises_density k0 mu)
  have i1 : Integrable (fun x => Real.cos (x - mu)) (lawOn (Ioo (-Real.pi) Real.pi) (VonMises.dist ⟨mu, k0⟩).pdf) :=
    Integrable.of_bound (by fun_prop) 1 (Eventually.of_forall fun x => by
      rw [Real.norm_eq_abs]; exact Real.abs_cos_le_one _)
  have e : ∀ x, Real.log ((VonMises.dist ⟨mu, k⟩).pdf x / (VonMises.dist ⟨mu, k0⟩).pdf x) =
      (k - k0) * Real.cos (x - mu) - (Real.log (i0 k) - Real.log (i0 k0)) := by
    intro x
    rw [VonMises.pdf_exp, VonMises.pdf_exp, ← Real.exp_sub, Real.log_exp]
    ring
  have hc : ∀ k : ℝ, Continuous (VonMises.dist { mu := mu, kappa := k }).pdf := fun k => by
    rw [show (VonMises.dist { mu := mu, kappa := k }).pdf = _ from funext (VonMises.pdf_exp mu k)]
    fun_prop
  have hi : Integrable (fun x => Real.log ((VonMises.dist ⟨mu, k⟩).pdf x / (VonMises.dist ⟨mu, k0⟩).pdf x))
      (lawOn (Ioo (-Real.pi) Real.pi) (VonMises.dist ⟨mu, k0⟩).pdf) := by
    simp only [e]
    exact (i1.const_mul _).sub (integrable_const _)
  rcases gibbs isOpen_Ioo (vonMises_density k0 mu) (vonMises_density k mu)
    (fun x hx => by rw [VonMises.pdf_exp]; positivity) (fun x hx => by rw [VonMises.pdf_exp]; positivity)
    (hc k0).continuousOn (hc k).continuousOn hi with hlt | heq
  · simp only [e] at hlt
    rw [integral_sub (i1.const_mul _) (integrable_const _), integral_const_mul] at hlt
    simp only [integral_const, probReal_univ, smul_eq_mul, one_mul] at hlt
    linarith
  · exfalso
    have hpi := Real.pi_pos
    have hx : ∀ x : ℝ, x ∈ Ioo (-Real.pi) Real.pi →
        (k - k0) * Real.cos (x - mu) = Real.log (i0 k) - Real.log (i0 k0) := fun x hx => by
      have := heq hx
      rw [VonMises.pdf_exp, VonMises.pdf_exp] at this
      have := Real.exp_injective this
      linarith
    have h1 := hx 0 ⟨by linarith, hpi⟩
    have h2 := hx (Real.pi / 2) ⟨by linarith, by linarith⟩
    have h3 := hx (-(Real.pi / 2)) ⟨by linarith, by linarith⟩
    rw [zero_sub, Real.cos_neg] at h1
    rw [Real.cos_pi_div_two_sub] at h2
    rw [show -(Real.pi / 2) - mu = -(Real.pi / 2 + mu) by ring, Real.cos_neg, add_comm, Real.cos_add_pi_div_two] at h3
    have hd : k - k0 ≠ 0 := sub_ne_zero.2 hne
    have e1 : Real.sin mu = 0 := by
      have : (k - k0) * Real.sin mu = 0 := by linarith
      exact (mul_eq_zero.1 this).resolve_left hd
    have e2 : Real.cos mu = 0 := by
      rw [e1] at h2
      have : (k - k0) * Real.cos mu = 0 := by linarith
      exact (mul_eq_zero.1 this).resolve_left hd
    have := Real.sin_sq_add_cos_sq mu
    rw [e1, e2] at this
    norm_num at this

/-- C88 -/
theorem C88_von_mises_known_direction {X : ℕ → Ω → ℝ} (prior : VonMisesKnownDirectionProportional ℝ) {mu k : ℝ}
    (hk : 0 < k) (h : IIDFrom Q X (lawOn (Ioc (-Real.pi) Real.pi) (VonMises.dist { mu := mu, kappa := k }).pdf)) :
    ∀ᵐ ω ∂Q, KernelsConcentrate (Ioi 0) (fun (n : ℕ) (kappa : ℝ) => Real.exp
      ((von_mises_known_direction (∑ i ∈ Finset.range n, Real.cos (X i ω - mu)) (n : ℝ) prior).approx_log_likelihood
        kappa Real.log i0)) k := by
  have hp : IsProbabilityMeasure (lawOn (Ioc (-Real.pi) Real.pi) (VonMises.dist { mu := mu, kappa := k }).pdf) := by
    rw [← angleLaw_eq]; exact angle_prob k mu
  have i1 : Integrable (fun x => Real.cos (x - mu))
      (lawOn (Ioc (-Real.pi) Real.pi) (VonMises.dist { mu := mu, kappa := k }).pdf) :=
    Integrable.of_bound (by fun_prop) 1 (Eventually.of_forall fun x => by
      rw [Real.norm_eq_abs]; exact Real.abs_cos_le_one _)
  filter_upwards [iid_average h (T := fun x => Real.cos (x - mu)) (by fun_prop) i1] with ω hl
  have hc := average_const_add_n prior.c
  have key := concentrates_family (E := ℝ) (U := Ioi 0) isOpen_Ioi (ι := Fin 2)
    (c := fun n => ![prior.r + ∑ i ∈ Finset.range n, Real.cos (X i ω - mu), prior.c + n])
    (c₀ := ![∫ x, Real.cos (x - mu) ∂lawOn (Ioc (-Real.pi) Real.pi) (VonMises.dist ⟨mu, k⟩).pdf, 1])
    (T := ![fun κ => κ, fun κ => -Real.log (i0 κ)])
    (x₀ := k) hk (fun j => ?_) ?_ (fun j => ?_) ?_
  · have e : ∀ (n : ℕ) (kappa : ℝ),
        (von_mises_known_direction (∑ i ∈ Finset.range n, Real.cos (X i ω - mu)) (n : ℝ) prior).approx_log_likelihood
          kappa Real.log i0 =
        ∑ j, ![prior.r + ∑ i ∈ Finset.range n, Real.cos (X i ω - mu), prior.c + n] j *
          (![fun κ => κ, fun κ => -Real.log (i0 κ)] : Fin 2 → ℝ → ℝ) j kappa := by
      intro n kappa
      simp [Fin.sum_univ_two, VonMisesKnownDirectionProportional.approx_log_likelihood, von_mises_known_direction]
      ring
    refine ⟨?_, ?_⟩
    · refine key.1.mono fun n hn => ?_
      simpa only [e] using hn
    · simpa only [e] using key.2
  · fin_cases j
    · exact continuousOn_id
    · exact log_i0_continuous.neg.continuousOn
  · filter_upwards [eventually_nonneg_average hc one_pos] with n hn
    have h1 : ConcaveOn ℝ (Ioi 0) fun κ : ℝ => (prior.r + ∑ i ∈ Finset.range n, Real.cos (X i ω - mu)) * κ := by
      refine ⟨convex_Ioi 0, fun x _ y _ s t _ _ hst => le_of_eq ?_⟩
      simp only [smul_eq_mul]
      ring
    have h2 : ConcaveOn ℝ (Ioi 0) fun κ : ℝ => (prior.c + n) * -Real.log (i0 κ) :=
      (log_i0_convex.subset (subset_univ _) (convex_Ioi 0)).neg.smul hn
    refine (h1.add h2).congr fun α _ => ?_
    simp [Fin.sum_univ_two]
  · fin_cases j
    · exact average_const_add hl
    · exact hc
  · intro k' hk' hne
    have := vonMises_strict_max (mu := mu) hne
    simp [Fin.sum_univ_two]
    linarith

example : ∃ (Q : Measure (ℕ → ℝ)) (X : ℕ → (ℕ → ℝ) → ℝ), IsProbabilityMeasure Q ∧
    IIDFrom Q X (lawOn (Ioc (-Real.pi) Real.pi) (VonMises.dist { mu := 1, kappa := 2 }).pdf) ∧
    ∀ᵐ ω ∂Q, KernelsConcentrate (Ioi 0) (fun (n : ℕ) (kappa : ℝ) => Real.exp
      ((von_mises_known_direction (∑ i ∈ Finset.range n, Real.cos (X i ω - 1)) (n : ℝ) ⟨1, 1⟩).approx_log_likelihood
        kappa Real.log i0)) 2 := by
  have := angle_prob 2 1
  rw [angleLaw_eq] at this
  obtain ⟨Q, X, hQ, h⟩ := exists_iid (lawOn (Ioc (-Real.pi) Real.pi) (VonMises.dist { mu := 1, kappa := 2 }).pdf)
  exact ⟨Q, X, hQ, h, C88_von_mises_known_direction _ two_pos h⟩

end Conj
