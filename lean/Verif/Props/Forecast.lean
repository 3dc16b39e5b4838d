import Verif.Lemmas.Forecast
import Verif.Props.TwoStage
import Verif.Props.CalibrationMarginal

/-!
# C111: mean and variance of predictions

The prediction has the mean the model has on average over the posterior; its variance is the average of the variance of
the model plus the variance of the mean of the model.
-/

open MeasureTheory Set Real

namespace Conj

open Scipy Spec

/-- C111 binomial. With mean `m` and variance `v` of the success rate, the predicted count has mean `n * m`; its
variance is the mean of `n * p * (1 - p)` plus the variance of `n * p`. -/
theorem C111_binomial_beta (n : ℕ) (d : Beta ℝ) (ha : 0 < d.alpha) (hb : 0 < d.beta) :
    ∃ m v, MeanVar (contLaw d.dist) m v ∧
      MeanVar (discRealLaw (binomial_beta_predictive (n : ℝ) d).dist) (n * m) (n * (m * (1 - m) - v) + n ^ 2 * v) := by
  have hB := beta_meanVar ha hb
  obtain ⟨m, hm⟩ : ∃ m, m = d.alpha / (d.alpha + d.beta) := ⟨_, rfl⟩
  obtain ⟨v, hv⟩ : ∃ v, v = d.alpha / (d.alpha + d.beta) * ((d.alpha + 1) / (d.alpha + 1 + d.beta)) -
    (d.alpha / (d.alpha + d.beta)) ^ 2 := ⟨_, rfl⟩
  rw [← hv, ← hm] at hB
  refine ⟨m, v, hB, ?_⟩
  have := hB.prob
  have i1 : Integrable (fun x => x) (contLaw d.dist) := hB.memLp.integrable one_le_two
  have i2 : Integrable (fun x => x ^ 2) (contLaw d.dist) := hB.memLp.integrable_sq
  have hmix := mixes_disc (model := fun p => Binomial.dist ⟨(n : ℝ), p⟩) measurableSet_Ioo (beta_lawOn _)
    (Beta.isDensity _ ha hb) (measurable_binomial_pmf n) (fun _ hp => binomial_nonneg n hp.1.le hp.2.le)
    (C24_binomial_beta_predictive n d ha hb)
  have hS : ∀ᵐ p ∂contLaw d.dist, p ∈ Ioo (0 : ℝ) 1 := by rw [beta_lawOn]; exact ae_lawOn_mem measurableSet_Ioo _
  have hw : ∀ p : ℝ, (n : ℝ) * p * (1 - p) = n * p - n * p ^ 2 := fun p => by ring
  have h := hmix.meanVar (g := fun p => n * p) (w := fun p => n * p * (1 - p))
    (hS.mono fun p hp => binomial_meanVar n hp.1.le hp.2.le) (by fun_prop) (hB.scale n)
    (by simp only [hw]; exact (i1.const_mul _).sub (i2.const_mul _))
  have e : ∫ p, (n : ℝ) * p * (1 - p) ∂contLaw d.dist = n * m - n * (v + m ^ 2) := by
    simp only [hw]
    rw [integral_sub (i1.const_mul _) (i2.const_mul _), integral_const_mul, integral_const_mul, hB.mean, hB.sq]
  rw [e] at h
  exact h.of_eq rfl (by ring)

/-- C111 one flip -/
theorem C111_bernoulli_beta (d : Beta ℝ) (ha : 0 < d.alpha) (hb : 0 < d.beta) :
    ∃ m v, MeanVar (contLaw d.dist) m v ∧ MeanVar (discRealLaw (bernoulli_beta_predictive d).dist) m (m * (1 - m)) := by
  obtain ⟨m, v, h1, h2⟩ := C111_binomial_beta 1 d ha hb
  refine ⟨m, v, h1, ?_⟩
  have e : binomial_beta_predictive ((1 : ℕ) : ℝ) d = bernoulli_beta_predictive d := by simp [bernoulli_beta_predictive]
  rw [e] at h2
  convert h2 using 1 <;> push_cast <;> ring

/-- C111 Poisson counts over `n` intervals. The mean is right for every `n`: it is `n` times the mean of the rate. The
variance is right for `n = 1`: it should be `n * m + n ^ 2 * v`, and is `n * m + n * v`. -/
theorem C111_poisson_gamma_mean_partial (d : Gamma ℝ) (ha : 0 < d.alpha) (hb : 0 < d.beta) (n : ℝ) (hn : 0 < n) :
    ∃ m v, 0 < v ∧ MeanVar (contLaw d.dist) m v ∧
      MeanVar (discRealLaw (poisson_gamma_predictive d n).dist) (n * m) (n * m + n * v) ∧
      ∀ pred : ℤ → ℝ, (∀ k, IsPredictive volume (Ioi 0) (fun l => (Poisson.dist ⟨n * l⟩).pmf k) d.dist.pdf (pred k)) →
        MeanVar (intLaw pred) (n * m) (n * m + n ^ 2 * v) := by
  have hG := gamma_meanVar ha hb
  refine ⟨d.alpha / d.beta, d.alpha / d.beta ^ 2, by positivity, hG, ?_, ?_⟩
  · have h := nb_meanVar (r := n * d.alpha) (p := d.beta / (1 + d.beta)) (by positivity) (by positivity)
      (by rw [div_le_one (by positivity)]; linarith)
    have e : poisson_gamma_predictive d n = ⟨n * d.alpha, d.beta / (1 + d.beta)⟩ := by
      simp [poisson_gamma_predictive]
    rw [e]
    convert h using 1 <;> field_simp <;> ring
  · intro pred hp
    have := hG.prob
    have i1 : Integrable (fun x => x) (contLaw d.dist) := hG.memLp.integrable one_le_two
    have hmix := mixes_disc (model := fun l => Poisson.dist ⟨n * l⟩) measurableSet_Ioi (gamma_lawOn _ hb)
      (Gamma.isDensity _ ha hb)
      (fun k => by
        simp only [Poisson.dist, Disc.pmf, DiscFamily.pmf0]
        split_ifs <;> fun_prop)
      (fun _ hl => poisson_nonneg _ (mul_nonneg hn.le (le_of_lt hl))) hp
    have hS : ∀ᵐ l ∂contLaw d.dist, l ∈ Ioi (0 : ℝ) := by rw [gamma_lawOn _ hb]; exact ae_lawOn_mem measurableSet_Ioi _
    have h := hmix.meanVar (g := fun l => n * l) (w := fun l => n * l)
      (hS.mono fun l hl => poisson_meanVar (mul_nonneg hn.le (le_of_lt hl))) (by fun_prop) (hG.scale n)
      (i1.const_mul _)
    rw [integral_const_mul, hG.mean] at h
    exact h.of_eq rfl (by ring)

/-- C111 (disagreement). The variance of `poisson_gamma_predictive` is the variance of the prediction exactly for
`n = 1`; it is too small for more than one interval and too large for less (docs/examples/limit.md). -/
theorem C111_poisson_gamma_variance_iff (d : Gamma ℝ) (ha : 0 < d.alpha) (hb : 0 < d.beta) (n : ℝ) (hn : 0 < n)
    (pred : ℤ → ℝ) (hp : ∀ k, IsPredictive volume (Ioi 0) (fun l => (Poisson.dist ⟨n * l⟩).pmf k) d.dist.pdf (pred k)) :
    ∃ m v w, MeanVar (discRealLaw (poisson_gamma_predictive d n).dist) m v ∧ MeanVar (intLaw pred) m w ∧
      (v = w ↔ n = 1) ∧ (v < w ↔ 1 < n) ∧ (w < v ↔ n < 1) := by
  obtain ⟨m, v, hv, -, h1, h2⟩ := C111_poisson_gamma_mean_partial d ha hb n hn
  refine ⟨_, _, _, h1, h2 pred hp, ?_, ?_, ?_⟩
  · constructor
    · intro h
      have : n * v * (n - 1) = 0 := by linarith
      have := (mul_eq_zero.1 this).resolve_left (by positivity)
      linarith
    · rintro rfl; ring
  · constructor
    · intro h
      have : 0 < n * v * (n - 1) := by linarith
      have := pos_of_mul_pos_right this (by positivity)
      linarith
    · intro h
      have : 0 < n * v * (n - 1) := mul_pos (by positivity) (by linarith)
      linarith
  · constructor
    · intro h
      have : 0 < n * v * (1 - n) := by linarith
      have := pos_of_mul_pos_right this (by positivity)
      linarith
    · intro h
      have : 0 < n * v * (1 - n) := mul_pos (by positivity) (by linarith)
      linarith

/-- C111 negative binomial: number of failures before `r` successes -/
theorem C111_negative_binomial_beta (r : ℝ) (hr : 0 < r) (d : Beta ℝ) (ha : 2 < d.alpha) (hb : 0 < d.beta) :
    ∃ m v e, MeanVar ((contLaw d.dist).map fun p => r * (1 - p) / p) m v ∧
      Integrable (fun p => r * (1 - p) / p ^ 2) (contLaw d.dist) ∧ ∫ p, r * (1 - p) / p ^ 2 ∂contLaw d.dist = e ∧
      m = r * d.beta / (d.alpha - 1) ∧
      MeanVar (discRealLaw (negative_binomial_beta_predictive r d).dist) m (v + e) := by
  have t1 : ∀ a b : ℝ, 1 < a → 0 < b → ∀ p ∈ Ioo (0 : ℝ) 1, (1 - p) / p * (Beta.dist ⟨a, b⟩).pdf p =
      b / (a - 1) * (Beta.dist ⟨a - 1, b + 1⟩).pdf p := by
    intro a b ha hb p hp
    have h1 : 0 < a - 1 := by linarith
    have h2 : 0 < 1 - p := by linarith [hp.2]
    rw [Beta.pdf_eq _ hp, Beta.pdf_eq _ hp]
    have e : betaFn (a - 1) (b + 1) = b / (a - 1) * betaFn a b := by
      simp only [betaFn]
      rw [Real.Gamma_add_one hb.ne', show a - 1 + (b + 1) = a + b by ring,
        show Real.Gamma a = (a - 1) * Real.Gamma (a - 1) by
          rw [← Real.Gamma_add_one h1.ne', sub_add_cancel]]
      field_simp
    have h3 := betaFn_pos (by linarith : 0 < a) hb
    simp only
    have e1 : p ^ (a - 1) = p ^ (a - 1 - 1) * p := by
      rw [← Real.rpow_add_one hp.1.ne', sub_add_cancel]
    have e2 : (1 - p) ^ (b + 1 - 1) = (1 - p) ^ (b - 1) * (1 - p) := by
      rw [← Real.rpow_add_one h2.ne']; ring_nf
    rw [e, e1, e2]
    have hp0 := hp.1
    field_simp
  have ha0 : 0 < d.alpha := by linarith
  have ha1 : 0 < d.alpha - 1 := by linarith
  have ha2 : 0 < d.alpha - 1 - 1 := by linarith
  have hb1 : 0 < d.beta + 1 := by linarith
  have hS : ∀ᵐ p ∂contLaw d.dist, p ∈ Ioo (0 : ℝ) 1 := by rw [beta_lawOn]; exact ae_lawOn_mem measurableSet_Ioo _
  have hm := meanVar_of_tilt (T := fun p => r * ((1 - p) / p)) (c1 := r * (d.beta / (d.alpha - 1)))
    (c2 := r * ((d.beta + 1) / (d.alpha - 1 - 1))) (by fun_prop)
    measurableSet_Ioo (Beta.isDensity d ha0 hb) (Beta.isDensity ⟨d.alpha - 1, d.beta + 1⟩ ha1 hb1)
    (Beta.isDensity ⟨d.alpha - 1 - 1, d.beta + 1 + 1⟩ ha2 (by simp only; linarith))
    (fun p hp => by rw [mul_assoc, t1 _ _ (by linarith) hb p hp, mul_assoc])
    (fun p hp => by rw [mul_assoc, t1 _ _ (by linarith) hb1 p hp, mul_assoc])
  rw [← beta_lawOn] at hm
  simp only [← mul_div_assoc] at hm
  -- the spread of the model is the mean `m` plus `m ^ 2 / r`
  have hpp := hm.prob
  have hc : Measurable fun p : ℝ => r * (1 - p) / p := by fun_prop
  have i1 := (integrable_map_measure (by fun_prop) hc.aemeasurable).1 (hm.memLp.integrable one_le_two)
  have i2 := (integrable_map_measure (by fun_prop) hc.aemeasurable).1 hm.memLp.integrable_sq
  have i3 : Integrable (fun p => r * (1 - p) / p ^ 2) (contLaw d.dist) := by
    refine (i1.add (i2.div_const r)).congr (hS.mono fun p hp => ?_)
    have hp0 := hp.1
    simp only [Pi.add_apply, Function.comp_apply]
    field_simp
    ring
  refine ⟨_, _, _, hm, i3, rfl, rfl, ?_⟩
  have hmix := mixes_disc (model := fun p => NegativeBinomial.dist ⟨r, p⟩) measurableSet_Ioo (beta_lawOn _)
    (Beta.isDensity _ ha0 hb)
    (fun k => by
      simp only [NegativeBinomial.dist, Disc.pmf, DiscFamily.pmf0]
      split_ifs <;> fun_prop)
    (fun _ hp => nb_nonneg r _ hr hp.1.le hp.2.le) (C25_negative_binomial_beta_predictive r hr d ha0 hb)
  have hp : IsProbabilityMeasure (contLaw d.dist) := by
    rw [beta_lawOn]; exact lawOn_prob measurableSet_Ioo (Beta.isDensity d ha0 hb)
  exact hmix.meanVar (hS.mono fun p hp => nb_meanVar hr hp.1 hp.2.le) (by fun_prop) hm i3

/-- C111 normal, known variance -/
theorem C111_normal_known_variance (var : ℝ) (hv : 0 < var) (d : Normal ℝ) (hs : 0 < d.sigma) :
    ∃ m v, MeanVar (contLaw d.dist) m v ∧
      MeanVar (contLaw (normal_known_variance_predictive var d).dist) m (v + var) := by
  have hN := normal_meanVar d.mu hs
  refine ⟨_, _, hN, ?_⟩
  have := hN.prob
  have hmeas : Measurable fun q : ℝ × ℝ => (Normal.dist ⟨q.1, √var⟩).pdf q.2 :=
    measurable_loc_scale (loc := fun m : ℝ => m) (scale := fun _ : ℝ => √var) measurable_std_norm
      measurable_id measurable_const
  have hmix := mixes_cont (model := fun m => Normal.dist ⟨m, √var⟩) MeasurableSet.univ (norm_lawOn _)
    (Normal.isDensity _ hs) hmeas (fun m _ => normal_pdf_nonneg m (sqrt_pos.2 hv))
    (measurable_pdf measurable_std_norm _ _)
    (Filter.Eventually.of_forall (C30_normal_known_variance_predictive var hv d hs))
  have h := hmix.meanVar (g := fun m => m) (w := fun _ => √var ^ 2)
    (Filter.Eventually.of_forall fun m => normal_meanVar m (sqrt_pos.2 hv)) measurable_id hN.map_id (integrable_const _)
  exact h.of_eq rfl (by simp [sq_sqrt hv.le])

theorem C111_normal_known_precision (precision : ℝ) (hp : 0 < precision) (d : Normal ℝ) (hs : 0 < d.sigma) :
    ∃ m v, MeanVar (contLaw d.dist) m v ∧
      MeanVar (contLaw (normal_known_precision_predictive precision d).dist) m (v + 1 / precision) := by
  have h := C111_normal_known_variance (1 / precision) (by positivity) d hs
  simpa only [normal_known_precision_predictive, lit_real, Rat.cast_one] using h

/-- the mean of an inverse gamma variance -/
theorem invgamma_mean {a b : ℝ} (ha : 1 < a) (hb : 0 < b) :
    Integrable (fun v => v) (contLaw (InverseGamma.dist ⟨a, b⟩)) ∧
      ∫ v, v ∂contLaw (InverseGamma.dist ⟨a, b⟩) = b / (a - 1) := by
  rw [invgamma_lawOn ⟨a, b⟩ hb]
  exact mean_of_tilt measurableSet_Ioi (InverseGamma.isDensity ⟨a, b⟩ (by simp only; linarith) hb)
    (InverseGamma.isDensity ⟨a - 1, b⟩ (by simp only; linarith) hb)
    fun x hx => InverseGamma.tilt ⟨a, b⟩ ha hb hx

theorem student_meanVar (mu : ℝ) {a b : ℝ} (ha : 1 < a) (hb : 0 < b) :
    MeanVar (contLaw (normal_known_mean_predictive mu (.inverseGamma ⟨a, b⟩)).dist) mu (b / (a - 1)) := by
  have ha0 : 0 < a := by linarith
  have hmeas : Measurable fun q : ℝ × ℝ => (Normal.dist ⟨mu, √q.1⟩).pdf q.2 :=
    measurable_loc_scale (loc := fun _ : ℝ => mu) (scale := fun v : ℝ => √v) measurable_std_norm
      measurable_const (by fun_prop)
  have hmix := mixes_cont (post := InverseGamma.dist ⟨a, b⟩) (model := fun v => Normal.dist ⟨mu, √v⟩) measurableSet_Ioi
    (invgamma_lawOn _ hb) (InverseGamma.isDensity _ ha0 hb) hmeas (fun v hv => normal_pdf_nonneg mu (sqrt_pos.2 hv))
    (measurable_pdf (measurable_std_t _) _ _)
    (Filter.Eventually.of_forall (C31_normal_known_mean_predictive mu (.inverseGamma ⟨a, b⟩) ⟨ha0, hb⟩))
  have hS : ∀ᵐ v ∂contLaw (InverseGamma.dist ⟨a, b⟩), v ∈ Ioi (0 : ℝ) := by
    rw [invgamma_lawOn ⟨a, b⟩ hb]; exact ae_lawOn_mem measurableSet_Ioi _
  have hp : IsProbabilityMeasure (contLaw (InverseGamma.dist ⟨a, b⟩)) := by
    rw [invgamma_lawOn ⟨a, b⟩ hb]; exact lawOn_prob measurableSet_Ioi (InverseGamma.isDensity _ ha0 hb)
  have h := hmix.meanVar (g := fun _ => mu) (w := fun v => √v ^ 2)
    (hS.mono fun v hv => normal_meanVar mu (sqrt_pos.2 hv)) measurable_const (meanVar_const _ mu)
    ((invgamma_mean ha hb).1.congr (hS.mono fun v hv => (sq_sqrt (le_of_lt hv)).symm))
  have e : ∫ v, √v ^ 2 ∂contLaw (InverseGamma.dist ⟨a, b⟩) = b / (a - 1) := by
    rw [← (invgamma_mean ha hb).2]
    exact integral_congr_ae (hS.mono fun v hv => sq_sqrt (le_of_lt hv))
  rw [e, zero_add] at h
  exact h

/-- C111 normal, known mean: the variance of the prediction is the mean of the variance -/
theorem C111_normal_known_mean (mu : ℝ) (d : InverseGamma ℝ) (ha : 1 < d.alpha) (hb : 0 < d.beta) :
    ∃ m, Integrable (fun v => v) (contLaw d.dist) ∧ ∫ v, v ∂contLaw d.dist = m ∧
      MeanVar (contLaw (normal_known_mean_predictive mu (.inverseGamma d)).dist) mu m :=
  ⟨_, (invgamma_mean ha hb).1, (invgamma_mean ha hb).2, student_meanVar mu ha hb⟩

/-- C111 normal, known mean, scaled inverse chi-squared -/
theorem C111_normal_known_mean_scaled_inverse_chi_squared (mu : ℝ) (d : ScaledInverseChiSquared ℝ) (ha : 2 < d.nu)
    (hb : 0 < d.sigma2) :
    ∃ m, Integrable (fun v => v) (contLaw d.dist) ∧ ∫ v, v ∂contLaw d.dist = m ∧
      MeanVar (contLaw (normal_known_mean_predictive mu (.scaledInverseChiSquared d)).dist) mu m := by
  have h := C111_normal_known_mean mu ⟨d.nu / 2, d.nu * d.sigma2 / 2⟩ (by simp only; linarith)
    (by simp only; positivity)
  have e : normal_known_mean_predictive mu (.scaledInverseChiSquared d) =
      normal_known_mean_predictive mu (.inverseGamma ⟨d.nu / 2, d.nu * d.sigma2 / 2⟩) := by
    simp [normal_known_mean_predictive, ScaledInverseChiSquared.to_inverse_gamma]
  rw [e]
  exact h

/-- the Student t with the location, scale and degrees of freedom `normal_predictive` uses -/
theorem predictive_meanVar (mu : ℝ) {nu a b : ℝ} (hnu : 0 < nu) (ha : 1 < a) (hb : 0 < b) :
    MeanVar (contLaw (StudentT.dist ⟨mu, powq (b * (nu + lit 1) / (nu * a)) (1 / 2), lit 2 * a⟩)) mu
      (b / nu / (a - 1) + b / (a - 1)) := by
  have ha0 : 0 < a := by linarith
  have h := student_meanVar mu (a := a) (b := b * (1 + 1 / nu)) ha (by positivity)
  have e : b * (nu + (lit 1 : ℝ)) / (nu * a) = b * (1 + 1 / nu) / a := by
    simp only [lit_real, Rat.cast_one]
    field_simp
  rw [e]
  have : 0 < a - 1 := by linarith
  exact h.of_eq rfl (by field_simp; ring)

/-- C111 normal, mean and variance unknown: the prediction has the mean of the mean; its variance is the variance of
the mean plus the mean of the variance. -/
theorem C111_normal_nig {M : Type} (d : NormalInverseGamma ℝ ℝ M) (nu : ℝ) (hn : d.nu = some nu) (hnu : 0 < nu)
    (ha : 1 < d.alpha) (hb : 0 < d.beta) :
    ∃ t m v e, normal_predictive (.nig d) = .ok t ∧ MeanVar ((nigLaw d).map Prod.fst) m v ∧
      Integrable (fun θ : ℝ × ℝ => θ.2) (nigLaw d) ∧ ∫ θ, θ.2 ∂nigLaw d = e ∧ MeanVar (contLaw t.dist) m (v + e) := by
  have ha0 : 0 < d.alpha := by linarith
  have hi := invgamma_mean ha hb
  have hs := nigLaw_snd d hn hnu ha0 hb
  have e1 : contLaw (InverseGamma.dist ⟨d.alpha, d.beta⟩) = (nigLaw d).map Prod.snd := hs.symm
  refine ⟨_, d.mu, d.beta / nu / (d.alpha - 1), d.beta / (d.alpha - 1), ?_, ?_, ?_, ?_, predictive_meanVar d.mu hnu ha hb⟩
  · simp only [normal_predictive, hn]
  · have hi2 := hi
    rw [invgamma_lawOn ⟨d.alpha, d.beta⟩ hb] at hi2
    have h := scaleMix_meanVar (g := (InverseGamma.dist ⟨d.alpha, d.beta⟩).pdf) (V := fun v => v / nu) (m := d.mu)
      (InverseGamma.isDensity _ ha0 hb) (fun y hy => div_pos hy hnu) (nigPdf_isDensity d.mu nu d.alpha d.beta hnu ha0 hb)
      (hi2.1.div_const nu)
    rw [integral_div, hi2.2] at h
    rw [nigLaw, nig_jointPdf_eq, hn]
    exact h.of_eq rfl (by ring)
  · have h := hi.1
    rw [e1] at h
    exact (integrable_map_measure (by fun_prop) measurable_snd.aemeasurable).1 h
  · have h := hi.2
    rw [e1, integral_map measurable_snd.aemeasurable (by fun_prop)] at h
    exact h

/-- C111 the same for `NormalGamma`, whose second parameter is the precision -/
theorem C111_normal_ng {M : Type} (d : NormalGamma ℝ) (hl : 0 < d.lam) (ha : 1 < d.alpha) (hb : 0 < d.beta) :
    ∃ t m v e, normal_predictive (.ng d : NormalPrior ℝ M) = .ok t ∧ MeanVar ((ngLaw d).map Prod.fst) m v ∧
      Integrable (fun θ : ℝ × ℝ => 1 / θ.2) (ngLaw d) ∧ ∫ θ, 1 / θ.2 ∂ngLaw d = e ∧
      MeanVar (contLaw t.dist) m (v + e) := by
  have ha0 : 0 < d.alpha := by linarith
  have ha1 : 0 < d.alpha - 1 := by linarith
  have hi := mean_of_tilt measurableSet_Ioi (Gamma.isDensity ⟨d.alpha, d.beta⟩ ha0 hb)
    (Gamma.isDensity ⟨d.alpha - 1, d.beta⟩ ha1 hb) (T := fun x => 1 / x)
    fun x hx => Gamma.tilt_inv ⟨d.alpha, d.beta⟩ ha hb hx
  have hs := ngLaw_snd d hl ha0 hb
  have e1 : lawOn (Ioi 0) (Gamma.dist ⟨d.alpha, d.beta⟩).pdf = (ngLaw d).map Prod.snd := by
    rw [← gamma_lawOn ⟨d.alpha, d.beta⟩ hb]; exact hs.symm
  refine ⟨_, d.mu, d.beta / d.lam / (d.alpha - 1), d.beta / (d.alpha - 1), rfl, ?_, ?_, ?_,
    predictive_meanVar d.mu hl ha hb⟩
  · have eV : (fun v : ℝ => 1 / (d.lam * v)) = fun v => 1 / v / d.lam := by
      ext v; rw [div_div, mul_comm]
    have h := scaleMix_meanVar (g := (Gamma.dist ⟨d.alpha, d.beta⟩).pdf) (V := fun v => 1 / (d.lam * v)) (m := d.mu)
      (Gamma.isDensity _ ha0 hb) (fun y hy => by have : 0 < y := hy; positivity)
      (ngPdf_isDensity d.mu d.lam d.alpha d.beta hl ha0 hb)
      (by rw [eV]; exact hi.1.div_const d.lam)
    rw [show ∫ v, 1 / (d.lam * v) ∂lawOn (Ioi 0) (Gamma.dist ⟨d.alpha, d.beta⟩).pdf = d.beta / d.lam / (d.alpha - 1) by
      rw [eV, integral_div, hi.2]; simp only; ring] at h
    rw [ngLaw, ng_jointPdf_eq]
    exact h
  · have h := hi.1
    rw [e1] at h
    exact (integrable_map_measure (by fun_prop) measurable_snd.aemeasurable).1 h
  · have h := hi.2
    rw [e1, integral_map measurable_snd.aemeasurable (by fun_prop)] at h
    exact h

theorem measurable_compoundGamma (d : CompoundGamma ℝ) : Measurable d.pdf := by
  unfold CompoundGamma.pdf compoundGammaPdf
  fun_prop

/-- C111 waiting times, known shape: mean and variance exist for `alpha > 2` -/
theorem C111_gamma_known_shape (shape : ℝ) (hs : 0 < shape) (d : Gamma ℝ) (ha : 2 < d.alpha) (hb : 0 < d.beta) :
    ∃ m v e, MeanVar ((contLaw d.dist).map fun rate => shape / rate) m v ∧
      Integrable (fun rate => shape / rate ^ 2) (contLaw d.dist) ∧
      ∫ rate, shape / rate ^ 2 ∂contLaw d.dist = e ∧
      MeanVar (lawOn (Ioi 0) (gamma_known_shape_predictive d shape).pdf) m (v + e) := by
  have ha0 : 0 < d.alpha := by linarith
  have ha1 : 0 < d.alpha - 1 := by linarith
  have ha2 : 0 < d.alpha - 1 - 1 := by linarith
  have hS : ∀ᵐ l ∂contLaw d.dist, l ∈ Ioi (0 : ℝ) := by rw [gamma_lawOn _ hb]; exact ae_lawOn_mem measurableSet_Ioi _
  have hp : IsProbabilityMeasure (contLaw d.dist) := by
    rw [gamma_lawOn _ hb]; exact lawOn_prob measurableSet_Ioi (Gamma.isDensity d ha0 hb)
  have hm := meanVar_of_tilt (T := fun l => shape * (1 / l)) (c1 := shape * (d.beta / (d.alpha - 1)))
    (c2 := shape * (d.beta / (d.alpha - 1 - 1))) (by fun_prop)
    measurableSet_Ioi (Gamma.isDensity d ha0 hb) (Gamma.isDensity ⟨d.alpha - 1, d.beta⟩ ha1 hb)
    (Gamma.isDensity ⟨d.alpha - 1 - 1, d.beta⟩ ha2 hb)
    (fun x hx => by rw [mul_assoc, Gamma.tilt_inv d (by linarith) hb hx, mul_assoc])
    (fun x hx => by rw [mul_assoc, Gamma.tilt_inv ⟨d.alpha - 1, d.beta⟩ (by simp only; linarith) hb hx, mul_assoc])
  rw [← gamma_lawOn _ hb] at hm
  simp only [← mul_div_assoc, mul_one] at hm
  have hc : Measurable fun l : ℝ => shape / l := by fun_prop
  have i2 : Integrable (fun rate => shape / rate ^ 2) (contLaw d.dist) := by
    have h := ((integrable_map_measure (by fun_prop) hc.aemeasurable).1 hm.memLp.integrable_sq).div_const shape
    refine h.congr (Filter.Eventually.of_forall fun l => ?_)
    simp only [Function.comp_apply]
    field_simp
  refine ⟨_, _, _, hm, i2, rfl, ?_⟩
  have hmeas : Measurable fun q : ℝ × ℝ => (Gamma.dist ⟨shape, q.1⟩).pdf q.2 :=
    measurable_loc_scale (loc := fun _ : ℝ => 0) (scale := fun l : ℝ => 1 / l) (measurable_std_gamma _)
      measurable_const (by fun_prop)
  have hmix := mixes_cont_on (model := fun l => Gamma.dist ⟨shape, l⟩) measurableSet_Ioi (gamma_lawOn _ hb)
    (Gamma.isDensity _ ha0 hb) hmeas ?_ measurableSet_Ioi (fun l hl => gamma_lawOn ⟨shape, l⟩ hl)
    (measurable_compoundGamma _) fun x hx => C29_gamma_known_shape_predictive shape hs d ha0 hb x hx
  · exact hmix.meanVar (g := fun l => shape / l) (w := fun l => shape / l ^ 2)
      (hS.mono fun l hl => gamma_meanVar hs hl) hc hm i2
  · intro l hl x
    have hl : 0 < l := hl
    have := Real.Gamma_pos_of_pos hs
    simp only [Gamma.dist, Cont.pdf, Family.std, sub_zero]
    split_ifs <;> positivity

/-! ## Instances -/

example := C111_binomial_beta 10 ⟨3, 5⟩ (by norm_num) (by norm_num)
example := C111_bernoulli_beta ⟨3, 5⟩ (by norm_num) (by norm_num)
example := C111_poisson_gamma_mean_partial ⟨3, 5⟩ (by norm_num) (by norm_num) 7 (by norm_num)
example := C111_poisson_gamma_variance_iff ⟨3, 5⟩ (by norm_num) (by norm_num) 7 (by norm_num) _
  (poisson_predictive_true ⟨3, 5⟩ (by norm_num) (by norm_num) 7 (by norm_num))
example := C111_negative_binomial_beta 4 (by norm_num) ⟨3, 5⟩ (by norm_num) (by norm_num)
example := C111_normal_known_variance 4 (by norm_num) ⟨3, 5⟩ (by norm_num)
example := C111_normal_known_precision 4 (by norm_num) ⟨3, 5⟩ (by norm_num)
example := C111_normal_known_mean 4 ⟨3, 5⟩ (by norm_num) (by norm_num)
example := C111_normal_known_mean_scaled_inverse_chi_squared 4 ⟨3, 5⟩ (by norm_num) (by norm_num)
example := C111_normal_nig (M := Unit) ⟨0, 2, 3, none, some 1⟩ 1 rfl (by norm_num) (by norm_num) (by norm_num)
example := C111_normal_ng (M := Unit) ⟨0, 1, 2, 3⟩ (by norm_num) (by norm_num) (by norm_num)
example := C111_gamma_known_shape 4 (by norm_num) ⟨3, 5⟩ (by norm_num) (by norm_num)

end Conj
