import Verif.Props.PosteriorNormal

/-!
# Posterior / prior predictive distributions (C24, C25, C29 - C32)

`IsPredictive` (`Verif/Spec.lean`): the returned pmf / pdf at a point is the integral of
the observation's pmf / pdf against the density of the unknown.
-/

open MeasureTheory Set Real

namespace Conj

open Scipy Spec

/-! ## C24 -/

theorem IsPredictive.zero {Θ : Type*} [MeasurableSpace Θ] {μ : Measure Θ} {S : Set Θ}
    {lik dens : Θ → ℝ} (h : ∀ θ, lik θ = 0) : IsPredictive μ S lik dens 0 := by
  simp [IsPredictive, h]

/-- C24. Beta-binomial is the binomial averaged over the Beta distribution: at every
integer, those outside `0..n` included. -/
theorem C24_binomial_beta_predictive (n : ℕ) (d : Beta ℝ) (ha : 0 < d.alpha) (hb : 0 < d.beta)
    (k : ℤ) :
    IsPredictive volume (Ioo 0 1) (fun p => (Binomial.dist ⟨(n : ℝ), p⟩).pmf k) d.dist.pdf
      ((binomial_beta_predictive (n : ℝ) d).dist.pmf k) := by
  by_cases hk : 0 ≤ k ∧ (k : ℝ) ≤ n
  · obtain ⟨m, rfl⟩ := Int.eq_ofNat_of_zero_le hk.1
    have hm : m ≤ n := by exact_mod_cast hk.2
    have hnm : (0 : ℝ) ≤ (n : ℝ) - m := by
      rw [sub_nonneg]; exact_mod_cast hm
    have h := beta_kernel d ⟨d.alpha + m, d.beta + (n - m)⟩ ⟨ha, hb⟩
      ⟨by simp only; positivity, by simp only; positivity⟩ (u := m) (v := (n : ℝ) - m)
      (f := fun p => (Binomial.dist ⟨(n : ℝ), p⟩).pmf m) (C := n.choose m)
      (fun p hp => by
        have h1 : (n : ℝ) - m = ((n - m : ℕ) : ℝ) := by push_cast [hm]; ring
        rw [Binomial.pmf_nat n m hm p, h1, rpow_natCast, rpow_natCast]) rfl rfl
    have hc : (n.choose m : ℝ) * betaFn (d.alpha + m) (d.beta + (n - m)) / betaFn d.alpha d.beta =
        (binomial_beta_predictive (n : ℝ) d).dist.pmf m := by
      simp only [binomial_beta_predictive, BetaBinomial.dist, Disc.pmf, DiscFamily.pmf0, sub_zero]
      rw [if_pos hk, Int.cast_natCast, choose_natCast hm, add_comm (m : ℝ), add_comm ((n : ℝ) - m)]
    change IsPredictive _ _ _ _ ((binomial_beta_predictive (n : ℝ) d).dist.pmf m)
    rw [← hc]
    exact IsPredictive.of_density measurableSet_Ioo
      (Beta.isDensity ⟨d.alpha + m, d.beta + (n - m)⟩ (by simp only; positivity)
        (by simp only; positivity)) (fun p hp => by rw [mul_comm]; exact h p hp)
  · have : (binomial_beta_predictive (n : ℝ) d).dist.pmf k = 0 := by
      simp only [binomial_beta_predictive, BetaBinomial.dist, Disc.pmf, DiscFamily.pmf0, sub_zero]
      rw [if_neg hk]
    rw [this]
    apply IsPredictive.zero
    intro p
    simp only [Binomial.dist, Disc.pmf, DiscFamily.pmf0, sub_zero]
    rw [if_neg hk]

/-- C24. The Bernoulli case: one more flip. -/
theorem C24_bernoulli_beta_predictive (d : Beta ℝ) (ha : 0 < d.alpha) (hb : 0 < d.beta) (k : ℤ) :
    IsPredictive volume (Ioo 0 1) (fun p => (Binomial.dist ⟨1, p⟩).pmf k) d.dist.pdf
      ((bernoulli_beta_predictive d).dist.pmf k) := by
  have := C24_binomial_beta_predictive 1 d ha hb k
  simpa [bernoulli_beta_predictive] using this

/-- C24. Consequence: the probability that the next flip is a one is the mean of the Beta. -/
theorem C24_bernoulli_beta_predictive_one (d : Beta ℝ) (ha : 0 < d.alpha) (hb : 0 < d.beta) :
    (bernoulli_beta_predictive d).dist.pmf 1 = d.alpha / (d.alpha + d.beta) := by
  have hg := (Real.Gamma_pos_of_pos ha).ne'
  have hg' := (Real.Gamma_pos_of_pos hb).ne'
  have hg'' := (Real.Gamma_pos_of_pos (add_pos ha hb)).ne'
  simp only [bernoulli_beta_predictive, binomial_beta_predictive, BetaBinomial.dist, Disc.pmf,
    DiscFamily.pmf0, sub_zero, lit_real, betaFn, choose]
  norm_num
  rw [add_comm (1 : ℝ) d.alpha, Real.Gamma_add_one ha.ne',
    show d.alpha + 1 + d.beta = d.alpha + d.beta + 1 by ring,
    Real.Gamma_add_one (add_pos ha hb).ne']
  field_simp

example := C24_binomial_beta_predictive 10 ⟨2, 3⟩ (by norm_num) (by norm_num) 4
example := C24_bernoulli_beta_predictive ⟨2, 3⟩ (by norm_num) (by norm_num) 1

/-! ## C25 -/

/-- C25. Beta-negative-binomial. -/
theorem C25_negative_binomial_beta_predictive (r : ℝ) (hr : 0 < r) (d : Beta ℝ)
    (ha : 0 < d.alpha) (hb : 0 < d.beta) (k : ℤ) :
    IsPredictive volume (Ioo 0 1) (fun p => (NegativeBinomial.dist ⟨r, p⟩).pmf k) d.dist.pdf
      ((negative_binomial_beta_predictive r d).dist.pmf k) := by
  by_cases hk : 0 ≤ k
  · obtain ⟨m, rfl⟩ := Int.eq_ofNat_of_zero_le hk
    have h := beta_kernel d ⟨d.alpha + r, d.beta + m⟩ ⟨ha, hb⟩
      ⟨by simp only; positivity, by simp only; positivity⟩ (u := r) (v := m)
      (f := fun p => (NegativeBinomial.dist ⟨r, p⟩).pmf m) (C := choose (m + r - 1) m)
      (fun p hp => by rw [NegativeBinomial.pmf_nat r p m, rpow_natCast]) rfl rfl
    have hc : choose (m + r - 1) m * betaFn (d.alpha + r) (d.beta + m) / betaFn d.alpha d.beta =
        (negative_binomial_beta_predictive r d).dist.pmf m := by
      simp only [negative_binomial_beta_predictive, BetaNegativeBinomial.dist, Disc.pmf,
        DiscFamily.pmf0, sub_zero]
      rw [if_pos hk, Int.cast_natCast, add_comm r]
    change IsPredictive _ _ _ _ ((negative_binomial_beta_predictive r d).dist.pmf m)
    rw [← hc]
    exact IsPredictive.of_density measurableSet_Ioo
      (Beta.isDensity ⟨d.alpha + r, d.beta + m⟩ (by simp only; positivity)
        (by simp only; positivity)) (fun p hp => by rw [mul_comm]; exact h p hp)
  · have : (negative_binomial_beta_predictive r d).dist.pmf k = 0 := by
      simp only [negative_binomial_beta_predictive, BetaNegativeBinomial.dist, Disc.pmf,
        DiscFamily.pmf0, sub_zero]
      rw [if_neg hk]
    rw [this]
    apply IsPredictive.zero
    intro p
    simp only [NegativeBinomial.dist, Disc.pmf, DiscFamily.pmf0, sub_zero]
    rw [if_neg hk]

example := C25_negative_binomial_beta_predictive 3 (by norm_num) ⟨2, 3⟩ (by norm_num)
  (by norm_num) 4

/-! ## C29 -/

/-- C29. Compound gamma. -/
theorem C29_gamma_known_shape_predictive (alpha : ℝ) (hal : 0 < alpha) (d : Gamma ℝ)
    (ha : 0 < d.alpha) (hb : 0 < d.beta) (x : ℝ) (hx : 0 < x) :
    IsPredictive volume (Ioi 0) (fun rate => (Gamma.dist ⟨alpha, rate⟩).pdf x) d.dist.pdf
      ((gamma_known_shape_predictive d alpha).pdf x) := by
  have h := gamma_kernel d ⟨d.alpha + alpha, d.beta + x⟩ ⟨ha, hb⟩
      ⟨by simp only; positivity, by simp only; positivity⟩ (u := alpha) (v := x)
      (f := fun l => (Gamma.dist ⟨alpha, l⟩).pdf x) (C := x ^ (alpha - 1) / Real.Gamma alpha)
      (fun l hl => by
        have hl : 0 < l := hl
        rw [Gamma.pdf_eq { alpha := alpha, beta := l } hl hx, mul_comm x l]
        ring) rfl rfl
  have hc : x ^ (alpha - 1) / Real.Gamma alpha * gammaConst d.alpha d.beta /
      gammaConst (d.alpha + alpha) (d.beta + x) = (gamma_known_shape_predictive d alpha).pdf x := by
    simp only [gamma_known_shape_predictive, CompoundGamma.pdf, compoundGammaPdf, gammaConst, betaFn]
    have h1 := Real.Gamma_pos_of_pos ha
    have h2 := Real.Gamma_pos_of_pos hal
    have h3 := Real.Gamma_pos_of_pos (add_pos ha hal)
    have hbx : 0 < d.beta + x := by positivity
    have e0 : 1 + x / d.beta = (d.beta + x) / d.beta := by field_simp
    rw [e0, div_rpow hx.le hb.le, div_rpow hbx.le hb.le, rpow_sub_one hb.ne',
      show -alpha - d.alpha = -(d.alpha + alpha) by ring, rpow_neg hbx.le, rpow_neg hb.le,
      rpow_add hb, add_comm alpha]
    have p1 := rpow_pos_of_pos hb d.alpha
    have p2 := rpow_pos_of_pos hb alpha
    have p3 := rpow_pos_of_pos hbx (d.alpha + alpha)
    field_simp
  rw [← hc]
  exact IsPredictive.of_density measurableSet_Ioi
    (Gamma.isDensity ⟨d.alpha + alpha, d.beta + x⟩ (by simp only; positivity)
      (by simp only; positivity)) (fun p hp => by rw [mul_comm]; exact h p hp)

example := C29_gamma_known_shape_predictive 2 (by norm_num) ⟨2, 3⟩ (by norm_num)
  (by norm_num) 4 (by norm_num)

/-! ## C30 -/

/-- C30. Known variance. -/
theorem C30_normal_known_variance_predictive (var : ℝ) (hv : 0 < var) (d : Normal ℝ)
    (hs : 0 < d.sigma) (x : ℝ) :
    IsPredictive volume univ (fun m => (Normal.dist ⟨m, √var⟩).pdf x) d.dist.pdf
      ((normal_known_variance_predictive var d).dist.pdf x) := by
  have hq : 0 < 1 / (1 / d.sigma ^ 2 + 1 / var) := by positivity
  refine IsPredictive.of_density MeasurableSet.univ
    (Normal.isDensity ⟨(d.mu / d.sigma ^ 2 + x / var) / (1 / d.sigma ^ 2 + 1 / var),
      √(1 / (1 / d.sigma ^ 2 + 1 / var))⟩ (Real.sqrt_pos.2 hq)) (fun m _ => ?_)
  have h := normal_mul_normal d.mu d.sigma var x m hs hv
  rw [mul_comm, normal_known_variance_predictive, powq_two, powq_half]
  exact h

/-- C30. Known precision. -/
theorem C30_normal_known_precision_predictive (precision : ℝ) (hp : 0 < precision) (d : Normal ℝ)
    (hs : 0 < d.sigma) (x : ℝ) :
    IsPredictive volume univ (fun m => (Normal.dist ⟨m, √(1 / precision)⟩).pdf x) d.dist.pdf
      ((normal_known_precision_predictive precision d).dist.pdf x) := by
  have h := C30_normal_known_variance_predictive (1 / precision) (by positivity) d hs x
  simpa only [normal_known_precision_predictive, lit_real, Rat.cast_one] using h

example := C30_normal_known_variance_predictive 2 (by norm_num) ⟨1, 3⟩ (by norm_num) 5
example := C30_normal_known_precision_predictive 2 (by norm_num) ⟨1, 3⟩ (by norm_num) 5

/-! ## C31 -/

/-- The evidence of one normal observation is a Student t density. -/
theorem studentT_const (mu alpha beta w x : ℝ) (ha : 0 < alpha) (hb : 0 < beta) (hw : 0 < w) :
    (√(2 * π))⁻¹ * (√w)⁻¹ * gammaConst alpha beta /
      gammaConst (alpha + 1 / 2) (beta + (x - mu) ^ 2 / (2 * w)) =
    (StudentT.dist ⟨mu, √(beta * w / alpha), 2 * alpha⟩).pdf x := by
  simp only [StudentT.dist, Cont.pdf, Family.std, gammaConst]
  have hs : 0 < √(beta * w / alpha) := Real.sqrt_pos.2 (by positivity)
  have hB : 0 < beta + (x - mu) ^ 2 / (2 * w) := by positivity
  have e1 : (2 * alpha + 1) / 2 = alpha + 1 / 2 := by ring
  have e2 : 2 * alpha / 2 = alpha := by ring
  have e3 : -(2 * alpha + 1) / 2 = -(alpha + 1 / 2) := by ring
  have e4 : 1 + ((x - mu) / √(beta * w / alpha)) ^ 2 / (2 * alpha) =
      (beta + (x - mu) ^ 2 / (2 * w)) / beta := by
    rw [div_pow, Real.sq_sqrt (by positivity)]
    field_simp
  rw [e1, e2, e3, e4, rpow_neg (by positivity), div_rpow hB.le hb.le, rpow_add hb,
    ← Real.sqrt_eq_rpow]
  have e5 : √(π * (2 * alpha)) = √(2 * π) * √alpha := by
    rw [← Real.sqrt_mul (by positivity)]; ring_nf
  have e6 : √(beta * w / alpha) = √beta * √w / √alpha := by
    rw [Real.sqrt_div (by positivity), Real.sqrt_mul hb.le]
  rw [e5, e6]
  have h1 := Real.sqrt_pos.2 ha
  have h2 := Real.sqrt_pos.2 hb
  have h3 := Real.sqrt_pos.2 hw
  have h4 : 0 < √(2 * π) := by positivity
  have h5 := Real.Gamma_pos_of_pos ha
  have h6 : 0 < Real.Gamma (alpha + 1 / 2) := Real.Gamma_pos_of_pos (by positivity)
  have h7 := rpow_pos_of_pos hb alpha
  have h8 := rpow_pos_of_pos hB (alpha + 1 / 2)
  field_simp

/-- C31. Known mean, either class for the variance. -/
theorem C31_normal_known_mean_predictive (mu : ℝ) (d : VariancePrior ℝ) (hd : d.Valid) (x : ℝ) :
    IsPredictive volume (Ioi 0) (fun v => (Normal.dist ⟨mu, √v⟩).pdf x) d.pdf
      ((normal_known_mean_predictive mu d).dist.pdf x) := by
  have key : ∀ d : InverseGamma ℝ, 0 < d.alpha → 0 < d.beta →
      IsPredictive volume (Ioi 0) (fun v => (Normal.dist ⟨mu, √v⟩).pdf x) d.dist.pdf
      ((StudentT.dist ⟨mu, √(d.beta / d.alpha), 2 * d.alpha⟩).pdf x) := by
    intro d ha hb
    have h := invgamma_kernel d ⟨d.alpha + 1 / 2, d.beta + (x - mu) ^ 2 / 2⟩ ⟨ha, hb⟩
      ⟨by simp only; positivity, by simp only; positivity⟩ (C := (√(2 * π))⁻¹) (u := 1 / 2)
      (v := (x - mu) ^ 2 / 2) (fun t ht => Normal.pdf_sqrt mu t x ht) rfl rfl
    have hc := studentT_const mu d.alpha d.beta 1 x ha hb one_pos
    simp only [mul_one, Real.sqrt_one, inv_one] at hc
    rw [← hc]
    exact IsPredictive.of_density measurableSet_Ioi
      (InverseGamma.isDensity ⟨d.alpha + 1 / 2, d.beta + (x - mu) ^ 2 / 2⟩
        (by simp only; positivity) (by simp only; positivity))
      (fun p hp => by rw [mul_comm]; exact h p hp)
  cases d with
  | inverseGamma d =>
    have := key d hd.1 hd.2
    simpa only [VariancePrior.pdf, normal_known_mean_predictive, powq_half, lit_real,
      Rat.cast_ofNat] using this
  | scaledInverseChiSquared d =>
    have h1 := hd.1; have h2 := hd.2
    have := key d.to_inverse_gamma
      (by simp [ScaledInverseChiSquared.to_inverse_gamma]; positivity)
      (by simp [ScaledInverseChiSquared.to_inverse_gamma]; positivity)
    simpa only [VariancePrior.pdf, normal_known_mean_predictive, powq_half, lit_real,
      Rat.cast_ofNat, ScaledInverseChiSquared.dist_eq] using this

example := C31_normal_known_mean_predictive 1 (.inverseGamma ⟨2, 3⟩) ⟨by norm_num, by norm_num⟩ 5
example := C31_normal_known_mean_predictive 1 (.scaledInverseChiSquared ⟨2, 3⟩)
  ⟨by norm_num, by norm_num⟩ 5

/-! ## C32 -/

theorem nigConst_eq (mu nu alpha beta x : ℝ) (hnu : 0 < nu) (ha : 0 < alpha) (hb : 0 < beta) :
    nigConst mu nu alpha beta x =
      (StudentT.dist ⟨mu, √(beta * (nu + 1) / (nu * alpha)), 2 * alpha⟩).pdf x := by
  have h := studentT_const mu alpha beta ((nu + 1) / nu) x ha hb (by positivity)
  have e : beta * ((nu + 1) / nu) / alpha = beta * (nu + 1) / (nu * alpha) := by field_simp
  have e' : (x - mu) ^ 2 / (2 * ((nu + 1) / nu)) = nu * (x - mu) ^ 2 / (2 * (nu + 1)) := by
    field_simp
  rw [e, e'] at h
  exact h

/-- C32, NormalInverseGamma. -/
theorem C32_normal_predictive_nig {M : Type*} (d : NormalInverseGamma ℝ ℝ M) (nu : ℝ)
    (hn : d.nu = some nu) (hnu : 0 < nu) (ha : 0 < d.alpha) (hb : 0 < d.beta) (x : ℝ) :
    ∃ t : StudentT ℝ, normal_predictive (.nig d) = .ok t ∧
      IsPredictive volume (univ ×ˢ Ioi 0)
        (fun θ : ℝ × ℝ => (Normal.dist ⟨θ.1, √θ.2⟩).pdf x)
        (fun θ : ℝ × ℝ => d.jointPdf nu θ.1 θ.2) (t.dist.pdf x) := by
  have hpdf : (fun θ : ℝ × ℝ => d.jointPdf nu θ.1 θ.2) = nigPdf d.mu nu d.alpha d.beta := by
    ext θ
    simp [NormalInverseGamma.jointPdf, nigPdf, NormalInverseGamma.inverse_gamma]
  refine ⟨⟨d.mu, √(d.beta * (nu + 1) / (nu * d.alpha)), 2 * d.alpha⟩, ?_, ?_⟩
  · simp [normal_predictive, hn]
  · rw [hpdf, ← nigConst_eq _ _ _ _ _ hnu ha hb]
    refine IsPredictive.of_density (MeasurableSet.univ.prod measurableSet_Ioi)
      (nigPdf_isDensity ((nu * d.mu + x) / (nu + 1)) (nu + 1) (d.alpha + 1 / 2)
        (d.beta + nu * (x - d.mu) ^ 2 / (2 * (nu + 1))) (by positivity) (by positivity)
        (by positivity)) (fun θ hθ => ?_)
    rw [mul_comm]
    exact nig_kernel _ _ _ _ _ hnu ha hb θ hθ

/-- C32, NormalGamma. -/
theorem C32_normal_predictive_ng {M : Type*} (d : NormalGamma ℝ) (hlam : 0 < d.lam)
    (ha : 0 < d.alpha) (hb : 0 < d.beta) (x : ℝ) :
    ∃ t : StudentT ℝ, normal_predictive (.ng d : NormalPrior ℝ M) = .ok t ∧
      IsPredictive volume (univ ×ˢ Ioi 0)
        (fun θ : ℝ × ℝ => (Normal.dist ⟨θ.1, √(1 / θ.2)⟩).pdf x)
        (fun θ : ℝ × ℝ => d.jointPdf θ.1 θ.2) (t.dist.pdf x) := by
  have hpdf : (fun θ : ℝ × ℝ => d.jointPdf θ.1 θ.2) = ngPdf d.mu d.lam d.alpha d.beta := by
    ext θ
    simp [NormalGamma.jointPdf, ngPdf, NormalGamma.gamma]
  refine ⟨⟨d.mu, √(d.beta * (d.lam + 1) / (d.lam * d.alpha)), 2 * d.alpha⟩, ?_, ?_⟩
  · simp [normal_predictive]
  · rw [hpdf, ← nigConst_eq _ _ _ _ _ hlam ha hb]
    refine IsPredictive.of_density (MeasurableSet.univ.prod measurableSet_Ioi)
      (ngPdf_isDensity ((d.lam * d.mu + x) / (d.lam + 1)) (d.lam + 1) (d.alpha + 1 / 2)
        (d.beta + d.lam * (x - d.mu) ^ 2 / (2 * (d.lam + 1))) (by positivity) (by positivity)
        (by positivity)) (fun θ hθ => ?_)
    rw [mul_comm]
    exact ng_kernel _ _ _ _ _ hlam ha hb θ hθ

/-- C32. A NormalInverseGamma made for regression (no `nu`) makes `normal_predictive` fail:
Python evaluates `None + 1`. -/
theorem C32_normal_predictive_no_nu {M : Type*} (d : NormalInverseGamma ℝ ℝ M)
    (hn : d.nu = none) : normal_predictive (.nig d) = .error .typeError := by
  simp [normal_predictive, hn]

example := C32_normal_predictive_nig (M := Unit) ⟨0, 2, 3, none, some 1⟩ 1 rfl (by norm_num)
  (by norm_num) (by norm_num) 5
example := C32_normal_predictive_ng (M := Unit) ⟨0, 1, 2, 3⟩ (by norm_num)
  (by norm_num) (by norm_num) 5
example := C32_normal_predictive_no_nu (M := Unit) ⟨0, 2, 3, some (), none⟩ rfl

end Conj
