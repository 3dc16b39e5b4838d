import Verif.Lemmas.NormalAlg
import Verif.Props.Sequential

/-!
# Bayes' rule for the normal models (C12 - C15)
-/

open MeasureTheory Set Real

namespace Conj

open Scipy Spec

/-! ## C12 -/

/-- C12. Normal data with known variance, unknown mean. -/
theorem C12_normal_known_variance_posterior (prior : Normal ℝ) (hs : 0 < prior.sigma)
    (var : ℝ) (hv : 0 < var) (xs : List ℝ) :
    IsPosterior volume univ prior.dist.pdf
      (likelihood (fun m x => (Normal.dist { mu := m, sigma := √var }).pdf x) xs)
      (normal_known_variance xs.sum (xs.length : ℝ) var prior).dist.pdf := by
  have hval : ∀ (d : Normal ℝ) (x : ℝ), 0 < d.sigma → True →
      0 < (normal_known_variance x 1 var d).sigma := by
    intro d x hd _
    simp only [normal_known_variance, powq_two, powq_half, lit_real, Rat.cast_one]
    exact Real.sqrt_pos.2 (by positivity)
  refine posterior_of_steps MeasurableSet.univ (valid := fun d : Normal ℝ => 0 < d.sigma)
    (ok := fun _ => True)
    (pdf := fun d : Normal ℝ => d.dist.pdf) (step := fun d x => normal_known_variance x 1 var d)
    (fun d hd => Normal.isDensity d hd) hval ?_ xs (by simp) prior hs ?_
  · intro d x hd _
    have hpos : 0 < √(var + d.sigma ^ 2) := Real.sqrt_pos.2 (by positivity)
    refine ⟨(Normal.dist ⟨d.mu, √(var + d.sigma ^ 2)⟩).pdf x, ?_, fun m _ => ?_⟩
    · rw [Normal.pdf_eq ⟨d.mu, √(var + d.sigma ^ 2)⟩ hpos]; positivity
    · have h := normal_mul_normal d.mu d.sigma var x m hd hv
      simpa only [normal_known_variance, powq_two, powq_half, lit_real, Rat.cast_one] using h
  · have h := C37_normal_known_variance var hv (xs.map fun x => (x, (1 : ℝ)))
      (by simp) prior hs
    rw [List.foldl_map] at h
    rw [h, List.map_map, List.map_map]
    congr 1 <;> simp [Function.comp_def]

/-- C12. Known precision: the likelihood has variance `1 / precision`. -/
theorem C12_normal_known_precision_posterior (prior : Normal ℝ) (hs : 0 < prior.sigma)
    (precision : ℝ) (hp : 0 < precision) (xs : List ℝ) :
    IsPosterior volume univ prior.dist.pdf
      (likelihood (fun m x => (Normal.dist { mu := m, sigma := √(1 / precision) }).pdf x) xs)
      (normal_known_precision xs.sum (xs.length : ℝ) precision prior).dist.pdf := by
  have h := C12_normal_known_variance_posterior prior hs (1 / precision) (by positivity) xs
  simpa only [normal_known_precision, lit_real, Rat.cast_one] using h

example := C12_normal_known_variance_posterior ⟨0, 10⟩ (by norm_num) 2 (by norm_num) [1, -3, 4]
example := C12_normal_known_precision_posterior ⟨0, 10⟩ (by norm_num) 2 (by norm_num) [1, -3, 4]

/-! ## C13 -/

/-- density of either variance distribution, through its own `.dist` -/
noncomputable def VariancePrior.pdf : VariancePrior ℝ → ℝ → ℝ
  | .inverseGamma d => d.dist.pdf
  | .scaledInverseChiSquared d => d.dist.pdf

/-- parameter space of either class -/
def VariancePrior.Valid : VariancePrior ℝ → Prop
  | .inverseGamma d => 0 < d.alpha ∧ 0 < d.beta
  | .scaledInverseChiSquared d => 0 < d.nu ∧ 0 < d.sigma2

theorem ScaledInverseChiSquared.dist_eq (d : ScaledInverseChiSquared ℝ) :
    d.dist = d.to_inverse_gamma.dist := by
  simp [ScaledInverseChiSquared.dist, ScaledInverseChiSquared.to_inverse_gamma, InverseGamma.dist]

theorem ScaledInverseChiSquared.to_from (d : InverseGamma ℝ) (h : d.alpha ≠ 0) :
    (ScaledInverseChiSquared.from_inverse_gamma d).to_inverse_gamma = d := by
  ext <;> simp [ScaledInverseChiSquared.from_inverse_gamma,
    ScaledInverseChiSquared.to_inverse_gamma]
  field_simp

theorem C13_inverse_gamma (prior : InverseGamma ℝ) (ha : 0 < prior.alpha) (hb : 0 < prior.beta)
    (mu : ℝ) (xs : List ℝ) :
    (normalKnownMeanInverseGammaPrior xs.sum (xs.map (· ^ 2)).sum (xs.length : ℝ) mu prior).Valid ∧
    IsPosterior volume (Ioi 0) prior.dist.pdf
      (likelihood (fun v x => (Normal.dist { mu := mu, sigma := √v }).pdf x) xs)
      (normalKnownMeanInverseGammaPrior xs.sum (xs.map (· ^ 2)).sum (xs.length : ℝ) mu
        prior).dist.pdf := by
  have hstat : ∀ x : ℝ, x ^ 2 - 2 * mu * x + 1 * mu ^ 2 = (x - mu) ^ 2 := fun x => by ring
  have hval : ∀ (d : InverseGamma ℝ) (x : ℝ), d.Valid → True →
      (normalKnownMeanInverseGammaPrior x (x ^ 2) 1 mu d).Valid := by
    intro d x hd _
    have h1 := hd.1; have h2 := hd.2
    refine ⟨?_, ?_⟩
    · simp [normalKnownMeanInverseGammaPrior]; positivity
    · simp only [normalKnownMeanInverseGammaPrior, powq_two, lit_real, Rat.cast_ofNat, hstat]
      push_cast
      positivity
  have hstep : ∀ (d : InverseGamma ℝ) (x : ℝ), d.Valid → True →
      ∃ c : ℝ, 0 < c ∧ ∀ v ∈ Ioi (0 : ℝ), d.dist.pdf v * (Normal.dist ⟨mu, √v⟩).pdf x =
        c * (normalKnownMeanInverseGammaPrior x (x ^ 2) 1 mu d).dist.pdf v := by
    intro d x hd _
    refine invgamma_step d _ hd (hval d x hd trivial) (C := (√(2 * π))⁻¹) (u := 1 / 2)
      (v := (x - mu) ^ 2 / 2) (by positivity) (fun t ht => Normal.pdf_sqrt mu t x ht) ?_ ?_
    · simp [normalKnownMeanInverseGammaPrior]
    · simp only [normalKnownMeanInverseGammaPrior, powq_two, lit_real, Rat.cast_ofNat, hstat]
      push_cast
      ring
  have hfold : xs.foldl (fun d x => normalKnownMeanInverseGammaPrior x (x ^ 2) 1 mu d) prior =
      normalKnownMeanInverseGammaPrior xs.sum (xs.map (· ^ 2)).sum (xs.length : ℝ) mu prior := by
    clear ha hb
    induction xs generalizing prior with
    | nil => ext <;> simp [normalKnownMeanInverseGammaPrior]
    | cons x l ih =>
      rw [List.foldl_cons, ih]
      ext <;> simp [normalKnownMeanInverseGammaPrior] <;> ring
  refine ⟨?_, posterior_of_steps measurableSet_Ioi (valid := InverseGamma.Valid)
    (ok := fun _ => True) (pdf := fun d : InverseGamma ℝ => d.dist.pdf)
    (fun d hd => InverseGamma.isDensity d hd.1 hd.2) hval hstep xs (by simp) prior ⟨ha, hb⟩ hfold⟩
  rw [← hfold]
  exact (kernel_foldl (S := Ioi (0 : ℝ)) (pdf := fun d : InverseGamma ℝ => d.dist.pdf)
    (f := fun v x => (Normal.dist ⟨mu, √v⟩).pdf x)
    (fun d x h1 h2 => ⟨hval d x h1 h2, hstep d x h1 h2⟩) xs prior (by simp) ⟨ha, hb⟩).1

/-- C13. Normal data with known mean, unknown variance, either prior class. -/
theorem C13_normal_known_mean_posterior (prior : VariancePrior ℝ) (hp : prior.Valid) (mu : ℝ)
    (xs : List ℝ) :
    IsPosterior volume (Ioi 0) prior.pdf
      (likelihood (fun v x => (Normal.dist { mu := mu, sigma := √v }).pdf x) xs)
      (normal_known_mean xs.sum (xs.map (· ^ 2)).sum (xs.length : ℝ) mu prior).pdf := by
  cases prior with
  | inverseGamma d => exact (C13_inverse_gamma d hp.1 hp.2 mu xs).2
  | scaledInverseChiSquared d =>
    have h1 := hp.1; have h2 := hp.2
    have h := C13_inverse_gamma d.to_inverse_gamma
      (by simp [ScaledInverseChiSquared.to_inverse_gamma]; positivity)
      (by simp [ScaledInverseChiSquared.to_inverse_gamma]; positivity) mu xs
    simp only [VariancePrior.pdf, normal_known_mean, ScaledInverseChiSquared.dist_eq]
    rw [ScaledInverseChiSquared.to_from _ h.1.1.ne']
    exact h.2

/-- C13. The class of the posterior is the class of the prior. -/
theorem C13_normal_known_mean_class (prior : VariancePrior ℝ) (s q n mu : ℝ) :
    (∃ d, normal_known_mean s q n mu prior = .inverseGamma d) ↔ ∃ d, prior = .inverseGamma d := by
  cases prior <;> simp [normal_known_mean]

example := C13_normal_known_mean_posterior (.inverseGamma ⟨1, 1⟩) ⟨by norm_num, by norm_num⟩ 0
  [1, -3, 4]
example := C13_normal_known_mean_posterior (.scaledInverseChiSquared ⟨1, 2⟩)
  ⟨by norm_num, by norm_num⟩ 5 [1, -3, 4]

/-! ## C14 -/

theorem normalUpdate_one (mu nu alpha beta x : ℝ) (hnu : 0 < nu) :
    normalUpdate x (x ^ 2) 1 mu nu alpha beta =
      ((nu * mu + x) / (nu + 1), nu + 1, alpha + 1 / 2,
        beta + nu * (x - mu) ^ 2 / (2 * (nu + 1))) := by
  simp only [normalUpdate, powq_two, lit_real]
  refine Prod.ext ?_ (Prod.ext ?_ (Prod.ext ?_ ?_))
  · simp
  · simp
  · simp
  · simp only
    push_cast
    field_simp
    ring

/-- sequential single-observation updates of the four numbers -/
noncomputable def normalStep (d : ℝ × ℝ × ℝ × ℝ) (x : ℝ) : ℝ × ℝ × ℝ × ℝ :=
  normalUpdate x (x ^ 2) 1 d.1 d.2.1 d.2.2.1 d.2.2.2

theorem foldl_normalStep (xs : List ℝ) (hne : xs ≠ []) (d : ℝ × ℝ × ℝ × ℝ) (hnu : 0 < d.2.1) :
    xs.foldl normalStep d = normalUpdate xs.sum (xs.map (· ^ 2)).sum (xs.length : ℝ)
      d.1 d.2.1 d.2.2.1 d.2.2.2 := by
  induction xs generalizing d with
  | nil => exact absurd rfl hne
  | cons x l ih =>
    rcases l with _ | ⟨y, l⟩
    · simp [normalStep]
    · rw [List.foldl_cons, ih (by simp) _ (by
        simp only [normalStep, normalUpdate]; positivity)]
      have := normalUpdate_two d.1 d.2.1 d.2.2.1 d.2.2.2 x (x ^ 2) 1 (y :: l).sum
        ((y :: l).map (· ^ 2)).sum ((y :: l).length : ℝ) hnu one_pos (by simp; positivity)
      simp only at this
      simp only [normalStep]
      rw [this]
      congr 1
      simp [add_comm]

/-- valid normal-inverse-gamma numbers -/
def NormalValid (d : ℝ × ℝ × ℝ × ℝ) : Prop := 0 < d.2.1 ∧ 0 < d.2.2.1 ∧ 0 < d.2.2.2

theorem normalStep_valid (d : ℝ × ℝ × ℝ × ℝ) (x : ℝ) (hd : NormalValid d) :
    NormalValid (normalStep d x) := by
  obtain ⟨h1, h2, h3⟩ := hd
  rw [normalStep, normalUpdate_one _ _ _ _ _ h1]
  exact ⟨by simp only; positivity, by simp only; positivity, by simp only; positivity⟩

theorem normalUpdate_valid (xs : List ℝ) (hne : xs ≠ []) (d : ℝ × ℝ × ℝ × ℝ) (hd : NormalValid d) :
    NormalValid (normalUpdate xs.sum (xs.map (· ^ 2)).sum (xs.length : ℝ)
      d.1 d.2.1 d.2.2.1 d.2.2.2) := by
  rw [← foldl_normalStep xs hne d hd.1]
  clear hne
  induction xs generalizing d with
  | nil => exact hd
  | cons x l ih => exact ih _ (normalStep_valid d x hd)

/-- C14, NormalInverseGamma prior. `normal` succeeds on nonempty data and returns the
Bayes posterior of (mean, variance), with valid parameters. -/
theorem C14_normal_posterior_nig {M : Type*} (prior : NormalInverseGamma ℝ ℝ M) (nu : ℝ)
    (hn : prior.nu = some nu) (hnu : 0 < nu) (ha : 0 < prior.alpha) (hb : 0 < prior.beta)
    (xs : List ℝ) (hne : xs ≠ []) :
    ∃ (post : NormalInverseGamma ℝ ℝ M) (nu' : ℝ), post.nu = some nu' ∧
      normal xs.sum (xs.map (· ^ 2)).sum (xs.length : ℝ) (.nig prior) = .ok (.nig post) ∧
      0 < nu' ∧ 0 < post.alpha ∧ 0 < post.beta ∧
      IsPosterior volume (univ ×ˢ Ioi 0)
        (fun θ : ℝ × ℝ => prior.jointPdf nu θ.1 θ.2)
        (likelihood (fun (θ : ℝ × ℝ) x => (Normal.dist { mu := θ.1, sigma := √θ.2 }).pdf x) xs)
        (fun θ : ℝ × ℝ => post.jointPdf nu' θ.1 θ.2) := by
  have hpdf : ∀ (d : NormalInverseGamma ℝ ℝ M) (n : ℝ),
      (fun θ : ℝ × ℝ => d.jointPdf n θ.1 θ.2) = nigPdf d.mu n d.alpha d.beta := by
    intro d n
    ext θ
    simp [NormalInverseGamma.jointPdf, nigPdf, NormalInverseGamma.inverse_gamma]
  let r := normalUpdate xs.sum (xs.map (· ^ 2)).sum (xs.length : ℝ) prior.mu nu prior.alpha
    prior.beta
  have hr : NormalValid r := normalUpdate_valid xs hne (prior.mu, nu, prior.alpha, prior.beta) ⟨hnu, ha, hb⟩
  refine ⟨⟨r.1, r.2.2.1, r.2.2.2, none, some r.2.1⟩, r.2.1, rfl, ?_, hr.1, hr.2.1, hr.2.2, ?_⟩
  · simp only [normal, hn]; rfl
  · rw [hpdf, hpdf]
    refine posterior_of_steps (MeasurableSet.univ.prod measurableSet_Ioi)
      (valid := NormalValid) (ok := fun _ => True) (step := normalStep)
      (pdf := fun d : ℝ × ℝ × ℝ × ℝ => nigPdf d.1 d.2.1 d.2.2.1 d.2.2.2)
      (fun d hd => nigPdf_isDensity _ _ _ _ hd.1 hd.2.1 hd.2.2)
      (fun d x hd _ => normalStep_valid d x hd) ?_ xs (by simp)
      (prior.mu, nu, prior.alpha, prior.beta) ⟨hnu, ha, hb⟩ (pooled := r)
      (foldl_normalStep xs hne _ hnu)
    intro d x hd _
    refine ⟨_, nigConst_pos (mu := d.1) x hd.1 hd.2.1 hd.2.2, ?_⟩
    rw [normalStep, normalUpdate_one _ _ _ _ _ hd.1]
    exact nig_kernel _ _ _ _ _ hd.1 hd.2.1 hd.2.2

/-- C14, NormalGamma prior: unknown mean and precision. -/
theorem C14_normal_posterior_ng {M : Type*} (prior : NormalGamma ℝ) (hlam : 0 < prior.lam)
    (ha : 0 < prior.alpha) (hb : 0 < prior.beta) (xs : List ℝ) (hne : xs ≠ []) :
    ∃ post : NormalGamma ℝ,
      normal xs.sum (xs.map (· ^ 2)).sum (xs.length : ℝ) (.ng prior : NormalPrior ℝ M) =
        .ok (.ng post) ∧
      0 < post.lam ∧ 0 < post.alpha ∧ 0 < post.beta ∧
      IsPosterior volume (univ ×ˢ Ioi 0)
        (fun θ : ℝ × ℝ => prior.jointPdf θ.1 θ.2)
        (likelihood (fun (θ : ℝ × ℝ) x => (Normal.dist { mu := θ.1, sigma := √(1 / θ.2) }).pdf x)
          xs)
        (fun θ : ℝ × ℝ => post.jointPdf θ.1 θ.2) := by
  have hpdf : ∀ d : NormalGamma ℝ,
      (fun θ : ℝ × ℝ => d.jointPdf θ.1 θ.2) = ngPdf d.mu d.lam d.alpha d.beta := by
    intro d
    ext θ
    simp [NormalGamma.jointPdf, ngPdf, NormalGamma.gamma]
  let r := normalUpdate xs.sum (xs.map (· ^ 2)).sum (xs.length : ℝ) prior.mu prior.lam prior.alpha
    prior.beta
  have hr : NormalValid r :=
    normalUpdate_valid xs hne (prior.mu, prior.lam, prior.alpha, prior.beta) ⟨hlam, ha, hb⟩
  refine ⟨⟨r.1, r.2.1, r.2.2.1, r.2.2.2⟩, rfl, hr.1, hr.2.1, hr.2.2, ?_⟩
  rw [hpdf, hpdf]
  refine posterior_of_steps (MeasurableSet.univ.prod measurableSet_Ioi)
    (valid := NormalValid) (ok := fun _ => True) (step := normalStep)
    (pdf := fun d : ℝ × ℝ × ℝ × ℝ => ngPdf d.1 d.2.1 d.2.2.1 d.2.2.2)
    (fun d hd => ngPdf_isDensity _ _ _ _ hd.1 hd.2.1 hd.2.2)
    (fun d x hd _ => normalStep_valid d x hd) ?_ xs (by simp)
    (prior.mu, prior.lam, prior.alpha, prior.beta) ⟨hlam, ha, hb⟩ (pooled := r)
    (foldl_normalStep xs hne _ hlam)
  intro d x hd _
  refine ⟨_, nigConst_pos (mu := d.1) x hd.1 hd.2.1 hd.2.2, ?_⟩
  rw [normalStep, normalUpdate_one _ _ _ _ _ hd.1]
  exact ng_kernel _ _ _ _ _ hd.1 hd.2.1 hd.2.2

example := C14_normal_posterior_nig (M := Unit) ⟨0, 2, 3, none, some 1⟩ 1 rfl (by norm_num)
  (by norm_num) (by norm_num) [1, -3, 4] (by simp)
example := C14_normal_posterior_ng (M := Unit) ⟨0, 1, 2, 3⟩ (by norm_num)
  (by norm_num) (by norm_num) [1, -3, 4] (by simp)

/-! ## C15 -/

/-- textbook density of exp(Normal(m, √v)) at `x > 0` -/
noncomputable def Spec.logNormalPdf (m v x : ℝ) : ℝ :=
  1 / (x * √v * √(2 * π)) * exp (-(log x - m) ^ 2 / (2 * v))

theorem logNormalPdf_eq (m v x : ℝ) (hv : 0 < v) :
    Spec.logNormalPdf m v x = (1 / x) * (Normal.dist ⟨m, √v⟩).pdf (log x) := by
  rw [Normal.pdf_eq ⟨m, √v⟩ (Real.sqrt_pos.2 hv), Spec.logNormalPdf]
  simp only [Real.sq_sqrt hv.le]
  rw [mul_assoc, ← one_div_mul_one_div]
  ring

theorem likelihood_logNormal (xs : List ℝ) (g : ℝ × ℝ → ℝ) (θ : ℝ × ℝ) (hv : 0 < g θ) :
    likelihood (fun (θ : ℝ × ℝ) x => Spec.logNormalPdf θ.1 (g θ) x) xs θ =
      (xs.map (1 / ·)).prod *
        likelihood (fun (θ : ℝ × ℝ) x => (Normal.dist ⟨θ.1, √(g θ)⟩).pdf x) (xs.map log) θ := by
  induction xs with
  | nil => simp [likelihood]
  | cons x l ih =>
    simp only [likelihood, List.map_cons, List.prod_cons] at ih ⊢
    rw [ih, logNormalPdf_eq _ _ _ hv]
    ring

theorem IsPosterior.const_mul_lik {Θ : Type*} [MeasurableSpace Θ] {μ : Measure Θ} {S : Set Θ}
    (hS : MeasurableSet S) {prior lik lik' post : Θ → ℝ} (h : IsPosterior μ S prior lik post)
    {c : ℝ} (hc : 0 < c) (hl : ∀ θ ∈ S, lik' θ = c * lik θ) :
    IsPosterior μ S prior lik' post := by
  have e : ∫ θ in S, prior θ * lik' θ ∂μ = c * ∫ θ in S, prior θ * lik θ ∂μ := by
    rw [← integral_const_mul]
    exact setIntegral_congr_fun hS (fun θ hθ => by simp only [hl θ hθ]; ring)
  refine ⟨by rw [e]; exact mul_pos hc h.1, fun θ hθ => ?_⟩
  rw [e, hl θ hθ, h.2 θ hθ, show prior θ * (c * lik θ) = c * (prior θ * lik θ) by ring,
    mul_div_mul_left _ _ hc.ne']

/-- C15, NormalInverseGamma prior. Positive data with log-normal likelihood. -/
theorem C15_log_normal_posterior_nig {M : Type*} (prior : NormalInverseGamma ℝ ℝ M) (nu : ℝ)
    (hn : prior.nu = some nu) (hnu : 0 < nu) (ha : 0 < prior.alpha) (hb : 0 < prior.beta)
    (xs : List ℝ) (hne : xs ≠ []) (hx : ∀ x ∈ xs, 0 < x) :
    ∃ (post : NormalInverseGamma ℝ ℝ M) (nu' : ℝ), post.nu = some nu' ∧
      log_normal (xs.map log).sum (xs.map fun x => log x ^ 2).sum (xs.length : ℝ) (.nig prior) =
        .ok (.nig post) ∧
      IsPosterior volume (univ ×ˢ Ioi 0)
        (fun θ : ℝ × ℝ => prior.jointPdf nu θ.1 θ.2)
        (likelihood (fun (θ : ℝ × ℝ) x => Spec.logNormalPdf θ.1 θ.2 x) xs)
        (fun θ : ℝ × ℝ => post.jointPdf nu' θ.1 θ.2) := by
  obtain ⟨post, nu', h1, h2, -, -, -, h3⟩ := C14_normal_posterior_nig prior nu hn hnu ha hb (xs.map log)
    (by simpa using hne)
  refine ⟨post, nu', h1, ?_, ?_⟩
  · rw [log_normal, ← h2, List.map_map, List.length_map]; rfl
  · refine IsPosterior.const_mul_lik (MeasurableSet.univ.prod measurableSet_Ioi) h3
      (c := (xs.map (1 / ·)).prod) ?_ (fun θ hθ => likelihood_logNormal xs (fun θ => θ.2) θ hθ.2)
    apply List.prod_pos
    intro y hy
    obtain ⟨x, hx', rfl⟩ := List.mem_map.1 hy
    exact one_div_pos.2 (hx x hx')

/-- C15, NormalGamma prior. -/
theorem C15_log_normal_posterior_ng {M : Type*} (prior : NormalGamma ℝ) (hlam : 0 < prior.lam)
    (ha : 0 < prior.alpha) (hb : 0 < prior.beta)
    (xs : List ℝ) (hne : xs ≠ []) (hx : ∀ x ∈ xs, 0 < x) :
    ∃ post : NormalGamma ℝ,
      log_normal (xs.map log).sum (xs.map fun x => log x ^ 2).sum (xs.length : ℝ)
        (.ng prior : NormalPrior ℝ M) = .ok (.ng post) ∧
      IsPosterior volume (univ ×ˢ Ioi 0)
        (fun θ : ℝ × ℝ => prior.jointPdf θ.1 θ.2)
        (likelihood (fun (θ : ℝ × ℝ) x => Spec.logNormalPdf θ.1 (1 / θ.2) x) xs)
        (fun θ : ℝ × ℝ => post.jointPdf θ.1 θ.2) := by
  obtain ⟨post, h2, -, -, -, h3⟩ := C14_normal_posterior_ng (M := M) prior hlam ha hb (xs.map log)
    (by simpa using hne)
  refine ⟨post, ?_, ?_⟩
  · rw [log_normal, ← h2, List.map_map, List.length_map]; rfl
  · refine IsPosterior.const_mul_lik (MeasurableSet.univ.prod measurableSet_Ioi) h3
      (c := (xs.map (1 / ·)).prod) ?_
      (fun θ hθ => likelihood_logNormal xs (fun θ => 1 / θ.2) θ (one_div_pos.2 hθ.2))
    apply List.prod_pos
    intro y hy
    obtain ⟨x, hx', rfl⟩ := List.mem_map.1 hy
    exact one_div_pos.2 (hx x hx')

example := C15_log_normal_posterior_nig (M := Unit) ⟨0, 2, 3, none, some 1⟩ 1 rfl (by norm_num)
  (by norm_num) (by norm_num) [1, 3, 4] (by simp) (by simp)
example := C15_log_normal_posterior_ng (M := Unit) ⟨0, 1, 2, 3⟩ (by norm_num)
  (by norm_num) (by norm_num) [1, 3, 4] (by simp) (by simp)

end Conj
