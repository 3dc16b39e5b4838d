import Verif.Props.PosteriorPredictive

/-!
# Predict, then update: the product of predictives is the marginal likelihood (C85)

A user scores a stream of observations by predicting each one with the `_predictive` function
and then absorbing it with the model function. For every stream the product of those predictive
values is the evidence `∫ prior × likelihood` (`Spec.IsEvidence`), the number used to compare
models. Where a call can raise, the theorem also says that none does.
-/

open MeasureTheory Set Real Matrix

namespace Conj

open Scipy Spec

theorem likelihood_single {Θ X : Type*} (f : Θ → X → ℝ) (x : X) :
    likelihood f [x] = fun θ => f θ x := by
  funext θ; simp [likelihood]

/-- C85. Binomial experiments of possibly different sizes. -/
theorem C85_binomial_beta (prior : Beta ℝ) (ha : 0 < prior.alpha) (hb : 0 < prior.beta)
    (data : List (ℕ × ℕ)) (hx : ∀ e ∈ data, e.2 ≤ e.1) :
    IsEvidence volume (Ioo 0 1) prior.dist.pdf
      (likelihood (fun p (e : ℕ × ℕ) => (Binomial.dist { n := e.1, p := p }).pmf e.2) data)
      (prequential (fun d (e : ℕ × ℕ) => binomial_beta (e.1 : ℝ) (e.2 : ℝ) d)
        (fun d e => (binomial_beta_predictive (e.1 : ℝ) d).dist.pmf e.2) prior data) :=
  prequential_evidence measurableSet_Ioo (dens := fun d : Beta ℝ => d.dist.pdf)
    (valid := Beta.Valid) (ok := fun e : ℕ × ℕ => e.2 ≤ e.1)
    (fun d hd => Beta.isDensity d hd.1 hd.2)
    (fun d e hd he => C41_binomial_beta e.1 e.2 he d hd)
    (fun d e hd he => C01_binomial_beta_posterior d hd.1 hd.2 e.1 e.2 he)
    (fun d e hd _ => C24_binomial_beta_predictive e.1 d hd.1 hd.2 e.2) data prior hx ⟨ha, hb⟩

/-- C85. Coin flips. -/
theorem C85_bernoulli_beta (prior : Beta ℝ) (ha : 0 < prior.alpha) (hb : 0 < prior.beta)
    (flips : List Bool) :
    IsEvidence volume (Ioo 0 1) prior.dist.pdf
      (likelihood (fun p (x : Bool) => if x then p else 1 - p) flips)
      (prequential (fun d (x : Bool) => bernoulli_beta (if x then 1 else 0 : ℝ) d)
        (fun d x => (bernoulli_beta_predictive d).dist.pmf (if x then 1 else 0)) prior flips) := by
  refine prequential_evidence measurableSet_Ioo (dens := fun d : Beta ℝ => d.dist.pdf)
    (valid := Beta.Valid) (ok := fun _ => True)
    (fun d hd => Beta.isDensity d hd.1 hd.2)
    (fun d x hd _ => C41_bernoulli_beta x d hd)
    (fun d x hd _ => ?_) (fun d x hd _ => ?_) flips prior (by simp) ⟨ha, hb⟩
  · have := C02_bernoulli_beta_posterior d hd.1 hd.2 [x]
    rwa [likelihood_single] at this
  · have := C24_bernoulli_beta_predictive d hd.1 hd.2 (if x then 1 else 0)
    have e : (fun p : ℝ => (Binomial.dist ⟨1, p⟩).pmf (if x then 1 else 0)) =
        fun p => if x then p else 1 - p := by
      funext p
      cases x
      · have := Binomial.pmf_nat 1 0 (by simp) p
        simpa using this
      · have := Binomial.pmf_nat 1 1 (by simp) p
        simpa using this
    rwa [e] at this

/-- C85. Negative binomial counts. -/
theorem C85_negative_binomial_beta (prior : Beta ℝ) (ha : 0 < prior.alpha) (hb : 0 < prior.beta)
    (r : ℝ) (hr : 0 < r) (xs : List ℕ) :
    IsEvidence volume (Ioo 0 1) prior.dist.pdf
      (likelihood (fun p (x : ℕ) => (NegativeBinomial.dist { n := r, p := p }).pmf x) xs)
      (prequential (fun d (x : ℕ) => negative_binomial_beta r 1 (x : ℝ) d)
        (fun d x => (negative_binomial_beta_predictive r d).dist.pmf x) prior xs) := by
  refine prequential_evidence measurableSet_Ioo (dens := fun d : Beta ℝ => d.dist.pdf)
    (valid := Beta.Valid) (ok := fun _ => True)
    (fun d hd => Beta.isDensity d hd.1 hd.2)
    (fun d (x : ℕ) hd _ => by simpa using C41_negative_binomial_beta r hr [x] d hd)
    (fun d x hd _ => ?_)
    (fun d x hd _ => C25_negative_binomial_beta_predictive r hr d hd.1 hd.2 x)
    xs prior (by simp) ⟨ha, hb⟩
  have := C03_negative_binomial_beta_posterior d hd.1 hd.2 r hr [x]
  rw [likelihood_single] at this
  simpa using this

/-- C85. Poisson counts, predicted with the default `n = 1`. -/
theorem C85_poisson_gamma (prior : Gamma ℝ) (ha : 0 < prior.alpha) (hb : 0 < prior.beta)
    (xs : List ℕ) :
    IsEvidence volume (Ioi 0) prior.dist.pdf
      (likelihood (fun l (x : ℕ) => (Poisson.dist { lam := l }).pmf x) xs)
      (prequential (fun d (x : ℕ) => poisson_gamma (x : ℝ) 1 d)
        (fun d x => (poisson_gamma_predictive d).dist.pmf x) prior xs) := by
  refine prequential_evidence measurableSet_Ioi (dens := fun d : Gamma ℝ => d.dist.pdf)
    (valid := Gamma.Valid) (ok := fun _ => True)
    (fun d hd => Gamma.isDensity d hd.1 hd.2)
    (fun d x hd _ => ?_) (fun d x hd _ => ?_) (fun d x hd _ => ?_) xs prior (by simp) ⟨ha, hb⟩
  · have h1 := hd.1; have h2 := hd.2
    constructor <;> simp only [poisson_gamma, getPoissonGammaPosteriorParams] <;> positivity
  · have := C05_poisson_gamma_posterior d hd.1 hd.2 [x]
    rw [likelihood_single] at this
    simpa using this
  · have := C27_poisson_gamma_predictive_partial d hd.1 hd.2 x
    simpa using this

/-- C85. Gamma data with known shape. -/
theorem C85_gamma_known_shape (prior : Gamma ℝ) (ha : 0 < prior.alpha) (hb : 0 < prior.beta)
    (shape : ℝ) (hk : 0 < shape) (xs : List ℝ) (hx : ∀ x ∈ xs, 0 < x) :
    IsEvidence volume (Ioi 0) prior.dist.pdf
      (likelihood (fun r x => (Gamma.dist { alpha := shape, beta := r }).pdf x) xs)
      (prequential (fun d x => gamma_known_shape x 1 shape d)
        (fun d x => (gamma_known_shape_predictive d shape).pdf x) prior xs) := by
  refine prequential_evidence measurableSet_Ioi (dens := fun d : Gamma ℝ => d.dist.pdf)
    (valid := Gamma.Valid) (ok := fun x => 0 < x)
    (fun d hd => Gamma.isDensity d hd.1 hd.2)
    (fun d x hd hx => ?_) (fun d x hd hx => ?_)
    (fun d x hd hx => C29_gamma_known_shape_predictive shape hk d hd.1 hd.2 x hx) xs prior hx
    ⟨ha, hb⟩
  · have := (C41_gamma_posteriors shape hk [x] (by simpa using le_of_lt hx) d hd).2.2.1
    simpa using this
  · have := C07_gamma_known_shape_posterior d hd.1 hd.2 shape hk [x] (by simpa using hx)
    rw [likelihood_single] at this
    simpa using this

/-- C85. Normal data, known variance. -/
theorem C85_normal_known_variance (prior : Normal ℝ) (hs : 0 < prior.sigma) (var : ℝ)
    (hv : 0 < var) (xs : List ℝ) :
    IsEvidence volume univ prior.dist.pdf
      (likelihood (fun m x => (Normal.dist { mu := m, sigma := √var }).pdf x) xs)
      (prequential (fun d x => normal_known_variance x 1 var d)
        (fun d x => (normal_known_variance_predictive var d).dist.pdf x) prior xs) := by
  refine prequential_evidence MeasurableSet.univ (dens := fun d : Normal ℝ => d.dist.pdf)
    (valid := fun d => 0 < d.sigma) (ok := fun _ => True)
    (fun d hd => Normal.isDensity d hd)
    (fun d x hd _ => ?_) (fun d x hd _ => ?_)
    (fun d x hd _ => C30_normal_known_variance_predictive var hv d hd x) xs prior (by simp) hs
  · simpa using (C41_normal_known_variance [x] var hv d hd).1
  · have := C12_normal_known_variance_posterior d hd var hv [x]
    rw [likelihood_single] at this
    simpa using this

/-- C85. Normal data, known precision. -/
theorem C85_normal_known_precision (prior : Normal ℝ) (hs : 0 < prior.sigma) (precision : ℝ)
    (hp : 0 < precision) (xs : List ℝ) :
    IsEvidence volume univ prior.dist.pdf
      (likelihood (fun m x => (Normal.dist { mu := m, sigma := √(1 / precision) }).pdf x) xs)
      (prequential (fun d x => normal_known_precision x 1 precision d)
        (fun d x => (normal_known_precision_predictive precision d).dist.pdf x) prior xs) := by
  refine prequential_evidence MeasurableSet.univ (dens := fun d : Normal ℝ => d.dist.pdf)
    (valid := fun d => 0 < d.sigma) (ok := fun _ => True)
    (fun d hd => Normal.isDensity d hd)
    (fun d x hd _ => ?_) (fun d x hd _ => ?_)
    (fun d x hd _ => C30_normal_known_precision_predictive precision hp d hd x) xs prior (by simp)
    hs
  · simpa using (C41_normal_known_variance [x] precision hp d hd).2
  · have := C12_normal_known_precision_posterior d hd precision hp [x]
    rw [likelihood_single] at this
    simpa using this

theorem VariancePrior.isDensity (d : VariancePrior ℝ) (hd : d.Valid) :
    IsDensity volume (Ioi 0) d.pdf := by
  cases d with
  | inverseGamma d => exact InverseGamma.isDensity d hd.1 hd.2
  | scaledInverseChiSquared d =>
    have h1 := hd.1; have h2 := hd.2
    simp only [VariancePrior.pdf, ScaledInverseChiSquared.dist_eq]
    exact InverseGamma.isDensity _
      (by simp [ScaledInverseChiSquared.to_inverse_gamma]; positivity)
      (by simp [ScaledInverseChiSquared.to_inverse_gamma]; positivity)

/-- C85. Normal data, known mean, either prior class. -/
theorem C85_normal_known_mean (prior : VariancePrior ℝ) (hp : prior.Valid) (mu : ℝ)
    (xs : List ℝ) :
    IsEvidence volume (Ioi 0) prior.pdf
      (likelihood (fun v x => (Normal.dist { mu := mu, sigma := √v }).pdf x) xs)
      (prequential (fun d x => normal_known_mean x (x ^ 2) 1 mu d)
        (fun d x => (normal_known_mean_predictive mu d).dist.pdf x) prior xs) := by
  refine prequential_evidence measurableSet_Ioi (dens := VariancePrior.pdf)
    (valid := VariancePrior.Valid) (ok := fun _ => True)
    (fun d hd => d.isDensity hd)
    (fun d x hd _ => ?_) (fun d x hd _ => ?_)
    (fun d x hd _ => C31_normal_known_mean_predictive mu d hd x) xs prior (by simp) hp
  · simpa using C41_normal_known_mean mu [x] d hd
  · have := C13_normal_known_mean_posterior d hd mu [x]
    rw [likelihood_single] at this
    simpa using this

/-- joint density of (mean, variance) described by a normal-model prior, used only for
NormalInverseGamma objects with `nu` -/
noncomputable def nigDensity {M : Type} : NormalPrior ℝ M → ℝ × ℝ → ℝ
  | .nig d => fun θ => d.jointPdf (d.nu.getD 0) θ.1 θ.2
  | .ng _ => fun _ => 0

theorem nigDensity_nig {M : Type} {d : NormalInverseGamma ℝ ℝ M} {n : ℝ} (h : d.nu = some n) :
    nigDensity (.nig d) = fun θ => d.jointPdf n θ.1 θ.2 := by
  simp [nigDensity, h]

/-- joint density of (mean, precision) -/
noncomputable def ngDensity {M : Type} : NormalPrior ℝ M → ℝ × ℝ → ℝ
  | .nig _ => fun _ => 0
  | .ng d => fun θ => d.jointPdf θ.1 θ.2

/-- C85. Normal data, mean and variance unknown. -/
theorem C85_normal_nig {M : Type} (prior : NormalInverseGamma ℝ ℝ M) (nu : ℝ)
    (hn : prior.nu = some nu) (hnu : 0 < nu) (ha : 0 < prior.alpha) (hb : 0 < prior.beta)
    (xs : List ℝ) :
    ∃ ev, prequentialM (fun d x => normal x (x ^ 2) 1 d)
        (fun d x => (normal_predictive d).map fun t => t.dist.pdf x) (.nig prior) xs = .ok ev ∧
      IsEvidence volume (univ ×ˢ Ioi 0)
        (fun θ : ℝ × ℝ => prior.jointPdf nu θ.1 θ.2)
        (likelihood (fun (θ : ℝ × ℝ) x => (Normal.dist { mu := θ.1, sigma := √θ.2 }).pdf x) xs)
        ev := by
  have key := prequentialM_evidence (S := univ ×ˢ Ioi (0 : ℝ))
    (MeasurableSet.univ.prod measurableSet_Ioi) (μ := (volume : Measure (ℝ × ℝ))) (dens := nigDensity (M := M))
    (f := fun (θ : ℝ × ℝ) x => (Normal.dist { mu := θ.1, sigma := √θ.2 }).pdf x)
    (update := fun d x => normal x (x ^ 2) 1 d)
    (pred := fun d x => (normal_predictive d).map fun t => t.dist.pdf x)
    (valid := fun d => ∃ (e : NormalInverseGamma ℝ ℝ M) (n : ℝ), d = .nig e ∧ e.nu = some n ∧
      0 < n ∧ 0 < e.alpha ∧ 0 < e.beta) (ok := fun _ => True) ?_ ?_ ?_ xs (.nig prior) (by simp)
      ⟨prior, nu, rfl, hn, hnu, ha, hb⟩
  · rwa [nigDensity_nig hn] at key
  · rintro d ⟨e, n, rfl, h1, h2, h3, h4⟩
    have := nigPdf_isDensity e.mu n e.alpha e.beta h2 h3 h4
    rw [nigDensity_nig h1]
    convert this using 2
    simp [NormalInverseGamma.jointPdf, nigPdf, NormalInverseGamma.inverse_gamma]
  · rintro d x ⟨e, n, rfl, h1, h2, h3, h4⟩ -
    obtain ⟨post, nu', g1, g2, g3, g4, g5, g6⟩ :=
      C14_normal_posterior_nig e n h1 h2 h3 h4 [x] (by simp)
    refine ⟨.nig post, by simpa using g2, ⟨post, nu', rfl, g1, g3, g4, g5⟩, ?_⟩
    rw [likelihood_single] at g6
    rw [nigDensity_nig h1, nigDensity_nig g1]
    exact g6
  · rintro d x ⟨e, n, rfl, h1, h2, h3, h4⟩ -
    obtain ⟨t, g1, g2⟩ := C32_normal_predictive_nig e n h1 h2 h3 h4 x
    refine ⟨t.dist.pdf x, by rw [g1]; rfl, ?_⟩
    rw [nigDensity_nig h1]
    exact g2

/-- C85. Normal data, mean and precision unknown. -/
theorem C85_normal_ng {M : Type} (prior : NormalGamma ℝ) (hlam : 0 < prior.lam)
    (ha : 0 < prior.alpha) (hb : 0 < prior.beta) (xs : List ℝ) :
    ∃ ev, prequentialM (fun d x => normal x (x ^ 2) 1 d)
        (fun d x => (normal_predictive d).map fun t => t.dist.pdf x)
        (.ng prior : NormalPrior ℝ M) xs = .ok ev ∧
      IsEvidence volume (univ ×ˢ Ioi 0)
        (fun θ : ℝ × ℝ => prior.jointPdf θ.1 θ.2)
        (likelihood (fun (θ : ℝ × ℝ) x => (Normal.dist { mu := θ.1, sigma := √(1 / θ.2) }).pdf x)
          xs) ev := by
  have key := prequentialM_evidence (S := univ ×ˢ Ioi (0 : ℝ))
    (MeasurableSet.univ.prod measurableSet_Ioi) (μ := (volume : Measure (ℝ × ℝ))) (dens := ngDensity (M := M))
    (f := fun (θ : ℝ × ℝ) x => (Normal.dist { mu := θ.1, sigma := √(1 / θ.2) }).pdf x)
    (update := fun d x => normal x (x ^ 2) 1 d)
    (pred := fun d x => (normal_predictive d).map fun t => t.dist.pdf x)
    (valid := fun d => ∃ e : NormalGamma ℝ, d = .ng e ∧ 0 < e.lam ∧ 0 < e.alpha ∧ 0 < e.beta)
    (ok := fun _ => True) ?_ ?_ ?_ xs (.ng prior) (by simp) ⟨prior, rfl, hlam, ha, hb⟩
  · exact key
  · rintro d ⟨e, rfl, h2, h3, h4⟩
    have := ngPdf_isDensity e.mu e.lam e.alpha e.beta h2 h3 h4
    simp only [ngDensity]
    convert this using 2
    simp [NormalGamma.jointPdf, ngPdf, NormalGamma.gamma]
  · rintro d x ⟨e, rfl, h2, h3, h4⟩ -
    obtain ⟨post, g2, g3, g4, g5, g6⟩ :=
      C14_normal_posterior_ng (M := M) e h2 h3 h4 [x] (by simp)
    refine ⟨.ng post, by simpa using g2, ⟨post, rfl, g3, g4, g5⟩, ?_⟩
    rw [likelihood_single] at g6
    exact g6
  · rintro d x ⟨e, rfl, h2, h3, h4⟩ -
    obtain ⟨t, g1, g2⟩ := C32_normal_predictive_ng (M := M) e h2 h3 h4 x
    exact ⟨t.dist.pdf x, by rw [g1]; rfl, g2⟩

/-- evidence of one observation is its predictive -/
theorem evidence_single {Θ D X : Type*} [MeasurableSpace Θ] {μ : Measure Θ} {S : Set Θ}
    {prior : Θ → ℝ} {f : Θ → X → ℝ} {update : D → X → D} {pred : D → X → ℝ} {d : D} {x : X} :
    IsEvidence μ S prior (likelihood f [x]) (prequential update pred d [x]) ↔
      IsPredictive μ S (fun θ => f θ x) prior (pred d x) := by
  simp only [IsEvidence, IsPredictive, prequential, mul_one, likelihood_single, mul_comm]

/-- Full statement of C85 for geometric data. -/
def C85_geometric_statement (prior : Beta ℝ) (one_start : Bool) (xs : List ℕ) : Prop :=
  IsEvidence volume (Ioo 0 1) prior.dist.pdf
    (likelihood (fun p (x : ℕ) => (Geometric.dist { p := p, one_start := one_start }).pmf x) xs)
    (prequential (fun d (x : ℕ) => geometric_beta (x : ℝ) 1 d one_start)
      (fun d (x : ℕ) => (geometric_beta_predictive d one_start).pmf x) prior xs)

/-- C85 (disagreement). Geometric: wrong from the first observation on. -/
theorem C85_geometric_beta_false (prior : Beta ℝ) (ha : 0 < prior.alpha) (hb : 0 < prior.beta)
    (one_start : Bool) (k : ℕ) (hk : one_start = true → 1 ≤ k) :
    ¬ C85_geometric_statement prior one_start [k] := fun h =>
  C26_geometric_beta_predictive_false prior ha hb one_start k hk (evidence_single.1 h)

/-- Full statement of C85 for exponential data. -/
def C85_exponential_statement (prior : Gamma ℝ) (xs : List ℝ) : Prop :=
  IsEvidence volume (Ioi 0) prior.dist.pdf
    (likelihood (fun r x => (Exponential.dist { lam := 1 / r }).pdf x) xs)
    (prequential (fun d x => exponential_gamma x 1 d)
      (fun d x => (exponential_gamma_predictive d).dist.pdf x) prior xs)

/-- C85 (disagreement). Exponential: right for all streams exactly when the prior's two
parameters are equal. -/
theorem C85_exponential_gamma_iff (prior : Gamma ℝ) (ha : 0 < prior.alpha) (hb : 0 < prior.beta) :
    (∀ xs : List ℝ, (∀ x ∈ xs, 0 < x) → C85_exponential_statement prior xs) ↔
      prior.alpha = prior.beta := by
  constructor
  · intro h
    -- one observation: equality of two Lomax densities at every point, so also in the limit at 0
    have h1 : ∀ x : ℝ, 0 < x → (Lomax.dist ⟨prior.beta, prior.alpha⟩).pdf x =
        (Lomax.dist ⟨prior.alpha, prior.beta⟩).pdf x := fun x hx =>
      (evidence_single.1 (h [x] (by simpa using hx))).2.trans
        (exponential_predictive_true prior ha hb x hx.le).2.symm
    have lim : ∀ a b : ℝ, 0 < a → 0 < b →
        Filter.Tendsto (fun x => a / b * ((b + x) / b) ^ (-(a + 1))) (nhdsWithin 0 (Ioi 0))
          (nhds (a / b)) := by
      intro a b ha hb
      have hc : ContinuousAt (fun x : ℝ => a / b * ((b + x) / b) ^ (-(a + 1))) 0 := by
        refine continuousAt_const.mul (ContinuousAt.rpow_const (by fun_prop) (Or.inl ?_))
        simp [hb.ne']
      have := hc.tendsto.mono_left (nhdsWithin_le_nhds (s := Ioi 0))
      simpa [hb.ne'] using this
    have e : (prior.beta / prior.alpha : ℝ) = prior.alpha / prior.beta := by
      refine tendsto_nhds_unique (lim prior.beta prior.alpha hb ha) ?_
      refine (lim prior.alpha prior.beta ha hb).congr' ?_
      filter_upwards [self_mem_nhdsWithin] with x hx
      have hx : 0 < x := hx
      have := h1 x hx
      rw [Lomax.pdf_eq ⟨_, _⟩ ha hx.le, Lomax.pdf_eq ⟨_, _⟩ hb hx.le] at this
      exact this.symm
    rw [div_eq_div_iff ha.ne' hb.ne'] at e
    nlinarith [e]
  · intro h xs hx
    have key := prequential_evidence measurableSet_Ioi (μ := volume)
      (dens := fun d : Gamma ℝ => (Gamma.dist ⟨d.beta, d.alpha⟩).pdf)
      (f := fun r x => (Exponential.dist { lam := 1 / r }).pdf x)
      (update := fun d x => exponential_gamma x 1 d)
      (pred := fun d x => (exponential_gamma_predictive d).dist.pdf x)
      (valid := Gamma.Valid) (ok := fun x : ℝ => 0 < x)
      (fun d hd => Gamma.isDensity ⟨d.beta, d.alpha⟩ hd.2 hd.1) (fun d x hd hx => ?_)
      (fun d x hd hx => ?_)
      (fun d x hd hx => exponential_predictive_true ⟨d.beta, d.alpha⟩ hd.2 hd.1 x (le_of_lt hx))
      xs prior hx ⟨ha, hb⟩
    · have hp : (⟨prior.beta, prior.alpha⟩ : Gamma ℝ) = prior := by
        ext <;> simp [h]
      simp only [hp] at key
      exact key
    · have h1 := hd.1; have h2 := hd.2
      constructor <;> simp only [exponential_gamma, getExponentialGammaPosteriorParams,
        getPoissonGammaPosteriorParams] <;> positivity
    · have := C06_exponential_gamma_swapped_partial ⟨d.beta, d.alpha⟩ hd.2 hd.1 [x]
        (by simpa using hx)
      rw [likelihood_single] at this
      simpa [exponential_gamma, getExponentialGammaPosteriorParams,
        getPoissonGammaPosteriorParams] using this

section matrix

variable {p : Type} [Fintype p] [DecidableEq p]

/-- C85. Linear regression, batches of any sizes. -/
theorem C85_linear_regression (prior : NormalInverseGamma ℝ (p → ℝ) (Matrix p p ℝ))
    (D : Matrix p p ℝ) (h : prior.delta_inverse = some D) (hD : D.PosDef) (ha : 0 < prior.alpha)
    (hb : 0 < prior.beta) (batches : List ((n : ℕ) × Matrix (Fin n) p ℝ × (Fin n → ℝ))) :
    ∃ ev, prequentialM (fun d (b : (n : ℕ) × Matrix (Fin n) p ℝ × (Fin n → ℝ)) =>
          linear_regression b.2.1 b.2.2 d)
        (fun d b => (linear_regression_predictive d b.2.1).map fun t => t.pdf b.2.2)
        prior batches = .ok ev ∧
      IsEvidence volume ((univ : Set (p → ℝ)) ×ˢ Ioi (0 : ℝ))
        (fun θ => prior.jointPdfNd D θ.1 θ.2)
        (likelihood (fun θ (b : (n : ℕ) × Matrix (Fin n) p ℝ × (Fin n → ℝ)) =>
          ∏ i, (Normal.dist { mu := (b.2.1 *ᵥ θ.1) i, sigma := √θ.2 }).pdf (b.2.2 i)) batches)
        ev := by
  have key := prequentialM_evidence (S := (univ : Set (p → ℝ)) ×ˢ Ioi (0 : ℝ))
    (MeasurableSet.univ.prod measurableSet_Ioi) (μ := (volume : Measure ((p → ℝ) × ℝ)))
    (dens := fun (d : NormalInverseGamma ℝ (p → ℝ) (Matrix p p ℝ)) θ =>
      d.jointPdfNd (d.delta_inverse.getD 0) θ.1 θ.2)
    (f := fun θ (b : (n : ℕ) × Matrix (Fin n) p ℝ × (Fin n → ℝ)) =>
      ∏ i, (Normal.dist { mu := (b.2.1 *ᵥ θ.1) i, sigma := √θ.2 }).pdf (b.2.2 i))
    (update := fun d b => linear_regression b.2.1 b.2.2 d)
    (pred := fun d b => (linear_regression_predictive d b.2.1).map fun t => t.pdf b.2.2)
    (valid := fun d => ∃ D, d.delta_inverse = some D ∧ D.PosDef ∧ 0 < d.alpha ∧ 0 < d.beta)
    (ok := fun _ => True) ?_ ?_ ?_ batches prior (by simp) ⟨D, h, hD, ha, hb⟩
  · simpa [h] using key
  · rintro d ⟨D, h1, h2, h3, h4⟩
    have := nigNd_isDensity h3 h4 h2 d.mu
    convert this using 2
    simp [h1, NormalInverseGamma.jointPdfNd, NormalInverseGamma.inverse_gamma]
  · rintro d ⟨n, X, y⟩ ⟨D, h1, h2, h3, h4⟩ -
    obtain ⟨post, D', g1, g2, g3, g4, g5, g6⟩ :=
      C20_linear_regression_posterior X y d D h1 h2 h3 h4
    refine ⟨post, g1, ⟨D', g2, g3, g4, g5⟩, ?_⟩
    simpa [h1, g2] using g6
  · rintro d ⟨n, X, y⟩ ⟨D, h1, h2, h3, h4⟩ -
    obtain ⟨t, g1, g2⟩ := C33_linear_regression_predictive X d D h1 h2 h3 h4
    refine ⟨t.pdf y, by simp only [g1]; rfl, ?_⟩
    simpa [h1] using g2 y

/-- C85. Multivariate normal, known covariance. -/
theorem C85_multivariate_normal_known_covariance (cov : Matrix p p ℝ) (hc : cov.PosDef)
    (prior : MultivariateNormal (p → ℝ) (Matrix p p ℝ)) (hS : prior.cov.PosDef)
    (xs : List (p → ℝ)) :
    ∃ ev, prequentialM (fun d x => multivariate_normal_known_covariance 1 x cov d)
        (fun d x => .ok ((multivariate_normal_known_covariance_predictive d cov).pdf x))
        prior xs = .ok ev ∧
      IsEvidence volume univ prior.pdf
        (likelihood (fun mean x => (MultivariateNormal.mk mean cov).pdf x) xs) ev := by
  refine prequentialM_evidence MeasurableSet.univ
    (dens := fun d : MultivariateNormal (p → ℝ) (Matrix p p ℝ) => d.pdf)
    (valid := fun d => d.cov.PosDef) (ok := fun _ => True)
    (fun d hd => mvn_isDensity hd d.mu) (fun d x hd _ => ?_)
    (fun d x hd _ => ⟨_, rfl,
      C34_multivariate_normal_known_covariance_predictive d hd cov hc x⟩) xs prior (by simp) hS
  obtain ⟨post, h1, h2, h3⟩ :=
    C21_multivariate_normal_known_covariance_posterior [x] x (by simp) cov hc d hd
  rw [likelihood_single] at h3
  exact ⟨post, by simpa using h1, h2, h3⟩

/-- C85. Multivariate normal, known precision. -/
theorem C85_multivariate_normal_known_precision (precision : Matrix p p ℝ)
    (hp : precision.PosDef) (prior : MultivariateNormal (p → ℝ) (Matrix p p ℝ))
    (hS : prior.cov.PosDef) (xs : List (p → ℝ)) :
    ∃ ev, prequentialM (fun d x => multivariate_normal_known_precision 1 x precision d)
        (fun d x => (multivariate_normal_known_precision_predictive d precision).map
          fun t => t.pdf x) prior xs = .ok ev ∧
      IsEvidence volume univ prior.pdf
        (likelihood (fun mean x => (MultivariateNormal.mk mean precision⁻¹).pdf x) xs) ev := by
  refine prequentialM_evidence MeasurableSet.univ
    (dens := fun d : MultivariateNormal (p → ℝ) (Matrix p p ℝ) => d.pdf)
    (valid := fun d => d.cov.PosDef) (ok := fun _ => True)
    (fun d hd => mvn_isDensity hd d.mu) (fun d x hd _ => ?_) (fun d x hd _ => ?_)
    xs prior (by simp) hS
  · obtain ⟨post, h1, h2, h3⟩ :=
      C21_multivariate_normal_known_precision_posterior [x] x (by simp) precision hp d hd
    rw [likelihood_single] at h3
    exact ⟨post, by simpa using h1, h2, h3⟩
  · obtain ⟨t, g1, g2⟩ := C34_multivariate_normal_known_precision_predictive d hd precision hp
    exact ⟨t.pdf x, by rw [g1]; rfl, g2 x⟩

/-- C85. Multivariate normal, mean and covariance unknown, one row at a time. -/
theorem C85_multivariate_normal {n : ℕ}
    (prior : NormalInverseWishart ℝ (Fin n → ℝ) (Matrix (Fin n) (Fin n) ℝ))
    (hk : 0 < prior.kappa) (hnu : (n : ℝ) - 1 < prior.nu) (hpsi : prior.psi.PosDef)
    (xs : List (Fin n → ℝ)) :
    ∃ ev, prequentialM
        (fun d x => multivariate_normal (Matrix.of fun _ : Fin 1 => x) d)
        (fun d x => .ok ((multivariate_normal_predictive d).pdf x)) prior xs = .ok ev ∧
      IsEvidence volume {θ : (Fin n → ℝ) × (UpperIdx n → ℝ) | (symOf θ.2).PosDef}
        (fun θ => prior.jointPdf θ.1 (symOf θ.2))
        (likelihood (fun (θ : (Fin n → ℝ) × (UpperIdx n → ℝ)) x =>
          (MultivariateNormal.mk θ.1 (symOf θ.2)).pdf x) xs) ev := by
  refine prequentialM_evidence (measurableSet_posDef.preimage measurable_snd)
    (dens := fun (d : NormalInverseWishart ℝ (Fin n → ℝ) (Matrix (Fin n) (Fin n) ℝ)) θ =>
      d.jointPdf θ.1 (symOf θ.2))
    (valid := fun d => 0 < d.kappa ∧ (n : ℝ) - 1 < d.nu ∧ d.psi.PosDef) (ok := fun _ => True)
    (fun d hd => niw_isDensity hd.1 hd.2.1 hd.2.2 d.mu) (fun d x hd _ => ?_)
    (fun d x hd _ => ⟨_, rfl, C35_multivariate_normal_predictive d hd.1 hd.2.1 hd.2.2 x⟩)
    xs prior (by simp) ⟨hk, hnu, hpsi⟩
  obtain ⟨post, h1, h2, h3, h4, h5⟩ :=
    C23_multivariate_normal_posterior (Matrix.of fun _ : Fin 1 => x) d hd.1 hd.2.1 hd.2.2
  refine ⟨post, h1, ⟨h2, h3, h4⟩, ?_⟩
  simp only [Finset.univ_unique, Finset.prod_singleton] at h5
  exact h5

end matrix

section dirichlet

variable {k : ℕ}

/-- C85. Categorical observations. -/
theorem C85_categorical_dirichlet (prior : Dirichlet (Fin (k + 1) → ℝ))
    (hp : ∀ i, 0 < prior.alpha i) (xs : List (Fin (k + 1))) :
    ∃ ev, prequentialM (fun d (x : Fin (k + 1)) => categorical_dirichlet (Pi.single x (1 : ℝ)) d)
        (fun d x => .ok ((categorical_dirichlet_predictive (α := ℝ) d).pmf (Pi.single x 1)))
        prior xs = .ok ev ∧
      IsEvidence volume (simplex k) (fun p => prior.pdf (fullVector p))
        (likelihood (fun p x => fullVector p x) xs) ev := by
  have hc : ∀ x : Fin (k + 1), counts [x] = Pi.single x (1 : ℝ) := by
    intro x; funext i
    by_cases h : i = x
    · subst h; simp [counts]
    · simp [counts, Ne.symm h]
  have hm : ∀ (x : Fin (k + 1)) (q : Fin (k + 1) → ℝ),
      (Multinomial.mk (1 : ℝ) q).pmf (Pi.single x 1) = q x := by
    intro x q
    have hsum : (∑ i, ((Pi.single x 1 : Fin (k + 1) → ℕ) i : ℝ)) = 1 := by
      rw [← Nat.cast_sum]; simp
    have h1 : ∏ i, Real.Gamma (((Pi.single x 1 : Fin (k + 1) → ℕ) i : ℝ) + 1) = 1 := by
      apply Finset.prod_eq_one
      intro i _
      by_cases h : i = x
      · subst h; simp [one_add_one_eq_two]
      · simp [Pi.single_eq_of_ne h]
    have h2 : ∏ i, q i ^ ((Pi.single x 1 : Fin (k + 1) → ℕ) i) = q x := by
      rw [Finset.prod_eq_single x]
      · simp
      · intro i _ h; simp [Pi.single_eq_of_ne h]
      · simp
    rw [Multinomial.pmf, multinomialPmf]
    simp only
    rw [if_pos hsum, h1, h2, one_add_one_eq_two, Real.Gamma_two]
    simp
  refine prequentialM_evidence (S := simplex k) (measurableSet_simplexOf k 1)
    (dens := fun (d : Dirichlet (Fin (k + 1) → ℝ)) p => d.pdf (fullVector p))
    (valid := fun d => ∀ i, 0 < d.alpha i) (ok := fun _ => True)
    (fun d hd => dirichlet_isDensity d.alpha hd) (fun d x hd _ => ?_) (fun d x hd _ => ?_)
    xs prior (by simp) hp
  · obtain ⟨post, h1, h2, h3⟩ := C16_categorical_dirichlet_posterior d hd [x]
    rw [hc] at h1
    refine ⟨post, h1, h2, ?_⟩
    simpa [likelihood] using h3
  · refine ⟨_, rfl, ?_⟩
    have := C36_categorical_dirichlet_predictive d hd 1 (Pi.single x 1)
    simp only [Nat.cast_one, hm] at this
    simpa [categorical_dirichlet_predictive] using this

/-- C85. Vectors of multinomial counts, of possibly different totals. -/
theorem C85_multinomial_dirichlet (prior : Dirichlet (Fin (k + 1) → ℝ))
    (hp : ∀ i, 0 < prior.alpha i) (data : List (Fin (k + 1) → ℕ)) :
    ∃ ev, prequentialM (fun d (x : Fin (k + 1) → ℕ) =>
          multinomial_dirichlet (fun i => (x i : ℝ)) d)
        (fun d x => .ok ((multinomial_dirichlet_predictive d ((∑ i, x i : ℕ) : ℝ)).pmf x))
        prior data = .ok ev ∧
      IsEvidence volume (simplex k) (fun p => prior.pdf (fullVector p))
        (likelihood (fun p (x : Fin (k + 1) → ℕ) =>
          (Multinomial.mk ((∑ i, x i : ℕ) : ℝ) (fullVector p)).pmf x) data) ev := by
  refine prequentialM_evidence (S := simplex k) (measurableSet_simplexOf k 1)
    (dens := fun (d : Dirichlet (Fin (k + 1) → ℝ)) p => d.pdf (fullVector p))
    (valid := fun d => ∀ i, 0 < d.alpha i) (ok := fun _ => True)
    (fun d hd => dirichlet_isDensity d.alpha hd) (fun d x hd _ => ?_)
    (fun d x hd _ => ⟨_, rfl, C36_multinomial_dirichlet_predictive d hd _ x⟩)
    data prior (by simp) hp
  obtain ⟨post, h1, h2, h3⟩ := C16_multinomial_dirichlet_posterior d hd [x]
  have hc : columnSums [x] = fun i => (x i : ℝ) := by funext i; simp [columnSums]
  rw [hc] at h1
  refine ⟨post, h1, h2, ?_⟩
  simpa [likelihood] using h3

end dirichlet

/-! concrete cases -/

example := C85_geometric_beta_false ⟨1, 1⟩ (by norm_num) (by norm_num) false 2 (by simp)
example : ¬ ∀ xs : List ℝ, (∀ x ∈ xs, 0 < x) → C85_exponential_statement ⟨1, 2⟩ xs := by
  rw [C85_exponential_gamma_iff ⟨1, 2⟩ (by norm_num) (by norm_num)]; norm_num
example := (C85_exponential_gamma_iff ⟨1, 1⟩ (by norm_num) (by norm_num)).2 rfl [1, 3] (by simp)

example := C85_binomial_beta ⟨2, 3⟩ (by norm_num) (by norm_num) [(10, 4), (3, 0)] (by simp)
example := C85_bernoulli_beta ⟨1, 1⟩ (by norm_num) (by norm_num) [true, false, true]
example := C85_negative_binomial_beta ⟨1, 1⟩ (by norm_num) (by norm_num) 3 (by norm_num) [4, 0]
example := C85_poisson_gamma ⟨1, 2⟩ (by norm_num) (by norm_num) [3, 0, 4]
example := C85_gamma_known_shape ⟨1, 2⟩ (by norm_num) (by norm_num) 3 (by norm_num) [1, 4] (by simp)
example := C85_normal_known_variance ⟨0, 10⟩ (by norm_num) 2 (by norm_num) [1, -3, 4]
example := C85_normal_known_precision ⟨0, 10⟩ (by norm_num) 2 (by norm_num) [1, -3, 4]
example := C85_normal_known_mean (.inverseGamma ⟨1, 2⟩) ⟨by norm_num, by norm_num⟩ 5 [1, -3, 4]
example := C85_normal_nig (M := Unit) ⟨0, 2, 3, none, some 1⟩ 1 rfl (by norm_num)
  (by norm_num) (by norm_num) [1, -3, 4]
example := C85_normal_ng (M := Unit) ⟨0, 1, 2, 3⟩ (by norm_num) (by norm_num) (by norm_num)
  [1, -3, 4]
example := C85_linear_regression ⟨![0, 1], 3, 2, some 1, none⟩ 1 rfl PosDef.one (by norm_num)
  (by norm_num) [⟨2, !![1, 2; 3, 4], ![1, -1]⟩, ⟨1, !![5, 6], ![2]⟩]
example := C85_multivariate_normal_known_covariance !![2, 1; 1, 2] exampleCov_posDef
  ⟨![0, 1], 1⟩ PosDef.one [![1, 3], ![3, 5]]
example := C85_multivariate_normal_known_precision !![2, 1; 1, 2] exampleCov_posDef
  ⟨![0, 1], 1⟩ PosDef.one [![1, 3], ![3, 5]]
example := C85_multivariate_normal (n := 2) ⟨![1, 1], 2, 4, 1⟩ (by norm_num) (by norm_num)
  PosDef.one [![1, 3], ![3, 5]]
example := C85_categorical_dirichlet (k := 2) ⟨![1, 2, 3]⟩ (by intro i; fin_cases i <;> simp)
  [0, 2, 2, 1]
example := C85_multinomial_dirichlet (k := 2) ⟨![1, 2, 3]⟩ (by intro i; fin_cases i <;> simp)
  [![2, 0, 1], ![1, 1, 1]]

end Conj
