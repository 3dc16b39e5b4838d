import Verif.Lemmas.DecisionPredict

/-!
# C125: decisions about a new observation, taken by the predictive distribution, are best decisions
-/

open MeasureTheory Set Real Matrix

namespace Conj

open Scipy Spec

variable {Ω : Type} [MeasurableSpace Ω] {P : Measure Ω} {n k : ℕ} {M : Type}

/-- C125. Normal observations, `NormalInverseGamma` prior: a new observation. -/
theorem C125_normal_nig (prior : NormalInverseGamma ℝ ℝ M) (nu : ℝ) (hn : prior.nu = some nu) (hnu : 0 < nu)
    (ha : 0 < prior.alpha) (hb : 0 < prior.beta) {θ : Ω → ℝ × ℝ} {X : Ω → Fin (n + 1) → ℝ} {Y : Ω → ℝ}
    (h : DrawThenPredict P θ X Y (nigLaw prior) (fun _ t => contLaw (Normal.dist ⟨t.1, √t.2⟩))
      fun t => contLaw (Normal.dist ⟨t.1, √t.2⟩)) :
    ∃ pred : (Fin (n + 1) → ℝ) → StudentT ℝ,
      (∀ x, (normal (∑ i, x i) (∑ i, x i ^ 2) ((n + 1 : ℕ) : ℝ) (.nig prior)).bind normal_predictive = .ok (pred x)) ∧
      RightChoices P Y X fun x => contLaw (pred x).dist := by
  obtain ⟨post, h1, h2⟩ := bayes_normal_nig (n := n) prior nu hn hnu ha hb
  have key : ∀ x, ∃ t : StudentT ℝ, normal_predictive (.nig (post x)) = .ok t ∧ ∀ y : ℝ,
      IsPredictive volume (univ ×ˢ Ioi 0) (fun θ : ℝ × ℝ => (Normal.dist ⟨θ.1, √θ.2⟩).pdf y)
        (fun θ : ℝ × ℝ => (post x).jointPdf ((post x).nu.getD 0) θ.1 θ.2) (t.dist.pdf y) := fun x => by
    obtain ⟨p, nu', e1, e2, g1, g2, g3, -⟩ := C14_normal_posterior_nig prior nu hn hnu ha hb (List.ofFn x) (ofFn_ne_nil x)
    rw [List.map_ofFn, List.sum_ofFn, List.sum_ofFn, List.length_ofFn] at e2
    have e3 : post x = p := by
      have := (h1 x).symm.trans e2
      simpa using this
    rw [e3, e1]
    obtain ⟨t, ht, -⟩ := C32_normal_predictive_nig p nu' e1 g1 g2 g3 0
    refine ⟨t, ht, fun y => ?_⟩
    obtain ⟨t', ht', hy⟩ := C32_normal_predictive_nig p nu' e1 g1 g2 g3 y
    have : t' = t := by
      have := ht'.symm.trans ht
      simpa using this
    rw [this] at hy
    exact hy
  choose t ht1 ht2 using key
  refine ⟨t, fun x => ?_, ?_⟩
  · rw [h1 x]
    exact ht1 x
  · have e : ∀ d : Cont, contLaw d = lawOn univ d.pdf := fun d => (lawOn_univ _).symm
    simp only [e (StudentT.dist _)]
    exact choices_cont h2 MeasurableSet.univ h measurable_normalDraw_pdf
      (fun t ht => normal_pdf_nonneg t.1 (sqrt_pos.2 ht.2)) (fun t _ => norm_lawOn _)
      (fun t ht => normal_prob t.1 (sqrt_pos.2 ht.2)) fun x _ y _ => ht2 x y

/-- C125. Normal observations, `NormalGamma` prior: a new observation. -/
theorem C125_normal_ng (prior : NormalGamma ℝ) (hl : 0 < prior.lam) (ha : 0 < prior.alpha) (hb : 0 < prior.beta)
    {θ : Ω → ℝ × ℝ} {X : Ω → Fin (n + 1) → ℝ} {Y : Ω → ℝ}
    (h : DrawThenPredict P θ X Y (ngLaw prior) (fun _ t => contLaw (Normal.dist ⟨t.1, √(1 / t.2)⟩))
      fun t => contLaw (Normal.dist ⟨t.1, √(1 / t.2)⟩)) :
    ∃ pred : (Fin (n + 1) → ℝ) → StudentT ℝ,
      (∀ x, (normal (∑ i, x i) (∑ i, x i ^ 2) ((n + 1 : ℕ) : ℝ) (.ng prior : NormalPrior ℝ M)).bind normal_predictive =
        .ok (pred x)) ∧
      RightChoices P Y X fun x => contLaw (pred x).dist := by
  obtain ⟨post, h1, h2⟩ := bayes_normal_ng (n := n) (M := M) prior hl ha hb
  have key : ∀ x, ∃ t : StudentT ℝ, normal_predictive (.ng (post x) : NormalPrior ℝ M) = .ok t ∧ ∀ y : ℝ,
      IsPredictive volume (univ ×ˢ Ioi 0) (fun θ : ℝ × ℝ => (Normal.dist ⟨θ.1, √(1 / θ.2)⟩).pdf y)
        (fun θ : ℝ × ℝ => (post x).jointPdf θ.1 θ.2) (t.dist.pdf y) := fun x => by
    obtain ⟨p, e2, g1, g2, g3, -⟩ := C14_normal_posterior_ng (M := M) prior hl ha hb (List.ofFn x) (ofFn_ne_nil x)
    rw [List.map_ofFn, List.sum_ofFn, List.sum_ofFn, List.length_ofFn] at e2
    have e3 : post x = p := by
      have := (h1 x).symm.trans e2
      simpa using this
    rw [e3]
    obtain ⟨t, ht, -⟩ := C32_normal_predictive_ng (M := M) p g1 g2 g3 0
    refine ⟨t, ht, fun y => ?_⟩
    obtain ⟨t', ht', hy⟩ := C32_normal_predictive_ng (M := M) p g1 g2 g3 y
    have : t' = t := by
      have := ht'.symm.trans ht
      simpa using this
    rw [this] at hy
    exact hy
  choose t ht1 ht2 using key
  refine ⟨t, fun x => ?_, ?_⟩
  · rw [h1 x]
    exact ht1 x
  · have e : ∀ d : Cont, contLaw d = lawOn univ d.pdf := fun d => (lawOn_univ _).symm
    simp only [e (StudentT.dist _)]
    exact choices_cont h2 MeasurableSet.univ h (h2.meas 0)
      (fun t ht => normal_pdf_nonneg t.1 (sqrt_pos.2 (one_div_pos.2 ht.2))) (fun t _ => norm_lawOn _)
      (fun t ht => normal_prob t.1 (sqrt_pos.2 (one_div_pos.2 ht.2))) fun x _ y _ => ht2 x y

/-- C125. Linear regression with a fixed design: the responses of any number `m` of new rows, together. -/
theorem C125_linear_regression {m : ℕ} (D : Matrix (Fin n) (Fin k) ℝ) (D' : Matrix (Fin m) (Fin k) ℝ)
    (prior : NormalInverseGamma ℝ (Fin k → ℝ) (Matrix (Fin k) (Fin k) ℝ)) (Δ : Matrix (Fin k) (Fin k) ℝ)
    (hp : prior.delta_inverse = some Δ) (hD : Δ.PosDef) (ha : 0 < prior.alpha) (hb : 0 < prior.beta)
    {θ : Ω → (Fin k → ℝ) × ℝ} {X : Ω → Fin n → ℝ} {Y : Ω → Fin m → ℝ}
    (h : DrawThenPredict P θ X Y (nigNdLaw prior) (fun i t => contLaw (Normal.dist ⟨(D *ᵥ t.1) i, √t.2⟩))
      fun t => Measure.pi fun j => contLaw (Normal.dist ⟨(D' *ᵥ t.1) j, √t.2⟩)) :
    ∃ pred : (Fin n → ℝ) → MultivariateStudentT ℝ (Fin m → ℝ) (Matrix (Fin m) (Fin m) ℝ),
      (∀ y, (linear_regression D y prior).bind (fun p => linear_regression_predictive p D') = .ok (pred y)) ∧
      GoodChoices P Y X fun y => lawOn univ (pred y).pdf := by
  obtain ⟨post, h1, h2⟩ := bayes_linear_regression D prior Δ hp hD ha hb
  have key : ∀ x, ∃ t, linear_regression_predictive (post x) D' = .ok t ∧ ∀ y : Fin m → ℝ,
      IsPredictive volume (univ ×ˢ Ioi 0)
        (fun θ : (Fin k → ℝ) × ℝ => ∏ i, (Normal.dist ⟨(D' *ᵥ θ.1) i, √θ.2⟩).pdf (y i))
        (fun θ => (post x).jointPdfNd ((post x).delta_inverse.getD 0) θ.1 θ.2) (t.pdf y) := fun x => by
    obtain ⟨p, Δ', e1, e2, g1, g2, g3, -⟩ := C20_linear_regression_posterior D x prior Δ hp hD ha hb
    have e3 : post x = p := by
      have := (h1 x).symm.trans e1
      simpa using this
    rw [e3, e2]
    obtain ⟨t, ht, hy⟩ := C33_linear_regression_predictive D' p Δ' e2 g1 g2 g3
    exact ⟨t, ht, hy⟩
  choose t ht1 ht2 using key
  refine ⟨t, fun x => ?_, ?_⟩
  · rw [h1 x]
    exact ht1 x
  · exact choices_density h2 (regression_newDensity D') h fun x _ => ht2 x

/-- C125. Multivariate normal observations with known covariance: a new observation. -/
theorem C125_multivariate_normal_known_covariance (cov : Matrix (Fin k) (Fin k) ℝ) (hc : cov.PosDef)
    (prior : MultivariateNormal (Fin k → ℝ) (Matrix (Fin k) (Fin k) ℝ)) (hS : prior.cov.PosDef)
    {θ : Ω → Fin k → ℝ} {X : Ω → Fin n → Fin k → ℝ} {Y : Ω → Fin k → ℝ}
    (h : DrawThenPredict P θ X Y (lawOn univ prior.pdf) (fun _ m => lawOn univ (MultivariateNormal.mk m cov).pdf)
      fun m => lawOn univ (MultivariateNormal.mk m cov).pdf) :
    ∃ post : (Fin n → Fin k → ℝ) → MultivariateNormal (Fin k → ℝ) (Matrix (Fin k) (Fin k) ℝ),
      (∀ x, multivariate_normal_known_covariance (n : ℝ) ((1 / (n : ℝ)) • ∑ i, x i) cov prior = .ok (post x)) ∧
      GoodChoices P Y X fun x => lawOn univ (multivariate_normal_known_covariance_predictive (post x) cov).pdf := by
  obtain ⟨post, h1, h2⟩ := bayes_mvn_known_covariance (n := n) cov hc prior hS
  obtain ⟨post', -, h2'⟩ := bayes_mvn_known_covariance (n := 1) cov hc prior hS
  refine ⟨post, h1, ?_⟩
  have hg : NewDensity univ (volume.restrict univ) (fun (m : Fin k → ℝ) y => (MultivariateNormal.mk m cov).pdf y)
      (fun m => lawOn univ (MultivariateNormal.mk m cov).pdf) :=
    ⟨h2'.meas 0, fun t _ y => (mvnPdf_pos hc _ _).le, fun t _ => rfl, fun t _ => mvn_prob hc t⟩
  refine choices_density h2 hg h fun x _ y =>
    C34_multivariate_normal_known_covariance_predictive _ ?_ cov hc y
  obtain ⟨p, e1, g1, -⟩ := C21_multivariate_normal_known_covariance_posterior (List.ofFn x)
    ((1 / (n : ℝ)) • ∑ i, x i) (by
      rw [List.length_ofFn, List.sum_ofFn, smul_smul]
      rcases Nat.eq_zero_or_pos n with rfl | hn
      · simp
      · rw [mul_one_div, div_self (by positivity), one_smul]) cov hc prior hS
  rw [List.length_ofFn] at e1
  have e3 : post x = p := by
    have := (h1 x).symm.trans e1
    simpa using this
  rw [e3]
  exact g1

/-- C125. Multivariate normal observations with known precision: a new observation. -/
theorem C125_multivariate_normal_known_precision (precision : Matrix (Fin k) (Fin k) ℝ) (hc : precision.PosDef)
    (prior : MultivariateNormal (Fin k → ℝ) (Matrix (Fin k) (Fin k) ℝ)) (hS : prior.cov.PosDef)
    {θ : Ω → Fin k → ℝ} {X : Ω → Fin n → Fin k → ℝ} {Y : Ω → Fin k → ℝ}
    (h : DrawThenPredict P θ X Y (lawOn univ prior.pdf)
      (fun _ m => lawOn univ (MultivariateNormal.mk m precision⁻¹).pdf)
      fun m => lawOn univ (MultivariateNormal.mk m precision⁻¹).pdf) :
    ∃ pred : (Fin n → Fin k → ℝ) → MultivariateNormal (Fin k → ℝ) (Matrix (Fin k) (Fin k) ℝ),
      (∀ x, (multivariate_normal_known_precision (n : ℝ) ((1 / (n : ℝ)) • ∑ i, x i) precision prior).bind
        (fun d => multivariate_normal_known_precision_predictive d precision) = .ok (pred x)) ∧
      GoodChoices P Y X fun x => lawOn univ (pred x).pdf := by
  obtain ⟨post, h1, h2⟩ := C125_multivariate_normal_known_covariance precision⁻¹ hc.inv prior hS h
  refine ⟨fun x => multivariate_normal_known_covariance_predictive (post x) precision⁻¹, fun x => ?_, h2⟩
  have e : multivariate_normal_known_precision (n : ℝ) ((1 / (n : ℝ)) • ∑ i, x i) precision prior = .ok (post x) := by
    have hx : (n : ℝ) • ((1 / (n : ℝ)) • ∑ i, x i) = (List.ofFn x).sum := by
      rw [List.sum_ofFn, smul_smul]
      rcases Nat.eq_zero_or_pos n with rfl | hn
      · simp
      · rw [mul_one_div, div_self (by positivity), one_smul]
    rw [← h1 x, mvn_known_cov_eq n _ _ hx hc.inv prior hS, mvn_known_prec_eq n _ _ hx hc prior hS,
      nonsing_inv_nonsing_inv _ (posDef_unit hc)]
  rw [e]
  simp [Except.bind, multivariate_normal_known_precision_predictive, linalgInv_posDef hc, bind, pure, Except.pure,
    multivariate_normal_known_covariance_predictive]

/-- C125. Multivariate normal observations, mean and covariance unknown: a new observation. -/
theorem C125_multivariate_normal (prior : NormalInverseWishart ℝ (Fin k → ℝ) (Matrix (Fin k) (Fin k) ℝ))
    (hk : 0 < prior.kappa) (hnu : (k : ℝ) - 1 < prior.nu) (hpsi : prior.psi.PosDef)
    {θ : Ω → (Fin k → ℝ) × (UpperIdx k → ℝ)} {X : Ω → Fin (n + 1) → Fin k → ℝ} {Y : Ω → Fin k → ℝ}
    (h : DrawThenPredict P θ X Y (niwLaw prior) (fun _ t => lawOn univ (MultivariateNormal.mk t.1 (symOf t.2)).pdf)
      fun t => lawOn univ (MultivariateNormal.mk t.1 (symOf t.2)).pdf) :
    ∃ post : (Fin (n + 1) → Fin k → ℝ) → NormalInverseWishart ℝ (Fin k → ℝ) (Matrix (Fin k) (Fin k) ℝ),
      (∀ x, multivariate_normal (Matrix.of x) prior = .ok (post x)) ∧
      GoodChoices P Y X fun x => lawOn univ (multivariate_normal_predictive (post x)).pdf := by
  obtain ⟨post, h1, h2⟩ := bayes_multivariate_normal (n := n) prior hk hnu hpsi
  refine ⟨post, h1, ?_⟩
  have hg : NewDensity {t : (Fin k → ℝ) × (UpperIdx k → ℝ) | (symOf t.2).PosDef} (volume.restrict univ)
      (fun t y => (MultivariateNormal.mk t.1 (symOf t.2)).pdf y)
      (fun t => lawOn univ (MultivariateNormal.mk t.1 (symOf t.2)).pdf) :=
    ⟨h2.meas 0, fun t ht y => (mvnPdf_pos ht _ _).le, fun t _ => rfl, fun t ht => mvn_prob ht t.1⟩
  refine choices_density h2 hg h fun x _ y => ?_
  obtain ⟨p, e1, g1, g2, g3, -⟩ := C23_multivariate_normal_posterior (Matrix.of x) prior hk hnu hpsi
  have e3 : post x = p := by
    have := (h1 x).symm.trans e1
    simpa using this
  rw [e3]
  exact C35_multivariate_normal_predictive p g1 g2 g3 y

/-- C125. Category observations: the counts of `N` new ones. -/
theorem C125_categorical_dirichlet (N : ℕ) (prior : Dirichlet (Fin (k + 1) → ℝ)) (hp : ∀ i, 0 < prior.alpha i)
    {θ : Ω → Fin k → ℝ} {X : Ω → Fin n → Fin (k + 1)} {Y : Ω → Fin (k + 1) → ℕ}
    (h : DrawThenPredict P θ X Y (dirLaw prior) (fun _ p => pmfLaw (fullVector p))
      fun p => pmfLaw (Multinomial.mk (N : ℝ) (fullVector p)).pmf) :
    ∃ post : (Fin n → Fin (k + 1)) → Dirichlet (Fin (k + 1) → ℝ),
      (∀ x, categorical_dirichlet (counts (List.ofFn x)) prior = .ok (post x)) ∧
      GoodChoices P Y X fun x => pmfLaw (categorical_dirichlet_predictive (post x) (N : ℝ)).pmf := by
  obtain ⟨post, h1, h2⟩ := bayes_categorical (n := n) prior hp
  obtain ⟨post', -, h2'⟩ := bayes_multinomial (n := 1) N prior hp
  refine ⟨post, h1, ?_⟩
  have hg : NewDensity (simplex k) Measure.count (fun p x => (Multinomial.mk (N : ℝ) (fullVector p)).pmf x)
      (fun p => pmfLaw (Multinomial.mk (N : ℝ) (fullVector p)).pmf) :=
    ⟨h2'.meas 0, fun p hps => multinomialPmf_nonneg N fun i => (fullVector_pos hps i).le, fun _ _ => rfl,
      h2'.model_prob 0⟩
  refine choices_density h2 hg h fun x _ y => C36_categorical_dirichlet_predictive _ ?_ N y
  obtain ⟨p, e1, g1, -⟩ := C16_categorical_dirichlet_posterior prior hp (List.ofFn x)
  have e3 : post x = p := by
    have := (h1 x).symm.trans e1
    simpa using this
  rw [e3]
  exact g1

/-- C125. Multinomial observations of `N` trials each: the counts of `N'` new trials. -/
theorem C125_multinomial_dirichlet (N N' : ℕ) (prior : Dirichlet (Fin (k + 1) → ℝ)) (hp : ∀ i, 0 < prior.alpha i)
    {θ : Ω → Fin k → ℝ} {X : Ω → Fin n → Fin (k + 1) → ℕ} {Y : Ω → Fin (k + 1) → ℕ}
    (h : DrawThenPredict P θ X Y (dirLaw prior) (fun _ p => pmfLaw (Multinomial.mk (N : ℝ) (fullVector p)).pmf)
      fun p => pmfLaw (Multinomial.mk (N' : ℝ) (fullVector p)).pmf) :
    ∃ post : (Fin n → Fin (k + 1) → ℕ) → Dirichlet (Fin (k + 1) → ℝ),
      (∀ x, multinomial_dirichlet (columnSums (List.ofFn x)) prior = .ok (post x)) ∧
      GoodChoices P Y X fun x => pmfLaw (multinomial_dirichlet_predictive (post x) (N' : ℝ)).pmf := by
  obtain ⟨post, h1, h2⟩ := bayes_multinomial (n := n) N prior hp
  obtain ⟨post', -, h2'⟩ := bayes_multinomial (n := 1) N' prior hp
  refine ⟨post, h1, ?_⟩
  have hg : NewDensity (simplex k) Measure.count (fun p x => (Multinomial.mk (N' : ℝ) (fullVector p)).pmf x)
      (fun p => pmfLaw (Multinomial.mk (N' : ℝ) (fullVector p)).pmf) :=
    ⟨h2'.meas 0, fun p hps => multinomialPmf_nonneg N' fun i => (fullVector_pos hps i).le, fun _ _ => rfl,
      h2'.model_prob 0⟩
  refine choices_density h2 hg h fun x _ y => C36_multinomial_dirichlet_predictive _ ?_ N' y
  obtain ⟨p, e1, g1, -⟩ := C16_multinomial_dirichlet_posterior prior hp (List.ofFn x)
  have e3 : post x = p := by
    have := (h1 x).symm.trans e1
    simpa using this
  rw [e3]
  exact g1

end Conj
