import Verif.Props.DecisionPredictGuess
import Verif.Props.RegressionWidth

/-!
# C125: best guesses of new responses and of the coordinates of a new vector

The location of the predictive distribution, coordinate by coordinate: `docs/examples/linear-regression.md` plots it as
the fitted line at new points.
-/

open MeasureTheory Set Real Matrix

namespace Conj

open Scipy Spec

variable {Ω : Type} [MeasurableSpace Ω] {P : Measure Ω} {n k : ℕ}

/-- losses that depend on one coordinate of what is predicted -/
theorem Spec.LossesKept.coord {A : Type} [MeasurableSpace A] {m : ℕ} {Y : Ω → Fin m → ℝ} {X : Ω → Fin n → A}
    {post : (Fin n → A) → Measure (Fin m → ℝ)} (h : LossesKept P Y X post) (j : Fin m) :
    LossesKept P (fun ω => Y ω j) X fun x => (post x).map fun y => y j := by
  intro F hF
  have h1 := h (fun z => F (z.1 j, z.2)) (hF.comp (((measurable_pi_apply j).comp measurable_fst).prodMk measurable_snd))
  rw [h1]
  refine lintegral_congr fun ω => ?_
  beta_reduce
  have h2 : Measurable fun t : ℝ => F (t, X ω) := hF.comp (measurable_id.prodMk measurable_const)
  rw [lintegral_map h2 (measurable_pi_apply j)]

theorem densLaw_lawOn {X : Type} [MeasureSpace X] (f : X → ℝ) : densLaw f = lawOn univ f := (lawOn_univ f).symm

/-- C125. After a linear regression: the fitted value at every new row of covariates is the best guess of the response there. -/
theorem C125_linear_regression_guess {m : ℕ} (D : Matrix (Fin n) (Fin k) ℝ) (D' : Matrix (Fin m) (Fin k) ℝ)
    (prior : NormalInverseGamma ℝ (Fin k → ℝ) (Matrix (Fin k) (Fin k) ℝ)) (Δ : Matrix (Fin k) (Fin k) ℝ)
    (hp : prior.delta_inverse = some Δ) (hD : Δ.PosDef) (ha : 0 < prior.alpha) (hb : 0 < prior.beta)
    (hv : 1 < prior.alpha + n / 2)
    {θ : Ω → (Fin k → ℝ) × ℝ} {X : Ω → Fin n → ℝ} {Y : Ω → Fin m → ℝ}
    (h : DrawThenPredict P θ X Y (nigNdLaw prior) (fun i t => contLaw (Normal.dist ⟨(D *ᵥ t.1) i, √t.2⟩))
      fun t => Measure.pi fun j => contLaw (Normal.dist ⟨(D' *ᵥ t.1) j, √t.2⟩)) :
    ∃ (pred : (Fin n → ℝ) → MultivariateStudentT ℝ (Fin m → ℝ) (Matrix (Fin m) (Fin m) ℝ))
      (error : Fin m → (Fin n → ℝ) → ℝ),
      (∀ y, (linear_regression D y prior).bind (fun p => linear_regression_predictive p D') = .ok (pred y)) ∧
      ∀ j, (∀ᵐ ω ∂P, MeanVar ((lawOn univ (pred (X ω)).pdf).map fun y => y j) ((pred (X ω)).mu j) (error j (X ω))) ∧
        BestGuess P (fun ω => Y ω j) X (fun x => (pred x).mu j) (error j) := by
  obtain ⟨pred, h1, hl, -⟩ := C125_linear_regression D D' prior Δ hp hD ha hb h
  have key : ∀ x j, (pred x).mu j = (D' *ᵥ ((Dᵀ * D + Δ⁻¹)⁻¹ *ᵥ (Δ⁻¹ *ᵥ prior.mu + Dᵀ *ᵥ x))) j ∧
      ∃ v, MeanVar ((lawOn univ (pred x).pdf).map fun y => y j) ((pred x).mu j) v := fun x j => by
    obtain ⟨p, Δ', e1, e2, g1, g2, g3, -⟩ := C20_linear_regression_posterior D x prior Δ hp hD ha hb
    have e3 := e1
    rw [linear_regression_eq D x prior hp hD, Except.ok.injEq] at e3
    have ea : 1 < p.alpha := by
      rw [← e3]
      simp only [Fintype.card_fin]
      linarith
    obtain ⟨t, e, ht, -, -, -, hm⟩ := C112_prediction_variance D' p Δ' e2 g1 ea g3
    have h2 := h1 x
    rw [e1] at h2
    simp only [Except.bind] at h2
    have e4 : pred x = t := by
      have := h2.symm.trans ht
      simpa using this
    have e5 : t.mu = D' *ᵥ p.mu := by
      simp only [linear_regression_predictive, e2, bind, Except.bind, pure, Except.pure, Except.ok.injEq] at ht
      rw [← ht]
    rw [e4, ← densLaw_lawOn]
    have h3 := hm j
    have e6 : D' j ⬝ᵥ p.mu = t.mu j := by rw [e5]; rfl
    rw [e6] at h3
    exact ⟨by rw [e5, ← e3], _, h3⟩
  have hg : ∀ j, Measurable fun x : Fin n → ℝ => (pred x).mu j := fun j => by
    simp only [(key _ j).1]
    have : Continuous fun x : Fin n → ℝ => (D' *ᵥ ((Dᵀ * D + Δ⁻¹)⁻¹ *ᵥ (Δ⁻¹ *ᵥ prior.mu + Dᵀ *ᵥ x))) j := by fun_prop
    exact this.measurable
  choose e he using fun j => (hl.coord j).guess_of (hg j) (Filter.Eventually.of_forall fun ω => (key (X ω) j).2)
  exact ⟨pred, e, h1, he⟩

/-- C125. Multivariate normal observations with known covariance: the mean of the predictive distribution is, coordinate by
coordinate, the best guess of a new observation. -/
theorem C125_multivariate_normal_known_covariance_guess (cov : Matrix (Fin k) (Fin k) ℝ) (hc : cov.PosDef)
    (prior : MultivariateNormal (Fin k → ℝ) (Matrix (Fin k) (Fin k) ℝ)) (hS : prior.cov.PosDef)
    {θ : Ω → Fin k → ℝ} {X : Ω → Fin n → Fin k → ℝ} {Y : Ω → Fin k → ℝ}
    (h : DrawThenPredict P θ X Y (lawOn univ prior.pdf) (fun _ m => lawOn univ (MultivariateNormal.mk m cov).pdf)
      fun m => lawOn univ (MultivariateNormal.mk m cov).pdf) :
    ∃ (post : (Fin n → Fin k → ℝ) → MultivariateNormal (Fin k → ℝ) (Matrix (Fin k) (Fin k) ℝ))
      (error : Fin k → (Fin n → Fin k → ℝ) → ℝ),
      (∀ x, multivariate_normal_known_covariance (n : ℝ) ((1 / (n : ℝ)) • ∑ i, x i) cov prior = .ok (post x)) ∧
      ∀ j, (∀ᵐ ω ∂P, MeanVar ((lawOn univ (multivariate_normal_known_covariance_predictive (post (X ω)) cov).pdf).map
          fun y => y j) ((multivariate_normal_known_covariance_predictive (post (X ω)) cov).mu j) (error j (X ω))) ∧
        BestGuess P (fun ω => Y ω j) X (fun x => (multivariate_normal_known_covariance_predictive (post x) cov).mu j)
          (error j) := by
  obtain ⟨post, h1, hl, -⟩ := C125_multivariate_normal_known_covariance cov hc prior hS h
  have hpost : ∀ x, post x = ⟨(prior.cov⁻¹ + (n : ℝ) • cov⁻¹)⁻¹ *ᵥ (prior.cov⁻¹ *ᵥ prior.mu + cov⁻¹ *ᵥ ∑ i, x i),
      (prior.cov⁻¹ + (n : ℝ) • cov⁻¹)⁻¹⟩ := fun x => by
    have hx : (n : ℝ) • ((1 / (n : ℝ)) • ∑ i, x i) = ∑ i, x i := by
      rw [smul_smul]
      rcases Nat.eq_zero_or_pos n with rfl | hn
      · simp
      · rw [mul_one_div, div_self (by positivity), one_smul]
    have := (h1 x).symm.trans (mvn_known_cov_eq n _ _ hx hc prior hS)
    simpa using this
  have hA : (prior.cov⁻¹ + (n : ℝ) • cov⁻¹).PosDef := hS.inv.add_posSemidef (natSmul_posSemidef hc.inv n)
  have hmv : ∀ x j, ∃ v, MeanVar ((lawOn univ (multivariate_normal_known_covariance_predictive (post x) cov).pdf).map
      fun y => y j) ((multivariate_normal_known_covariance_predictive (post x) cov).mu j) v := fun x j => by
    have hpd : (multivariate_normal_known_covariance_predictive (post x) cov).cov.PosDef := by
      rw [hpost]
      simp only [multivariate_normal_known_covariance_predictive]
      exact hA.inv.add hc
    have h2 := C56_multivariate_normal_int _ hpd j
    rw [densLaw_lawOn] at h2
    rw [h2]
    refine ⟨_, normal_meanVar _ ?_⟩
    rw [powq_half]
    exact sqrt_pos.2 hpd.diag_pos
  have hg : ∀ j, Measurable fun x : Fin n → Fin k → ℝ =>
      (multivariate_normal_known_covariance_predictive (post x) cov).mu j := fun j => by
    simp only [hpost, multivariate_normal_known_covariance_predictive]
    have : Continuous fun x : Fin n → Fin k → ℝ => ((prior.cov⁻¹ + (n : ℝ) • cov⁻¹)⁻¹ *ᵥ
        (prior.cov⁻¹ *ᵥ prior.mu + cov⁻¹ *ᵥ ∑ i, x i)) j := by fun_prop
    exact this.measurable
  choose e he using fun j => (hl.coord j).guess_of (hg j) (Filter.Eventually.of_forall fun ω => hmv (X ω) j)
  exact ⟨post, e, h1, he⟩

/-- C125. Multivariate normal observations, mean and covariance unknown: the location of the predictive distribution is, coordinate by
coordinate, the best guess of a new observation. -/
theorem C125_multivariate_normal_guess (prior : NormalInverseWishart ℝ (Fin k → ℝ) (Matrix (Fin k) (Fin k) ℝ))
    (hk : 0 < prior.kappa) (hnu : (k : ℝ) - 1 < prior.nu) (hpsi : prior.psi.PosDef)
    (hv : (k : ℝ) + 1 < prior.nu + ((n + 1 : ℕ) : ℝ))
    {θ : Ω → (Fin k → ℝ) × (UpperIdx k → ℝ)} {X : Ω → Fin (n + 1) → Fin k → ℝ} {Y : Ω → Fin k → ℝ}
    (h : DrawThenPredict P θ X Y (niwLaw prior) (fun _ t => lawOn univ (MultivariateNormal.mk t.1 (symOf t.2)).pdf)
      fun t => lawOn univ (MultivariateNormal.mk t.1 (symOf t.2)).pdf) :
    ∃ (post : (Fin (n + 1) → Fin k → ℝ) → NormalInverseWishart ℝ (Fin k → ℝ) (Matrix (Fin k) (Fin k) ℝ))
      (error : Fin k → (Fin (n + 1) → Fin k → ℝ) → ℝ),
      (∀ x, multivariate_normal (Matrix.of x) prior = .ok (post x)) ∧
      ∀ j, (∀ᵐ ω ∂P, MeanVar ((lawOn univ (multivariate_normal_predictive (post (X ω))).pdf).map fun y => y j)
          ((multivariate_normal_predictive (post (X ω))).mu j) (error j (X ω))) ∧
        BestGuess P (fun ω => Y ω j) X (fun x => (multivariate_normal_predictive (post x)).mu j) (error j) := by
  obtain ⟨post, h1, hl, -⟩ := C125_multivariate_normal prior hk hnu hpsi h
  have key : ∀ x j, (multivariate_normal_predictive (post x)).mu j =
      (prior.mu j * prior.kappa + ((n + 1 : ℕ) : ℝ) * ((∑ i, x i j) / ((n + 1 : ℕ) : ℝ))) / (prior.kappa + ((n + 1 : ℕ) : ℝ)) ∧
      ∃ v, MeanVar ((lawOn univ (multivariate_normal_predictive (post x)).pdf).map fun y => y j)
        ((multivariate_normal_predictive (post x)).mu j) v := fun x j => by
    obtain ⟨p, e1, g1, g2, g3, -⟩ := C23_multivariate_normal_posterior (Matrix.of x) prior hk hnu hpsi
    have e2 : post x = p := by
      have := (h1 x).symm.trans e1
      simpa using this
    have e3 : p.mu j = (prior.mu j * prior.kappa + ((n + 1 : ℕ) : ℝ) * ((∑ i, x i j) / ((n + 1 : ℕ) : ℝ))) /
        (prior.kappa + ((n + 1 : ℕ) : ℝ)) ∧ p.nu = prior.nu + ((n + 1 : ℕ) : ℝ) := by
      simp [multivariate_normal, meanAxis0, bind, Except.bind, pure, Except.pure] at e1
      rw [← e1]
      simp
    rw [e2]
    refine ⟨e3.1, ?_⟩
    have ht : 2 < p.nu - (k : ℝ) + 1 := by rw [e3.2]; linarith
    have hS : (multivariate_normal_predictive p).sigma.PosDef := by
      have : (multivariate_normal_predictive p).sigma = ((p.kappa + 1) / (p.kappa * (p.nu - k + 1))) • p.psi := by
        ext i j
        simp only [multivariate_normal_predictive, Matrix.of_apply, Matrix.smul_apply, Fintype.card_fin, smul_eq_mul]
        ring
      rw [this]
      exact g3.smul (by have : 0 < p.nu - (k : ℝ) + 1 := by linarith
                        positivity)
    have hN : 0 < (multivariate_normal_predictive p).nu := by
      simp only [multivariate_normal_predictive, Fintype.card_fin]; linarith
    have h2 := C56_multivariate_student_t_int_partial _ hS hN j
    rw [densLaw_lawOn] at h2
    rw [h2]
    have hd := hS.diag_pos (i := j)
    have hs := student_meanVar ((multivariate_normal_predictive p).mu j) (a := (multivariate_normal_predictive p).nu / 2)
      (b := (multivariate_normal_predictive p).sigma j j * ((multivariate_normal_predictive p).nu / 2))
      (by simp only [multivariate_normal_predictive, Fintype.card_fin]; linarith) (by positivity)
    simp only [normal_known_mean_predictive] at hs
    have e4 : powq ((multivariate_normal_predictive p).sigma j j * ((multivariate_normal_predictive p).nu / 2) /
        ((multivariate_normal_predictive p).nu / 2)) (1 / 2) = √((multivariate_normal_predictive p).sigma j j) := by
      rw [mul_div_cancel_right₀ _ (by positivity)]
      simp
    have e5 : (lit 2 : ℝ) * ((multivariate_normal_predictive p).nu / 2) = (multivariate_normal_predictive p).nu := by
      simp; ring
    rw [e4, e5] at hs
    exact ⟨_, hs⟩
  have hg : ∀ j, Measurable fun x : Fin (n + 1) → Fin k → ℝ => (multivariate_normal_predictive (post x)).mu j := fun j => by
    simp only [(key _ j).1]
    have : Continuous fun x : Fin (n + 1) → Fin k → ℝ => (prior.mu j * prior.kappa + ((n + 1 : ℕ) : ℝ) *
      ((∑ i, x i j) / ((n + 1 : ℕ) : ℝ))) / (prior.kappa + ((n + 1 : ℕ) : ℝ)) := by fun_prop
    exact this.measurable
  choose e he using fun j => (hl.coord j).guess_of (hg j) (Filter.Eventually.of_forall fun ω => (key (X ω) j).2)
  exact ⟨post, e, h1, he⟩

/-- C125. The same with known precision. -/
theorem C125_multivariate_normal_known_precision_guess (precision : Matrix (Fin k) (Fin k) ℝ) (hc : precision.PosDef)
    (prior : MultivariateNormal (Fin k → ℝ) (Matrix (Fin k) (Fin k) ℝ)) (hS : prior.cov.PosDef)
    {θ : Ω → Fin k → ℝ} {X : Ω → Fin n → Fin k → ℝ} {Y : Ω → Fin k → ℝ}
    (h : DrawThenPredict P θ X Y (lawOn univ prior.pdf)
      (fun _ m => lawOn univ (MultivariateNormal.mk m precision⁻¹).pdf)
      fun m => lawOn univ (MultivariateNormal.mk m precision⁻¹).pdf) :
    ∃ (pred : (Fin n → Fin k → ℝ) → MultivariateNormal (Fin k → ℝ) (Matrix (Fin k) (Fin k) ℝ))
      (error : Fin k → (Fin n → Fin k → ℝ) → ℝ),
      (∀ x, (multivariate_normal_known_precision (n : ℝ) ((1 / (n : ℝ)) • ∑ i, x i) precision prior).bind
        (fun d => multivariate_normal_known_precision_predictive d precision) = .ok (pred x)) ∧
      ∀ j, (∀ᵐ ω ∂P, MeanVar ((lawOn univ (pred (X ω)).pdf).map fun y => y j) ((pred (X ω)).mu j) (error j (X ω))) ∧
        BestGuess P (fun ω => Y ω j) X (fun x => (pred x).mu j) (error j) := by
  obtain ⟨pred, h1, -⟩ := C125_multivariate_normal_known_precision precision hc prior hS h
  obtain ⟨post, e, h2, h3⟩ := C125_multivariate_normal_known_covariance_guess precision⁻¹ hc.inv prior hS h
  have key : ∀ x, pred x = multivariate_normal_known_covariance_predictive (post x) precision⁻¹ := fun x => by
    have hx : (n : ℝ) • ((1 / (n : ℝ)) • ∑ i, x i) = ∑ i, x i := by
      rw [smul_smul]
      rcases Nat.eq_zero_or_pos n with rfl | hn
      · simp
      · rw [mul_one_div, div_self (by positivity), one_smul]
    have e1 : multivariate_normal_known_precision (n : ℝ) ((1 / (n : ℝ)) • ∑ i, x i) precision prior = .ok (post x) := by
      rw [← h2 x, mvn_known_cov_eq n _ _ hx hc.inv prior hS, mvn_known_prec_eq n _ _ hx hc prior hS,
        nonsing_inv_nonsing_inv _ (posDef_unit hc)]
    have h4 := h1 x
    rw [e1] at h4
    simp only [Except.bind, multivariate_normal_known_precision_predictive, linalgInv_posDef hc, bind, pure, Except.pure,
      Except.ok.injEq] at h4
    rw [← h4]
    rfl
  refine ⟨pred, e, h1, fun j => ?_⟩
  simp only [key]
  exact h3 j

/-! ## The settings exist -/

example : ∃ (Ω : Type) (_ : MeasurableSpace Ω) (P : Measure Ω) (X : Ω → Fin 3 → ℝ) (Y : Ω → Fin 2 → ℝ)
    (guess error : Fin 2 → (Fin 3 → ℝ) → ℝ), ∀ j, BestGuess P (fun ω => Y ω j) X (guess j) (error j) := by
  obtain ⟨_, _, h⟩ := bayes_linear_regression (!![1, 0; 1, 1; 1, 2] : Matrix (Fin 3) (Fin 2) ℝ)
    ⟨![0, 1], 2, 1, some 1, none⟩ 1 rfl PosDef.one two_pos one_pos
  obtain ⟨Ω, i, P, θ, X, Y, h⟩ := h.exists_predict
    ((regression_newDensity (!![1, 3; 1, 4] : Matrix (Fin 2) (Fin 2) ℝ)).newModel h.hS)
  obtain ⟨p, e, -, hb⟩ := C125_linear_regression_guess (!![1, 0; 1, 1; 1, 2] : Matrix (Fin 3) (Fin 2) ℝ) _
    ⟨![0, 1], 2, 1, some 1, none⟩ 1 rfl PosDef.one two_pos one_pos (by norm_num) h
  exact ⟨Ω, i, P, X, Y, _, e, fun j => (hb j).2⟩

example : ∃ (Ω : Type) (_ : MeasurableSpace Ω) (P : Measure Ω) (X : Ω → Fin 3 → Fin 2 → ℝ) (Y : Ω → Fin 2 → ℝ)
    (guess error : Fin 2 → (Fin 3 → Fin 2 → ℝ) → ℝ), ∀ j, BestGuess P (fun ω => Y ω j) X (guess j) (error j) := by
  obtain ⟨_, _, h⟩ := bayes_mvn_known_covariance (n := 3) (1 : Matrix (Fin 2) (Fin 2) ℝ)⁻¹ PosDef.one.inv ⟨![0, 1], 1⟩
    PosDef.one
  obtain ⟨Ω, i, P, θ, X, Y, h⟩ := h.exists_again 0
  obtain ⟨p, e, -, hb⟩ := C125_multivariate_normal_known_precision_guess (1 : Matrix (Fin 2) (Fin 2) ℝ) PosDef.one
    ⟨![0, 1], 1⟩ PosDef.one h
  exact ⟨Ω, i, P, X, Y, _, e, fun j => (hb j).2⟩

example : ∃ (Ω : Type) (_ : MeasurableSpace Ω) (P : Measure Ω) (X : Ω → Fin 3 → Fin 2 → ℝ) (Y : Ω → Fin 2 → ℝ)
    (guess error : Fin 2 → (Fin 3 → Fin 2 → ℝ) → ℝ), ∀ j, BestGuess P (fun ω => Y ω j) X (guess j) (error j) := by
  obtain ⟨_, _, h⟩ := bayes_multivariate_normal (n := 2)
    { mu := ![0, 1], kappa := 1, nu := 4, psi := (1 : Matrix (Fin 2) (Fin 2) ℝ) } one_pos (by norm_num) PosDef.one
  obtain ⟨Ω, i, P, θ, X, Y, h⟩ := h.exists_again 0
  obtain ⟨p, e, -, hb⟩ := C125_multivariate_normal_guess
    { mu := ![0, 1], kappa := 1, nu := 4, psi := (1 : Matrix (Fin 2) (Fin 2) ℝ) } one_pos (by norm_num) PosDef.one
    (by norm_num) h
  exact ⟨Ω, i, P, X, Y, _, e, fun j => (hb j).2⟩

end Conj
