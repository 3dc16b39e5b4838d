import Verif.Props.Calibration
import Verif.Props.TwoStageMatrix
import Verif.Props.ConsistencyNormal
import Verif.Props.ConsistencyDirichlet
import Verif.Lemmas.DirichletMerge
import Verif.Lemmas.ConcentrationMatrix

/-!
# C103 for models with several unknowns

Regions for the mean and variance, for the coefficients of a regression, for a mean vector, for a covariance matrix and
for a vector of probabilities contain the unknown as often as announced.
-/

open MeasureTheory Set Real

namespace Conj

open Scipy Spec Matrix

variable {Ω : Type} [MeasurableSpace Ω] {P : Measure Ω} {n k : ℕ}

/-! ## Normal and log-normal observations, mean and variance unknown -/

/-- the joint law of (mean, variance) under a `NormalInverseGamma` with `nu` given -/
noncomputable def nigLaw {M : Type} (d : NormalInverseGamma ℝ ℝ M) : Measure (ℝ × ℝ) :=
  lawOn (univ ×ˢ Ioi 0) fun t => d.jointPdf (d.nu.getD 0) t.1 t.2

/-- the joint law of (mean, precision) under a `NormalGamma` -/
noncomputable def ngLaw (d : NormalGamma ℝ) : Measure (ℝ × ℝ) := lawOn (univ ×ˢ Ioi 0) fun t => d.jointPdf t.1 t.2

theorem nig_jointPdf_eq {M : Type} (d : NormalInverseGamma ℝ ℝ M) (nu : ℝ) :
    (fun t : ℝ × ℝ => d.jointPdf nu t.1 t.2) = nigPdf d.mu nu d.alpha d.beta := by
  funext t
  simp [NormalInverseGamma.jointPdf, nigPdf]

theorem ng_jointPdf_eq (d : NormalGamma ℝ) :
    (fun t : ℝ × ℝ => d.jointPdf t.1 t.2) = ngPdf d.mu d.lam d.alpha d.beta := by
  funext t
  simp [NormalGamma.jointPdf, ngPdf]

theorem measurable_nigPdf (mu nu alpha beta : ℝ) : Measurable (nigPdf mu nu alpha beta) := by
  have h1 : Measurable fun t : ℝ × ℝ => (InverseGamma.dist ⟨alpha, beta⟩).pdf t.2 :=
    (measurable_pdf (measurable_std_invgamma alpha) 0 beta).comp measurable_snd
  have h2 : Measurable fun t : ℝ × ℝ => (Normal.dist ⟨mu, √(t.2 / nu)⟩).pdf t.1 :=
    (measurable_loc_scale (loc := fun _ : ℝ => mu) (scale := fun v : ℝ => √(v / nu)) measurable_std_norm
      measurable_const (by fun_prop)).comp (f := fun t : ℝ × ℝ => (t.2, t.1)) (measurable_snd.prodMk measurable_fst)
  exact h1.mul h2

theorem measurable_ngPdf (mu lam alpha beta : ℝ) : Measurable (ngPdf mu lam alpha beta) := by
  have h1 : Measurable fun t : ℝ × ℝ => (Gamma.dist ⟨alpha, beta⟩).pdf t.2 :=
    (measurable_pdf (measurable_std_gamma alpha) 0 (1 / beta)).comp measurable_snd
  have h2 : Measurable fun t : ℝ × ℝ => (Normal.dist ⟨mu, √(1 / (lam * t.2))⟩).pdf t.1 :=
    (measurable_loc_scale (loc := fun _ : ℝ => mu) (scale := fun v : ℝ => √(1 / (lam * v))) measurable_std_norm
      measurable_const (by fun_prop)).comp (f := fun t : ℝ × ℝ => (t.2, t.1)) (measurable_snd.prodMk measurable_fst)
  exact h1.mul h2

theorem ofFn_ne_nil {A : Type} (x : Fin (n + 1) → A) : List.ofFn x ≠ [] := fun h => by
  have := congrArg List.length h
  simp at this

section Normal

variable {M : Type}

theorem bayes_normal_nig (prior : NormalInverseGamma ℝ ℝ M) (nu : ℝ) (hn : prior.nu = some nu) (hnu : 0 < nu)
    (ha : 0 < prior.alpha) (hb : 0 < prior.beta) :
    ∃ post : (Fin (n + 1) → ℝ) → NormalInverseGamma ℝ ℝ M,
      (∀ x, normal (∑ i, x i) (∑ i, x i ^ 2) ((n + 1 : ℕ) : ℝ) (.nig prior) = .ok (.nig (post x))) ∧
      BayesModel (univ ×ˢ Ioi 0) (fun t : ℝ × ℝ => prior.jointPdf (prior.nu.getD 0) t.1 t.2)
        (fun _ : Fin (n + 1) => volume.restrict univ) (fun _ => univ)
        (fun _ t a => (Normal.dist ⟨t.1, √t.2⟩).pdf a)
        (fun x t => (post x).jointPdf ((post x).nu.getD 0) t.1 t.2) (nigLaw prior)
        (fun _ t => contLaw (Normal.dist ⟨t.1, √t.2⟩)) (fun x => nigLaw (post x)) := by
  have key : ∀ x : Fin (n + 1) → ℝ, ∃ post : NormalInverseGamma ℝ ℝ M,
      normal (∑ i, x i) (∑ i, x i ^ 2) ((n + 1 : ℕ) : ℝ) (.nig prior) = .ok (.nig post) ∧
      IsPosterior volume (univ ×ˢ Ioi 0) (fun t : ℝ × ℝ => prior.jointPdf (prior.nu.getD 0) t.1 t.2)
        (fun t => ∏ i, (Normal.dist ⟨t.1, √t.2⟩).pdf (x i))
        (fun t : ℝ × ℝ => post.jointPdf (post.nu.getD 0) t.1 t.2) := fun x => by
    obtain ⟨post, nu', h1, h2, -, -, -, h3⟩ := C14_normal_posterior_nig prior nu hn hnu ha hb (List.ofFn x) (ofFn_ne_nil x)
    rw [List.map_ofFn, List.sum_ofFn, List.sum_ofFn, List.length_ofFn] at h2
    rw [likelihood_ofFn] at h3
    refine ⟨post, h2, ?_⟩
    rw [h1, hn]
    exact h3
  choose post h1 h2 using key
  refine ⟨post, h1, ?_⟩
  refine ⟨MeasurableSet.univ.prod measurableSet_Ioi, fun _ => MeasurableSet.univ,
    fun _ => Filter.Eventually.of_forall fun _ => mem_univ _, ?_, ?_, fun _ => measurable_normalDraw_pdf,
    fun _ t ht a _ => normal_pdf_nonneg _ (sqrt_pos.2 ht.2) _, rfl, fun _ t ht => norm_lawOn _,
    fun _ t ht => normal_prob _ (sqrt_pos.2 ht.2), fun x _ => h2 x, fun _ _ => rfl⟩
  · rw [nig_jointPdf_eq]
    exact measurable_nigPdf _ _ _ _
  · rw [nig_jointPdf_eq, hn]
    exact nigPdf_isDensity _ _ _ _ hnu ha hb

/-- C103. Normal observations, `NormalInverseGamma` prior: regions for mean and variance. -/
theorem C103_normal_nig (prior : NormalInverseGamma ℝ ℝ M) (nu : ℝ) (hn : prior.nu = some nu) (hnu : 0 < nu)
    (ha : 0 < prior.alpha) (hb : 0 < prior.beta) {θ : Ω → ℝ × ℝ} {X : Ω → Fin (n + 1) → ℝ}
    (h : DrawThenObserve P θ X (nigLaw prior) fun _ t => contLaw (Normal.dist ⟨t.1, √t.2⟩)) :
    ∃ post : (Fin (n + 1) → ℝ) → NormalInverseGamma ℝ ℝ M,
      (∀ x, normal (∑ i, x i) (∑ i, x i ^ 2) ((n + 1 : ℕ) : ℝ) (.nig prior) = .ok (.nig (post x))) ∧
      Calibrated P θ X fun x => nigLaw (post x) := by
  obtain ⟨post, h1, h2⟩ := bayes_normal_nig (n := n) prior nu hn hnu ha hb
  exact ⟨post, h1, h2.calibrated h⟩

theorem bayes_normal_ng (prior : NormalGamma ℝ) (hl : 0 < prior.lam)
    (ha : 0 < prior.alpha) (hb : 0 < prior.beta) :
    ∃ post : (Fin (n + 1) → ℝ) → NormalGamma ℝ,
      (∀ x, normal (∑ i, x i) (∑ i, x i ^ 2) ((n + 1 : ℕ) : ℝ) (.ng prior : NormalPrior ℝ M) = .ok (.ng (post x))) ∧
      BayesModel (univ ×ˢ Ioi 0) (fun t : ℝ × ℝ => prior.jointPdf t.1 t.2)
        (fun _ : Fin (n + 1) => volume.restrict univ) (fun _ => univ)
        (fun _ t a => (Normal.dist ⟨t.1, √(1 / t.2)⟩).pdf a)
        (fun x t => (post x).jointPdf t.1 t.2) (ngLaw prior)
        (fun _ t => contLaw (Normal.dist ⟨t.1, √(1 / t.2)⟩)) (fun x => ngLaw (post x)) := by
  have key : ∀ x : Fin (n + 1) → ℝ, ∃ post : NormalGamma ℝ,
      normal (∑ i, x i) (∑ i, x i ^ 2) ((n + 1 : ℕ) : ℝ) (.ng prior : NormalPrior ℝ M) = .ok (.ng post) ∧
      IsPosterior volume (univ ×ˢ Ioi 0) (fun t : ℝ × ℝ => prior.jointPdf t.1 t.2)
        (fun t => ∏ i, (Normal.dist ⟨t.1, √(1 / t.2)⟩).pdf (x i))
        (fun t : ℝ × ℝ => post.jointPdf t.1 t.2) := fun x => by
    obtain ⟨post, h2, -, -, -, h3⟩ := C14_normal_posterior_ng (M := M) prior hl ha hb (List.ofFn x) (ofFn_ne_nil x)
    rw [List.map_ofFn, List.sum_ofFn, List.sum_ofFn, List.length_ofFn] at h2
    rw [likelihood_ofFn] at h3
    exact ⟨post, h2, h3⟩
  choose post h1 h2 using key
  refine ⟨post, h1, ?_⟩
  refine ⟨MeasurableSet.univ.prod measurableSet_Ioi, fun _ => MeasurableSet.univ,
    fun _ => Filter.Eventually.of_forall fun _ => mem_univ _, ?_, ?_, fun _ => ?_,
    fun _ t ht a _ => normal_pdf_nonneg _ (sqrt_pos.2 (one_div_pos.2 ht.2)) _, rfl, fun _ t ht => norm_lawOn _,
    fun _ t ht => normal_prob _ (sqrt_pos.2 (one_div_pos.2 ht.2)), fun x _ => h2 x, fun _ _ => rfl⟩
  · rw [ng_jointPdf_eq]
    exact measurable_ngPdf _ _ _ _
  · rw [ng_jointPdf_eq]
    exact ngPdf_isDensity _ _ _ _ hl ha hb
  · exact measurable_loc_scale (loc := fun z : ℝ × ℝ => z.1) (scale := fun z : ℝ × ℝ => √(1 / z.2)) measurable_std_norm
      measurable_fst (by fun_prop)

/-- C103. Normal observations, `NormalGamma` prior: regions for mean and precision. -/
theorem C103_normal_ng (prior : NormalGamma ℝ) (hl : 0 < prior.lam)
    (ha : 0 < prior.alpha) (hb : 0 < prior.beta) {θ : Ω → ℝ × ℝ} {X : Ω → Fin (n + 1) → ℝ}
    (h : DrawThenObserve P θ X (ngLaw prior) fun _ t => contLaw (Normal.dist ⟨t.1, √(1 / t.2)⟩)) :
    ∃ post : (Fin (n + 1) → ℝ) → NormalGamma ℝ,
      (∀ x, normal (∑ i, x i) (∑ i, x i ^ 2) ((n + 1 : ℕ) : ℝ) (.ng prior : NormalPrior ℝ M) = .ok (.ng (post x))) ∧
      Calibrated P θ X fun x => ngLaw (post x) := by
  obtain ⟨post, h1, h2⟩ := bayes_normal_ng (n := n) (M := M) prior hl ha hb
  exact ⟨post, h1, h2.calibrated h⟩

theorem bayes_log_normal_nig (prior : NormalInverseGamma ℝ ℝ M) (nu : ℝ) (hn : prior.nu = some nu) (hnu : 0 < nu)
    (ha : 0 < prior.alpha) (hb : 0 < prior.beta) :
    ∃ post : (Fin (n + 1) → ℝ) → NormalInverseGamma ℝ ℝ M,
      (∀ x, (∀ i, 0 < x i) →
        log_normal (∑ i, log (x i)) (∑ i, log (x i) ^ 2) ((n + 1 : ℕ) : ℝ) (.nig prior) = .ok (.nig (post x))) ∧
      BayesModel (univ ×ˢ Ioi 0) (fun t : ℝ × ℝ => prior.jointPdf (prior.nu.getD 0) t.1 t.2)
        (fun _ : Fin (n + 1) => volume.restrict (Ioi 0)) (fun _ => Ioi 0)
        (fun _ t a => logNormalPdf t.1 t.2 a)
        (fun x t => (post x).jointPdf ((post x).nu.getD 0) t.1 t.2) (nigLaw prior)
        (fun _ t => lawOn (Ioi 0) (logNormalPdf t.1 t.2)) (fun x => nigLaw (post x)) := by
  have key : ∀ x : Fin (n + 1) → ℝ, ∃ post : NormalInverseGamma ℝ ℝ M, (∀ i, 0 < x i) →
      log_normal (∑ i, log (x i)) (∑ i, log (x i) ^ 2) ((n + 1 : ℕ) : ℝ) (.nig prior) = .ok (.nig post) ∧
      IsPosterior volume (univ ×ˢ Ioi 0) (fun t : ℝ × ℝ => prior.jointPdf (prior.nu.getD 0) t.1 t.2)
        (fun t => ∏ i, logNormalPdf t.1 t.2 (x i))
        (fun t : ℝ × ℝ => post.jointPdf (post.nu.getD 0) t.1 t.2) := fun x => by
    by_cases hx : ∀ i, 0 < x i
    · obtain ⟨post, nu', h1, h2, h3⟩ := C15_log_normal_posterior_nig prior nu hn hnu ha hb (List.ofFn x)
        (ofFn_ne_nil x) (forall_ofFn hx)
      rw [List.map_ofFn, List.map_ofFn, List.sum_ofFn, List.sum_ofFn, List.length_ofFn] at h2
      rw [likelihood_ofFn] at h3
      refine ⟨post, fun _ => ⟨h2, ?_⟩⟩
      rw [h1, hn]
      exact h3
    · exact ⟨prior, fun h => absurd h hx⟩
  choose post h using key
  refine ⟨post, fun x hx => (h x hx).1, ?_⟩
  refine ⟨MeasurableSet.univ.prod measurableSet_Ioi, fun _ => measurableSet_Ioi,
    fun _ => ae_restrict_mem measurableSet_Ioi, ?_, ?_, fun _ => ?_,
    fun _ t ht a ha => ?_, rfl, fun _ t ht => rfl,
    fun _ t ht => log_normal_prob _ ht.2, fun x hx => (h x hx).2, fun _ _ => rfl⟩
  · rw [nig_jointPdf_eq]
    exact measurable_nigPdf _ _ _ _
  · rw [nig_jointPdf_eq, hn]
    exact nigPdf_isDensity _ _ _ _ hnu ha hb
  · simp only [logNormalPdf]
    fun_prop
  · have ha : 0 < a := ha
    simp only [logNormalPdf]
    positivity

/-- C103. Log-normal observations, `NormalInverseGamma` prior. -/
theorem C103_log_normal_nig (prior : NormalInverseGamma ℝ ℝ M) (nu : ℝ) (hn : prior.nu = some nu) (hnu : 0 < nu)
    (ha : 0 < prior.alpha) (hb : 0 < prior.beta) {θ : Ω → ℝ × ℝ} {X : Ω → Fin (n + 1) → ℝ}
    (h : DrawThenObserve P θ X (nigLaw prior) fun _ t => lawOn (Ioi 0) (logNormalPdf t.1 t.2)) :
    ∃ post : (Fin (n + 1) → ℝ) → NormalInverseGamma ℝ ℝ M,
      (∀ x, (∀ i, 0 < x i) →
        log_normal (∑ i, log (x i)) (∑ i, log (x i) ^ 2) ((n + 1 : ℕ) : ℝ) (.nig prior) = .ok (.nig (post x))) ∧
      Calibrated P θ X fun x => nigLaw (post x) := by
  obtain ⟨post, h1, h2⟩ := bayes_log_normal_nig (n := n) prior nu hn hnu ha hb
  exact ⟨post, h1, h2.calibrated h⟩

theorem bayes_log_normal_ng (prior : NormalGamma ℝ) (hl : 0 < prior.lam)
    (ha : 0 < prior.alpha) (hb : 0 < prior.beta) :
    ∃ post : (Fin (n + 1) → ℝ) → NormalGamma ℝ,
      (∀ x, (∀ i, 0 < x i) → log_normal (∑ i, log (x i)) (∑ i, log (x i) ^ 2) ((n + 1 : ℕ) : ℝ)
        (.ng prior : NormalPrior ℝ M) = .ok (.ng (post x))) ∧
      BayesModel (univ ×ˢ Ioi 0) (fun t : ℝ × ℝ => prior.jointPdf t.1 t.2)
        (fun _ : Fin (n + 1) => volume.restrict (Ioi 0)) (fun _ => Ioi 0)
        (fun _ t a => logNormalPdf t.1 (1 / t.2) a)
        (fun x t => (post x).jointPdf t.1 t.2) (ngLaw prior)
        (fun _ t => lawOn (Ioi 0) (logNormalPdf t.1 (1 / t.2))) (fun x => ngLaw (post x)) := by
  have key : ∀ x : Fin (n + 1) → ℝ, ∃ post : NormalGamma ℝ, (∀ i, 0 < x i) →
      log_normal (∑ i, log (x i)) (∑ i, log (x i) ^ 2) ((n + 1 : ℕ) : ℝ) (.ng prior : NormalPrior ℝ M) = .ok (.ng post) ∧
      IsPosterior volume (univ ×ˢ Ioi 0) (fun t : ℝ × ℝ => prior.jointPdf t.1 t.2)
        (fun t => ∏ i, logNormalPdf t.1 (1 / t.2) (x i))
        (fun t : ℝ × ℝ => post.jointPdf t.1 t.2) := fun x => by
    by_cases hx : ∀ i, 0 < x i
    · obtain ⟨post, h2, h3⟩ := C15_log_normal_posterior_ng (M := M) prior hl ha hb (List.ofFn x)
        (ofFn_ne_nil x) (forall_ofFn hx)
      rw [List.map_ofFn, List.map_ofFn, List.sum_ofFn, List.sum_ofFn, List.length_ofFn] at h2
      rw [likelihood_ofFn] at h3
      exact ⟨post, fun _ => ⟨h2, h3⟩⟩
    · exact ⟨prior, fun h => absurd h hx⟩
  choose post h using key
  refine ⟨post, fun x hx => (h x hx).1, ?_⟩
  refine ⟨MeasurableSet.univ.prod measurableSet_Ioi, fun _ => measurableSet_Ioi,
    fun _ => ae_restrict_mem measurableSet_Ioi, ?_, ?_, fun _ => ?_,
    fun _ t ht a ha => ?_, rfl, fun _ t ht => rfl,
    fun _ t ht => log_normal_prob _ (one_div_pos.2 ht.2), fun x hx => (h x hx).2, fun _ _ => rfl⟩
  · rw [ng_jointPdf_eq]
    exact measurable_ngPdf _ _ _ _
  · rw [ng_jointPdf_eq]
    exact ngPdf_isDensity _ _ _ _ hl ha hb
  · simp only [logNormalPdf]
    fun_prop
  · have ha : 0 < a := ha
    simp only [logNormalPdf]
    positivity

/-- C103. Log-normal observations, `NormalGamma` prior. -/
theorem C103_log_normal_ng (prior : NormalGamma ℝ) (hl : 0 < prior.lam)
    (ha : 0 < prior.alpha) (hb : 0 < prior.beta) {θ : Ω → ℝ × ℝ} {X : Ω → Fin (n + 1) → ℝ}
    (h : DrawThenObserve P θ X (ngLaw prior) fun _ t => lawOn (Ioi 0) (logNormalPdf t.1 (1 / t.2))) :
    ∃ post : (Fin (n + 1) → ℝ) → NormalGamma ℝ,
      (∀ x, (∀ i, 0 < x i) → log_normal (∑ i, log (x i)) (∑ i, log (x i) ^ 2) ((n + 1 : ℕ) : ℝ)
        (.ng prior : NormalPrior ℝ M) = .ok (.ng (post x))) ∧
      Calibrated P θ X fun x => ngLaw (post x) := by
  obtain ⟨post, h1, h2⟩ := bayes_log_normal_ng (n := n) (M := M) prior hl ha hb
  exact ⟨post, h1, h2.calibrated h⟩

end Normal

/-! ## Linear regression -/

/-- the joint law of (coefficients, variance) under a `NormalInverseGamma` with `delta_inverse` given -/
noncomputable def nigNdLaw (d : NormalInverseGamma ℝ (Fin k → ℝ) (Matrix (Fin k) (Fin k) ℝ)) : Measure ((Fin k → ℝ) × ℝ) :=
  lawOn (univ ×ˢ Ioi 0) fun t => d.jointPdfNd (d.delta_inverse.getD 0) t.1 t.2

theorem measurable_jointPdfNd (d : NormalInverseGamma ℝ (Fin k → ℝ) (Matrix (Fin k) (Fin k) ℝ))
    (D : Matrix (Fin k) (Fin k) ℝ) : Measurable fun t : (Fin k → ℝ) × ℝ => d.jointPdfNd D t.1 t.2 := by
  have hs : Measurable fun t : (Fin k → ℝ) × ℝ => t.2 • D :=
    measurable_matrix fun i j => by
      simp only [Matrix.smul_apply, smul_eq_mul]
      fun_prop
  have h1 : Measurable fun t : (Fin k → ℝ) × ℝ => (InverseGamma.dist ⟨d.alpha, d.beta⟩).pdf t.2 :=
    (measurable_pdf (measurable_std_invgamma d.alpha) 0 d.beta).comp measurable_snd
  have h2 : Measurable fun t : (Fin k → ℝ) × ℝ => mvnPdf d.mu (t.2 • D) t.1 :=
    measurable_mvnPdf_all.comp (f := fun t : (Fin k → ℝ) × ℝ => (t.1, d.mu, t.2 • D))
      (measurable_fst.prodMk (measurable_const.prodMk hs))
  exact h1.mul h2

theorem bayes_linear_regression (D : Matrix (Fin n) (Fin k) ℝ)
    (prior : NormalInverseGamma ℝ (Fin k → ℝ) (Matrix (Fin k) (Fin k) ℝ)) (Δ : Matrix (Fin k) (Fin k) ℝ)
    (h : prior.delta_inverse = some Δ) (hD : Δ.PosDef) (ha : 0 < prior.alpha) (hb : 0 < prior.beta) :
    ∃ post : (Fin n → ℝ) → NormalInverseGamma ℝ (Fin k → ℝ) (Matrix (Fin k) (Fin k) ℝ),
      (∀ y, linear_regression D y prior = .ok (post y)) ∧
      BayesModel (univ ×ˢ Ioi 0) (fun t : (Fin k → ℝ) × ℝ => prior.jointPdfNd (prior.delta_inverse.getD 0) t.1 t.2)
        (fun _ : Fin n => volume.restrict univ) (fun _ => univ)
        (fun i t a => (Normal.dist ⟨(D *ᵥ t.1) i, √t.2⟩).pdf a)
        (fun y t => (post y).jointPdfNd ((post y).delta_inverse.getD 0) t.1 t.2) (nigNdLaw prior)
        (fun i t => contLaw (Normal.dist ⟨(D *ᵥ t.1) i, √t.2⟩)) (fun y => nigNdLaw (post y)) := by
  have key : ∀ y : Fin n → ℝ, ∃ post : NormalInverseGamma ℝ (Fin k → ℝ) (Matrix (Fin k) (Fin k) ℝ),
      linear_regression D y prior = .ok post ∧
      IsPosterior volume (univ ×ˢ Ioi 0)
        (fun t : (Fin k → ℝ) × ℝ => prior.jointPdfNd (prior.delta_inverse.getD 0) t.1 t.2)
        (fun t => ∏ i, (Normal.dist ⟨(D *ᵥ t.1) i, √t.2⟩).pdf (y i))
        (fun t => post.jointPdfNd (post.delta_inverse.getD 0) t.1 t.2) := fun y => by
    obtain ⟨post, D', h1, h2, -, -, -, h3⟩ := C20_linear_regression_posterior D y prior Δ h hD ha hb
    refine ⟨post, h1, ?_⟩
    rw [h, h2]
    exact h3
  choose post h1 h2 using key
  refine ⟨post, h1, ?_⟩
  refine ⟨MeasurableSet.univ.prod measurableSet_Ioi, fun _ => MeasurableSet.univ,
    fun _ => Filter.Eventually.of_forall fun _ => mem_univ _, measurable_jointPdfNd _ _, ?_, fun i => ?_,
    fun _ t ht a _ => normal_pdf_nonneg _ (sqrt_pos.2 ht.2) _, rfl, fun _ t ht => norm_lawOn _,
    fun _ t ht => normal_prob _ (sqrt_pos.2 ht.2), fun x _ => h2 x, fun _ _ => rfl⟩
  · rw [h]
    exact nigNd_isDensity ha hb hD prior.mu
  · exact measurable_normalDraw_pdf.comp (f := fun q : ((Fin k → ℝ) × ℝ) × ℝ => (((D *ᵥ q.1.1) i, q.1.2), q.2))
      (((measurable_predictor D i).comp measurable_fst).prodMk measurable_snd)

/-- C103. Linear regression with a fixed design: regions for coefficients and variance. -/
theorem C103_linear_regression (D : Matrix (Fin n) (Fin k) ℝ)
    (prior : NormalInverseGamma ℝ (Fin k → ℝ) (Matrix (Fin k) (Fin k) ℝ)) (Δ : Matrix (Fin k) (Fin k) ℝ)
    (hp : prior.delta_inverse = some Δ) (hD : Δ.PosDef) (ha : 0 < prior.alpha) (hb : 0 < prior.beta)
    {θ : Ω → (Fin k → ℝ) × ℝ} {Y : Ω → Fin n → ℝ}
    (h : DrawThenObserve P θ Y (nigNdLaw prior) fun i t => contLaw (Normal.dist ⟨(D *ᵥ t.1) i, √t.2⟩)) :
    ∃ post : (Fin n → ℝ) → NormalInverseGamma ℝ (Fin k → ℝ) (Matrix (Fin k) (Fin k) ℝ),
      (∀ y, linear_regression D y prior = .ok (post y)) ∧ Calibrated P θ Y fun y => nigNdLaw (post y) := by
  obtain ⟨post, h1, h2⟩ := bayes_linear_regression D prior Δ hp hD ha hb
  exact ⟨post, h1, h2.calibrated h⟩

/-! ## Multivariate normal observations -/

theorem bayes_mvn_known_covariance (cov : Matrix (Fin k) (Fin k) ℝ) (hc : cov.PosDef)
    (prior : MultivariateNormal (Fin k → ℝ) (Matrix (Fin k) (Fin k) ℝ)) (hS : prior.cov.PosDef) :
    ∃ post : (Fin n → Fin k → ℝ) → MultivariateNormal (Fin k → ℝ) (Matrix (Fin k) (Fin k) ℝ),
      (∀ x, multivariate_normal_known_covariance (n : ℝ) ((1 / (n : ℝ)) • ∑ i, x i) cov prior = .ok (post x)) ∧
      BayesModel univ prior.pdf (fun _ : Fin n => volume.restrict univ) (fun _ => univ)
        (fun _ m a => (MultivariateNormal.mk m cov).pdf a) (fun x => (post x).pdf) (lawOn univ prior.pdf)
        (fun _ m => lawOn univ (MultivariateNormal.mk m cov).pdf) (fun x => lawOn univ (post x).pdf) := by
  have key : ∀ x : Fin n → Fin k → ℝ, ∃ post : MultivariateNormal (Fin k → ℝ) (Matrix (Fin k) (Fin k) ℝ),
      multivariate_normal_known_covariance (n : ℝ) ((1 / (n : ℝ)) • ∑ i, x i) cov prior = .ok post ∧
      IsPosterior volume univ prior.pdf (fun m => ∏ i, (MultivariateNormal.mk m cov).pdf (x i)) post.pdf := fun x => by
    obtain ⟨post, h1, -, h3⟩ := C21_multivariate_normal_known_covariance_posterior (List.ofFn x)
      ((1 / (n : ℝ)) • ∑ i, x i) (by
        rw [List.length_ofFn, List.sum_ofFn, smul_smul]
        rcases Nat.eq_zero_or_pos n with rfl | hn
        · simp
        · rw [mul_one_div, div_self (by positivity), one_smul]) cov hc prior hS
    rw [List.length_ofFn] at h1
    rw [likelihood_ofFn] at h3
    exact ⟨post, h1, h3⟩
  choose post h1 h2 using key
  refine ⟨post, h1, ?_⟩
  refine ⟨MeasurableSet.univ, fun _ => MeasurableSet.univ,
    fun _ => Filter.Eventually.of_forall fun _ => mem_univ _, measurable_mvnPdf _ _, mvn_isDensity hS _, fun i => ?_,
    fun _ t _ a _ => (mvnPdf_pos hc _ _).le, rfl, fun _ t _ => rfl,
    fun _ t _ => mvn_prob hc t, fun x _ => h2 x, fun _ _ => rfl⟩
  exact measurable_mvnPdf_all.comp (f := fun q : (Fin k → ℝ) × (Fin k → ℝ) => (q.2, q.1, cov)) (by fun_prop)

/-- C103. Multivariate normal observations with known covariance: regions for the mean vector. -/
theorem C103_multivariate_normal_known_covariance (cov : Matrix (Fin k) (Fin k) ℝ) (hc : cov.PosDef)
    (prior : MultivariateNormal (Fin k → ℝ) (Matrix (Fin k) (Fin k) ℝ)) (hS : prior.cov.PosDef)
    {θ : Ω → Fin k → ℝ} {X : Ω → Fin n → Fin k → ℝ}
    (h : DrawThenObserve P θ X (lawOn univ prior.pdf) fun _ m => lawOn univ (MultivariateNormal.mk m cov).pdf) :
    ∃ post : (Fin n → Fin k → ℝ) → MultivariateNormal (Fin k → ℝ) (Matrix (Fin k) (Fin k) ℝ),
      (∀ x, multivariate_normal_known_covariance (n : ℝ) ((1 / (n : ℝ)) • ∑ i, x i) cov prior = .ok (post x)) ∧
      Calibrated P θ X fun x => lawOn univ (post x).pdf := by
  obtain ⟨post, h1, h2⟩ := bayes_mvn_known_covariance cov hc prior hS
  exact ⟨post, h1, h2.calibrated h⟩

/-- C103. Multivariate normal observations with known precision: regions for the mean vector. -/
theorem C103_multivariate_normal_known_precision (precision : Matrix (Fin k) (Fin k) ℝ) (hc : precision.PosDef)
    (prior : MultivariateNormal (Fin k → ℝ) (Matrix (Fin k) (Fin k) ℝ)) (hS : prior.cov.PosDef)
    {θ : Ω → Fin k → ℝ} {X : Ω → Fin n → Fin k → ℝ}
    (h : DrawThenObserve P θ X (lawOn univ prior.pdf) fun _ m => lawOn univ (MultivariateNormal.mk m precision⁻¹).pdf) :
    ∃ post : (Fin n → Fin k → ℝ) → MultivariateNormal (Fin k → ℝ) (Matrix (Fin k) (Fin k) ℝ),
      (∀ x, multivariate_normal_known_precision (n : ℝ) ((1 / (n : ℝ)) • ∑ i, x i) precision prior = .ok (post x)) ∧
      Calibrated P θ X fun x => lawOn univ (post x).pdf := by
  obtain ⟨post, h1, h2⟩ := bayes_mvn_known_covariance (n := n) precision⁻¹ hc.inv prior hS
  refine ⟨post, fun x => ?_, h2.calibrated h⟩
  have hx : (n : ℝ) • ((1 / (n : ℝ)) • ∑ i, x i) = ∑ i, x i := by
    rw [smul_smul]
    rcases Nat.eq_zero_or_pos n with rfl | hn
    · simp
    · rw [mul_one_div, div_self (by positivity), one_smul]
  have := h1 x
  rw [mvn_known_cov_eq n _ _ hx hc.inv prior hS] at this
  rw [mvn_known_prec_eq n _ _ hx hc prior hS, ← this, nonsing_inv_nonsing_inv _ (posDef_unit hc)]

theorem bayes_mvn_known_mean (mu : Fin k → ℝ) (prior : InverseWishart ℝ (Matrix (Fin k) (Fin k) ℝ))
    (hnu : (k : ℝ) - 1 < prior.nu) (hpsi : prior.psi.PosDef) :
    BayesModel {c : UpperIdx k → ℝ | (symOf c).PosDef} (fun c => prior.pdf (symOf c))
      (fun _ : Fin n => volume.restrict univ) (fun _ => univ)
      (fun _ c a => (MultivariateNormal.mk mu (symOf c)).pdf a)
      (fun x c => (multivariate_normal_known_mean (Matrix.of x) mu prior).pdf (symOf c))
      (lawOn {c | (symOf c).PosDef} fun c => prior.pdf (symOf c))
      (fun _ c => lawOn univ (MultivariateNormal.mk mu (symOf c)).pdf)
      (fun x => lawOn {c | (symOf c).PosDef}
        fun c => (multivariate_normal_known_mean (Matrix.of x) mu prior).pdf (symOf c)) := by
  refine ⟨measurableSet_posDef, fun _ => MeasurableSet.univ,
    fun _ => Filter.Eventually.of_forall fun _ => mem_univ _, measurable_invwishartPdf _ _, iw_isDensity hpsi hnu,
    fun i => ?_, fun _ t ht a _ => (mvnPdf_pos ht _ _).le, rfl, fun _ t _ => rfl,
    fun _ t ht => mvn_prob ht mu, fun x _ => C22_multivariate_normal_known_mean_posterior (Matrix.of x) mu prior hnu hpsi,
    fun _ _ => rfl⟩
  exact measurable_mvnPdf_all.comp (f := fun q : (UpperIdx k → ℝ) × (Fin k → ℝ) => (q.2, mu, symOf q.1))
    (measurable_snd.prodMk (measurable_const.prodMk (measurable_symOf.comp measurable_fst)))

/-- C103. Multivariate normal observations with known mean: regions for the covariance matrix, given by its entries on
and above the diagonal. -/
theorem C103_multivariate_normal_known_mean (mu : Fin k → ℝ) (prior : InverseWishart ℝ (Matrix (Fin k) (Fin k) ℝ))
    (hnu : (k : ℝ) - 1 < prior.nu) (hpsi : prior.psi.PosDef) {θ : Ω → UpperIdx k → ℝ} {X : Ω → Fin n → Fin k → ℝ}
    (h : DrawThenObserve P θ X (lawOn {c | (symOf c).PosDef} fun c => prior.pdf (symOf c))
      fun _ c => lawOn univ (MultivariateNormal.mk mu (symOf c)).pdf) :
    Calibrated P θ X fun x => lawOn {c | (symOf c).PosDef}
      fun c => (multivariate_normal_known_mean (Matrix.of x) mu prior).pdf (symOf c) :=
  (bayes_mvn_known_mean mu prior hnu hpsi).calibrated h

/-- the joint law of (mean, covariance) under a `NormalInverseWishart` -/
noncomputable def niwLaw (d : NormalInverseWishart ℝ (Fin k → ℝ) (Matrix (Fin k) (Fin k) ℝ)) :
    Measure ((Fin k → ℝ) × (UpperIdx k → ℝ)) :=
  lawOn {t | (symOf t.2).PosDef} fun t => d.jointPdf t.1 (symOf t.2)

theorem bayes_multivariate_normal (prior : NormalInverseWishart ℝ (Fin k → ℝ) (Matrix (Fin k) (Fin k) ℝ))
    (hk : 0 < prior.kappa) (hnu : (k : ℝ) - 1 < prior.nu) (hpsi : prior.psi.PosDef) :
    ∃ post : (Fin (n + 1) → Fin k → ℝ) → NormalInverseWishart ℝ (Fin k → ℝ) (Matrix (Fin k) (Fin k) ℝ),
      (∀ x, multivariate_normal (Matrix.of x) prior = .ok (post x)) ∧
      BayesModel {t : (Fin k → ℝ) × (UpperIdx k → ℝ) | (symOf t.2).PosDef} (fun t => prior.jointPdf t.1 (symOf t.2))
        (fun _ : Fin (n + 1) => volume.restrict univ) (fun _ => univ)
        (fun _ t a => (MultivariateNormal.mk t.1 (symOf t.2)).pdf a)
        (fun x t => (post x).jointPdf t.1 (symOf t.2)) (niwLaw prior)
        (fun _ t => lawOn univ (MultivariateNormal.mk t.1 (symOf t.2)).pdf) (fun x => niwLaw (post x)) := by
  have key : ∀ x : Fin (n + 1) → Fin k → ℝ, ∃ post : NormalInverseWishart ℝ (Fin k → ℝ) (Matrix (Fin k) (Fin k) ℝ),
      multivariate_normal (Matrix.of x) prior = .ok post ∧
      IsPosterior volume {t : (Fin k → ℝ) × (UpperIdx k → ℝ) | (symOf t.2).PosDef}
        (fun t => prior.jointPdf t.1 (symOf t.2))
        (fun t => ∏ i, (MultivariateNormal.mk t.1 (symOf t.2)).pdf (x i))
        (fun t => post.jointPdf t.1 (symOf t.2)) := fun x => by
    obtain ⟨post, h1, -, -, -, h3⟩ := C23_multivariate_normal_posterior (Matrix.of x) prior hk hnu hpsi
    exact ⟨post, h1, h3⟩
  choose post h1 h2 using key
  refine ⟨post, h1, ?_⟩
  have hsym : Measurable fun t : (Fin k → ℝ) × (UpperIdx k → ℝ) => (symOf t.2 : Matrix (Fin k) (Fin k) ℝ) :=
    measurable_symOf.comp measurable_snd
  refine ⟨measurableSet_posDef.preimage measurable_snd, fun _ => MeasurableSet.univ,
    fun _ => Filter.Eventually.of_forall fun _ => mem_univ _, ?_, niw_isDensity hk hnu hpsi prior.mu,
    fun i => ?_, fun _ t ht a _ => (mvnPdf_pos ht _ _).le, rfl, fun _ t _ => rfl,
    fun _ t ht => mvn_prob ht t.1, fun x _ => h2 x, fun _ _ => rfl⟩
  · exact ((measurable_invwishartPdf _ _).comp measurable_snd).mul (measurable_mvnPdf_all.comp
      (f := fun t : (Fin k → ℝ) × (UpperIdx k → ℝ) => (t.1, prior.mu, (1 / prior.kappa) • symOf t.2))
      (measurable_fst.prodMk (measurable_const.prodMk ((measurable_const_smul_matrix _).comp hsym))))
  · exact measurable_mvnPdf_all.comp (f := fun q : ((Fin k → ℝ) × (UpperIdx k → ℝ)) × (Fin k → ℝ) =>
      (q.2, q.1.1, symOf q.1.2)) (measurable_snd.prodMk ((measurable_fst.comp measurable_fst).prodMk
        (hsym.comp measurable_fst)))

/-- C103. Multivariate normal observations, mean and covariance unknown. -/
theorem C103_multivariate_normal (prior : NormalInverseWishart ℝ (Fin k → ℝ) (Matrix (Fin k) (Fin k) ℝ))
    (hk : 0 < prior.kappa) (hnu : (k : ℝ) - 1 < prior.nu) (hpsi : prior.psi.PosDef)
    {θ : Ω → (Fin k → ℝ) × (UpperIdx k → ℝ)} {X : Ω → Fin (n + 1) → Fin k → ℝ}
    (h : DrawThenObserve P θ X (niwLaw prior) fun _ t => lawOn univ (MultivariateNormal.mk t.1 (symOf t.2)).pdf) :
    ∃ post : (Fin (n + 1) → Fin k → ℝ) → NormalInverseWishart ℝ (Fin k → ℝ) (Matrix (Fin k) (Fin k) ℝ),
      (∀ x, multivariate_normal (Matrix.of x) prior = .ok (post x)) ∧ Calibrated P θ X fun x => niwLaw (post x) := by
  obtain ⟨post, h1, h2⟩ := bayes_multivariate_normal (n := n) prior hk hnu hpsi
  exact ⟨post, h1, h2.calibrated h⟩

/-! ## Categories -/

/-- the law of the first `k` probabilities under a `Dirichlet` -/
noncomputable def dirLaw (d : Dirichlet (Fin (k + 1) → ℝ)) : Measure (Fin k → ℝ) :=
  lawOn (simplex k) fun p => d.pdf (fullVector p)

theorem measurable_dirichletPdf (d : Dirichlet (Fin (k + 1) → ℝ)) :
    Measurable fun p : Fin k → ℝ => d.pdf (fullVector p) := by
  have h := measurable_fullVector_apply (k := k)
  simp only [Dirichlet.pdf, dirichletPdf]
  fun_prop

theorem bayes_categorical (prior : Dirichlet (Fin (k + 1) → ℝ)) (hp : ∀ i, 0 < prior.alpha i) :
    ∃ post : (Fin n → Fin (k + 1)) → Dirichlet (Fin (k + 1) → ℝ),
      (∀ x, categorical_dirichlet (counts (List.ofFn x)) prior = .ok (post x)) ∧
      BayesModel (simplex k) (fun p => prior.pdf (fullVector p)) (fun _ : Fin n => Measure.count) (fun _ => univ)
        (fun _ p j => fullVector p j) (fun x p => (post x).pdf (fullVector p)) (dirLaw prior)
        (fun _ p => pmfLaw (fullVector p)) (fun x => dirLaw (post x)) := by
  have key : ∀ x : Fin n → Fin (k + 1), ∃ post : Dirichlet (Fin (k + 1) → ℝ),
      categorical_dirichlet (counts (List.ofFn x)) prior = .ok post ∧
      IsPosterior volume (simplex k) (fun p => prior.pdf (fullVector p)) (fun p => ∏ i, fullVector p (x i))
        (fun p => post.pdf (fullVector p)) := fun x => by
    obtain ⟨post, h1, -, h3⟩ := C16_categorical_dirichlet_posterior prior hp (List.ofFn x)
    rw [likelihood_ofFn] at h3
    exact ⟨post, h1, h3⟩
  choose post h1 h2 using key
  refine ⟨post, h1, ?_⟩
  refine ⟨measurableSet_simplex k, fun _ => MeasurableSet.univ,
    fun _ => Filter.Eventually.of_forall fun _ => mem_univ _, measurable_dirichletPdf _, dirichlet_isDensity _ hp,
    fun _ => measurable_from_prod_countable_left fun j => measurable_fullVector_apply j,
    fun _ p hps a _ => (fullVector_pos hps a).le, rfl, fun _ p _ => rfl,
    fun _ p hps => pmf_prob (fun a => (fullVector_pos hps a).le) ?_, fun x _ => h2 x, fun _ _ => rfl⟩
  have := hasSum_fintype (fullVector p)
  rwa [sum_fullVector] at this

/-- C103. Category observations: regions for the vector of probabilities. -/
theorem C103_categorical_dirichlet (prior : Dirichlet (Fin (k + 1) → ℝ)) (hp : ∀ i, 0 < prior.alpha i)
    {θ : Ω → Fin k → ℝ} {X : Ω → Fin n → Fin (k + 1)}
    (h : DrawThenObserve P θ X (dirLaw prior) fun _ p => pmfLaw (fullVector p)) :
    ∃ post : (Fin n → Fin (k + 1)) → Dirichlet (Fin (k + 1) → ℝ),
      (∀ x, categorical_dirichlet (counts (List.ofFn x)) prior = .ok (post x)) ∧
      Calibrated P θ X fun x => dirLaw (post x) := by
  obtain ⟨post, h1, h2⟩ := bayes_categorical (n := n) prior hp
  exact ⟨post, h1, h2.calibrated h⟩

theorem bayes_multinomial (N : ℕ) (prior : Dirichlet (Fin (k + 1) → ℝ)) (hp : ∀ i, 0 < prior.alpha i) :
    ∃ post : (Fin n → Fin (k + 1) → ℕ) → Dirichlet (Fin (k + 1) → ℝ),
      (∀ x, multinomial_dirichlet (columnSums (List.ofFn x)) prior = .ok (post x)) ∧
      BayesModel (simplex k) (fun p => prior.pdf (fullVector p))
        (fun _ : Fin n => Measure.count.restrict {x : Fin (k + 1) → ℕ | ∑ i, (x i : ℝ) = N})
        (fun _ => {x | ∑ i, (x i : ℝ) = N})
        (fun _ p x => (Multinomial.mk (N : ℝ) (fullVector p)).pmf x) (fun x p => (post x).pdf (fullVector p)) (dirLaw prior)
        (fun _ p => pmfLaw (Multinomial.mk (N : ℝ) (fullVector p)).pmf) (fun x => dirLaw (post x)) := by
  have key : ∀ x : Fin n → Fin (k + 1) → ℕ, ∃ post : Dirichlet (Fin (k + 1) → ℝ),
      multinomial_dirichlet (columnSums (List.ofFn x)) prior = .ok post ∧
      IsPosterior volume (simplex k) (fun p => prior.pdf (fullVector p))
        (fun p => ∏ i, (Multinomial.mk (∑ j, (x i j : ℝ)) (fullVector p)).pmf (x i))
        (fun p => post.pdf (fullVector p)) := fun x => by
    obtain ⟨post, h1, -, h3⟩ := C16_multinomial_dirichlet_posterior prior hp (List.ofFn x)
    rw [likelihood_ofFn] at h3
    exact ⟨post, h1, h3⟩
  choose post h1 h2 using key
  refine ⟨post, h1, ?_⟩
  refine ⟨measurableSet_simplex k, fun _ => MeasurableSet.of_discrete,
    fun _ => ae_restrict_mem MeasurableSet.of_discrete, measurable_dirichletPdf _, dirichlet_isDensity _ hp,
    fun _ => measurable_from_prod_countable_left fun x => ?_,
    fun _ p hps a _ => multinomialPmf_nonneg N (fun i => (fullVector_pos hps i).le) a, rfl, fun _ p _ => ?_,
    fun _ p hps => pmf_prob (multinomialPmf_nonneg N fun i => (fullVector_pos hps i).le)
      (multinomial_total N (sum_fullVector p)), fun x hx => ?_, fun _ _ => rfl⟩
  · have h := measurable_fullVector_apply (k := k)
    simp only [Multinomial.pmf, multinomialPmf]
    split_ifs
    · fun_prop
    · exact measurable_const
  · rw [pmfLaw, ← withDensity_indicator MeasurableSet.of_discrete]
    congr 1
    funext x
    by_cases hx : x ∈ {x : Fin (k + 1) → ℕ | ∑ i, (x i : ℝ) = N}
    · rw [indicator_of_mem hx]
    · have e : (Multinomial.mk (N : ℝ) (fullVector p)).pmf x = 0 := if_neg hx
      rw [indicator_of_notMem hx, e, ENNReal.ofReal_zero]
  · have := h2 x
    have e : ∀ i, ∑ j, (x i j : ℝ) = N := hx
    simp only [e] at this
    exact this

/-- C103. Multinomial observations of `N` trials each: regions for the vector of probabilities. -/
theorem C103_multinomial_dirichlet (N : ℕ) (prior : Dirichlet (Fin (k + 1) → ℝ)) (hp : ∀ i, 0 < prior.alpha i)
    {θ : Ω → Fin k → ℝ} {X : Ω → Fin n → Fin (k + 1) → ℕ}
    (h : DrawThenObserve P θ X (dirLaw prior) fun _ p => pmfLaw (Multinomial.mk (N : ℝ) (fullVector p)).pmf) :
    ∃ post : (Fin n → Fin (k + 1) → ℕ) → Dirichlet (Fin (k + 1) → ℝ),
      (∀ x, multinomial_dirichlet (columnSums (List.ofFn x)) prior = .ok (post x)) ∧
      Calibrated P θ X fun x => dirLaw (post x) := by
  obtain ⟨post, h1, h2⟩ := bayes_multinomial (n := n) N prior hp
  exact ⟨post, h1, h2.calibrated h⟩

/-! ## The setting of each theorem exists -/

example : ∃ (Ω : Type) (_ : MeasurableSpace Ω) (P : Measure Ω) (θ : Ω → ℝ × ℝ) (X : Ω → Fin 3 → ℝ),
    DrawThenObserve P θ X (nigLaw (⟨0, 2, 1, none, some 3⟩ : NormalInverseGamma ℝ ℝ ℝ))
      fun _ t => contLaw (Normal.dist ⟨t.1, √t.2⟩) := by
  obtain ⟨_, _, h⟩ := bayes_normal_nig (n := 2) (⟨0, 2, 1, none, some 3⟩ : NormalInverseGamma ℝ ℝ ℝ) 3 rfl
    (by norm_num) two_pos one_pos
  obtain ⟨Ω, m, P, θ, X, -, h⟩ := h.exists_draw
  exact ⟨Ω, m, P, θ, X, h⟩

example : ∃ (Ω : Type) (_ : MeasurableSpace Ω) (P : Measure Ω) (θ : Ω → ℝ × ℝ) (X : Ω → Fin 3 → ℝ),
    DrawThenObserve P θ X (nigLaw (⟨0, 2, 1, none, some 3⟩ : NormalInverseGamma ℝ ℝ ℝ))
      fun _ t => lawOn (Ioi 0) (logNormalPdf t.1 t.2) := by
  obtain ⟨_, _, h⟩ := bayes_log_normal_nig (n := 2) (⟨0, 2, 1, none, some 3⟩ : NormalInverseGamma ℝ ℝ ℝ) 3 rfl
    (by norm_num) two_pos one_pos
  obtain ⟨Ω, m, P, θ, X, -, h⟩ := h.exists_draw
  exact ⟨Ω, m, P, θ, X, h⟩

/-- the setting `normal_normal_gamma` of `scripts/parameter-recovery.py` -/
example : ∃ (Ω : Type) (_ : MeasurableSpace Ω) (P : Measure Ω) (θ : Ω → ℝ × ℝ) (X : Ω → Fin 5 → ℝ),
    DrawThenObserve P θ X (ngLaw ⟨0, 1, 2, 1⟩) fun _ t => contLaw (Normal.dist ⟨t.1, √(1 / t.2)⟩) := by
  obtain ⟨_, _, h⟩ := bayes_normal_ng (n := 4) (M := ℝ) ⟨0, 1, 2, 1⟩ one_pos two_pos one_pos
  obtain ⟨Ω, m, P, θ, X, -, h⟩ := h.exists_draw
  exact ⟨Ω, m, P, θ, X, h⟩

example : ∃ (Ω : Type) (_ : MeasurableSpace Ω) (P : Measure Ω) (θ : Ω → ℝ × ℝ) (X : Ω → Fin 5 → ℝ),
    DrawThenObserve P θ X (ngLaw ⟨0, 1, 2, 1⟩) fun _ t => lawOn (Ioi 0) (logNormalPdf t.1 (1 / t.2)) := by
  obtain ⟨_, _, h⟩ := bayes_log_normal_ng (n := 4) (M := ℝ) ⟨0, 1, 2, 1⟩ one_pos two_pos one_pos
  obtain ⟨Ω, m, P, θ, X, -, h⟩ := h.exists_draw
  exact ⟨Ω, m, P, θ, X, h⟩

example : ∃ (Ω : Type) (_ : MeasurableSpace Ω) (P : Measure Ω) (θ : Ω → (Fin 2 → ℝ) × ℝ) (Y : Ω → Fin 3 → ℝ),
    DrawThenObserve P θ Y (nigNdLaw ⟨![0, 1], 2, 1, some 1, none⟩)
      fun i t => contLaw (Normal.dist ⟨((!![1, 0; 1, 1; 1, 2] : Matrix (Fin 3) (Fin 2) ℝ) *ᵥ t.1) i, √t.2⟩) := by
  obtain ⟨_, _, h⟩ := bayes_linear_regression (!![1, 0; 1, 1; 1, 2] : Matrix (Fin 3) (Fin 2) ℝ)
    ⟨![0, 1], 2, 1, some 1, none⟩ 1 rfl PosDef.one two_pos one_pos
  obtain ⟨Ω, m, P, θ, X, -, h⟩ := h.exists_draw
  exact ⟨Ω, m, P, θ, X, h⟩

example : ∃ (Ω : Type) (_ : MeasurableSpace Ω) (P : Measure Ω) (θ : Ω → Fin 2 → ℝ) (X : Ω → Fin 3 → Fin 2 → ℝ),
    DrawThenObserve P θ X (lawOn univ (MultivariateNormal.mk ![0, 1] (1 : Matrix (Fin 2) (Fin 2) ℝ)).pdf)
      fun _ m => lawOn univ (MultivariateNormal.mk m (1 : Matrix (Fin 2) (Fin 2) ℝ)⁻¹).pdf := by
  obtain ⟨_, _, h⟩ := bayes_mvn_known_covariance (n := 3) (1 : Matrix (Fin 2) (Fin 2) ℝ)⁻¹ PosDef.one.inv ⟨![0, 1], 1⟩
    PosDef.one
  obtain ⟨Ω, m, P, θ, X, -, h⟩ := h.exists_draw
  exact ⟨Ω, m, P, θ, X, h⟩

example := (bayes_mvn_known_mean (n := 3) ![0, 1] ⟨4, (1 : Matrix (Fin 2) (Fin 2) ℝ)⟩ (by norm_num) PosDef.one).exists_draw

example : ∃ (Ω : Type) (_ : MeasurableSpace Ω) (P : Measure Ω) (θ : Ω → (Fin 2 → ℝ) × (UpperIdx 2 → ℝ))
    (X : Ω → Fin 3 → Fin 2 → ℝ),
    DrawThenObserve P θ X (niwLaw { mu := ![0, 1], kappa := 1, nu := 4, psi := (1 : Matrix (Fin 2) (Fin 2) ℝ) })
      fun _ t => lawOn univ (MultivariateNormal.mk t.1 (symOf t.2)).pdf := by
  obtain ⟨_, _, h⟩ := bayes_multivariate_normal (n := 2)
    { mu := ![0, 1], kappa := 1, nu := 4, psi := (1 : Matrix (Fin 2) (Fin 2) ℝ) } one_pos (by norm_num) PosDef.one
  obtain ⟨Ω, m, P, θ, X, -, h⟩ := h.exists_draw
  exact ⟨Ω, m, P, θ, X, h⟩

example : ∃ (Ω : Type) (_ : MeasurableSpace Ω) (P : Measure Ω) (θ : Ω → Fin 2 → ℝ) (X : Ω → Fin 4 → Fin 3),
    DrawThenObserve P θ X (dirLaw ⟨![1, 2, 3]⟩) fun _ p => pmfLaw (fullVector p) := by
  obtain ⟨_, _, h⟩ := bayes_categorical (n := 4) (⟨![1, 2, 3]⟩ : Dirichlet (Fin 3 → ℝ))
    fun i => by fin_cases i <;> simp
  obtain ⟨Ω, m, P, θ, X, -, h⟩ := h.exists_draw
  exact ⟨Ω, m, P, θ, X, h⟩

example : ∃ (Ω : Type) (_ : MeasurableSpace Ω) (P : Measure Ω) (θ : Ω → Fin 2 → ℝ) (X : Ω → Fin 4 → Fin 3 → ℕ),
    DrawThenObserve P θ X (dirLaw ⟨![1, 2, 3]⟩) fun _ p => pmfLaw (Multinomial.mk ((10 : ℕ) : ℝ) (fullVector p)).pmf := by
  obtain ⟨_, _, h⟩ := bayes_multinomial (n := 4) 10 (⟨![1, 2, 3]⟩ : Dirichlet (Fin 3 → ℝ))
    fun i => by fin_cases i <;> simp
  obtain ⟨Ω, m, P, θ, X, -, h⟩ := h.exists_draw
  exact ⟨Ω, m, P, θ, X, h⟩

end Conj
