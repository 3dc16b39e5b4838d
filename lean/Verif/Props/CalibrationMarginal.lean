import Verif.Props.CalibrationVector
import Verif.Props.RelabelTwo

/-!
# C103: quantile intervals for one of several unknowns

Intervals for the variance (or precision), for the mean and for a regression coefficient, each read off the posterior
alone. `scripts/parameter-recovery.py:266-291` takes the interval of the precision from `normal(...).gamma.dist`.
-/

open MeasureTheory Set Real

namespace Conj

open Scipy Spec Matrix

variable {Ω : Type} [MeasurableSpace Ω] {P : Measure Ω} {n k : ℕ} {M : Type}

/-- the law of a coordinate with null level sets has no atoms -/
theorem lawOn_map_noAtoms {X : Type} [MeasureSpace X] {S : Set X} {f : X → ℝ} {g : X → ℝ} (hg : Measurable g)
    (h : ∀ y, volume {x | g x = y} = 0) : NullSingletonClass ((lawOn S f).map g) := by
  refine ⟨fun y => ?_⟩
  rw [Measure.map_apply hg (measurableSet_singleton y), lawOn]
  refine withDensity_absolutelyContinuous _ _ ?_
  exact Measure.absolutelyContinuous_of_le Measure.restrict_le_self (h y)

theorem volume_fst_eq (y : ℝ) : volume {t : ℝ × ℝ | t.1 = y} = 0 := by
  have e : {t : ℝ × ℝ | t.1 = y} = {y} ×ˢ univ := by ext; simp
  rw [e, Measure.volume_eq_prod, Measure.prod_prod]
  simp

theorem volume_coef_eq (j : Fin k) (y : ℝ) : volume {t : (Fin k → ℝ) × ℝ | t.1 j = y} = 0 := by
  have e : {t : (Fin k → ℝ) × ℝ | t.1 j = y} = {v | v j = y} ×ˢ univ := by ext; simp
  have h : volume {v : Fin k → ℝ | v j = y} = 0 := by
    rw [volume_pi]
    exact Measure.pi_hyperplane (fun _ : Fin k => (volume : Measure ℝ)) j y
  rw [e, Measure.volume_eq_prod, Measure.prod_prod, h]
  simp

/-- the variance under a `NormalInverseGamma` -/
theorem nigLaw_snd (d : NormalInverseGamma ℝ ℝ M) {nu : ℝ} (hn : d.nu = some nu) (hnu : 0 < nu) (ha : 0 < d.alpha)
    (hb : 0 < d.beta) : (nigLaw d).map Prod.snd = contLaw d.inverse_gamma.dist := by
  have h := scaleMix_snd (g := d.inverse_gamma.dist.pdf) (V := fun v => v / nu) (m := d.mu)
    (InverseGamma.isDensity _ ha hb) (fun y hy => div_pos hy hnu) (nigPdf_isDensity d.mu nu d.alpha d.beta hnu ha hb)
  rw [invgamma_lawOn _ hb, ← h, nigLaw, nig_jointPdf_eq, hn]
  rfl

/-- the precision under a `NormalGamma` -/
theorem ngLaw_snd (d : NormalGamma ℝ) (hl : 0 < d.lam) (ha : 0 < d.alpha) (hb : 0 < d.beta) :
    (ngLaw d).map Prod.snd = contLaw d.gamma.dist := by
  have h := scaleMix_snd (g := d.gamma.dist.pdf) (V := fun v => 1 / (d.lam * v)) (m := d.mu)
    (Gamma.isDensity _ ha hb) (fun y hy => by have : 0 < y := hy; positivity)
    (ngPdf_isDensity d.mu d.lam d.alpha d.beta hl ha hb)
  rw [gamma_lawOn _ hb, ← h, ngLaw, ng_jointPdf_eq]
  rfl

/-- the variance under a multivariate `NormalInverseGamma` -/
theorem nigNdLaw_snd (d : NormalInverseGamma ℝ (Fin k → ℝ) (Matrix (Fin k) (Fin k) ℝ)) {D : Matrix (Fin k) (Fin k) ℝ}
    (h : d.delta_inverse = some D) (hD : D.PosDef) (ha : 0 < d.alpha) (hb : 0 < d.beta) :
    (nigNdLaw d).map Prod.snd = contLaw d.inverse_gamma.dist := by
  have hg : IsDensity volume (Ioi 0) d.inverse_gamma.dist.pdf := InverseGamma.isDensity _ ha hb
  rw [invgamma_lawOn _ hb]
  ext A hA
  have key := lintegral_lawOn_prod (S := (univ : Set (Fin k → ℝ))) (g := d.inverse_gamma.dist.pdf)
    (h := fun b v => mvnPdf d.mu (v • D) b) measurableSet_Ioi hg (fun v hv => mvn_isDensity (hD.smul hv) d.mu)
    (nigNd_isDensity ha hb hD d.mu) (F := (Prod.snd ⁻¹' A).indicator 1)
    (measurable_one.indicator (measurable_snd hA))
  rw [Measure.map_apply measurable_snd hA, ← lintegral_indicator_one (measurable_snd hA),
    ← lintegral_indicator_one hA, nigNdLaw, h]
  refine Eq.trans key (lintegral_congr_ae ?_)
  filter_upwards [ae_lawOn_mem measurableSet_Ioi d.inverse_gamma.dist.pdf] with v hv
  have hv : 0 < v := hv
  have := lawOn_prob MeasurableSet.univ (mvn_isDensity (hD.smul hv) d.mu)
  rw [show (fun x : Fin k → ℝ => (Prod.snd ⁻¹' A).indicator (1 : (Fin k → ℝ) × ℝ → ENNReal) (x, v)) =
    fun _ => A.indicator 1 v from rfl, lintegral_const, measure_univ, mul_one]

/-- C103. Normal observations, `NormalInverseGamma` prior: the interval of the variance from
`posterior.inverse_gamma.dist.ppf`, and the interval of the mean. -/
theorem C103_normal_nig_intervals (prior : NormalInverseGamma ℝ ℝ M) (nu : ℝ) (hn : prior.nu = some nu) (hnu : 0 < nu)
    (ha : 0 < prior.alpha) (hb : 0 < prior.beta) {θ : Ω → ℝ × ℝ} {X : Ω → Fin (n + 1) → ℝ}
    (h : DrawThenObserve P θ X (nigLaw prior) fun _ t => contLaw (Normal.dist ⟨t.1, √t.2⟩)) :
    ∃ post : (Fin (n + 1) → ℝ) → NormalInverseGamma ℝ ℝ M,
      (∀ x, normal (∑ i, x i) (∑ i, x i ^ 2) ((n + 1 : ℕ) : ℝ) (.nig prior) = .ok (.nig (post x))) ∧
      IntervalCoverage P (fun ω => (θ ω).2) X (fun x => contLaw (post x).inverse_gamma.dist) ∧
      IntervalCoverage P (fun ω => (θ ω).1) X (fun x => (nigLaw (post x)).map Prod.fst) := by
  obtain ⟨post, h1, h2⟩ := bayes_normal_nig (n := n) prior nu hn hnu ha hb
  have := h2.prob h
  refine ⟨post, h1, h2.interval_of h measurable_snd fun x _ => ?_, h2.interval_of h measurable_fst fun x _ =>
    ⟨rfl, lawOn_map_noAtoms measurable_fst volume_fst_eq⟩⟩
  obtain ⟨p, nu', e1, e2, v1, v2, v3, -⟩ := C14_normal_posterior_nig prior nu hn hnu ha hb (List.ofFn x) (ofFn_ne_nil x)
  rw [List.map_ofFn, List.sum_ofFn, List.sum_ofFn, List.length_ofFn] at e2
  have e : post x = p := by
    have := (h1 x).symm.trans e2
    simpa using this
  refine ⟨?_, by rw [contLaw]; infer_instance⟩
  rw [e]
  exact nigLaw_snd p e1 v1 v2 v3

/-- C103. Normal observations, `NormalGamma` prior (setup `normal_normal_gamma` of the script): the interval of the
precision from `posterior.gamma.dist.ppf`, and the interval of the mean. -/
theorem C103_normal_ng_intervals (prior : NormalGamma ℝ) (hl : 0 < prior.lam)
    (ha : 0 < prior.alpha) (hb : 0 < prior.beta) {θ : Ω → ℝ × ℝ} {X : Ω → Fin (n + 1) → ℝ}
    (h : DrawThenObserve P θ X (ngLaw prior) fun _ t => contLaw (Normal.dist ⟨t.1, √(1 / t.2)⟩)) :
    ∃ post : (Fin (n + 1) → ℝ) → NormalGamma ℝ,
      (∀ x, normal (∑ i, x i) (∑ i, x i ^ 2) ((n + 1 : ℕ) : ℝ) (.ng prior : NormalPrior ℝ M) = .ok (.ng (post x))) ∧
      IntervalCoverage P (fun ω => (θ ω).2) X (fun x => contLaw (post x).gamma.dist) ∧
      IntervalCoverage P (fun ω => (θ ω).1) X (fun x => (ngLaw (post x)).map Prod.fst) := by
  obtain ⟨post, h1, h2⟩ := bayes_normal_ng (n := n) (M := M) prior hl ha hb
  have := h2.prob h
  refine ⟨post, h1, h2.interval_of h measurable_snd fun x _ => ?_, h2.interval_of h measurable_fst fun x _ =>
    ⟨rfl, lawOn_map_noAtoms measurable_fst volume_fst_eq⟩⟩
  obtain ⟨p, e2, v1, v2, v3, -⟩ := C14_normal_posterior_ng (M := M) prior hl ha hb (List.ofFn x) (ofFn_ne_nil x)
  rw [List.map_ofFn, List.sum_ofFn, List.sum_ofFn, List.length_ofFn] at e2
  have e : post x = p := by
    have := (h1 x).symm.trans e2
    simpa using this
  refine ⟨?_, by rw [contLaw]; infer_instance⟩
  rw [e]
  exact ngLaw_snd p v1 v2 v3

/-- C103. Linear regression: the interval of the variance from `posterior.inverse_gamma.dist.ppf`, and the interval of
every coefficient. -/
theorem C103_linear_regression_intervals (D : Matrix (Fin n) (Fin k) ℝ)
    (prior : NormalInverseGamma ℝ (Fin k → ℝ) (Matrix (Fin k) (Fin k) ℝ)) (Δ : Matrix (Fin k) (Fin k) ℝ)
    (hp : prior.delta_inverse = some Δ) (hD : Δ.PosDef) (ha : 0 < prior.alpha) (hb : 0 < prior.beta)
    {θ : Ω → (Fin k → ℝ) × ℝ} {Y : Ω → Fin n → ℝ}
    (h : DrawThenObserve P θ Y (nigNdLaw prior) fun i t => contLaw (Normal.dist ⟨(D *ᵥ t.1) i, √t.2⟩)) :
    ∃ post : (Fin n → ℝ) → NormalInverseGamma ℝ (Fin k → ℝ) (Matrix (Fin k) (Fin k) ℝ),
      (∀ y, linear_regression D y prior = .ok (post y)) ∧
      IntervalCoverage P (fun ω => (θ ω).2) Y (fun y => contLaw (post y).inverse_gamma.dist) ∧
      ∀ j, IntervalCoverage P (fun ω => (θ ω).1 j) Y (fun y => (nigNdLaw (post y)).map fun t => t.1 j) := by
  obtain ⟨post, h1, h2⟩ := bayes_linear_regression D prior Δ hp hD ha hb
  have := h2.prob h
  have hm : ∀ j : Fin k, Measurable fun t : (Fin k → ℝ) × ℝ => t.1 j := fun j => by fun_prop
  refine ⟨post, h1, h2.interval_of h measurable_snd fun y _ => ?_, fun j => h2.interval_of h (hm j) fun y _ =>
    ⟨rfl, lawOn_map_noAtoms (hm j) (volume_coef_eq j)⟩⟩
  obtain ⟨p, D', e2, e1, v1, v2, v3, -⟩ := C20_linear_regression_posterior D y prior Δ hp hD ha hb
  have e : post y = p := by
    have := (h1 y).symm.trans e2
    simpa using this
  refine ⟨?_, by rw [contLaw]; infer_instance⟩
  rw [e]
  exact nigNdLaw_snd p e1 v1 v2 v3

/-- the law of the total probability of the categories in `A` -/
theorem dirLaw_share {A : Finset (Fin (k + 1))} (hA : A.Nonempty) (hA' : Aᶜ.Nonempty)
    (d : Dirichlet (Fin (k + 1) → ℝ)) (hd : ∀ i, 0 < d.alpha i) :
    (dirLaw d).map (fun p => ∑ i ∈ A, fullVector p i) =
      contLaw (Beta.dist ⟨∑ i ∈ A, d.alpha i, ∑ i ∈ Aᶜ, d.alpha i⟩) := by
  have hm : Measurable fun p : Fin k → ℝ => ∑ i ∈ A, fullVector p i :=
    Finset.measurable_sum _ fun i _ => (measurable_pi_apply i).comp measurable_fullVector'
  have hv := valid_share hA hA' hd
  have hβ := Beta.isDensity ⟨∑ i ∈ A, d.alpha i, ∑ i ∈ Aᶜ, d.alpha i⟩ hv.1 hv.2
  have hδ := dirichlet_isDensity d.alpha hd
  rw [beta_lawOn]
  ext B hB
  have h := shareProb_eq hA hA' d hd hB
  have e1 : (dirLaw d).map (fun p => ∑ i ∈ A, fullVector p i) B = ENNReal.ofReal (shareProb A d.pdf B) := by
    have hS : MeasurableSet {p ∈ simplex k | ∑ i ∈ A, fullVector p i ∈ B} := (measurableSet_simplex k).inter (hm hB)
    rw [Measure.map_apply hm hB, dirLaw, lawOn, withDensity_apply _ (hm hB), shareProb,
      Measure.restrict_restrict (hm hB), ofReal_integral_eq_lintegral_ofReal]
    · rw [inter_comm]
      rfl
    · exact hδ.2.1.mono_set fun p hp => hp.1
    · filter_upwards [ae_restrict_mem hS] with p hp
      exact hδ.1 p hp.1
  have e2 : lawOn (Ioo 0 1) (Beta.dist ⟨∑ i ∈ A, d.alpha i, ∑ i ∈ Aᶜ, d.alpha i⟩).pdf B =
      ENNReal.ofReal (∫ x in Ioo 0 1 ∩ B, (Beta.dist ⟨∑ i ∈ A, d.alpha i, ∑ i ∈ Aᶜ, d.alpha i⟩).pdf x) := by
    rw [lawOn, withDensity_apply _ hB, Measure.restrict_restrict hB, ofReal_integral_eq_lintegral_ofReal]
    · rw [inter_comm]
    · exact hβ.2.1.mono_set inter_subset_left
    · filter_upwards [ae_restrict_mem (measurableSet_Ioo.inter hB)] with p hp
      exact hβ.1 p hp.1
  rw [e1, e2, h]

/-- C103. Category observations: for every set `A` of categories (not all of them), the interval of its probability from
the Beta distribution with the summed posterior parameters inside and outside `A`. -/
theorem C103_categorical_dirichlet_intervals (prior : Dirichlet (Fin (k + 1) → ℝ)) (hp : ∀ i, 0 < prior.alpha i)
    {A : Finset (Fin (k + 1))} (hA : A.Nonempty) (hA' : Aᶜ.Nonempty) {θ : Ω → Fin k → ℝ} {X : Ω → Fin n → Fin (k + 1)}
    (h : DrawThenObserve P θ X (dirLaw prior) fun _ p => pmfLaw (fullVector p)) :
    ∃ post : (Fin n → Fin (k + 1)) → Dirichlet (Fin (k + 1) → ℝ),
      (∀ x, categorical_dirichlet (counts (List.ofFn x)) prior = .ok (post x)) ∧
      IntervalCoverage P (fun ω => ∑ i ∈ A, fullVector (θ ω) i) X
        (fun x => contLaw (Beta.dist ⟨∑ i ∈ A, (post x).alpha i, ∑ i ∈ Aᶜ, (post x).alpha i⟩)) := by
  obtain ⟨post, h1, h2⟩ := bayes_categorical (n := n) prior hp
  have := h2.prob h
  have hm : Measurable fun p : Fin k → ℝ => ∑ i ∈ A, fullVector p i :=
    Finset.measurable_sum _ fun i _ => (measurable_pi_apply i).comp measurable_fullVector'
  refine ⟨post, h1, h2.interval_of h hm fun x _ => ⟨?_, by rw [contLaw]; infer_instance⟩⟩
  refine dirLaw_share hA hA' _ fun i => ?_
  have e : post x = ⟨fun i => prior.alpha i + counts (List.ofFn x) i⟩ := by
    have e := h1 x
    change Except.ok _ = Except.ok _ at e
    exact (Except.ok.inj e).symm
  rw [e]
  have : 0 ≤ counts (List.ofFn x) i := Nat.cast_nonneg _
  have := hp i
  simp only
  linarith

/-- the same for multinomial observations -/
theorem C103_multinomial_dirichlet_intervals (N : ℕ) (prior : Dirichlet (Fin (k + 1) → ℝ)) (hp : ∀ i, 0 < prior.alpha i)
    {A : Finset (Fin (k + 1))} (hA : A.Nonempty) (hA' : Aᶜ.Nonempty) {θ : Ω → Fin k → ℝ}
    {X : Ω → Fin n → Fin (k + 1) → ℕ}
    (h : DrawThenObserve P θ X (dirLaw prior) fun _ p => pmfLaw (Multinomial.mk (N : ℝ) (fullVector p)).pmf) :
    ∃ post : (Fin n → Fin (k + 1) → ℕ) → Dirichlet (Fin (k + 1) → ℝ),
      (∀ x, multinomial_dirichlet (columnSums (List.ofFn x)) prior = .ok (post x)) ∧
      IntervalCoverage P (fun ω => ∑ i ∈ A, fullVector (θ ω) i) X
        (fun x => contLaw (Beta.dist ⟨∑ i ∈ A, (post x).alpha i, ∑ i ∈ Aᶜ, (post x).alpha i⟩)) := by
  obtain ⟨post, h1, h2⟩ := bayes_multinomial (n := n) N prior hp
  have := h2.prob h
  have hm : Measurable fun p : Fin k → ℝ => ∑ i ∈ A, fullVector p i :=
    Finset.measurable_sum _ fun i _ => (measurable_pi_apply i).comp measurable_fullVector'
  refine ⟨post, h1, h2.interval_of h hm fun x _ => ⟨?_, by rw [contLaw]; infer_instance⟩⟩
  refine dirLaw_share hA hA' _ fun i => ?_
  have e : post x = ⟨fun i => prior.alpha i + columnSums (List.ofFn x) i⟩ := by
    have e := h1 x
    change Except.ok _ = Except.ok _ at e
    exact (Except.ok.inj e).symm
  rw [e]
  have : 0 ≤ columnSums (List.ofFn x) i := Nat.cast_nonneg _
  have := hp i
  simp only
  linarith

/-- setup `normal_normal_gamma` of `scripts/parameter-recovery.py` with five observations: the 95% interval of the
precision -/
example : ∃ (Ω : Type) (_ : MeasurableSpace Ω) (P : Measure Ω) (θ : Ω → ℝ × ℝ) (X : Ω → Fin 5 → ℝ)
    (post : (Fin 5 → ℝ) → NormalGamma ℝ),
    DrawThenObserve P θ X (ngLaw ⟨0, 1, 2, 1⟩) (fun _ t => contLaw (Normal.dist ⟨t.1, √(1 / t.2)⟩)) ∧
    (∀ x, normal (∑ i, x i) (∑ i, x i ^ 2) ((4 + 1 : ℕ) : ℝ) (.ng ⟨0, 1, 2, 1⟩ : NormalPrior ℝ ℝ) = .ok (.ng (post x))) ∧
    P {ω | ppf (contLaw (post (X ω)).gamma.dist) 0.025 ≤ (θ ω).2 ∧ (θ ω).2 ≤ ppf (contLaw (post (X ω)).gamma.dist) 0.975} =
      ENNReal.ofReal 0.95 := by
  obtain ⟨_, _, h⟩ := bayes_normal_ng (n := 4) (M := ℝ) ⟨0, 1, 2, 1⟩ one_pos two_pos one_pos
  obtain ⟨Ω, m, P, θ, X, -, h⟩ := h.exists_draw
  obtain ⟨post, h1, h2, -⟩ := C103_normal_ng_intervals (M := ℝ) ⟨0, 1, 2, 1⟩ one_pos two_pos one_pos h
  have := h2 0.025 0.975 (by norm_num) (by norm_num) (by norm_num)
  rw [show (0.975 : ℝ) - 0.025 = 0.95 by norm_num] at this
  exact ⟨Ω, m, P, θ, X, post, h, h1, this⟩

end Conj
