import Verif.Props.CalibrationMarginal
import Verif.Lemmas.ConcentrationMatrix
import Verif.Props.MultivariateNormal

/-!
# C103: quantile intervals of log-normal models and of one entry of a mean vector

For a multivariate normal mean the interval of entry `j` is the one of `posterior[j].dist.ppf`.
-/

open MeasureTheory Set Real

namespace Conj

open Scipy Spec Matrix

variable {Ω : Type} [MeasurableSpace Ω] {P : Measure Ω} {n k : ℕ} {M : Type}

/-- C103. Log-normal observations, `NormalInverseGamma` prior: the interval of the variance of the logarithms from
`posterior.inverse_gamma.dist.ppf`, and the interval of their mean. -/
theorem C103_log_normal_nig_intervals (prior : NormalInverseGamma ℝ ℝ M) (nu : ℝ) (hn : prior.nu = some nu)
    (hnu : 0 < nu) (ha : 0 < prior.alpha) (hb : 0 < prior.beta) {θ : Ω → ℝ × ℝ} {X : Ω → Fin (n + 1) → ℝ}
    (h : DrawThenObserve P θ X (nigLaw prior) fun _ t => lawOn (Ioi 0) (logNormalPdf t.1 t.2)) :
    ∃ post : (Fin (n + 1) → ℝ) → NormalInverseGamma ℝ ℝ M,
      (∀ x, (∀ i, 0 < x i) →
        log_normal (∑ i, log (x i)) (∑ i, log (x i) ^ 2) ((n + 1 : ℕ) : ℝ) (.nig prior) = .ok (.nig (post x))) ∧
      IntervalCoverage P (fun ω => (θ ω).2) X (fun x => contLaw (post x).inverse_gamma.dist) ∧
      IntervalCoverage P (fun ω => (θ ω).1) X (fun x => (nigLaw (post x)).map Prod.fst) := by
  obtain ⟨post, h1, h2⟩ := bayes_log_normal_nig (n := n) prior nu hn hnu ha hb
  have := h2.prob h
  refine ⟨post, h1, h2.interval_of h measurable_snd fun x hx => ?_, h2.interval_of h measurable_fst fun x _ =>
    ⟨rfl, lawOn_map_noAtoms measurable_fst volume_fst_eq⟩⟩
  obtain ⟨p, nu', e1, e2, v1, v2, v3, -⟩ := C14_normal_posterior_nig prior nu hn hnu ha hb
    (List.ofFn fun i => log (x i)) (ofFn_ne_nil _)
  rw [List.map_ofFn, List.sum_ofFn, List.sum_ofFn, List.length_ofFn] at e2
  have e : post x = p := by
    have := (h1 x hx).symm.trans e2
    simpa using this
  refine ⟨?_, by rw [contLaw]; infer_instance⟩
  rw [e]
  exact nigLaw_snd p e1 v1 v2 v3

/-- C103. Log-normal observations, `NormalGamma` prior: the interval of the precision of the logarithms from
`posterior.gamma.dist.ppf`, and the interval of their mean. -/
theorem C103_log_normal_ng_intervals (prior : NormalGamma ℝ) (hl : 0 < prior.lam)
    (ha : 0 < prior.alpha) (hb : 0 < prior.beta) {θ : Ω → ℝ × ℝ} {X : Ω → Fin (n + 1) → ℝ}
    (h : DrawThenObserve P θ X (ngLaw prior) fun _ t => lawOn (Ioi 0) (logNormalPdf t.1 (1 / t.2))) :
    ∃ post : (Fin (n + 1) → ℝ) → NormalGamma ℝ,
      (∀ x, (∀ i, 0 < x i) → log_normal (∑ i, log (x i)) (∑ i, log (x i) ^ 2) ((n + 1 : ℕ) : ℝ)
        (.ng prior : NormalPrior ℝ M) = .ok (.ng (post x))) ∧
      IntervalCoverage P (fun ω => (θ ω).2) X (fun x => contLaw (post x).gamma.dist) ∧
      IntervalCoverage P (fun ω => (θ ω).1) X (fun x => (ngLaw (post x)).map Prod.fst) := by
  obtain ⟨post, h1, h2⟩ := bayes_log_normal_ng (n := n) (M := M) prior hl ha hb
  have := h2.prob h
  refine ⟨post, h1, h2.interval_of h measurable_snd fun x hx => ?_, h2.interval_of h measurable_fst fun x _ =>
    ⟨rfl, lawOn_map_noAtoms measurable_fst volume_fst_eq⟩⟩
  obtain ⟨p, e2, v1, v2, v3, -⟩ := C14_normal_posterior_ng (M := M) prior hl ha hb
    (List.ofFn fun i => log (x i)) (ofFn_ne_nil _)
  rw [List.map_ofFn, List.sum_ofFn, List.sum_ofFn, List.length_ofFn] at e2
  have e : post x = p := by
    have := (h1 x hx).symm.trans e2
    simpa using this
  refine ⟨?_, by rw [contLaw]; infer_instance⟩
  rw [e]
  exact ngLaw_snd p v1 v2 v3

/-- the number of observations times their mean is their sum -/
theorem smul_mean (x : Fin n → Fin k → ℝ) : (n : ℝ) • ((1 / (n : ℝ)) • ∑ i, x i) = ∑ i, x i := by
  rw [smul_smul]
  rcases Nat.eq_zero_or_pos n with rfl | hn
  · simp
  · rw [mul_one_div, div_self (by positivity), one_smul]

/-- one entry of a multivariate normal vector: the law of `d[j].dist` -/
theorem mvn_entry_law (d : MultivariateNormal (Fin k → ℝ) (Matrix (Fin k) (Fin k) ℝ)) (h : d.cov.PosDef) (j : Fin k) :
    (lawOn univ d.pdf).map (fun x => x j) = contLaw (d.getInt j).dist := by
  rw [MultivariateNormal.getInt, powq_half]
  exact mvn_coord h d.mu j

/-- C103. Multivariate normal observations with known covariance: the interval of entry `j` of the mean vector from
`posterior[j].dist.ppf`. -/
theorem C103_multivariate_normal_known_covariance_intervals (cov : Matrix (Fin k) (Fin k) ℝ) (hc : cov.PosDef)
    (prior : MultivariateNormal (Fin k → ℝ) (Matrix (Fin k) (Fin k) ℝ)) (hS : prior.cov.PosDef)
    {θ : Ω → Fin k → ℝ} {X : Ω → Fin n → Fin k → ℝ}
    (h : DrawThenObserve P θ X (lawOn univ prior.pdf) fun _ m => lawOn univ (MultivariateNormal.mk m cov).pdf) :
    ∃ post : (Fin n → Fin k → ℝ) → MultivariateNormal (Fin k → ℝ) (Matrix (Fin k) (Fin k) ℝ),
      (∀ x, multivariate_normal_known_covariance (n : ℝ) ((1 / (n : ℝ)) • ∑ i, x i) cov prior = .ok (post x)) ∧
      ∀ j, IntervalCoverage P (fun ω => θ ω j) X fun x => contLaw ((post x).getInt j).dist := by
  obtain ⟨post, h1, h2⟩ := bayes_mvn_known_covariance (n := n) cov hc prior hS
  have := h2.prob h
  refine ⟨post, h1, fun j => h2.interval_of h (measurable_pi_apply j) fun x _ => ⟨?_, by rw [contLaw]; infer_instance⟩⟩
  obtain ⟨p, e2, v1, -⟩ := C21_multivariate_normal_known_covariance_posterior (List.ofFn x)
    ((1 / (n : ℝ)) • ∑ i, x i) (by rw [List.length_ofFn, List.sum_ofFn, smul_mean]) cov hc prior hS
  rw [List.length_ofFn] at e2
  have e : post x = p := by
    have := (h1 x).symm.trans e2
    simpa using this
  rw [e]
  exact mvn_entry_law p v1 j

/-- C103. The same with known precision. -/
theorem C103_multivariate_normal_known_precision_intervals (precision : Matrix (Fin k) (Fin k) ℝ) (hc : precision.PosDef)
    (prior : MultivariateNormal (Fin k → ℝ) (Matrix (Fin k) (Fin k) ℝ)) (hS : prior.cov.PosDef)
    {θ : Ω → Fin k → ℝ} {X : Ω → Fin n → Fin k → ℝ}
    (h : DrawThenObserve P θ X (lawOn univ prior.pdf) fun _ m => lawOn univ (MultivariateNormal.mk m precision⁻¹).pdf) :
    ∃ post : (Fin n → Fin k → ℝ) → MultivariateNormal (Fin k → ℝ) (Matrix (Fin k) (Fin k) ℝ),
      (∀ x, multivariate_normal_known_precision (n : ℝ) ((1 / (n : ℝ)) • ∑ i, x i) precision prior = .ok (post x)) ∧
      ∀ j, IntervalCoverage P (fun ω => θ ω j) X fun x => contLaw ((post x).getInt j).dist := by
  obtain ⟨post, h1, h2⟩ := C103_multivariate_normal_known_covariance_intervals precision⁻¹ hc.inv prior hS h
  refine ⟨post, fun x => ?_, h2⟩
  have hx : (n : ℝ) • ((1 / (n : ℝ)) • ∑ i, x i) = ∑ i, x i := smul_mean x
  have := h1 x
  rw [mvn_known_cov_eq n _ _ hx hc.inv prior hS] at this
  rw [mvn_known_prec_eq n _ _ hx hc prior hS, ← this, nonsing_inv_nonsing_inv _ (posDef_unit hc)]

theorem volume_entry_eq {m : Type} [Fintype m] (j : m) (y : ℝ) : volume {v : m → ℝ | v j = y} = 0 := by
  rw [volume_pi]
  exact Measure.pi_hyperplane (fun _ : m => (volume : Measure ℝ)) j y

/-- C103. Multivariate normal observations with known mean: the interval of every entry of the covariance matrix under
the posterior. -/
theorem C103_multivariate_normal_known_mean_intervals (mu : Fin k → ℝ)
    (prior : InverseWishart ℝ (Matrix (Fin k) (Fin k) ℝ)) (hnu : (k : ℝ) - 1 < prior.nu) (hpsi : prior.psi.PosDef)
    {θ : Ω → UpperIdx k → ℝ} {X : Ω → Fin n → Fin k → ℝ}
    (h : DrawThenObserve P θ X (lawOn {c | (symOf c).PosDef} fun c => prior.pdf (symOf c))
      fun _ c => lawOn univ (MultivariateNormal.mk mu (symOf c)).pdf) (i j : Fin k) :
    IntervalCoverage P (fun ω => symOf (θ ω) i j) X fun x => (lawOn {c | (symOf c).PosDef}
      fun c => (multivariate_normal_known_mean (Matrix.of x) mu prior).pdf (symOf c)).map fun c => symOf c i j := by
  have h2 := bayes_mvn_known_mean (n := n) mu prior hnu hpsi
  have := h2.prob h
  obtain ⟨e, he⟩ : ∃ e : UpperIdx k, ∀ c : UpperIdx k → ℝ, symOf c i j = c e := ⟨⟨(min i j, max i j), min_le_max⟩, fun _ => rfl⟩
  have hm : Measurable fun c : UpperIdx k → ℝ => symOf c i j := by
    simp only [he]
    exact measurable_pi_apply e
  exact h2.interval_of h hm fun x _ => ⟨rfl, lawOn_map_noAtoms hm fun y => by simp only [he]; exact volume_entry_eq e y⟩

/-- C103. Multivariate normal observations, mean and covariance unknown: the interval of entry `j` of the mean vector and
of every entry of the covariance matrix, under the joint posterior. -/
theorem C103_multivariate_normal_intervals (prior : NormalInverseWishart ℝ (Fin k → ℝ) (Matrix (Fin k) (Fin k) ℝ))
    (hk : 0 < prior.kappa) (hnu : (k : ℝ) - 1 < prior.nu) (hpsi : prior.psi.PosDef)
    {θ : Ω → (Fin k → ℝ) × (UpperIdx k → ℝ)} {X : Ω → Fin (n + 1) → Fin k → ℝ}
    (h : DrawThenObserve P θ X (niwLaw prior) fun _ t => lawOn univ (MultivariateNormal.mk t.1 (symOf t.2)).pdf) :
    ∃ post : (Fin (n + 1) → Fin k → ℝ) → NormalInverseWishart ℝ (Fin k → ℝ) (Matrix (Fin k) (Fin k) ℝ),
      (∀ x, multivariate_normal (Matrix.of x) prior = .ok (post x)) ∧
      (∀ j, IntervalCoverage P (fun ω => (θ ω).1 j) X fun x => (niwLaw (post x)).map fun t => t.1 j) ∧
      ∀ i j, IntervalCoverage P (fun ω => symOf (θ ω).2 i j) X fun x => (niwLaw (post x)).map fun t => symOf t.2 i j := by
  obtain ⟨post, h1, h2⟩ := bayes_multivariate_normal (n := n) prior hk hnu hpsi
  have := h2.prob h
  refine ⟨post, h1, fun j => ?_, fun i j => ?_⟩
  · have hm : Measurable fun t : (Fin k → ℝ) × (UpperIdx k → ℝ) => t.1 j := by fun_prop
    refine h2.interval_of h hm fun x _ => ⟨rfl, lawOn_map_noAtoms hm fun y => ?_⟩
    have e : {t : (Fin k → ℝ) × (UpperIdx k → ℝ) | t.1 j = y} = {v | v j = y} ×ˢ univ := by ext; simp
    rw [e, Measure.volume_eq_prod, Measure.prod_prod, volume_entry_eq, zero_mul]
  · obtain ⟨q, hq⟩ : ∃ e : UpperIdx k, ∀ c : UpperIdx k → ℝ, symOf c i j = c e := ⟨⟨(min i j, max i j), min_le_max⟩, fun _ => rfl⟩
    have hm : Measurable fun t : (Fin k → ℝ) × (UpperIdx k → ℝ) => symOf t.2 i j := by
      simp only [hq]
      fun_prop
    refine h2.interval_of h hm fun x _ => ⟨rfl, lawOn_map_noAtoms hm fun y => ?_⟩
    have e : {t : (Fin k → ℝ) × (UpperIdx k → ℝ) | symOf t.2 i j = y} = univ ×ˢ {v | v q = y} := by ext; simp [hq]
    rw [e, Measure.volume_eq_prod, Measure.prod_prod, volume_entry_eq, mul_zero]

/-- two correlated measurements, seen three times: the 95% interval of the second mean -/
example : ∃ (Ω : Type) (_ : MeasurableSpace Ω) (P : Measure Ω) (θ : Ω → Fin 2 → ℝ) (X : Ω → Fin 3 → Fin 2 → ℝ)
    (post : (Fin 3 → Fin 2 → ℝ) → MultivariateNormal (Fin 2 → ℝ) (Matrix (Fin 2) (Fin 2) ℝ)),
    (∀ x, multivariate_normal_known_covariance ((3 : ℕ) : ℝ) ((1 / ((3 : ℕ) : ℝ)) • ∑ i, x i) !![2, 1; 1, 2] ⟨![0, 1], 1⟩ =
      .ok (post x)) ∧
    P {ω | ppf (contLaw ((post (X ω)).getInt 1).dist) 0.025 ≤ θ ω 1 ∧
      θ ω 1 ≤ ppf (contLaw ((post (X ω)).getInt 1).dist) 0.975} = ENNReal.ofReal 0.95 := by
  obtain ⟨_, _, h⟩ := bayes_mvn_known_covariance (n := 3) !![2, 1; 1, 2] exampleCov_posDef ⟨![0, 1], 1⟩ PosDef.one
  obtain ⟨Ω, m, P, θ, X, -, h⟩ := h.exists_draw
  obtain ⟨post, h1, h2⟩ := C103_multivariate_normal_known_covariance_intervals _ exampleCov_posDef _ PosDef.one h
  have := h2 1 0.025 0.975 (by norm_num) (by norm_num) (by norm_num)
  rw [show (0.975 : ℝ) - 0.025 = 0.95 by norm_num] at this
  exact ⟨Ω, m, P, θ, X, post, h1, this⟩

/-- the setting of the other theorems exists -/
example := (bayes_log_normal_nig (n := 2) (M := Unit) ⟨0, 3, 2, none, some 2⟩ 2 rfl two_pos three_pos two_pos).choose_spec.2.exists_draw

example := (bayes_log_normal_ng (n := 2) (M := Unit) ⟨0, 1, 2, 3⟩ one_pos two_pos three_pos).choose_spec.2.exists_draw

example := (bayes_mvn_known_mean (n := 2) ![0, 1] ⟨4, 1⟩ (by norm_num) PosDef.one).exists_draw

example := (bayes_multivariate_normal (n := 2) ⟨![0, 1], 2, 4, 1⟩ two_pos (by norm_num) PosDef.one).choose_spec.2.exists_draw

end Conj
