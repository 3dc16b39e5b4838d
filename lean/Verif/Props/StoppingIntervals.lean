import Verif.Props.Stopping
import Verif.Props.CalibrationIntervals

/-!
# C115: log-normal models, vectors with known precision, and intervals for one entry of a mean vector
-/

open MeasureTheory Set Real

namespace Conj

open Scipy Spec Matrix

variable {Ω : Type} [MeasurableSpace Ω] {P : Measure Ω} {k : ℕ} {M : Type}

/-- C115. Log-normal observations, `NormalInverseGamma` prior. -/
theorem C115_log_normal_nig (prior : NormalInverseGamma ℝ ℝ M) (nu : ℝ) (hn : prior.nu = some nu) (hnu : 0 < nu)
    (ha : 0 < prior.alpha) (hb : 0 < prior.beta) {θ : Ω → ℝ × ℝ} {X : Ω → ℕ → ℝ}
    (h : DrawThenWatch P θ X (nigLaw prior) fun t => lawOn (Ioi 0) (logNormalPdf t.1 t.2)) :
    ∃ post : ∀ n, (Fin n → ℝ) → NormalInverseGamma ℝ ℝ M, (∀ x, post 0 x = prior) ∧
      (∀ n x, (∀ i, 0 < x i) → log_normal (∑ i, log (x i)) (∑ i, log (x i) ^ 2) ((n + 1 : ℕ) : ℝ) (.nig prior) =
        .ok (.nig (post (n + 1) x))) ∧
      HonestWhenStopped P θ X (fun n x => nigLaw (post n x)) ∧
      IntervalWhenStopped P (fun ω => (θ ω).2) X (fun n x => contLaw (post n x).inverse_gamma.dist) ∧
      IntervalWhenStopped P (fun ω => (θ ω).1) X (fun n x => (nigLaw (post n x)).map Prod.fst) := by
  choose post h1 h2 using fun n => bayes_log_normal_nig (n := n) prior nu hn hnu ha hb
  let post' : ∀ n, (Fin n → ℝ) → NormalInverseGamma ℝ ℝ M := fun n => match n with
    | 0 => fun _ => prior
    | n + 1 => post n
  have hw : Watched (univ ×ˢ Ioi 0) (fun t : ℝ × ℝ => prior.jointPdf (prior.nu.getD 0) t.1 t.2)
        (volume.restrict (Ioi 0)) (Ioi 0) (fun t a => logNormalPdf t.1 t.2 a)
        (fun n x t => (post' n x).jointPdf ((post' n x).nu.getD 0) t.1 t.2) (nigLaw prior)
        (fun t => lawOn (Ioi 0) (logNormalPdf t.1 t.2)) (fun n x => nigLaw (post' n x)) := fun n => match n with
    | 0 => (h2 0).none_seen
    | n + 1 => h2 n
  have := hw.prob h
  refine ⟨post', fun _ => rfl, h1, hw.honest h, hw.interval_of h measurable_snd fun n x hx => ?_,
    hw.interval_of h measurable_fst fun n x _ => ⟨rfl, lawOn_map_noAtoms measurable_fst volume_fst_eq⟩⟩
  refine ⟨?_, by rw [contLaw]; infer_instance⟩
  match n, x, hx with
  | 0, x, _ => exact nigLaw_snd prior hn hnu ha hb
  | n + 1, x, hx =>
    obtain ⟨p, nu', e1, e2, v1, v2, v3, -⟩ := C14_normal_posterior_nig prior nu hn hnu ha hb
      (List.ofFn fun i => log (x i)) (ofFn_ne_nil _)
    rw [List.map_ofFn, List.sum_ofFn, List.sum_ofFn, List.length_ofFn] at e2
    have e : post' (n + 1) x = p := by
      have := (h1 n x hx).symm.trans e2
      simpa using this
    rw [e]
    exact nigLaw_snd p e1 v1 v2 v3

/-- C115. Log-normal observations, `NormalGamma` prior. -/
theorem C115_log_normal_ng (prior : NormalGamma ℝ) (hl : 0 < prior.lam)
    (ha : 0 < prior.alpha) (hb : 0 < prior.beta) {θ : Ω → ℝ × ℝ} {X : Ω → ℕ → ℝ}
    (h : DrawThenWatch P θ X (ngLaw prior) fun t => lawOn (Ioi 0) (logNormalPdf t.1 (1 / t.2))) :
    ∃ post : ∀ n, (Fin n → ℝ) → NormalGamma ℝ, (∀ x, post 0 x = prior) ∧
      (∀ n x, (∀ i, 0 < x i) → log_normal (∑ i, log (x i)) (∑ i, log (x i) ^ 2) ((n + 1 : ℕ) : ℝ)
        (.ng prior : NormalPrior ℝ M) = .ok (.ng (post (n + 1) x))) ∧
      HonestWhenStopped P θ X (fun n x => ngLaw (post n x)) ∧
      IntervalWhenStopped P (fun ω => (θ ω).2) X (fun n x => contLaw (post n x).gamma.dist) ∧
      IntervalWhenStopped P (fun ω => (θ ω).1) X (fun n x => (ngLaw (post n x)).map Prod.fst) := by
  choose post h1 h2 using fun n => bayes_log_normal_ng (n := n) (M := M) prior hl ha hb
  let post' : ∀ n, (Fin n → ℝ) → NormalGamma ℝ := fun n => match n with
    | 0 => fun _ => prior
    | n + 1 => post n
  have hw : Watched (univ ×ˢ Ioi 0) (fun t : ℝ × ℝ => prior.jointPdf t.1 t.2)
        (volume.restrict (Ioi 0)) (Ioi 0) (fun t a => logNormalPdf t.1 (1 / t.2) a)
        (fun n x t => (post' n x).jointPdf t.1 t.2) (ngLaw prior)
        (fun t => lawOn (Ioi 0) (logNormalPdf t.1 (1 / t.2))) (fun n x => ngLaw (post' n x)) := fun n => match n with
    | 0 => (h2 0).none_seen
    | n + 1 => h2 n
  have := hw.prob h
  refine ⟨post', fun _ => rfl, h1, hw.honest h, hw.interval_of h measurable_snd fun n x hx => ?_,
    hw.interval_of h measurable_fst fun n x _ => ⟨rfl, lawOn_map_noAtoms measurable_fst volume_fst_eq⟩⟩
  refine ⟨?_, by rw [contLaw]; infer_instance⟩
  match n, x, hx with
  | 0, x, _ => exact ngLaw_snd prior hl ha hb
  | n + 1, x, hx =>
    obtain ⟨p, e2, v1, v2, v3, -⟩ := C14_normal_posterior_ng (M := M) prior hl ha hb
      (List.ofFn fun i => log (x i)) (ofFn_ne_nil _)
    rw [List.map_ofFn, List.sum_ofFn, List.sum_ofFn, List.length_ofFn] at e2
    have e : post' (n + 1) x = p := by
      have := (h1 n x hx).symm.trans e2
      simpa using this
    rw [e]
    exact ngLaw_snd p v1 v2 v3

/-- C115. Vectors with known covariance: the interval of entry `j` of the mean vector from `posterior[j].dist.ppf`. -/
theorem C115_multivariate_normal_known_covariance_intervals (cov : Matrix (Fin k) (Fin k) ℝ) (hc : cov.PosDef)
    (prior : MultivariateNormal (Fin k → ℝ) (Matrix (Fin k) (Fin k) ℝ)) (hS : prior.cov.PosDef)
    {θ : Ω → Fin k → ℝ} {X : Ω → ℕ → Fin k → ℝ}
    (h : DrawThenWatch P θ X (lawOn univ prior.pdf) fun m => lawOn univ (MultivariateNormal.mk m cov).pdf) :
    ∃ post : ∀ n, (Fin n → Fin k → ℝ) → MultivariateNormal (Fin k → ℝ) (Matrix (Fin k) (Fin k) ℝ),
      (∀ (n : ℕ) x, multivariate_normal_known_covariance (n : ℝ) ((1 / (n : ℝ)) • ∑ i, x i) cov prior = .ok (post n x)) ∧
      ∀ j, IntervalWhenStopped P (fun ω => θ ω j) X fun n x => contLaw ((post n x).getInt j).dist := by
  choose post h1 h2 using fun n => bayes_mvn_known_covariance (n := n) cov hc prior hS
  have := Watched.prob h2 h
  refine ⟨post, h1, fun j => Watched.interval_of h2 h (measurable_pi_apply j) fun n x _ =>
    ⟨mvn_entry_law _ ?_ j, by rw [contLaw]; infer_instance⟩⟩
  obtain ⟨p, e2, v1, -⟩ := C21_multivariate_normal_known_covariance_posterior (List.ofFn x)
    ((1 / (n : ℝ)) • ∑ i, x i) (by rw [List.length_ofFn, List.sum_ofFn, smul_mean]) cov hc prior hS
  rw [List.length_ofFn] at e2
  have e : post n x = p := by
    have := (h1 n x).symm.trans e2
    simpa using this
  rw [e]
  exact v1

/-- C115. Vectors with known precision: announcements about the mean vector, and the interval of each of its entries. -/
theorem C115_multivariate_normal_known_precision (precision : Matrix (Fin k) (Fin k) ℝ) (hc : precision.PosDef)
    (prior : MultivariateNormal (Fin k → ℝ) (Matrix (Fin k) (Fin k) ℝ)) (hS : prior.cov.PosDef)
    {θ : Ω → Fin k → ℝ} {X : Ω → ℕ → Fin k → ℝ}
    (h : DrawThenWatch P θ X (lawOn univ prior.pdf) fun m => lawOn univ (MultivariateNormal.mk m precision⁻¹).pdf) :
    ∃ post : ∀ n, (Fin n → Fin k → ℝ) → MultivariateNormal (Fin k → ℝ) (Matrix (Fin k) (Fin k) ℝ),
      (∀ (n : ℕ) x,
        multivariate_normal_known_precision (n : ℝ) ((1 / (n : ℝ)) • ∑ i, x i) precision prior = .ok (post n x)) ∧
      HonestWhenStopped P θ X (fun n x => lawOn univ (post n x).pdf) ∧
      ∀ j, IntervalWhenStopped P (fun ω => θ ω j) X fun n x => contLaw ((post n x).getInt j).dist := by
  obtain ⟨post, h1, h2⟩ := C115_multivariate_normal_known_covariance precision⁻¹ hc.inv prior hS h
  obtain ⟨post', h1', h2'⟩ := C115_multivariate_normal_known_covariance_intervals precision⁻¹ hc.inv prior hS h
  have e : post' = post := by
    funext n x
    have := (h1' n x).symm.trans (h1 n x)
    simpa using this
  subst e
  refine ⟨post', fun n x => ?_, h2, h2'⟩
  have hx : (n : ℝ) • ((1 / (n : ℝ)) • ∑ i, x i) = ∑ i, x i := smul_mean x
  have := h1 n x
  rw [mvn_known_cov_eq n _ _ hx hc.inv prior hS] at this
  rw [mvn_known_prec_eq n _ _ hx hc prior hS, ← this, nonsing_inv_nonsing_inv _ (posDef_unit hc)]

/-- log-normal incomes, watched one at a time: the setting exists -/
example : ∃ (Ω : Type) (_ : MeasurableSpace Ω) (P : Measure Ω) (θ : Ω → ℝ × ℝ) (X : Ω → ℕ → ℝ),
    DrawThenWatch P θ X (ngLaw ⟨0, 1, 2, 1⟩) fun t => lawOn (Ioi 0) (logNormalPdf t.1 (1 / t.2)) := by
  choose post h1 h2 using fun n => bayes_log_normal_ng (n := n) (M := ℝ) ⟨0, 1, 2, 1⟩ one_pos two_pos one_pos
  exact Watched.exists_watch (post := fun n => match n with
    | 0 => fun _ t => NormalGamma.jointPdf ⟨0, 1, 2, 1⟩ t.1 t.2
    | n + 1 => fun x t => (post n x).jointPdf t.1 t.2) (postLaw := fun n => match n with
    | 0 => fun _ => ngLaw ⟨0, 1, 2, 1⟩
    | n + 1 => fun x => ngLaw (post n x)) fun n => match n with
    | 0 => (h2 0).none_seen
    | n + 1 => h2 n

/-- two correlated measurements at a time: the setting exists -/
example : ∃ (Ω : Type) (_ : MeasurableSpace Ω) (P : Measure Ω) (θ : Ω → Fin 2 → ℝ) (X : Ω → ℕ → Fin 2 → ℝ),
    DrawThenWatch P θ X (lawOn univ (MultivariateNormal.pdf ⟨![0, 1], (1 : Matrix (Fin 2) (Fin 2) ℝ)⟩))
      fun m => lawOn univ (MultivariateNormal.mk m !![2, 1; 1, 2]).pdf := by
  choose post h1 h2 using fun n =>
    bayes_mvn_known_covariance (n := n) !![2, 1; 1, 2] exampleCov_posDef ⟨![0, 1], 1⟩ PosDef.one
  exact Watched.exists_watch h2

end Conj
