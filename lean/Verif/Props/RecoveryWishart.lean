import Verif.Props.ConsistencyWishart
import Verif.Lemmas.WishartMoments

/-!
# Recovering every entry of an unknown covariance matrix, and the mean that comes with it (C92)
-/

open MeasureTheory Set Filter Topology Matrix

set_option linter.unusedSectionVars false

namespace Conj

open Scipy Spec

variable {Ω : Type} [MeasurableSpace Ω] {Q : Measure Ω} {d : ℕ}

/-- C92. Multivariate normal data with known mean: every entry of the covariance matrix. -/
theorem C92_multivariate_normal_known_mean {X : ℕ → Ω → Fin d → ℝ}
    (prior : InverseWishart ℝ (Matrix (Fin d) (Fin d) ℝ)) (hnu : (d : ℝ) - 1 < prior.nu) (hpsi : prior.psi.PosDef)
    (mu : Fin d → ℝ) {cov : Matrix (Fin d) (Fin d) ℝ} (hc : cov.PosDef)
    (h : IIDFrom Q X (lawOn univ (mvnPdf mu cov))) :
    ∀ᵐ ω ∂Q, ∀ i j, Recovers (fun n => (lawOn {c : UpperIdx d → ℝ | (symOf c).PosDef} fun c =>
      (multivariate_normal_known_mean (Matrix.of fun (i : Fin n) j => X i ω j) mu prior).pdf (symOf c)).map
        fun c => symOf c i j) (cov i j) := by
  filter_upwards [mvn_averages hc h, mvn_averages_mul hc h] with ω h1 h2
  refine iw_recovers
    (nu := fun n => (multivariate_normal_known_mean (Matrix.of fun (i : Fin n) j => X i ω j) mu prior).nu)
    (psi := fun n => (multivariate_normal_known_mean (Matrix.of fun (i : Fin n) j => X i ω j) mu prior).psi)
    (fun n => hpsi.add_posSemidef (subRow_gram_posSemidef _ _)) (fun n => ?_) ?_ hc fun i j => ?_
  · simp only [multivariate_normal_known_mean, Fintype.card_fin]
    have : (0 : ℝ) ≤ n := Nat.cast_nonneg _
    linarith
  · simp only [multivariate_normal_known_mean, Fintype.card_fin]
    exact tendsto_atTop_add_const_left _ _ tendsto_natCast_atTop_atTop
  · simp only [multivariate_normal_known_mean, Fintype.card_fin, Matrix.add_apply]
    have h3 := centred_limit h1 h2 (c := fun _ => mu) (fun _ => tendsto_const_nhds) i j
    have := ratio_of_averages (average_const_add (c := prior.psi i j) h3)
      (average_const_add (c := prior.nu) (average_linear (d := 1))) one_ne_zero
    simpa using this

example : ∃ (Q : Measure (ℕ → Fin 2 → ℝ)) (X : ℕ → (ℕ → Fin 2 → ℝ) → Fin 2 → ℝ), IsProbabilityMeasure Q ∧
    IIDFrom Q X (lawOn univ (mvnPdf ![1, -3] !![2, 1; 1, 2])) ∧
    ∀ᵐ ω ∂Q, Recovers (fun n => (lawOn {c : UpperIdx 2 → ℝ | (symOf c).PosDef} fun c =>
      (multivariate_normal_known_mean (Matrix.of fun (i : Fin n) j => X i ω j) ![1, -3] ⟨4, 1⟩).pdf (symOf c)).map
        fun c => symOf c 0 1) 1 := by
  have := mvn_prob exampleCov_posDef ![1, -3]
  obtain ⟨Q, X, hQ, h⟩ := exists_iid (lawOn univ (mvnPdf ![1, -3] !![2, 1; 1, 2]))
  refine ⟨Q, X, hQ, h, ?_⟩
  filter_upwards [C92_multivariate_normal_known_mean ⟨4, 1⟩ (by norm_num) PosDef.one _ exampleCov_posDef h] with ω hω
  exact hω 0 1

/-! ## Unknown mean and covariance -/

theorem niw_snd {kappa nu : ℝ} (hk : 0 < kappa) (hnu : (d : ℝ) - 1 < nu) {psi : Matrix (Fin d) (Fin d) ℝ}
    (hpsi : psi.PosDef) (mu : Fin d → ℝ) :
    (lawOn {θ : (Fin d → ℝ) × (UpperIdx d → ℝ) | (symOf θ.2).PosDef} (fun θ =>
      invwishartPdf nu psi (symOf θ.2) * mvnPdf mu ((1 / kappa) • symOf θ.2) θ.1)).map Prod.snd = iwLaw nu psi := by
  ext A hA
  rw [Measure.map_apply measurable_snd hA, ← lintegral_indicator_one (measurable_snd hA),
    niw_lintegral hk hnu hpsi mu (measurable_one.indicator (measurable_snd hA)), ← lintegral_indicator_one hA]
  refine lintegral_congr_ae ?_
  filter_upwards [ae_lawOn_mem measurableSet_posDef fun c => invwishartPdf nu psi (symOf c)] with c hc
  have := mvn_prob (posDef_smul hc (one_div_pos.2 hk)) mu
  have e : ∀ x : Fin d → ℝ, (Prod.snd ⁻¹' A : Set ((Fin d → ℝ) × (UpperIdx d → ℝ))).indicator 1 (x, c) =
      A.indicator (1 : (UpperIdx d → ℝ) → ENNReal) c := fun x => rfl
  simp only [e, lintegral_const, measure_univ, mul_one]

/-- the expected squared distance of a coordinate of the mean from its centre -/
theorem niw_mean_sq {kappa nu : ℝ} (hk : 0 < kappa) (hnu : (d : ℝ) + 1 < nu) {psi : Matrix (Fin d) (Fin d) ℝ}
    (hpsi : psi.PosDef) (mu : Fin d → ℝ) (j : Fin d) :
    ∫⁻ x, ENNReal.ofReal ((x - mu j) ^ 2) ∂(lawOn {θ : (Fin d → ℝ) × (UpperIdx d → ℝ) | (symOf θ.2).PosDef} (fun θ =>
      invwishartPdf nu psi (symOf θ.2) * mvnPdf mu ((1 / kappa) • symOf θ.2) θ.1)).map (fun θ => θ.1 j) ≤
      ENNReal.ofReal (quad psi (Pi.single j 1) / (nu - d - 1) * (1 / kappa)) := by
  have hm : Measurable fun θ : (Fin d → ℝ) × (UpperIdx d → ℝ) => θ.1 j := by fun_prop
  have hf : Measurable fun x : ℝ => ENNReal.ofReal ((x - mu j) ^ 2) := by fun_prop
  rw [lintegral_map hf hm]
  refine (niw_lintegral hk (by linarith) hpsi mu (hf.comp hm)).trans_le ?_
  have e : ∀ᵐ c ∂iwLaw nu psi, ∫⁻ x, ((fun x : ℝ => ENNReal.ofReal ((x - mu j) ^ 2)) ∘
      fun θ : (Fin d → ℝ) × (UpperIdx d → ℝ) => θ.1 j) (x, c) ∂lawOn univ (mvnPdf mu ((1 / kappa) • symOf c)) =
      ENNReal.ofReal (quad (symOf c) (Pi.single j 1)) * ENNReal.ofReal (1 / kappa) := by
    filter_upwards [ae_lawOn_mem measurableSet_posDef fun c => invwishartPdf nu psi (symOf c)] with c hc
    have hpd := posDef_smul hc (one_div_pos.2 hk)
    have h1 := mvn_coord hpd mu j
    have h2 : ∫⁻ x, ENNReal.ofReal ((x j - mu j) ^ 2) ∂lawOn univ (mvnPdf mu ((1 / kappa) • symOf c)) =
        ∫⁻ x, ENNReal.ofReal ((x - mu j) ^ 2) ∂contLaw (Normal.dist ⟨mu j, √(((1 / kappa) • symOf c) j j)⟩) := by
      rw [← h1, lintegral_map hf (measurable_pi_apply j)]
    have hq : quad (symOf c) (Pi.single j 1) = symOf c j j := by simp [quad]
    have hs := Real.sqrt_pos.2 (diag_pos hpd j)
    obtain ⟨n1, n2⟩ := normal_expect_sq (mu j) hs
    obtain ⟨n3, n4⟩ := normal_expect (mu j) hs
    have hprob := normal_prob (mu j) hs
    have i1 : Integrable (fun x : ℝ => x ^ 2 - 2 * mu j * x) (contLaw (Normal.dist ⟨mu j, √(((1 / kappa) • symOf c) j j)⟩)) :=
      n1.sub (n3.const_mul (2 * mu j))
    have i2 : Integrable (fun x : ℝ => (x - mu j) ^ 2) (contLaw (Normal.dist ⟨mu j, √(((1 / kappa) • symOf c) j j)⟩)) :=
      (i1.add (integrable_const (mu j ^ 2))).congr (Eventually.of_forall fun x => by simp only [Pi.add_apply]; ring)
    refine h2.trans ?_
    rw [← ofReal_integral_eq_lintegral_ofReal i2 (Eventually.of_forall fun x => sq_nonneg _), hq,
      ← ENNReal.ofReal_mul (diag_pos hc j).le]
    congr 1
    have e3 : ∀ x : ℝ, (x - mu j) ^ 2 = x ^ 2 - 2 * mu j * x + mu j ^ 2 := fun x => by ring
    simp only [e3]
    rw [integral_add i1 (integrable_const _), integral_sub n1 (n3.const_mul _), integral_const_mul, n2, n4,
      integral_const, probReal_univ, one_smul, Real.sq_sqrt (diag_pos hpd j).le, Matrix.smul_apply, smul_eq_mul]
    ring
  rw [lintegral_congr_ae e, lintegral_mul_const' _ _ ENNReal.ofReal_ne_top]
  have hq : 0 ≤ quad psi (Pi.single j 1) := quad_nonneg hpsi.posSemidef _
  have hden : 0 < nu - d - 1 := by linarith
  rw [ENNReal.ofReal_mul (by positivity)]
  exact mul_le_mul_left (iw_quad_le hnu hpsi _) _

/-- C92. Multivariate normal data, mean and covariance unknown: every coordinate of the mean and every entry of the
covariance matrix. -/
theorem C92_multivariate_normal {X : ℕ → Ω → Fin d → ℝ}
    (prior : NormalInverseWishart ℝ (Fin d → ℝ) (Matrix (Fin d) (Fin d) ℝ)) (hk : 0 < prior.kappa)
    (hnu : (d : ℝ) - 1 < prior.nu) (hpsi : prior.psi.PosDef) (m₀ : Fin d → ℝ) {cov : Matrix (Fin d) (Fin d) ℝ}
    (hc : cov.PosDef) (h : IIDFrom Q X (lawOn univ (mvnPdf m₀ cov))) :
    ∀ᵐ ω ∂Q, ∃ post : ℕ → NormalInverseWishart ℝ (Fin d → ℝ) (Matrix (Fin d) (Fin d) ℝ),
      (∀ n : ℕ, multivariate_normal (Matrix.of fun (i : Fin (n + 1)) j => X i ω j) prior = .ok (post n)) ∧
      (∀ j, Recovers (fun n => (lawOn {θ : (Fin d → ℝ) × (UpperIdx d → ℝ) | (symOf θ.2).PosDef} fun θ =>
        (post n).jointPdf θ.1 (symOf θ.2)).map fun θ => θ.1 j) (m₀ j)) ∧
      ∀ i j, Recovers (fun n => (lawOn {θ : (Fin d → ℝ) × (UpperIdx d → ℝ) | (symOf θ.2).PosDef} fun θ =>
        (post n).jointPdf θ.1 (symOf θ.2)).map fun θ => symOf θ.2 i j) (cov i j) := by
  filter_upwards [mvn_averages hc h, mvn_averages_mul hc h] with ω h1 h2
  obtain ⟨post, r1, r2, r3, r4, r5, r6⟩ := niw_limit h1 h2 prior hk hnu hpsi
  have hS : MeasurableSet {θ : (Fin d → ℝ) × (UpperIdx d → ℝ) | (symOf θ.2).PosDef} :=
    measurableSet_posDef.preimage measurable_snd
  refine ⟨post, r1, fun j => ?_, fun i j => ?_⟩
  · have hm : Measurable fun θ : (Fin d → ℝ) × (UpperIdx d → ℝ) => θ.1 j := by fun_prop
    refine recovers_of_sq (mean := fun n => (post n).mu j)
      (var := fun n => quad (post n).psi (Pi.single j 1) / ((post n).nu - d - 1) * (1 / (post n).kappa))
      (Eventually.of_forall fun n => map_prob (lawOn_prob hS (niw_isDensity (r2 n).1 (r2 n).2.1 (r2 n).2.2 _)) hm) ?_
      (r3 j) ?_
    · filter_upwards [r5.eventually_gt_atTop ((d : ℝ) + 1)] with n hn
      exact niw_mean_sq (r2 n).1 hn (r2 n).2.2 (post n).mu j
    · have k1 := iw_quad_bound (nu := fun n => (post n).nu) (psi := fun n => (post n).psi) (fun n => (r2 n).2.2)
        (fun n => (r2 n).2.1) r5 hc r6 (Pi.single j 1)
      have := k1.mul (tendsto_const_nhds (x := (1 : ℝ)).div_atTop r4)
      rwa [mul_zero] at this
  · have hm : Measurable fun c : UpperIdx d → ℝ => symOf c i j :=
      (measurable_pi_apply j).comp ((measurable_pi_apply i).comp measurable_symOf)
    have hrec := iw_recovers (nu := fun n => (post n).nu) (psi := fun n => (post n).psi) (fun n => (r2 n).2.2)
      (fun n => (r2 n).2.1) r5 hc r6 i j
    have e : ∀ n, (iwLaw (post n).nu (post n).psi).map (fun c => symOf c i j) =
        (lawOn {θ : (Fin d → ℝ) × (UpperIdx d → ℝ) | (symOf θ.2).PosDef} fun θ =>
          (post n).jointPdf θ.1 (symOf θ.2)).map fun θ => symOf θ.2 i j := fun n => by
      rw [← niw_snd (r2 n).1 (r2 n).2.1 (r2 n).2.2 (post n).mu, Measure.map_map hm measurable_snd]
      rfl
    simp only [e] at hrec
    exact hrec

example : ∃ (Q : Measure (ℕ → Fin 2 → ℝ)) (X : ℕ → (ℕ → Fin 2 → ℝ) → Fin 2 → ℝ), IsProbabilityMeasure Q ∧
    IIDFrom Q X (lawOn univ (mvnPdf ![1, -3] !![2, 1; 1, 2])) ∧
    ∀ᵐ ω ∂Q, ∃ post : ℕ → NormalInverseWishart ℝ (Fin 2 → ℝ) (Matrix (Fin 2) (Fin 2) ℝ),
      (∀ n : ℕ, multivariate_normal (Matrix.of fun (i : Fin (n + 1)) j => X i ω j) ⟨![0, 1], 2, 4, 1⟩ = .ok (post n)) ∧
      Recovers (fun n => (lawOn {θ : (Fin 2 → ℝ) × (UpperIdx 2 → ℝ) | (symOf θ.2).PosDef} fun θ =>
        (post n).jointPdf θ.1 (symOf θ.2)).map fun θ => θ.1 1) (-3) ∧
      Recovers (fun n => (lawOn {θ : (Fin 2 → ℝ) × (UpperIdx 2 → ℝ) | (symOf θ.2).PosDef} fun θ =>
        (post n).jointPdf θ.1 (symOf θ.2)).map fun θ => symOf θ.2 0 1) 1 := by
  have := mvn_prob exampleCov_posDef ![1, -3]
  obtain ⟨Q, X, hQ, h⟩ := exists_iid (lawOn univ (mvnPdf ![1, -3] !![2, 1; 1, 2]))
  refine ⟨Q, X, hQ, h, ?_⟩
  filter_upwards [C92_multivariate_normal ⟨![0, 1], 2, 4, 1⟩ (by norm_num) (by norm_num) PosDef.one _
    exampleCov_posDef h] with ω ⟨post, p1, p2, p3⟩
  exact ⟨post, p1, p2 1, p3 0 1⟩

end Conj
