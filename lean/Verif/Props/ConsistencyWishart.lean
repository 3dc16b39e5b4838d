import Verif.Lemmas.ConcentrationWishart
import Verif.Props.ConsistencyMatrix
import Verif.Props.Wishart

/-!
# Learning the true parameter (C88, C93): multivariate normal data with unknown covariance
-/

open MeasureTheory Set Filter Topology Matrix

set_option linter.unusedSectionVars false

namespace Conj

open Scipy Spec

variable {Ω : Type} [MeasurableSpace Ω] {Q : Measure Ω} {d : ℕ}

/-- sums of products of deviations from a centre that tends to the mean -/
theorem centred_limit {x : ℕ → Fin d → ℝ} {m₀ : Fin d → ℝ} {S : Matrix (Fin d) (Fin d) ℝ}
    (h1 : ∀ j, Tendsto (fun n : ℕ => (∑ i ∈ Finset.range n, x i j) / n) atTop (𝓝 (m₀ j)))
    (h2 : ∀ j k, Tendsto (fun n : ℕ => (∑ i ∈ Finset.range n, x i j * x i k) / n) atTop (𝓝 (S j k + m₀ j * m₀ k)))
    {c : ℕ → Fin d → ℝ} (hc : ∀ j, Tendsto (fun n => c n j) atTop (𝓝 (m₀ j))) (j k : Fin d) :
    Tendsto (fun n : ℕ => ((subRow (Matrix.of fun (i : Fin n) j => x i j) (c n))ᵀ *
      subRow (Matrix.of fun (i : Fin n) j => x i j) (c n)) j k / n) atTop (𝓝 (S j k)) := by
  have h3 := (((h2 j k).sub ((hc k).mul (h1 j))).sub ((hc j).mul (h1 k))).add ((hc j).mul (hc k))
  have e : S j k + m₀ j * m₀ k - m₀ k * m₀ j - m₀ j * m₀ k + m₀ j * m₀ k = S j k := by ring
  rw [e] at h3
  refine h3.congr' ?_
  filter_upwards [eventually_gt_atTop 0] with n hn
  have hn' : (n : ℝ) ≠ 0 := by positivity
  have hsum : ((subRow (Matrix.of fun (i : Fin n) j => x i j) (c n))ᵀ *
      subRow (Matrix.of fun (i : Fin n) j => x i j) (c n)) j k =
      ∑ i ∈ Finset.range n, (x i j - c n j) * (x i k - c n k) := by
    rw [Finset.sum_range (fun i => (x i j - c n j) * (x i k - c n k)), mul_apply]
    rfl
  have hexp : ∑ i ∈ Finset.range n, (x i j - c n j) * (x i k - c n k) =
      (∑ i ∈ Finset.range n, x i j * x i k) - c n k * (∑ i ∈ Finset.range n, x i j) -
        c n j * (∑ i ∈ Finset.range n, x i k) + n * (c n j * c n k) := by
    have : ∀ i, (x i j - c n j) * (x i k - c n k) = x i j * x i k - c n k * x i j - c n j * x i k + c n j * c n k :=
      fun i => by ring
    simp only [this, Finset.sum_add_distrib, Finset.sum_sub_distrib, ← Finset.mul_sum, Finset.sum_const,
      Finset.card_range, nsmul_eq_mul]
    ring
  rw [hsum, hexp]
  field_simp

/-- C88. Multivariate normal data with known mean: the posterior of the covariance matrix, described by its upper
triangle, concentrates at the true covariance matrix. -/
theorem C88_multivariate_normal_known_mean {X : ℕ → Ω → Fin d → ℝ}
    (prior : InverseWishart ℝ (Matrix (Fin d) (Fin d) ℝ)) (hnu : (d : ℝ) - 1 < prior.nu) (hpsi : prior.psi.PosDef)
    (mu : Fin d → ℝ) {cov : Matrix (Fin d) (Fin d) ℝ} (hc : cov.PosDef)
    (h : IIDFrom Q X (lawOn univ (mvnPdf mu cov))) :
    ∀ᵐ ω ∂Q, ConcentratesAt (fun n => lawOn {c : UpperIdx d → ℝ | (symOf c).PosDef} fun c =>
      (multivariate_normal_known_mean (Matrix.of fun (i : Fin n) j => X i ω j) mu prior).pdf (symOf c))
      (upperOf cov) := by
  filter_upwards [mvn_averages hc h, mvn_averages_mul hc h] with ω h1 h2
  refine concentrates_iw
    (nu := fun n => (multivariate_normal_known_mean (Matrix.of fun (i : Fin n) j => X i ω j) mu prior).nu)
    (psi := fun n => (multivariate_normal_known_mean (Matrix.of fun (i : Fin n) j => X i ω j) mu prior).psi)
    (fun n => hpsi.add_posSemidef (subRow_gram_posSemidef _ _)) (fun n => ?_) ?_ hc fun i j => ?_
  · simp only [multivariate_normal_known_mean, Fintype.card_fin]
    have : (0 : ℝ) ≤ n := Nat.cast_nonneg _
    linarith
  · simp only [multivariate_normal_known_mean, Fintype.card_fin]
    exact tendsto_atTop_add_const_left _ _ tendsto_natCast_atTop_atTop
  · simp only [multivariate_normal_known_mean, Fintype.card_fin, Matrix.add_apply]
    have h3 := centred_limit h1 h2 (c := fun _ => mu) (fun _ => tendsto_const_nhds) i j
    have := ratio_of_averages (average_const_add (c := prior.psi i j) h3)
      (average_const_add (c := prior.nu) (average_linear (d := 1))) one_ne_zero
    simpa using this

example : ∃ (Q : Measure (ℕ → Fin 2 → ℝ)) (X : ℕ → (ℕ → Fin 2 → ℝ) → Fin 2 → ℝ), IsProbabilityMeasure Q ∧
    IIDFrom Q X (lawOn univ (mvnPdf ![1, -3] !![2, 1; 1, 2])) ∧
    ∀ᵐ ω ∂Q, ConcentratesAt (fun n => lawOn {c : UpperIdx 2 → ℝ | (symOf c).PosDef} fun c =>
      (multivariate_normal_known_mean (Matrix.of fun (i : Fin n) j => X i ω j) ![1, -3] ⟨4, 1⟩).pdf (symOf c))
      (upperOf !![2, 1; 1, 2]) := by
  have := mvn_prob exampleCov_posDef ![1, -3]
  obtain ⟨Q, X, hQ, h⟩ := exists_iid (lawOn univ (mvnPdf ![1, -3] !![2, 1; 1, 2]))
  exact ⟨Q, X, hQ, h, C88_multivariate_normal_known_mean ⟨4, 1⟩ (by norm_num) PosDef.one _ exampleCov_posDef h⟩

/-! ## Unknown mean and covariance -/

/-- the posterior after `n + 1` observations -/
theorem niw_limit {x : ℕ → Fin d → ℝ} {m₀ : Fin d → ℝ} {S : Matrix (Fin d) (Fin d) ℝ}
    (h1 : ∀ j, Tendsto (fun n : ℕ => (∑ i ∈ Finset.range n, x i j) / n) atTop (𝓝 (m₀ j)))
    (h2 : ∀ j k, Tendsto (fun n : ℕ => (∑ i ∈ Finset.range n, x i j * x i k) / n) atTop (𝓝 (S j k + m₀ j * m₀ k)))
    (prior : NormalInverseWishart ℝ (Fin d → ℝ) (Matrix (Fin d) (Fin d) ℝ)) (hk : 0 < prior.kappa)
    (hnu : (d : ℝ) - 1 < prior.nu) (hpsi : prior.psi.PosDef) :
    ∃ post : ℕ → NormalInverseWishart ℝ (Fin d → ℝ) (Matrix (Fin d) (Fin d) ℝ),
      (∀ n : ℕ, multivariate_normal (Matrix.of fun (i : Fin (n + 1)) j => x i j) prior = .ok (post n)) ∧
      (∀ n, 0 < (post n).kappa ∧ (d : ℝ) - 1 < (post n).nu ∧ (post n).psi.PosDef) ∧
      (∀ j, Tendsto (fun n => (post n).mu j) atTop (𝓝 (m₀ j))) ∧ Tendsto (fun n => (post n).kappa) atTop atTop ∧
      Tendsto (fun n => (post n).nu) atTop atTop ∧
      ∀ i j, Tendsto (fun n => (post n).psi i j / (post n).nu) atTop (𝓝 (S i j)) := by
  have hs := tendsto_add_atTop_nat 1
  let xb : ℕ → Fin d → ℝ := fun n j => (∑ i ∈ Finset.range n, x i j) / n
  let P : ℕ → NormalInverseWishart ℝ (Fin d → ℝ) (Matrix (Fin d) (Fin d) ℝ) := fun n =>
    { mu := fun j => (prior.mu j * prior.kappa + n * xb n j) / (prior.kappa + n)
      kappa := prior.kappa + n
      nu := prior.nu + n
      psi := prior.psi + (subRow (Matrix.of fun (i : Fin n) j => x i j) (xb n))ᵀ *
        subRow (Matrix.of fun (i : Fin n) j => x i j) (xb n) + Matrix.of fun i j =>
          vecMulVec (xb n - prior.mu) (xb n - prior.mu) i j * n * prior.kappa / (prior.kappa + n) }
  have hmean : ∀ n : ℕ, meanAxis0 (Matrix.of fun (i : Fin (n + 1)) j => x i j) = .ok (xb (n + 1)) := by
    intro n
    rw [meanAxis0, if_neg (by simp)]
    congr 1
    funext j
    simp only [xb, Fintype.card_fin, of_apply]
    rw [Finset.sum_range (fun i => x i j)]
  have hpost : ∀ n : ℕ, multivariate_normal (Matrix.of fun (i : Fin (n + 1)) j => x i j) prior = .ok (P (n + 1)) := by
    intro n
    simp only [multivariate_normal, hmean, Bind.bind, Except.bind, Pure.pure, Except.pure, Fintype.card_fin, P]
  have hxb : ∀ j, Tendsto (fun n => xb n j) atTop (𝓝 (m₀ j)) := h1
  have hkap : Tendsto (fun n : ℕ => prior.kappa + (n : ℝ)) atTop atTop :=
    tendsto_atTop_add_const_left _ _ tendsto_natCast_atTop_atTop
  have hnuT : Tendsto (fun n : ℕ => prior.nu + (n : ℝ)) atTop atTop :=
    tendsto_atTop_add_const_left _ _ tendsto_natCast_atTop_atTop
  refine ⟨fun n => P (n + 1), hpost, fun n => ?_, fun j => ?_, hkap.comp hs, hnuT.comp hs, fun i j => ?_⟩
  · obtain ⟨post, g1, g2, g3, g4⟩ := C23_multivariate_normal_posterior
      (Matrix.of fun (i : Fin (n + 1)) j => x i j) prior hk hnu hpsi
    rw [hpost n] at g1
    obtain rfl := Except.ok.inj g1
    exact ⟨g2, g3, g4.1⟩
  · refine Tendsto.comp (g := fun n => (P n).mu j) ?_ hs
    have h3 : Tendsto (fun n : ℕ => (n : ℝ) * xb n j / (n : ℝ)) atTop (𝓝 (m₀ j)) := by
      refine (hxb j).congr' ?_
      filter_upwards [eventually_gt_atTop 0] with n hn
      have hn' : (n : ℝ) ≠ 0 := by positivity
      field_simp
    have := ratio_of_averages (average_const_add (c := prior.mu j * prior.kappa) h3)
      (average_const_add (c := prior.kappa) (average_linear (d := 1))) one_ne_zero
    simpa using this
  · refine Tendsto.comp (g := fun n => (P n).psi i j / (P n).nu) ?_ hs
    have h3 := centred_limit h1 h2 hxb i j
    have h4 : Tendsto (fun n : ℕ => (xb n i - prior.mu i) * (xb n j - prior.mu j) * n * prior.kappa /
        (prior.kappa + n) / (n : ℝ)) atTop (𝓝 0) := by
      have h5 := ((((hxb i).sub_const (prior.mu i)).mul ((hxb j).sub_const (prior.mu j))).mul_const
        prior.kappa).div_atTop hkap
      refine h5.congr' ?_
      filter_upwards [eventually_gt_atTop 0] with n hn
      have hn' : (n : ℝ) ≠ 0 := by positivity
      have hn'' : prior.kappa + (n : ℝ) ≠ 0 := by positivity
      field_simp
    have h6 := average_add (average_const_add (c := prior.psi i j) h3) h4
    have := ratio_of_averages h6 (average_const_add (c := prior.nu) (average_linear (d := 1))) one_ne_zero
    simpa [P, vecMulVec_apply] using this

/-- C88. Multivariate normal data, mean and covariance unknown: the joint posterior concentrates at the true mean
and the true covariance matrix (described by its upper triangle). -/
theorem C88_multivariate_normal {X : ℕ → Ω → Fin d → ℝ}
    (prior : NormalInverseWishart ℝ (Fin d → ℝ) (Matrix (Fin d) (Fin d) ℝ)) (hk : 0 < prior.kappa)
    (hnu : (d : ℝ) - 1 < prior.nu) (hpsi : prior.psi.PosDef) (m₀ : Fin d → ℝ) {cov : Matrix (Fin d) (Fin d) ℝ}
    (hc : cov.PosDef) (h : IIDFrom Q X (lawOn univ (mvnPdf m₀ cov))) :
    ∀ᵐ ω ∂Q, ∃ post : ℕ → NormalInverseWishart ℝ (Fin d → ℝ) (Matrix (Fin d) (Fin d) ℝ),
      (∀ n : ℕ, multivariate_normal (Matrix.of fun (i : Fin (n + 1)) j => X i ω j) prior = .ok (post n)) ∧
      ConcentratesAt (fun n => lawOn {θ : (Fin d → ℝ) × (UpperIdx d → ℝ) | (symOf θ.2).PosDef} fun θ =>
        (post n).jointPdf θ.1 (symOf θ.2)) (m₀, upperOf cov) := by
  filter_upwards [mvn_averages hc h, mvn_averages_mul hc h] with ω h1 h2
  obtain ⟨post, r1, r2, r3, r4, r5, r6⟩ := niw_limit h1 h2 prior hk hnu hpsi
  refine ⟨post, r1, ?_⟩
  have hset : {θ : (Fin d → ℝ) × (UpperIdx d → ℝ) | (symOf θ.2).PosDef} =
      univ ×ˢ {c : UpperIdx d → ℝ | (symOf c).PosDef} := by ext θ; simp
  have hconc := concentrates_iw (nu := fun n => (post n).nu) (psi := fun n => (post n).psi) (fun n => (r2 n).2.2)
    (fun n => (r2 n).2.1) r5 hc r6
  simp only [hset]
  refine concentrates_mix (T := {c : UpperIdx d → ℝ | (symOf c).PosDef})
    (g := fun n c => invwishartPdf (post n).nu (post n).psi (symOf c))
    (C := fun n c => (1 / (post n).kappa) • symOf c) (m := fun n => (post n).mu)
    (w := fun n _ => 1 / (post n).kappa) (t := fun i c => symOf c i i) (B := ‖upperOf cov‖ + 1) (δ := 1)
    measurableSet_posDef (fun n => iw_isDensity (r2 n).2.2 (r2 n).2.1)
    (fun n c hc => posDef_smul hc (one_div_pos.2 (r2 n).1)) (fun n => ?_)
    (fun n y _ i => by rw [Matrix.smul_apply, smul_eq_mul]) (fun n i => (one_div_pos.2 (r2 n).1).le)
    (fun i => tendsto_const_nhds.div_atTop r4) one_pos (fun c hb i => ?_) r3 hconc
  · have := niw_isDensity (r2 n).1 (r2 n).2.1 (r2 n).2.2 (post n).mu
    rwa [hset] at this
  · have e : symOf c i i = c ⟨(i, i), le_rfl⟩ := by simp [symOf]
    have h3 : ‖c‖ ≤ ‖upperOf cov‖ + 1 := by
      have := norm_le_norm_add_norm_sub' c (upperOf cov)
      rw [Metric.mem_ball, dist_eq_norm] at hb
      linarith
    rw [e]
    exact ((le_abs_self _).trans (norm_le_pi_norm c _)).trans h3

/-- C93. Multivariate normal data, mean and covariance unknown: the predictive density tends to the true density. -/
theorem C93_multivariate_normal {X : ℕ → Ω → Fin d → ℝ}
    (prior : NormalInverseWishart ℝ (Fin d → ℝ) (Matrix (Fin d) (Fin d) ℝ)) (hk : 0 < prior.kappa)
    (hnu : (d : ℝ) - 1 < prior.nu) (hpsi : prior.psi.PosDef) (m₀ : Fin d → ℝ) {cov : Matrix (Fin d) (Fin d) ℝ}
    (hc : cov.PosDef) (h : IIDFrom Q X (lawOn univ (mvnPdf m₀ cov))) :
    ∀ᵐ ω ∂Q, ∃ post : ℕ → NormalInverseWishart ℝ (Fin d → ℝ) (Matrix (Fin d) (Fin d) ℝ),
      (∀ n : ℕ, multivariate_normal (Matrix.of fun (i : Fin (n + 1)) j => X i ω j) prior = .ok (post n)) ∧
      ∀ x, Tendsto (fun n => (multivariate_normal_predictive (post n)).pdf x) atTop
        (𝓝 ((MultivariateNormal.mk m₀ cov).pdf x)) := by
  filter_upwards [mvn_averages hc h, mvn_averages_mul hc h] with ω h1 h2
  obtain ⟨post, r1, r2, r3, r4, r5, r6⟩ := niw_limit h1 h2 prior hk hnu hpsi
  refine ⟨post, r1, fun x => ?_⟩
  have hν : Tendsto (fun n => (post n).nu - (d : ℝ) + 1) atTop atTop := by
    refine (tendsto_atTop_add_const_right atTop (-(d : ℝ) + 1) r5).congr fun n => by ring
  have hsig : ∀ n, (multivariate_normal_predictive (post n)).sigma =
      (((post n).kappa + 1) / ((post n).kappa * ((post n).nu - (d : ℝ) + 1))) • (post n).psi := by
    intro n
    ext i j
    simp only [multivariate_normal_predictive, of_apply, Matrix.smul_apply, smul_eq_mul, Fintype.card_fin]
    ring
  refine tendsto_mvtPdf (m := fun n => (multivariate_normal_predictive (post n)).mu)
    (S := fun n => (multivariate_normal_predictive (post n)).sigma)
    (ν := fun n => (multivariate_normal_predictive (post n)).nu) hc (fun n => ?_) (tendsto_pi_nhds.2 r3)
    (fun i j => ?_) ?_ x
  · rw [hsig]
    obtain ⟨a, b, c⟩ := r2 n
    exact posDef_smul c (div_pos (by linarith) (mul_pos a (by linarith)))
  · simp only [hsig, Matrix.smul_apply, smul_eq_mul]
    have k1 : Tendsto (fun n => ((post n).kappa + 1) / (post n).kappa) atTop (𝓝 1) := by
      have : Tendsto (fun n => 1 + 1 / (post n).kappa) atTop (𝓝 (1 + 0)) :=
        tendsto_const_nhds.add (tendsto_const_nhds.div_atTop r4)
      rw [add_zero] at this
      refine this.congr fun n => ?_
      have := (r2 n).1.ne'
      field_simp
    have k2 : Tendsto (fun n => (post n).nu / ((post n).nu - (d : ℝ) + 1)) atTop (𝓝 1) := by
      have : Tendsto (fun n => 1 + ((d : ℝ) - 1) / ((post n).nu - (d : ℝ) + 1)) atTop (𝓝 (1 + 0)) :=
        tendsto_const_nhds.add (tendsto_const_nhds.div_atTop hν)
      rw [add_zero] at this
      refine this.congr fun n => ?_
      have : (post n).nu - (d : ℝ) + 1 ≠ 0 := by linarith [(r2 n).2.1]
      field_simp
      ring
    have k3 := (k1.mul k2).mul (r6 i j)
    rw [one_mul, one_mul] at k3
    refine k3.congr' ?_
    filter_upwards [r5.eventually_gt_atTop 0] with n hn
    have a := (r2 n).1.ne'
    have b : (post n).nu - (d : ℝ) + 1 ≠ 0 := by linarith [(r2 n).2.1]
    field_simp
  · simp only [multivariate_normal_predictive, Fintype.card_fin]
    exact hν

example : ∃ (Q : Measure (ℕ → Fin 2 → ℝ)) (X : ℕ → (ℕ → Fin 2 → ℝ) → Fin 2 → ℝ), IsProbabilityMeasure Q ∧
    IIDFrom Q X (lawOn univ (mvnPdf ![1, -3] !![2, 1; 1, 2])) ∧
    (∀ᵐ ω ∂Q, ∃ post : ℕ → NormalInverseWishart ℝ (Fin 2 → ℝ) (Matrix (Fin 2) (Fin 2) ℝ),
      (∀ n : ℕ, multivariate_normal (Matrix.of fun (i : Fin (n + 1)) j => X i ω j) ⟨![0, 1], 2, 4, 1⟩ = .ok (post n)) ∧
      ConcentratesAt (fun n => lawOn {θ : (Fin 2 → ℝ) × (UpperIdx 2 → ℝ) | (symOf θ.2).PosDef} fun θ =>
        (post n).jointPdf θ.1 (symOf θ.2)) (![1, -3], upperOf !![2, 1; 1, 2])) ∧
    ∀ᵐ ω ∂Q, ∃ post : ℕ → NormalInverseWishart ℝ (Fin 2 → ℝ) (Matrix (Fin 2) (Fin 2) ℝ),
      (∀ n : ℕ, multivariate_normal (Matrix.of fun (i : Fin (n + 1)) j => X i ω j) ⟨![0, 1], 2, 4, 1⟩ = .ok (post n)) ∧
      ∀ x, Tendsto (fun n => (multivariate_normal_predictive (post n)).pdf x) atTop
        (𝓝 ((MultivariateNormal.mk ![1, -3] !![2, 1; 1, 2]).pdf x)) := by
  have := mvn_prob exampleCov_posDef ![1, -3]
  obtain ⟨Q, X, hQ, h⟩ := exists_iid (lawOn univ (mvnPdf ![1, -3] !![2, 1; 1, 2]))
  exact ⟨Q, X, hQ, h, C88_multivariate_normal _ (by norm_num) (by norm_num) PosDef.one _ exampleCov_posDef h,
    C93_multivariate_normal _ (by norm_num) (by norm_num) PosDef.one _ exampleCov_posDef h⟩

end Conj
