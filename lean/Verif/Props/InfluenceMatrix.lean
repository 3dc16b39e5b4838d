import Verif.Props.Influence
import Verif.Lemmas.MatAlg
import Verif.Lemmas.RowsAlg

/-!
# C75 for the matrix models

For the models that take the rows themselves, two data sets give the same posterior exactly when their sufficient
statistics agree: the statement says which ones these are.
-/

open Matrix

set_option linter.unusedSectionVars false

namespace Conj

open Spec

variable {m m' p : Type} [Fintype m] [Fintype m'] [Fintype p] [DecidableEq p]

theorem inv_inj_of_posDef {A B : Matrix p p ℝ} (hA : A.PosDef) (hB : B.PosDef) (h : A⁻¹ = B⁻¹) : A = B := by
  have := congrArg (fun M => M⁻¹) h
  simpa only [nonsing_inv_nonsing_inv _ (posDef_unit hA), nonsing_inv_nonsing_inv _ (posDef_unit hB)] using this

theorem mulVec_inj_of_posDef {A : Matrix p p ℝ} (hA : A.PosDef) {v w : p → ℝ} (h : A *ᵥ v = A *ᵥ w) : v = w := by
  have := congrArg (fun u => A⁻¹ *ᵥ u) h
  simpa only [mulVec_mulVec, nonsing_inv_mul _ (posDef_unit hA), one_mulVec] using this

theorem realSmul_posSemidef {A : Matrix p p ℝ} (h : A.PosDef) {n : ℝ} (hn : 0 ≤ n) : (n • A).PosSemidef :=
  h.posSemidef.smul hn

theorem known_prec_real {n : ℝ} (hn : 0 ≤ n) (x_bar : p → ℝ) {P : Matrix p p ℝ} (hP : P.PosDef)
    (prior : MultivariateNormal (p → ℝ) (Matrix p p ℝ)) (hS : prior.cov.PosDef) :
    multivariate_normal_known_precision n x_bar P prior = .ok
      { mu := (prior.cov⁻¹ + n • P)⁻¹ *ᵥ (prior.cov⁻¹ *ᵥ prior.mu + n • (P *ᵥ x_bar))
        cov := (prior.cov⁻¹ + n • P)⁻¹ } := by
  have hA : (prior.cov⁻¹ + n • P).PosDef := hS.inv.add_posSemidef (realSmul_posSemidef hP hn)
  simp only [multivariate_normal_known_precision, multivariateNormalKnownPrecisionParams,
    linalgInv_posDef hS, linalgInv_posDef hA, bind, Except.bind, pure, Except.pure]

theorem known_cov_real {n : ℝ} (hn : 0 ≤ n) (x_bar : p → ℝ) {R : Matrix p p ℝ} (hR : R.PosDef)
    (prior : MultivariateNormal (p → ℝ) (Matrix p p ℝ)) (hS : prior.cov.PosDef) :
    multivariate_normal_known_covariance n x_bar R prior = multivariate_normal_known_precision n x_bar R⁻¹ prior := by
  have hA : (prior.cov⁻¹ + n • R⁻¹).PosDef := hS.inv.add_posSemidef (realSmul_posSemidef hR.inv hn)
  rw [known_prec_real hn x_bar hR.inv prior hS]
  simp only [multivariate_normal_known_covariance, multivariateNormalKnownPrecisionParams,
    linalgInv_posDef hS, linalgInv_posDef hR, linalgInv_posDef hA, bind, Except.bind, pure, Except.pure]

/-- Two calls agree exactly when `n * precision` and `n * precision * x_bar` do. -/
theorem C75_multivariate_normal_known_precision_iff (prior : MultivariateNormal (p → ℝ) (Matrix p p ℝ))
    (hS : prior.cov.PosDef) {n n' : ℝ} (hn : 0 ≤ n) (hn' : 0 ≤ n') (x x' : p → ℝ) {P P' : Matrix p p ℝ} (hP : P.PosDef)
    (hP' : P'.PosDef) :
    multivariate_normal_known_precision n x P prior = multivariate_normal_known_precision n' x' P' prior ↔
      n • P = n' • P' ∧ n • (P *ᵥ x) = n' • (P' *ᵥ x') := by
  have hA : (prior.cov⁻¹ + n • P).PosDef := hS.inv.add_posSemidef (realSmul_posSemidef hP hn)
  have hA' : (prior.cov⁻¹ + n' • P').PosDef := hS.inv.add_posSemidef (realSmul_posSemidef hP' hn')
  rw [known_prec_real hn x hP prior hS, known_prec_real hn' x' hP' prior hS, Except.ok.injEq,
    MultivariateNormal.mk.injEq]
  constructor
  · rintro ⟨h1, h2⟩
    have h3 := inv_inj_of_posDef hA hA' h2
    rw [← h3] at h1
    exact ⟨add_left_cancel h3, add_left_cancel (mulVec_inj_of_posDef hA.inv h1)⟩
  · rintro ⟨h1, h2⟩
    rw [h1, h2]
    exact ⟨rfl, rfl⟩

/-- C75. Multivariate normal data with known precision: the sample mean, the number of observations, the precision. -/
theorem C75_multivariate_normal_known_precision [Nonempty p] (prior : MultivariateNormal (p → ℝ) (Matrix p p ℝ))
    (hS : prior.cov.PosDef) (n : ℝ) (x : p → ℝ) {P : Matrix p p ℝ} (hP : P.PosDef) :
    (0 < n → ∀ x x', x ≠ x' →
      multivariate_normal_known_precision n x P prior ≠ multivariate_normal_known_precision n x' P prior) ∧
    Matters (fun n => multivariate_normal_known_precision n x P prior) (Set.Ici 0) ∧
    (0 < n → ∀ P', P'.PosDef → P ≠ P' →
      multivariate_normal_known_precision n x P prior ≠ multivariate_normal_known_precision n x P' prior) := by
  refine ⟨fun hn x x' hne h => hne ?_, matters_of_inj fun a ha b hb h => ?_, fun hn P' hP' hne h => hne ?_⟩
  · have := ((C75_multivariate_normal_known_precision_iff prior hS hn.le hn.le x x' hP hP).1 h).2
    exact mulVec_inj_of_posDef hP (smul_right_injective _ hn.ne' this)
  · have := ((C75_multivariate_normal_known_precision_iff prior hS ha hb x x hP hP).1 h).1
    obtain ⟨i⟩ := ‹Nonempty p›
    have h1 := congrFun (congrFun this i) i
    simp only [Matrix.smul_apply, smul_eq_mul] at h1
    exact mul_right_cancel₀ hP.diag_pos.ne' h1
  · have := ((C75_multivariate_normal_known_precision_iff prior hS hn.le hn.le x x hP hP').1 h).1
    exact smul_right_injective _ hn.ne' this

/-- C75. Multivariate normal data with known covariance. -/
theorem C75_multivariate_normal_known_covariance [Nonempty p] (prior : MultivariateNormal (p → ℝ) (Matrix p p ℝ))
    (hS : prior.cov.PosDef) (n : ℝ) (x : p → ℝ) {cov : Matrix p p ℝ} (hc : cov.PosDef) :
    (0 < n → ∀ x x', x ≠ x' →
      multivariate_normal_known_covariance n x cov prior ≠ multivariate_normal_known_covariance n x' cov prior) ∧
    Matters (fun n => multivariate_normal_known_covariance n x cov prior) (Set.Ici 0) ∧
    (0 < n → ∀ cov', cov'.PosDef → cov ≠ cov' →
      multivariate_normal_known_covariance n x cov prior ≠ multivariate_normal_known_covariance n x cov' prior) := by
  obtain ⟨h1, h2, h3⟩ := C75_multivariate_normal_known_precision prior hS n x hc.inv
  refine ⟨fun hn x x' hne h => ?_, matters_of_inj fun a ha b hb h => ?_, fun hn cov' hc' hne h => ?_⟩
  · rw [known_cov_real hn.le x hc prior hS, known_cov_real hn.le x' hc prior hS] at h
    exact h1 hn x x' hne h
  · rw [known_cov_real ha x hc prior hS, known_cov_real hb x hc prior hS] at h
    by_contra hne
    exact h2 a ha b hb hne h
  · rw [known_cov_real hn.le x hc prior hS, known_cov_real hn.le x hc' prior hS] at h
    exact h3 hn _ hc'.inv (fun he => hne (inv_inj_of_posDef hc hc' he)) h

/-- C75. Linear regression: two data sets give the same posterior exactly when they have the same number of rows, the
same `X.T @ X`, the same `X.T @ y` and the same `y.T @ y`. -/
theorem C75_linear_regression (prior : NormalInverseGamma ℝ (p → ℝ) (Matrix p p ℝ)) {D : Matrix p p ℝ}
    (h : prior.delta_inverse = some D) (hD : D.PosDef) (X : Matrix m p ℝ) (y : m → ℝ) (X' : Matrix m' p ℝ) (y' : m' → ℝ) :
    linear_regression X y prior = linear_regression X' y' prior ↔
      Fintype.card m = Fintype.card m' ∧ Xᵀ * X = X'ᵀ * X' ∧ Xᵀ *ᵥ y = X'ᵀ *ᵥ y' ∧ y ⬝ᵥ y = y' ⬝ᵥ y' := by
  classical
  have hA : (Xᵀ * X + D⁻¹).PosDef := gram_add_posDef X hD
  have hA' : (X'ᵀ * X' + D⁻¹).PosDef := gram_add_posDef X' hD
  have e : ∀ {k : Type} [Fintype k] (X : Matrix k p ℝ) (y : k → ℝ), (Xᵀ * X + D⁻¹).PosDef →
      linear_regression X y prior = .ok
      { mu := (Xᵀ * X + D⁻¹)⁻¹ *ᵥ (D⁻¹ *ᵥ prior.mu + Xᵀ *ᵥ y)
        alpha := prior.alpha + 1 / 2 * (Fintype.card k : ℝ)
        beta := prior.beta + 1 / 2 * (y ⬝ᵥ y + prior.mu ⬝ᵥ D⁻¹ *ᵥ prior.mu -
          ((Xᵀ * X + D⁻¹)⁻¹ *ᵥ (D⁻¹ *ᵥ prior.mu + Xᵀ *ᵥ y)) ⬝ᵥ (Xᵀ * X + D⁻¹) *ᵥ
            ((Xᵀ * X + D⁻¹)⁻¹ *ᵥ (D⁻¹ *ᵥ prior.mu + Xᵀ *ᵥ y)))
        delta_inverse := some (Xᵀ * X + D⁻¹)⁻¹
        nu := none } := by
    intro k _ X y hA
    simp only [linear_regression, h, linalgInv_posDef hD, linalgInv_posDef hA, bind, Except.bind, NormalInverseGamma.new]
    rfl
  rw [e X y hA, e X' y' hA', Except.ok.injEq, NormalInverseGamma.mk.injEq]
  constructor
  · rintro ⟨h1, h2, h3, h4, -⟩
    have hAA := inv_inj_of_posDef hA hA' (Option.some.inj h4)
    have hG : Xᵀ * X = X'ᵀ * X' := add_right_cancel hAA
    rw [← hAA] at h1 h3
    have hv := mulVec_inj_of_posDef hA.inv h1
    rw [← hv] at h3
    refine ⟨?_, hG, add_left_cancel hv, ?_⟩
    · have : (Fintype.card m : ℝ) = Fintype.card m' := by linarith
      exact_mod_cast this
    · linarith
  · rintro ⟨h1, h2, h3, h4⟩
    rw [h1, h2, h3, h4]
    exact ⟨rfl, rfl, rfl, rfl, rfl⟩

/-- C75. Multivariate normal data with known mean: two data sets give the same posterior exactly when they have the
same number of rows and the same sums of products about the mean. -/
theorem C75_multivariate_normal_known_mean (prior : InverseWishart ℝ (Matrix p p ℝ)) (X : Matrix m p ℝ)
    (X' : Matrix m' p ℝ) (mu mu' : p → ℝ) :
    multivariate_normal_known_mean X mu prior = multivariate_normal_known_mean X' mu' prior ↔
      Fintype.card m = Fintype.card m' ∧
        ∀ j k, ∑ i, (X i j - mu j) * (X i k - mu k) = ∑ i, (X' i j - mu' j) * (X' i k - mu' k) := by
  simp only [multivariate_normal_known_mean, InverseWishart.mk.injEq, add_right_inj, Nat.cast_inj]
  refine and_congr_right fun _ => ⟨fun h j k => ?_, fun h => ?_⟩
  · have := congrFun (congrFun h j) k
    simpa only [mul_apply, transpose_apply, subRow, of_apply] using this
  · ext j k
    simpa only [mul_apply, transpose_apply, subRow, of_apply] using h j k

theorem vecMulVec_eq_iff (v w : p → ℝ) : vecMulVec v v = vecMulVec w w ↔ v = w ∨ v = -w := by
  constructor
  · intro h
    have hij : ∀ i j, v i * v j = w i * w j := fun i j => by
      have := congrFun (congrFun h i) j
      simpa only [vecMulVec_apply] using this
    by_cases hv : v = 0
    · left
      funext i
      have := hij i i
      rw [hv, Pi.zero_apply, zero_mul] at this
      rw [hv, Pi.zero_apply]
      exact (mul_self_eq_zero.1 this.symm).symm
    · obtain ⟨i, hi⟩ := Function.ne_iff.1 hv
      have hi : v i ≠ 0 := hi
      rcases mul_self_eq_mul_self_iff.1 (hij i i) with h1 | h1
      · left
        funext j
        have := hij i j
        rw [← h1] at this
        exact mul_left_cancel₀ hi this
      · right
        funext j
        have := hij i j
        rw [show w i = -v i by rw [h1, neg_neg]] at this
        rw [Pi.neg_apply]
        exact mul_left_cancel₀ hi (by linarith)
  · rintro (h | h) <;> rw [h]
    ext i j; simp [vecMulVec_apply]

/-- the sums of products about any point, from those about the mean -/
theorem gram_about {X : Matrix m p ℝ} {c : p → ℝ} (hc : ∀ j, ∑ i, (X i j - c j) = 0) (mu : p → ℝ) (j k : p) :
    ∑ i, (X i j - mu j) * (X i k - mu k) =
      ∑ i, (X i j - c j) * (X i k - c k) + Fintype.card m * ((c j - mu j) * (c k - mu k)) := by
  have e : ∀ i, (X i j - mu j) * (X i k - mu k) = (X i j - c j) * (X i k - c k) + (X i j - c j) * (c k - mu k) +
      (X i k - c k) * (c j - mu j) + (c j - mu j) * (c k - mu k) := fun i => by ring
  simp only [e, Finset.sum_add_distrib, ← Finset.sum_mul, hc, Finset.sum_const, Finset.card_univ, nsmul_eq_mul]
  ring

/-- ... and for given rows the known mean matters, up to reflection in the sample mean (where the likelihoods agree). -/
theorem C75_multivariate_normal_known_mean_mu [Nonempty m] (prior : InverseWishart ℝ (Matrix p p ℝ)) (X : Matrix m p ℝ)
    (mu mu' : p → ℝ) :
    multivariate_normal_known_mean X mu prior = multivariate_normal_known_mean X mu' prior ↔
      mu = mu' ∨ ∀ j, mu j - (∑ i, X i j) / Fintype.card m = -(mu' j - (∑ i, X i j) / Fintype.card m) := by
  have hcard : (Fintype.card m : ℝ) ≠ 0 := by exact_mod_cast Fintype.card_ne_zero
  set c : p → ℝ := fun j => (∑ i, X i j) / Fintype.card m with hcd
  have hc : ∀ j, ∑ i, (X i j - c j) = 0 := fun j => by
    rw [Finset.sum_sub_distrib, Finset.sum_const, Finset.card_univ, nsmul_eq_mul, hcd]
    field_simp
    ring
  rw [C75_multivariate_normal_known_mean]
  rw [and_iff_right rfl]
  have e : ∀ mu mu' : p → ℝ, (∀ j k, ∑ i, (X i j - mu j) * (X i k - mu k) = ∑ i, (X i j - mu' j) * (X i k - mu' k)) ↔
      ∀ j k, (Fintype.card m : ℝ) * ((c j - mu j) * (c k - mu k)) = Fintype.card m * ((c j - mu' j) * (c k - mu' k)) :=
    fun mu mu' => forall₂_congr fun j k => by rw [gram_about hc mu, gram_about hc mu', add_right_inj]
  rw [e]
  have key : (∀ j k, (Fintype.card m : ℝ) * ((c j - mu j) * (c k - mu k)) =
      Fintype.card m * ((c j - mu' j) * (c k - mu' k))) ↔ vecMulVec (c - mu) (c - mu) = vecMulVec (c - mu') (c - mu') := by
    constructor
    · intro h
      ext j k
      exact mul_left_cancel₀ hcard (h j k)
    · intro h j k
      have := congrFun (congrFun h j) k
      simp only [vecMulVec_apply, Pi.sub_apply] at this
      rw [this]
  rw [key, vecMulVec_eq_iff]
  refine or_congr ⟨fun h => ?_, fun h => by rw [h]⟩ ⟨fun h j => ?_, fun h => ?_⟩
  · exact sub_right_injective h
  · have := congrFun h j
    simp only [Pi.sub_apply, Pi.neg_apply] at this
    linarith
  · funext j
    have := h j
    simp only [Pi.sub_apply, Pi.neg_apply]
    linarith

/-- C75. Multivariate normal data, mean and covariance unknown: two data sets give the same posterior exactly when they
have the same number of rows, the same column means and the same sums of products about them. -/
theorem C75_multivariate_normal [Nonempty m] [Nonempty m'] (prior : NormalInverseWishart ℝ (p → ℝ) (Matrix p p ℝ))
    (hk : 0 < prior.kappa) (X : Matrix m p ℝ) (X' : Matrix m' p ℝ) {c c' : p → ℝ}
    (hc : ∀ j, c j = (∑ i, X i j) / Fintype.card m) (hc' : ∀ j, c' j = (∑ i, X' i j) / Fintype.card m') :
    multivariate_normal X prior = multivariate_normal X' prior ↔
      Fintype.card m = Fintype.card m' ∧ c = c' ∧
        ∀ j k, ∑ i, (X i j - c j) * (X i k - c k) = ∑ i, (X' i j - c' j) * (X' i k - c' k) := by
  have hn : (0 : ℝ) < Fintype.card m := by exact_mod_cast Fintype.card_pos
  have e : ∀ {k : Type} [Fintype k] [Nonempty k] (X : Matrix k p ℝ) (c : p → ℝ),
      (∀ j, c j = (∑ i, X i j) / Fintype.card k) → multivariate_normal X prior = .ok
      { mu := fun j => (prior.mu j * prior.kappa + Fintype.card k * c j) / (prior.kappa + Fintype.card k)
        kappa := prior.kappa + Fintype.card k
        nu := prior.nu + Fintype.card k
        psi := prior.psi + (subRow X c)ᵀ * (subRow X c) + Matrix.of fun i j =>
          vecMulVec (c - prior.mu) (c - prior.mu) i j * Fintype.card k * prior.kappa / (prior.kappa + Fintype.card k) } := by
    intro k _ _ X c hc
    have : meanAxis0 X = .ok c := by
      rw [meanAxis0, if_neg Fintype.card_ne_zero]
      congr 1
      funext j
      exact (hc j).symm
    simp only [multivariate_normal, this, bind, Except.bind, pure, Except.pure]
  rw [e X c hc, e X' c' hc', Except.ok.injEq, NormalInverseWishart.mk.injEq]
  constructor
  · rintro ⟨h1, h2, h3, h4⟩
    have hcard : Fintype.card m = Fintype.card m' := by
      have : (Fintype.card m : ℝ) = Fintype.card m' := by linarith
      exact_mod_cast this
    have hcc : c = c' := by
      funext j
      have := congrFun h1 j
      rw [← hcard, div_left_inj' (by positivity)] at this
      exact mul_left_cancel₀ hn.ne' (add_left_cancel this)
    refine ⟨hcard, hcc, fun j k => ?_⟩
    rw [← hcard, ← hcc] at h4
    have h5 : (subRow X c)ᵀ * subRow X c = (subRow X' c)ᵀ * subRow X' c := add_left_cancel (add_right_cancel h4)
    have := congrFun (congrFun h5 j) k
    rw [← hcc]
    simpa only [mul_apply, transpose_apply, subRow, of_apply] using this
  · rintro ⟨h1, h2, h3⟩
    have hG : (subRow X c)ᵀ * subRow X c = (subRow X' c')ᵀ * subRow X' c' := by
      ext j k
      simpa only [mul_apply, transpose_apply, subRow, of_apply] using h3 j k
    rw [hG, h1, h2]
    exact ⟨rfl, rfl, rfl, rfl⟩

/-- the conditions are met by different data: adding one point changes the posterior, exchanging two rows does not -/
example : multivariate_normal_known_mean !![1, 2; 3, 4] ![0, 0] ⟨4, 1⟩ =
      multivariate_normal_known_mean !![3, 4; 1, 2] ![0, 0] ⟨4, 1⟩ ∧
    multivariate_normal_known_mean !![1, 2; 3, 4] ![0, 0] ⟨4, 1⟩ ≠
      multivariate_normal_known_mean !![1, 2; 3, 4; 0, 0] ![0, 0] ⟨4, 1⟩ := by
  rw [Ne, C75_multivariate_normal_known_mean, C75_multivariate_normal_known_mean]
  refine ⟨⟨rfl, fun j k => ?_⟩, fun h => by simpa using h.1⟩
  fin_cases j <;> fin_cases k <;> simp [Fin.sum_univ_two] <;> norm_num

example : linear_regression !![1, 2; 3, 4] ![1, 0] ⟨![0, 1], 3, 2, some 1, none⟩ ≠
    linear_regression !![1, 2; 3, 4] ![0, 1] ⟨![0, 1], 3, 2, some 1, none⟩ := by
  rw [Ne, C75_linear_regression _ rfl PosDef.one]
  rintro ⟨-, -, h, -⟩
  have := congrFun h 0
  simp [mulVec, dotProduct, Fin.sum_univ_two] at this

example : multivariate_normal_known_covariance 3 ![1, 2] 1 ⟨![0, 1], 1⟩ ≠
    multivariate_normal_known_covariance 3 ![2, 2] 1 ⟨![0, 1], 1⟩ :=
  (C75_multivariate_normal_known_covariance ⟨![0, 1], 1⟩ PosDef.one 3 0 PosDef.one).1 (by norm_num) _ _ (by simp)

example : multivariate_normal (m := Fin 2) !![1, 2; 3, 4] ⟨![0, 1], 2, 4, 1⟩ ≠
    multivariate_normal (m := Fin 2) !![1, 2; 3, 6] ⟨![0, 1], 2, 4, 1⟩ := by
  rw [Ne, C75_multivariate_normal ⟨![0, 1], 2, 4, 1⟩ (by norm_num) (c := ![2, 3]) (c' := ![2, 4])]
  · rintro ⟨-, h, -⟩
    have := congrFun h 1
    norm_num at this
  · intro j; fin_cases j <;> simp [Fin.sum_univ_two] <;> norm_num
  · intro j; fin_cases j <;> simp [Fin.sum_univ_two] <;> norm_num

end Conj
