import Verif.Props.OneDim

/-!
# The `inv` argument of the matrix models (C74)

Honouring `inv` means: whatever `inv` returns for the matrices to be inverted is what the
result is made of, and whatever it raises is raised.  `CorrectInv inv` says that `inv` is a
correct inversion routine on invertible matrices.
-/

namespace Conj

open Matrix Scipy Spec

set_option linter.unusedSectionVars false

variable {m p : Type} [Fintype m] [DecidableEq m] [Fintype p] [DecidableEq p]

/-- a correct inversion routine: on an invertible matrix it returns a right inverse (nothing is
said about singular matrices) -/
def CorrectInv (inv : InvFn p) : Prop :=
  ∀ A : Matrix p p ℝ, IsUnit A → ∃ B, inv A = .ok B ∧ A * B = 1

theorem CorrectInv.eq {inv : InvFn p} (h : CorrectInv inv) {A : Matrix p p ℝ} (hA : A.PosDef) :
    inv A = linalgInv A := by
  obtain ⟨B, hB, hAB⟩ := h A hA.isUnit
  rw [hB, linalgInv_posDef hA, Matrix.inv_eq_right_inv hAB]

/-- `np.linalg.inv` is a correct inversion routine. -/
theorem correctInv_linalgInv : CorrectInv (linalgInv (p := p)) := fun A hA => by
  have hd := (Matrix.isUnit_iff_isUnit_det A).1 hA
  exact ⟨A⁻¹, linalgInv_ok hd.ne_zero, Matrix.mul_nonsing_inv A hd⟩

/-- C74. `linear_regression` uses its `inv` for both inversions. -/
theorem C74_linear_regression_honours (inv : InvFn p) (X : Matrix m p ℝ) (y : m → ℝ)
    (mu : p → ℝ) (D : Matrix p p ℝ) (alpha beta : ℝ) :
    let prior : NormalInverseGamma ℝ (p → ℝ) (Matrix p p ℝ) :=
      { mu := mu, delta_inverse := some D, alpha := alpha, beta := beta, nu := none }
    (∀ e, inv D = .error e → linear_regression X y prior inv = .error e) ∧
    (∀ P e, inv D = .ok P → inv (Xᵀ * X + P) = .error e →
      linear_regression X y prior inv = .error e) ∧
    (∀ P S, inv D = .ok P → inv (Xᵀ * X + P) = .ok S →
      let m_post := S *ᵥ (P *ᵥ mu + Xᵀ *ᵥ y)
      linear_regression X y prior inv =
        .ok { mu := m_post, delta_inverse := some S, alpha := alpha + 1 / 2 * Fintype.card m,
              beta := beta + 1 / 2 * (y ⬝ᵥ y + mu ⬝ᵥ P *ᵥ mu - m_post ⬝ᵥ (Xᵀ * X + P) *ᵥ m_post),
              nu := none }) := by
  refine ⟨fun e h => ?_, fun P e h h' => ?_, fun P S h h' => ?_⟩
  · simp [linear_regression, h, bind, Except.bind]
  · simp [linear_regression, h, h', bind, Except.bind]
  · simp [linear_regression, h, h', bind, Except.bind, NormalInverseGamma.new]

/-- C74. With a correct inverse, `linear_regression` returns what it returns by default. -/
theorem C74_linear_regression_correct (inv : InvFn p) (hinv : CorrectInv inv) (X : Matrix m p ℝ)
    (y : m → ℝ) (prior : NormalInverseGamma ℝ (p → ℝ) (Matrix p p ℝ)) (D : Matrix p p ℝ)
    (hD : prior.delta_inverse = some D) (hpos : D.PosDef) :
    linear_regression X y prior inv = linear_regression X y prior := by
  have h2 : (Xᵀ * X + D⁻¹).PosDef := gram_add_posDef X hpos
  simp only [linear_regression, hD, hinv.eq hpos, linalgInv_posDef hpos, bind, Except.bind,
    hinv.eq h2]

/-- C74. The predictive with known precision uses its `inv`. -/
theorem C74_known_precision_predictive_honours (inv : InvFn p)
    (d : MultivariateNormal (p → ℝ) (Matrix p p ℝ)) (precision : Matrix p p ℝ) :
    (∀ e, inv precision = .error e →
      multivariate_normal_known_precision_predictive d precision inv = .error e) ∧
    (∀ S, inv precision = .ok S →
      multivariate_normal_known_precision_predictive d precision inv =
        .ok { mu := d.mu, cov := d.cov + S }) := by
  refine ⟨fun e h => ?_, fun S h => ?_⟩ <;>
    simp [multivariate_normal_known_precision_predictive, h, bind, Except.bind, pure, Except.pure]

/-- C74. -/
theorem C74_known_precision_predictive_correct (inv : InvFn p) (hinv : CorrectInv inv)
    (d : MultivariateNormal (p → ℝ) (Matrix p p ℝ)) (precision : Matrix p p ℝ)
    (h : precision.PosDef) :
    multivariate_normal_known_precision_predictive d precision inv =
      multivariate_normal_known_precision_predictive d precision := by
  simp only [multivariate_normal_known_precision_predictive, hinv.eq h]

theorem prec_sum_posDef {A B : Matrix p p ℝ} (hA : A.PosDef) (hB : B.PosDef) (n : ℕ) :
    (A + (n : ℝ) • B).PosDef := hA.add_posSemidef (natSmul_posSemidef hB n)

/-- C74. With a correct inverse, the model with known covariance returns what it returns by
default. -/
theorem C74_known_covariance_correct (inv : InvFn p) (hinv : CorrectInv inv) (n : ℕ)
    (x_bar : p → ℝ) (cov : Matrix p p ℝ) (hc : cov.PosDef)
    (prior : MultivariateNormal (p → ℝ) (Matrix p p ℝ)) (hp : prior.cov.PosDef) :
    multivariate_normal_known_covariance (n : ℝ) x_bar cov prior inv =
      multivariate_normal_known_covariance (n : ℝ) x_bar cov prior := by
  have h := prec_sum_posDef hp.inv hc.inv n
  simp only [multivariate_normal_known_covariance, multivariateNormalKnownPrecisionParams,
    hinv.eq hp, hinv.eq hc, linalgInv_posDef hp, linalgInv_posDef hc, linalgInv_posDef h, bind,
    Except.bind, pure, Except.pure, hinv.eq h]

/-- C74. Known precision. -/
theorem C74_known_precision_correct (inv : InvFn p) (hinv : CorrectInv inv) (n : ℕ)
    (x_bar : p → ℝ) (precision : Matrix p p ℝ) (hc : precision.PosDef)
    (prior : MultivariateNormal (p → ℝ) (Matrix p p ℝ)) (hp : prior.cov.PosDef) :
    multivariate_normal_known_precision (n : ℝ) x_bar precision prior inv =
      multivariate_normal_known_precision (n : ℝ) x_bar precision prior := by
  have h := prec_sum_posDef hp.inv hc n
  simp only [multivariate_normal_known_precision, multivariateNormalKnownPrecisionParams,
    hinv.eq hp, linalgInv_posDef hp, linalgInv_posDef h, bind,
    Except.bind, pure, Except.pure, hinv.eq h]

/-- The Moore-Penrose inverse of a 1 x 1 matrix (`np.linalg.pinv`): never raises, `[[0]]` is its
own inverse. -/
noncomputable def pinv1 : InvFn (Fin 1) := fun A => .ok (mat1 (A 0 0)⁻¹)

theorem mat1_eta (A : Matrix (Fin 1) (Fin 1) ℝ) : A = mat1 (A 0 0) := by
  ext i j; fin_cases i; fin_cases j; rfl

theorem pinv1_correct : CorrectInv pinv1 := fun A hA => by
  have hd := ((Matrix.isUnit_iff_isUnit_det A).1 hA).ne_zero
  rw [mat1_eta A, mat1_det] at hd
  refine ⟨_, rfl, ?_⟩
  ext i j
  fin_cases i; fin_cases j
  simp [mul_apply, mat1, hd]

/-- C74 is false of the model with known covariance: with `inv=pinv` and flat (zero) precisions
the call raises `LinAlgError`, although `pinv` inverts every matrix involved — the helper that
computes the mean is not handed `inv`. -/
theorem C74_known_covariance_ignores_inv (n : ℝ) (x_bar mu : Fin 1 → ℝ) :
    multivariate_normal_known_covariance n x_bar (mat1 0) { mu := mu, cov := mat1 0 } pinv1 =
      .error .linAlg := by
  have e : mat1 (0 : ℝ) + n • mat1 0 = 0 := by ext i j; simp [mat1]
  have e0 : pinv1 (mat1 0) = .ok (mat1 0) := by simp [pinv1, mat1]
  simp only [multivariate_normal_known_covariance, e0, bind, Except.bind,
    multivariateNormalKnownPrecisionParams, e]
  simp [linalgInv]

/-- C74 is false of the model with known precision, for the same reason. -/
theorem C74_known_precision_ignores_inv (n : ℝ) (x_bar mu : Fin 1 → ℝ) :
    multivariate_normal_known_precision n x_bar (mat1 0) { mu := mu, cov := mat1 0 } pinv1 =
      .error .linAlg := by
  have e : mat1 (0 : ℝ) + n • mat1 0 = 0 := by ext i j; simp [mat1]
  have e0 : pinv1 (mat1 0) = .ok (mat1 0) := by simp [pinv1, mat1]
  simp only [multivariate_normal_known_precision, e0, bind, Except.bind,
    multivariateNormalKnownPrecisionParams, e]
  simp [linalgInv]

/-- C74, partial, known covariance: `inv` is honoured for the two matrices passed in and for the
returned covariance, but the mean is computed with `np.linalg.inv` of the summed precision.
Missing: the mean should use `inv` too (see `C74_known_covariance_ignores_inv`). -/
theorem C74_known_covariance_honours_partial (inv : InvFn p) (n : ℝ) (x_bar mu : p → ℝ)
    (cov cov_0 : Matrix p p ℝ) :
    let prior : MultivariateNormal (p → ℝ) (Matrix p p ℝ) := { mu := mu, cov := cov_0 }
    (∀ e, inv cov_0 = .error e →
      multivariate_normal_known_covariance n x_bar cov prior inv = .error e) ∧
    (∀ P₀ e, inv cov_0 = .ok P₀ → inv cov = .error e →
      multivariate_normal_known_covariance n x_bar cov prior inv = .error e) ∧
    (∀ P₀ P S, inv cov_0 = .ok P₀ → inv cov = .ok P → inv (P₀ + n • P) = .ok S →
      (P₀ + n • P).det ≠ 0 →
      multivariate_normal_known_covariance n x_bar cov prior inv =
        .ok { mu := (P₀ + n • P)⁻¹ *ᵥ (P₀ *ᵥ mu + n • P *ᵥ x_bar), cov := S }) := by
  refine ⟨fun e h => ?_, fun P₀ e h h' => ?_, fun P₀ P S h h' h'' hd => ?_⟩
  · simp [multivariate_normal_known_covariance, h, bind, Except.bind]
  · simp [multivariate_normal_known_covariance, h, h', bind, Except.bind]
  · simp [multivariate_normal_known_covariance, h, h', h'', bind, Except.bind,
      multivariateNormalKnownPrecisionParams, linalgInv_ok hd, pure, Except.pure]

/-- C74, partial, known precision. -/
theorem C74_known_precision_honours_partial (inv : InvFn p) (n : ℝ) (x_bar mu : p → ℝ)
    (P cov_0 : Matrix p p ℝ) :
    let prior : MultivariateNormal (p → ℝ) (Matrix p p ℝ) := { mu := mu, cov := cov_0 }
    (∀ e, inv cov_0 = .error e →
      multivariate_normal_known_precision n x_bar P prior inv = .error e) ∧
    (∀ P₀ S, inv cov_0 = .ok P₀ → inv (P₀ + n • P) = .ok S → (P₀ + n • P).det ≠ 0 →
      multivariate_normal_known_precision n x_bar P prior inv =
        .ok { mu := (P₀ + n • P)⁻¹ *ᵥ (P₀ *ᵥ mu + n • P *ᵥ x_bar), cov := S }) := by
  refine ⟨fun e h => ?_, fun P₀ S h h' hd => ?_⟩
  · simp [multivariate_normal_known_precision, h, bind, Except.bind]
  · simp [multivariate_normal_known_precision, h, h', bind, Except.bind,
      multivariateNormalKnownPrecisionParams, linalgInv_ok hd, pure, Except.pure]

/-- the hypotheses are met by `pinv` -/
example := C74_known_covariance_correct pinv1 pinv1_correct 3 (vec1 1) (mat1 2)
  (mat1_posDef (by norm_num)) { mu := vec1 0, cov := mat1 4 } (mat1_posDef (by norm_num))
example := C74_linear_regression_correct pinv1 pinv1_correct (mat1 3) (vec1 1)
  { mu := vec1 0, delta_inverse := some (mat1 4), alpha := 1, beta := 1, nu := none } _ rfl
  (mat1_posDef (by norm_num))

end Conj
