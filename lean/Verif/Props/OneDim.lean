import Verif.Lemmas.RowsAlg
import Verif.Models

/-!
# Multivariate models in dimension one (C44)

`vec1 x` is the array `[x]`, `mat1 a` the array `[[a]]`.  A covariance is a squared standard
deviation, an `InverseWishart(nu, psi)` in dimension one is `InverseGamma(nu/2, psi/2)`.
-/



namespace Conj

open Matrix Scipy Spec

/-- the array `[x]` -/
def vec1 (x : ℝ) : Fin 1 → ℝ := fun _ => x

/-- the array `[[a]]` -/
def mat1 (a : ℝ) : Matrix (Fin 1) (Fin 1) ℝ := Matrix.of fun _ _ => a

theorem mat1_det (a : ℝ) : (mat1 a).det = a := by simp [mat1]

theorem mat1_inv (a : ℝ) : (mat1 a)⁻¹ = mat1 a⁻¹ := by
  rw [Matrix.inv_def, mat1_det, Ring.inverse_eq_inv']
  ext i j
  fin_cases i; fin_cases j
  simp [mat1]

theorem mat1_posDef {a : ℝ} (h : 0 < a) : (mat1 a).PosDef := by
  refine PosDef.of_dotProduct_mulVec_pos (by ext i j; simp [mat1]) fun x hx => ?_
  have h0 : x 0 ≠ 0 := fun h0 => hx (by ext i; fin_cases i; exact h0)
  have : star x ⬝ᵥ mat1 a *ᵥ x = a * x 0 ^ 2 := by
    simp [mat1, dotProduct, mulVec]; ring
  rw [this]; positivity

/-- C44. Known covariance against known variance: totals `n * x_bar`. -/
theorem C44_multivariate_normal_known_covariance (n : ℕ) (x_bar var mu s : ℝ) (hv : 0 < var)
    (hs : 0 < s) :
    let post := normal_known_variance (n * x_bar) (n : ℝ) var { mu := mu, sigma := s }
    multivariate_normal_known_covariance (n : ℝ) (vec1 x_bar) (mat1 var)
        { mu := vec1 mu, cov := mat1 (s ^ 2) } =
      .ok { mu := vec1 post.mu, cov := mat1 (post.sigma ^ 2) } := by
  intro post
  have hs2 : 0 < s ^ 2 := by positivity
  have hd : 0 < 1 / s ^ 2 + (n : ℝ) / var := by positivity
  rw [mvn_known_cov_eq n _ _ rfl (mat1_posDef hv) _ (mat1_posDef hs2)]
  have e : (mat1 (s ^ 2))⁻¹ + (n : ℝ) • (mat1 var)⁻¹ = mat1 (1 / s ^ 2 + (n : ℝ) / var) := by
    rw [mat1_inv, mat1_inv]
    ext i j
    simp [mat1]; ring
  simp only [e]
  simp only [mat1_inv, post, normal_known_variance, powq_two, powq_half, lit_real, Rat.cast_one]
  rw [Real.sq_sqrt (by positivity)]
  congr 2
  · ext i
    simp only [mulVec, dotProduct, Pi.add_apply, Pi.smul_apply, smul_eq_mul, mat1, of_apply, vec1,
      Finset.univ_unique, Finset.sum_singleton]
    field_simp
  · simp only [one_div]

/-- C44. Known precision likewise. -/
theorem C44_multivariate_normal_known_precision (n : ℕ) (x_bar precision mu s : ℝ)
    (hp : 0 < precision) (hs : 0 < s) :
    let post := normal_known_precision (n * x_bar) (n : ℝ) precision { mu := mu, sigma := s }
    multivariate_normal_known_precision (n : ℝ) (vec1 x_bar) (mat1 precision)
        { mu := vec1 mu, cov := mat1 (s ^ 2) } =
      .ok { mu := vec1 post.mu, cov := mat1 (post.sigma ^ 2) } := by
  have h := C44_multivariate_normal_known_covariance n x_bar (1 / precision) mu s
    (by positivity) hs
  simp only [normal_known_precision, lit_real, Rat.cast_one]
  rw [← h, mvn_known_prec_eq n _ _ rfl (mat1_posDef hp) _ (mat1_posDef (by positivity)),
    mvn_known_cov_eq n _ _ rfl (mat1_posDef (by positivity)) _ (mat1_posDef (by positivity)),
    mat1_inv (1 / precision)]
  simp

/-- C44. Known covariance / precision, predictive. -/
theorem C44_known_covariance_predictive (var mu s : ℝ) (hv : 0 < var) :
    let pred := normal_known_variance_predictive var { mu := mu, sigma := s }
    multivariate_normal_known_covariance_predictive { mu := vec1 mu, cov := mat1 (s ^ 2) }
        (mat1 var) = { mu := vec1 pred.mu, cov := mat1 (pred.sigma ^ 2) } := by
  simp only [multivariate_normal_known_covariance_predictive, normal_known_variance_predictive,
    powq_two, powq_half]
  rw [Real.sq_sqrt (by positivity)]
  congr 1
  ext i j; simp [mat1]; ring

/-- C44. -/
theorem C44_known_precision_predictive (precision mu s : ℝ) (hp : 0 < precision) :
    let pred := normal_known_precision_predictive precision { mu := mu, sigma := s }
    multivariate_normal_known_precision_predictive { mu := vec1 mu, cov := mat1 (s ^ 2) }
        (mat1 precision) = .ok { mu := vec1 pred.mu, cov := mat1 (pred.sigma ^ 2) } := by
  have h := C44_known_covariance_predictive (1 / precision) mu s (by positivity)
  simp only [normal_known_precision_predictive, lit_real, Rat.cast_one]
  rw [← h]
  simp only [multivariate_normal_known_precision_predictive, linalgInv_posDef (mat1_posDef hp),
    bind, Except.bind, pure, Except.pure, multivariate_normal_known_covariance_predictive,
    mat1_inv, one_div]

theorem vec1_rows_sum (xs : List ℝ) : (xs.map vec1).sum = vec1 xs.sum := by
  induction xs with
  | nil => rfl
  | cons x l ih => rw [List.map_cons, List.sum_cons, ih, List.sum_cons]; rfl

theorem vec1_gram (xs : List ℝ) (f : ℝ → ℝ) :
    ((xs.map vec1).map fun r => vecMulVec (fun i => f (r i)) (fun i => f (r i))).sum =
      mat1 (xs.map fun x => f x ^ 2).sum := by
  induction xs with
  | nil => ext; simp [mat1]
  | cons x l ih =>
    rw [List.map_cons, List.map_cons, List.sum_cons, ih, List.map_cons, List.sum_cons]
    ext i j
    simp [vecMulVec_apply, vec1, mat1]; ring

theorem sum_sub_sq (xs : List ℝ) (mu : ℝ) : (xs.map fun x => (x - mu) ^ 2).sum =
    (xs.map (· ^ 2)).sum - 2 * mu * xs.sum + xs.length * mu ^ 2 := by
  induction xs with
  | nil => simp
  | cons x l ih => simp only [List.map_cons, List.sum_cons, ih, List.length_cons]; push_cast; ring

/-- C44. Known mean: `InverseWishart(nu, psi)` against `InverseGamma(nu/2, psi/2)`. -/
theorem C44_multivariate_normal_known_mean (xs : List ℝ) (mu nu psi : ℝ) :
    let post := normalKnownMeanInverseGammaPrior xs.sum (xs.map (· ^ 2)).sum (xs.length : ℝ) mu
      { alpha := nu / 2, beta := psi / 2 }
    normal_known_mean xs.sum (xs.map (· ^ 2)).sum (xs.length : ℝ) mu
      (.inverseGamma { alpha := nu / 2, beta := psi / 2 }) = .inverseGamma post ∧
    multivariate_normal_known_mean (rows (xs.map vec1)) (vec1 mu) { nu := nu, psi := mat1 psi } =
      { nu := 2 * post.alpha, psi := mat1 (2 * post.beta) } := by
  refine ⟨rfl, ?_⟩
  have h := vec1_gram xs (fun x => x - mu)
  simp only [multivariate_normal_known_mean, subRow_gram, normalKnownMeanInverseGammaPrior,
    powq_two, lit_real]
  rw [show (fun r : Fin 1 → ℝ => vecMulVec (r - vec1 mu) (r - vec1 mu)) =
    fun r => vecMulVec (fun i => r i - mu) (fun i => r i - mu) from rfl, h, sum_sub_sq]
  ext i j
  · simp; ring
  · simp [mat1]; ring

/-- C44. Unknown mean and covariance: `NormalInverseWishart(mu, kappa, nu, psi)` against
`NormalInverseGamma(mu, nu=kappa, alpha=nu/2, beta=psi/2)`. -/
theorem C44_multivariate_normal (xs : List ℝ) (hne : xs ≠ []) (mu kappa nu psi : ℝ)
    (hk : 0 < kappa) :
    ∃ post : NormalInverseGamma ℝ ℝ (Matrix (Fin 1) (Fin 1) ℝ), ∃ k,
    normal xs.sum (xs.map (· ^ 2)).sum (xs.length : ℝ)
      (.nig { mu := mu, nu := some kappa, alpha := nu / 2, beta := psi / 2,
              delta_inverse := none }) = .ok (.nig post) ∧ post.nu = some k ∧
    multivariate_normal (rows (xs.map vec1))
        { mu := vec1 mu, kappa := kappa, nu := nu, psi := mat1 psi } =
      .ok { mu := vec1 post.mu, kappa := k, nu := 2 * post.alpha, psi := mat1 (2 * post.beta) } := by
  have hn : 0 < (xs.length : ℝ) := by exact_mod_cast List.length_pos_iff.2 hne
  have : Nonempty (Fin (xs.map vec1).length) :=
    ⟨⟨0, by rw [List.length_map]; exact List.length_pos_iff.2 hne⟩⟩
  refine ⟨_, _, rfl, rfl, ?_⟩
  have hkn : kappa + (Fintype.card (Fin (xs.map vec1).length) : ℝ) ≠ 0 := by positivity
  have hg := vec1_gram xs (fun x => x)
  rw [mvnormal_stats _ _ hkn]
  simp only [rows_total, rows_gram, vec1_rows_sum, Fintype.card_fin, List.length_map, normalUpdate,
    powq_two, lit_real]
  rw [hg]
  have hk' : kappa + (xs.length : ℝ) ≠ 0 := by positivity
  congr 1
  ext i j
  · simp [vec1]; field_simp
  · rfl
  · simp; ring
  · simp [mat1, vec1, vecMulVec_apply]; field_simp; ring

/-- C44. Predictive of the model with unknown mean and covariance. The scale matrix of a
multivariate t is the square of the scale of a univariate t. -/
theorem C44_multivariate_normal_predictive (mu kappa nu psi : ℝ) (hk : 0 < kappa) (hn : 0 < nu)
    (hp : 0 < psi) :
    ∃ t, normal_predictive (M := Matrix (Fin 1) (Fin 1) ℝ) (.nig { mu := mu, nu := some kappa, alpha := nu / 2, beta := psi / 2, delta_inverse := none }) =
      .ok t ∧
      multivariate_normal_predictive { mu := vec1 mu, kappa := kappa, nu := nu, psi := mat1 psi } =
        { mu := vec1 t.mu, sigma := mat1 (t.sigma ^ 2), nu := t.nu } := by
  refine ⟨_, rfl, ?_⟩
  simp only [powq_half, lit_real]
  rw [Real.sq_sqrt (by simp; positivity)]
  simp only [multivariate_normal_predictive, Fintype.card_fin]
  ext i j
  · rfl
  · simp [mat1]; field_simp
  · simp; ring

theorem designX_ones_gram (xs : List ℝ) :
    (designX (xs.map fun x => (vec1 1, x)))ᵀ * designX (xs.map fun x => (vec1 1, x)) =
      mat1 (xs.length : ℝ) := by
  rw [design_gram, List.map_map]
  induction xs with
  | nil => ext; simp [mat1]
  | cons x l ih =>
    rw [List.map_cons, List.sum_cons, ih]
    ext i j
    simp [vecMulVec_apply, vec1, mat1]; ring

theorem designX_ones_xy (xs : List ℝ) :
    (designX (xs.map fun x => (vec1 1, x)))ᵀ *ᵥ designY (xs.map fun x => (vec1 1, x)) =
      vec1 xs.sum := by
  rw [design_xy, List.map_map]
  induction xs with
  | nil => rfl
  | cons x l ih =>
    rw [List.map_cons, List.sum_cons, ih]
    ext i
    simp [vec1]

theorem designY_ones (xs : List ℝ) :
    designY (xs.map fun x => (vec1 1, x)) ⬝ᵥ designY (xs.map fun x => (vec1 1, x)) =
      (xs.map (· ^ 2)).sum := by
  rw [design_yy, List.map_map]
  congr 1
  refine List.map_congr_left fun x _ => ?_
  simp [sq]

/-- C44. Regression on a single column of ones against `normal`, with
`nu = 1 / delta_inverse`. -/
theorem C44_linear_regression_ones (xs : List ℝ) (hne : xs ≠ []) (mu d alpha beta : ℝ)
    (hd : 0 < d) :
    ∃ post : NormalInverseGamma ℝ ℝ (Matrix (Fin 1) (Fin 1) ℝ), ∃ k,
    normal xs.sum (xs.map (· ^ 2)).sum (xs.length : ℝ)
      (.nig { mu := mu, nu := some (1 / d), alpha := alpha, beta := beta,
              delta_inverse := none }) = .ok (.nig post) ∧ post.nu = some k ∧
    linear_regression (designX (xs.map fun x => (vec1 1, x)))
        (designY (xs.map fun x => (vec1 1, x)))
        { mu := vec1 mu, delta_inverse := some (mat1 d), alpha := alpha, beta := beta,
          nu := none } =
      .ok { mu := vec1 post.mu, delta_inverse := some (mat1 (1 / k)), alpha := post.alpha,
            beta := post.beta, nu := none } := by
  have hn : 0 < (xs.length : ℝ) := by exact_mod_cast List.length_pos_iff.2 hne
  refine ⟨_, _, rfl, rfl, ?_⟩
  rw [linear_regression_stats _ _ _ rfl (mat1_posDef hd), designX_ones_gram, designX_ones_xy,
    designY_ones, mat1_inv]
  have e : mat1 (xs.length : ℝ) + mat1 d⁻¹ = mat1 (1 / d + (xs.length : ℝ)) := by
    ext i j; simp [mat1]; ring
  rw [e, mat1_inv]
  have hk : 0 < 1 / d + (xs.length : ℝ) := by positivity
  have em : mat1 (1 / d + (xs.length : ℝ))⁻¹ *ᵥ (mat1 d⁻¹ *ᵥ vec1 mu + vec1 xs.sum) =
      vec1 ((1 / d * mu + (xs.length : ℝ) * (xs.sum / xs.length)) / (1 / d + (xs.length : ℝ))) := by
    ext i
    simp only [mulVec, dotProduct, Pi.add_apply, mat1, of_apply, vec1,
      Finset.univ_unique, Finset.sum_singleton]
    field_simp
  rw [em]
  have eq : ∀ a x : ℝ, quad (mat1 a) (vec1 x) = a * x ^ 2 := fun a x => by
    simp [quad, mat1, vec1, dotProduct, mulVec]; ring
  simp only [eq, normalUpdate, powq_two, lit_real, Fintype.card_fin, List.length_map]
  congr 2
  · push_cast; ring
  · push_cast; ring
  · rw [one_div (1 / d + _)]

/-- C44. Predictive of the regression on ones for one new row. -/
theorem C44_linear_regression_ones_predictive (mu d alpha beta : ℝ) (hd : 0 < d)
    (ha : 0 < alpha) (hb : 0 < beta) :
    ∃ t, normal_predictive (M := Matrix (Fin 1) (Fin 1) ℝ) (.nig { mu := mu, nu := some (1 / d), alpha := alpha, beta := beta, delta_inverse := none }) =
      .ok t ∧
      linear_regression_predictive { mu := vec1 mu, delta_inverse := some (mat1 d), alpha := alpha, beta := beta, nu := none }
        (mat1 1) =
        .ok { mu := vec1 t.mu, sigma := mat1 (t.sigma ^ 2), nu := t.nu } := by
  refine ⟨_, rfl, ?_⟩
  simp only [powq_half, lit_real]
  rw [Real.sq_sqrt (by simp; positivity)]
  simp only [linear_regression_predictive, bind, Except.bind, pure, Except.pure]
  congr 1
  ext i j
  · simp [mat1, vec1, mulVec, dotProduct]
  · have : i = j := Subsingleton.elim _ _
    subst this
    simp [mat1, mul_apply]; field_simp
  · simp

example := C44_multivariate_normal [1, 2, 4] (by simp) 0 2 3 4 (by norm_num)
example := C44_linear_regression_ones [1, 2, 4] (by simp) 0 2 3 4 (by norm_num)
example := C44_multivariate_normal_known_covariance 3 1 2 0 5 (by norm_num) (by norm_num)

end Conj
