import Verif.Props.Forecast
import Verif.Props.Marginals
import Verif.Props.Regression

/-!
# C112: where the predictions of a linear regression are wide

`docs/examples/linear-regression.md` plots the predictions of `linear_regression_predictive` with their spread over a
range of inputs.
-/

open MeasureTheory Set Real Matrix

namespace Conj

open Scipy Spec

variable {p m m' : Type} [Fintype p] [DecidableEq p] [Fintype m] [DecidableEq m] [Fintype m'] [DecidableEq m']

/-- C112. The prediction at row `i` of `X` has the value of the mean line there, and variance `e * (1 + x' D x)` with
`e` the mean of the noise variance: the noise, and the uncertainty about the line. -/
theorem C112_prediction_variance {k : ℕ} (X : Matrix m (Fin k) ℝ)
    (d : NormalInverseGamma ℝ (Fin k → ℝ) (Matrix (Fin k) (Fin k) ℝ))
    (D : Matrix (Fin k) (Fin k) ℝ) (h : d.delta_inverse = some D) (hD : D.PosDef) (ha : 1 < d.alpha) (hb : 0 < d.beta) :
    ∃ t e, linear_regression_predictive d X = .ok t ∧ 0 < e ∧
      Integrable (fun θ : (Fin k → ℝ) × ℝ => θ.2) (nigNdLaw d) ∧ ∫ θ, θ.2 ∂nigNdLaw d = e ∧
      ∀ i, MeanVar ((densLaw t.pdf).map fun y => y i) (X i ⬝ᵥ d.mu) (e * (1 + X i ⬝ᵥ D *ᵥ X i)) := by
  have ha0 : 0 < d.alpha := by linarith
  have ha1 : 0 < d.alpha - 1 := by linarith
  have hi := invgamma_mean ha hb
  have e1 : contLaw (InverseGamma.dist ⟨d.alpha, d.beta⟩) = (nigNdLaw d).map Prod.snd := (nigNdLaw_snd d h hD ha0 hb).symm
  refine ⟨⟨X *ᵥ d.mu, (d.beta / d.alpha) • (1 + X * D * Xᵀ), 2 * d.alpha⟩, d.beta / (d.alpha - 1), ?_, by positivity, ?_, ?_,
    fun i => ?_⟩
  · simp [linear_regression_predictive, h, bind, Except.bind, pure, Except.pure]
  · have h := hi.1
    rw [e1] at h
    exact (integrable_map_measure (by fun_prop) measurable_snd.aemeasurable).1 h
  · have h := hi.2
    rw [e1, integral_map measurable_snd.aemeasurable (by fun_prop)] at h
    exact h
  · have hS : (1 + X * D * Xᵀ).PosDef :=
      Matrix.PosDef.one.add_posSemidef (by simpa using hD.posSemidef.mul_mul_conjTranspose_same X)
    rw [C56_multivariate_student_t_int_partial _ (hS.smul (by positivity)) (by simp only; positivity) i]
    have hx : (1 + X * D * Xᵀ : Matrix m m ℝ) i i = 1 + X i ⬝ᵥ D *ᵥ X i := by
      rw [Matrix.add_apply, Matrix.one_apply_eq, Matrix.mul_assoc, Matrix.mul_apply]
      simp only [dotProduct, mulVec, Matrix.mul_apply, Matrix.transpose_apply]
    have hpos : 0 < 1 + X i ⬝ᵥ D *ᵥ X i := by rw [← hx]; exact hS.diag_pos
    have hs := student_meanVar ((X *ᵥ d.mu) i) (a := d.alpha) (b := d.beta * (1 + X i ⬝ᵥ D *ᵥ X i)) ha (by positivity)
    have hsig : √(((d.beta / d.alpha) • (1 + X * D * Xᵀ : Matrix m m ℝ)) i i) =
        powq (d.beta * (1 + X i ⬝ᵥ D *ᵥ X i) / d.alpha) (1 / 2) := by
      rw [Matrix.smul_apply, hx, smul_eq_mul, div_mul_eq_mul_div]
      simp
    simp only [normal_known_mean_predictive, ← hsig] at hs
    simp only [MultivariateStudentT.getInt]
    have h2 : (lit 2 : ℝ) = 2 := by simp
    rw [h2] at hs
    exact hs.of_eq rfl (by ring)

/-- `x' (A + B' B)⁻¹ x` against `x' A⁻¹ x` -/
theorem quad_inv_add {A : Matrix p p ℝ} (hA : A.PosDef) (B : Matrix m p ℝ) (z : p → ℝ) :
    z ⬝ᵥ (Bᵀ * B + A)⁻¹ *ᵥ z ≤ z ⬝ᵥ A⁻¹ *ᵥ z ∧
      (z ⬝ᵥ (Bᵀ * B + A)⁻¹ *ᵥ z = z ⬝ᵥ A⁻¹ *ᵥ z ↔ B *ᵥ (A⁻¹ *ᵥ z) = 0) := by
  have hC : (Bᵀ * B + A).PosDef := by
    rw [add_comm]
    exact hA.add_posSemidef (by simpa using Matrix.posSemidef_conjTranspose_mul_self B)
  have hAu : A * A⁻¹ = 1 := Matrix.mul_nonsing_inv _ (isUnit_iff_ne_zero.2 hA.det_pos.ne')
  have hAu' : A⁻¹ * A = 1 := Matrix.nonsing_inv_mul _ (isUnit_iff_ne_zero.2 hA.det_pos.ne')
  have hCu : (Bᵀ * B + A) * (Bᵀ * B + A)⁻¹ = 1 := Matrix.mul_nonsing_inv _ (isUnit_iff_ne_zero.2 hC.det_pos.ne')
  have hCu' : (Bᵀ * B + A)⁻¹ * (Bᵀ * B + A) = 1 := Matrix.nonsing_inv_mul _ (isUnit_iff_ne_zero.2 hC.det_pos.ne')
  obtain ⟨u, hu⟩ : ∃ u, u = (Bᵀ * B + A)⁻¹ *ᵥ z := ⟨_, rfl⟩
  have hz : z = Bᵀ *ᵥ (B *ᵥ u) + A *ᵥ u := by
    rw [hu, Matrix.mulVec_mulVec, ← Matrix.add_mulVec, Matrix.mulVec_mulVec, hCu, Matrix.one_mulVec]
  obtain ⟨w, hw⟩ : ∃ w, w = Bᵀ *ᵥ (B *ᵥ u) := ⟨_, rfl⟩
  have e1 : A⁻¹ *ᵥ z = A⁻¹ *ᵥ w + u := by
    rw [hz, ← hw, Matrix.mulVec_add, Matrix.mulVec_mulVec, hAu', Matrix.one_mulVec]
  have hsym : A⁻¹ᵀ = A⁻¹ := by
    have := hA.inv.isHermitian
    simpa [Matrix.IsHermitian] using this
  have e3 : (A *ᵥ u) ⬝ᵥ (A⁻¹ *ᵥ w) = u ⬝ᵥ w := by
    rw [Matrix.dotProduct_mulVec, ← Matrix.mulVec_transpose, hsym, Matrix.mulVec_mulVec, hAu', Matrix.one_mulVec]
  have e4 : w ⬝ᵥ u = (B *ᵥ u) ⬝ᵥ (B *ᵥ u) := by
    rw [hw, Matrix.mulVec_transpose, ← Matrix.dotProduct_mulVec]
  have key : z ⬝ᵥ A⁻¹ *ᵥ z - z ⬝ᵥ u = w ⬝ᵥ A⁻¹ *ᵥ w + (B *ᵥ u) ⬝ᵥ (B *ᵥ u) := by
    rw [e1, dotProduct_add, add_sub_cancel_right, hz, ← hw, add_dotProduct, e3, dotProduct_comm u, e4]
  have n1 : 0 ≤ w ⬝ᵥ A⁻¹ *ᵥ w := by simpa using hA.inv.posSemidef.dotProduct_mulVec_nonneg w
  have n2 : 0 ≤ (B *ᵥ u) ⬝ᵥ (B *ᵥ u) := by simpa using dotProduct_star_self_nonneg (B *ᵥ u)
  rw [← hu]
  refine ⟨by linarith, ?_, ?_⟩
  · intro h
    have h0 : (B *ᵥ u) ⬝ᵥ (B *ᵥ u) = 0 := by linarith
    have h1 : B *ᵥ u = 0 := dotProduct_self_eq_zero.1 h0
    rw [e1, hw, h1]
    simp [h1]
  · intro h
    have h1 : u = A⁻¹ *ᵥ z := by
      have : (Bᵀ * B + A) *ᵥ (A⁻¹ *ᵥ z) = z := by
        rw [Matrix.add_mulVec, ← Matrix.mulVec_mulVec, h, Matrix.mulVec_zero, zero_add, Matrix.mulVec_mulVec, hAu,
          Matrix.one_mulVec]
      rw [hu]
      conv_lhs => rw [← this]
      rw [Matrix.mulVec_mulVec, hCu', Matrix.one_mulVec]
    rw [h1]

/-- C112. Data never makes the line less certain, at any input, and leaves its uncertainty at `z` as it was exactly when
no row of the data is related to `z`. (The estimate of the noise may still grow.) -/
theorem C112_data_narrows (X : Matrix m p ℝ) (y : m → ℝ) (prior : NormalInverseGamma ℝ (p → ℝ) (Matrix p p ℝ))
    (D : Matrix p p ℝ) (h : prior.delta_inverse = some D) (hD : D.PosDef) (ha : 0 < prior.alpha) (hb : 0 < prior.beta) :
    ∃ post D', linear_regression X y prior = .ok post ∧ post.delta_inverse = some D' ∧ D'.PosDef ∧
      ∀ z, z ⬝ᵥ D' *ᵥ z ≤ z ⬝ᵥ D *ᵥ z ∧ (z ⬝ᵥ D' *ᵥ z = z ⬝ᵥ D *ᵥ z ↔ ∀ i, X i ⬝ᵥ D *ᵥ z = 0) := by
  refine ⟨_, _, linear_regression_eq X y prior h hD, rfl, (gram_add_posDef X hD).inv, fun z => ?_⟩
  have hq := quad_inv_add hD.inv X z
  rw [Matrix.nonsing_inv_nonsing_inv _ (isUnit_iff_ne_zero.2 hD.det_pos.ne')] at hq
  refine ⟨hq.1, hq.2.trans ?_⟩
  rw [funext_iff]
  rfl

theorem quad_line {D : Matrix p p ℝ} (hD : D.PosDef) (x0 w : p → ℝ) (hw : w ≠ 0) (s : ℝ) :
    (x0 + s • w) ⬝ᵥ D *ᵥ (x0 + s • w) = w ⬝ᵥ D *ᵥ w * (s - -(x0 ⬝ᵥ D *ᵥ w) / (w ⬝ᵥ D *ᵥ w)) ^ 2 +
      (x0 ⬝ᵥ D *ᵥ x0 - (x0 ⬝ᵥ D *ᵥ w) ^ 2 / (w ⬝ᵥ D *ᵥ w)) := by
  have hp : 0 < w ⬝ᵥ D *ᵥ w := by simpa using hD.dotProduct_mulVec_pos hw
  have hsym : w ⬝ᵥ D *ᵥ x0 = x0 ⬝ᵥ D *ᵥ w := by
    have : Dᵀ = D := by simpa [Matrix.IsHermitian] using hD.isHermitian
    rw [Matrix.dotProduct_mulVec, ← Matrix.mulVec_transpose, this, dotProduct_comm]
  rw [Matrix.mulVec_add, Matrix.mulVec_smul, add_dotProduct, dotProduct_add, dotProduct_add]
  simp only [smul_dotProduct, dotProduct_smul, smul_eq_mul, hsym]
  field_simp
  ring

/-- C112. Along a line of inputs `x0 + s * w` the prediction is narrowest at one place, and is the wider the further
from there. -/
theorem C112_wider_away {k : ℕ} (x0 w : Fin k → ℝ) (hw : w ≠ 0)
    (d : NormalInverseGamma ℝ (Fin k → ℝ) (Matrix (Fin k) (Fin k) ℝ))
    (D : Matrix (Fin k) (Fin k) ℝ) (h : d.delta_inverse = some D) (hD : D.PosDef) (ha : 1 < d.alpha) (hb : 0 < d.beta) :
    ∃ c, ∀ (s : m → ℝ) (X : Matrix m (Fin k) ℝ), (∀ i, X i = x0 + s i • w) →
      ∃ t, ∃ V : m → ℝ, linear_regression_predictive d X = .ok t ∧
        (∀ i, MeanVar ((densLaw t.pdf).map fun y => y i) (X i ⬝ᵥ d.mu) (V i)) ∧
        ∀ i j, V i < V j ↔ |s i - c| < |s j - c| := by
  refine ⟨-(x0 ⬝ᵥ D *ᵥ w) / (w ⬝ᵥ D *ᵥ w), fun s X hX => ?_⟩
  obtain ⟨t, e, h1, he, -, -, h2⟩ := C112_prediction_variance X d D h hD ha hb
  refine ⟨t, _, h1, h2, fun i j => ?_⟩
  have hp : 0 < w ⬝ᵥ D *ᵥ w := by simpa using hD.dotProduct_mulVec_pos hw
  rw [hX i, hX j, quad_line hD x0 w hw, quad_line hD x0 w hw, mul_lt_mul_iff_right₀ he, add_lt_add_iff_left, add_lt_add_iff_right,
    mul_lt_mul_iff_right₀ hp, sq_lt_sq]

/-- inputs with an intercept -/
def Spec.withIntercept {n : ℕ} (x : Fin n → ℝ) : Matrix (Fin n) (Fin 2) ℝ := fun i => ![1, x i]

/-- C112. Simple regression on inputs `x`: the predictions are narrowest at the mean of the inputs, shrunk to that of
the prior (`P` is the inverse of the prior `delta_inverse`: for a diagonal one, `P 0 0` pseudo-observations at
`0`), and the wider the further from it. -/
theorem C112_simple_regression {n k : ℕ} (x y : Fin n → ℝ)
    (prior : NormalInverseGamma ℝ (Fin 2 → ℝ) (Matrix (Fin 2) (Fin 2) ℝ)) (D P : Matrix (Fin 2) (Fin 2) ℝ)
    (h : prior.delta_inverse = some D) (hD : D.PosDef) (hP : P * D = 1) (ha : 1 < prior.alpha) (hb : 0 < prior.beta)
    (s : Fin k → ℝ) :
    ∃ post t, ∃ V : Fin k → ℝ, linear_regression (withIntercept x) y prior = .ok post ∧
      linear_regression_predictive post (withIntercept s) = .ok t ∧
      (∀ i, MeanVar ((densLaw t.pdf).map fun z => z i) (post.mu 0 + post.mu 1 * s i) (V i)) ∧
      ∀ i j, V i < V j ↔ |s i - (∑ l, x l + P 0 1) / (n + P 0 0)| < |s j - (∑ l, x l + P 0 1) / (n + P 0 0)| := by
  have hPD : P = D⁻¹ := (Matrix.inv_eq_left_inv hP).symm
  obtain ⟨post, D', h1, h2, h3, h4, h5, -⟩ := C20_linear_regression_posterior (withIntercept x) y prior D h hD (by linarith) hb
  have eq := linear_regression_eq (withIntercept x) y prior h hD
  rw [h1, Except.ok.injEq] at eq
  have ha' : 1 < post.alpha := by
    rw [eq]
    simp only
    have : (0 : ℝ) ≤ Fintype.card (Fin n) := Nat.cast_nonneg _
    linarith
  have eD : D' = ((withIntercept x)ᵀ * withIntercept x + D⁻¹)⁻¹ := by
    have := h2
    rw [eq] at this
    simpa using this.symm
  obtain ⟨t, e, g1, he, -, -, g2⟩ := C112_prediction_variance (withIntercept s) post D' h2 h3 ha' h5
  have hrow : ∀ i, withIntercept s i = ![1, 0] + s i • ![0, 1] := by
    intro i
    ext j
    fin_cases j <;> simp [withIntercept]
  have hw : (![0, 1] : Fin 2 → ℝ) ≠ 0 := fun h => by simpa using congrFun h 1
  refine ⟨post, t, fun i => e * (1 + withIntercept s i ⬝ᵥ D' *ᵥ withIntercept s i), h1, g1, fun i => ?_, fun i j => ?_⟩
  · have := g2 i
    rwa [show withIntercept s i ⬝ᵥ post.mu = post.mu 0 + post.mu 1 * s i by
      simp [withIntercept, dotProduct, Fin.sum_univ_two, mul_comm]] at this
  · have hp : 0 < (![0, 1] : Fin 2 → ℝ) ⬝ᵥ D' *ᵥ ![0, 1] := by simpa using h3.dotProduct_mulVec_pos hw
    have hc : -((![1, 0] : Fin 2 → ℝ) ⬝ᵥ D' *ᵥ ![0, 1]) / ((![0, 1] : Fin 2 → ℝ) ⬝ᵥ D' *ᵥ ![0, 1]) =
        (∑ l, x l + P 0 1) / (n + P 0 0) := by
      have hL := gram_add_posDef (withIntercept x) hD
      obtain ⟨L, hLe⟩ : ∃ L, L = (withIntercept x)ᵀ * withIntercept x + D⁻¹ := ⟨_, rfl⟩
      rw [← hLe] at eD hL
      have hdet := hL.det_pos
      have l0 : L 0 0 = n + P 0 0 := by
        rw [hLe, hPD]; simp [withIntercept, Matrix.mul_apply]
      have l1 : L 0 1 = ∑ l, x l + P 0 1 := by
        rw [hLe, hPD]; simp [withIntercept, Matrix.mul_apply]
      have hpos : 0 < L 0 0 := hL.diag_pos
      rw [← l0, ← l1, eD, Matrix.inv_def, Matrix.adjugate_fin_two, Ring.inverse_eq_inv']
      simp [dotProduct, mulVec, Fin.sum_univ_two]
      field_simp
    simp only
    rw [hrow i, hrow j, quad_line h3 _ _ hw, quad_line h3 _ _ hw, hc, mul_lt_mul_iff_right₀ he, add_lt_add_iff_left,
      add_lt_add_iff_right, mul_lt_mul_iff_right₀ hp, sq_lt_sq]

/-! ## Instances -/

example := C112_prediction_variance !![1, 2; 1, 4; (1 : ℝ), 6] ⟨![0, 1], 3, 2, some 1, none⟩ 1 rfl PosDef.one
  (by norm_num) (by norm_num)
example := C112_data_narrows !![1, 2; 3, 4; 5, 6; (7 : ℝ), 9] ![1, -1, 2, 0] ⟨![0, 1], 3, 2, some 1, none⟩ 1 rfl
  PosDef.one (by norm_num) (by norm_num)
example := C112_wider_away (m := Fin 3) ![1, 0] ![0, 1] (fun h => by simpa using congrFun h 1)
  ⟨![0, 1], 3, 2, some 1, none⟩ 1 rfl PosDef.one (by norm_num) (by norm_num)
example := C112_simple_regression ![1, 2, 4] ![3, 5, 2] ⟨![0, 1], 3, 2, some 1, none⟩ 1 1 rfl PosDef.one (by simp)
  (by norm_num) (by norm_num) ![0, 1, 10]

end Conj
