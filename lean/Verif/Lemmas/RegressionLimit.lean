import Verif.Lemmas.ConcentrationMatrix
import Verif.Lemmas.RowsAlg
import Verif.Lemmas.DataMeans
import Mathlib.MeasureTheory.Integral.Prod

/-!
# Averages of regression data and the regression posterior after many observations
-/

open MeasureTheory Set Filter Topology Matrix

set_option linter.unusedSectionVars false

namespace Conj

open Scipy Spec

variable {Ω : Type} [MeasurableSpace Ω] {Q : Measure Ω} {p : Type} [Fintype p] [DecidableEq p]

section moments

variable {F : Measure (p → ℝ)} [IsProbabilityMeasure F] {N : Measure ℝ} [IsProbabilityMeasure N] {v : ℝ}
  (hF : ∀ j k, Integrable (fun x => x j * x k) F) (hN : Integrable (fun e => e) N) (hN2 : Integrable (fun e => e * e) N)
  (h0 : ∫ e, e ∂N = 0) (hv : ∫ e, e * e ∂N = v)

include hF in
theorem coord_integrable (j : p) : Integrable (fun x => x j) F := by
  refine Integrable.mono' ((integrable_const (1 : ℝ)).add (hF j j)) (measurable_pi_apply j).aestronglyMeasurable ?_
  filter_upwards with x
  simp only [Pi.add_apply, Real.norm_eq_abs]
  rcases abs_cases (x j) with ⟨h, _⟩ | ⟨h, _⟩ <;> rw [h] <;> nlinarith [sq_nonneg (x j - 1), sq_nonneg (x j + 1)]

include hF hN h0 in
theorem cross_moment (β₀ : p → ℝ) (j : p) :
    Integrable (fun q : (p → ℝ) × ℝ => q.1 j * (q.1 ⬝ᵥ β₀ + q.2)) (F.prod N) ∧
      ∫ q : (p → ℝ) × ℝ, q.1 j * (q.1 ⬝ᵥ β₀ + q.2) ∂(F.prod N) = ∑ k, (∫ x, x j * x k ∂F) * β₀ k := by
  have e : ∀ q : (p → ℝ) × ℝ, q.1 j * (q.1 ⬝ᵥ β₀ + q.2) = (∑ k, β₀ k * (q.1 j * q.1 k * 1)) + q.1 j * q.2 := by
    intro q
    rw [mul_add, dotProduct, Finset.mul_sum]
    congr 1
    exact Finset.sum_congr rfl fun k _ => by ring
  have i1 : ∀ k, Integrable (fun q : (p → ℝ) × ℝ => q.1 j * q.1 k * 1) (F.prod N) := fun k =>
    Integrable.mul_prod (f := fun x : p → ℝ => x j * x k) (g := fun _ : ℝ => (1 : ℝ)) (hF j k) (integrable_const _)
  have i2 : Integrable (fun q : (p → ℝ) × ℝ => q.1 j * q.2) (F.prod N) :=
    Integrable.mul_prod (f := fun x : p → ℝ => x j) (g := fun e : ℝ => e) (coord_integrable hF j) hN
  have i3 : Integrable (fun q : (p → ℝ) × ℝ => ∑ k, β₀ k * (q.1 j * q.1 k * 1)) (F.prod N) :=
    integrable_finsetSum _ fun k _ => (i1 k).const_mul _
  refine ⟨(i3.add i2).congr (Eventually.of_forall fun q => (e q).symm), ?_⟩
  simp_rw [e]
  rw [integral_add i3 i2, integral_finsetSum _ fun k _ => (i1 k).const_mul _]
  rw [integral_prod_mul (fun x : p → ℝ => x j) (fun e : ℝ => e), h0, mul_zero, add_zero]
  refine Finset.sum_congr rfl fun k _ => ?_
  rw [integral_const_mul, integral_prod_mul (fun x : p → ℝ => x j * x k) (fun _ : ℝ => (1 : ℝ))]
  simp [mul_comm]

include hF hN h0 hN2 hv in
theorem square_moment (β₀ : p → ℝ) :
    Integrable (fun q : (p → ℝ) × ℝ => (q.1 ⬝ᵥ β₀ + q.2) * (q.1 ⬝ᵥ β₀ + q.2)) (F.prod N) ∧
      ∫ q : (p → ℝ) × ℝ, (q.1 ⬝ᵥ β₀ + q.2) * (q.1 ⬝ᵥ β₀ + q.2) ∂(F.prod N) =
        quad (Matrix.of fun j k => ∫ x, x j * x k ∂F) β₀ + v := by
  have e : ∀ q : (p → ℝ) × ℝ, (q.1 ⬝ᵥ β₀ + q.2) * (q.1 ⬝ᵥ β₀ + q.2) =
      (∑ j, β₀ j * (q.1 j * (q.1 ⬝ᵥ β₀ + q.2))) + ((∑ j, β₀ j * (q.1 j * q.2)) + 1 * (q.2 * q.2)) := by
    intro q
    have : ∀ c : ℝ, ∑ j, β₀ j * (q.1 j * c) = (q.1 ⬝ᵥ β₀) * c := by
      intro c
      rw [dotProduct, Finset.sum_mul]
      exact Finset.sum_congr rfl fun k _ => by ring
    rw [this, this]
    ring
  have i1 := fun j => (cross_moment hF hN h0 β₀ j)
  have i2 : ∀ j, Integrable (fun q : (p → ℝ) × ℝ => q.1 j * q.2) (F.prod N) := fun j =>
    Integrable.mul_prod (f := fun x : p → ℝ => x j) (g := fun e : ℝ => e) (coord_integrable hF j) hN
  have i3 : Integrable (fun q : (p → ℝ) × ℝ => 1 * (q.2 * q.2)) (F.prod N) :=
    Integrable.mul_prod (f := fun _ : p → ℝ => (1 : ℝ)) (g := fun e : ℝ => e * e) (integrable_const _) hN2
  have s1 : Integrable (fun q : (p → ℝ) × ℝ => ∑ j, β₀ j * (q.1 j * (q.1 ⬝ᵥ β₀ + q.2))) (F.prod N) :=
    integrable_finsetSum _ fun j _ => (i1 j).1.const_mul _
  have s2 : Integrable (fun q : (p → ℝ) × ℝ => ∑ j, β₀ j * (q.1 j * q.2)) (F.prod N) :=
    integrable_finsetSum _ fun j _ => (i2 j).const_mul _
  have s3 : Integrable (fun q : (p → ℝ) × ℝ => (∑ j, β₀ j * (q.1 j * q.2)) + 1 * (q.2 * q.2)) (F.prod N) := s2.add i3
  refine ⟨(s1.add s3).congr (Eventually.of_forall fun q => (e q).symm), ?_⟩
  simp_rw [e]
  rw [integral_add s1 s3, integral_add s2 i3, integral_finsetSum _ fun j _ => (i1 j).1.const_mul _,
    integral_finsetSum _ fun j _ => (i2 j).const_mul _]
  rw [integral_prod_mul (fun _ : p → ℝ => (1 : ℝ)) (fun e : ℝ => e * e), hv]
  have z : ∀ j, ∫ q : (p → ℝ) × ℝ, β₀ j * (q.1 j * q.2) ∂(F.prod N) = 0 := by
    intro j
    rw [integral_const_mul, integral_prod_mul (fun x : p → ℝ => x j) (fun e : ℝ => e), h0]
    simp
  simp only [z, Finset.sum_const_zero, integral_const_mul, (i1 _).2]
  simp [quad, dotProduct, mulVec]

end moments

/-- the posterior after `n` observations of a sequence whose averages converge -/
theorem regression_limit {x : ℕ → p → ℝ} {y : ℕ → ℝ} {M : Matrix p p ℝ} {β₀ : p → ℝ} {v : ℝ} (hM : M.PosDef)
    (hxx : ∀ j k, Tendsto (fun n : ℕ => (∑ i ∈ Finset.range n, x i j * x i k) / n) atTop (𝓝 (M j k)))
    (hxy : ∀ j, Tendsto (fun n : ℕ => (∑ i ∈ Finset.range n, x i j * y i) / n) atTop (𝓝 ((M *ᵥ β₀) j)))
    (hyy : Tendsto (fun n : ℕ => (∑ i ∈ Finset.range n, y i * y i) / n) atTop (𝓝 (quad M β₀ + v)))
    (prior : NormalInverseGamma ℝ (p → ℝ) (Matrix p p ℝ)) {D : Matrix p p ℝ}
    (h : prior.delta_inverse = some D) (hD : D.PosDef) (ha : 0 < prior.alpha) (hb : 0 < prior.beta) :
    ∃ (mu : ℕ → p → ℝ) (alpha beta : ℕ → ℝ) (D' : ℕ → Matrix p p ℝ),
      (∀ n, linear_regression (Matrix.of fun (i : Fin n) j => x i j) (fun i : Fin n => y i) prior =
        .ok ⟨mu n, alpha n, beta n, some (D' n), none⟩) ∧
      (∀ n, (D' n).PosDef ∧ 0 < alpha n ∧ 0 < beta n) ∧
      (∀ i, Tendsto (fun n => mu n i) atTop (𝓝 (β₀ i))) ∧ Tendsto alpha atTop atTop ∧
      Tendsto (fun n => beta n / alpha n) atTop (𝓝 v) ∧
      ∀ i j, Tendsto (fun n => D' n i j) atTop (𝓝 0) := by
  let X : (n : ℕ) → Matrix (Fin n) p ℝ := fun n => Matrix.of fun (i : Fin n) j => x i j
  let Y : (n : ℕ) → Fin n → ℝ := fun n i => y i
  have hA : ∀ n, ((X n)ᵀ * X n + D⁻¹).PosDef := fun n => gram_add_posDef (X n) hD
  have gram : ∀ n j k, ((X n)ᵀ * X n) j k = ∑ i ∈ Finset.range n, x i j * x i k := by
    intro n j k
    rw [Finset.sum_range (fun i => x i j * x i k), mul_apply]
    rfl
  have cross : ∀ n j, ((X n)ᵀ *ᵥ Y n) j = ∑ i ∈ Finset.range n, x i j * y i := by
    intro n j
    rw [Finset.sum_range (fun i => x i j * y i)]
    rfl
  have sq : ∀ n, Y n ⬝ᵥ Y n = ∑ i ∈ Finset.range n, y i * y i := by
    intro n
    rw [Finset.sum_range (fun i => y i * y i)]
    rfl
  have hlim : Tendsto (fun n : ℕ => (n : ℝ)⁻¹ • ((X n)ᵀ * X n + D⁻¹)) atTop (𝓝 M) := by
    have h1 : Tendsto (fun n : ℕ => (n : ℝ)⁻¹ • ((X n)ᵀ * X n)) atTop (𝓝 M) := by
      refine tendsto_pi_nhds.2 fun j => tendsto_pi_nhds.2 fun k => (hxx j k).congr fun n => ?_
      rw [Matrix.smul_apply, gram, smul_eq_mul, div_eq_inv_mul]
    have := h1.add (average_matrix_const D⁻¹)
    rw [add_zero] at this
    exact this.congr fun n => (smul_add _ _ _).symm
  have hd : M.det ≠ 0 := (posDef_det hM).ne'
  have hbl : Tendsto (fun n : ℕ => (n : ℝ)⁻¹ • (D⁻¹ *ᵥ prior.mu + (X n)ᵀ *ᵥ Y n)) atTop (𝓝 (M *ᵥ β₀)) := by
    have h1 : Tendsto (fun n : ℕ => (n : ℝ)⁻¹ • ((X n)ᵀ *ᵥ Y n)) atTop (𝓝 (M *ᵥ β₀)) := by
      refine tendsto_pi_nhds.2 fun j => (hxy j).congr fun n => ?_
      rw [Pi.smul_apply, cross, smul_eq_mul, div_eq_inv_mul]
    have := (average_vec_const (D⁻¹ *ᵥ prior.mu)).add h1
    rw [zero_add] at this
    exact this.congr fun n => (smul_add _ _ _).symm
  have hmu : Tendsto (fun n : ℕ => ((X n)ᵀ * X n + D⁻¹)⁻¹ *ᵥ (D⁻¹ *ᵥ prior.mu + (X n)ᵀ *ᵥ Y n)) atTop (𝓝 β₀) := by
    have := average_solve hA hlim hd hbl
    rwa [mulVec_mulVec, nonsing_inv_mul _ (posDef_unit hM), one_mulVec] at this
  have hcard : ∀ n : ℕ, (Fintype.card (Fin n) : ℝ) = n := fun n => by rw [Fintype.card_fin]
  have hquad : ∀ n, quad ((X n)ᵀ * X n + D⁻¹) (((X n)ᵀ * X n + D⁻¹)⁻¹ *ᵥ (D⁻¹ *ᵥ prior.mu + (X n)ᵀ *ᵥ Y n)) / n =
      (((X n)ᵀ * X n + D⁻¹)⁻¹ *ᵥ (D⁻¹ *ᵥ prior.mu + (X n)ᵀ *ᵥ Y n)) ⬝ᵥ
        ((n : ℝ)⁻¹ • (D⁻¹ *ᵥ prior.mu + (X n)ᵀ *ᵥ Y n)) := by
    intro n
    rw [quad, mulVec_mulVec, mul_nonsing_inv _ (posDef_unit (hA n)), one_mulVec, dotProduct_smul, smul_eq_mul,
      div_eq_inv_mul]
  have hql : Tendsto (fun n : ℕ => quad ((X n)ᵀ * X n + D⁻¹)
      (((X n)ᵀ * X n + D⁻¹)⁻¹ *ᵥ (D⁻¹ *ᵥ prior.mu + (X n)ᵀ *ᵥ Y n)) / n) atTop (𝓝 (quad M β₀)) := by
    simp only [hquad]
    rw [quad]
    simp only [dotProduct]
    exact tendsto_finsetSum _ fun i _ => (tendsto_pi_nhds.1 hmu i).mul (tendsto_pi_nhds.1 hbl i)
  refine ⟨fun n => ((X n)ᵀ * X n + D⁻¹)⁻¹ *ᵥ (D⁻¹ *ᵥ prior.mu + (X n)ᵀ *ᵥ Y n),
    fun n => prior.alpha + 1 / 2 * (n : ℝ),
    fun n => prior.beta + 1 / 2 * (Y n ⬝ᵥ Y n + quad D⁻¹ prior.mu - quad ((X n)ᵀ * X n + D⁻¹)
      (((X n)ᵀ * X n + D⁻¹)⁻¹ *ᵥ (D⁻¹ *ᵥ prior.mu + (X n)ᵀ *ᵥ Y n))),
    fun n => ((X n)ᵀ * X n + D⁻¹)⁻¹, fun n => ?_, fun n => ⟨(hA n).inv, by positivity, ?_⟩,
    fun i => tendsto_pi_nhds.1 hmu i, ?_, ?_, average_inv_zero hA hlim hd⟩
  · rw [linear_regression_stats (X n) (Y n) prior h hD, hcard]
  · have he := linear_regression_eq (X n) (Y n) prior h hD
    rw [linear_regression_stats (X n) (Y n) prior h hD] at he
    have hM' : (1 + X n * D * (X n)ᵀ).PosDef := by
      have := posSemidef_conj hD.posSemidef (X n)ᵀ
      rw [transpose_transpose] at this
      exact PosDef.one.add_posSemidef this
    have hq : 0 ≤ quad (1 + X n * D * (X n)ᵀ)⁻¹ (Y n - X n *ᵥ prior.mu) := quad_nonneg hM'.inv.posSemidef _
    have := congrArg (fun r => match r with | .ok d => d.beta | .error _ => 0) he
    dsimp only at this ⊢
    rw [this]
    positivity
  · refine tendsto_atTop_add_const_left _ _ ?_
    exact Tendsto.const_mul_atTop (by norm_num) tendsto_natCast_atTop_atTop
  · have hv2 : v / 2 / (1 / 2) = v := by ring
    rw [← hv2]
    refine ratio_of_averages ?_ (average_const_add average_linear) (by norm_num)
    · have h1 : Tendsto (fun n : ℕ => prior.beta / (n : ℝ) + 1 / 2 * ((Y n ⬝ᵥ Y n) / n + quad D⁻¹ prior.mu / n -
          quad ((X n)ᵀ * X n + D⁻¹) (((X n)ᵀ * X n + D⁻¹)⁻¹ *ᵥ (D⁻¹ *ᵥ prior.mu + (X n)ᵀ *ᵥ Y n)) / n)) atTop
          (𝓝 (0 + 1 / 2 * ((quad M β₀ + v) + 0 - quad M β₀))) := by
        refine tendsto_const_div.add (((Tendsto.add ?_ tendsto_const_div).sub hql).const_mul _)
        simpa only [sq] using hyy
      have h2 : 0 + 1 / 2 * ((quad M β₀ + v) + 0 - quad M β₀) = v / 2 := by ring
      rw [h2] at h1
      refine h1.congr fun n => ?_
      ring

end Conj
