import Verif.Lemmas.Mvn
import Verif.Lemmas.NormalAlg

/-! Inverse-gamma mixtures of multivariate normals. -/

open MeasureTheory Set Real Matrix

set_option linter.unusedSectionVars false

namespace Conj

open Scipy Spec

variable {m p : Type} [Fintype m] [Fintype p] [DecidableEq m] [DecidableEq p]

theorem posDef_smul {A : Matrix p p ℝ} (h : A.PosDef) {c : ℝ} (hc : 0 < c) : (c • A).PosDef :=
  h.smul hc

theorem inv_smul_mat {A : Matrix p p ℝ} (h : A.PosDef) {c : ℝ} (hc : c ≠ 0) :
    (c • A)⁻¹ = c⁻¹ • A⁻¹ := by
  have := Matrix.inv_smul' (A := A) (Units.mk0 c hc) (posDef_unit h)
  rw [Units.smul_mk0] at this
  rw [this, Units.smul_def, Units.val_inv_eq_inv_val, Units.val_mk0]

theorem mvnPdf_smul {M : Matrix m m ℝ} (hM : M.PosDef) {v : ℝ} (hv : 0 < v) (μ y : m → ℝ) :
    mvnPdf μ (v • M) y = (√((2 * π) ^ (Fintype.card m : ℝ) * M.det))⁻¹ *
      v ^ (-((Fintype.card m : ℝ) / 2)) * exp (-(1 / 2 * quad M⁻¹ (y - μ) / v)) := by
  have hd := posDef_det hM
  simp only [mvnPdf]
  rw [inv_smul_mat hM hv.ne', quad_smul, det_smul]
  have h1 : √((2 * π) ^ (Fintype.card m : ℝ) * (v ^ Fintype.card m * M.det)) =
      √((2 * π) ^ (Fintype.card m : ℝ) * M.det) * v ^ ((Fintype.card m : ℝ) / 2) := by
    rw [show (2 * π) ^ (Fintype.card m : ℝ) * (v ^ Fintype.card m * M.det) =
      ((2 * π) ^ (Fintype.card m : ℝ) * M.det) * v ^ (Fintype.card m : ℝ) by
        rw [rpow_natCast v]; ring, sqrt_mul (by positivity), Real.sqrt_eq_rpow (v ^ _),
        ← rpow_mul hv.le]
    ring_nf
  rw [h1, rpow_neg hv.le, div_eq_mul_inv, mul_inv]
  have e : -(1 / 2) * (v⁻¹ * quad M⁻¹ (y - μ)) = -(1 / 2 * quad M⁻¹ (y - μ) / v) := by
    field_simp
  rw [e]; ring

/-- an inverse-gamma variance times a normal with covariance `v M`: multivariate t times the
updated inverse gamma -/
theorem invgamma_mul_mvn {alpha beta : ℝ} (ha : 0 < alpha) (hb : 0 < beta) {M : Matrix m m ℝ}
    (hM : M.PosDef) {v : ℝ} (hv : 0 < v) (μ y : m → ℝ) :
    (InverseGamma.dist ⟨alpha, beta⟩).pdf v * mvnPdf μ (v • M) y =
      mvtPdf μ ((beta / alpha) • M) (2 * alpha) y *
        (InverseGamma.dist ⟨alpha + 1 / 2 * (Fintype.card m : ℝ),
          beta + 1 / 2 * quad M⁻¹ (y - μ)⟩).pdf v := by
  have hd := posDef_det hM
  have hq : 0 ≤ quad M⁻¹ (y - μ) := quad_nonneg hM.inv.posSemidef _
  set q := quad M⁻¹ (y - μ) with hqd
  set N : ℝ := (Fintype.card m : ℝ) with hN
  have hN0 : 0 ≤ N := Nat.cast_nonneg _
  have hb' : 0 < beta + 1 / 2 * q := by positivity
  have hG := Real.Gamma_pos_of_pos ha
  have hG' := Real.Gamma_pos_of_pos (show 0 < alpha + 1 / 2 * N by positivity)
  rw [InverseGamma.pdf_eq ⟨alpha, beta⟩ hb hv, InverseGamma.pdf_eq ⟨_, _⟩ hb' hv,
    mvnPdf_smul hM hv]
  simp only [mvtPdf]
  rw [← hqd, ← hN, inv_smul_mat hM (by positivity), quad_smul, ← hqd, det_smul]
  have e1 : 1 + 1 / (2 * alpha) * ((beta / alpha)⁻¹ * q) = (beta + 1 / 2 * q) / beta := by
    field_simp
  have e2 : -(2 * alpha + N) / 2 = -(alpha + 1 / 2 * N) := by ring
  have e3 : (2 * alpha + N) / 2 = alpha + 1 / 2 * N := by ring
  have e4 : 2 * alpha / 2 = alpha := by ring
  have e5 : -(alpha + 1 / 2 * N) - 1 = (-alpha - 1) + -(N / 2) := by ring
  have e6 : exp (-((beta + 1 / 2 * q) / v)) = exp (-(beta / v)) * exp (-(1 / 2 * q / v)) := by
    rw [← exp_add]; congr 1; ring
  rw [e1, e2, e3, e4, e5, rpow_add hv, e6, div_rpow hb'.le hb.le, rpow_neg hb'.le, rpow_neg hb.le,
    ← rpow_natCast (beta / alpha), ← hN, mul_rpow (by positivity) hd.le,
    ← rpow_mul (by positivity), div_rpow hb.le ha.le, mul_rpow (by positivity) ha.le,
    sqrt_mul (by positivity), Real.sqrt_eq_rpow, Real.sqrt_eq_rpow,
    ← rpow_mul (by positivity), mul_rpow (by positivity) (by positivity),
    show N * (1 / 2) = N / 2 by ring, show (alpha + 1 / 2 * N) = alpha + N / 2 by ring,
    rpow_add hb]
  have p1 : 0 < alpha ^ (N / 2) := rpow_pos_of_pos ha _
  have p2 : 0 < beta ^ (N / 2) := rpow_pos_of_pos hb _
  have p3 : 0 < (2 : ℝ) ^ (N / 2) := rpow_pos_of_pos (by norm_num) _
  have p4 : 0 < π ^ (N / 2) := rpow_pos_of_pos pi_pos _
  have p5 : 0 < M.det ^ ((1 : ℝ) / 2) := rpow_pos_of_pos hd _
  have p6 : 0 < (beta + 1 / 2 * q) ^ (alpha + N / 2) := rpow_pos_of_pos hb' _
  rw [show alpha + 1 / 2 * N = alpha + N / 2 by ring] at hG'
  have p7 : 0 < beta ^ alpha := rpow_pos_of_pos hb _
  field_simp

theorem mvtPdf_pos {S : Matrix p p ℝ} (hS : S.PosDef) {nu : ℝ} (hn : 0 < nu) (μ x : p → ℝ) :
    0 < mvtPdf μ S nu x := by
  have hd := posDef_det hS
  have hq : 0 ≤ quad S⁻¹ (x - μ) := quad_nonneg hS.inv.posSemidef _
  have h1 := Real.Gamma_pos_of_pos (show 0 < nu / 2 by positivity)
  have h2 := Real.Gamma_pos_of_pos (show 0 < (nu + (Fintype.card p : ℝ)) / 2 by positivity)
  simp only [mvtPdf]
  positivity

/-- independent normal observations with common variance -/
theorem prod_normal_eq_mvn {v : ℝ} (hv : 0 < v) (μ y : m → ℝ) :
    ∏ i, (Normal.dist ⟨μ i, √v⟩).pdf (y i) = mvnPdf μ (v • (1 : Matrix m m ℝ)) y := by
  rw [mvnPdf_smul PosDef.one hv]
  simp only [Normal.pdf_sqrt _ _ _ hv]
  rw [Finset.prod_mul_distrib, Finset.prod_mul_distrib, ← exp_sum, Finset.prod_const,
    Finset.prod_const, Finset.card_univ, det_one, mul_one, ← rpow_natCast (v ^ _),
    ← rpow_mul hv.le]
  congr 1
  · congr 1
    · rw [inv_pow]
      congr 1
      rw [eq_comm, rpow_natCast, sqrt_eq_iff_mul_self_eq (by positivity) (by positivity), ← mul_pow,
        mul_self_sqrt (by positivity)]
    · congr 1; ring
  · congr 1
    rw [Finset.sum_neg_distrib]
    congr 1
    simp only [inv_one, quad, one_mulVec, dotProduct, Pi.sub_apply]
    rw [Finset.mul_sum, Finset.sum_div]
    refine Finset.sum_congr rfl fun i _ => ?_
    ring

theorem nigNd_isDensity {alpha beta : ℝ} (ha : 0 < alpha) (hb : 0 < beta) {D : Matrix p p ℝ}
    (hD : D.PosDef) (μ : p → ℝ) :
    IsDensity volume ((univ : Set (p → ℝ)) ×ˢ Ioi (0 : ℝ))
      (fun θ : (p → ℝ) × ℝ => (InverseGamma.dist ⟨alpha, beta⟩).pdf θ.2 *
        mvnPdf μ (θ.2 • D) θ.1) := by
  rw [Measure.volume_eq_prod]
  refine isDensity_prod (g := (InverseGamma.dist ⟨alpha, beta⟩).pdf)
    (h := fun b v => mvnPdf μ (v • D) b) MeasurableSet.univ measurableSet_Ioi
    (InverseGamma.isDensity _ ha hb) ?_ ?_
  · intro v hv
    exact mvn_isDensity (posDef_smul hD hv) μ
  · have hmeas : Measurable (fun θ : (p → ℝ) × ℝ => (beta ^ alpha / Real.Gamma alpha *
        θ.2 ^ (-alpha - 1) * exp (-(beta / θ.2))) *
        ((√((2 * π) ^ (Fintype.card p : ℝ) * D.det))⁻¹ *
      θ.2 ^ (-((Fintype.card p : ℝ) / 2)) * exp (-(1 / 2 * quad D⁻¹ (θ.1 - μ) / θ.2)))) := by
      have := (continuous_quad D⁻¹).measurable
      have h2 : Measurable fun θ : (p → ℝ) × ℝ => quad D⁻¹ (θ.1 - μ) :=
        this.comp (measurable_fst.sub_const μ)
      fun_prop
    refine hmeas.aestronglyMeasurable.congr ?_
    filter_upwards [ae_restrict_mem (MeasurableSet.univ.prod measurableSet_Ioi)] with θ hθ
    have hp2 : 0 < θ.2 := hθ.2
    rw [InverseGamma.pdf_eq ⟨alpha, beta⟩ hb hp2, mvnPdf_smul hD hp2]

/-- regression: joint prior times likelihood = predictive times joint posterior -/
theorem regression_kernel {alpha beta : ℝ} (ha : 0 < alpha) (hb : 0 < beta) {D : Matrix p p ℝ}
    (hD : D.PosDef) (X : Matrix m p ℝ) (μ b : p → ℝ) (y : m → ℝ) {v : ℝ} (hv : 0 < v) :
    ((InverseGamma.dist ⟨alpha, beta⟩).pdf v * mvnPdf μ (v • D) b) *
        mvnPdf (X *ᵥ b) (v • (1 : Matrix m m ℝ)) y =
      mvtPdf (X *ᵥ μ) ((beta / alpha) • (1 + X * D * Xᵀ)) (2 * alpha) y *
      ((InverseGamma.dist ⟨alpha + 1 / 2 * (Fintype.card m : ℝ),
          beta + 1 / 2 * quad (1 + X * D * Xᵀ)⁻¹ (y - X *ᵥ μ)⟩).pdf v *
        mvnPdf ((Xᵀ * X + D⁻¹)⁻¹ *ᵥ (D⁻¹ *ᵥ μ + Xᵀ *ᵥ y)) (v • (Xᵀ * X + D⁻¹)⁻¹) b) := by
  have hvD := posDef_smul hD hv
  have hv1 : (v • (1 : Matrix m m ℝ)).PosDef := posDef_smul PosDef.one hv
  have hXX : (Xᵀ * X).PosSemidef := by
    have := posSemidef_conj (PosDef.one (n := m) (R := ℝ)).posSemidef X
    simpa using this
  have hA : (Xᵀ * X + D⁻¹).PosDef := by
    rw [add_comm]; exact hD.inv.add_posSemidef hXX
  have hM : (1 + X * D * Xᵀ).PosDef := by
    have := posSemidef_conj hD.posSemidef Xᵀ
    rw [transpose_transpose] at this
    exact PosDef.one.add_posSemidef this
  have h := mvn_mul_mvn hvD hv1 X μ b y
  have hprec : (v • D)⁻¹ + Xᵀ * (v • (1 : Matrix m m ℝ))⁻¹ * X = v⁻¹ • (Xᵀ * X + D⁻¹) := by
    rw [inv_smul_mat hD hv.ne', inv_smul_mat PosDef.one hv.ne']
    simp [smul_add, add_comm]
  have hcov : v • (1 : Matrix m m ℝ) + X * (v • D) * Xᵀ = v • (1 + X * D * Xᵀ) := by
    simp [smul_add]
  have hmean : (v⁻¹ • (Xᵀ * X + D⁻¹))⁻¹ *ᵥ
      ((v • D)⁻¹ *ᵥ μ + Xᵀ *ᵥ ((v • (1 : Matrix m m ℝ))⁻¹ *ᵥ y)) =
      (Xᵀ * X + D⁻¹)⁻¹ *ᵥ (D⁻¹ *ᵥ μ + Xᵀ *ᵥ y) := by
    rw [inv_smul_mat hA (by positivity), inv_smul_mat hD hv.ne', inv_smul_mat PosDef.one hv.ne']
    simp only [inv_one, smul_mulVec, one_mulVec, mulVec_smul, inv_inv]
    rw [← smul_add, mulVec_smul, smul_smul, mul_inv_cancel₀ hv.ne', one_smul]
  rw [hprec, hcov, hmean, inv_smul_mat hA (by positivity), inv_inv] at h
  rw [mul_assoc, h, ← mul_assoc, invgamma_mul_mvn ha hb hM hv]
  ring

end Conj
