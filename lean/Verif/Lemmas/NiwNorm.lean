import Verif.Lemmas.WishartNorm

/-! The normal inverse-Wishart density integrates to one; its predictive constant. -/

open MeasureTheory Set Real Matrix

set_option linter.unusedSectionVars false

namespace Conj

open Scipy Spec

variable {m p : Type} [Fintype m] [Fintype p] [DecidableEq m] [DecidableEq p]

theorem measurable_quad_inv {n : ℕ} (mu : Fin n → ℝ) :
    Measurable fun θ : (Fin n → ℝ) × (UpperIdx n → ℝ) => quad (symOf θ.2)⁻¹ (θ.1 - mu) := by
  have h : ∀ θ : (Fin n → ℝ) × (UpperIdx n → ℝ), quad (symOf θ.2)⁻¹ (θ.1 - mu) =
      (symOf θ.2).det⁻¹ * quad (symOf θ.2).adjugate (θ.1 - mu) := by
    intro θ
    rw [inv_def, Ring.inverse_eq_inv', quad_smul]
  simp only [h]
  have hs : Continuous fun θ : (Fin n → ℝ) × (UpperIdx n → ℝ) => symOf θ.2 :=
    continuous_symOf.comp continuous_snd
  have hv : Continuous fun θ : (Fin n → ℝ) × (UpperIdx n → ℝ) => θ.1 - mu :=
    continuous_fst.sub continuous_const
  have h1 : Measurable fun θ : (Fin n → ℝ) × (UpperIdx n → ℝ) => (symOf θ.2).det :=
    hs.matrix_det.measurable
  have h2 : Measurable fun θ : (Fin n → ℝ) × (UpperIdx n → ℝ) =>
      quad (symOf θ.2).adjugate (θ.1 - mu) :=
    (Continuous.dotProduct hv (hs.matrix_adjugate.matrix_mulVec hv)).measurable
  fun_prop

theorem niw_isDensity {n : ℕ} {nu kappa : ℝ} {psi : Matrix (Fin n) (Fin n) ℝ} (hk : 0 < kappa)
    (hnu : (n : ℝ) - 1 < nu) (hpsi : psi.PosDef) (mu : Fin n → ℝ) :
    IsDensity volume {θ : (Fin n → ℝ) × (UpperIdx n → ℝ) | (symOf θ.2).PosDef}
      (fun θ => invwishartPdf nu psi (symOf θ.2) * mvnPdf mu ((1 / kappa) • symOf θ.2) θ.1) := by
  have hset : {θ : (Fin n → ℝ) × (UpperIdx n → ℝ) | (symOf θ.2).PosDef} =
      univ ×ˢ {c | (symOf c).PosDef} := by ext θ; simp
  rw [hset, Measure.volume_eq_prod]
  refine isDensity_prod (g := fun c => invwishartPdf nu psi (symOf c))
    (h := fun b c => mvnPdf mu ((1 / kappa) • symOf c) b) MeasurableSet.univ measurableSet_posDef
    (iw_isDensity hpsi hnu) ?_ ?_
  · intro c hc
    exact mvn_isDensity (posDef_smul hc (by positivity)) mu
  · have hmeas : Measurable (fun θ : (Fin n → ℝ) × (UpperIdx n → ℝ) =>
        invwishartPdf nu psi (symOf θ.2) *
        ((√((2 * π) ^ (Fintype.card (Fin n) : ℝ) * (symOf θ.2).det))⁻¹ *
          (1 / kappa) ^ (-((Fintype.card (Fin n) : ℝ) / 2)) *
          exp (-(1 / 2 * quad (symOf θ.2)⁻¹ (θ.1 - mu) / (1 / kappa))))) := by
      have h1 : Measurable fun θ : (Fin n → ℝ) × (UpperIdx n → ℝ) => (symOf θ.2).det :=
        (continuous_symOf.comp continuous_snd).matrix_det.measurable
      have h2 := measurable_quad_inv mu
      have h3 : Measurable fun θ : (Fin n → ℝ) × (UpperIdx n → ℝ) =>
        invwishartPdf nu psi (symOf θ.2) := (measurable_invwishartPdf nu psi).comp measurable_snd
      fun_prop
    refine hmeas.aestronglyMeasurable.congr ?_
    filter_upwards [ae_restrict_mem (MeasurableSet.univ.prod measurableSet_posDef)] with θ hθ
    have hp2 : (symOf θ.2).PosDef := hθ.2
    rw [mvnPdf_smul hp2 (by positivity)]

theorem multigamma_half (a : ℝ) (d : ℕ) :
    multigamma (a + 1 / 2) d * Real.Gamma (a + 1 / 2 - (d : ℝ) / 2) =
      multigamma a d * Real.Gamma (a + 1 / 2) := by
  have h := Finset.prod_range_succ (fun j : ℕ => Real.Gamma (a + 1 / 2 - (j : ℝ) / 2)) d
  rw [Finset.prod_range_succ'] at h
  have h1 : ∀ j : ℕ, a + 1 / 2 - ((j + 1 : ℕ) : ℝ) / 2 = a - (j : ℝ) / 2 := by
    intro j; push_cast; ring
  simp only [h1, Nat.cast_zero, zero_div, sub_zero] at h
  unfold multigamma
  rw [mul_assoc, ← h, mul_assoc]

theorem det_add_vecMulVec {A : Matrix p p ℝ} (hA : A.PosDef) (c : ℝ) (v : p → ℝ) :
    (A + c • vecMulVec v v).det = A.det * (1 + c * quad A⁻¹ v) := by
  have h := det_add_replicateCol_mul_replicateRow (ι := Unit) (posDef_unit hA) (c • v) v
  have e : c • vecMulVec v v = replicateCol Unit (c • v) * replicateRow Unit v := by
    ext i j
    simp [mul_apply, vecMulVec_apply, mul_assoc]
  rw [e, h]
  congr 1
  rw [det_unique]
  simp only [Matrix.add_apply, Matrix.one_apply_eq, mul_apply, replicateRow_apply,
    replicateCol_apply, Pi.smul_apply, smul_eq_mul, quad, dotProduct, mulVec, Finset.mul_sum,
    Finset.sum_mul]
  congr 1
  rw [Finset.sum_comm]
  refine Finset.sum_congr rfl fun i _ => Finset.sum_congr rfl fun j _ => ?_
  ring

/-- the constant of `niw_kernel` for one observation is the multivariate t density -/
theorem niw_constant {psi : Matrix p p ℝ} (hpsi : psi.PosDef) {kappa nu : ℝ} (hk : 0 < kappa)
    (hnu : (Fintype.card p : ℝ) - 1 < nu) (mu x : p → ℝ) :
    (√((2 * π) ^ (Fintype.card p : ℝ)))⁻¹ *
        ((1 / kappa) ^ (-((Fintype.card p : ℝ) / 2)) /
          (1 / (kappa + 1)) ^ (-((Fintype.card p : ℝ) / 2))) *
        (iwConst nu psi / iwConst (nu + 1)
          (psi + (kappa / (kappa + 1)) • vecMulVec (x - mu) (x - mu))) =
      mvtPdf mu (((kappa + 1) / (kappa * (nu - (Fintype.card p : ℝ) + 1))) • psi)
        (nu - (Fintype.card p : ℝ) + 1) x := by
  have hd := posDef_det hpsi
  set n : ℝ := (Fintype.card p : ℝ) with hn
  have hn0 : 0 ≤ n := Nat.cast_nonneg _
  have hdf : 0 < nu - n + 1 := by linarith
  set f := nu - n + 1 with hf
  have hc : 0 < (kappa + 1) / (kappa * f) := by positivity
  have hq : 0 ≤ quad psi⁻¹ (x - mu) := quad_nonneg hpsi.inv.posSemidef _
  simp only [mvtPdf]
  rw [inv_smul_mat hpsi hc.ne', quad_smul, det_smul, iwConst, iwConst, det_add_vecMulVec hpsi,
    ← hn]
  set Q := quad psi⁻¹ (x - mu)
  have e1 : 1 + 1 / f * (((kappa + 1) / (kappa * f))⁻¹ * Q) = 1 + kappa / (kappa + 1) * Q := by
    field_simp
  have ht : 0 < 1 + kappa / (kappa + 1) * Q := by positivity
  rw [e1]
  set t := 1 + kappa / (kappa + 1) * Q
  have hm1 := multigamma_pos (a := nu / 2) (d := Fintype.card p) (by linarith)
  have hm2 := multigamma_pos (a := (nu + 1) / 2) (d := Fintype.card p) (by linarith)
  have hmg := multigamma_half (nu / 2) (Fintype.card p)
  rw [← hn, show nu / 2 + 1 / 2 = (nu + 1) / 2 by ring,
    show (nu + 1) / 2 - n / 2 = f / 2 by rw [hf]; ring] at hmg
  have hG1 := Real.Gamma_pos_of_pos (show 0 < (nu + 1) / 2 by linarith)
  have hG2 := Real.Gamma_pos_of_pos (show 0 < f / 2 by positivity)
  rw [show (f + n) / 2 = (nu + 1) / 2 by rw [hf]; ring,
    show -(f + n) / 2 = -((nu + 1) / 2) by rw [hf]; ring]
  have e2 : √((2 * π) ^ n) = 2 ^ (n / 2) * π ^ (n / 2) := by
    rw [Real.sqrt_eq_rpow, ← rpow_mul (by positivity), mul_rpow two_pos.le pi_pos.le]
    ring_nf
  have e3 : (((kappa + 1) / (kappa * f)) ^ Fintype.card p * psi.det) ^ ((1 : ℝ) / 2) =
      (kappa + 1) ^ (n / 2) / (kappa ^ (n / 2) * f ^ (n / 2)) * psi.det ^ ((1 : ℝ) / 2) := by
    rw [mul_rpow (by positivity) hd.le, ← rpow_natCast, ← hn, ← rpow_mul hc.le,
      div_rpow (by positivity) (by positivity), mul_rpow hk.le hdf.le]
    ring_nf
  have e4 : (1 / kappa) ^ (-(n / 2)) = kappa ^ (n / 2) := by
    rw [one_div, inv_rpow hk.le, rpow_neg hk.le, inv_inv]
  have e5 : (1 / (kappa + 1)) ^ (-(n / 2)) = (kappa + 1) ^ (n / 2) := by
    rw [one_div, inv_rpow (by positivity), rpow_neg (by positivity), inv_inv]
  have e6 : (2 : ℝ) ^ ((nu + 1) * n / 2) = 2 ^ (nu * n / 2) * 2 ^ (n / 2) := by
    rw [← rpow_add two_pos]; congr 1; ring
  have e7 : psi.det ^ ((nu + 1) / 2) = psi.det ^ (nu / 2) * psi.det ^ ((1 : ℝ) / 2) := by
    rw [← rpow_add hd]; congr 1; ring
  rw [e2, e3, e4, e5, e6, mul_rpow hd.le ht.le, e7, rpow_neg ht.le]
  have q1 : 0 < (2 : ℝ) ^ (nu * n / 2) := by positivity
  have q2 : 0 < (2 : ℝ) ^ (n / 2) := by positivity
  have q3 : 0 < π ^ (n / 2) := by positivity
  have q4 : 0 < kappa ^ (n / 2) := by positivity
  have q5 : 0 < (kappa + 1) ^ (n / 2) := by positivity
  have q6 : 0 < f ^ (n / 2) := by positivity
  have q7 : 0 < psi.det ^ (nu / 2) := by positivity
  have q8 : 0 < psi.det ^ ((1 : ℝ) / 2) := by positivity
  have q9 : 0 < t ^ ((nu + 1) / 2) := by positivity
  field_simp
  linear_combination hmg

end Conj
