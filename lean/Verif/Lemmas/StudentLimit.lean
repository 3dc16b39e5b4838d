import Verif.MatScipy
import Verif.Lemmas.ConcentrationMatrix
import Mathlib.Analysis.SpecialFunctions.Gamma.BohrMollerup
import Mathlib.Analysis.SpecialFunctions.Log.Deriv

/-!
# The t density tends to the normal density
-/

open MeasureTheory Set Filter Topology Matrix

set_option linter.unusedSectionVars false

namespace Conj

open Scipy

/-- Wendel's inequalities, squared -/
theorem gamma_half_sq {x : ℝ} (hx : 0 < x) : Real.Gamma (x + 1 / 2) ^ 2 ≤ x * Real.Gamma x ^ 2 := by
  have h := Real.Gamma_mul_add_mul_le_rpow_Gamma_mul_rpow_Gamma hx (by linarith : 0 < x + 1)
    (by norm_num : (0 : ℝ) < 1 / 2) (by norm_num : (0 : ℝ) < 1 / 2) (by norm_num)
  have e : 1 / 2 * x + 1 / 2 * (x + 1) = x + 1 / 2 := by ring
  rw [e, Real.Gamma_add_one hx.ne', ← Real.sqrt_eq_rpow, ← Real.sqrt_eq_rpow] at h
  have hg := Real.Gamma_pos_of_pos hx
  have h2 := pow_le_pow_left₀ (Real.Gamma_pos_of_pos (by linarith : 0 < x + 1 / 2)).le h 2
  rw [mul_pow, Real.sq_sqrt hg.le, Real.sq_sqrt (by positivity)] at h2
  nlinarith

theorem gamma_half_sq' {x : ℝ} (hx : 1 / 2 < x) : (x - 1 / 2) * Real.Gamma x ^ 2 ≤ Real.Gamma (x + 1 / 2) ^ 2 := by
  have h := gamma_half_sq (x := x - 1 / 2) (by linarith)
  have e : x - 1 / 2 + 1 / 2 = x := by ring
  rw [e] at h
  have h2 := Real.Gamma_add_one (s := x - 1 / 2) (by linarith)
  have e2 : x - 1 / 2 + 1 = x + 1 / 2 := by ring
  rw [e2] at h2
  rw [h2, mul_pow]
  nlinarith [mul_le_mul_of_nonneg_left h (by linarith : (0 : ℝ) ≤ x - 1 / 2)]

theorem gamma_half_ratio : Tendsto (fun x : ℝ => Real.Gamma (x + 1 / 2) / (Real.Gamma x * x ^ ((1 : ℝ) / 2))) atTop (𝓝 1) := by
  have hlow : Tendsto (fun x : ℝ => √(1 - 1 / 2 / x)) atTop (𝓝 1) := by
    have h1 : Tendsto (fun x : ℝ => 1 - 1 / 2 / x) atTop (𝓝 (1 - 0)) :=
      tendsto_const_nhds.sub (tendsto_const_nhds.div_atTop tendsto_id)
    have := (Real.continuous_sqrt.tendsto _).comp h1
    rwa [sub_zero, Real.sqrt_one] at this
  refine tendsto_of_tendsto_of_tendsto_of_le_of_le' hlow tendsto_const_nhds ?_ ?_
  · filter_upwards [eventually_gt_atTop 1] with x hx
    have hx0 : 0 < x := by linarith
    have hg := Real.Gamma_pos_of_pos hx0
    have hg2 := Real.Gamma_pos_of_pos (by linarith : 0 < x + 1 / 2)
    rw [← Real.sqrt_eq_rpow]
    refine Real.sqrt_le_iff.2 ⟨by positivity, ?_⟩
    rw [div_pow, mul_pow, Real.sq_sqrt hx0.le, le_div_iff₀ (by positivity)]
    have := gamma_half_sq' (x := x) (by linarith)
    have e : (1 - 1 / 2 / x) * (Real.Gamma x ^ 2 * x) = (x - 1 / 2) * Real.Gamma x ^ 2 := by
      field_simp
    rw [e]
    exact this
  · filter_upwards [eventually_gt_atTop 1] with x hx
    have hx0 : 0 < x := by linarith
    have hg := Real.Gamma_pos_of_pos hx0
    have hg2 := Real.Gamma_pos_of_pos (by linarith : 0 < x + 1 / 2)
    rw [← Real.sqrt_eq_rpow, div_le_one (by positivity)]
    refine le_of_sq_le_sq ?_ (by positivity)
    rw [mul_pow, Real.sq_sqrt hx0.le]
    linarith [gamma_half_sq hx0]

theorem gamma_ratio (d : ℕ) :
    Tendsto (fun x : ℝ => Real.Gamma (x + (d : ℝ) / 2) / (Real.Gamma x * x ^ ((d : ℝ) / 2))) atTop (𝓝 1) := by
  induction d with
  | zero =>
    refine tendsto_const_nhds.congr' ?_
    filter_upwards [eventually_gt_atTop 0] with x hx
    have hg := Real.Gamma_pos_of_pos hx
    simp [hg.ne']
  | succ d ih =>
    have hs : Tendsto (fun x : ℝ => x + (d : ℝ) / 2) atTop atTop := tendsto_atTop_add_const_right _ _ tendsto_id
    have h1 := gamma_half_ratio.comp hs
    have h2 : Tendsto (fun x : ℝ => ((x + (d : ℝ) / 2) / x) ^ ((1 : ℝ) / 2)) atTop (𝓝 1) := by
      have h3 : Tendsto (fun x : ℝ => (x + (d : ℝ) / 2) / x) atTop (𝓝 1) := by
        have h4 : Tendsto (fun x : ℝ => 1 + (d : ℝ) / 2 / x) atTop (𝓝 (1 + 0)) :=
          tendsto_const_nhds.add (tendsto_const_nhds.div_atTop tendsto_id)
        rw [add_zero] at h4
        refine h4.congr' ?_
        filter_upwards [eventually_gt_atTop 0] with x hx
        field_simp
      have := h3.rpow_const (p := 1 / 2) (Or.inl one_ne_zero)
      simpa using this
    have := (h1.mul ih).mul h2
    rw [one_mul, one_mul] at this
    refine this.congr' ?_
    filter_upwards [eventually_gt_atTop 0] with x hx
    have hxd : 0 < x + (d : ℝ) / 2 := by positivity
    have hg := Real.Gamma_pos_of_pos hx
    have hg2 := Real.Gamma_pos_of_pos hxd
    simp only [Function.comp_apply]
    have e : x + (d : ℝ) / 2 + 1 / 2 = x + ((d + 1 : ℕ) : ℝ) / 2 := by push_cast; ring
    have e2 : x ^ (((d + 1 : ℕ) : ℝ) / 2) = x ^ ((d : ℝ) / 2) * x ^ ((1 : ℝ) / 2) := by
      rw [← Real.rpow_add hx]; push_cast; ring_nf
    rw [e, e2, Real.div_rpow hxd.le hx.le]
    have := Real.rpow_pos_of_pos hx ((d : ℝ) / 2)
    have := Real.rpow_pos_of_pos hx ((1 : ℝ) / 2)
    have := Real.rpow_pos_of_pos hxd ((1 : ℝ) / 2)
    field_simp

/-- `(1 + q/ν)^(−(ν+d)/2) → exp(−q/2)` -/
theorem tendsto_t_kernel {ν q : ℕ → ℝ} {q₀ : ℝ} (d : ℝ) (hν : Tendsto ν atTop atTop) (hq : Tendsto q atTop (𝓝 q₀))
    (h0 : ∀ n, 0 ≤ q n) :
    Tendsto (fun n => (1 + 1 / ν n * q n) ^ (-(ν n + d) / 2)) atTop (𝓝 (Real.exp (-(1 / 2) * q₀))) := by
  have hlow : Tendsto (fun n => q n / (1 + q n / ν n)) atTop (𝓝 q₀) := by
    have h1 : Tendsto (fun n => 1 + q n / ν n) atTop (𝓝 (1 + 0)) := tendsto_const_nhds.add (hq.div_atTop hν)
    have := hq.div h1 (by norm_num)
    rwa [add_zero, div_one] at this
  have hpos : ∀ᶠ n in atTop, 0 < ν n := hν.eventually_gt_atTop 0
  have hlog : Tendsto (fun n => ν n * Real.log (1 + q n / ν n)) atTop (𝓝 q₀) := by
    refine tendsto_of_tendsto_of_tendsto_of_le_of_le' hlow hq ?_ ?_
    · filter_upwards [hpos] with n hn
      have hx : 0 ≤ q n / ν n := div_nonneg (h0 n) hn.le
      have := Real.one_sub_inv_le_log_of_pos (x := 1 + q n / ν n) (by linarith)
      have e : q n / (1 + q n / ν n) = ν n * (1 - (1 + q n / ν n)⁻¹) := by
        have : ν n + q n ≠ 0 := by linarith [h0 n]
        field_simp
        ring
      rw [e]
      exact mul_le_mul_of_nonneg_left this hn.le
    · filter_upwards [hpos] with n hn
      have hx : 0 ≤ q n / ν n := div_nonneg (h0 n) hn.le
      have := Real.log_le_sub_one_of_pos (x := 1 + q n / ν n) (by linarith)
      calc ν n * Real.log (1 + q n / ν n) ≤ ν n * (1 + q n / ν n - 1) := mul_le_mul_of_nonneg_left this hn.le
        _ = q n := by field_simp; ring
  have hlog0 : Tendsto (fun n => Real.log (1 + q n / ν n)) atTop (𝓝 0) := by
    have h1 : Tendsto (fun n => 1 + q n / ν n) atTop (𝓝 (1 + 0)) := tendsto_const_nhds.add (hq.div_atTop hν)
    rw [add_zero] at h1
    have := (Real.continuousAt_log one_ne_zero).tendsto.comp h1
    rwa [Real.log_one] at this
  have hall : Tendsto (fun n => -(1 / 2) * (ν n * Real.log (1 + q n / ν n) + d * Real.log (1 + q n / ν n))) atTop
      (𝓝 (-(1 / 2) * (q₀ + d * 0))) := (hlog.add (hlog0.const_mul d)).const_mul _
  rw [mul_zero, add_zero] at hall
  refine ((Real.continuous_exp.tendsto _).comp hall).congr' ?_
  filter_upwards [hpos] with n hn
  have hx : 0 ≤ q n / ν n := div_nonneg (h0 n) hn.le
  simp only [Function.comp_apply]
  have e : 1 + 1 / ν n * q n = 1 + q n / ν n := by ring
  rw [e, Real.rpow_def_of_pos (by linarith)]
  congr 1
  ring

variable {p : Type} [Fintype p] [DecidableEq p]

theorem tendsto_quad {A : ℕ → Matrix p p ℝ} {A₀ : Matrix p p ℝ} {v : ℕ → p → ℝ} {v₀ : p → ℝ}
    (hA : ∀ i j, Tendsto (fun n => A n i j) atTop (𝓝 (A₀ i j))) (hv : ∀ i, Tendsto (fun n => v n i) atTop (𝓝 (v₀ i))) :
    Tendsto (fun n => quad (A n) (v n)) atTop (𝓝 (quad A₀ v₀)) := by
  simp only [quad, dotProduct, mulVec]
  exact tendsto_finsetSum _ fun i _ => (hv i).mul (tendsto_finsetSum _ fun j _ => (hA i j).mul (hv j))

theorem tendsto_matrix {A : ℕ → Matrix p p ℝ} {A₀ : Matrix p p ℝ}
    (hA : ∀ i j, Tendsto (fun n => A n i j) atTop (𝓝 (A₀ i j))) : Tendsto A atTop (𝓝 A₀) :=
  tendsto_pi_nhds.2 fun i => tendsto_pi_nhds.2 fun j => hA i j

theorem tendsto_entry {A : ℕ → Matrix p p ℝ} {A₀ : Matrix p p ℝ} (hA : Tendsto A atTop (𝓝 A₀)) (i j : p) :
    Tendsto (fun n => A n i j) atTop (𝓝 (A₀ i j)) := ((continuous_id.matrix_elem i j).tendsto _).comp hA

theorem tendsto_mvtPdf {m : ℕ → p → ℝ} {S : ℕ → Matrix p p ℝ} {ν : ℕ → ℝ} {m₀ : p → ℝ} {S₀ : Matrix p p ℝ}
    (hS₀ : S₀.PosDef) (hS : ∀ n, (S n).PosDef)
    (hm : Tendsto m atTop (𝓝 m₀)) (h : ∀ i j, Tendsto (fun n => S n i j) atTop (𝓝 (S₀ i j)))
    (hν : Tendsto ν atTop atTop) (x : p → ℝ) :
    Tendsto (fun n => mvtPdf (m n) (S n) (ν n) x) atTop (𝓝 (mvnPdf m₀ S₀ x)) := by
  have hdet := posDef_det hS₀
  have hM := tendsto_matrix h
  have h1 : Tendsto (fun n => (S n).det) atTop (𝓝 S₀.det) :=
    ((continuous_id.matrix_det (n := p) (R := ℝ)).tendsto S₀).comp hM
  have h2 := tendsto_quad (fun i j => tendsto_entry (tendsto_matrix_inv hM hdet.ne') i j) (v := fun n => x - m n)
    (v₀ := x - m₀) fun i => tendsto_const_nhds.sub (tendsto_pi_nhds.1 hm i)
  have hk := tendsto_t_kernel (Fintype.card p : ℝ) hν h2 fun n => quad_nonneg (hS n).inv.posSemidef _
  have hg := (gamma_ratio (Fintype.card p)).comp (hν.atTop_div_const (by norm_num : (0 : ℝ) < 2))
  have hdd : Tendsto (fun n => (S n).det ^ ((1 : ℝ) / 2)) atTop (𝓝 (S₀.det ^ ((1 : ℝ) / 2))) :=
    h1.rpow_const (Or.inl hdet.ne')
  have hpi := Real.pi_pos
  have hc : 0 < (2 * Real.pi) ^ ((Fintype.card p : ℝ) / 2) := Real.rpow_pos_of_pos (by positivity) _
  have hall := (hg.div (hdd.const_mul ((2 * Real.pi) ^ ((Fintype.card p : ℝ) / 2)))
    (mul_ne_zero hc.ne' (Real.rpow_pos_of_pos hdet _).ne')).mul hk
  have e0 : 1 / ((2 * Real.pi) ^ ((Fintype.card p : ℝ) / 2) * S₀.det ^ ((1 : ℝ) / 2)) *
      Real.exp (-(1 / 2) * quad S₀⁻¹ (x - m₀)) = mvnPdf m₀ S₀ x := by
    unfold mvnPdf
    rw [Real.sqrt_mul (by positivity), Real.sqrt_eq_rpow, Real.sqrt_eq_rpow, ← Real.rpow_mul (by positivity)]
    have e1 : (Fintype.card p : ℝ) * (1 / 2) = (Fintype.card p : ℝ) / 2 := by ring
    rw [e1]
    ring
  rw [e0] at hall
  refine hall.congr' ?_
  filter_upwards [hν.eventually_gt_atTop 0] with n hn
  simp only [Pi.div_apply, Function.comp_apply, mvtPdf]
  congr 1
  have e2 : ν n / 2 + (Fintype.card p : ℝ) / 2 = (ν n + (Fintype.card p : ℝ)) / 2 := by ring
  have e3 : (ν n / 2) ^ ((Fintype.card p : ℝ) / 2) * (2 * Real.pi) ^ ((Fintype.card p : ℝ) / 2) =
      ν n ^ ((Fintype.card p : ℝ) / 2) * Real.pi ^ ((Fintype.card p : ℝ) / 2) := by
    rw [← Real.mul_rpow (by positivity) (by positivity), ← Real.mul_rpow hn.le hpi.le]
    congr 1
    ring
  rw [e2, div_div]
  congr 1
  calc _ = Real.Gamma (ν n / 2) * ((ν n / 2) ^ ((Fintype.card p : ℝ) / 2) * (2 * Real.pi) ^ ((Fintype.card p : ℝ) / 2)) *
        (S n).det ^ ((1 : ℝ) / 2) := by ring
    _ = _ := by rw [e3]; ring

end Conj
