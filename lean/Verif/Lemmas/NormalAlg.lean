import Verif.Lemmas.Steps
import Mathlib.MeasureTheory.Integral.Prod
import Mathlib.MeasureTheory.Measure.Prod

/-! Normal densities: completing the square; joint densities by Fubini. -/

open MeasureTheory Set Real

namespace Conj

open Scipy Spec

/-- Completing the square, with all constants:
`N(m | mu, s) N(x | m, √v) = N(x | mu, √(v + s²)) N(m | m', s')`. -/
theorem normal_mul_normal (mu s v x m : ℝ) (hs : 0 < s) (hv : 0 < v) :
    (Normal.dist ⟨mu, s⟩).pdf m * (Normal.dist ⟨m, √v⟩).pdf x =
      (Normal.dist ⟨mu, √(v + s ^ 2)⟩).pdf x *
        (Normal.dist ⟨(mu / s ^ 2 + x / v) / (1 / s ^ 2 + 1 / v),
          √(1 / (1 / s ^ 2 + 1 / v))⟩).pdf m := by
  have hsv : 0 < √v := Real.sqrt_pos.2 hv
  have hw : 0 < v + s ^ 2 := by positivity
  have hsw : 0 < √(v + s ^ 2) := Real.sqrt_pos.2 hw
  have hq : 0 < 1 / (1 / s ^ 2 + 1 / v) := by positivity
  rw [Normal.pdf_eq _ hs, Normal.pdf_eq ⟨m, √v⟩ hsv, Normal.pdf_eq ⟨mu, √(v + s ^ 2)⟩ hsw,
    Normal.pdf_eq ⟨_, √(1 / (1 / s ^ 2 + 1 / v))⟩ (Real.sqrt_pos.2 hq)]
  simp only [Real.sq_sqrt hv.le, Real.sq_sqrt hw.le, Real.sq_sqrt hq.le]
  have hc : √(v + s ^ 2) * √(1 / (1 / s ^ 2 + 1 / v)) = s * √v := by
    rw [← Real.sqrt_mul hw.le]
    have : (v + s ^ 2) * (1 / (1 / s ^ 2 + 1 / v)) = s ^ 2 * v := by field_simp
    rw [this, Real.sqrt_mul (by positivity), Real.sqrt_sq hs.le]
  have h2 : 0 < √(2 * π) := by positivity
  have hq' : 0 < √(1 / (1 / s ^ 2 + 1 / v)) := Real.sqrt_pos.2 hq
  have e1 : 1 / (s * √(2 * π)) * (1 / (√v * √(2 * π))) =
      1 / (√(v + s ^ 2) * √(2 * π)) * (1 / (√(1 / (1 / s ^ 2 + 1 / v)) * √(2 * π))) := by
    rw [← one_div_mul_one_div, ← one_div_mul_one_div, ← one_div_mul_one_div, ← one_div_mul_one_div]
    have : 1 / √(v + s ^ 2) * (1 / √(1 / (1 / s ^ 2 + 1 / v))) = 1 / s * (1 / √v) := by
      rw [one_div_mul_one_div, hc, one_div_mul_one_div]
    linear_combination (-(1 / √(2 * π) * (1 / √(2 * π)))) * this
  have e2 : -(m - mu) ^ 2 / (2 * s ^ 2) + -(x - m) ^ 2 / (2 * v) =
      -(x - mu) ^ 2 / (2 * (v + s ^ 2)) +
      -(m - (mu / s ^ 2 + x / v) / (1 / s ^ 2 + 1 / v)) ^ 2 / (2 * (1 / (1 / s ^ 2 + 1 / v))) := by
    field_simp
    ring
  calc _ = (1 / (s * √(2 * π)) * (1 / (√v * √(2 * π)))) *
        (exp (-(m - mu) ^ 2 / (2 * s ^ 2)) * exp (-(x - m) ^ 2 / (2 * v))) := by ring
    _ = _ := by rw [e1, ← exp_add, e2, exp_add]; ring

/-- A joint density from a marginal and a conditional. -/
theorem isDensity_prod {A B : Type*} [MeasurableSpace A] [MeasurableSpace B] {μ : Measure A}
    {ν : Measure B} [SFinite μ] [SFinite ν] {S : Set A} {T : Set B} (hS : MeasurableSet S)
    (hT : MeasurableSet T) {g : B → ℝ} {h : A → B → ℝ} (hg : IsDensity ν T g)
    (hh : ∀ b ∈ T, IsDensity μ S (fun a => h a b))
    (hm : AEStronglyMeasurable (fun p : A × B => g p.2 * h p.1 p.2)
      ((μ.prod ν).restrict (S ×ˢ T))) :
    IsDensity (μ.prod ν) (S ×ˢ T) (fun p => g p.2 * h p.1 p.2) := by
  have hr : (μ.prod ν).restrict (S ×ˢ T) = (μ.restrict S).prod (ν.restrict T) :=
    (Measure.prod_restrict S T).symm
  have hin : ∀ b ∈ T, ∫ a, g b * h a b ∂(μ.restrict S) = g b := by
    intro b hb
    rw [integral_const_mul, (hh b hb).2.2, mul_one]
  have hint : Integrable (fun p : A × B => g p.2 * h p.1 p.2) ((μ.restrict S).prod (ν.restrict T)) := by
    rw [integrable_prod_iff' (hr ▸ hm)]
    constructor
    · filter_upwards [ae_restrict_mem hT] with b hb
      exact (hh b hb).2.1.const_mul _
    · refine hg.2.1.congr ?_
      filter_upwards [ae_restrict_mem hT] with b hb
      refine (hin b hb).symm.trans ?_
      apply setIntegral_congr_fun hS
      intro a ha
      exact (Real.norm_of_nonneg (mul_nonneg (hg.1 b hb) ((hh b hb).1 a ha))).symm
  refine ⟨fun p hp => mul_nonneg (hg.1 _ hp.2) ((hh _ hp.2).1 _ hp.1), ?_, ?_⟩
  · rw [IntegrableOn, hr]; exact hint
  · rw [hr, integral_prod_symm _ hint, setIntegral_congr_fun hT hin, hg.2.2]

/-! ### Normal-inverse-gamma and normal-gamma joint densities -/

theorem Normal.pdf_sqrt (mu v x : ℝ) (hv : 0 < v) :
    (Normal.dist ⟨mu, √v⟩).pdf x =
      (√(2 * π))⁻¹ * v ^ (-(1 / 2) : ℝ) * exp (-((x - mu) ^ 2 / 2 / v)) := by
  rw [Normal.pdf_eq ⟨mu, √v⟩ (Real.sqrt_pos.2 hv)]
  simp only [Real.sq_sqrt hv.le]
  rw [rpow_neg hv.le, ← Real.sqrt_eq_rpow]
  have e : -(x - mu) ^ 2 / (2 * v) = -((x - mu) ^ 2 / 2 / v) := by field_simp
  rw [e, one_div, mul_inv]
  ring

/-- the joint density of a NormalInverseGamma, as a function of (mean, variance) -/
noncomputable def nigPdf (mu nu alpha beta : ℝ) (θ : ℝ × ℝ) : ℝ :=
  (InverseGamma.dist ⟨alpha, beta⟩).pdf θ.2 * (Normal.dist ⟨mu, √(θ.2 / nu)⟩).pdf θ.1

/-- the joint density of a NormalGamma, as a function of (mean, precision) -/
noncomputable def ngPdf (mu lam alpha beta : ℝ) (θ : ℝ × ℝ) : ℝ :=
  (Gamma.dist ⟨alpha, beta⟩).pdf θ.2 * (Normal.dist ⟨mu, √(1 / (lam * θ.2))⟩).pdf θ.1

theorem nigPdf_isDensity (mu nu alpha beta : ℝ) (hnu : 0 < nu) (ha : 0 < alpha) (hb : 0 < beta) :
    IsDensity volume (univ ×ˢ Ioi 0) (nigPdf mu nu alpha beta) := by
  rw [Measure.volume_eq_prod]
  refine isDensity_prod (g := (InverseGamma.dist ⟨alpha, beta⟩).pdf)
    (h := fun m v => (Normal.dist ⟨mu, √(v / nu)⟩).pdf m) MeasurableSet.univ measurableSet_Ioi
    (InverseGamma.isDensity _ ha hb) ?_ ?_
  · intro v hv
    exact Normal.isDensity ⟨mu, √(v / nu)⟩ (Real.sqrt_pos.2 (div_pos hv hnu))
  · have hmeas : Measurable (fun p : ℝ × ℝ => (beta ^ alpha / Real.Gamma alpha *
        p.2 ^ (-alpha - 1) * exp (-(beta / p.2))) *
        (1 / (√(p.2 / nu) * √(2 * π)) * exp (-(p.1 - mu) ^ 2 / (2 * √(p.2 / nu) ^ 2)))) := by
      fun_prop
    refine hmeas.aestronglyMeasurable.congr ?_
    filter_upwards [ae_restrict_mem (MeasurableSet.univ.prod measurableSet_Ioi)] with p hp
    have hp2 : 0 < p.2 := hp.2
    rw [InverseGamma.pdf_eq ⟨alpha, beta⟩ hb hp2,
      Normal.pdf_eq ⟨mu, √(p.2 / nu)⟩ (Real.sqrt_pos.2 (div_pos hp2 hnu))]

theorem ngPdf_isDensity (mu lam alpha beta : ℝ) (hlam : 0 < lam) (ha : 0 < alpha) (hb : 0 < beta) :
    IsDensity volume (univ ×ˢ Ioi 0) (ngPdf mu lam alpha beta) := by
  rw [Measure.volume_eq_prod]
  refine isDensity_prod (g := (Gamma.dist ⟨alpha, beta⟩).pdf)
    (h := fun m t => (Normal.dist ⟨mu, √(1 / (lam * t))⟩).pdf m) MeasurableSet.univ
    measurableSet_Ioi (Gamma.isDensity _ ha hb) ?_ ?_
  · intro t ht
    have ht : 0 < t := ht
    exact Normal.isDensity ⟨mu, √(1 / (lam * t))⟩ (Real.sqrt_pos.2 (by positivity))
  · have hmeas : Measurable (fun p : ℝ × ℝ => (beta ^ alpha / Real.Gamma alpha *
        p.2 ^ (alpha - 1) * exp (-(beta * p.2))) *
        (1 / (√(1 / (lam * p.2)) * √(2 * π)) *
          exp (-(p.1 - mu) ^ 2 / (2 * √(1 / (lam * p.2)) ^ 2)))) := by
      fun_prop
    refine hmeas.aestronglyMeasurable.congr ?_
    filter_upwards [ae_restrict_mem (MeasurableSet.univ.prod measurableSet_Ioi)] with p hp
    have hp2 : 0 < p.2 := hp.2
    rw [Gamma.pdf_eq ⟨alpha, beta⟩ hb hp2,
      Normal.pdf_eq ⟨mu, √(1 / (lam * p.2))⟩ (Real.sqrt_pos.2 (by positivity))]

/-- predictive density of one observation under a normal-inverse-gamma -/
noncomputable def nigConst (mu nu alpha beta x : ℝ) : ℝ :=
  (√(2 * π))⁻¹ * (√((nu + 1) / nu))⁻¹ * gammaConst alpha beta /
    gammaConst (alpha + 1 / 2) (beta + nu * (x - mu) ^ 2 / (2 * (nu + 1)))

theorem nigConst_pos {mu nu alpha beta : ℝ} (x : ℝ) (hnu : 0 < nu) (ha : 0 < alpha)
    (hb : 0 < beta) : 0 < nigConst mu nu alpha beta x := by
  have h1 := gammaConst_pos ha hb
  have h2 : 0 < gammaConst (alpha + 1 / 2) (beta + nu * (x - mu) ^ 2 / (2 * (nu + 1))) :=
    gammaConst_pos (by positivity) (by positivity)
  have h3 : 0 < √((nu + 1) / nu) := Real.sqrt_pos.2 (by positivity)
  have h4 : 0 < √(2 * π) := Real.sqrt_pos.2 (by positivity)
  unfold nigConst
  positivity

/-- one normal observation, unknown mean and variance -/
theorem nig_kernel (mu nu alpha beta x : ℝ) (hnu : 0 < nu) (ha : 0 < alpha) (hb : 0 < beta) :
    ∀ θ ∈ (univ ×ˢ Ioi 0 : Set (ℝ × ℝ)),
      nigPdf mu nu alpha beta θ * (Normal.dist ⟨θ.1, √θ.2⟩).pdf x =
        nigConst mu nu alpha beta x *
          nigPdf ((nu * mu + x) / (nu + 1)) (nu + 1) (alpha + 1 / 2)
            (beta + nu * (x - mu) ^ 2 / (2 * (nu + 1))) θ := by
  rintro ⟨m, v⟩ ⟨-, hv⟩
  have hv : 0 < v := hv
  simp only [nigPdf]
  have hs : 0 < √(v / nu) := Real.sqrt_pos.2 (by positivity)
  have key := normal_mul_normal mu (√(v / nu)) v x m hs hv
  rw [Real.sq_sqrt (by positivity : 0 ≤ v / nu)] at key
  have e1 : (mu / (v / nu) + x / v) / (1 / (v / nu) + 1 / v) = (nu * mu + x) / (nu + 1) := by
    field_simp
  have e2 : 1 / (1 / (v / nu) + 1 / v) = v / (nu + 1) := by field_simp
  have e3 : v + v / nu = v * ((nu + 1) / nu) := by field_simp
  rw [e1, e2, e3] at key
  rw [mul_assoc, key, ← mul_assoc, ← mul_assoc]
  congr 1
  have hd : InverseGamma.Valid ⟨alpha, beta⟩ := ⟨ha, hb⟩
  have hd' : InverseGamma.Valid ⟨alpha + 1 / 2, beta + nu * (x - mu) ^ 2 / (2 * (nu + 1))⟩ :=
    ⟨by simp only; positivity, by simp only; positivity⟩
  have h := invgamma_kernel ⟨alpha, beta⟩
    ⟨alpha + 1 / 2, beta + nu * (x - mu) ^ 2 / (2 * (nu + 1))⟩ hd hd'
    (f := fun t => (Normal.dist ⟨mu, √(t * ((nu + 1) / nu))⟩).pdf x)
    (C := (√(2 * π))⁻¹ * (√((nu + 1) / nu))⁻¹) (u := 1 / 2)
    (v := nu * (x - mu) ^ 2 / (2 * (nu + 1))) (fun t ht => by
      have ht : 0 < t := ht
      rw [Normal.pdf_sqrt _ _ _ (by positivity), Real.mul_rpow ht.le (by positivity),
        rpow_neg (x := (nu + 1) / nu) (by positivity), ← Real.sqrt_eq_rpow]
      have e : (x - mu) ^ 2 / 2 / (t * ((nu + 1) / nu)) = nu * (x - mu) ^ 2 / (2 * (nu + 1)) / t := by
        field_simp
      rw [e]
      ring) rfl rfl v hv
  exact h

/-- the same with precision in place of variance -/
theorem ng_kernel (mu lam alpha beta x : ℝ) (hlam : 0 < lam) (ha : 0 < alpha) (hb : 0 < beta) :
    ∀ θ ∈ (univ ×ˢ Ioi 0 : Set (ℝ × ℝ)),
      ngPdf mu lam alpha beta θ * (Normal.dist ⟨θ.1, √(1 / θ.2)⟩).pdf x =
        nigConst mu lam alpha beta x *
          ngPdf ((lam * mu + x) / (lam + 1)) (lam + 1) (alpha + 1 / 2)
            (beta + lam * (x - mu) ^ 2 / (2 * (lam + 1))) θ := by
  rintro ⟨m, t⟩ ⟨-, ht⟩
  have ht : 0 < t := ht
  simp only [ngPdf]
  have hs : 0 < √(1 / (lam * t)) := Real.sqrt_pos.2 (by positivity)
  have key := normal_mul_normal mu (√(1 / (lam * t))) (1 / t) x m hs (by positivity)
  rw [Real.sq_sqrt (by positivity : 0 ≤ 1 / (lam * t))] at key
  have e1 : (mu / (1 / (lam * t)) + x / (1 / t)) / (1 / (1 / (lam * t)) + 1 / (1 / t)) =
      (lam * mu + x) / (lam + 1) := by
    field_simp
  have e2 : 1 / (1 / (1 / (lam * t)) + 1 / (1 / t)) = 1 / ((lam + 1) * t) := by field_simp
  have e3 : 1 / t + 1 / (lam * t) = ((lam + 1) / lam) * t⁻¹ := by field_simp
  rw [e1, e2, e3] at key
  rw [mul_assoc, key, ← mul_assoc, ← mul_assoc]
  congr 1
  have hd : Gamma.Valid ⟨alpha, beta⟩ := ⟨ha, hb⟩
  have hd' : Gamma.Valid ⟨alpha + 1 / 2, beta + lam * (x - mu) ^ 2 / (2 * (lam + 1))⟩ :=
    ⟨by simp only; positivity, by simp only; positivity⟩
  have h := gamma_kernel ⟨alpha, beta⟩
    ⟨alpha + 1 / 2, beta + lam * (x - mu) ^ 2 / (2 * (lam + 1))⟩ hd hd'
    (f := fun t => (Normal.dist ⟨mu, √(((lam + 1) / lam) * t⁻¹)⟩).pdf x)
    (C := (√(2 * π))⁻¹ * (√((lam + 1) / lam))⁻¹) (u := 1 / 2)
    (v := lam * (x - mu) ^ 2 / (2 * (lam + 1))) (fun t ht => by
      have ht : 0 < t := ht
      rw [Normal.pdf_sqrt _ _ _ (by positivity), Real.mul_rpow (by positivity) (by positivity),
        rpow_neg (x := (lam + 1) / lam) (by positivity), ← Real.sqrt_eq_rpow,
        Real.inv_rpow ht.le, rpow_neg ht.le, inv_inv]
      have e : (x - mu) ^ 2 / 2 / ((lam + 1) / lam * t⁻¹) =
          lam * (x - mu) ^ 2 / (2 * (lam + 1)) * t := by
        field_simp
      rw [e]
      ring) rfl rfl t ht
  exact h

end Conj
