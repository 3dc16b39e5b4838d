import Verif.Lemmas.Concentration
import Verif.Lemmas.DataMeans
import Mathlib.MeasureTheory.Measure.OpenPos
import Mathlib.Analysis.MeanInequalities
import Mathlib.Analysis.SpecialFunctions.Gamma.BohrMollerup

/-!
# Expected log densities are largest at the true density; log normalising constants are convex
-/

open MeasureTheory Set Filter Topology

namespace Conj

open Scipy Spec

/-- Gibbs' inequality, strict unless the densities agree -/
theorem gibbs {S : Set ℝ} (hS : IsOpen S) {f0 f : ℝ → ℝ} (h0 : IsDensity volume S f0) (h : IsDensity volume S f)
    (p0 : ∀ x ∈ S, 0 < f0 x) (p : ∀ x ∈ S, 0 < f x) (c0 : ContinuousOn f0 S) (c : ContinuousOn f S)
    (hint : Integrable (fun x => Real.log (f x / f0 x)) (lawOn S f0)) :
    ∫ x, Real.log (f x / f0 x) ∂lawOn S f0 < 0 ∨ EqOn f f0 S := by
  have := lawOn_prob hS.measurableSet h0
  obtain ⟨i1, e1⟩ := mean_of_tilt hS.measurableSet h0 h (T := fun x => f x / f0 x) (c1 := 1) fun x hx => by
    rw [div_mul_cancel₀ _ (p0 x hx).ne', one_mul]
  by_contra hcon
  push Not at hcon
  obtain ⟨hge, hne⟩ := hcon
  have hg : Integrable (fun x => f x / f0 x - 1 - Real.log (f x / f0 x)) (lawOn S f0) :=
    (i1.sub (integrable_const _)).sub hint
  have hmem := ae_lawOn_mem hS.measurableSet f0
  have hg0 : 0 ≤ᵐ[lawOn S f0] fun x => f x / f0 x - 1 - Real.log (f x / f0 x) := by
    filter_upwards [hmem] with x hx
    have := Real.log_le_sub_one_of_pos (div_pos (p x hx) (p0 x hx))
    simp only [Pi.zero_apply]
    linarith
  have hz : ∫ x, (f x / f0 x - 1 - Real.log (f x / f0 x)) ∂lawOn S f0 = 0 := by
    refine le_antisymm ?_ (integral_nonneg_of_ae hg0)
    have i3 : Integrable (fun x => f x / f0 x - 1) (lawOn S f0) := i1.sub (integrable_const _)
    rw [integral_sub i3 hint, integral_sub i1 (integrable_const _), e1]
    simp only [integral_const, probReal_univ, smul_eq_mul]
    linarith
  have hae := (integral_eq_zero_iff_of_nonneg_ae hg0 hg).1 hz
  refine hne (Measure.eqOn_open_of_ae_eq (μ := volume) ?_ hS c c0)
  have hac : (volume.restrict S) ≪ lawOn S f0 := by
    refine withDensity_absolutelyContinuous' h0.2.1.aestronglyMeasurable.aemeasurable.ennreal_ofReal ?_
    filter_upwards [ae_restrict_mem hS.measurableSet] with x hx
    exact (ENNReal.ofReal_pos.2 (p0 x hx)).ne'
  filter_upwards [hac.ae_le hae, ae_restrict_mem hS.measurableSet] with x hx hxS
  by_contra hfx
  have h1 : f x / f0 x ≠ 1 := fun h => hfx ((div_eq_one_iff_eq (p0 x hxS).ne').1 h)
  have h2 := Real.log_lt_sub_one_of_pos (div_pos (p x hxS) (p0 x hxS)) h1
  simp only [Pi.zero_apply] at hx
  linarith

/-- if the weighted geometric mean of two densities, times `exp c`, is a density, then `c` is not negative -/
theorem partition_convex {X : Type} [MeasurableSpace X] {μ : Measure X} {S : Set X} (hS : MeasurableSet S)
    {f1 f2 f : X → ℝ} (h1 : IsDensity μ S f1) (h2 : IsDensity μ S f2) (h : IsDensity μ S f) {a b c : ℝ} (ha : 0 ≤ a)
    (hb : 0 ≤ b) (hab : a + b = 1) (hf : ∀ x ∈ S, f x = Real.exp c * (f1 x ^ a * f2 x ^ b)) : 0 ≤ c := by
  have i : Integrable (fun x => Real.exp c * (a * f1 x + b * f2 x)) (μ.restrict S) :=
    ((h1.2.1.const_mul a).add (h2.2.1.const_mul b)).const_mul _
  have hle : ∫ x in S, f x ∂μ ≤ ∫ x in S, Real.exp c * (a * f1 x + b * f2 x) ∂μ := by
    refine setIntegral_mono_on h.2.1 i hS fun x hx => ?_
    rw [hf x hx]
    exact mul_le_mul_of_nonneg_left
      (Real.geom_mean_le_arith_mean2_weighted ha hb (h1.1 x hx) (h2.1 x hx) hab) (Real.exp_pos _).le
  rw [h.2.2, integral_const_mul, integral_add (h1.2.1.const_mul a) (h2.2.1.const_mul b), integral_const_mul,
    integral_const_mul, h1.2.2, h2.2.2, mul_one, mul_one, hab, mul_one] at hle
  exact Real.one_le_exp_iff.1 hle

/-! ## Gamma densities -/

/-- minus the logarithm of the constant in a gamma density -/
noncomputable def gammaPart (θ : ℝ × ℝ) : ℝ := gammaln θ.1 - θ.1 * Real.log θ.2

theorem Gamma.pdf_exp {a b x : ℝ} (ha : 0 < a) (hb : 0 < b) (hx : 0 < x) :
    (Gamma.dist { alpha := a, beta := b }).pdf x =
      Real.exp ((a - 1) * Real.log x - b * x - gammaPart (a, b)) := by
  rw [Gamma.pdf_eq ⟨a, b⟩ hb hx]
  simp only [gammaPart]
  rw [Real.rpow_def_of_pos hb, Real.rpow_def_of_pos hx,
    show Real.Gamma a = Real.exp (gammaln a) by rw [gammaln, Real.exp_log (Real.Gamma_pos_of_pos ha)],
    ← Real.exp_sub, ← Real.exp_add, ← Real.exp_add]
  congr 1
  ring

theorem gammaPart_convex : ConvexOn ℝ (Ioi 0 ×ˢ Ioi 0) gammaPart := by
  refine ⟨(convex_Ioi 0).prod (convex_Ioi 0), ?_⟩
  rintro ⟨a1, b1⟩ ⟨ha1, hb1⟩ ⟨a2, b2⟩ ⟨ha2, hb2⟩ s t hs ht hst
  simp only [mem_Ioi] at ha1 hb1 ha2 hb2
  have ha : 0 < s * a1 + t * a2 := by
    have := (convex_Ioi (0 : ℝ)) (x := a1) ha1 (y := a2) ha2 hs ht hst
    simpa using this
  have hb : 0 < s * b1 + t * b2 := by
    have := (convex_Ioi (0 : ℝ)) (x := b1) hb1 (y := b2) hb2 hs ht hst
    simpa using this
  have := partition_convex (c := s * gammaPart (a1, b1) + t * gammaPart (a2, b2) - gammaPart (s * a1 + t * a2, s * b1 + t * b2))
    measurableSet_Ioi (Gamma.isDensity ⟨a1, b1⟩ ha1 hb1) (Gamma.isDensity ⟨a2, b2⟩ ha2 hb2)
    (Gamma.isDensity ⟨s * a1 + t * a2, s * b1 + t * b2⟩ ha hb) hs ht hst fun x hx => by
      rw [Gamma.pdf_exp ha hb hx, Gamma.pdf_exp ha1 hb1 hx, Gamma.pdf_exp ha2 hb2 hx, ← Real.exp_mul, ← Real.exp_mul,
        ← Real.exp_add, ← Real.exp_add]
      congr 1
      rw [show t = 1 - s by linarith]
      ring
  simp only [Prod.smul_mk, Prod.mk_add_mk, smul_eq_mul]
  linarith

theorem gammaln_convex : ConvexOn ℝ (Ioi 0) gammaln := Real.convexOn_log_Gamma

theorem gammaln_continuousOn : ContinuousOn gammaln (Ioi 0) := fun x hx => by
  have hx' : (0 : ℝ) < x := hx
  have h := (Real.differentiableAt_Gamma fun m => by
    have : (0 : ℝ) ≤ m := Nat.cast_nonneg m
    linarith).continuousAt (x := x)
  exact (h.log (Real.Gamma_pos_of_pos hx').ne').continuousWithinAt

/-- the logarithm is dominated near zero by a small negative power -/
theorem neg_log_le {x d : ℝ} (hx : 0 < x) (hd : 0 < d) : -Real.log x ≤ x ^ (-d) / d := by
  have := Real.log_le_self (Real.rpow_nonneg hx.le (-d))
  rw [Real.log_rpow hx] at this
  rw [le_div_iff₀ hd]
  linarith

theorem gamma_log_integrable {a b : ℝ} (ha : 0 < a) (hb : 0 < b) :
    Integrable Real.log (contLaw (Gamma.dist ⟨a, b⟩)) := by
  have h1 := (gamma_expect ha hb).1
  rw [gamma_lawOn ⟨a, b⟩ hb] at h1 ⊢
  have hd : 0 < a / 2 := by positivity
  obtain ⟨h2, -⟩ := mean_of_tilt measurableSet_Ioi (Gamma.isDensity ⟨a, b⟩ ha hb) (Gamma.isDensity ⟨a / 2, b⟩ hd hb)
    (T := fun x => x ^ (-(a / 2))) (c1 := Real.exp (gammaPart (a / 2, b) - gammaPart (a, b))) fun x hx => by
      rw [Gamma.pdf_exp ha hb hx, Gamma.pdf_exp hd hb hx, Real.rpow_def_of_pos hx, ← Real.exp_add, ← Real.exp_add]
      congr 1
      ring
  refine (h1.add (h2.div_const (a / 2))).mono' Real.measurable_log.aestronglyMeasurable ?_
  filter_upwards [ae_lawOn_mem measurableSet_Ioi _] with x hx
  have hx : 0 < x := hx
  have h3 := neg_log_le hx hd
  have h4 := Real.log_le_self hx.le
  have h5 : 0 ≤ x ^ (-(a / 2)) / (a / 2) := by positivity
  rw [Real.norm_eq_abs, abs_le]
  simp only [Pi.add_apply]
  constructor <;> linarith

/-- the expected log density of gamma data is largest at the true parameters -/
theorem gamma_strict_max {a b a0 b0 : ℝ} (ha : 0 < a) (hb : 0 < b) (ha0 : 0 < a0) (hb0 : 0 < b0)
    (hne : (a, b) ≠ (a0, b0)) :
    (a - 1) * (∫ x, Real.log x ∂contLaw (Gamma.dist ⟨a0, b0⟩)) - b * (∫ x, x ∂contLaw (Gamma.dist ⟨a0, b0⟩))
        - gammaPart (a, b) <
      (a0 - 1) * (∫ x, Real.log x ∂contLaw (Gamma.dist ⟨a0, b0⟩)) - b0 * (∫ x, x ∂contLaw (Gamma.dist ⟨a0, b0⟩))
        - gammaPart (a0, b0) := by
  have i1 := gamma_log_integrable ha0 hb0
  have i2 := (gamma_expect ha0 hb0).1
  have hp := gamma_prob ha0 hb0
  rw [gamma_lawOn ⟨a0, b0⟩ hb0] at i1 i2 hp ⊢
  have e : ∀ᵐ x ∂lawOn (Ioi 0) (Gamma.dist ⟨a0, b0⟩).pdf,
      Real.log ((Gamma.dist ⟨a, b⟩).pdf x / (Gamma.dist ⟨a0, b0⟩).pdf x) =
        (a - a0) * Real.log x - (b - b0) * x - (gammaPart (a, b) - gammaPart (a0, b0)) := by
    filter_upwards [ae_lawOn_mem measurableSet_Ioi _] with x hx
    rw [Gamma.pdf_exp ha hb hx, Gamma.pdf_exp ha0 hb0 hx, ← Real.exp_sub, Real.log_exp]
    ring
  have hi := ((i1.const_mul (a - a0)).sub (i2.const_mul (b - b0))).sub
    (integrable_const (gammaPart (a, b) - gammaPart (a0, b0)))
  have hcont : ∀ {a b : ℝ}, 0 < a → 0 < b → ContinuousOn (Gamma.dist { alpha := a, beta := b }).pdf (Ioi 0) := by
    intro a b ha hb
    refine ContinuousOn.congr (f := fun x => Real.exp ((a - 1) * Real.log x - b * x - gammaPart (a, b))) ?_
      fun x hx => Gamma.pdf_exp ha hb hx
    refine Real.continuous_exp.comp_continuousOn ((ContinuousOn.sub (continuousOn_const.mul
      (Real.continuousOn_log.mono fun x hx => ne_of_gt hx)) (by fun_prop)).sub continuousOn_const)
  rcases gibbs isOpen_Ioi (Gamma.isDensity ⟨a0, b0⟩ ha0 hb0) (Gamma.isDensity ⟨a, b⟩ ha hb)
    (fun x hx => by rw [Gamma.pdf_exp ha0 hb0 hx]; positivity) (fun x hx => by rw [Gamma.pdf_exp ha hb hx]; positivity)
    (hcont ha0 hb0) (hcont ha hb) (hi.congr (e.mono fun x hx => hx.symm)) with hlt | heq
  · have i3 : Integrable (fun x => (a - a0) * Real.log x - (b - b0) * x) (lawOn (Ioi 0) (Gamma.dist ⟨a0, b0⟩).pdf) :=
      (i1.const_mul _).sub (i2.const_mul _)
    rw [integral_congr_ae e, integral_sub i3 (integrable_const _),
      integral_sub (i1.const_mul _) (i2.const_mul _), integral_const_mul, integral_const_mul] at hlt
    simp only [integral_const, probReal_univ, smul_eq_mul, one_mul] at hlt
    linarith
  · exfalso
    have hx : ∀ x : ℝ, 0 < x → (a - 1) * Real.log x - b * x - gammaPart (a, b) =
        (a0 - 1) * Real.log x - b0 * x - gammaPart (a0, b0) := fun x hx => by
      have := heq (show x ∈ Ioi (0 : ℝ) from hx)
      rw [Gamma.pdf_exp ha hb hx, Gamma.pdf_exp ha0 hb0 hx] at this
      exact Real.exp_injective this
    have h1 := hx 1 one_pos
    have h2 := hx 2 two_pos
    have h4 := hx 4 four_pos
    rw [Real.log_one] at h1
    rw [show (4 : ℝ) = 2 ^ 2 by norm_num, Real.log_pow] at h4
    push_cast at h4
    have hl := Real.log_pos one_lt_two
    have hbb : b = b0 := by nlinarith
    have haa : (a - a0) * Real.log 2 = 0 := by rw [hbb] at h1 h2; linarith
    have haa : a = a0 := by
      rcases mul_eq_zero.1 haa with h | h
      · linarith
      · exact absurd h hl.ne'
    exact hne (by rw [haa, hbb])

/-! ## Beta densities -/

/-- minus the logarithm of the constant in a beta density -/
noncomputable def betaPart (θ : ℝ × ℝ) : ℝ := gammaln θ.1 + gammaln θ.2 - gammaln (θ.1 + θ.2)

theorem Beta.pdf_exp {a b x : ℝ} (ha : 0 < a) (hb : 0 < b) (hx : x ∈ Ioo (0 : ℝ) 1) :
    (Beta.dist { alpha := a, beta := b }).pdf x =
      Real.exp ((a - 1) * Real.log x + (b - 1) * Real.log (1 - x) - betaPart (a, b)) := by
  rw [Beta.pdf_eq ⟨a, b⟩ hx]
  have e : (betaFn a b)⁻¹ = Real.exp (-betaPart (a, b)) := by
    rw [Real.exp_neg, betaFn, betaPart, Real.exp_sub, Real.exp_add]
    simp only [gammaln]
    rw [Real.exp_log (Real.Gamma_pos_of_pos ha), Real.exp_log (Real.Gamma_pos_of_pos hb),
      Real.exp_log (Real.Gamma_pos_of_pos (add_pos ha hb))]
  simp only
  rw [e, Real.rpow_def_of_pos hx.1, Real.rpow_def_of_pos (sub_pos.2 hx.2), ← Real.exp_add, ← Real.exp_add]
  congr 1
  ring

theorem betaPart_convex : ConvexOn ℝ (Ioi 0 ×ˢ Ioi 0) betaPart := by
  refine ⟨(convex_Ioi 0).prod (convex_Ioi 0), ?_⟩
  rintro ⟨a1, b1⟩ ⟨ha1, hb1⟩ ⟨a2, b2⟩ ⟨ha2, hb2⟩ s t hs ht hst
  simp only [mem_Ioi] at ha1 hb1 ha2 hb2
  have ha : 0 < s * a1 + t * a2 := by
    have := (convex_Ioi (0 : ℝ)) (x := a1) ha1 (y := a2) ha2 hs ht hst
    simpa using this
  have hb : 0 < s * b1 + t * b2 := by
    have := (convex_Ioi (0 : ℝ)) (x := b1) hb1 (y := b2) hb2 hs ht hst
    simpa using this
  have := partition_convex (c := s * betaPart (a1, b1) + t * betaPart (a2, b2) - betaPart (s * a1 + t * a2, s * b1 + t * b2))
    measurableSet_Ioo (Beta.isDensity ⟨a1, b1⟩ ha1 hb1) (Beta.isDensity ⟨a2, b2⟩ ha2 hb2)
    (Beta.isDensity ⟨s * a1 + t * a2, s * b1 + t * b2⟩ ha hb) hs ht hst fun x hx => by
      rw [Beta.pdf_exp ha hb hx, Beta.pdf_exp ha1 hb1 hx, Beta.pdf_exp ha2 hb2 hx, ← Real.exp_mul, ← Real.exp_mul,
        ← Real.exp_add, ← Real.exp_add]
      congr 1
      rw [show t = 1 - s by linarith]
      ring
  simp only [Prod.smul_mk, Prod.mk_add_mk, smul_eq_mul]
  linarith

theorem beta_log_integrable {a b : ℝ} (ha : 0 < a) (hb : 0 < b) :
    Integrable Real.log (contLaw (Beta.dist ⟨a, b⟩)) ∧
      Integrable (fun x => Real.log (1 - x)) (contLaw (Beta.dist ⟨a, b⟩)) := by
  rw [beta_lawOn ⟨a, b⟩]
  have ha2 : 0 < a / 2 := by positivity
  have hb2 : 0 < b / 2 := by positivity
  obtain ⟨h1, -⟩ := mean_of_tilt measurableSet_Ioo (Beta.isDensity ⟨a, b⟩ ha hb) (Beta.isDensity ⟨a / 2, b⟩ ha2 hb)
    (T := fun x => x ^ (-(a / 2))) (c1 := Real.exp (betaPart (a / 2, b) - betaPart (a, b))) fun x hx => by
      rw [Beta.pdf_exp ha hb hx, Beta.pdf_exp ha2 hb hx, Real.rpow_def_of_pos hx.1, ← Real.exp_add, ← Real.exp_add]
      congr 1
      ring
  obtain ⟨h2, -⟩ := mean_of_tilt measurableSet_Ioo (Beta.isDensity ⟨a, b⟩ ha hb) (Beta.isDensity ⟨a, b / 2⟩ ha hb2)
    (T := fun x => (1 - x) ^ (-(b / 2))) (c1 := Real.exp (betaPart (a, b / 2) - betaPart (a, b))) fun x hx => by
      rw [Beta.pdf_exp ha hb hx, Beta.pdf_exp ha hb2 hx, Real.rpow_def_of_pos (sub_pos.2 hx.2), ← Real.exp_add,
        ← Real.exp_add]
      congr 1
      ring
  constructor
  · refine (h1.div_const (a / 2)).mono' Real.measurable_log.aestronglyMeasurable ?_
    filter_upwards [ae_lawOn_mem measurableSet_Ioo _] with x hx
    rw [Real.norm_eq_abs, abs_of_neg (Real.log_neg hx.1 hx.2)]
    exact neg_log_le hx.1 ha2
  · refine (h2.div_const (b / 2)).mono' (Real.measurable_log.comp (by fun_prop)).aestronglyMeasurable ?_
    filter_upwards [ae_lawOn_mem measurableSet_Ioo _] with x hx
    rw [Real.norm_eq_abs, abs_of_neg (Real.log_neg (by linarith [hx.2]) (by linarith [hx.1]))]
    exact neg_log_le (by linarith [hx.2]) hb2

/-- the expected log density of beta data is largest at the true parameters -/
theorem beta_strict_max {a b a0 b0 : ℝ} (ha : 0 < a) (hb : 0 < b) (ha0 : 0 < a0) (hb0 : 0 < b0)
    (hne : (a, b) ≠ (a0, b0)) :
    (a - 1) * (∫ x, Real.log x ∂contLaw (Beta.dist ⟨a0, b0⟩))
        + (b - 1) * (∫ x, Real.log (1 - x) ∂contLaw (Beta.dist ⟨a0, b0⟩)) - betaPart (a, b) <
      (a0 - 1) * (∫ x, Real.log x ∂contLaw (Beta.dist ⟨a0, b0⟩))
        + (b0 - 1) * (∫ x, Real.log (1 - x) ∂contLaw (Beta.dist ⟨a0, b0⟩)) - betaPart (a0, b0) := by
  obtain ⟨i1, i2⟩ := beta_log_integrable ha0 hb0
  rw [beta_lawOn ⟨a0, b0⟩] at i1 i2 ⊢
  have hp := lawOn_prob measurableSet_Ioo (Beta.isDensity ⟨a0, b0⟩ ha0 hb0)
  have e : ∀ᵐ x ∂lawOn (Ioo 0 1) (Beta.dist ⟨a0, b0⟩).pdf,
      Real.log ((Beta.dist ⟨a, b⟩).pdf x / (Beta.dist ⟨a0, b0⟩).pdf x) =
        (a - a0) * Real.log x + (b - b0) * Real.log (1 - x) - (betaPart (a, b) - betaPart (a0, b0)) := by
    filter_upwards [ae_lawOn_mem measurableSet_Ioo _] with x hx
    rw [Beta.pdf_exp ha hb hx, Beta.pdf_exp ha0 hb0 hx, ← Real.exp_sub, Real.log_exp]
    ring
  have hi := ((i1.const_mul (a - a0)).add (i2.const_mul (b - b0))).sub
    (integrable_const (betaPart (a, b) - betaPart (a0, b0)))
  have hcont : ∀ {a b : ℝ}, 0 < a → 0 < b → ContinuousOn (Beta.dist { alpha := a, beta := b }).pdf (Ioo 0 1) := by
    intro a b ha hb
    refine ContinuousOn.congr
      (f := fun x => Real.exp ((a - 1) * Real.log x + (b - 1) * Real.log (1 - x) - betaPart (a, b))) ?_
      fun x hx => Beta.pdf_exp ha hb hx
    refine Real.continuous_exp.comp_continuousOn (((continuousOn_const.mul
      (Real.continuousOn_log.mono fun x hx => ne_of_gt hx.1)).add (continuousOn_const.mul
      (ContinuousOn.log (by fun_prop) fun x hx => (sub_pos.2 hx.2).ne'))).sub continuousOn_const)
  rcases gibbs isOpen_Ioo (Beta.isDensity ⟨a0, b0⟩ ha0 hb0) (Beta.isDensity ⟨a, b⟩ ha hb)
    (fun x hx => by rw [Beta.pdf_exp ha0 hb0 hx]; positivity) (fun x hx => by rw [Beta.pdf_exp ha hb hx]; positivity)
    (hcont ha0 hb0) (hcont ha hb) (hi.congr (e.mono fun x hx => hx.symm)) with hlt | heq
  · have i3 : Integrable (fun x => (a - a0) * Real.log x + (b - b0) * Real.log (1 - x))
      (lawOn (Ioo 0 1) (Beta.dist ⟨a0, b0⟩).pdf) := (i1.const_mul _).add (i2.const_mul _)
    rw [integral_congr_ae e, integral_sub i3 (integrable_const _),
      integral_add (i1.const_mul _) (i2.const_mul _), integral_const_mul, integral_const_mul] at hlt
    simp only [integral_const, probReal_univ, smul_eq_mul, one_mul] at hlt
    linarith
  · exfalso
    have hx : ∀ x : ℝ, x ∈ Ioo (0 : ℝ) 1 → (a - 1) * Real.log x + (b - 1) * Real.log (1 - x) - betaPart (a, b) =
        (a0 - 1) * Real.log x + (b0 - 1) * Real.log (1 - x) - betaPart (a0, b0) := fun x hx => by
      have := heq hx
      rw [Beta.pdf_exp ha hb hx, Beta.pdf_exp ha0 hb0 hx] at this
      exact Real.exp_injective this
    have h1 := hx (1 / 4) ⟨by norm_num, by norm_num⟩
    have h3 := hx (3 / 4) ⟨by norm_num, by norm_num⟩
    have h2 := hx (1 / 2) ⟨by norm_num, by norm_num⟩
    rw [show (1 : ℝ) - 1 / 4 = 3 / 4 by norm_num] at h1
    rw [show (1 : ℝ) - 3 / 4 = 1 / 4 by norm_num] at h3
    rw [show (1 : ℝ) - 1 / 2 = 1 / 2 by norm_num] at h2
    have hlt : Real.log (1 / 4) < Real.log (3 / 4) := Real.log_lt_log (by norm_num) (by norm_num)
    have hsum : Real.log (1 / 4) + Real.log (3 / 4) < 2 * Real.log (1 / 2) := by
      rw [← Real.log_mul (by norm_num) (by norm_num), ← Real.log_rpow (by norm_num)]
      exact Real.log_lt_log (by norm_num) (by norm_num)
    have hd : (a - a0 - (b - b0)) * (Real.log (3 / 4) - Real.log (1 / 4)) = 0 := by linarith
    have hd' : a - a0 = b - b0 := by
      rcases mul_eq_zero.1 hd with h | h
      · linarith
      · linarith
    have hs : (a - a0) * (2 * Real.log (1 / 2) - (Real.log (1 / 4) + Real.log (3 / 4))) = 0 := by
      have e1 : b = a - a0 + b0 := by linarith
      rw [e1] at h1 h2
      linarith
    have haa : a = a0 := by
      rcases mul_eq_zero.1 hs with h | h
      · linarith
      · linarith
    exact hne (by rw [haa, show b = b0 by linarith])

end Conj
