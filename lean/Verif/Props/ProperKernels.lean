import Verif.Lemmas.ProperKernels
import Verif.Props.ConsistencyKernels
import Mathlib.Analysis.SpecialFunctions.ImproperIntegrals

/-!
# A prior known up to a constant that can be normalised gives a posterior that can be normalised (C95)
-/

open MeasureTheory Set Filter Topology

namespace Conj

open Scipy Spec

/-! ## Bounds on the likelihood of one observation -/

theorem density_le {S : Set ℝ} {f : ℝ → ℝ} (hS : MeasurableSet S) (hf : IsDensity volume S f) {x w K : ℝ} (hw : 0 ≤ w)
    (hsub : Ioc (x - w) x ⊆ S) (h : ∀ t ∈ Ioc (x - w) x, f x ≤ K * f t) : f x * w ≤ K ∨ K < 0 := by
  rcases lt_or_ge K 0 with hK | hK
  · exact Or.inr hK
  left
  have h1 : ∫ t in Ioc (x - w) x, f x ≤ ∫ t in Ioc (x - w) x, K * f t :=
    setIntegral_mono_on (integrableOn_const (by simp)) ((IntegrableOn.mono_set hf.2.1 hsub).const_mul K)
      measurableSet_Ioc h
  rw [setIntegral_const, smul_eq_mul, Real.volume_real_Ioc_of_le (by linarith), integral_const_mul] at h1
  have h2 : ∫ t in Ioc (x - w) x, f t ≤ ∫ t in S, f t :=
    setIntegral_mono_set hf.2.1 ((ae_restrict_iff' hS).2 (Eventually.of_forall hf.1)) (LE.le.eventuallyLE hsub)
  rw [hf.2.2] at h2
  have h3 := mul_le_mul_of_nonneg_left h2 hK
  calc f x * w = (x - (x - w)) * f x := by ring
    _ ≤ _ := h1
    _ ≤ K := by linarith

theorem log_sub_le {t x : ℝ} (ht : 0 < t) (hx : 0 < x) : Real.log x - Real.log t ≤ x / t - 1 := by
  rw [← Real.log_div hx.ne' ht.ne']
  exact Real.log_le_sub_one_of_pos (div_pos hx ht)

/-- near `x` on the left the power `t ^ a` is at least `x ^ a / e` -/
theorem log_window {a x t : ℝ} (ha : 0 < a) (hx : 0 < x) (ht : t ∈ Ioc (x - x / (1 + a)) x) :
    0 < t ∧ (a - 1) * (Real.log x - Real.log t) ≤ 1 := by
  have h1 : x - x / (1 + a) = x * a / (1 + a) := by field_simp; ring
  have ht' := ht.1
  rw [h1] at ht'
  have ht0 : 0 < t := lt_trans (by positivity) ht'
  refine ⟨ht0, ?_⟩
  have h2 : x / t - 1 ≤ 1 / a := by
    rw [div_lt_iff₀ (by positivity)] at ht'
    rw [div_sub_one ht0.ne', div_le_div_iff₀ ht0 ha]
    linarith
  have h3 : 0 ≤ Real.log x - Real.log t := sub_nonneg.2 (Real.log_le_log ht0 ht.2)
  calc (a - 1) * (Real.log x - Real.log t) ≤ a * (Real.log x - Real.log t) := by nlinarith
    _ ≤ a * (1 / a) := mul_le_mul_of_nonneg_left ((log_sub_le ht0 hx).trans h2) ha.le
    _ = 1 := by field_simp

theorem gamma_pdf_le {a b x : ℝ} (ha : 0 < a) (hb : 0 < b) (hx : 0 < x) :
    (Gamma.dist ⟨a, b⟩).pdf x ≤ Real.exp 1 / x * (1 + a) := by
  have h := density_le measurableSet_Ioi (Gamma.isDensity ⟨a, b⟩ ha hb) (x := x) (w := x / (1 + a)) (K := Real.exp 1)
    (by positivity) (fun t ht => (log_window ha hx ht).1) fun t ht => by
      obtain ⟨ht0, hl⟩ := log_window ha hx ht
      rw [Gamma.pdf_exp ha hb hx, Gamma.pdf_exp ha hb ht0, ← Real.exp_add]
      refine Real.exp_le_exp.2 ?_
      have := mul_le_mul_of_nonneg_left ht.2 hb.le
      linarith
  rcases h with h | h
  · rw [← mul_div_assoc, div_le_iff₀ (by positivity)] at h
    rw [div_mul_eq_mul_div, le_div_iff₀ hx]
    linarith
  · exact absurd h (not_lt.2 (Real.exp_pos 1).le)

theorem beta_pdf_le {a b x : ℝ} (ha : 0 < a) (hb : 0 < b) (hx : x ∈ Ioo (0 : ℝ) 1) :
    (Beta.dist ⟨a, b⟩).pdf x ≤ Real.exp 1 / ((1 - x) * x) * (1 + a) := by
  have hx1 : 0 < 1 - x := sub_pos.2 hx.2
  have hx0 := hx.1
  have h := density_le measurableSet_Ioo (Beta.isDensity ⟨a, b⟩ ha hb) (x := x) (w := x / (1 + a))
    (K := Real.exp 1 / (1 - x)) (by positivity)
    (fun t ht => ⟨(log_window ha hx0 ht).1, lt_of_le_of_lt ht.2 hx.2⟩) fun t ht => by
      obtain ⟨ht0, hl⟩ := log_window ha hx0 ht
      have ht1 : t < 1 := lt_of_le_of_lt ht.2 hx.2
      rw [Beta.pdf_exp ha hb hx, Beta.pdf_exp ha hb ⟨ht0, ht1⟩, div_eq_mul_inv,
        show (1 - x)⁻¹ = Real.exp (-Real.log (1 - x)) by rw [Real.exp_neg, Real.exp_log hx1], ← Real.exp_add,
        ← Real.exp_add]
      refine Real.exp_le_exp.2 ?_
      have h1 : Real.log (1 - x) ≤ Real.log (1 - t) := Real.log_le_log hx1 (by linarith [ht.2])
      have h2 : Real.log (1 - t) ≤ 0 := Real.log_nonpos (by linarith) (by linarith)
      have h3 := mul_le_mul_of_nonneg_left h1 hb.le
      nlinarith
  rcases h with h | h
  · rw [← mul_div_assoc, div_le_div_iff₀ (by positivity) hx1] at h
    rw [div_mul_eq_mul_div, le_div_iff₀ (by positivity)]
    linarith
  · exact absurd h (not_lt.2 (by positivity))

theorem i0_ge {k : ℝ} (hk : 0 < k) : Real.exp (k - 1) / (Real.pi * (1 + k)) ≤ i0 k := by
  have hpi := Real.pi_gt_three
  have hw : 1 / (1 + k) ≤ 1 := by
    rw [div_le_one (by positivity)]
    linarith
  have hw0 : 0 < 1 / (1 + k) := by positivity
  have hc : Continuous fun t : ℝ => Real.exp (k * Real.cos t) := by fun_prop
  have h1 : ∫ t in (0 : ℝ)..(1 / (1 + k)), Real.exp (k - 1) ≤ ∫ t in (0 : ℝ)..(1 / (1 + k)), Real.exp (k * Real.cos t) := by
    refine intervalIntegral.integral_mono_on hw0.le (by simp) (hc.intervalIntegrable _ _) fun t ht => ?_
    refine Real.exp_le_exp.2 ?_
    have h2 := Real.one_sub_sq_div_two_le_cos (x := t)
    have h3 : t * t ≤ t := by nlinarith [ht.1, ht.2]
    have h4 : k * t ≤ 1 := by
      have := mul_le_mul_of_nonneg_left ht.2 hk.le
      refine this.trans ?_
      rw [mul_one_div, div_le_one (by positivity)]
      linarith
    nlinarith [ht.1]
  have h2 : ∫ t in (0 : ℝ)..(1 / (1 + k)), Real.exp (k * Real.cos t) ≤ ∫ t in (0 : ℝ)..Real.pi, Real.exp (k * Real.cos t) :=
    intervalIntegral.integral_mono_interval le_rfl hw0.le (by linarith)
      (Eventually.of_forall fun _ => (Real.exp_pos _).le) (hc.intervalIntegrable _ _)
  rw [intervalIntegral.integral_const, smul_eq_mul, sub_zero] at h1
  rw [i0]
  calc Real.exp (k - 1) / (Real.pi * (1 + k)) = 1 / Real.pi * (1 / (1 + k) * Real.exp (k - 1)) := by
        field_simp
    _ ≤ _ := mul_le_mul_of_nonneg_left (h1.trans h2) (by positivity)

theorem vonMises_pdf_le {k : ℝ} (hk : 0 < k) (mu x : ℝ) :
    (VonMises.dist ⟨mu, k⟩).pdf x ≤ Real.exp 1 / 2 * (1 + k) := by
  have h0 := i0_pos k
  have hpi := Real.pi_pos
  rw [VonMises.pdf_eq, div_le_iff₀ (by positivity)]
  have h1 := i0_ge hk
  rw [div_le_iff₀ (by positivity)] at h1
  have h2 : Real.exp (k * Real.cos (x - mu)) ≤ Real.exp k :=
    Real.exp_le_exp.2 (by nlinarith [Real.cos_le_one (x - mu)])
  calc Real.exp (k * Real.cos (x - mu)) ≤ Real.exp 1 * Real.exp (k - 1) := by
        rw [← Real.exp_add]; simpa using h2
    _ ≤ Real.exp 1 * (i0 k * (Real.pi * (1 + k))) := mul_le_mul_of_nonneg_left h1 (Real.exp_pos _).le
    _ = _ := by ring

/-! ## From one observation to all of them -/

theorem likelihood_le {E X : Type} [NormedAddCommGroup E] {U : Set E} {f : E → X → ℝ} {xs : List X} (c : X → ℝ)
    (h0 : ∀ θ ∈ U, ∀ x ∈ xs, 0 ≤ f θ x) (hf : ∀ θ ∈ U, ∀ x ∈ xs, f θ x ≤ c x * (1 + ‖θ‖)) {θ : E} (hθ : θ ∈ U) :
    |likelihood f xs θ| ≤ (xs.map c).prod * (1 + ‖θ‖) ^ xs.length := by
  have : 0 ≤ likelihood f xs θ ∧ likelihood f xs θ ≤ (xs.map c).prod * (1 + ‖θ‖) ^ xs.length := by
    induction xs with
    | nil => simp [likelihood]
    | cons x l ih =>
      obtain ⟨i1, i2⟩ := ih (fun θ hθ y hy => h0 θ hθ y (by simp [hy])) fun θ hθ y hy => hf θ hθ y (by simp [hy])
      have h1 := h0 θ hθ x (by simp)
      have h2 := hf θ hθ x (by simp)
      simp only [likelihood, List.map_cons, List.prod_cons, List.length_cons] at i1 i2 ⊢
      refine ⟨mul_nonneg h1 i1, ?_⟩
      calc _ ≤ (c x * (1 + ‖θ‖)) * ((l.map c).prod * (1 + ‖θ‖) ^ l.length) :=
            mul_le_mul h2 i2 i1 (h1.trans h2)
        _ = _ := by ring
  rw [abs_of_nonneg this.1]
  exact this.2

/-- updating an integrable log-concave kernel with a likelihood of polynomial growth keeps it integrable -/
theorem proper_update {E X : Type} [NormedAddCommGroup E] [NormedSpace ℝ E] [FiniteDimensional ℝ E] [MeasureSpace E]
    [BorelSpace E] [(volume : Measure E).IsAddHaarMeasure] {U : Set E} (hU : IsOpen U) {H H' : E → ℝ}
    (hc : ConcaveOn ℝ U H) (hH : ContinuousOn H U) (hH' : ContinuousOn H' U) {x₀ : E} (hx0 : x₀ ∈ U) {f : E → X → ℝ}
    {xs : List X} (hk : IsPosteriorKernel U (fun θ => Real.exp (H θ)) (likelihood f xs) fun θ => Real.exp (H' θ))
    (c : X → ℝ) (h0 : ∀ θ ∈ U, ∀ x ∈ xs, 0 ≤ f θ x) (hf : ∀ θ ∈ U, ∀ x ∈ xs, f θ x ≤ c x * (1 + ‖θ‖))
    (hint : IntegrableOn (fun θ => Real.exp (H θ)) U) : IntegrableOn (fun θ => Real.exp (H' θ)) U := by
  obtain ⟨k, hk0, hk⟩ := hk
  have hL : ContinuousOn (likelihood f xs) U := by
    refine ContinuousOn.congr (f := fun θ => k * (Real.exp (H' θ) / Real.exp (H θ))) ?_ fun θ hθ => ?_
    · exact continuousOn_const.mul ((Real.continuous_exp.comp_continuousOn hH').div
        (Real.continuous_exp.comp_continuousOn hH) fun θ _ => (Real.exp_pos _).ne')
    · have := hk θ hθ
      beta_reduce at this ⊢
      rw [← mul_div_assoc, ← this, mul_div_cancel_left₀ _ (Real.exp_pos _).ne']
  have := concave_poly hU hc hH hx0 hint hL fun θ hθ => likelihood_le c h0 hf hθ
  refine (this.const_mul k⁻¹).congr ?_
  filter_upwards [ae_restrict_mem hU.measurableSet] with θ hθ
  rw [hk θ hθ, inv_mul_cancel_left₀ hk0.ne']

/-! ## Priors that can never be normalised -/

theorem gammaln_le {a : ℝ} (ha : 1 ≤ a) : gammaln a ≤ a * Real.log a := by
  obtain ⟨n, hn⟩ := exists_nat_ge a
  induction n generalizing a with
  | zero => simp at hn; linarith
  | succ n ih =>
    rcases le_or_gt a 2 with h | h
    · have h1 := gammaln_convex.2 (mem_Ioi.2 (one_pos : (0 : ℝ) < 1)) (mem_Ioi.2 (two_pos : (0 : ℝ) < 2))
        (show 0 ≤ 2 - a by linarith) (show 0 ≤ a - 1 by linarith) (by ring)
      simp only [smul_eq_mul, gammaln, Real.Gamma_one, Real.Gamma_two, Real.log_one, mul_zero, add_zero] at h1
      rw [show (2 - a) * 1 + (a - 1) * 2 = a by ring] at h1
      exact h1.trans (mul_nonneg (by linarith) (Real.log_nonneg ha))
    · have h1 := ih (a := a - 1) (by linarith) (by push_cast at hn; linarith)
      have h2 : gammaln a = Real.log (a - 1) + gammaln (a - 1) := by
        rw [gammaln, gammaln, ← Real.log_mul (by linarith) (Real.Gamma_pos_of_pos (by linarith)).ne',
          ← Real.Gamma_add_one (by linarith), sub_add_cancel]
      have h3 : Real.log (a - 1) ≤ Real.log a := Real.log_le_log (by linarith) (by linarith)
      calc gammaln a ≤ Real.log (a - 1) + (a - 1) * Real.log (a - 1) := by rw [h2]; linarith
        _ = a * Real.log (a - 1) := by ring
        _ ≤ a * Real.log a := mul_le_mul_of_nonneg_left h3 (by linarith)

theorem le_gammaln {a : ℝ} (ha : 1 ≤ a) : a * Real.log a - 3 * a ≤ gammaln a := by
  have ha0 : 0 < a := by linarith
  have h := gamma_pdf_le (a := a) (b := a) (x := 1) ha0 ha0 one_pos
  rw [Gamma.pdf_exp ha0 ha0 one_pos] at h
  have h1 : Real.exp 1 / 1 * (1 + a) ≤ Real.exp (1 + a) := by
    rw [div_one, Real.exp_add]
    exact mul_le_mul_of_nonneg_left (by linarith [Real.add_one_le_exp a]) (Real.exp_pos _).le
  have h2 := Real.exp_le_exp.1 (h.trans h1)
  simp only [Real.log_one, gammaPart] at h2
  linarith

/-- whatever the sign of `r` -/
theorem neg_mul_gammaln_ge (r : ℝ) {a : ℝ} (ha : 1 ≤ a) :
    -(r * (a * Real.log a)) - 3 * |r| * a ≤ -(r * gammaln a) := by
  rcases le_or_gt 0 r with h | h
  · have := mul_le_mul_of_nonneg_left (gammaln_le ha) h
    have h2 : 0 ≤ 3 * |r| * a := by positivity
    linarith
  · have := mul_le_mul_of_nonpos_left (le_gammaln ha) h.le
    rw [abs_of_neg h]
    linarith

/-- a function that is at least one on a set of infinite volume is not integrable -/
theorem not_integrable_of_one_le {E : Type} [MeasureSpace E] {S A : Set E} {f : E → ℝ} (hS : A ⊆ S)
    (hm : MeasurableSet A) (hA : volume A = ⊤) (h : ∀ x ∈ A, 1 ≤ f x) : ¬IntegrableOn f S := by
  intro hi
  have h1 : IntegrableOn (fun _ : E => (1 : ℝ)) A := by
    refine (hi.mono_set hS).mono' aestronglyMeasurable_const ?_
    filter_upwards [ae_restrict_mem hm] with x hx
    rw [norm_one]
    exact h x hx
  rw [integrableOn_const_iff] at h1
  rcases h1 with h1 | h1
  · norm_num at h1
  · rw [hA] at h1
    exact lt_irrefl _ h1

/-- the boundary of C95: a prior with `s > r` cannot be normalised, and as both grow by `n` neither can any of its
posteriors -/
theorem C95_gamma_never_normalisable (d : GammaProportional ℝ) (h : d.r < d.s) :
    ¬IntegrableOn (fun θ : ℝ × ℝ => Real.exp (d.approx_log_likelihood θ.1 θ.2 Real.log gammaln)) (Ioi 0 ×ˢ Ioi 0) := by
  set lp := Real.log d.p with hlp
  set K := |lp| + 2 * |d.q| + 3 * |d.r| + |d.s| * Real.log 2 with hK
  set M := max 1 (Real.exp (K / (d.s - d.r))) with hM
  have hM1 : 1 ≤ M := le_max_left _ _
  have hsr : 0 < d.s - d.r := sub_pos.2 h
  have hone : ∀ θ ∈ {θ : ℝ × ℝ | M ≤ θ.1 ∧ θ.1 ≤ θ.2 ∧ θ.2 ≤ 2 * θ.1},
      1 ≤ Real.exp (d.approx_log_likelihood θ.1 θ.2 Real.log gammaln) := by
    rintro ⟨a, b⟩ ⟨h1, h2, h3⟩
    simp only at h1 h2 h3 ⊢
    have ha : 1 ≤ a := hM1.trans h1
    have ha0 : 0 < a := by linarith
    refine Real.one_le_exp ?_
    simp only [GammaProportional.approx_log_likelihood, lit_real, Rat.cast_one, ← hlp]
    have g1 : -(|lp| * a) ≤ (a - 1) * lp := by
      have := abs_le.1 (le_refl |lp|)
      nlinarith [abs_nonneg lp]
    have g2 : -(2 * |d.q| * a) ≤ -(d.q * b) := by
      have h5 : d.q * b ≤ |d.q| * b := mul_le_mul_of_nonneg_right (le_abs_self _) (by linarith)
      have h6 := mul_le_mul_of_nonneg_left h3 (abs_nonneg d.q)
      linarith
    have g3 := neg_mul_gammaln_ge d.r ha
    have g4 : d.s * a * Real.log a - |d.s| * Real.log 2 * a ≤ d.s * a * Real.log b := by
      have hl1 : Real.log a ≤ Real.log b := Real.log_le_log ha0 h2
      have hl2 : Real.log b ≤ Real.log 2 + Real.log a := by
        rw [← Real.log_mul two_ne_zero ha0.ne']
        exact Real.log_le_log (by linarith) h3
      have hl3 := Real.log_pos one_lt_two
      rcases le_or_gt 0 d.s with hs | hs
      · have h7 := mul_le_mul_of_nonneg_left hl1 (mul_nonneg hs ha0.le)
        have h8 : 0 ≤ |d.s| * Real.log 2 * a := by positivity
        linarith
      · have h7 := mul_le_mul_of_nonpos_left hl2 (mul_nonpos_of_nonpos_of_nonneg hs.le ha0.le)
        rw [abs_of_neg hs]
        linarith
    have g5 : K ≤ (d.s - d.r) * Real.log a := by
      have h9 : K / (d.s - d.r) ≤ Real.log a := by
        rw [Real.le_log_iff_exp_le ha0]
        exact (le_max_right _ _).trans h1
      rw [div_le_iff₀ hsr] at h9
      linarith
    have g6 := mul_le_mul_of_nonneg_right g5 ha0.le
    rw [hK] at g6
    linarith
  refine not_integrable_of_one_le (A := {θ : ℝ × ℝ | M ≤ θ.1 ∧ θ.1 ≤ θ.2 ∧ θ.2 ≤ 2 * θ.1}) ?_ ?_ ?_ hone
  · rintro ⟨a, b⟩ ⟨h1, h2, h3⟩
    simp only at h1 h2
    exact ⟨show 0 < a by linarith, show 0 < b by linarith⟩
  · exact (measurableSet_le measurable_const measurable_fst).inter ((measurableSet_le measurable_fst measurable_snd).inter
      (measurableSet_le measurable_snd (measurable_fst.const_mul 2)))
  · refine convex_volume_top (x₀ := ((4 * M, 6 * M) : ℝ × ℝ)) (d := M / 2) ?_ (by linarith) ?_ ?_
    · rintro ⟨a1, b1⟩ ⟨u1, u2, u3⟩ ⟨a2, b2⟩ ⟨v1, v2, v3⟩ s t hs ht hst
      simp only at u1 u2 u3 v1 v2 v3
      simp only [Prod.smul_mk, Prod.mk_add_mk, smul_eq_mul, mem_ofPred_eq]
      refine ⟨?_, ?_, ?_⟩
      · have := add_le_add (mul_le_mul_of_nonneg_left u1 hs) (mul_le_mul_of_nonneg_left v1 ht)
        rw [← add_mul, hst, one_mul] at this
        exact this
      · exact add_le_add (mul_le_mul_of_nonneg_left u2 hs) (mul_le_mul_of_nonneg_left v2 ht)
      · have := add_le_add (mul_le_mul_of_nonneg_left u3 hs) (mul_le_mul_of_nonneg_left v3 ht)
        linarith
    · rintro ⟨a, b⟩ hab
      rw [Metric.mem_ball, Prod.dist_eq, max_lt_iff, Real.dist_eq, Real.dist_eq, abs_lt, abs_lt] at hab
      simp only at hab
      obtain ⟨⟨u1, u2⟩, u3, u4⟩ := hab
      refine ⟨?_, ?_, ?_⟩ <;> simp only <;> linarith
    · intro R
      refine ⟨(4 * M + |R|, 4 * M + |R|), ⟨?_, ?_, ?_⟩, ?_⟩
      · simp only; linarith [abs_nonneg R]
      · simp only; exact le_rfl
      · simp only; linarith [abs_nonneg R]
      · rw [Prod.norm_def]
        simp only [Prod.fst_sub, add_sub_cancel_left]
        refine le_max_of_le_left ?_
        rw [Real.norm_eq_abs, abs_abs]
        exact le_abs_self R

theorem gamma_negative_s (d : GammaProportional ℝ) (h : d.s < 0) :
    ¬IntegrableOn (fun θ : ℝ × ℝ => Real.exp (d.approx_log_likelihood θ.1 θ.2 Real.log gammaln)) (Ioi 0 ×ˢ Ioi 0) := by
  intro hi
  rw [IntegrableOn, Measure.volume_eq_prod, ← Measure.prod_restrict] at hi
  have hae := hi.prod_right_ae
  -- for large shapes the integral over the rate diverges at zero
  have hbad : ∀ a : ℝ, -1 / d.s ≤ a → 0 < a →
      ¬Integrable (fun b => Real.exp (d.approx_log_likelihood a b Real.log gammaln)) (volume.restrict (Ioi 0)) := by
    intro a ha ha0 hint
    have hsa : d.s * a ≤ -1 := by
      have := mul_le_mul_of_nonpos_left ha h.le
      rwa [mul_div_cancel₀ _ h.ne] at this
    have h1 : IntegrableOn (fun b : ℝ => b ^ (d.s * a)) (Ioo 0 1) := by
      have h2 : IntegrableOn (fun b => Real.exp (|d.q|) / Real.exp ((a - 1) * Real.log d.p - d.r * gammaln a) *
          Real.exp (d.approx_log_likelihood a b Real.log gammaln)) (Ioo 0 1) :=
        (IntegrableOn.mono_set (t := Ioi 0) hint fun x hx => hx.1).const_mul _
      refine h2.mono' ((continuousOn_id.rpow_const fun x hx => Or.inl (ne_of_gt hx.1)).aestronglyMeasurable
        measurableSet_Ioo) ?_
      filter_upwards [ae_restrict_mem measurableSet_Ioo] with b hb
      rw [Real.norm_eq_abs, abs_of_pos (Real.rpow_pos_of_pos hb.1 _), Real.rpow_def_of_pos hb.1, ← Real.exp_sub,
        ← Real.exp_add]
      refine Real.exp_le_exp.2 ?_
      simp only [GammaProportional.approx_log_likelihood, lit_real, Rat.cast_one]
      have h3 : d.q * b ≤ |d.q| := by
        calc d.q * b ≤ |d.q| * b := mul_le_mul_of_nonneg_right (le_abs_self _) hb.1.le
          _ ≤ |d.q| := mul_le_of_le_one_right (abs_nonneg _) hb.2.le
      linarith
    rw [intervalIntegral.integrableOn_Ioo_rpow_iff one_pos] at h1
    linarith
  have hge : ∀ᵐ a : ℝ ∂volume.restrict (Ioi 0), a < -1 / d.s := by
    filter_upwards [hae, ae_restrict_mem measurableSet_Ioi] with a ha ha0
    by_contra hcon
    exact hbad a (not_lt.1 hcon) ha0 ha
  rw [ae_iff] at hge
  have hneg : 0 < -1 / d.s := div_pos_of_neg_of_neg (by norm_num) h
  have : (⊤ : ENNReal) ≤ 0 := by
    rw [← hge]
    calc (⊤ : ENNReal) = volume (Ici (-1 / d.s)) := Real.volume_Ici.symm
      _ = volume.restrict (Ioi 0) (Ici (-1 / d.s)) := by
          rw [Measure.restrict_apply measurableSet_Ici, inter_eq_self_of_subset_left]
          exact fun x hx => lt_of_lt_of_le hneg hx
      _ ≤ _ := measure_mono fun x hx => not_lt.2 hx
  simp at this

theorem gamma_kernel_continuous (d : GammaProportional ℝ) :
    ContinuousOn (fun θ : ℝ × ℝ => d.approx_log_likelihood θ.1 θ.2 Real.log gammaln) (Ioi 0 ×ˢ Ioi 0) := by
  simp only [GammaProportional.approx_log_likelihood, lit_real, Rat.cast_one]
  have h1 : ContinuousOn (fun θ : ℝ × ℝ => gammaln θ.1) (Ioi 0 ×ˢ Ioi 0) :=
    gammaln_continuousOn.comp continuous_fst.continuousOn fun θ hθ => hθ.1
  have h2 : ContinuousOn (fun θ : ℝ × ℝ => Real.log θ.2) (Ioi 0 ×ˢ Ioi 0) :=
    continuous_snd.continuousOn.log fun θ hθ => ne_of_gt hθ.2
  exact (((Continuous.continuousOn (by fun_prop)).sub (Continuous.continuousOn (by fun_prop))).sub
    (continuousOn_const.mul h1)).add ((Continuous.continuousOn (by fun_prop)).mul h2)

/-! ## C95 -/

/-- C95. If the prior can be normalised, so can the posterior, for every data set. -/
theorem C95_gamma (prior : GammaProportional ℝ) (hp : 0 < prior.p) (xs : List ℝ) (hx : ∀ x ∈ xs, 0 < x)
    (h : IntegrableOn (fun θ : ℝ × ℝ => Real.exp (prior.approx_log_likelihood θ.1 θ.2 Real.log gammaln)) (Ioi 0 ×ˢ Ioi 0)) :
    IntegrableOn (fun θ : ℝ × ℝ => Real.exp ((gamma xs.sum xs.prod (xs.length : ℝ) prior).approx_log_likelihood
      θ.1 θ.2 Real.log gammaln)) (Ioi 0 ×ˢ Ioi 0) := by
  have hsr : prior.s ≤ prior.r := not_lt.1 fun hlt => C95_gamma_never_normalisable prior hlt h
  have hs : 0 ≤ prior.s := not_lt.1 fun hlt => gamma_negative_s prior hlt h
  have hU : IsOpen (Ioi (0 : ℝ) ×ˢ Ioi (0 : ℝ)) := isOpen_Ioi.prod isOpen_Ioi
  have hone : ((1, 1) : ℝ × ℝ) ∈ Ioi (0 : ℝ) ×ˢ Ioi (0 : ℝ) := ⟨mem_Ioi.2 one_pos, mem_Ioi.2 one_pos⟩
  have hk := C18_gamma_posterior prior hp xs hx
  refine proper_update hU (H := fun θ => prior.approx_log_likelihood θ.1 θ.2 Real.log gammaln)
    ?_ (gamma_kernel_continuous prior) (gamma_kernel_continuous _) hone hk (fun x => Real.exp 1 / x) (fun θ hθ x hxm => ?_) (fun θ hθ x hxm => ?_) h
  · refine (gamma_kernel_concave (lp := Real.log prior.p) (q := prior.q) hs hsr).congr fun θ _ => ?_
    simp only [GammaProportional.approx_log_likelihood, lit_real, Rat.cast_one]
  · exact (Gamma.isDensity ⟨θ.1, θ.2⟩ hθ.1 hθ.2).1 x (hx x hxm)
  · refine (gamma_pdf_le hθ.1 hθ.2 (hx x hxm)).trans ?_
    have h0 := hx x hxm
    have : θ.1 ≤ ‖θ‖ := (le_abs_self θ.1).trans (norm_fst_le θ)
    gcongr

/-- C95 -/
theorem C95_gamma_known_rate (prior : GammaKnownRateProportional ℝ) (hp : 0 < prior.a) (b : ℝ) (hb : 0 < b)
    (xs : List ℝ) (hx : ∀ x ∈ xs, 0 < x)
    (h : IntegrableOn (fun alpha : ℝ => Real.exp (prior.approx_log_likelihood alpha b Real.log gammaln)) (Ioi 0)) :
    IntegrableOn (fun alpha : ℝ => Real.exp ((gamma_known_rate xs.prod (xs.length : ℝ) b prior).approx_log_likelihood
      alpha b Real.log gammaln)) (Ioi 0) := by
  have hb0 : 0 ≤ prior.b := by
    by_contra hcon
    have hneg : 0 < -prior.b := neg_pos.2 (not_le.1 hcon)
    set K := |Real.log prior.a| + |prior.c * Real.log b| + 3 * |prior.b| with hK
    set M := max 1 (Real.exp (K / -prior.b)) with hM
    refine not_integrable_of_one_le (A := Ici M) ?_ measurableSet_Ici Real.volume_Ici ?_ h
    · exact fun x hx => mem_Ioi.2 (lt_of_lt_of_le one_pos ((le_max_left _ _).trans (mem_Ici.1 hx)))
    · intro a haM
      have ha : 1 ≤ a := (le_max_left _ _).trans haM
      have ha0 : 0 < a := by linarith
      refine Real.one_le_exp ?_
      simp only [GammaKnownRateProportional.approx_log_likelihood, lit_real, Rat.cast_one]
      have g1 : -(|Real.log prior.a| * a) ≤ (a - 1) * Real.log prior.a := by
        have := abs_le.1 (le_refl |Real.log prior.a|)
        nlinarith [abs_nonneg (Real.log prior.a)]
      have g2 : -(|prior.c * Real.log b| * a) ≤ a * prior.c * Real.log b := by
        have := mul_le_mul_of_nonneg_right (neg_abs_le (prior.c * Real.log b)) ha0.le
        linarith
      have g3 := neg_mul_gammaln_ge prior.b ha
      have g5 : K ≤ -prior.b * Real.log a := by
        have h9 : K / -prior.b ≤ Real.log a := by
          rw [Real.le_log_iff_exp_le ha0]
          exact (le_max_right _ _).trans haM
        rw [div_le_iff₀ hneg] at h9
        linarith
      have g6 := mul_le_mul_of_nonneg_right g5 ha0.le
      rw [hK] at g6
      linarith
  have hcont : ∀ d : GammaKnownRateProportional ℝ,
      ContinuousOn (fun alpha : ℝ => d.approx_log_likelihood alpha b Real.log gammaln) (Ioi 0) := by
    intro d
    simp only [GammaKnownRateProportional.approx_log_likelihood, lit_real, Rat.cast_one]
    exact (Continuous.continuousOn (by fun_prop)).sub (continuousOn_const.mul gammaln_continuousOn)
  refine proper_update isOpen_Ioi (H := fun alpha => prior.approx_log_likelihood alpha b Real.log gammaln)
    ?_ (hcont prior) (hcont _) (x₀ := 1) (mem_Ioi.2 one_pos)
    (C18_gamma_known_rate_posterior prior hp b hb xs hx) (fun x => Real.exp 1 / x) (fun θ hθ x hxm => ?_)
    (fun θ hθ x hxm => ?_) h
  · have h1 : ConcaveOn ℝ (Ioi 0) fun α : ℝ => (α - 1) * Real.log prior.a + α * prior.c * Real.log b := by
      refine ⟨convex_Ioi 0, fun x _ y _ s t _ _ hst => le_of_eq ?_⟩
      simp only [smul_eq_mul]
      rw [show t = 1 - s by linarith]
      ring
    have h2 : ConcaveOn ℝ (Ioi 0) fun α : ℝ => prior.b * -gammaln α := gammaln_convex.neg.smul hb0
    refine (h1.add h2).congr fun α _ => ?_
    simp only [GammaKnownRateProportional.approx_log_likelihood, lit_real, Rat.cast_one, Pi.add_apply]
    ring
  · exact (Gamma.isDensity ⟨θ, b⟩ hθ hb).1 x (hx x hxm)
  · refine (gamma_pdf_le hθ hb (hx x hxm)).trans ?_
    have h0 := hx x hxm
    have : θ ≤ ‖θ‖ := le_abs_self θ
    gcongr

/-- C95. `k` is the number of observations the prior is worth. -/
theorem C95_beta (prior : BetaProportional ℝ) (hp : 0 < prior.p) (hq : 0 < prior.q) (hk : 0 ≤ prior.k)
    (xs : List ℝ) (hx : ∀ x ∈ xs, 0 < x ∧ x < 1)
    (h : IntegrableOn (fun θ : ℝ × ℝ => Real.exp (prior.approx_log_likelihood θ.1 θ.2 Real.log gammaln)) (Ioi 0 ×ˢ Ioi 0)) :
    IntegrableOn (fun θ : ℝ × ℝ => Real.exp ((beta xs.prod (xs.map fun x => 1 - x).prod (xs.length : ℝ)
      prior).approx_log_likelihood θ.1 θ.2 Real.log gammaln)) (Ioi 0 ×ˢ Ioi 0) := by
  have hcont : ∀ d : BetaProportional ℝ,
      ContinuousOn (fun θ : ℝ × ℝ => d.approx_log_likelihood θ.1 θ.2 Real.log gammaln) (Ioi 0 ×ˢ Ioi 0) := by
    intro d
    simp only [BetaProportional.approx_log_likelihood]
    have h1 : ContinuousOn (fun θ : ℝ × ℝ => gammaln θ.1) (Ioi 0 ×ˢ Ioi 0) :=
      gammaln_continuousOn.comp continuous_fst.continuousOn fun θ hθ => hθ.1
    have h2 : ContinuousOn (fun θ : ℝ × ℝ => gammaln θ.2) (Ioi 0 ×ˢ Ioi 0) :=
      gammaln_continuousOn.comp continuous_snd.continuousOn fun θ hθ => hθ.2
    have h3 : ContinuousOn (fun θ : ℝ × ℝ => gammaln (θ.1 + θ.2)) (Ioi 0 ×ˢ Ioi 0) :=
      gammaln_continuousOn.comp (continuous_fst.add continuous_snd).continuousOn
        fun θ hθ => add_pos (mem_Ioi.1 hθ.1) (mem_Ioi.1 hθ.2)
    exact ((((continuousOn_const.mul h3).add (Continuous.continuousOn (by fun_prop))).add
      (Continuous.continuousOn (by fun_prop))).sub (continuousOn_const.mul h1)).sub (continuousOn_const.mul h2)
  have hU : IsOpen (Ioi (0 : ℝ) ×ˢ Ioi (0 : ℝ)) := isOpen_Ioi.prod isOpen_Ioi
  have hone : ((1, 1) : ℝ × ℝ) ∈ Ioi (0 : ℝ) ×ˢ Ioi (0 : ℝ) := ⟨mem_Ioi.2 one_pos, mem_Ioi.2 one_pos⟩
  have hkern := C18_beta_posterior prior hp hq xs hx
  refine proper_update hU (H := fun θ => prior.approx_log_likelihood θ.1 θ.2 Real.log gammaln)
    ?_ (hcont prior) (hcont _) hone hkern (fun x => Real.exp 1 / ((1 - x) * x)) (fun θ hθ x hxm => ?_)
    (fun θ hθ x hxm => ?_) h
  · have h1 : ConcaveOn ℝ (Ioi 0 ×ˢ Ioi 0) fun θ : ℝ × ℝ => θ.1 * Real.log prior.p + θ.2 * Real.log prior.q := by
      refine ⟨(convex_Ioi 0).prod (convex_Ioi 0), fun x _ y _ s t _ _ hst => le_of_eq ?_⟩
      simp only [Prod.fst_add, Prod.snd_add, Prod.smul_fst, Prod.smul_snd, smul_eq_mul]
      ring
    have h2 : ConcaveOn ℝ (Ioi 0 ×ˢ Ioi 0) fun θ : ℝ × ℝ => prior.k * -betaPart θ := betaPart_convex.neg.smul hk
    refine (h1.add h2).congr fun θ _ => ?_
    simp only [BetaProportional.approx_log_likelihood, Pi.add_apply, betaPart]
    ring
  · exact (Beta.isDensity ⟨θ.1, θ.2⟩ hθ.1 hθ.2).1 x (hx x hxm)
  · refine (beta_pdf_le hθ.1 hθ.2 (hx x hxm)).trans ?_
    obtain ⟨h0, h1⟩ := hx x hxm
    have : θ.1 ≤ ‖θ‖ := (le_abs_self θ.1).trans (norm_fst_le θ)
    have h2 : 0 < 1 - x := by linarith
    gcongr

/-- C95. `c` is the number of observations the prior is worth. -/
theorem C95_von_mises_known_direction (prior : VonMisesKnownDirectionProportional ℝ) (hc : 0 ≤ prior.c) (mu : ℝ)
    (xs : List ℝ)
    (h : IntegrableOn (fun kappa : ℝ => Real.exp (prior.approx_log_likelihood kappa Real.log i0)) (Ioi 0)) :
    IntegrableOn (fun kappa : ℝ => Real.exp ((von_mises_known_direction (xs.map fun x => Real.cos (x - mu)).sum
      (xs.length : ℝ) prior).approx_log_likelihood kappa Real.log i0)) (Ioi 0) := by
  have hcont : ∀ d : VonMisesKnownDirectionProportional ℝ,
      ContinuousOn (fun kappa : ℝ => d.approx_log_likelihood kappa Real.log i0) (Ioi 0) := by
    intro d
    simp only [VonMisesKnownDirectionProportional.approx_log_likelihood]
    exact (Continuous.continuousOn (by fun_prop)).sub (continuousOn_const.mul log_i0_continuous.continuousOn)
  refine proper_update isOpen_Ioi (H := fun kappa => prior.approx_log_likelihood kappa Real.log i0)
    ?_ (hcont prior) (hcont _) (x₀ := 1) (mem_Ioi.2 one_pos)
    (C18_von_mises_known_direction_posterior prior mu xs) (fun _ => Real.exp 1 / 2) (fun θ hθ x hxm => ?_)
    (fun θ hθ x hxm => ?_) h
  · have h1 : ConcaveOn ℝ (Ioi 0) fun κ : ℝ => κ * prior.r := by
      refine ⟨convex_Ioi 0, fun x _ y _ s t _ _ hst => le_of_eq ?_⟩
      simp only [smul_eq_mul]
      ring
    have h2 : ConcaveOn ℝ (Ioi 0) fun κ : ℝ => prior.c * -Real.log (i0 κ) :=
      (log_i0_convex.subset (subset_univ _) (convex_Ioi 0)).neg.smul hc
    refine (h1.add h2).congr fun α _ => ?_
    simp only [VonMisesKnownDirectionProportional.approx_log_likelihood, Pi.add_apply]
    ring
  · rw [VonMises.pdf_exp]
    positivity
  · refine (vonMises_pdf_le hθ mu x).trans ?_
    have : θ ≤ ‖θ‖ := le_abs_self θ
    gcongr

/-! ## Examples: independent exponential priors on the unknown parameters -/

theorem exp_product_integrable : IntegrableOn (fun θ : ℝ × ℝ => Real.exp (-θ.1) * Real.exp (-θ.2)) (Ioi 0 ×ˢ Ioi 0) := by
  rw [IntegrableOn, Measure.volume_eq_prod, ← Measure.prod_restrict]
  exact Integrable.mul_prod (integrableOn_exp_neg_Ioi 0) (integrableOn_exp_neg_Ioi 0)

example : IntegrableOn (fun θ : ℝ × ℝ => Real.exp ((gamma ([1 / 2, 2] : List ℝ).sum ([1 / 2, 2] : List ℝ).prod
    (([1 / 2, 2] : List ℝ).length : ℝ) ⟨Real.exp (-1), 1, 0, 0⟩).approx_log_likelihood θ.1 θ.2 Real.log gammaln))
    (Ioi 0 ×ˢ Ioi 0) := by
  refine C95_gamma _ (Real.exp_pos _) _ (by norm_num) ?_
  refine (exp_product_integrable.const_mul (Real.exp 1)).congr (Eventually.of_forall fun θ => ?_)
  simp only [GammaProportional.approx_log_likelihood, lit_real, Rat.cast_one, Real.log_exp]
  rw [← Real.exp_add, ← Real.exp_add]
  congr 1
  ring

example : ¬IntegrableOn (fun θ : ℝ × ℝ => Real.exp ((⟨1, 1, 1, 2⟩ : GammaProportional ℝ).approx_log_likelihood
    θ.1 θ.2 Real.log gammaln)) (Ioi 0 ×ˢ Ioi 0) := C95_gamma_never_normalisable _ (by norm_num)

example : IntegrableOn (fun alpha : ℝ => Real.exp ((gamma_known_rate ([1 / 2, 2] : List ℝ).prod
    (([1 / 2, 2] : List ℝ).length : ℝ) 3 ⟨Real.exp (-1), 0, 0⟩).approx_log_likelihood alpha 3 Real.log gammaln))
    (Ioi 0) := by
  refine C95_gamma_known_rate _ (Real.exp_pos _) 3 (by norm_num) _ (by norm_num) ?_
  refine ((integrableOn_exp_neg_Ioi 0).const_mul (Real.exp 1)).congr (Eventually.of_forall fun θ => ?_)
  simp only [GammaKnownRateProportional.approx_log_likelihood, lit_real, Rat.cast_one, Real.log_exp]
  rw [← Real.exp_add]
  congr 1
  ring

example : IntegrableOn (fun θ : ℝ × ℝ => Real.exp ((beta ([1 / 2, 1 / 3] : List ℝ).prod
    (([1 / 2, 1 / 3] : List ℝ).map fun x => 1 - x).prod (([1 / 2, 1 / 3] : List ℝ).length : ℝ)
    ⟨Real.exp (-1), Real.exp (-1), 0⟩).approx_log_likelihood θ.1 θ.2 Real.log gammaln)) (Ioi 0 ×ˢ Ioi 0) := by
  refine C95_beta _ (Real.exp_pos _) (Real.exp_pos _) le_rfl _ (by norm_num) ?_
  refine exp_product_integrable.congr (Eventually.of_forall fun θ => ?_)
  simp only [BetaProportional.approx_log_likelihood, Real.log_exp]
  rw [← Real.exp_add]
  congr 1
  ring

example : IntegrableOn (fun kappa : ℝ => Real.exp ((von_mises_known_direction
    (([1, 2, 3] : List ℝ).map fun x => Real.cos (x - 1)).sum (([1, 2, 3] : List ℝ).length : ℝ)
    ⟨0, -1⟩).approx_log_likelihood kappa Real.log i0)) (Ioi 0) := by
  refine C95_von_mises_known_direction _ le_rfl 1 _ ?_
  refine (integrableOn_exp_neg_Ioi 0).congr (Eventually.of_forall fun κ => ?_)
  simp only [VonMisesKnownDirectionProportional.approx_log_likelihood]
  congr 1
  ring

end Conj
