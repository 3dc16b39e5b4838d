import Verif.Lemmas.ConcentrationWishart
import Verif.Props.TwoStageMatrix
import Verif.Lemmas.Gather

/-!
# First moments of covariance matrices with an inverse Wishart law

The bound on the expected quadratic form comes from the posterior predictive of the normal inverse-Wishart family: the
second moment of the multivariate t is that of the mixture of normals it came from.
-/

open MeasureTheory Set Filter Topology Matrix

set_option linter.unusedSectionVars false

namespace Conj

open Scipy Spec

/-! ## Convergence in mean -/

/-- laws whose expected distance from `x₀` vanishes find `x₀` -/
theorem recovers_of_abs {post : ℕ → Measure ℝ} {x₀ : ℝ} (hp : ∀ᶠ n in atTop, IsProbabilityMeasure (post n))
    (hi : ∀ᶠ n in atTop, Integrable (fun x => x) (post n))
    (h : Tendsto (fun n => ∫ x, |x - x₀| ∂post n) atTop (𝓝 0)) : Recovers post x₀ := by
  have hc : ConcentratesAt post x₀ := by
    intro ε hε
    have hz : Tendsto (fun n => ENNReal.ofReal ((∫ x, |x - x₀| ∂post n) / ε)) atTop (𝓝 0) := by
      have := ENNReal.tendsto_ofReal (h.div_const ε)
      simpa using this
    have h1 : Tendsto (fun n => 1 - ENNReal.ofReal ((∫ x, |x - x₀| ∂post n) / ε)) atTop (𝓝 1) := by
      have := ENNReal.Tendsto.sub (tendsto_const_nhds (x := (1 : ENNReal))) hz (Or.inl ENNReal.one_ne_top)
      simpa using this
    refine tendsto_of_tendsto_of_tendsto_of_le_of_le' h1 tendsto_const_nhds ?_ ?_
    · filter_upwards [hp, hi] with n hpn hin
      have hab : Integrable (fun x => |x - x₀|) (post n) := (hin.sub (integrable_const x₀)).abs
      have hmk := mul_meas_ge_le_integral_of_nonneg (μ := post n) (Eventually.of_forall fun x => abs_nonneg (x - x₀)) hab ε
      have hcompl : (Metric.ball x₀ ε)ᶜ = {x | ε ≤ |x - x₀|} := by
        ext x; simp [Real.dist_eq]
      have hle : post n (Metric.ball x₀ ε)ᶜ ≤ ENNReal.ofReal ((∫ x, |x - x₀| ∂post n) / ε) := by
        rw [hcompl]
        refine ENNReal.le_ofReal_iff_toReal_le (measure_ne_top _ _) (by positivity) |>.2 ?_
        rw [le_div_iff₀ hε, mul_comm]
        exact hmk
      have hu : post n (Metric.ball x₀ ε) + post n (Metric.ball x₀ ε)ᶜ = 1 := by
        rw [measure_add_measure_compl measurableSet_ball, measure_univ]
      rw [tsub_le_iff_right, ← hu]
      gcongr
    · filter_upwards [hp] with n hpn
      exact prob_le_one
  refine ⟨hc, hi, ?_, fun q h0 h1 => ppf_tendsto hp hc h0 h1⟩
  rw [tendsto_iff_norm_sub_tendsto_zero]
  refine tendsto_of_tendsto_of_tendsto_of_le_of_le' tendsto_const_nhds h (Eventually.of_forall fun n => norm_nonneg _) ?_
  filter_upwards [hp, hi] with n hpn hin
  have e : ∫ x, x ∂post n - x₀ = ∫ x, (x - x₀) ∂post n := by
    rw [integral_sub hin (integrable_const _), integral_const, probReal_univ, one_smul]
  rw [show (∫ x, x ∂post n) - x₀ = ∫ x, (x - x₀) ∂post n by
    rw [integral_sub hin (integrable_const _), integral_const, probReal_univ, one_smul]]
  exact norm_integral_le_integral_norm _

/-- nonnegative quantities that tend to `x₀` in probability and whose means do not exceed `x₀` in the limit tend to
`x₀` in mean -/
theorem abs_tendsto_of_mean_le {A : Type} [MeasurableSpace A] {L : ℕ → Measure A} {f : A → ℝ} (hf : Measurable f)
    {x₀ : ℝ} (h0 : 0 ≤ x₀) (hp : ∀ᶠ n in atTop, IsProbabilityMeasure (L n)) (hpos : ∀ n, ∀ᵐ a ∂L n, 0 ≤ f a)
    (hin : InProb L f x₀) {b : ℕ → ℝ} (hb : Tendsto b atTop (𝓝 x₀))
    (hle : ∀ᶠ n in atTop, ∫⁻ a, ENNReal.ofReal (f a) ∂L n ≤ ENNReal.ofReal (b n)) :
    (∀ᶠ n in atTop, Integrable f (L n)) ∧ Tendsto (fun n => ∫ a, |f a - x₀| ∂L n) atTop (𝓝 0) := by
  have hint : ∀ᶠ n in atTop, Integrable f (L n) := by
    filter_upwards [hle] with n hn
    refine ⟨hf.aestronglyMeasurable, ?_⟩
    rw [hasFiniteIntegral_iff_ofReal (hpos n)]
    exact hn.trans_lt ENNReal.ofReal_lt_top
  refine ⟨hint, ?_⟩
  rw [Metric.tendsto_nhds]
  intro ε hε
  set δ := ε / 8 with hδ
  have hδ0 : 0 < δ := by positivity
  have hprob : ∀ᶠ n in atTop, (L n {a | δ ≤ dist (f a) x₀}) < ENNReal.ofReal (δ / (x₀ + 1)) := by
    refine (hin δ hδ0).eventually (gt_mem_nhds ?_)
    rw [ENNReal.ofReal_pos]; positivity
  have hbn : ∀ᶠ n in atTop, b n < x₀ + δ := hb.eventually (gt_mem_nhds (by linarith))
  filter_upwards [hp, hint, hle, hprob, hbn] with n hpn hin' hln hpr hbn'
  have hmean : ∫ a, f a ∂L n ≤ x₀ + δ := by
    rw [integral_eq_lintegral_of_nonneg_ae (hpos n) hf.aestronglyMeasurable]
    refine ENNReal.toReal_le_of_le_ofReal (by positivity) (hln.trans (ENNReal.ofReal_le_ofReal hbn'.le))
  set B := {a | δ ≤ dist (f a) x₀} with hB
  have hBm : MeasurableSet B := measurableSet_le measurable_const (hf.dist measurable_const)
  have hBr : (L n).real B ≤ δ / (x₀ + 1) := ENNReal.toReal_le_of_le_ofReal (by positivity) hpr.le
  -- the distance is the excess plus twice the shortfall
  have hbound : ∀ᵐ a ∂L n, |f a - x₀| ≤ (f a - x₀) + 2 * (δ + B.indicator (fun _ => x₀) a) := by
    filter_upwards [hpos n] with a ha
    by_cases hx : x₀ ≤ f a
    · rw [abs_of_nonneg (by linarith)]
      have : 0 ≤ B.indicator (fun _ => x₀) a := indicator_nonneg (fun _ _ => h0) a
      linarith
    · rw [abs_of_neg (by linarith)]
      by_cases haB : a ∈ B
      · rw [indicator_of_mem haB]; linarith
      · rw [indicator_of_notMem haB]
        have : dist (f a) x₀ < δ := not_le.1 haB
        rw [Real.dist_eq, abs_of_neg (by linarith)] at this
        linarith
  have hI : Integrable (fun a => 2 * (δ + B.indicator (fun _ => x₀) a)) (L n) :=
    ((integrable_const δ).add ((integrable_const x₀).indicator hBm)).const_mul 2
  have hsub : Integrable (fun a => f a - x₀) (L n) := hin'.sub (integrable_const _)
  have hle2 := integral_mono_ae hsub.abs (hsub.add hI) hbound
  have hval : ∫ a, ((fun a => f a - x₀) + fun a => 2 * (δ + B.indicator (fun _ => x₀) a)) a ∂L n =
      (∫ a, f a ∂L n) - x₀ + 2 * (δ + (L n).real B * x₀) := by
    simp only [Pi.add_apply]
    rw [integral_add hsub hI, integral_sub hin' (integrable_const _), integral_const, probReal_univ, one_smul,
      integral_const_mul, integral_add (integrable_const _) ((integrable_const _).indicator hBm), integral_const,
      probReal_univ, one_smul, integral_indicator_const _ hBm, smul_eq_mul]
  rw [hval] at hle2
  have hx : (L n).real B * x₀ ≤ δ := by
    calc (L n).real B * x₀ ≤ δ / (x₀ + 1) * x₀ := by gcongr
      _ ≤ δ / (x₀ + 1) * (x₀ + 1) := by gcongr; linarith
      _ = δ := by field_simp
  rw [Real.dist_eq, sub_zero, abs_of_nonneg (integral_nonneg fun a => abs_nonneg _)]
  have : δ * 8 = ε := by rw [hδ]; ring
  linarith

/-! ## Second moments of normal vectors -/

section
variable {p : Type} [Fintype p] [DecidableEq p]

theorem mvn_sq {S : Matrix p p ℝ} (hS : S.PosDef) (m u : p → ℝ) :
    ∫⁻ x, ENNReal.ofReal ((u ⬝ᵥ x) ^ 2) ∂lawOn univ (mvnPdf m S) = ENNReal.ofReal (quad S u + (u ⬝ᵥ m) ^ 2) := by
  have e : ∀ x : p → ℝ, (u ⬝ᵥ x) ^ 2 = ∑ i, ∑ j, u i * u j * (x i * x j) := fun x => by
    rw [sq, dotProduct, Finset.sum_mul_sum]
    refine Finset.sum_congr rfl fun i _ => Finset.sum_congr rfl fun j _ => by ring
  have hi : ∀ i j, Integrable (fun x : p → ℝ => u i * u j * (x i * x j)) (lawOn univ (mvnPdf m S)) := fun i j =>
    (mvn_expect_mul hS m i j).1.const_mul _
  have hI : Integrable (fun x : p → ℝ => (u ⬝ᵥ x) ^ 2) (lawOn univ (mvnPdf m S)) := by
    simp only [e]
    exact integrable_finsetSum _ fun i _ => integrable_finsetSum _ fun j _ => hi i j
  rw [← ofReal_integral_eq_lintegral_ofReal hI (Eventually.of_forall fun x => sq_nonneg _)]
  congr 1
  simp only [e]
  rw [integral_finsetSum _ fun i _ => integrable_finsetSum _ fun j _ => hi i j]
  have e2 : ∀ i, ∫ x, ∑ j, u i * u j * (x i * x j) ∂lawOn univ (mvnPdf m S) =
      ∑ j, u i * u j * (S i j + m i * m j) := fun i => by
    rw [integral_finsetSum _ fun j _ => hi i j]
    refine Finset.sum_congr rfl fun j _ => ?_
    rw [integral_const_mul, (mvn_expect_mul hS m i j).2]
  simp only [e2, quad, dotProduct, mulVec, Finset.mul_sum, mul_add, Finset.sum_add_distrib]
  congr 1
  refine Finset.sum_congr rfl fun i _ => Finset.sum_congr rfl fun j _ => by ring

end

/-! ## The expected quadratic form -/

variable {n : ℕ}

theorem invgamma_mean_lintegral {a b : ℝ} (ha : 1 < a) (hb : 0 < b) :
    ∫⁻ v, ENNReal.ofReal v ∂lawOn (Ioi 0) (InverseGamma.dist ⟨a, b⟩).pdf = ENNReal.ofReal (b / (a - 1)) := by
  have h0 : 0 < a - 1 := by linarith
  have hd := InverseGamma.isDensity ⟨a, b⟩ (by simp only; linarith) hb
  have hd' := InverseGamma.isDensity ⟨a - 1, b⟩ h0 hb
  rw [lintegral_lawOn hd ENNReal.measurable_ofReal]
  have e : ∫⁻ v in Ioi (0 : ℝ), ENNReal.ofReal ((InverseGamma.dist ⟨a, b⟩).pdf v) * ENNReal.ofReal v =
      ∫⁻ v in Ioi (0 : ℝ), ENNReal.ofReal (b / (a - 1)) * ENNReal.ofReal ((InverseGamma.dist ⟨a - 1, b⟩).pdf v) := by
    refine setLIntegral_congr_fun measurableSet_Ioi fun v hv => ?_
    beta_reduce
    rw [mul_comm, ← ENNReal.ofReal_mul (le_of_lt hv), InverseGamma.tilt ⟨a, b⟩ ha hb hv,
      ENNReal.ofReal_mul (by positivity)]
  have hone : ∫⁻ v in Ioi (0 : ℝ), ENNReal.ofReal ((InverseGamma.dist ⟨a - 1, b⟩).pdf v) = 1 := by
    have := (lawOn_prob measurableSet_Ioi hd').measure_univ
    rwa [lawOn, withDensity_apply _ MeasurableSet.univ, Measure.restrict_univ] at this
  rw [e, lintegral_const_mul' _ _ ENNReal.ofReal_ne_top, hone, mul_one]

/-- second moment of the multivariate t -/
theorem mvt_sq {a b : ℝ} (ha : 1 < a) (hb : 0 < b) {M : Matrix (Fin n) (Fin n) ℝ} (hM : M.PosDef) (u : Fin n → ℝ) :
    ∫⁻ x, ENNReal.ofReal ((u ⬝ᵥ x) ^ 2) ∂(volume.withDensity fun x =>
      ENNReal.ofReal (mvtPdf 0 ((b / a) • M) (2 * a) x)) = ENNReal.ofReal (b / (a - 1) * quad M u) := by
  have ha0 : 0 < a := by linarith
  have hq : 0 ≤ quad M u := quad_nonneg hM.posSemidef u
  have hg := InverseGamma.isDensity ⟨a, b⟩ ha0 hb
  have hL : Measurable fun q : ℝ × (Fin n → ℝ) => mvnPdf 0 (q.1 • M) q.2 := by
    refine measurable_mvnPdf_all.comp (f := fun q : ℝ × (Fin n → ℝ) => (q.2, (0 : Fin n → ℝ), q.1 • M)) ?_
    refine measurable_snd.prodMk (measurable_const.prodMk (measurable_matrix fun i j => ?_))
    simp only [Matrix.smul_apply, smul_eq_mul]
    exact measurable_fst.mul_const _
  have hp : ∀ x, IsPredictive volume (Ioi (0 : ℝ)) (fun v => mvnPdf 0 (v • M) x) (InverseGamma.dist ⟨a, b⟩).pdf
      (mvtPdf 0 ((b / a) • M) (2 * a) x) := by
    intro x
    have hq : 0 ≤ quad M⁻¹ (x - 0) := quad_nonneg hM.inv.posSemidef _
    refine IsPredictive.of_density measurableSet_Ioi (InverseGamma.isDensity ⟨a + 1 / 2 * (Fintype.card (Fin n) : ℝ),
      b + 1 / 2 * quad M⁻¹ (x - 0)⟩ (by positivity) (by positivity)) ?_
    intro v hv
    rw [mul_comm, invgamma_mul_mvn ha0 hb hM hv]
  have hF : Measurable fun x : Fin n → ℝ => ENNReal.ofReal ((u ⬝ᵥ x) ^ 2) := by
    have : Continuous fun x : Fin n → ℝ => (u ⬝ᵥ x) ^ 2 := by fun_prop
    exact this.measurable.ennreal_ofReal
  rw [mixture_law measurableSet_Ioi hg hL (fun v hv x => (mvnPdf_pos (posDef_smul hM hv) _ _).le)
    (measurable_mvtPdf _ _ _) hp hF]
  have e : ∀ᵐ v ∂lawOn (Ioi (0 : ℝ)) (InverseGamma.dist ⟨a, b⟩).pdf,
      ∫⁻ x, ENNReal.ofReal ((u ⬝ᵥ x) ^ 2) ∂(volume.withDensity fun x => ENNReal.ofReal (mvnPdf 0 (v • M) x)) =
        ENNReal.ofReal v * ENNReal.ofReal (quad M u) := by
    filter_upwards [ae_lawOn_mem measurableSet_Ioi _] with v hv
    rw [← lawOn_univ, mvn_sq (posDef_smul hM hv), quad_smul, dotProduct_zero, ← ENNReal.ofReal_mul (le_of_lt hv)]
    congr 1; ring
  rw [lintegral_congr_ae e, lintegral_mul_const' _ _ ENNReal.ofReal_ne_top, invgamma_mean_lintegral ha hb,
    ← ENNReal.ofReal_mul (by have : 0 < a - 1 := by linarith
                             positivity)]

theorem measurable_quad_symOf (u : Fin n → ℝ) : Measurable fun c : UpperIdx n → ℝ => quad (symOf c) u := by
  have : Continuous fun M : Matrix (Fin n) (Fin n) ℝ => quad M u := by unfold quad; fun_prop
  have h2 : Measurable fun M : Matrix (Fin n) (Fin n) ℝ => quad M u := by
    simp only [quad, dotProduct, mulVec]
    refine Finset.measurable_sum _ fun i _ => Measurable.const_mul (Finset.measurable_sum _ fun j _ => ?_) _
    exact Measurable.mul_const ((measurable_pi_apply j).comp (measurable_pi_apply i)) _
  exact h2.comp measurable_symOf

/-- the normal inverse-Wishart law, first integrating out the mean -/
theorem niw_lintegral {kappa nu : ℝ} (hk : 0 < kappa) (hnu : (n : ℝ) - 1 < nu) {psi : Matrix (Fin n) (Fin n) ℝ}
    (hpsi : psi.PosDef) (mu : Fin n → ℝ) {F : (Fin n → ℝ) × (UpperIdx n → ℝ) → ENNReal} (hF : Measurable F) :
    ∫⁻ z, F z ∂lawOn {θ : (Fin n → ℝ) × (UpperIdx n → ℝ) | (symOf θ.2).PosDef} (fun θ =>
      invwishartPdf nu psi (symOf θ.2) * mvnPdf mu ((1 / kappa) • symOf θ.2) θ.1) =
    ∫⁻ c, ∫⁻ x, F (x, c) ∂lawOn univ (mvnPdf mu ((1 / kappa) • symOf c)) ∂iwLaw nu psi := by
  have hset : {θ : (Fin n → ℝ) × (UpperIdx n → ℝ) | (symOf θ.2).PosDef} =
      univ ×ˢ {c : UpperIdx n → ℝ | (symOf c).PosDef} := by ext θ; simp
  have hd := niw_isDensity hk hnu hpsi mu
  rw [hset] at hd ⊢
  exact lintegral_lawOn_prod (S := univ) (h := fun x c => mvnPdf mu ((1 / kappa) • symOf c) x) measurableSet_posDef
    (iw_isDensity hpsi hnu) (fun c hc => mvn_isDensity (posDef_smul hc (one_div_pos.2 hk)) mu) hd hF

/-- the expected quadratic form is at most the one of `psi / (nu - n - 1)` -/
theorem iw_quad_le {nu : ℝ} (hnu : (n : ℝ) + 1 < nu) {psi : Matrix (Fin n) (Fin n) ℝ} (hpsi : psi.PosDef)
    (u : Fin n → ℝ) :
    ∫⁻ c, ENNReal.ofReal (quad (symOf c) u) ∂iwLaw nu psi ≤ ENNReal.ofReal (quad psi u / (nu - n - 1)) := by
  have hnu1 : (n : ℝ) - 1 < nu := by linarith
  have hden : 0 < nu - n - 1 := by linarith
  have hq : 0 ≤ quad psi u := quad_nonneg hpsi.posSemidef u
  have hF : Measurable fun x : Fin n → ℝ => ENNReal.ofReal ((u ⬝ᵥ x) ^ 2) := by
    have : Continuous fun x : Fin n → ℝ => (u ⬝ᵥ x) ^ 2 := by fun_prop
    exact this.measurable.ennreal_ofReal
  have key : ∀ w : ℝ, 0 < w → ∫⁻ c, ENNReal.ofReal (quad (symOf c) u) ∂iwLaw nu psi ≤
      ENNReal.ofReal ((1 + w) * (quad psi u / (nu - n - 1))) := by
    intro w hw
    have hS : MeasurableSet {θ : (Fin n → ℝ) × (UpperIdx n → ℝ) | (symOf θ.2).PosDef} :=
      measurableSet_posDef.preimage measurable_snd
    have hL : Measurable fun q : ((Fin n → ℝ) × (UpperIdx n → ℝ)) × (Fin n → ℝ) =>
        mvnPdf q.1.1 ((1 / w) • symOf q.1.2) q.2 :=
      measurable_mvnPdf_all.comp (f := fun q : ((Fin n → ℝ) × (UpperIdx n → ℝ)) × (Fin n → ℝ) =>
        (q.2, q.1.1, (1 / w) • symOf q.1.2))
        (measurable_snd.prodMk ((measurable_fst.comp measurable_fst).prodMk
          ((measurable_const_smul_matrix (m := Fin n) (n := Fin n) (1 / w)).comp
            (measurable_symOf.comp (measurable_snd.comp measurable_fst)))))
    have hmix := mixture_law hS (niw_isDensity zero_lt_one hnu1 hpsi 0) hL
      (fun θ hθ x => (mvnPdf_pos (posDef_smul hθ (one_div_pos.2 hw)) _ _).le) (measurable_mvtPdf _ _ _)
      (fun x => niw_scaled_predictive zero_lt_one hw hnu1 hpsi 0 x) hF
    have hm : ((1 + w) / (1 * w * (nu - n + 1))) = ((1 + w) / (2 * w)) / ((nu - n + 1) / 2) := by
      have : 0 < nu - n + 1 := by linarith
      field_simp
    have hmvt := mvt_sq (n := n) (a := (nu - n + 1) / 2) (b := (1 + w) / (2 * w)) (by linarith) (by positivity) hpsi u
    rw [← hm, show 2 * ((nu - n + 1) / 2) = nu - n + 1 by ring, hmix] at hmvt
    have hlow : ∫⁻ c, ENNReal.ofReal (1 / w) * ENNReal.ofReal (quad (symOf c) u) ∂iwLaw nu psi ≤
        ∫⁻ θ, ∫⁻ x, ENNReal.ofReal ((u ⬝ᵥ x) ^ 2) ∂(volume.withDensity fun x =>
          ENNReal.ofReal (mvnPdf θ.1 ((1 / w) • symOf θ.2) x))
          ∂(lawOn {θ : (Fin n → ℝ) × (UpperIdx n → ℝ) | (symOf θ.2).PosDef} fun θ =>
            invwishartPdf nu psi (symOf θ.2) * mvnPdf 0 ((1 / 1 : ℝ) • symOf θ.2) θ.1) := by
      have hmm : Measurable fun z : (Fin n → ℝ) × (UpperIdx n → ℝ) =>
          ENNReal.ofReal (1 / w) * ENNReal.ofReal (quad (symOf z.2) u) :=
        ((measurable_quad_symOf u).comp measurable_snd).ennreal_ofReal.const_mul _
      have e1 := niw_lintegral zero_lt_one hnu1 hpsi 0 hmm
      have e2 : ∀ᵐ c ∂iwLaw nu psi, ∫⁻ _, ENNReal.ofReal (1 / w) * ENNReal.ofReal (quad (symOf c) u)
          ∂lawOn univ (mvnPdf 0 ((1 / 1 : ℝ) • symOf c)) = ENNReal.ofReal (1 / w) * ENNReal.ofReal (quad (symOf c) u) := by
        filter_upwards [ae_lawOn_mem measurableSet_posDef fun c => invwishartPdf nu psi (symOf c)] with c hc
        have := mvn_prob (posDef_smul hc (one_div_pos.2 (zero_lt_one' ℝ))) (0 : Fin n → ℝ)
        rw [lintegral_const, measure_univ, mul_one]
      rw [← lintegral_congr_ae e2, ← e1]
      refine lintegral_mono_ae ?_
      filter_upwards [ae_lawOn_mem hS _] with θ hθ
      rw [← lawOn_univ, mvn_sq (posDef_smul hθ (one_div_pos.2 hw)), quad_smul, ← ENNReal.ofReal_mul (by positivity)]
      exact ENNReal.ofReal_le_ofReal (le_add_of_nonneg_right (sq_nonneg _))
    rw [hmvt, lintegral_const_mul' _ _ ENNReal.ofReal_ne_top] at hlow
    have h2 := mul_le_mul_right hlow (ENNReal.ofReal w)
    rw [← mul_assoc, ← ENNReal.ofReal_mul hw.le, ← ENNReal.ofReal_mul hw.le, mul_one_div_cancel hw.ne',
      ENNReal.ofReal_one, one_mul] at h2
    refine h2.trans_eq ?_
    congr 1
    rw [show (nu - n + 1) / 2 - 1 = (nu - n - 1) / 2 by ring]
    field_simp
  have hlim : Tendsto (fun w : ℝ => ENNReal.ofReal ((1 + w) * (quad psi u / (nu - n - 1)))) (𝓝[>] 0)
      (𝓝 (ENNReal.ofReal ((1 + 0) * (quad psi u / (nu - n - 1))))) := by
    have : Continuous fun w : ℝ => ENNReal.ofReal ((1 + w) * (quad psi u / (nu - n - 1))) :=
      ENNReal.continuous_ofReal.comp (by fun_prop)
    exact (this.tendsto 0).mono_left nhdsWithin_le_nhds
  rw [add_zero, one_mul] at hlim
  refine ge_of_tendsto hlim ?_
  filter_upwards [self_mem_nhdsWithin] with w hw
  exact key w hw

/-! ## Limits -/

theorem inProb_of_concentrates {A : Type} [MeasurableSpace A] [PseudoMetricSpace A] [OpensMeasurableSpace A]
    {L : ℕ → Measure A} (hp : ∀ n, IsProbabilityMeasure (L n)) {a₀ : A} (h : ConcentratesAt L a₀) :
    InProb L (fun a => a) a₀ := by
  intro ε hε
  have h1 := ENNReal.Tendsto.sub (tendsto_const_nhds (x := (1 : ENNReal))) (h ε hε) (Or.inl ENNReal.one_ne_top)
  rw [tsub_self] at h1
  refine h1.congr fun n => ?_
  have := hp n
  rw [← prob_compl_eq_one_sub measurableSet_ball]
  congr 1
  ext a; simp

/-- laws whose expected squared distance from points tending to `x₀` vanishes find `x₀` -/
theorem recovers_of_sq {post : ℕ → Measure ℝ} {mean var : ℕ → ℝ} {x₀ : ℝ}
    (hp : ∀ᶠ n in atTop, IsProbabilityMeasure (post n))
    (h2 : ∀ᶠ n in atTop, ∫⁻ x, ENNReal.ofReal ((x - mean n) ^ 2) ∂post n ≤ ENNReal.ofReal (var n))
    (hm : Tendsto mean atTop (𝓝 x₀)) (hv : Tendsto var atTop (𝓝 0)) : Recovers post x₀ := by
  have hsq : ∀ᶠ n in atTop, Integrable (fun x => (x - mean n) ^ 2) (post n) := by
    filter_upwards [h2] with n hn
    refine ⟨(by fun_prop : Measurable fun x : ℝ => (x - mean n) ^ 2).aestronglyMeasurable, ?_⟩
    rw [hasFiniteIntegral_iff_ofReal (Eventually.of_forall fun x => sq_nonneg _)]
    exact hn.trans_lt ENNReal.ofReal_lt_top
  have hint : ∀ᶠ n in atTop, Integrable (fun x => x) (post n) := by
    filter_upwards [hp, hsq] with n hpn hsn
    have h1 : Integrable (fun x => |mean n| + (1 + (x - mean n) ^ 2)) (post n) :=
      (integrable_const _).add ((integrable_const _).add hsn)
    refine h1.mono' measurable_id.aestronglyMeasurable (Eventually.of_forall fun x => ?_)
    rw [Real.norm_eq_abs]
    have h3 : |x| ≤ |mean n| + |x - mean n| := by
      have := abs_add_le (mean n) (x - mean n)
      rwa [add_sub_cancel] at this
    have h4 : |x - mean n| ≤ 1 + (x - mean n) ^ 2 := by
      rw [← sq_abs (x - mean n)]
      nlinarith [sq_nonneg (|x - mean n| - 1), abs_nonneg (x - mean n)]
    linarith
  refine recovers_of_abs hp hint ?_
  rw [Metric.tendsto_nhds]
  intro ε hε
  have hv' : ∀ᶠ n in atTop, var n < ε ^ 2 / 4 := hv.eventually (gt_mem_nhds (by positivity))
  have hm' : ∀ᶠ n in atTop, dist (mean n) x₀ < ε / 4 := Metric.tendsto_nhds.1 hm _ (by positivity)
  filter_upwards [hp, h2, hsq, hint, hv', hm'] with n hpn h2n hsn hin hvn hmn
  have hE : ∫ x, (x - mean n) ^ 2 ∂post n ≤ ε ^ 2 / 4 := by
    rw [integral_eq_lintegral_of_nonneg_ae (Eventually.of_forall fun x => sq_nonneg _) hsn.aestronglyMeasurable]
    exact ENNReal.toReal_le_of_le_ofReal (by positivity) (h2n.trans (ENNReal.ofReal_le_ofReal hvn.le))
  have hb : ∀ x : ℝ, |x - x₀| ≤ ε / 2 + (1 / ε) * (x - mean n) ^ 2 := by
    intro x
    have h3 : |x - x₀| ≤ |x - mean n| + |mean n - x₀| := by
      have := abs_add_le (x - mean n) (mean n - x₀)
      rwa [sub_add_sub_cancel] at this
    rw [Real.dist_eq] at hmn
    have h4 : |x - mean n| ≤ ε / 4 + (1 / ε) * (x - mean n) ^ 2 := by
      rw [← sq_abs (x - mean n)]
      have h5 : 0 ≤ (1 / ε) * (|x - mean n| - ε / 2) ^ 2 := by positivity
      have e : (1 / ε) * (|x - mean n| - ε / 2) ^ 2 = ε / 4 + (1 / ε) * |x - mean n| ^ 2 - |x - mean n| := by
        field_simp; ring
      linarith
    linarith
  have hI : Integrable (fun x => ε / 2 + (1 / ε) * (x - mean n) ^ 2) (post n) :=
    (integrable_const _).add (hsn.const_mul _)
  have hle := integral_mono (hin.sub (integrable_const x₀)).abs hI hb
  rw [integral_add (integrable_const _) (hsn.const_mul _), integral_const, probReal_univ, one_smul,
    integral_const_mul] at hle
  rw [Real.dist_eq, sub_zero, abs_of_nonneg (integral_nonneg fun x => abs_nonneg _)]
  have h6 : 1 / ε * ∫ x, (x - mean n) ^ 2 ∂post n ≤ ε / 4 := by
    calc 1 / ε * ∫ x, (x - mean n) ^ 2 ∂post n ≤ 1 / ε * (ε ^ 2 / 4) := by gcongr
      _ = ε / 4 := by field_simp
  exact lt_of_le_of_lt (hle.trans (by linarith : _ ≤ ε / 2 + ε / 4)) (by linarith)

theorem symOf_entry (c : UpperIdx n → ℝ) (i j : Fin n) :
    symOf c i j = (quad (symOf c) (Pi.single i 1 + Pi.single j 1) - quad (symOf c) (Pi.single i 1) -
      quad (symOf c) (Pi.single j 1)) / 2 := by
  have hsym : symOf c j i = symOf c i j := by
    have : (symOf c)ᵀ = symOf c := symOf_symm c
    exact congrFun (congrFun this i) j
  have hq : quad (symOf c) (Pi.single i 1 + Pi.single j 1) =
      symOf c i i + symOf c i j + (symOf c j i + symOf c j j) := by
    simp [quad, mulVec_add, add_dotProduct, dotProduct_add]
    ring
  have hq1 : ∀ i, quad (symOf c) (Pi.single i 1) = symOf c i i := fun i => by simp [quad]
  rw [hq, hq1, hq1, hsym]
  ring

section
variable {nu : ℕ → ℝ} {psi : ℕ → Matrix (Fin n) (Fin n) ℝ} {S₀ : Matrix (Fin n) (Fin n) ℝ} (hpsi : ∀ k, (psi k).PosDef)
  (hnu : ∀ k, (n : ℝ) - 1 < nu k) (hinf : Tendsto nu atTop atTop) (hS : S₀.PosDef)
  (hlim : ∀ i j, Tendsto (fun k => psi k i j / nu k) atTop (𝓝 (S₀ i j)))

include hpsi hnu hinf hS hlim

theorem iw_quad_bound (u : Fin n → ℝ) :
    Tendsto (fun k => quad (psi k) u / (nu k - n - 1)) atTop (𝓝 (quad S₀ u)) := by
  have h1 : Tendsto (fun k => quad ((nu k)⁻¹ • psi k) u) atTop (𝓝 (quad S₀ u)) :=
    tendsto_quad (v := fun _ => u) (v₀ := u)
      (fun i j => (hlim i j).congr fun k => by rw [Matrix.smul_apply, smul_eq_mul, div_eq_inv_mul])
      fun _ => tendsto_const_nhds
  have h2 : Tendsto (fun k => nu k - n - 1) atTop atTop := by
    refine (tendsto_atTop_add_const_right atTop (-(n : ℝ) - 1) hinf).congr fun k => by ring
  have h3 : Tendsto (fun k => 1 + (n + 1 : ℝ) / (nu k - n - 1)) atTop (𝓝 (1 + 0)) :=
    tendsto_const_nhds.add (tendsto_const_nhds.div_atTop h2)
  have h4 := h1.mul h3
  rw [add_zero, mul_one] at h4
  refine h4.congr' ?_
  filter_upwards [hinf.eventually_gt_atTop 0, h2.eventually_gt_atTop 0] with k hk hk2
  rw [quad_smul]
  field_simp
  ring

theorem iw_quad_abs (u : Fin n → ℝ) :
    (∀ᶠ k in atTop, Integrable (fun c => quad (symOf c) u) (iwLaw (nu k) (psi k))) ∧
    Tendsto (fun k => ∫ c, |quad (symOf c) u - quad S₀ u| ∂iwLaw (nu k) (psi k)) atTop (𝓝 0) := by
  have hp : ∀ k, IsProbabilityMeasure (iwLaw (nu k) (psi k)) := fun k => iwLaw_prob (hpsi k) (hnu k)
  have hid := inProb_of_concentrates hp (concentrates_iw hpsi hnu hinf hS hlim)
  have hcont : Continuous fun c : UpperIdx n → ℝ => quad (symOf c) u := by
    simp only [quad, dotProduct, mulVec, symOf, of_apply]
    fun_prop
  have hin := hid.comp (g := fun c => quad (symOf c) u) hcont.continuousAt
  have hsym : S₀ᵀ = S₀ := by
    have := hS.isHermitian.eq
    rwa [conjTranspose_eq_transpose_of_trivial] at this
  beta_reduce at hin
  rw [symOf_upperOf hsym] at hin
  refine abs_tendsto_of_mean_le (measurable_quad_symOf u) (quad_nonneg hS.posSemidef u) (Eventually.of_forall hp)
    (fun k => ?_) hin (iw_quad_bound hpsi hnu hinf hS hlim u) ?_
  · filter_upwards [ae_lawOn_mem measurableSet_posDef fun c => invwishartPdf (nu k) (psi k) (symOf c)] with c hc
    exact quad_nonneg (show (symOf c).PosDef from hc).posSemidef u
  · filter_upwards [hinf.eventually_gt_atTop ((n : ℝ) + 1)] with k hk
    exact iw_quad_le hk (hpsi k) u

/-- every entry of an inverse Wishart covariance with growing degrees of freedom is recovered -/
theorem iw_recovers (i j : Fin n) :
    Recovers (fun k => (iwLaw (nu k) (psi k)).map fun c => symOf c i j) (S₀ i j) := by
  have hm : Measurable fun c : UpperIdx n → ℝ => symOf c i j :=
    (measurable_pi_apply j).comp ((measurable_pi_apply i).comp measurable_symOf)
  have hp : ∀ k, IsProbabilityMeasure (iwLaw (nu k) (psi k)) := fun k => iwLaw_prob (hpsi k) (hnu k)
  obtain ⟨i1, t1⟩ := iw_quad_abs hpsi hnu hinf hS hlim (Pi.single i 1 + Pi.single j 1)
  obtain ⟨i2, t2⟩ := iw_quad_abs hpsi hnu hinf hS hlim (Pi.single i 1)
  obtain ⟨i3, t3⟩ := iw_quad_abs hpsi hnu hinf hS hlim (Pi.single j 1)
  have hi : ∀ᶠ k in atTop, Integrable (fun c => symOf c i j) (iwLaw (nu k) (psi k)) := by
    filter_upwards [i1, i2, i3] with k h1 h2 h3
    simp only [symOf_entry _ i j]
    exact ((h1.sub h2).sub h3).div_const 2
  have hsym : S₀ᵀ = S₀ := by
    have := hS.isHermitian.eq
    rwa [conjTranspose_eq_transpose_of_trivial] at this
  have e0 : S₀ i j = (quad S₀ (Pi.single i 1 + Pi.single j 1) - quad S₀ (Pi.single i 1) -
      quad S₀ (Pi.single j 1)) / 2 := by
    have := symOf_entry (upperOf S₀) i j
    rwa [symOf_upperOf hsym] at this
  refine recovers_of_abs (Eventually.of_forall fun k => map_prob (hp k) hm) ?_ ?_
  · filter_upwards [hi] with k hk
    exact (integrable_map_measure measurable_id.aestronglyMeasurable hm.aemeasurable).2 hk
  · have ht := ((t1.add t2).add t3).div_const 2
    rw [add_zero, add_zero, zero_div] at ht
    refine tendsto_of_tendsto_of_tendsto_of_le_of_le' tendsto_const_nhds ht
      (Eventually.of_forall fun k => integral_nonneg fun x => abs_nonneg _) ?_
    filter_upwards [hi, i1, i2, i3] with k hk h1 h2 h3
    have := hp k
    rw [integral_map hm.aemeasurable (by fun_prop : Measurable fun x : ℝ => |x - S₀ i j|).aestronglyMeasurable]
    have ha : ∀ u : Fin n → ℝ, Integrable (fun c => quad (symOf c) u) (iwLaw (nu k) (psi k)) →
        Integrable (fun c => |quad (symOf c) u - quad S₀ u|) (iwLaw (nu k) (psi k)) := fun u h =>
      (h.sub (integrable_const (quad S₀ u))).abs
    have a12 : Integrable (fun c => |quad (symOf c) (Pi.single i 1 + Pi.single j 1) -
        quad S₀ (Pi.single i 1 + Pi.single j 1)| + |quad (symOf c) (Pi.single i 1) - quad S₀ (Pi.single i 1)|)
        (iwLaw (nu k) (psi k)) := (ha _ h1).add (ha _ h2)
    have ab : Integrable (fun c => |symOf c i j - S₀ i j|) (iwLaw (nu k) (psi k)) :=
      (hk.sub (integrable_const (S₀ i j))).abs
    rw [← integral_add (ha _ h1) (ha _ h2), ← integral_add a12 (ha _ h3), ← integral_div]
    refine integral_mono ab ((a12.add (ha _ h3)).div_const 2) fun c => ?_
    beta_reduce
    rw [symOf_entry c i j, e0, ← sub_div, abs_div, abs_two]
    gcongr
    have k1 := abs_sub (quad (symOf c) (Pi.single i 1 + Pi.single j 1) - quad S₀ (Pi.single i 1 + Pi.single j 1) -
      (quad (symOf c) (Pi.single i 1) - quad S₀ (Pi.single i 1))) (quad (symOf c) (Pi.single j 1) - quad S₀ (Pi.single j 1))
    have k2 := abs_sub (quad (symOf c) (Pi.single i 1 + Pi.single j 1) - quad S₀ (Pi.single i 1 + Pi.single j 1))
      (quad (symOf c) (Pi.single i 1) - quad S₀ (Pi.single i 1))
    refine le_trans (le_of_eq ?_) (k1.trans (add_le_add_left k2 _))
    congr 1; ring

end

end Conj
