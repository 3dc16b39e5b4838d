import Verif.Props.Calibration
import Verif.Props.Monotone
import Verif.Props.Exponential
import Mathlib.MeasureTheory.Measure.OpenPos
import Mathlib.Analysis.SpecialFunctions.Gamma.Deriv

/-!
# C103 for exponential data

The regions announced by `exponential_gamma` do not contain the unknown as often as they announce, whether the unknown
is read as a rate or, as in `scripts/parameter-recovery.py`, as the mean of the observations.
-/

open MeasureTheory Set Real

namespace Conj

open Scipy Spec

variable {Ω : Type} [MeasurableSpace Ω] {P : Measure Ω} {n : ℕ}

theorem exponential_lawOn {s : ℝ} (hs : 0 < s) :
    contLaw (Exponential.dist ⟨s⟩) = lawOn (Ioi 0) (Exponential.dist ⟨s⟩).pdf := by
  refine contLaw_eq_lawOn _ measurableSet_Ioi ?_
  have h0 : ∀ᵐ x : ℝ, x ≠ 0 := by simp [ae_iff]
  filter_upwards [h0] with x hx0 hx
  have hx : x < 0 := lt_of_le_of_ne (not_lt.1 hx) hx0
  have h : ¬ 0 ≤ x / s := not_le.2 (div_neg_of_neg_of_pos hx hs)
  simp [Cont.pdf, Exponential.dist, Family.std, h]

theorem exponential_prob {s : ℝ} (hs : 0 < s) : IsProbabilityMeasure (contLaw (Exponential.dist ⟨s⟩)) := by
  rw [exponential_as_gamma hs]
  exact gamma_prob one_pos (by positivity)

theorem sum_ofFn_nonneg {x : Fin n → ℝ} (hx : ∀ i, x i ∈ Ioi (0 : ℝ)) : 0 ≤ ∑ i, x i :=
  Finset.sum_nonneg fun i _ => le_of_lt (hx i)

section Rate

variable (prior : Gamma ℝ) (ha : 0 < prior.alpha) (hb : 0 < prior.beta)
include ha hb

theorem bayes_exponential : BayesModel (Ioi 0) prior.dist.pdf
    (fun _ : Fin n => volume.restrict (Ioi 0)) (fun _ => Ioi 0) (fun _ r a => (Exponential.dist ⟨1 / r⟩).pdf a)
    (fun x => (exponential_gamma (n : ℝ) (∑ i, x i) prior).dist.pdf) (contLaw prior.dist)
    (fun _ r => contLaw (Exponential.dist ⟨1 / r⟩))
    (fun x => contLaw (exponential_gamma (n : ℝ) (∑ i, x i) prior).dist) := by
  refine bayes_cont (d := fun r => Exponential.dist ⟨1 / r⟩)
    (post := fun x => (exponential_gamma (n : ℝ) (∑ i, x i) prior).dist) measurableSet_Ioi (gamma_lawOn _ hb)
    (Gamma.isDensity _ ha hb) (measurable_pdf (measurable_std_gamma _) _ _) measurableSet_Ioi
    (fun r hr => exponential_lawOn (one_div_pos.2 hr)) (measurable_loc_scale (loc := fun _ : ℝ => 0)
      (scale := fun θ : ℝ => 1 / θ) measurable_std_expon measurable_const (by fun_prop))
    (fun r hr => exponential_prob (one_div_pos.2 hr))
    (fun r hr a ha => ?_) (fun x hx => ?_) fun x hx => gamma_lawOn _ ?_
  · have hr : 0 < r := hr
    rw [Exponential.pdf_eq _ (by positivity) (le_of_lt ha)]
    positivity
  · have h := C06_exponential_gamma_swapped_partial prior ha hb (List.ofFn x) (forall_ofFn hx)
    rw [List.sum_ofFn, List.length_ofFn] at h
    exact h
  · have := sum_ofFn_nonneg hx
    simp only [exponential_gamma, getExponentialGammaPosteriorParams, getPoissonGammaPosteriorParams]
    positivity

/-- C103 (partial). Called with its two data arguments exchanged, `exponential_gamma` announces correctly for the
rate. What is missing: the call as documented, for which the claim is false. -/
theorem C103_exponential_gamma_swapped_partial {θ : Ω → ℝ} {X : Ω → Fin n → ℝ}
    (h : DrawThenObserve P θ X (contLaw prior.dist) fun _ r => contLaw (Exponential.dist ⟨1 / r⟩)) :
    Calibrated P θ X (fun x => contLaw (exponential_gamma (n : ℝ) (∑ i, x i) prior).dist) ∧
    IntervalCoverage P θ X fun x => contLaw (exponential_gamma (n : ℝ) (∑ i, x i) prior).dist :=
  (bayes_exponential prior ha hb).both h

/-- C103 (disagreement). With at least one observation the announcements of `exponential_gamma` are wrong for the
rate. -/
theorem C103_exponential_gamma_rate_false (hn : 0 < n) {θ : Ω → ℝ} {X : Ω → Fin n → ℝ}
    (h : DrawThenObserve P θ X (contLaw prior.dist) fun _ r => contLaw (Exponential.dist ⟨1 / r⟩)) :
    ¬ Calibrated P θ X (fun x => contLaw (exponential_gamma (∑ i, x i) (n : ℝ) prior).dist) := by
  have hB := bayes_exponential (n := n) prior ha hb
  have hP := hB.prob h
  obtain ⟨U, hU⟩ : ∃ U : Set (Fin n → ℝ), U = univ.pi fun _ => Ioo 0 1 := ⟨_, rfl⟩
  have hUm : MeasurableSet U := by rw [hU]; exact MeasurableSet.univ_pi fun _ => measurableSet_Ioo
  have hUD : ∀ x ∈ U, ∀ i, x i ∈ Ioi (0 : ℝ) := fun x hx i => by
    rw [hU] at hx
    exact (hx i (mem_univ i)).1
  have hlaw : ∀ a b : ℝ, 0 ≤ a → 0 ≤ b →
      contLaw (exponential_gamma a b prior).dist (Ioi 1) =
        ENNReal.ofReal (tailProb (Ioi 0) (poisson_gamma a b prior).dist.pdf 1) := fun a b h1 h2 => by
    have hv : (exponential_gamma a b prior).Valid := ⟨by
      simp only [exponential_gamma, getExponentialGammaPosteriorParams, getPoissonGammaPosteriorParams]; positivity, by
      simp only [exponential_gamma, getExponentialGammaPosteriorParams, getPoissonGammaPosteriorParams]; positivity⟩
    have hd := Gamma.isDensity _ hv.1 hv.2
    rw [gamma_lawOn _ hv.2, lawOn, withDensity_apply _ measurableSet_Ioi, Measure.restrict_restrict measurableSet_Ioi,
      inter_comm, tailProb, ← C06_exponential_gamma_is_poisson_gamma,
      ofReal_integral_eq_lintegral_ofReal (hd.2.1.mono_set inter_subset_left)]
    filter_upwards [ae_restrict_mem (measurableSet_Ioi.inter measurableSet_Ioi)] with t ht
    exact hd.1 t ht.1
  have hlt : ∀ x ∈ U, contLaw (exponential_gamma (∑ i, x i) (n : ℝ) prior).dist (Ioi 1) <
      contLaw (exponential_gamma (n : ℝ) (∑ i, x i) prior).dist (Ioi 1) := fun x hx => by
    have h0 := sum_ofFn_nonneg (hUD x hx)
    have h1 : ∑ i, x i < n := by
      have : ∑ i, x i < ∑ _i : Fin n, (1 : ℝ) := by
        refine Finset.sum_lt_sum_of_nonempty ?_ fun i _ => ?_
        · exact ⟨⟨0, hn⟩, Finset.mem_univ _⟩
        · rw [hU] at hx
          exact (hx i (mem_univ i)).2
      simpa using this
    rw [hlaw _ _ h0 (Nat.cast_nonneg n), hlaw _ _ (Nat.cast_nonneg n) h0]
    have hh := Higher.trans (C99_poisson_gamma_events prior ⟨ha, hb⟩ (Nat.cast_nonneg n) h0 h1)
      (C99_poisson_gamma_exposure prior ⟨ha, hb⟩ h0 (Nat.cast_nonneg n) h1) 1 (mem_Ioi.2 one_pos)
    refine (ENNReal.ofReal_lt_ofReal_iff_of_nonneg ?_).2 hh
    refine setIntegral_nonneg (measurableSet_Ioi.inter measurableSet_Ioi) fun t ht => ?_
    refine (Gamma.isDensity _ ?_ ?_).1 t ht.1 <;> simp only [poisson_gamma, getPoissonGammaPosteriorParams] <;> positivity
  have hC : MeasurableSet {z : ℝ × (Fin n → ℝ) | z.1 ∈ {t : ℝ | z.2 ∈ U ∧ 1 < t}} :=
    (measurable_snd hUm).inter (measurable_fst measurableSet_Ioi)
  have hin : ∀ x ∈ U, {t : ℝ | x ∈ U ∧ 1 < t} = Ioi 1 := fun x hx => by ext t; exact and_iff_right hx
  have hout : ∀ x ∉ U, {t : ℝ | x ∈ U ∧ 1 < t} = ∅ := fun x hx => by
    ext t; exact iff_of_false (fun h => hx h.1) (notMem_empty t)
  refine hB.not_calibrated h (C := fun x => {t : ℝ | x ∈ U ∧ 1 < t}) hC (fun x _ => ?_) hUm hUD ?_ fun x hx => ?_
  · by_cases hx : x ∈ U
    · rw [hin x hx]
      exact (hlt x hx).le
    · rw [hout x hx]
      simp
  · rw [hU, Measure.pi_pi]
    refine Finset.prod_ne_zero_iff.2 fun i _ => ?_
    rw [Measure.restrict_apply measurableSet_Ioo, inter_eq_left.2 (fun x hx => hx.1), Real.volume_Ioo]
    simp
  · rw [hin x hx]
    exact hlt x hx

end Rate

section Mean

theorem exponential_mean_integrable (prior : Gamma ℝ) (ha : 0 < prior.alpha) (hb : 0 < prior.beta) {x : Fin n → ℝ}
    (hx : ∀ i, x i ∈ Ioi (0 : ℝ)) :
    IntegrableOn (fun t => prior.dist.pdf t * ∏ i, (Exponential.dist ⟨t⟩).pdf (x i)) (Ioi 0) := by
  have hd := Gamma.isDensity prior ha hb
  have hm : Measurable fun t => ∏ i, (Exponential.dist ⟨t⟩).pdf (x i) :=
    Finset.measurable_prod _ fun i _ => (measurable_loc_scale (loc := fun _ : ℝ => 0)
      (scale := fun θ : ℝ => θ) measurable_std_expon measurable_const measurable_id).comp
        (measurable_id.prodMk measurable_const)
  refine Integrable.mono' (hd.2.1.mul_const (∏ i, 1 / x i))
    ((measurable_pdf (measurable_std_gamma _) _ _).mul hm).aestronglyMeasurable ?_
  filter_upwards [ae_restrict_mem measurableSet_Ioi] with t ht
  have ht : 0 < t := ht
  have h1 : ∀ i, 0 ≤ (Exponential.dist ⟨t⟩).pdf (x i) ∧ (Exponential.dist ⟨t⟩).pdf (x i) ≤ 1 / x i := fun i => by
    have hi : 0 < x i := hx i
    rw [Exponential.pdf_eq _ ht hi.le]
    refine ⟨by positivity, ?_⟩
    have h2 : x i / t ≤ exp (x i / t) := by have := add_one_le_exp (x i / t); linarith
    have h3 : x i ≤ exp (x i / t) * t := (div_le_iff₀ ht).1 h2
    rw [div_le_div_iff₀ ht hi, one_mul, exp_neg, inv_mul_le_iff₀ (exp_pos _)]
    exact h3
  rw [Real.norm_eq_abs, abs_of_nonneg (mul_nonneg (hd.1 t ht) (Finset.prod_nonneg fun i _ => (h1 i).1))]
  exact mul_le_mul_of_nonneg_left (Finset.prod_le_prod (fun i _ => (h1 i).1) fun i _ => (h1 i).2) (hd.1 t ht)

theorem gamma_continuousOn (d : Gamma ℝ) (hb : 0 < d.beta) : ContinuousOn d.dist.pdf (Ioi 0) := by
  refine ContinuousOn.congr (f := fun t => d.beta ^ d.alpha / Real.Gamma d.alpha * t ^ (d.alpha - 1) *
    exp (-(d.beta * t))) (fun t ht => ContinuousAt.continuousWithinAt ?_) fun t ht => Gamma.pdf_eq _ hb ht
  have ht : t ≠ 0 := ne_of_gt ht
  fun_prop (disch := exact Or.inl ht)

theorem exponential_continuousOn {x : ℝ} (hx : 0 < x) :
    ContinuousOn (fun t => (Exponential.dist ⟨t⟩).pdf x) (Ioi 0) := by
  refine ContinuousOn.congr (f := fun t => exp (-(x / t)) / t) (fun t ht => ContinuousAt.continuousWithinAt ?_)
    fun t ht => Exponential.pdf_eq _ ht hx.le
  have ht : t ≠ 0 := ne_of_gt ht
  fun_prop (disch := exact ht)

variable (prior : Gamma ℝ) (ha : 0 < prior.alpha) (hb : 0 < prior.beta)
include ha hb

/-- Bayes' rule for the mean of exponential observations; the posterior is not a Gamma distribution -/
theorem bayes_exponential_mean : BayesModel (Ioi 0) prior.dist.pdf
    (fun _ : Fin n => volume.restrict (Ioi 0)) (fun _ => Ioi 0) (fun _ m a => (Exponential.dist ⟨m⟩).pdf a)
    (fun x t => prior.dist.pdf t * (∏ i, (Exponential.dist ⟨t⟩).pdf (x i)) /
      ∫ t in Ioi 0, prior.dist.pdf t * ∏ i, (Exponential.dist ⟨t⟩).pdf (x i)) (contLaw prior.dist)
    (fun _ m => contLaw (Exponential.dist ⟨m⟩))
    (fun x => lawOn (Ioi 0) fun t => prior.dist.pdf t * (∏ i, (Exponential.dist ⟨t⟩).pdf (x i)) /
      ∫ t in Ioi 0, prior.dist.pdf t * ∏ i, (Exponential.dist ⟨t⟩).pdf (x i)) where
  hS := measurableSet_Ioi
  hD _ := measurableSet_Ioi
  hν _ := ae_restrict_mem measurableSet_Ioi
  prior_meas := measurable_pdf (measurable_std_gamma _) _ _
  prior_dens := Gamma.isDensity _ ha hb
  meas _ := measurable_loc_scale (loc := fun _ : ℝ => 0)
      (scale := fun θ : ℝ => θ) measurable_std_expon measurable_const measurable_id
  nonneg _ t ht a ha := by
    have ht : 0 < t := ht
    rw [Exponential.pdf_eq _ ht (le_of_lt ha)]
    positivity
  prior_law := gamma_lawOn _ hb
  model_law _ t ht := exponential_lawOn ht
  model_prob _ t ht := exponential_prob ht
  bayes x hx := by
    refine ⟨?_, fun t _ => rfl⟩
    refine (setIntegral_pos_iff_support_of_nonneg_ae ?_ (exponential_mean_integrable prior ha hb hx)).2 ?_
    · filter_upwards [ae_restrict_mem measurableSet_Ioi] with t ht
      have ht : 0 < t := ht
      refine mul_nonneg ((Gamma.isDensity _ ha hb).1 t ht) (Finset.prod_nonneg fun i _ => ?_)
      rw [Exponential.pdf_eq _ ht (le_of_lt (hx i))]
      positivity
    · have : Function.support (fun t => prior.dist.pdf t * ∏ i, (Exponential.dist ⟨t⟩).pdf (x i)) ∩ Ioi 0 = Ioi 0 := by
        refine inter_eq_right.2 fun t ht => ?_
        have ht : 0 < t := ht
        refine mul_ne_zero ?_ (Finset.prod_ne_zero_iff.2 fun i _ => ?_)
        · rw [Gamma.pdf_eq prior hb ht]
          have := Real.Gamma_pos_of_pos ha
          positivity
        · rw [Exponential.pdf_eq _ ht (le_of_lt (hx i))]
          positivity
      rw [this]
      simp
  post_law _ _ := rfl

/-- C103 (disagreement). With at least one observation the announcements of `exponential_gamma` are wrong for the
mean too. -/
theorem C103_exponential_gamma_mean_false (hn : 0 < n) {θ : Ω → ℝ} {X : Ω → Fin n → ℝ}
    (h : DrawThenObserve P θ X (contLaw prior.dist) fun _ m => contLaw (Exponential.dist ⟨m⟩)) :
    ¬ Calibrated P θ X (fun x => contLaw (exponential_gamma (∑ i, x i) (n : ℝ) prior).dist) := by
  have hB := bayes_exponential_mean (n := n) prior ha hb
  have hP := hB.prob h
  have hv : ∀ x : Fin n → ℝ, (∀ i, x i ∈ Ioi (0 : ℝ)) → 0 < prior.alpha + ∑ i, x i ∧ 0 < prior.beta + n := fun x hx => by
    have := sum_ofFn_nonneg hx
    exact ⟨by positivity, by positivity⟩
  have hpos : ∀ x : Fin n → ℝ, 0 < prior.alpha + |∑ i, x i| := fun x => by positivity
  have hG : Continuous fun x : Fin n → ℝ => Real.Gamma (prior.alpha + |∑ i, x i|) := by
    refine continuous_iff_continuousAt.2 fun x => ?_
    have h1 : ContinuousAt Real.Gamma (prior.alpha + |∑ i, x i|) :=
      (Real.differentiableAt_Gamma fun m => by have := hpos x; have : (0 : ℝ) ≤ m := Nat.cast_nonneg m; linarith).continuousAt
    exact ContinuousAt.comp (f := fun x : Fin n → ℝ => prior.alpha + |∑ i, x i|) h1 (by fun_prop)
  refine hB.not_calibrated_dens h (q := fun x t => (Gamma.dist ⟨prior.alpha + |∑ i, x i|, prior.beta + n⟩).pdf t)
    ?_ (fun x hx => ?_) (fun x hx => ?_) (U := univ.pi fun _ => Ioi 0) (MeasurableSet.univ_pi fun _ => measurableSet_Ioi)
    (fun x hx i => hx i (mem_univ i)) ?_ fun x hx hae => ?_
  · simp only [Gamma.dist, Cont.pdf, Family.std]
    refine Measurable.div_const (Measurable.ite ?_ ?_ measurable_const) _
    · exact measurableSet_le measurable_const (by fun_prop)
    · have h1 : Measurable fun z : ℝ × (Fin n → ℝ) => Real.Gamma (prior.alpha + |∑ i, z.2 i|) :=
        hG.measurable.comp measurable_snd
      fun_prop
  · exact Gamma.isDensity _ (hpos x) (hv x hx).2
  · have h0 := sum_ofFn_nonneg hx
    rw [abs_of_nonneg h0]
    exact gamma_lawOn _ (hv x hx).2
  · rw [Measure.pi_pi]
    refine Finset.prod_ne_zero_iff.2 fun i _ => ?_
    simp
  · have hx : ∀ i, x i ∈ Ioi (0 : ℝ) := fun i => hx i (mem_univ i)
    have h0 := sum_ofFn_nonneg hx
    rw [abs_of_nonneg h0] at hae
    have he := Measure.eqOn_open_of_ae_eq hae isOpen_Ioi ?_ ?_
    · refine C06_exponential_gamma_mean_false prior ha hb (List.ofFn x) (fun h => ?_) (forall_ofFn hx) ?_
      · have := congrArg List.length h
        simp at this
        omega
      · obtain ⟨h1, h2⟩ := hB.bayes x hx
        rw [C06_statement_mean, likelihood_ofFn, List.sum_ofFn, List.length_ofFn]
        exact ⟨h1, fun t ht => (he ht).trans (h2 t ht)⟩
    · exact gamma_continuousOn _ (hv x hx).2
    · exact ContinuousOn.div_const ((gamma_continuousOn _ hb).mul
        (continuousOn_finsetProd _ fun i _ => exponential_continuousOn (hx i))) _

end Mean

example := (bayes_exponential (n := 3) ⟨1, 2⟩ one_pos two_pos).exists_draw
example := (bayes_exponential_mean (n := 3) ⟨1, 2⟩ one_pos two_pos).exists_draw

/-- the setting of `scripts/parameter-recovery.py`: five observations, prior `Gamma(1, 1)` -/
example : ∃ (Ω : Type) (_ : MeasurableSpace Ω) (P : Measure Ω) (θ : Ω → ℝ) (X : Ω → Fin 5 → ℝ),
    DrawThenObserve P θ X (contLaw (Gamma.dist ⟨1, 1⟩)) (fun _ m => contLaw (Exponential.dist ⟨m⟩)) ∧
    ¬ Calibrated P θ X (fun x => contLaw (exponential_gamma (∑ i, x i) ((5 : ℕ) : ℝ) ⟨1, 1⟩).dist) := by
  obtain ⟨Ω, m, P, θ, X, -, h⟩ := (bayes_exponential_mean (n := 5) ⟨1, 1⟩ one_pos one_pos).exists_draw
  exact ⟨Ω, m, P, θ, X, h, C103_exponential_gamma_mean_false ⟨1, 1⟩ one_pos one_pos (by norm_num) h⟩

end Conj
