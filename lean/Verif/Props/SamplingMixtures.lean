import Verif.Props.SamplingLaws
import Verif.Props.PredictiveGeometricPoisson

/-!
# C87: `rvs` of the hand-written distributions against their pdf / pmf
-/

open MeasureTheory Set

set_option linter.unusedSectionVars false

namespace Conj

open Scipy Spec

variable {P : Measure Stream} [IsProbabilityMeasure P] {ι : Type}

/-- C87. `compound_gamma.rvs` returns independent draws from the density `compound_gamma.pdf`. -/
theorem C87_compound_gamma (lib : Samplers ι) (hlib : CorrectScalar lib P) (d : CompoundGamma ℝ)
    (ha : 0 < d.alpha) (hb : 0 < d.beta) (hl : 0 < d.lam) (size : ℕ) :
    FreshRun (d.rvs lib size) fun f => IIDSampleThen P size f (lawOn (Ioi 0) d.pdf) := by
  have h₀ := hlib.gamma d.beta hb
  have hl' : (1 / d.lam : ℝ) ∈ Ioi (0 : ℝ) := by simp [hl]
  have hg : Measurable fun t : ℝ => 1 / t := by fun_prop
  have h := (hlib.gamma d.alpha ha).comp hg
  have e0 := gamma_lawOn ⟨d.beta, d.lam⟩ hl
  have hT : ∀ᵐ t ∂(contLaw (Gamma.dist ⟨d.beta, d.lam⟩)), t ∈ (fun t : ℝ => 1 / t) ⁻¹' Ioi 0 := by
    rw [e0]
    filter_upwards [ae_lawOn_mem measurableSet_Ioi _] with t ht
    have : 0 < t := ht
    simp [this]
  have hG := Gamma.isDensity ⟨d.beta, d.lam⟩ hb hl
  have hA : ∀ t ∈ Ioi (0 : ℝ), IsDensity volume (Ioi 0) (fun x => (Gamma.dist ⟨d.alpha, t⟩).pdf x) :=
    fun t ht => Gamma.isDensity ⟨d.alpha, t⟩ ha ht
  have hprod : IsDensity (volume : Measure (ℝ × ℝ)) (Ioi 0 ×ˢ Ioi 0)
      (fun p => (Gamma.dist ⟨d.beta, d.lam⟩).pdf p.2 * (Gamma.dist ⟨d.alpha, p.2⟩).pdf p.1) := by
    rw [Measure.volume_eq_prod]
    refine isDensity_prod (h := fun x t => (Gamma.dist ⟨d.alpha, t⟩).pdf x) measurableSet_Ioi measurableSet_Ioi hG hA ?_
    have hmeas : Measurable (fun p : ℝ × ℝ =>
        (d.lam ^ d.beta / Real.Gamma d.beta * p.2 ^ (d.beta - 1) * Real.exp (-(d.lam * p.2))) *
        (p.2 ^ d.alpha / Real.Gamma d.alpha * p.1 ^ (d.alpha - 1) * Real.exp (-(p.2 * p.1)))) := by
      fun_prop
    refine hmeas.aestronglyMeasurable.congr ?_
    filter_upwards [ae_restrict_mem (measurableSet_Ioi.prod measurableSet_Ioi)] with p hp
    have hp1 : 0 < p.1 := hp.1
    have hp2 : 0 < p.2 := hp.2
    rw [Gamma.pdf_eq ⟨d.beta, d.lam⟩ hl hp2, Gamma.pdf_eq ⟨d.alpha, p.2⟩ hp2 hp1]
  have hμ : ∀ f : ℝ → ENNReal, Measurable f → ∫⁻ x, f x ∂(lawOn (Ioi 0) d.pdf) =
      ∫⁻ t, ∫⁻ x, f (id x) ∂(contLaw { family := .gamma d.alpha, scale := 1 / t })
        ∂(contLaw { family := .gamma d.beta, scale := 1 / d.lam }) := by
    intro f hf
    have e1 : ∫⁻ t, ∫⁻ x, f (id x) ∂(contLaw { family := .gamma d.alpha, scale := 1 / t })
        ∂(contLaw { family := .gamma d.beta, scale := 1 / d.lam }) =
        ∫⁻ t, ∫⁻ x, f x ∂(lawOn (Ioi 0) (Gamma.dist ⟨d.alpha, t⟩).pdf)
        ∂(lawOn (Ioi 0) (Gamma.dist ⟨d.beta, d.lam⟩).pdf) := by
      have e0' : contLaw { family := .gamma d.beta, scale := 1 / d.lam } =
        lawOn (Ioi 0) (Gamma.dist ⟨d.beta, d.lam⟩).pdf := e0
      rw [e0']
      refine lintegral_congr_ae ?_
      filter_upwards [ae_lawOn_mem measurableSet_Ioi _] with t ht
      rw [← gamma_lawOn ⟨d.alpha, t⟩ ht]
      rfl
    rw [e1, lintegral_lawOn (C55_compound_gamma_normalised d ha hb hl) hf,
      ← lintegral_lawOn_prod (S := Ioi 0) (T := Ioi 0) (g := (Gamma.dist ⟨d.beta, d.lam⟩).pdf)
        (h := fun x t => (Gamma.dist ⟨d.alpha, t⟩).pdf x) measurableSet_Ioi hG hA hprod
        (F := fun z => f z.1) (hf.comp measurable_fst),
      lintegral_lawOn hprod (F := fun z => f z.1) (hf.comp measurable_fst)]
    have hr : (volume : Measure (ℝ × ℝ)).restrict (Ioi 0 ×ˢ Ioi 0) =
        (volume.restrict (Ioi 0)).prod (volume.restrict (Ioi 0)) := (Measure.prod_restrict _ _).symm
    have hm : AEMeasurable (fun z : ℝ × ℝ => ENNReal.ofReal ((Gamma.dist ⟨d.beta, d.lam⟩).pdf z.2 *
        (Gamma.dist ⟨d.alpha, z.2⟩).pdf z.1) * f z.1) ((volume.restrict (Ioi 0)).prod (volume.restrict (Ioi 0))) := by
      rw [← hr]
      exact hprod.2.1.aestronglyMeasurable.aemeasurable.ennreal_ofReal.mul (hf.comp measurable_fst).aemeasurable
    rw [hr, lintegral_prod _ hm]
    refine setLIntegral_congr_fun measurableSet_Ioi fun x hx => ?_
    have hpred := C29_gamma_known_shape_predictive d.alpha ha ⟨d.beta, d.lam⟩ hb hl x hx
    dsimp only
    have hi : AEMeasurable (fun t => ENNReal.ofReal ((Gamma.dist ⟨d.beta, d.lam⟩).pdf t *
        (Gamma.dist ⟨d.alpha, t⟩).pdf x)) (volume.restrict (Ioi 0)) := by
      have := hpred.1.aestronglyMeasurable.aemeasurable.ennreal_ofReal
      simpa only [mul_comm] using this
    rw [lintegral_mul_const'' _ hi]
    congr 1
    rw [show d.pdf x = _ from hpred.2, ofReal_integral_eq_lintegral_ofReal hpred.1]
    · simp only [mul_comm]
    · filter_upwards [ae_restrict_mem measurableSet_Ioi] with t ht
      exact mul_nonneg ((hA t ht).1 x hx) (hG.1 t ht)
  have key := iid_second_stage h₀ hl' h hT measurable_id hμ size
  simp only [List.map_id] at key
  exact ⟨fun _ => key, fun _ => key⟩

example (d : CompoundGamma ℝ) (h : d = ⟨2, 3, 4⟩) : ∃ lib : Samplers (Fin 2),
    FreshRun (d.rvs lib 7) fun f => IIDSampleThen streamLaw 7 f (lawOn (Ioi 0) d.pdf) := by
  obtain ⟨lib, h1, -⟩ := exists_library 2
  subst h
  exact ⟨lib, C87_compound_gamma lib h1 _ (by norm_num) (by norm_num) (by norm_num) 7⟩

/-! ## beta_geometric -/

/-- the first value of the support -/
def BetaGeometric.first (d : BetaGeometric ℝ) : ℝ := if d.one_start then 1 else 0

/-- C87. `beta_geometric.rvs` returns independent draws, and the probability of `k` is what
`beta_geometric.pmf` reports for `k - 1`. Missing: the pmf at `k` itself (false). -/
theorem C87_beta_geometric_shifted_partial (lib : Samplers ι) (hlib : CorrectScalar lib P) (d : BetaGeometric ℝ)
    (ha : 0 < d.alpha) (hb : 0 < d.beta) (size : ℕ) :
    FreshRun (d.rvs lib size) fun f =>
      IIDSampleThen P size f (countLaw d.first fun k => d.pmf (k - 1)) := by
  have h₀ := hlib.beta d.alpha ha d.beta hb
  have e0 := beta_lawOn ⟨d.alpha, d.beta⟩
  have hT : ∀ᵐ p ∂(contLaw (Beta.dist ⟨d.alpha, d.beta⟩)), p ∈ Ioo (0 : ℝ) 1 := by
    rw [e0]; exact ae_lawOn_mem measurableSet_Ioo _
  have hB := Beta.isDensity ⟨d.alpha, d.beta⟩ ha hb
  have hr : Measurable fun x : ℝ => if !d.one_start then x - 1 else x := by
    cases d.one_start <;> simp <;> fun_prop
  have hμ : ∀ f : ℝ → ENNReal, Measurable f → ∫⁻ x, f x ∂(countLaw d.first fun k => d.pmf (k - 1)) =
      ∫⁻ p, ∫⁻ x, f (if !d.one_start then x - 1 else x) ∂((discLaw { family := .geom p }).map fun k : ℤ => (k : ℝ))
        ∂(contLaw { family := .beta d.alpha d.beta }) := by
    intro f hf
    rw [lintegral_countLaw _ _ hf, show contLaw { family := .beta d.alpha d.beta } = _ from e0]
    have e1 : ∀ p : ℝ, ∫⁻ x, f (if !d.one_start then x - 1 else x)
        ∂((discLaw { family := .geom p }).map fun k : ℤ => (k : ℝ)) =
        ∑' m : ℕ, ENNReal.ofReal ((1 - p) ^ m * p) * f (d.first + m) := by
      intro p
      rw [lintegral_geom (f := fun x => f (if !d.one_start then x - 1 else x)) (hf.comp hr)]
      refine tsum_congr fun m => ?_
      congr 2
      simp only [BetaGeometric.first]
      cases d.one_start <;> simp
    simp only [e1]
    rw [lintegral_tsum fun m => by fun_prop]
    refine tsum_congr fun m => ?_
    rw [lintegral_mul_const _ (by fun_prop), lintegral_lawOn hB (by fun_prop)]
    congr 1
    have hp := geometric_predictive_true ⟨d.alpha, d.beta⟩ ha hb m
    have e2 : d.pmf (d.first + m - 1) = ∫ p in Ioo (0 : ℝ) 1, (1 - p) ^ m * p * (Beta.dist ⟨d.alpha, d.beta⟩).pdf p := by
      rw [← hp.2]
      simp only [BetaGeometric.pmf, betaGeometricPmf, BetaGeometric.first]
      cases d.one_start <;> simp <;> ring_nf
    rw [e2, ofReal_integral_eq_lintegral_ofReal hp.1]
    · refine setLIntegral_congr_fun measurableSet_Ioo fun p hp => ?_
      dsimp only
      have h1 : 0 ≤ (1 - p) ^ m * p := mul_nonneg (pow_nonneg (by linarith [hp.2]) _) hp.1.le
      rw [ENNReal.ofReal_mul h1, mul_comm]
    · filter_upwards [ae_restrict_mem measurableSet_Ioo] with p hp
      exact mul_nonneg (mul_nonneg (pow_nonneg (by linarith [hp.2]) _) hp.1.le) (hB.1 p hp)
  have key := iid_second_stage h₀ (mem_univ ()) hlib.geom hT hr hμ size
  refine ⟨fun g => ?_, fun g => ?_⟩
  all_goals
    convert key using 3
    · simp only [BetaGeometric.rvs, Conj.rvs]
      cases d.one_start <;> simp
    · simp only [BetaGeometric.rvs, Conj.rvs]

/-- C87 (disagreement). `beta_geometric.rvs` never draws from `beta_geometric.pmf`. -/
theorem C87_beta_geometric_false (lib : Samplers ι) (d : BetaGeometric ℝ)
    (ha : 0 < d.alpha) (hb : 0 < d.beta) (size : ℕ) (hsize : size ≠ 0) :
    ¬ FreshStream (d.rvs lib size) fun f => IIDSample P size f (countLaw d.first d.pmf) := by
  intro h
  obtain ⟨X, hX, -, hP⟩ := h.1 (fun _ => 0)
  have hu : countLaw d.first d.pmf univ = ENNReal.ofReal (d.beta / (d.alpha + d.beta)) := by
    have := lintegral_countLaw d.first d.pmf (f := fun _ => 1) measurable_const
    rw [lintegral_one] at this
    rw [this]
    have hs := C55_beta_geometric_total d ha hb
    have e : ∀ m : ℕ, d.pmf (d.first + m) = d.pmf (if d.one_start then (m : ℝ) + 1 else m) := fun m => by
      simp only [BetaGeometric.first]; cases d.one_start <;> simp [add_comm]
    simp only [e, mul_one]
    rw [← hs.tsum_eq, ENNReal.ofReal_tsum_of_nonneg _ hs.summable]
    intro m
    rw [← e]
    simp only [BetaGeometric.pmf, betaGeometricPmf, BetaGeometric.first]
    refine div_nonneg (betaFn_pos (by positivity) ?_).le (betaFn_pos ha hb).le
    cases d.one_start <;> simp <;> positivity
  have hfin : IsFiniteMeasure (countLaw d.first d.pmf) := ⟨by rw [hu]; exact ENNReal.ofReal_lt_top⟩
  have h1 : P.map X univ = 1 := by
    have := Measure.isProbabilityMeasure_map (μ := P) hX.aemeasurable
    exact measure_univ
  rw [hP, Measure.pi_univ] at h1
  simp only [Finset.prod_const, Finset.card_univ, Fintype.card_fin, hu] at h1
  have hlt : ENNReal.ofReal (d.beta / (d.alpha + d.beta)) < 1 := by
    rw [ENNReal.ofReal_lt_one, div_lt_one (by positivity)]
    linarith
  exact absurd h1 (pow_lt_one₀ zero_le hlt hsize).ne

example (d : BetaGeometric ℝ) (h : d = ⟨2, 3, true⟩) : ∃ lib : Samplers (Fin 2),
    FreshRun (d.rvs lib 7) (fun f => IIDSampleThen streamLaw 7 f (countLaw d.first fun k => d.pmf (k - 1))) ∧
    ¬ FreshStream (d.rvs lib 7) fun f => IIDSample streamLaw 7 f (countLaw d.first d.pmf) := by
  obtain ⟨lib, h1, -⟩ := exists_library 2
  subst h
  exact ⟨lib, C87_beta_geometric_shifted_partial lib h1 _ (by norm_num) (by norm_num) 7,
    C87_beta_geometric_false lib _ (by norm_num) (by norm_num) 7 (by norm_num)⟩

end Conj
