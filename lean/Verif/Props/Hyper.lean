import Verif.Lemmas.Hyper
import Verif.Props.PosteriorScalar
import Verif.Props.Identifiable

/-!
# C121: random variables for the parameters of the prior

docs/examples/generalized-inputs.md, section "PyMC": "Use PyMC distributions for sampling with additional uncertainty". The
parameters of the prior are given distributions, the update is computed with them and posteriors are drawn.
-/

open MeasureTheory Set

namespace Conj

open Spec

/-! ### any model -/

section generic

variable {H : Type*} [MeasurableSpace H] {Θ : Type} [MeasureSpace Θ] [SFinite (volume : Measure Θ)]
  {S : Set Θ} {prior post : H → Θ → ℝ} {lik : Θ → ℝ}

/-- For any model whose update is right at fixed parameters of the prior: drawing those parameters from their law and then
drawing from the posterior at the drawn parameters gives the joint posterior exactly if the predictive probability of the
data does not depend on the parameters of the prior. -/
theorem C121_draw_iff (ν : Measure H) [IsProbabilityMeasure ν] (hS : MeasurableSet S)
    (hp : Measurable (Function.uncurry prior)) (hpo : Measurable (Function.uncurry post)) (hl : Measurable lik)
    (h0 : ∀ h, ∀ θ ∈ S, 0 ≤ prior h θ) (hd : ∀ h, IsDensity volume S (post h))
    (h : ∀ h, IsPosterior volume S (prior h) lik (post h)) :
    twoStage ν S post = jointPosterior ν S prior lik ↔
      ∃ c, ∀ᵐ x ∂ν, ∫ θ in S, prior x θ * lik θ = c :=
  jointPosterior_iff hS hp hpo hl h0 h hd

/-- What would be right: draw the parameters of the prior with weights given by the predictive probability of the data, then
from the posterior. -/
theorem C121_reweighted (ν : Measure H) [IsProbabilityMeasure ν] (hS : MeasurableSet S)
    (hp : Measurable (Function.uncurry prior)) (hpo : Measurable (Function.uncurry post)) (hl : Measurable lik)
    (h0 : ∀ h, ∀ θ ∈ S, 0 ≤ prior h θ) (hd : ∀ h, IsDensity volume S (post h))
    (h : ∀ h, IsPosterior volume S (prior h) lik (post h)) :
    jointPosterior ν S prior lik = (∫⁻ x, ENNReal.ofReal (∫ θ in S, prior x θ * lik θ) ∂ν)⁻¹ •
      twoStage (ν.withDensity fun x => ENNReal.ofReal (∫ θ in S, prior x θ * lik θ)) S post := by
  rw [jointPosterior_eq hS hp hpo hl h0 h hd]
  exact congrArg _ (twoStage_weight hpo (measurable_evidence hp hl).ennreal_ofReal).symm

end generic

/-! ### `binomial_beta`, as documented -/

theorem Hyper.posterior (n x : ℕ) (hx : x ≤ n) (h : PosPair) :
    IsPosterior volume (Ioo 0 1) (priorAt h).dist.pdf (fun p => (Binomial.dist ⟨(n : ℝ), p⟩).pmf x)
      (binomial_beta (n : ℝ) x (priorAt h)).dist.pdf :=
  C01_binomial_beta_posterior (priorAt h) h.1.2 h.2.2 n x hx

theorem Hyper.isDensity (n x : ℕ) (hx : x ≤ n) (h : PosPair) :
    IsDensity volume (Ioo 0 1) (binomial_beta (n : ℝ) x (priorAt h)).dist.pdf := by
  rw [binomial_beta_shift n x hx]
  exact Beta.isDensity _ (Subtype.prop _) (Subtype.prop _)

theorem Hyper.measurable (n x : ℕ) (hx : x ≤ n) :
    Measurable (Function.uncurry fun h : PosPair => (binomial_beta (n : ℝ) x (priorAt h)).dist.pdf) := by
  simp only [binomial_beta_shift n x hx]
  have hm := (continuous_shiftPair x (n - x) (Nat.cast_nonneg x) (sub_nonneg.2 (by exact_mod_cast hx))).measurable
  exact measurable_priorAt_pdf.comp ((hm.comp measurable_fst).prodMk measurable_snd)

/-- The documented draws have the joint posterior law of `alpha`, `beta` and the probability exactly if the beta-binomial
probability of the observed `x` is the same for almost all `alpha`, `beta`. -/
theorem C121_binomial_beta_iff (ν : Measure PosPair) [IsProbabilityMeasure ν] (n x : ℕ) (hx : x ≤ n) :
    pymcDraw ν n x = jointPosterior ν (Ioo 0 1) (fun h => (Beta.dist ⟨h.1, h.2⟩).pdf) (fun p => (Binomial.dist ⟨(n : ℝ), p⟩).pmf x) ↔
      ∃ c, ∀ᵐ h ∂ν, (binomial_beta_predictive (n : ℝ) (⟨h.1, h.2⟩ : Beta ℝ)).dist.pmf x = c := by
  rw [pymcDraw, jointPosterior_iff measurableSet_Ioo measurable_priorAt_pdf (Hyper.measurable n x hx) (measurable_binomial_lik n x hx)
    (fun h => (Beta.isDensity (priorAt h) h.1.2 h.2.2).1) (Hyper.posterior n x hx) (Hyper.isDensity n x hx)]
  simp only [evidence_eq]

/-- The right weights for `alpha` and `beta` are the beta-binomial probabilities of the observed `x`. -/
theorem C121_binomial_beta_reweighted (ν : Measure PosPair) [IsProbabilityMeasure ν] (n x : ℕ) (hx : x ≤ n) :
    jointPosterior ν (Ioo 0 1) (fun h => (Beta.dist ⟨h.1, h.2⟩).pdf) (fun p => (Binomial.dist ⟨(n : ℝ), p⟩).pmf x) =
      (∫⁻ h, ENNReal.ofReal ((binomial_beta_predictive (n : ℝ) (⟨h.1, h.2⟩ : Beta ℝ)).dist.pmf x) ∂ν)⁻¹ •
        pymcDraw (ν.withDensity fun h => ENNReal.ofReal ((binomial_beta_predictive (n : ℝ) (⟨h.1, h.2⟩ : Beta ℝ)).dist.pmf x)) n x := by
  have h := C121_reweighted ν measurableSet_Ioo measurable_priorAt_pdf (Hyper.measurable n x hx) (measurable_binomial_lik n x hx)
    (fun h => (Beta.isDensity (priorAt h) h.1.2 h.2.2).1) (Hyper.isDensity n x hx) (Hyper.posterior n x hx)
  have e : ∀ h : PosPair, (∫ p in Ioo (0 : ℝ) 1, (priorAt h).dist.pdf p * (Binomial.dist ⟨(n : ℝ), p⟩).pmf x) =
      (binomial_beta_predictive (n : ℝ) (priorAt h)).dist.pmf x := fun h => evidence_eq n x h
  simp only [e] at h
  exact h

/-- With parameters that are known the draws are right. -/
theorem C121_known_parameters (h : PosPair) (n x : ℕ) (hx : x ≤ n) :
    pymcDraw (Measure.dirac h) n x = jointPosterior (Measure.dirac h) (Ioo 0 1) (fun h => (Beta.dist ⟨h.1, h.2⟩).pdf)
      (fun p => (Binomial.dist ⟨(n : ℝ), p⟩).pmf x) :=
  (C121_binomial_beta_iff _ n x hx).2 ⟨_, (ae_eq_dirac fun h : PosPair => (binomial_beta_predictive (n : ℝ) (priorAt h)).dist.pmf x)⟩

/-- Without data the draws are right: no trials change nothing. -/
theorem C121_no_trials (ν : Measure PosPair) [IsProbabilityMeasure ν] :
    pymcDraw ν 0 0 = jointPosterior ν (Ioo 0 1) (fun h => (Beta.dist ⟨h.1, h.2⟩).pdf) (fun p => (Binomial.dist ⟨0, p⟩).pmf 0) := by
  have h := (C121_binomial_beta_iff ν 0 0 le_rfl).2 ⟨1, ae_of_all _ fun h => by
    rw [predictive_pmf_eq 0 0 le_rfl]
    have := betaFn_pos h.1.2 h.2.2
    simp [this.ne']⟩
  simpa using h

/-- With uncertain parameters, spread over all positive pairs in any way, and at least one trial the draws never have the
joint posterior law: the drawn `alpha` and `beta` have not learned from the data. -/
theorem C121_uncertain_false (ν : Measure PosPair) [IsProbabilityMeasure ν] [ν.IsOpenPosMeasure] (n x : ℕ) (hn : 1 ≤ n)
    (hx : x ≤ n) :
    pymcDraw ν n x ≠ jointPosterior ν (Ioo 0 1) (fun h => (Beta.dist ⟨h.1, h.2⟩).pdf) (fun p => (Binomial.dist ⟨(n : ℝ), p⟩).pmf x) := by
  rw [Ne, C121_binomial_beta_iff ν n x hx]
  rintro ⟨c, hc⟩
  refine predictive_not_const n x hn hx ⟨c, fun h => ?_⟩
  have := ((continuous_predictive_pmf n x hx).ae_eq_iff_eq ν (continuous_const (y := c))).1 hc
  exact congrFun this h

/-- In particular for the documented `pm.Gamma.dist(alpha=1, beta=20)` for both parameters, `N = 10` and `X = 4`. -/
theorem C121_documented_false :
    IsProbabilityMeasure documentedHyper ∧
    pymcDraw documentedHyper (10 : ℕ) (4 : ℕ) ≠ jointPosterior documentedHyper (Ioo 0 1) (fun h => (Beta.dist ⟨h.1, h.2⟩).pdf)
      (fun p => (Binomial.dist ⟨((10 : ℕ) : ℝ), p⟩).pmf ((4 : ℕ) : ℤ)) := by
  haveI := pymcGamma_prob (a := 1) (b := 20) one_pos (by norm_num)
  haveI := pymcGamma_openPos (a := 1) (b := 20) one_pos (by norm_num)
  have hprob : IsProbabilityMeasure documentedHyper := by unfold documentedHyper; infer_instance
  haveI : documentedHyper.IsOpenPosMeasure := by unfold documentedHyper; infer_instance
  exact ⟨hprob, C121_uncertain_false documentedHyper 10 4 (by norm_num) (by norm_num)⟩

/-- The parameters drawn with the documented code keep the law they had before the data, whatever the data. -/
theorem C121_parameters_unchanged (ν : Measure PosPair) [IsProbabilityMeasure ν] (n x : ℕ) (hx : x ≤ n) :
    (pymcDraw ν n x).map Prod.fst = ν := by
  have e := map_fst_twoStage (ν := ν) (Hyper.measurable n x hx) measurableSet_Ioo (Hyper.isDensity n x hx) (F := 1) measurable_one
  rw [show ((twoStage ν (Ioo 0 1) fun h : PosPair => (binomial_beta (n : ℝ) x (priorAt h)).dist.pdf).withDensity
    fun q => (1 : PosPair → ENNReal) q.1) = _ from withDensity_one, withDensity_one] at e
  exact e

/-- Two candidate priors with probabilities `w` and `1 - w` ("additional uncertainty" of the simplest kind): mixing the two
posteriors with the same weights is right exactly if the priors are the same or predict the observed `x` equally well. -/
theorem C121_two_priors_iff (d₁ d₂ : Beta ℝ) (h₁ : d₁.Valid) (h₂ : d₂.Valid) (n x : ℕ) (hx : x ≤ n) (w : ℝ) (hw : 0 < w) (hw' : w < 1) :
    IsPosterior volume (Ioo 0 1) (fun p => w * d₁.dist.pdf p + (1 - w) * d₂.dist.pdf p)
      (fun p => (Binomial.dist ⟨(n : ℝ), p⟩).pmf x)
      (fun p => w * (binomial_beta (n : ℝ) x d₁).dist.pdf p + (1 - w) * (binomial_beta (n : ℝ) x d₂).dist.pdf p) ↔
    d₁ = d₂ ∨ (binomial_beta_predictive (n : ℝ) d₁).dist.pmf x = (binomial_beta_predictive (n : ℝ) d₂).dist.pmf x := by
  obtain ⟨z₁, e₁⟩ := C01_binomial_beta_posterior d₁ h₁.1 h₁.2 n x hx
  obtain ⟨z₂, e₂⟩ := C01_binomial_beta_posterior d₂ h₂.1 h₂.2 n x hx
  obtain ⟨i₁, p₁⟩ := C24_binomial_beta_predictive n d₁ h₁.1 h₁.2 x
  obtain ⟨i₂, p₂⟩ := C24_binomial_beta_predictive n d₂ h₂.1 h₂.2 x
  simp only [mul_comm ((Binomial.dist _).pmf _)] at i₁ i₂ p₁ p₂
  rw [← p₁] at z₁ e₁
  rw [← p₂] at z₂ e₂
  have hI : ∫ p in Ioo (0 : ℝ) 1, (w * d₁.dist.pdf p + (1 - w) * d₂.dist.pdf p) * (Binomial.dist ⟨(n : ℝ), p⟩).pmf x =
      w * (binomial_beta_predictive (n : ℝ) d₁).dist.pmf x + (1 - w) * (binomial_beta_predictive (n : ℝ) d₂).dist.pmf x := by
    rw [p₁, p₂, ← integral_const_mul, ← integral_const_mul, ← integral_add (i₁.const_mul w) (i₂.const_mul (1 - w))]
    refine integral_congr_ae (ae_of_all _ fun p => ?_)
    simp only
    ring
  set E₁ := (binomial_beta_predictive (n : ℝ) d₁).dist.pmf x
  set E₂ := (binomial_beta_predictive (n : ℝ) d₂).dist.pmf x
  have hw1 : 0 < 1 - w := by linarith
  have hE : 0 < w * E₁ + (1 - w) * E₂ := by positivity
  unfold IsPosterior
  rw [hI]
  have key : ∀ p ∈ Ioo (0 : ℝ) 1, (w * (binomial_beta (n : ℝ) x d₁).dist.pdf p + (1 - w) * (binomial_beta (n : ℝ) x d₂).dist.pdf p =
      (w * d₁.dist.pdf p + (1 - w) * d₂.dist.pdf p) * (Binomial.dist ⟨(n : ℝ), p⟩).pmf x / (w * E₁ + (1 - w) * E₂) ↔
      (E₁ - E₂) * ((binomial_beta (n : ℝ) x d₁).dist.pdf p - (binomial_beta (n : ℝ) x d₂).dist.pdf p) = 0) := by
    intro p hp
    have f₁ : d₁.dist.pdf p * (Binomial.dist ⟨(n : ℝ), p⟩).pmf x = E₁ * (binomial_beta (n : ℝ) x d₁).dist.pdf p := by
      rw [e₁ p hp]; field_simp
    have f₂ : d₂.dist.pdf p * (Binomial.dist ⟨(n : ℝ), p⟩).pmf x = E₂ * (binomial_beta (n : ℝ) x d₂).dist.pdf p := by
      rw [e₂ p hp]; field_simp
    have f : (w * d₁.dist.pdf p + (1 - w) * d₂.dist.pdf p) * (Binomial.dist ⟨(n : ℝ), p⟩).pmf x =
        w * (E₁ * (binomial_beta (n : ℝ) x d₁).dist.pdf p) + (1 - w) * (E₂ * (binomial_beta (n : ℝ) x d₂).dist.pdf p) := by
      rw [← f₁, ← f₂]; ring
    rw [eq_div_iff hE.ne', f]
    set a := (binomial_beta (n : ℝ) x d₁).dist.pdf p
    set b := (binomial_beta (n : ℝ) x d₂).dist.pdf p
    constructor
    · intro h
      have : w * (1 - w) * ((E₁ - E₂) * (a - b)) = 0 := by linear_combination -h
      exact (mul_eq_zero.1 this).resolve_left (mul_pos hw hw1).ne'
    · intro h
      linear_combination -(w * (1 - w)) * h
  have hnx : (0 : ℝ) ≤ n - x := sub_nonneg.2 (by exact_mod_cast hx)
  have hv : ∀ d : Beta ℝ, d.Valid → (binomial_beta (n : ℝ) x d).Valid := fun d hd =>
    ⟨by have := hd.1; simp only [binomial_beta, getBinomialBetaPosteriorParams]; positivity,
     by have := hd.2; simp only [binomial_beta, getBinomialBetaPosteriorParams]; positivity⟩
  constructor
  · rintro ⟨-, h⟩
    by_cases hEE : E₁ = E₂
    · exact Or.inr hEE
    · left
      have hpost := C97_beta _ _ (hv d₁ h₁) (hv d₂ h₂) fun p hp => by
        have := (key p hp).1 (h p hp)
        exact sub_eq_zero.1 ((mul_eq_zero.1 this).resolve_left (sub_ne_zero.2 hEE))
      simp only [binomial_beta, getBinomialBetaPosteriorParams, Beta.mk.injEq] at hpost
      cases d₁; cases d₂
      simp only [Beta.mk.injEq]
      exact ⟨by linarith [hpost.1], by linarith [hpost.2]⟩
  · intro h
    refine ⟨hE, fun p hp => (key p hp).2 ?_⟩
    rcases h with rfl | h
    · simp
    · simp [h]

/-- Not an empty condition: `Beta(1, 1)` and `Beta(2, 1)` predict one success in one trial differently. -/
theorem C121_two_priors_false (w : ℝ) (hw : 0 < w) (hw' : w < 1) :
    ¬ IsPosterior volume (Ioo 0 1) (fun p => w * (Beta.dist ⟨1, 1⟩).pdf p + (1 - w) * (Beta.dist ⟨2, 1⟩).pdf p)
      (fun p => (Binomial.dist ⟨((1 : ℕ) : ℝ), p⟩).pmf ((1 : ℕ) : ℤ))
      (fun p => w * (binomial_beta ((1 : ℕ) : ℝ) ((1 : ℕ) : ℝ) (⟨1, 1⟩ : Beta ℝ)).dist.pdf p +
        (1 - w) * (binomial_beta ((1 : ℕ) : ℝ) ((1 : ℕ) : ℝ) (⟨2, 1⟩ : Beta ℝ)).dist.pdf p) := by
  rw [C121_two_priors_iff ⟨1, 1⟩ ⟨2, 1⟩ ⟨one_pos, one_pos⟩ ⟨two_pos, one_pos⟩ 1 1 le_rfl w hw hw']
  rintro (h | h)
  · simp only [Beta.mk.injEq, and_true] at h
    norm_num at h
  · have g := predictive_pmf_eq 1 1 le_rfl (⟨1, mem_Ioi.2 one_pos⟩, ⟨1, mem_Ioi.2 one_pos⟩)
    have g' := predictive_pmf_eq 1 1 le_rfl (⟨2, mem_Ioi.2 two_pos⟩, ⟨1, mem_Ioi.2 one_pos⟩)
    simp only [priorAt] at g g'
    rw [g, g'] at h
    have g2 : Real.Gamma 2 = 1 := Real.Gamma_two
    have g3 : Real.Gamma 3 = 2 := by
      rw [show (3 : ℝ) = 2 + 1 by norm_num, Real.Gamma_add_one two_ne_zero, g2]; norm_num
    have g4 : Real.Gamma 4 = 6 := by
      rw [show (4 : ℝ) = 3 + 1 by norm_num, Real.Gamma_add_one three_ne_zero, g3]; norm_num
    norm_num [Scipy.betaFn, g2, g3, g4] at h

/-- non-vacuity: the hypotheses of `C121_uncertain_false` hold of the documented hyperparameters -/
example : ∃ ν : Measure PosPair, IsProbabilityMeasure ν ∧ ν.IsOpenPosMeasure := by
  haveI := pymcGamma_prob (a := 1) (b := 20) one_pos (by norm_num)
  haveI := pymcGamma_openPos (a := 1) (b := 20) one_pos (by norm_num)
  exact ⟨(pymcGamma 1 20).prod (pymcGamma 1 20), inferInstance, inferInstance⟩

end Conj
