import Verif.Lemmas.TwoStage
import Mathlib.Analysis.Convex.Integral
import Mathlib.Analysis.Convex.SpecificFunctions.Basic
import Mathlib.Analysis.Convex.Deriv
import Mathlib.MeasureTheory.Constructions.Pi

/-!
# Several values from one mixture

A mixture gives an event the average of its probabilities; drawing several values with one parameter gives the average
of a power of them, which is more (Jensen).
-/

open MeasureTheory Set

namespace Conj

open Scipy Spec

/-- the chance that all of `k` independent values lie in `B` -/
theorem pi_all_mem {A : Type} [MeasurableSpace A] (μ : Measure A) [IsProbabilityMeasure μ] (k : ℕ) (B : Set A) :
    Measure.pi (fun _ : Fin k => μ) {x | ∀ i, x i ∈ B} = μ B ^ k := by
  have e : {x : Fin k → A | ∀ i, x i ∈ B} = univ.pi fun _ => B := by ext; simp
  rw [e, Measure.pi_pi]
  simp

/-- strict Jensen for the power `k ≥ 2` of a probability that depends on the parameter -/
theorem average_pow_lt {Θ : Type} [MeasurableSpace Θ] {π : Measure Θ} [IsProbabilityMeasure π] {q : Θ → ENNReal}
    (hq : AEMeasurable q π) (h1 : ∀ᵐ t ∂π, q t ≤ 1) (hne : ∀ c, ¬ q =ᵐ[π] fun _ => c) {k : ℕ} (hk : 2 ≤ k) :
    (∫⁻ t, q t ∂π) ^ k < ∫⁻ t, q t ^ k ∂π := by
  have hfin : ∀ᵐ t ∂π, q t ≠ ⊤ := h1.mono fun t h => (h.trans_lt ENNReal.one_lt_top).ne
  have hm : AEStronglyMeasurable (fun t => (q t).toReal) π := hq.ennreal_toReal.aestronglyMeasurable
  have b1 : ∀ᵐ t ∂π, (q t).toReal ≤ 1 := h1.mono fun t h => by
    simpa using ENNReal.toReal_mono ENNReal.one_ne_top h
  have i1 : Integrable (fun t => (q t).toReal) π := Integrable.of_bound hm 1 (b1.mono fun t h => by
    rw [Real.norm_eq_abs, abs_of_nonneg ENNReal.toReal_nonneg]; exact h)
  have i2 : Integrable ((fun x : ℝ => x ^ k) ∘ fun t => (q t).toReal) π :=
    Integrable.of_bound (hm.pow k) 1 (b1.mono fun t h => by
      simp only [Function.comp, Real.norm_eq_abs, abs_pow, abs_of_nonneg ENNReal.toReal_nonneg]
      exact pow_le_one₀ ENNReal.toReal_nonneg h)
  have e1 : ∫⁻ t, q t ∂π = ENNReal.ofReal (∫ t, (q t).toReal ∂π) := by
    rw [ofReal_integral_eq_lintegral_ofReal i1 (Filter.Eventually.of_forall fun _ => ENNReal.toReal_nonneg)]
    exact lintegral_congr_ae (hfin.mono fun t h => (ENNReal.ofReal_toReal h).symm)
  have e2 : ∫⁻ t, q t ^ k ∂π = ENNReal.ofReal (∫ t, (q t).toReal ^ k ∂π) := by
    rw [ofReal_integral_eq_lintegral_ofReal (f := fun t => (q t).toReal ^ k) i2
      (Filter.Eventually.of_forall fun _ => pow_nonneg ENNReal.toReal_nonneg _)]
    refine lintegral_congr_ae (hfin.mono fun t h => ?_)
    beta_reduce
    rw [ENNReal.ofReal_pow ENNReal.toReal_nonneg, ENNReal.ofReal_toReal h]
  have h0 : 0 ≤ ∫ t, (q t).toReal ∂π := integral_nonneg fun _ => ENNReal.toReal_nonneg
  rw [e1, e2, ← ENNReal.ofReal_pow h0]
  have key := (strictConvexOn_pow hk).ae_eq_const_or_map_average_lt (continuous_pow k).continuousOn isClosed_Ici
    (Filter.Eventually.of_forall fun t => ENNReal.toReal_nonneg) i1 i2
  rw [average_eq_integral, average_eq_integral] at key
  rcases key with h | h
  · refine absurd ?_ (hne (ENNReal.ofReal (∫ t, (q t).toReal ∂π)))
    filter_upwards [h, hfin] with t ht hf
    rw [← ENNReal.ofReal_toReal hf, ht]
    rfl
  · exact (ENNReal.ofReal_lt_ofReal_iff_of_nonneg (pow_nonneg h0 k)).2 h

/-- the probability of an event under the predictive of a count model -/
theorem predictive_event {post : Cont} {S : Set ℝ}
    (hS : MeasurableSet S) (he : contLaw post = lawOn S post.pdf) (hd : IsDensity volume S post.pdf)
    {model : ℝ → Disc} (hm : ∀ k, Measurable fun θ => (model θ).pmf k)
    (h0 : ∀ θ ∈ S, ∀ k, 0 ≤ (model θ).pmf k) {pred : Disc}
    (hp : ∀ k, IsPredictive volume S (fun θ => (model θ).pmf k) post.pdf (pred.pmf k)) (B : Set ℤ) :
    discLaw pred B = ∫⁻ θ, discLaw (model θ) B ∂contLaw post := by
  have hmm : Measurable fun q : ℝ × ℤ => (model q.1).pmf q.2 := measurable_from_prod_countable_left hm
  have hB : MeasurableSet B := B.to_countable.measurableSet
  have e : ∀ d : Disc, discLaw d B = ∫⁻ k, ENNReal.ofReal (d.pmf k) * B.indicator 1 k ∂Measure.count := by
    intro d
    rw [discLaw, withDensity_apply _ hB, ← lintegral_indicator hB]
    refine lintegral_congr fun k => ?_
    by_cases hk : k ∈ B <;> simp [hk]
  have hF : Measurable fun q : ℝ × ℤ => ENNReal.ofReal ((model q.1).pmf q.2) * B.indicator 1 q.2 :=
    hmm.ennreal_ofReal.mul ((measurable_of_countable (B.indicator (1 : ℤ → ENNReal))).comp measurable_snd)
  simp only [e]
  rw [he, lintegral_lawOn hd hF.lintegral_prod_right]
  exact mixture_lintegral hS hd hmm h0 (Filter.Eventually.of_forall hp) (measurable_of_countable _)

end Conj
