import Verif.JointSpec
import Verif.Engagement
import Verif.RvsSpec
import Verif.Lemmas.Bayes
import Verif.Lemmas.Calibration
import Mathlib.MeasureTheory.Integral.Pi
import Mathlib.Probability.Moments.Variance
import Mathlib.Probability.Independence.Basic

/-! Independent groups: the posterior of all unknowns is the product, and samples of it answer questions. -/

open MeasureTheory Set ProbabilityTheory

namespace Conj

open Scipy Spec

variable {k : ℕ} {X : Type}

theorem groupLikelihood_eq (f : Fin k → ℝ → X → ℝ) (h : List (Fin k × X)) (θ : Fin k → ℝ) :
    groupLikelihood f h θ = ∏ i, likelihood (f i) (observed h i) (θ i) := by
  induction h with
  | nil => simp [groupLikelihood, observed, likelihood]
  | cons p h ih =>
    have e : ∀ i, likelihood (f i) (observed (p :: h) i) (θ i) =
        (if p.1 = i then f i (θ i) p.2 else 1) * likelihood (f i) (observed h i) (θ i) := by
      intro i
      by_cases hp : p.1 = i <;> simp [observed, likelihood, hp]
    simp only [e, Finset.prod_mul_distrib, ← ih, Finset.prod_ite_eq, Finset.mem_univ, if_true]
    simp [groupLikelihood]

theorem joint_posterior {S : Set ℝ} {prior lik post : Fin k → ℝ → ℝ}
    (each : ∀ i, IsPosterior volume S (prior i) (lik i) (post i)) :
    IsPosterior volume (box k S) (fun θ => ∏ i, prior i (θ i)) (fun θ => ∏ i, lik i (θ i))
      fun θ => ∏ i, post i (θ i) := by
  have e : ∫ θ in box k S, (∏ i, prior i (θ i)) * ∏ i, lik i (θ i) = ∏ i, ∫ t in S, prior i t * lik i t := by
    simp only [← Finset.prod_mul_distrib]
    rw [volume_pi, Measure.restrict_pi_pi]
    exact integral_fintype_prod_eq_prod (fun i t => prior i t * lik i t)
  refine ⟨?_, fun θ hθ => ?_⟩
  · rw [e]; exact Finset.prod_pos fun i _ => (each i).1
  · rw [e, ← Finset.prod_mul_distrib, ← Finset.prod_div_distrib]
    exact Finset.prod_congr rfl fun i _ => (each i).2 _ (hθ i (mem_univ i))

/-- the converse: if the product of densities is the posterior of all unknowns, each entry is the posterior of its own -/
theorem joint_posterior_each {S : Set ℝ} (hS : MeasurableSet S) {prior lik post : Fin k → ℝ → ℝ}
    (hd : ∀ i, IsDensity volume S (post i)) (h0 : ∀ i, ∀ t ∈ S, 0 ≤ prior i t * lik i t)
    (h : IsPosterior volume (box k S) (fun θ => ∏ i, prior i (θ i)) (fun θ => ∏ i, lik i (θ i))
      fun θ => ∏ i, post i (θ i)) (i : Fin k) : IsPosterior volume S (prior i) (lik i) (post i) := by
  classical
  obtain ⟨hZ, h⟩ := h
  have e : ∫ θ in box k S, (∏ i, prior i (θ i)) * ∏ i, lik i (θ i) = ∏ i, ∫ t in S, prior i t * lik i t := by
    simp only [← Finset.prod_mul_distrib]
    rw [volume_pi, Measure.restrict_pi_pi]
    exact integral_fintype_prod_eq_prod (fun i t => prior i t * lik i t)
  rw [e] at hZ h
  have hne : ∀ j, ∫ t in S, prior j t * lik j t ≠ 0 := fun j hj =>
    hZ.ne' (Finset.prod_eq_zero (Finset.mem_univ j) hj)
  have hpos : ∀ j, 0 < ∫ t in S, prior j t * lik j t := fun j =>
    lt_of_le_of_ne (setIntegral_nonneg hS (h0 j)) (hne j).symm
  have hpt : ∀ j, ∃ t ∈ S, post j t ≠ 0 := by
    intro j
    by_contra hn
    push Not at hn
    have := (hd j).2.2
    rw [setIntegral_congr_fun hS hn] at this
    simp at this
  choose c hcS hc using hpt
  obtain ⟨A, hA⟩ : ∃ A, A = ∏ j ∈ Finset.univ.erase i, post j (c j) := ⟨_, rfl⟩
  obtain ⟨B, hB⟩ : ∃ B, B = ∏ j ∈ Finset.univ.erase i, prior j (c j) * lik j (c j) / ∫ t in S, prior j t * lik j t :=
    ⟨_, rfl⟩
  have hA0 : A ≠ 0 := hA ▸ Finset.prod_ne_zero_iff.2 fun j _ => hc j
  have key : ∀ t ∈ S, post i t * A = prior i t * lik i t / (∫ t in S, prior i t * lik i t) * B := by
    intro t ht
    have hm : Function.update c i t ∈ box k S := by
      intro j _
      by_cases hj : j = i
      · subst hj; simpa using ht
      · simpa [hj] using hcS j
    have := h _ hm
    beta_reduce at this
    rw [← Finset.prod_mul_distrib, ← Finset.prod_div_distrib,
      ← Finset.mul_prod_erase _ _ (Finset.mem_univ i), ← Finset.mul_prod_erase _ _ (Finset.mem_univ i)] at this
    simp only [Function.update_self] at this
    rw [hA, hB]
    convert this using 2 <;> refine Finset.prod_congr rfl fun j hj => ?_ <;>
      rw [Function.update_of_ne (Finset.ne_of_mem_erase hj)]
  have hAB : A = B := by
    have := setIntegral_congr_fun (μ := volume) hS key
    rw [integral_mul_const, integral_mul_const, integral_div, (hd i).2.2, div_self (hne i)] at this
    simpa using this
  refine ⟨hpos i, fun t ht => ?_⟩
  have := key t ht
  rw [← hAB] at this
  exact mul_right_cancel₀ hA0 this

/-- the product of laws on `S` is the law of the product density on the box -/
theorem pi_lawOn {S : Set ℝ} (hS : MeasurableSet S) {post : Fin k → ℝ → ℝ} (hm : ∀ i, Measurable (post i))
    (hd : ∀ i, IsDensity volume S (post i)) :
    Measure.pi (fun i => lawOn S (post i)) = lawOn (box k S) fun θ => ∏ i, post i (θ i) := by
  have : ∀ i, SigmaFinite (((volume : Measure ℝ).restrict S).withDensity fun t => ENNReal.ofReal (post i t)) := fun i => by
    have := lawOn_prob hS (hd i)
    exact inferInstanceAs (SigmaFinite (lawOn S (post i)))
  simp only [lawOn]
  rw [pi_withDensity_fin fun i => (hm i).ennreal_ofReal, volume_pi, Measure.restrict_pi_pi]
  refine withDensity_congr_ae ?_
  rw [← Measure.restrict_pi_pi]
  filter_upwards [ae_restrict_mem (MeasurableSet.univ_pi fun _ => hS)] with θ hθ
  rw [ENNReal.ofReal_prod_of_nonneg fun i _ => (hd i).1 _ (hθ i (mem_univ i))]

/-- the density of a probability law, as a probability of events -/
theorem lawOn_toReal {A : Type} [MeasureSpace A] {S : Set A} (hS : MeasurableSet S) {g : A → ℝ}
    (hg : IsDensity volume S g) {B : Set A} (hB : MeasurableSet B) :
    (lawOn S g B).toReal = ∫ θ in S ∩ B, g θ := by
  rw [lawOn, withDensity_apply _ hB, Measure.restrict_restrict hB, inter_comm B S,
    ← ofReal_integral_eq_lintegral_ofReal (hg.2.1.mono_set inter_subset_left), ENNReal.toReal_ofReal]
  · exact setIntegral_nonneg (hS.inter hB) fun x hx => hg.1 x hx.1
  · filter_upwards [ae_restrict_mem (hS.inter hB)] with x hx
    exact hg.1 x hx.1

/-- shares of independent samples are close to probabilities -/
theorem share_close {A : Type} [MeasurableSpace A] (μ : Measure A) [IsProbabilityMeasure μ] {size : ℕ} (h0 : 0 < size)
    {B : Set A} (hB : MeasurableSet B) {ε : ℝ} (hε : 0 < ε) :
    Measure.pi (fun _ : Fin size => μ) {x | ε ≤ |share B (List.ofFn x) - (μ B).toReal|} ≤
      ENNReal.ofReal (1 / (4 * size * ε ^ 2)) := by
  classical
  have hn : (0 : ℝ) < size := by exact_mod_cast h0
  let Y : Fin size → (Fin size → A) → ℝ := fun r x => B.indicator 1 (x r)
  have hi : Measurable (B.indicator (1 : A → ℝ)) := measurable_one.indicator hB
  have hY : ∀ r, Measurable (Y r) := fun r => hi.comp (measurable_pi_apply r)
  have hbd : ∀ r x, Y r x ∈ Icc (0 : ℝ) 1 := by
    intro r x
    by_cases h : x r ∈ B <;> simp [Y, h]
  have hL : ∀ r, MemLp (Y r) 2 (Measure.pi fun _ : Fin size => μ) := fun r =>
    MemLp.of_bound (hY r).aestronglyMeasurable 1 (Filter.Eventually.of_forall fun x => by
      rw [Real.norm_eq_abs, abs_of_nonneg (hbd r x).1]; exact (hbd r x).2)
  have hE : ∀ r, ∫ x, Y r x ∂(Measure.pi fun _ : Fin size => μ) = (μ B).toReal := by
    intro r
    rw [← integral_map (μ := Measure.pi fun _ : Fin size => μ) (φ := fun x => x r) (measurable_pi_apply r).aemeasurable
      (f := B.indicator (1 : A → ℝ)) hi.aestronglyMeasurable]
    rw [(measurePreserving_eval (fun _ : Fin size => μ) r).map_eq, integral_indicator_one hB]
    rfl
  have hind : iIndepFun Y (Measure.pi fun _ : Fin size => μ) :=
    iIndepFun_pi (X := fun _ : Fin size => B.indicator (1 : A → ℝ)) fun _ => hi.aemeasurable
  have hvar : variance (∑ r, Y r) (Measure.pi fun _ : Fin size => μ) ≤ size / 4 := by
    rw [IndepFun.variance_sum (fun r _ => hL r) fun i _ j _ hij => hind.indepFun hij]
    refine (Finset.sum_le_sum fun r _ => variance_le_sq_of_bounded (a := 0) (b := 1)
      (Filter.Eventually.of_forall (hbd r)) (hY r).aemeasurable).trans (le_of_eq ?_)
    simp
    ring
  have hsum : MemLp (∑ r, Y r) 2 (Measure.pi fun _ : Fin size => μ) := memLp_finsetSum' _ fun r _ => hL r
  have hES : ∫ x, (∑ r, Y r) x ∂(Measure.pi fun _ : Fin size => μ) = size * (μ B).toReal := by
    simp only [Finset.sum_apply]
    rw [integral_finsetSum _ fun r _ => (hL r).integrable (by norm_num)]
    simp [hE]
  have hcount : ∀ x : Fin size → A, share B (List.ofFn x) = (∑ r, Y r) x / size := by
    intro x
    rw [share, List.length_ofFn]
    congr 1
    rw [Finset.sum_apply, List.countP_eq_length_filter]
    have : ∀ (m : ℕ) (y : Fin m → A), (((List.ofFn y).filter fun r => decide (r ∈ B)).length : ℝ) =
        ∑ r, B.indicator 1 (y r) := by
      intro m
      induction m with
      | zero => intro y; simp
      | succ m ih =>
        intro y
        rw [List.ofFn_succ, Fin.sum_univ_succ, ← ih]
        by_cases h : y 0 ∈ B <;> simp [h, add_comm]
    exact this _ x
  have hset : {x : Fin size → A | ε ≤ |share B (List.ofFn x) - (μ B).toReal|} =
      {x | size * ε ≤ |(∑ r, Y r) x - ∫ x, (∑ r, Y r) x ∂(Measure.pi fun _ : Fin size => μ)|} := by
    ext x
    simp only [mem_ofPred_eq, hcount, hES]
    have : (∑ r, Y r) x / size - (μ B).toReal = ((∑ r, Y r) x - size * (μ B).toReal) / size := by
      field_simp
    rw [this, abs_div, abs_of_pos hn, le_div_iff₀ hn, mul_comm]
  rw [hset]
  refine (meas_ge_le_variance_div_sq hsum (by positivity)).trans (ENNReal.ofReal_le_ofReal ?_)
  calc _ ≤ (size / 4) / (size * ε) ^ 2 := by gcongr
    _ = _ := by field_simp

end Conj
