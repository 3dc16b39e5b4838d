import Verif.Lemmas.Repeated
import Verif.Props.TwoStage
import Mathlib.MeasureTheory.Measure.OpenPos

/-!
# The maximum of several predictive draws (C104)

`docs/examples/bootstrap.md:86-107` describes the largest of `n_new` future counts by the largest of `n_new` independent
draws from the predictive distribution. Future counts share one unknown rate, independent predictive draws do not.
-/

open MeasureTheory Set Real

namespace Conj

open Scipy Spec

/-- the largest of `n_new` counts, the rate being drawn from `posterior` once -/
noncomputable def futureMaxAtMost (posterior : Gamma ℝ) (n_new : ℕ) (m : ℤ) : ENNReal :=
  ∫⁻ l, Measure.pi (fun _ : Fin n_new => discLaw (Poisson.dist ⟨l⟩)) {x | ∀ i, x i ≤ m} ∂contLaw posterior.dist

/-- `docs/examples/bootstrap.md:97-104`: the largest of `n_new` independent draws from the predictive distribution -/
noncomputable def conjugateStatAtMost (posterior : Gamma ℝ) (n_new : ℕ) (m : ℤ) : ENNReal :=
  Measure.pi (fun _ : Fin n_new => discLaw (poisson_gamma_predictive posterior (1 : ℝ)).dist) {x | ∀ i, x i ≤ m}

theorem measurable_poisson_pmf (k : ℤ) : Measurable fun l => (Poisson.dist ⟨l⟩).pmf k := by
  simp only [Poisson.dist, Disc.pmf, DiscFamily.pmf0]
  split_ifs <;> fun_prop

theorem poisson_predictive_event (posterior : Gamma ℝ) (ha : 0 < posterior.alpha) (hb : 0 < posterior.beta) (B : Set ℤ) :
    discLaw (poisson_gamma_predictive posterior (1 : ℝ)).dist B =
      ∫⁻ l, discLaw (Poisson.dist ⟨l⟩) B ∂contLaw posterior.dist := by
  refine predictive_event (model := fun l => Poisson.dist ⟨l⟩) measurableSet_Ioi (gamma_lawOn _ hb)
    (Gamma.isDensity _ ha hb) measurable_poisson_pmf (fun _ hl => poisson_nonneg _ (le_of_lt hl)) (fun k => ?_) B
  have := C27_poisson_gamma_predictive_partial posterior ha hb k
  simpa only [one_mul] using this

/-- the Poisson probability of at most `m` -/
theorem poisson_le (l : ℝ) (hl : 0 ≤ l) (m : ℕ) : discLaw (Poisson.dist ⟨l⟩) (Iic (m : ℤ)) =
    ENNReal.ofReal (∑ j ∈ Finset.range (m + 1), (Poisson.dist ⟨l⟩).pmf (j : ℤ)) := by
  have hB : MeasurableSet (Iic (m : ℤ)) := measurableSet_Iic
  rw [ENNReal.ofReal_sum_of_nonneg (f := fun j : ℕ => (Poisson.dist ⟨l⟩).pmf (j : ℤ))
      (fun j _ => poisson_nonneg l hl (j : ℤ)), discLaw, withDensity_apply _ hB,
    ← lintegral_indicator hB, lintegral_count]
  rw [tsum_eq_sum (s := (Finset.range (m + 1)).map Nat.castEmbedding), Finset.sum_map]
  · refine Finset.sum_congr rfl fun j hj => ?_
    have : (j : ℤ) ∈ Iic (m : ℤ) := by
      rw [Finset.mem_range] at hj; rw [mem_Iic]; omega
    simp [this]
  · intro k hk
    by_cases h : k ∈ Iic (m : ℤ)
    · rw [indicator_of_mem h]
      have hneg : k < 0 := by
        by_contra hc
        push Not at hc
        obtain ⟨j, rfl⟩ := Int.eq_ofNat_of_zero_le hc
        refine hk (Finset.mem_map.2 ⟨j, ?_, rfl⟩)
        rw [mem_Iic] at h
        rw [Finset.mem_range]; omega
      simp only [Poisson.dist, Disc.pmf, DiscFamily.pmf0, sub_zero]
      rw [if_neg (by omega)]
      simp
    · rw [indicator_of_notMem h]

theorem poisson_sum_continuous (m : ℕ) :
    Continuous fun l => ∑ j ∈ Finset.range (m + 1), (Poisson.dist ⟨l⟩).pmf (j : ℤ) := by
  simp only [Poisson.pmf_nat]
  fun_prop

theorem poisson_sum_lt_one (m : ℕ) : ∑ j ∈ Finset.range (m + 1), (Poisson.dist ⟨(1 : ℝ)⟩).pmf (j : ℤ) < 1 := by
  have h1 : HasSum (fun j : ℕ => (Poisson.dist ⟨(1 : ℝ)⟩).pmf (j : ℤ)) 1 := by
    have := (NormedSpace.expSeries_div_hasSum_exp (1 : ℝ)).mul_right (exp (-1))
    simp only [← Real.exp_eq_exp_ℝ] at this
    rw [← exp_add] at this
    simpa [Poisson.pmf_nat, div_eq_mul_inv, mul_comm] using this
  have h2 := sum_le_hasSum (Finset.range (m + 1 + 1)) (fun j _ => poisson_nonneg 1 zero_le_one j) h1
  rw [Finset.sum_range_succ] at h2
  have h3 : 0 < (Poisson.dist ⟨(1 : ℝ)⟩).pmf ((m + 1 : ℕ) : ℤ) := by
    rw [Poisson.pmf_nat]; positivity
  linarith

/-- the chance of at most `m` depends on the rate -/
theorem poisson_le_not_const (posterior : Gamma ℝ) (ha : 0 < posterior.alpha) (hb : 0 < posterior.beta) (m : ℕ)
    (c : ENNReal) :
    ¬ (fun l => discLaw (Poisson.dist ⟨l⟩) (Iic (m : ℤ))) =ᵐ[contLaw posterior.dist] fun _ => c := by
  intro h
  obtain ⟨f, hf⟩ : ∃ f : ℝ → ℝ, f = fun l => ∑ j ∈ Finset.range (m + 1), (Poisson.dist ⟨l⟩).pmf (j : ℤ) := ⟨_, rfl⟩
  have hc : Continuous f := hf ▸ poisson_sum_continuous m
  have hpos : ∀ l, 0 ≤ l → 0 ≤ f l := fun l hl => by
    rw [hf]; exact Finset.sum_nonneg fun j _ => poisson_nonneg l hl j
  have hae : ∀ᵐ l ∂volume.restrict (Ioi (0 : ℝ)), ENNReal.ofReal (f l) = c := by
    have hm : Measurable fun x => ENNReal.ofReal (posterior.dist.pdf x) :=
      (measurable_pdf (measurable_std_gamma _) _ _).ennreal_ofReal
    rw [gamma_lawOn _ hb, Filter.EventuallyEq, lawOn, ae_withDensity_iff hm] at h
    filter_upwards [h, ae_restrict_mem measurableSet_Ioi] with l hl hl0
    have hl0 : 0 < l := hl0
    rw [hf, ← poisson_le l hl0.le m]
    refine hl ?_
    have h0 : 0 < posterior.dist.pdf l := by
      rw [Gamma.pdf_eq _ hb hl0]
      have := Real.Gamma_pos_of_pos ha
      positivity
    simpa using h0
  have hreal : f =ᵐ[volume.restrict (Ioi (0 : ℝ))] fun _ => c.toReal := by
    filter_upwards [hae, ae_restrict_mem measurableSet_Ioi] with l hl hl0
    rw [← hl, ENNReal.toReal_ofReal (hpos l (le_of_lt hl0))]
  have hall : EqOn f (fun _ => c.toReal) (Ioi 0) :=
    Measure.eqOn_open_of_ae_eq hreal isOpen_Ioi hc.continuousOn continuousOn_const
  have hcl : EqOn f (fun _ => c.toReal) (closure (Ioi 0)) := hall.closure hc continuous_const
  rw [closure_Ioi] at hcl
  have z : f 0 = 1 := by
    rw [hf]
    simp only [Poisson.pmf_nat]
    rw [Finset.sum_eq_single 0] <;> simp +contextual
  have h1 := poisson_sum_lt_one m
  have e1 : f 1 = f 0 := (hcl (mem_Ici.2 zero_le_one)).trans (hcl (mem_Ici.2 le_rfl)).symm
  rw [z, hf] at e1
  exact absurd e1 h1.ne

theorem measurable_discLaw_apply {model : ℝ → Disc} (hm : ∀ k, Measurable fun θ => (model θ).pmf k) (B : Set ℤ) :
    Measurable fun θ => discLaw (model θ) B := by
  have e : ∀ θ, discLaw (model θ) B = ∑' k : ℤ, B.indicator (fun k => ENNReal.ofReal ((model θ).pmf k)) k := by
    intro θ
    have hB : MeasurableSet B := B.to_countable.measurableSet
    rw [discLaw, withDensity_apply _ hB, ← lintegral_indicator hB, lintegral_count]
  simp only [e]
  refine Measurable.tsum fun k => ?_
  by_cases hk : k ∈ B
  · simpa [hk] using (hm k).ennreal_ofReal
  · simp [hk]

theorem gamma_ae_pos (d : Gamma ℝ) (hb : 0 < d.beta) : ∀ᵐ l ∂contLaw d.dist, l ∈ Ioi (0 : ℝ) := by
  rw [gamma_lawOn _ hb]
  exact ae_lawOn_mem measurableSet_Ioi _

theorem futureMaxAtMost_eq (posterior : Gamma ℝ) (ha : 0 < posterior.alpha) (hb : 0 < posterior.beta) (n_new : ℕ)
    (m : ℤ) : futureMaxAtMost posterior n_new m =
      ∫⁻ l, discLaw (Poisson.dist ⟨l⟩) (Iic m) ^ n_new ∂contLaw posterior.dist := by
  refine lintegral_congr_ae ?_
  filter_upwards [gamma_ae_pos posterior hb] with l hl
  have := poisson_prob (le_of_lt hl)
  exact pi_all_mem (discLaw (Poisson.dist ⟨l⟩)) n_new (Iic m)

theorem conjugateStatAtMost_eq (posterior : Gamma ℝ) (ha : 0 < posterior.alpha) (hb : 0 < posterior.beta) (n_new : ℕ)
    (m : ℤ) : conjugateStatAtMost posterior n_new m =
      (∫⁻ l, discLaw (Poisson.dist ⟨l⟩) (Iic m) ∂contLaw posterior.dist) ^ n_new := by
  have : IsProbabilityMeasure (discLaw (poisson_gamma_predictive posterior (1 : ℝ)).dist) := by
    constructor
    rw [poisson_predictive_event posterior ha hb]
    have := gamma_prob ha hb
    rw [lintegral_congr_ae (g := fun _ => 1)]
    · simp
    · filter_upwards [gamma_ae_pos posterior hb] with l hl
      have := poisson_prob (le_of_lt hl)
      exact measure_univ
  rw [← poisson_predictive_event posterior ha hb]
  exact pi_all_mem (discLaw (poisson_gamma_predictive posterior (1 : ℝ)).dist) n_new (Iic m)

/-- C104 (disagreement). For two or more future counts the example gives every possible value `m` of the maximum too
small a chance of not being exceeded: the maximum is overstated, for every posterior. -/
theorem C104_bootstrap_maximum_false (posterior : Gamma ℝ) (ha : 0 < posterior.alpha) (hb : 0 < posterior.beta)
    {n_new : ℕ} (hn : 2 ≤ n_new) (m : ℕ) :
    conjugateStatAtMost posterior n_new m < futureMaxAtMost posterior n_new m := by
  rw [conjugateStatAtMost_eq posterior ha hb, futureMaxAtMost_eq posterior ha hb]
  have := gamma_prob ha hb
  refine average_pow_lt ?_ ?_ (poisson_le_not_const posterior ha hb m) hn
  · exact (measurable_discLaw_apply measurable_poisson_pmf _).aemeasurable
  · filter_upwards [gamma_ae_pos posterior hb] with l hl
    have := poisson_prob (le_of_lt hl)
    exact prob_le_one

/-- C104 for one future count. Missing: two or more, where the example is wrong. -/
theorem C104_bootstrap_maximum_partial (posterior : Gamma ℝ) (ha : 0 < posterior.alpha) (hb : 0 < posterior.beta)
    (m : ℤ) : conjugateStatAtMost posterior 1 m = futureMaxAtMost posterior 1 m := by
  rw [conjugateStatAtMost_eq posterior ha hb, futureMaxAtMost_eq posterior ha hb]
  simp only [pow_one]

example := C104_bootstrap_maximum_false ⟨26, 11⟩ (by norm_num) (by norm_num) (n_new := 10) (by norm_num) 3
example := C104_bootstrap_maximum_partial ⟨26, 11⟩ (by norm_num) (by norm_num) 3

end Conj
