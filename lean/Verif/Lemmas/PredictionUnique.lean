import Verif.Lemmas.Prediction
import Mathlib.MeasureTheory.Integral.Layercake

/-! Only one predictive distribution keeps its predictions; a law cannot have smaller quantiles and the same mean. -/

open MeasureTheory Set

namespace Conj

open Scipy Spec

section Unique

variable {Ω A B : Type} [MeasurableSpace Ω] [MeasurableSpace A] [MeasurableSpace B] {n : ℕ} {P : Measure Ω}
  [IsFiniteMeasure P] {X : Ω → Fin n → A} {Y : Ω → B} {pred pred' : (Fin n → A) → Measure B}

theorem kept_ae_le (h : PredictionsKept P X Y pred) (h' : PredictionsKept P X Y pred') (hX : Measurable X)
    {U : Set B} (hU : MeasurableSet U) (hm : Measurable fun x => pred x U) (hm' : Measurable fun x => pred' x U) :
    ∀ᵐ ω ∂P, pred' (X ω) U ≤ pred (X ω) U := by
  classical
  have hA : MeasurableSet {x | pred x U < pred' x U} := measurableSet_lt hm hm'
  have hXA : MeasurableSet {ω | pred (X ω) U < pred' (X ω) U} := hX hA
  have hC : MeasurableSet {z : B × (Fin n → A) | z.1 ∈ {y | y ∈ U ∧ pred z.2 U < pred' z.2 U}} :=
    (measurable_fst hU).inter (measurable_snd hA)
  have key : ∀ q : (Fin n → A) → Measure B, ∫⁻ ω, q (X ω) {y | y ∈ U ∧ pred (X ω) U < pred' (X ω) U} ∂P =
      ∫⁻ ω in {ω | pred (X ω) U < pred' (X ω) U}, q (X ω) U ∂P := fun q => by
    rw [← lintegral_indicator hXA]
    refine lintegral_congr fun ω => ?_
    by_cases hω : pred (X ω) U < pred' (X ω) U
    · have hi : ω ∈ {ω | pred (X ω) U < pred' (X ω) U} := hω
      rw [indicator_of_mem hi]
      congr 1
      ext y
      simp [hω]
    · have hi : ω ∉ {ω | pred (X ω) U < pred' (X ω) U} := hω
      rw [indicator_of_notMem hi]
      simp [hω]
  have e := h (fun x => {y | y ∈ U ∧ pred x U < pred' x U}) hC
  have e' := h' (fun x => {y | y ∈ U ∧ pred x U < pred' x U}) hC
  rw [key] at e e'
  have hle : (fun ω => pred (X ω) U) ≤ᵐ[P.restrict {ω | pred (X ω) U < pred' (X ω) U}] fun ω => pred' (X ω) U := by
    filter_upwards [ae_restrict_mem hXA] with ω hω
    exact le_of_lt hω
  have heq := ae_eq_of_ae_le_of_lintegral_le hle (by rw [← e]; exact measure_ne_top _ _)
    (hm'.comp hX).aemeasurable (by rw [← e, ← e'])
  have h0 := (ae_restrict_iff' hXA).1 heq
  filter_upwards [h0] with ω hω
  by_contra hc
  exact (not_le.1 hc).ne (hω (not_le.1 hc))

/-- two predictive distributions that both keep their predictions agree, whatever the data -/
theorem kept_ae_eq (h : PredictionsKept P X Y pred) (h' : PredictionsKept P X Y pred') (hX : Measurable X)
    {U : Set B} (hU : MeasurableSet U) (hm : Measurable fun x => pred x U) (hm' : Measurable fun x => pred' x U) :
    ∀ᵐ ω ∂P, pred (X ω) U = pred' (X ω) U := by
  filter_upwards [kept_ae_le h h' hX hU hm hm', kept_ae_le h' h hX hU hm' hm] with ω h1 h2
  exact le_antisymm h2 h1

end Unique

/-- if every limit of `ν` is kept by `μ`, and both have the same mean, they are equal -/
theorem eq_of_quantiles {μ ν : Measure ℝ} [IsProbabilityMeasure μ] [IsProbabilityMeasure ν]
    (h0 : ∀ᵐ x ∂μ, 0 ≤ x) (h0' : ∀ᵐ x ∂ν, 0 ≤ x) (hi : Integrable (fun x => x) μ) (hi' : Integrable (fun x => x) ν)
    (hm : ∫ x, x ∂μ = ∫ x, x ∂ν) (hq : ∀ p, 0 < p → p < 1 → ENNReal.ofReal p ≤ μ (Iic (ppf ν p))) : μ = ν := by
  have hle : ∀ x, ν (Iic x) ≤ μ (Iic x) := fun x => by
    refine le_of_forall_lt fun q hqx => ?_
    have hq1 : ν (Iic x) ≤ 1 := prob_le_one
    obtain ⟨r, hr1, hr2⟩ := exists_between hqx
    have hrt : r ≠ ⊤ := (hr2.trans_le le_top).ne
    have hr0 : 0 < r.toReal := ENNReal.toReal_pos (bot_le.trans_lt hr1).ne' hrt
    have hr3 : r.toReal < 1 := by
      have := (ENNReal.toReal_lt_toReal hrt ENNReal.one_ne_top).2 (hr2.trans_le hq1)
      simpa using this
    have h1 : ppf ν r.toReal ≤ x := (ppf_le_iff hr0 hr3 x).2 (by rw [ENNReal.ofReal_toReal hrt]; exact hr2.le)
    have h2 := hq _ hr0 hr3
    rw [ENNReal.ofReal_toReal hrt] at h2
    exact hr1.trans_le (h2.trans (measure_mono (Iic_subset_Iic.2 h1)))
  have htail : ∀ (κ : Measure ℝ) [IsProbabilityMeasure κ] (x : ℝ), κ (Ioi x) = 1 - κ (Iic x) := fun κ _ x => by
    rw [← compl_Iic, prob_compl_eq_one_sub measurableSet_Iic]
  have hle' : ∀ x, μ (Ioi x) ≤ ν (Ioi x) := fun x => by
    rw [htail μ, htail ν]
    exact tsub_le_tsub_left (hle x) 1
  have hL : ∀ (κ : Measure ℝ) [IsProbabilityMeasure κ], (∀ᵐ x ∂κ, 0 ≤ x) → Integrable (fun x => x) κ →
      ENNReal.ofReal (∫ x, x ∂κ) = ∫⁻ t in Ioi (0 : ℝ), κ (Ioi t) := fun κ _ hκ hκi => by
    rw [ofReal_integral_eq_lintegral_ofReal hκi hκ]
    exact lintegral_eq_lintegral_meas_lt κ hκ measurable_id.aemeasurable
  have hmeas : ∀ (κ : Measure ℝ) [IsProbabilityMeasure κ], Measurable fun t : ℝ => κ (Ioi t) := fun κ _ =>
    Antitone.measurable fun a b hab => measure_mono (Ioi_subset_Ioi hab)
  have hae : (fun t => μ (Ioi t)) =ᵐ[volume.restrict (Ioi (0 : ℝ))] fun t => ν (Ioi t) := by
    refine ae_eq_of_ae_le_of_lintegral_le (Filter.Eventually.of_forall hle') ?_ (hmeas ν).aemeasurable ?_
    · rw [← hL μ h0 hi]
      exact ENNReal.ofReal_ne_top
    · rw [← hL μ h0 hi, ← hL ν h0' hi', hm]
  have heq : ∀ x, 0 ≤ x → μ (Ioi x) = ν (Ioi x) := fun a ha => by
    refine le_antisymm (hle' a) ?_
    by_contra hc
    have hU : Ioi a = ⋃ k : ℕ, Ioi (a + 1 / ((k : ℝ) + 1)) := by
      ext y
      simp only [mem_Ioi, mem_iUnion]
      constructor
      · intro hy
        obtain ⟨k, hk⟩ := exists_nat_one_div_lt (sub_pos.2 hy)
        exact ⟨k, by linarith⟩
      · rintro ⟨k, hk⟩
        have : (0 : ℝ) < 1 / ((k : ℝ) + 1) := by positivity
        linarith
    have hmono : Monotone fun k : ℕ => Ioi (a + 1 / ((k : ℝ) + 1)) := fun i j hij =>
      Ioi_subset_Ioi (by
        have : 1 / ((j : ℝ) + 1) ≤ 1 / ((i : ℝ) + 1) :=
          one_div_le_one_div_of_le (by positivity) (by have : (i : ℝ) ≤ j := by exact_mod_cast hij
                                                       linarith)
        linarith)
    have hν : ν (Ioi a) = ⨆ k : ℕ, ν (Ioi (a + 1 / ((k : ℝ) + 1))) := by
      conv_lhs => rw [hU]
      exact hmono.measure_iUnion
    have hlt := not_le.1 hc
    rw [hν] at hlt
    obtain ⟨k, hk⟩ := lt_iSup_iff.1 hlt
    have hpos : (0 : ℝ) < 1 / ((k : ℝ) + 1) := by positivity
    have hne : ∀ t ∈ Ioo a (a + 1 / ((k : ℝ) + 1)), μ (Ioi t) ≠ ν (Ioi t) := fun t ht => by
      refine (lt_of_le_of_lt (measure_mono (Ioi_subset_Ioi ht.1.le)) (hk.trans_le ?_)).ne
      exact measure_mono (Ioi_subset_Ioi ht.2.le)
    have hz : volume (Ioo a (a + 1 / ((k : ℝ) + 1))) = 0 := by
      refine measure_mono_null (fun t ht => ?_) ((ae_restrict_iff' measurableSet_Ioi).1 hae)
      intro hcon
      exact hne t ht (hcon (lt_of_le_of_lt ha ht.1))
    rw [Real.volume_Ioo, ENNReal.ofReal_eq_zero] at hz
    linarith
  refine Measure.ext_of_Iic μ ν fun a => ?_
  by_cases ha : 0 ≤ a
  · have h1 := heq a ha
    rw [htail μ, htail ν] at h1
    rw [← ENNReal.sub_sub_cancel ENNReal.one_ne_top (prob_le_one (μ := μ) (s := Iic a)), h1,
      ENNReal.sub_sub_cancel ENNReal.one_ne_top prob_le_one]
  · have z : ∀ (κ : Measure ℝ), (∀ᵐ x ∂κ, 0 ≤ x) → κ (Iic a) = 0 := fun κ hκ =>
      measure_mono_null (fun x hx => not_le.2 (lt_of_le_of_lt hx (not_le.1 ha))) hκ
    rw [z μ h0, z ν h0']

end Conj
