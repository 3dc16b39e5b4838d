import Verif.RvsSpec
import Verif.Lemmas.IdealSamplers
import Mathlib.Probability.CDF

/-!
# Exact samplers for all frozen distributions, by inversion

They show that the hypothesis `CorrectFrozen` can be met.
-/

open MeasureTheory Set ProbabilityTheory

namespace Conj

open Scipy Spec

open Classical in
/-- the quantile of a probability law -/
noncomputable def quantile (μ : Measure ℝ) (u : ℝ) : ℝ :=
  if 0 < u ∧ u < 1 ∧ IsProbabilityMeasure μ then sInf {x | ENNReal.ofReal u ≤ μ (Iic x)} else 0

theorem quantile_le_iff {μ : Measure ℝ} [hμ : IsProbabilityMeasure μ] {u : ℝ} (h0 : 0 < u) (h1 : u < 1) (x : ℝ) :
    quantile μ u ≤ x ↔ ENNReal.ofReal u ≤ μ (Iic x) := by
  have hq : quantile μ u = sInf {x | u ≤ cdf μ x} := by
    rw [quantile, if_pos ⟨h0, h1, hμ⟩]
    congr 1
    ext y
    simp only [mem_ofPred_eq]
    rw [← ofReal_cdf, ENNReal.ofReal_le_ofReal_iff (cdf_nonneg μ y)]
  rw [← ofReal_cdf, ENNReal.ofReal_le_ofReal_iff (cdf_nonneg μ x), hq]
  have hne : {x | u ≤ cdf μ x}.Nonempty := by
    have := ((tendsto_cdf_atTop μ).eventually (lt_mem_nhds h1)).exists
    obtain ⟨y, hy⟩ := this
    exact ⟨y, hy.le⟩
  have hbd : BddBelow {x | u ≤ cdf μ x} := by
    obtain ⟨y, hy⟩ := ((tendsto_cdf_atBot μ).eventually (gt_mem_nhds h0)).exists
    refine ⟨y, fun z hz => ?_⟩
    by_contra hzy
    exact absurd (hz.trans (monotone_cdf μ (not_le.1 hzy).le)) (not_le.2 hy)
  constructor
  · intro h
    have hr : ∀ y, x < y → u ≤ cdf μ y := by
      intro y hy
      obtain ⟨z, hz, hzy⟩ := exists_lt_of_csInf_lt hne (lt_of_le_of_lt h hy)
      exact hz.trans (monotone_cdf μ hzy.le)
    have hc : Filter.Tendsto (cdf μ) (nhdsWithin x (Ioi x)) (nhds (cdf μ x)) :=
      ((cdf μ).right_continuous x).tendsto.mono_left (nhdsWithin_mono _ Ioi_subset_Ici_self)
    exact ge_of_tendsto hc (by filter_upwards [self_mem_nhdsWithin] with y hy using hr y hy)
  · intro h
    exact csInf_le hbd h

theorem map_quantile (μ : Measure ℝ) [hμ : IsProbabilityMeasure μ] (hm : Measurable (quantile μ)) :
    uniformLaw.map (quantile μ) = μ := by
  have hp : IsProbabilityMeasure (uniformLaw.map (quantile μ)) := Measure.isProbabilityMeasure_map hm.aemeasurable
  refine Measure.ext_of_Iic _ _ fun x => ?_
  rw [Measure.map_apply hm measurableSet_Iic]
  have hu : uniformLaw = volume.restrict (Icc (0 : ℝ) 1) := by
    rw [uniformLaw]
    exact map_comap_subtype_coe measurableSet_Icc volume
  have e : uniformLaw (quantile μ ⁻¹' Iic x) = volume (Ioc (0 : ℝ) (cdf μ x)) := by
    rw [hu, Measure.restrict_apply (hm measurableSet_Iic)]
    refine measure_congr ?_
    have a0 : ∀ᵐ u : ℝ, u ≠ 0 := by simp [ae_iff]
    have a1 : ∀ᵐ u : ℝ, u ≠ 1 := by simp [ae_iff]
    filter_upwards [a0, a1] with u hu0 hu1
    refine propext ?_
    change (quantile μ u ≤ x ∧ 0 ≤ u ∧ u ≤ 1) ↔ (0 < u ∧ u ≤ cdf μ x)
    constructor
    · rintro ⟨h, h2, h3⟩
      have h2' := lt_of_le_of_ne h2 hu0.symm
      refine ⟨h2', ?_⟩
      rwa [quantile_le_iff h2' (lt_of_le_of_ne h3 hu1), ← ofReal_cdf,
        ENNReal.ofReal_le_ofReal_iff (cdf_nonneg μ x)] at h
    · rintro ⟨h2, h3⟩
      have h4 : u ≤ 1 := h3.trans (cdf_le_one μ x)
      refine ⟨?_, h2.le, h4⟩
      rwa [quantile_le_iff h2 (lt_of_le_of_ne h4 hu1), ← ofReal_cdf, ENNReal.ofReal_le_ofReal_iff (cdf_nonneg μ x)]
  rw [e, Real.volume_Ioc, sub_zero, ofReal_cdf]

/-- one deviate per draw -/
noncomputable def quantileDraw (μ : Measure ℝ) : Draw ℝ := ⟨fun s => quantile μ (s 0), fun _ => 1⟩

theorem measurable_quantile {B : Type} [MeasurableSpace B] {κ : B → Measure ℝ}
    (hm : ∀ s, MeasurableSet s → Measurable fun b => κ b s) :
    Measurable fun q : B × ℝ => quantile (κ q.1) q.2 := by
  refine measurable_of_Iic fun x => ?_
  have hprob : MeasurableSet {q : B × ℝ | 0 < q.2 ∧ q.2 < 1 ∧ IsProbabilityMeasure (κ q.1)} := by
    have e : {q : B × ℝ | 0 < q.2 ∧ q.2 < 1 ∧ IsProbabilityMeasure (κ q.1)} =
        {q | 0 < q.2} ∩ ({q | q.2 < 1} ∩ {q | κ q.1 univ = 1}) := by
      ext q
      simp only [mem_ofPred_eq, mem_inter_iff, isProbabilityMeasure_iff]
    rw [e]
    exact (measurableSet_lt measurable_const measurable_snd).inter
      ((measurableSet_lt measurable_snd measurable_const).inter
        (((hm univ MeasurableSet.univ).comp measurable_fst) (measurableSet_singleton 1)))
  have e : (fun q : B × ℝ => quantile (κ q.1) q.2) ⁻¹' Iic x =
      ({q : B × ℝ | 0 < q.2 ∧ q.2 < 1 ∧ IsProbabilityMeasure (κ q.1)} ∩ {q | ENNReal.ofReal q.2 ≤ κ q.1 (Iic x)}) ∪
      ({q : B × ℝ | 0 < q.2 ∧ q.2 < 1 ∧ IsProbabilityMeasure (κ q.1)}ᶜ ∩ {_q | 0 ≤ x}) := by
    ext q
    simp only [mem_preimage, mem_Iic, mem_union, mem_inter_iff, mem_compl_iff, mem_ofPred_eq]
    by_cases h : 0 < q.2 ∧ q.2 < 1 ∧ IsProbabilityMeasure (κ q.1)
    · have := h.2.2
      rw [quantile_le_iff h.1 h.2.1]
      simp [h]
    · rw [quantile, if_neg h]
      simp [h]
  rw [e]
  have h2 : MeasurableSet {q : B × ℝ | ENNReal.ofReal q.2 ≤ κ q.1 (Iic x)} :=
    measurableSet_le (by fun_prop) ((hm _ measurableSet_Iic).comp measurable_fst)
  exact (hprob.inter h2).union (hprob.compl.inter (MeasurableSet.const _))

theorem quantile_samples {B : Type} [MeasurableSpace B] {κ : B → Measure ℝ}
    (hm : ∀ s, MeasurableSet s → Measurable fun b => κ b s) {T : Set B} (hp : ∀ b ∈ T, IsProbabilityMeasure (κ b)) :
    SamplesEach streamLaw (fun b => quantileDraw (κ b)) T κ := by
  have hq := measurable_quantile hm
  have hdrop : Measurable fun s : Stream => s.drop 1 := measurable_pi_iff.2 fun i => measurable_pi_apply _
  refine ⟨?_, hp, fun b hb => ?_⟩
  · exact (hq.comp (f := fun q : B × Stream => (q.1, q.2 0)) (measurable_fst.prodMk
      ((measurable_pi_apply 0).comp measurable_snd))).prodMk (hdrop.comp measurable_snd)
  · have := hp b hb
    have hqb : Measurable (quantile (κ b)) := hq.comp (f := fun u : ℝ => (b, u)) (by fun_prop)
    have e2 : (quantileDraw (κ b)).run =
        (fun z : ℝ × Stream => (quantile (κ b) z.1, z.2)) ∘ fun s : Stream => (s 0, s.drop 1) := rfl
    have hm2 : Measurable fun s : Stream => (s 0, s.drop 1) := (measurable_pi_apply 0).prodMk hdrop
    rw [e2, ← Measure.map_map (by fun_prop) hm2, map_headTail]
    have := Measure.map_prod_map uniformLaw streamLaw hqb measurable_id
    rw [Measure.map_id, map_quantile _ hqb] at this
    rw [this]
    rfl

/-- SciPy's specification can be met -/
theorem exists_frozen_library (n : ℕ) : ∃ lib : FrozenSamplers (Fin n), CorrectFrozen lib streamLaw ∧
    CorrectScalar lib.toSamplers streamLaw ∧ CorrectNormal lib.toSamplers streamLaw ∧
    CorrectInvWishart lib.toSamplers streamLaw ∧ CorrectWishart lib.toSamplers streamLaw := by
  obtain ⟨lib, h1, h2, h3, h4⟩ := exists_library n
  refine ⟨{ lib with cont := fun d => quantileDraw (contLaw d), disc := fun d => quantileDraw (discRealLaw d) },
    ⟨?_, ?_⟩, ⟨h1.1, h1.2, h1.3, h1.4, h1.5⟩, h2, h3, h4⟩
  · intro B _ d T hm hp
    refine quantile_samples (κ := fun b => contLaw (d b)) (fun s hs => ?_) hp
    have := measurable_withDensity (X := ℝ) (f := fun q : ℝ × B => (d q.2).pdf q.1)
      (hm.comp (f := fun q : ℝ × B => (q.2, q.1)) (by fun_prop)) hs
    exact this
  · intro B _ d T hm hp
    have hc : Measurable fun k : ℤ => (k : ℝ) := measurable_of_countable _
    refine quantile_samples (κ := fun b => discRealLaw (d b)) (fun s hs => ?_) fun b hb => ?_
    · have e : ∀ b, discRealLaw (d b) s = ∑' k : ℤ, ((fun k : ℤ => (k : ℝ)) ⁻¹' s).indicator
          (fun k => ENNReal.ofReal ((d b).pmf k)) k := by
        intro b
        rw [discRealLaw, Measure.map_apply hc hs, discLaw, withDensity_apply _ (hc hs),
          ← lintegral_indicator (hc hs), lintegral_count]
      simp only [e]
      refine Measurable.tsum fun k => ?_
      by_cases hk : k ∈ (fun k : ℤ => (k : ℝ)) ⁻¹' s
      · simp only [indicator_of_mem hk]
        exact (hm k).ennreal_ofReal
      · simp only [indicator_of_notMem hk]
        exact measurable_const
    · have := hp b hb
      exact Measure.isProbabilityMeasure_map hc.aemeasurable

theorem exists_frozen (n : ℕ) : ∃ lib : FrozenSamplers (Fin n), CorrectFrozen lib streamLaw := by
  obtain ⟨lib, h, -⟩ := exists_frozen_library n
  exact ⟨lib, h⟩

end Conj
