import Verif.Lemmas.BanditLoop

/-!
# The loop is a bandit: choices and rewards given the past
-/

open MeasureTheory Filter Topology

namespace Conj

open Scipy Spec

namespace Loop

variable {k : ℕ} {ι : Type} {P : Measure Stream} [IsProbabilityMeasure P] {L : Loop k ι} {T : Set (ℝ × ℝ)}

/-- the chance of a group, as the chance of streams that lead to it -/
noncomputable def prob (L : Loop k ι) (P : Measure Stream) (e : Fin k → ℝ × ℝ) (i : Fin k) : ENNReal :=
  P {s | L.arm ((Draw.vec fun j => L.lib.cont (L.estimate (e j))).run s).1 = i}

theorem Ok.prob_eq (h : L.Ok P T) {e : Fin k → ℝ × ℝ} (he : ∀ i, e i ∈ T) (i : Fin k) :
    L.prob P e i = L.chance e i := by
  have hm : MeasurableSet {r | L.arm r = i} := h.arm (measurableSet_singleton i)
  have hrun : Measurable (Draw.vec fun j => L.lib.cont (L.estimate (e j))).run :=
    h.samples.measurable.comp (measurable_const (a := e) |>.prodMk measurable_id)
  have hl := h.samples.law e fun j _ => he j
  have hp := h.samples.prob e fun j _ => he j
  have h1 := congrArg (fun μ : Measure ((Fin k → ℝ) × Stream) => μ ({r | L.arm r = i} ×ˢ Set.univ)) hl
  simp only [Measure.prod_prod, measure_univ, mul_one] at h1
  rw [Measure.map_apply hrun (hm.prod MeasurableSet.univ)] at h1
  rw [chance, ← h1, prob]
  congr 1
  ext s
  simp

theorem Ok.measurable_prob (h : L.Ok P T) (i : Fin k) : Measurable fun e => L.prob P e i := by
  have hm : MeasurableSet {q : (Fin k → ℝ × ℝ) × Stream |
      L.arm ((Draw.vec fun j => L.lib.cont (L.estimate (q.1 j))).run q.2).1 = i} :=
    (h.arm.comp h.samples.measurable.fst) (measurableSet_singleton i)
  exact measurable_measure_prodMk_left hm

theorem Ok.measurable_hist (h : L.Ok P T) (t : ℕ) : Measurable fun s => (L.state t s).1 := (h.measurable_state t).fst

theorem Ok.measurable_play (h : L.Ok P T) (t : ℕ) : Measurable (L.play t) :=
  ((h.measurable_next t).comp (h.measurable_state t)).fst

/-- which group is next, given the past -/
theorem Ok.chosen (h : L.Ok P T) (t : ℕ) (i : Fin k) {w : Hist k → ENNReal} (hw : Measurable w) :
    ∫⁻ s, w (L.state t s).1 * (if (L.play t s).1 = i then 1 else 0) ∂P =
      ∫⁻ s, w (L.state t s).1 * L.prob P (L.params t (L.state t s).1) i ∂P := by
  have hG : Measurable fun z : Hist k × (Fin k × ℝ) => w z.1 * (if z.2.1 = i then (1 : ENNReal) else 0) :=
    (hw.comp measurable_fst).mul (Measurable.ite (measurable_snd.fst (measurableSet_singleton i)) measurable_const measurable_const)
  refine (h.next_play t hG).trans (lintegral_congr_ae ?_)
  filter_upwards [(h.fresh t).1] with s hs
  rw [h.prob_eq hs, Finset.sum_eq_single i]
  · have := h.src i
    simp
  · intro j _ hj; simp [hj]
  · intro hi; exact absurd (Finset.mem_univ i) hi

/-- the reward of the group, given the past and the group -/
theorem Ok.rewarded (h : L.Ok P T) (t : ℕ) (i : Fin k) {w : Hist k → ENNReal} (hw : Measurable w) {f : ℝ → ENNReal}
    (hf : Measurable f) :
    ∫⁻ s, w (L.state t s).1 * (if (L.play t s).1 = i then f (L.play t s).2 else 0) ∂P =
      (∫⁻ x, f x ∂contLaw (L.source i)) * ∫⁻ s, w (L.state t s).1 * (if (L.play t s).1 = i then 1 else 0) ∂P := by
  have hG : Measurable fun z : Hist k × (Fin k × ℝ) => w z.1 * (if z.2.1 = i then f z.2.2 else 0) :=
    (hw.comp measurable_fst).mul (Measurable.ite (measurable_snd.fst (measurableSet_singleton i))
      (hf.comp measurable_snd.snd) measurable_const)
  have hm : Measurable fun s => w (L.state t s).1 * L.prob P (L.params t (L.state t s).1) i :=
    (hw.comp (h.measurable_hist t)).mul
      ((h.measurable_prob i).comp ((h.measurable_params t).comp (h.measurable_hist t)))
  rw [h.chosen t i hw, ← lintegral_const_mul _ hm]
  refine (h.next_play t hG).trans (lintegral_congr_ae ?_)
  filter_upwards [(h.fresh t).1] with s hs
  rw [h.prob_eq hs, Finset.sum_eq_single i]
  · simp only [if_true]
    rw [lintegral_const_mul _ hf]
    ring
  · intro j _ hj; simp [hj]
  · intro hi; exact absurd (Finset.mem_univ i) hi

theorem hist_rest (L : Loop k ι) (s : Stream) : ∀ {t j : ℕ}, t ≤ j → (L.state t s).1 j = (L.arm 0, 0)
  | 0, _, _ => rfl
  | t + 1, j, h => by
    rw [hist_succ, Function.update_of_ne (by omega)]
    exact hist_rest L s (by omega)

theorem hist_of_succ (L : Loop k ι) (t : ℕ) (s : Stream) :
    (L.state t s).1 = Function.update (L.state (t + 1) s).1 t (L.arm 0, 0) := by
  rw [hist_succ, Function.update_idem]
  funext j
  by_cases hj : j = t
  · subst hj; rw [Function.update_self]; exact hist_rest L s le_rfl
  · rw [Function.update_of_ne hj]

/-- what is known after `t` plays -/
noncomputable def past (h : L.Ok P T) : Filtration ℕ (inferInstance : MeasurableSpace Stream) where
  seq t := MeasurableSpace.comap (fun s => (L.state t s).1) inferInstance
  mono' := monotone_nat_of_le_succ fun t => by
    have hu : Measurable fun g : Hist k => Function.update g t (L.arm 0, (0 : ℝ)) :=
      (measurable_update_at t).comp (measurable_id.prodMk measurable_const)
    have e : (fun s => (L.state t s).1) =
        (fun g : Hist k => Function.update g t (L.arm 0, (0 : ℝ))) ∘ fun s => (L.state (t + 1) s).1 :=
      funext fun s => hist_of_succ L t s
    rw [e, ← MeasurableSpace.comap_comp]
    exact MeasurableSpace.comap_mono hu.comap_le
  le' t := (h.measurable_hist t).comap_le

theorem measurable_past (h : L.Ok P T) (t : ℕ) : Measurable[past h t] fun s => (L.state t s).1 :=
  comap_measurable _

/-- a measurable function of the past is a function of the plays -/
theorem of_past (h : L.Ok P T) {t : ℕ} {w : Stream → ℝ} (hw : StronglyMeasurable[past h t] w) :
    ∃ w' : Hist k → ℝ, Measurable w' ∧ ∀ s, w s = w' (L.state t s).1 := by
  obtain ⟨w', h1, h2⟩ := Measurable.exists_eq_measurable_comp (hw.measurable)
  exact ⟨w', h1, fun s => congrFun h2 s⟩

/-- the source of the rewards has mean `m` and variance `v` -/
structure Moments (μ : Measure ℝ) (m v : ℝ) : Prop where
  memLp : MemLp (fun x => x) 2 μ
  mean : ∫ x, x ∂μ = m
  var : ∫⁻ x, ENNReal.ofReal ((x - m) ^ 2) ∂μ = ENNReal.ofReal v
  nonneg : 0 ≤ v

theorem Ok.isBandit (h : L.Ok P T) {m v : Fin k → ℝ} (hmv : ∀ i, Moments (contLaw (L.source i)) (m i) (v i)) :
    IsBandit P (past h) (fun t s => (L.play t s).1) (fun t s => (L.play t s).2)
      (fun t i s => (L.prob P (L.params t (L.state t s).1) i).toReal) m v := by
  have hgm : ∀ t i, MeasurableSet {s | (L.play t s).1 = i} := fun t i =>
    (h.measurable_play t).fst (measurableSet_singleton i)
  have hxm : ∀ t, Measurable fun s => (L.play t s).2 := fun t => (h.measurable_play t).snd
  have hprob1 : ∀ e i, L.prob P e i ≤ 1 := fun e i => prob_le_one
  have hind : ∀ t i s, 0 ≤ {s | (L.play t s).1 = i}.indicator (1 : Stream → ℝ) s := fun t i s =>
    Set.indicator_nonneg (fun _ _ => zero_le_one) s
  -- second moment of a reward, weighted by a function of the past
  have hsq : ∀ t i (w : Hist k → ℝ), Measurable w → (∀ s, 0 ≤ w (L.state t s).1) →
      ∫⁻ s, ENNReal.ofReal (w (L.state t s).1 *
        {s | (L.play t s).1 = i}.indicator (fun s => (L.play t s).2 - m i) s ^ 2) ∂P =
      ENNReal.ofReal (v i) * ∫⁻ s, ENNReal.ofReal (w (L.state t s).1 *
        {s | (L.play t s).1 = i}.indicator (1 : Stream → ℝ) s) ∂P := by
    intro t i w hw hw0
    have := h.rewarded t i (w := fun g => ENNReal.ofReal (w g)) hw.ennreal_ofReal
      (f := fun x => ENNReal.ofReal ((x - m i) ^ 2)) (by fun_prop)
    rw [(hmv i).var] at this
    refine Eq.trans (lintegral_congr fun s => ?_) (this.trans (congrArg _ (lintegral_congr fun s => ?_)))
    · rw [ENNReal.ofReal_mul (hw0 s)]
      by_cases hg : (L.play t s).1 = i
      · simp [hg]
      · simp [hg]
    · rw [ENNReal.ofReal_mul (hw0 s)]
      by_cases hg : (L.play t s).1 = i
      · simp [hg]
      · simp [hg]
  have hmem : ∀ t i, MemLp ({s | (L.play t s).1 = i}.indicator fun s => (L.play t s).2 - m i) 2 P := by
    intro t i
    have hm : Measurable ({s | (L.play t s).1 = i}.indicator fun s => (L.play t s).2 - m i) :=
      ((hxm t).sub_const _).indicator (hgm t i)
    rw [memLp_two_iff_integrable_sq hm.aestronglyMeasurable]
    refine ⟨(hm.pow_const 2).aestronglyMeasurable, ?_⟩
    rw [hasFiniteIntegral_iff_ofReal (Eventually.of_forall fun s => sq_nonneg _)]
    have := hsq t i (fun _ => 1) measurable_const fun _ => zero_le_one
    simp only [one_mul] at this
    rw [this]
    refine ENNReal.mul_lt_top ENNReal.ofReal_lt_top (lt_of_le_of_lt (lintegral_mono (g := fun _ => 1) fun s => ?_) (by simp))
    by_cases hg : (L.play t s).1 = i <;> simp [hg]
  have hqi : ∀ t i, Measurable[past h t] fun s => (L.prob P (L.params t (L.state t s).1) i).toReal := fun t i =>
    (((h.measurable_prob i).comp (h.measurable_params t)).ennreal_toReal).comp (measurable_past h t)
  refine
    { arm := fun t i => ?_
      reward := fun t => ?_
      memLp := hmem
      qmeas := fun t i => (hqi t i).stronglyMeasurable
      q0 := fun t i s => ENNReal.toReal_nonneg
      q1 := fun t i s => ENNReal.toReal_le_of_le_ofReal zero_le_one (by simpa using hprob1 _ i)
      choose := fun t i => ?_
      mean := fun t i => ?_
      v0 := fun i => (hmv i).nonneg
      var := fun t i w hw hw0 hw1 => ?_ }
  · refine ⟨{g | (g t).1 = i}, (measurable_pi_apply t).fst (measurableSet_singleton i), ?_⟩
    ext s
    simp [hist_succ]
  · have e : (fun s => (L.play t s).2) = (fun g : Hist k => (g t).2) ∘ fun s => (L.state (t + 1) s).1 := by
      funext s; simp [hist_succ]
    rw [e]
    exact (((measurable_pi_apply t).snd).comp (measurable_past h (t + 1))).stronglyMeasurable
  · symm
    refine ae_eq_condExp_of_forall_setIntegral_eq ((past h).le t)
      ((integrable_const (1 : ℝ)).indicator (hgm t i)) (fun s _ _ => ?_) (fun A hA _ => ?_)
      (hqi t i).stronglyMeasurable.aestronglyMeasurable
    · refine (Integrable.of_bound (((hqi t i).mono ((past h).le t) le_rfl).aestronglyMeasurable) 1
        (Eventually.of_forall fun s => ?_)).integrableOn
      rw [Real.norm_eq_abs, abs_of_nonneg ENNReal.toReal_nonneg]
      exact ENNReal.toReal_le_of_le_ofReal zero_le_one (by simpa using hprob1 _ i)
    · obtain ⟨H, hH, rfl⟩ := hA
      have hA' : MeasurableSet ((fun s => (L.state t s).1) ⁻¹' H) := h.measurable_hist t hH
      have hch := h.chosen t i (w := H.indicator 1) (measurable_one.indicator hH)
      rw [integral_eq_lintegral_of_nonneg_ae (Eventually.of_forall fun s => ENNReal.toReal_nonneg)
        (((hqi t i).mono ((past h).le t) le_rfl).aestronglyMeasurable),
        integral_eq_lintegral_of_nonneg_ae (Eventually.of_forall fun s => hind t i s)
        (measurable_one.indicator (hgm t i)).aestronglyMeasurable, ← lintegral_indicator hA', ← lintegral_indicator hA']
      congr 1
      refine Eq.trans (lintegral_congr fun s => ?_) (hch.symm.trans (lintegral_congr fun s => ?_))
      · by_cases hs : (L.state t s).1 ∈ H
        · rw [Set.indicator_of_mem (by exact hs), Set.indicator_of_mem hs, Pi.one_apply, one_mul,
            ENNReal.ofReal_toReal (ne_top_of_le_ne_top ENNReal.one_ne_top (hprob1 _ i))]
        · rw [Set.indicator_of_notMem (by exact hs), Set.indicator_of_notMem hs, zero_mul]
      · by_cases hs : (L.state t s).1 ∈ H
        · rw [Set.indicator_of_mem (by exact hs), Set.indicator_of_mem (by exact hs), Pi.one_apply, one_mul]
          by_cases hg : (L.play t s).1 = i <;> simp [hg]
        · rw [Set.indicator_of_notMem (by exact hs), Set.indicator_of_notMem (by exact hs), zero_mul]
  · symm
    refine ae_eq_condExp_of_forall_setIntegral_eq ((past h).le t) ((hmem t i).integrable one_le_two)
      (fun s _ _ => (integrable_zero _ _ _).integrableOn) (fun A hA _ => ?_) stronglyMeasurable_zero.aestronglyMeasurable
    obtain ⟨H, hH, rfl⟩ := hA
    have hA' : MeasurableSet ((fun s => (L.state t s).1) ⁻¹' H) := h.measurable_hist t hH
    have hB : MeasurableSet ((fun s => (L.state t s).1) ⁻¹' H ∩ {s | (L.play t s).1 = i}) := hA'.inter (hgm t i)
    have hlaw : (P.restrict ((fun s => (L.state t s).1) ⁻¹' H ∩ {s | (L.play t s).1 = i})).map (fun s => (L.play t s).2) =
        P ((fun s => (L.state t s).1) ⁻¹' H ∩ {s | (L.play t s).1 = i}) • contLaw (L.source i) := by
      have hsrc := h.src i
      ext S hS
      rw [Measure.map_apply (hxm t) hS, Measure.restrict_apply (hxm t hS), Measure.smul_apply, smul_eq_mul]
      have := h.rewarded t i (w := H.indicator 1) (measurable_one.indicator hH) (f := S.indicator 1)
        (measurable_one.indicator hS)
      rw [lintegral_indicator_one hS] at this
      rw [← lintegral_indicator_one hB, ← lintegral_indicator_one ((hxm t hS).inter hB), mul_comm]
      refine Eq.trans (lintegral_congr fun s => ?_) (this.trans (congrArg _ (lintegral_congr fun s => ?_)))
      · by_cases h1 : (L.state t s).1 ∈ H <;> by_cases h2 : (L.play t s).1 = i <;> by_cases h3 : (L.play t s).2 ∈ S <;>
          simp [Set.indicator, h1, h2, h3]
      · by_cases h1 : (L.state t s).1 ∈ H <;> by_cases h2 : (L.play t s).1 = i <;> simp [Set.indicator, h1, h2]
    have hsrc := h.src i
    have hint : Integrable (fun x : ℝ => x) (contLaw (L.source i)) := (hmv i).memLp.integrable one_le_two
    rw [setIntegral_indicator (hgm t i),
      ← integral_map (φ := fun s => (L.play t s).2) (f := fun x => x - m i) (hxm t).aemeasurable (by fun_prop), hlaw,
      integral_smul_measure, integral_sub hint (integrable_const _), (hmv i).mean]
    simp
  · obtain ⟨w', hw', e⟩ := of_past h hw
    have hwm : Measurable w := (hw.mono ((past h).le t)).measurable
    have := hsq t i w' hw' fun s => by rw [← e]; exact hw0 s
    simp only [← e] at this
    have hm1 : Measurable ({s | (L.play t s).1 = i}.indicator fun s => (L.play t s).2 - m i) :=
      ((hxm t).sub_const _).indicator (hgm t i)
    have hm2 : Measurable ({s | (L.play t s).1 = i}.indicator (1 : Stream → ℝ)) := measurable_one.indicator (hgm t i)
    rw [integral_eq_lintegral_of_nonneg_ae (Eventually.of_forall fun s => mul_nonneg (hw0 s) (sq_nonneg _))
      (hwm.mul (hm1.pow_const 2)).aestronglyMeasurable,
      integral_eq_lintegral_of_nonneg_ae (Eventually.of_forall fun s => mul_nonneg (hw0 s)
        (hind t i s)) (hwm.mul hm2).aestronglyMeasurable, this,
      ENNReal.toReal_mul, ENNReal.toReal_ofReal (hmv i).nonneg]

end Loop

end Conj
