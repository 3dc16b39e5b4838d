import Verif.ConsistencySpec
import Verif.Lemmas.SampleLaw
import Mathlib.MeasureTheory.Constructions.BorelSpace.Basic
import Mathlib.MeasureTheory.Measure.Typeclasses.Probability

/-!
# Samples from laws that concentrate gather at a point
-/

open MeasureTheory Filter Topology Set

namespace Conj

open Scipy Spec

variable {A B : Type} [MeasurableSpace A] [MeasurableSpace B] {P : Measure Stream}

theorem pi_const_box {n : ℕ} {X : Type} [MeasurableSpace X] (J : Measure X) [SigmaFinite J] (S : Set X) :
    (Measure.pi fun _ : Fin n => J) (univ.pi fun _ => S) = J S ^ n := by
  rw [Measure.pi_pi]; simp

/-- the probability that all of `n` independent values are in `S` -/
theorem prob_all_in {n : ℕ} {X : Type} [MeasurableSpace X] {f : Stream → List X} {J : Measure X}
    [SigmaFinite J] (h : IIDSample P n f J) {S : Set X} (hS : MeasurableSet S) :
    P {s | ∀ x ∈ f s, x ∈ S} = J S ^ n := by
  obtain ⟨Y, hY, hf, hl⟩ := h
  rw [← pi_const_box (n := n) J S, ← hl, Measure.map_apply hY (MeasurableSet.univ_pi fun _ => hS)]
  congr 1
  ext s
  simp [hf, List.mem_ofFn]

theorem prob_all_in_sampled {n : ℕ} {f : Stream → Sampled A B} {J : Measure (A × B)} [SigmaFinite J]
    (h : IIDSampled P n true f J) {U : Set A} {V : Set B} (hU : MeasurableSet U) (hV : MeasurableSet V) :
    P {s | AllIn U V (f s)} = J (U ×ˢ V) ^ n := by
  obtain ⟨Y, hY, hf, hl⟩ := h
  rw [← pi_const_box (n := n) J (U ×ˢ V), ← hl, Measure.map_apply hY (MeasurableSet.univ_pi fun _ => hU.prod hV)]
  congr 1
  ext s
  simp [hf, List.mem_ofFn, AllIn, forall_and]

theorem AllIn.mono {U U' : Set A} {V V' : Set B} (hU : U ⊆ U') (hV : V ⊆ V') {r : Sampled A B} (h : AllIn U V r) :
    AllIn U' V' r := by
  cases r with
  | mean l => exact fun x hx => hU (h x hx)
  | meanAndVariance l m => exact ⟨fun x hx => hU (h.1 x hx), fun y hy => hV (h.2 y hy)⟩

theorem tendsto_one_pow {u : ℕ → ENNReal} (h : Tendsto u atTop (𝓝 1)) (n : ℕ) :
    Tendsto (fun k => u k ^ n) atTop (𝓝 1) := by
  have := ENNReal.Tendsto.pow (n := n) h
  simpa using this

/-- samples gather where their laws concentrate -/
theorem gathers [TopologicalSpace A] [OpensMeasurableSpace A] [TopologicalSpace B] [OpensMeasurableSpace B]
    [IsProbabilityMeasure P]
    {f : ℕ → RandomState → World → Sampled A B × World} {J : ℕ → Measure (A × B)} {size : ℕ} {a : A} {b : B}
    (hJ : ∀ n, IsProbabilityMeasure (J n)) (hf : ∀ n, FreshRun (f n) fun g => IIDSampledThen P size true g (J n))
    (hc : ∀ U, IsOpen U → a ∈ U → ∀ V, IsOpen V → b ∈ V → Tendsto (fun n => J n (U ×ˢ V)) atTop (𝓝 1)) :
    SamplesGatherAt P f a b := by
  intro U hU V hV
  obtain ⟨U', hUU, hUo, haU⟩ := mem_nhds_iff.1 hU
  obtain ⟨V', hVV, hVo, hbV⟩ := mem_nhds_iff.1 hV
  have key := tendsto_one_pow (hc U' hUo haU V' hVo hbV) size
  have run : ∀ g : ℕ → Stream → Sampled A B × Stream, (∀ n, IIDSampledThen P size true (g n) (J n)) →
      Tendsto (fun n => P {s | AllIn U V (g n s).1}) atTop (𝓝 1) := by
    intro g hg
    refine tendsto_of_tendsto_of_tendsto_of_le_of_le key tendsto_const_nhds (fun n => ?_) fun n => prob_le_one
    have := hJ n
    show J n (U' ×ˢ V') ^ size ≤ _
    rw [← prob_all_in_sampled (hg n).iid hUo.measurableSet hVo.measurableSet]
    exact measure_mono fun s hs => AllIn.mono hUU hVV hs
  exact ⟨fun global => run _ fun n => (hf n).1 global, fun gen => run _ fun n => (hf n).2 gen⟩

theorem rvs_gathers [TopologicalSpace A] [OpensMeasurableSpace A] [IsProbabilityMeasure P]
    {f : ℕ → RandomState → World → List A × World} {J : ℕ → Measure A} {size : ℕ} {a : A}
    (hJ : ∀ n, IsProbabilityMeasure (J n)) (hf : ∀ n, FreshRun (f n) fun g => IIDSampleThen P size g (J n))
    (hc : ∀ U, IsOpen U → a ∈ U → Tendsto (fun n => J n U) atTop (𝓝 1)) :
    RvsGatherAt P f a := by
  intro U hU
  obtain ⟨U', hUU, hUo, haU⟩ := mem_nhds_iff.1 hU
  have key := tendsto_one_pow (hc U' hUo haU) size
  have run : ∀ g : ℕ → Stream → List A × Stream, (∀ n, IIDSampleThen P size (g n) (J n)) →
      Tendsto (fun n => P {s | ∀ x ∈ (g n s).1, x ∈ U}) atTop (𝓝 1) := by
    intro g hg
    refine tendsto_of_tendsto_of_tendsto_of_le_of_le key tendsto_const_nhds (fun n => ?_) fun n => prob_le_one
    have := hJ n
    show J n U' ^ size ≤ _
    rw [← prob_all_in (hg n).iid hUo.measurableSet]
    exact measure_mono fun s hs x hx => hUU (hs x hx)
  exact ⟨fun global => run _ fun n => (hf n).1 global, fun gen => run _ fun n => (hf n).2 gen⟩

theorem measurableSet_all_in {n : ℕ} {f : Stream → Sampled A B} {J : Measure (A × B)}
    (h : IIDSampled P n true f J) {U : Set A} {V : Set B} (hU : MeasurableSet U) (hV : MeasurableSet V) :
    MeasurableSet {s | AllIn U V (f s)} := by
  obtain ⟨Y, hY, hf, -⟩ := h
  have : {s | AllIn U V (f s)} = Y ⁻¹' univ.pi fun _ => U ×ˢ V := by
    ext s
    simp [hf, List.mem_ofFn, AllIn, forall_and]
  rw [this]
  exact hY (MeasurableSet.univ_pi fun _ => hU.prod hV)

/-- samples whose variances gather at `b` do not gather at another place -/
theorem not_gathers [TopologicalSpace A] [OpensMeasurableSpace A] [TopologicalSpace B] [OpensMeasurableSpace B]
    [T2Space B] [IsProbabilityMeasure P]
    {f : ℕ → RandomState → World → Sampled A B × World} {J : ℕ → Measure (A × B)} {size : ℕ} {a a' : A} {b b' : B}
    (hs : size ≠ 0) (hJ : ∀ n, IsProbabilityMeasure (J n))
    (hf : ∀ n, FreshRun (f n) fun g => IIDSampledThen P size true g (J n))
    (h : SamplesGatherAt P f a b) (hb : b ≠ b') : ¬ SamplesGatherAt P f a' b' := by
  intro h'
  obtain ⟨V, V', hV, hV', hbV, hbV', hd⟩ := t2_separation hb
  have e := (h univ univ_mem V (hV.mem_nhds hbV)).1 (fun _ => 0)
  have e' := (h' univ univ_mem V' (hV'.mem_nhds hbV')).1 (fun _ => 0)
  have hsum := e.add e'
  refine absurd (le_of_tendsto' hsum fun n => ?_) (by norm_num : ¬ (1 + 1 : ENNReal) ≤ 1)
  have := hJ n
  have hiid := ((hf n).1 fun _ => 0).iid
  have hm := measurableSet_all_in hiid MeasurableSet.univ hV.measurableSet
  rw [← measure_union' _ hm]
  · exact prob_le_one
  · obtain ⟨Y, -, hY, -⟩ := hiid
    rw [Set.disjoint_left]
    intro s hs1 hs2
    have hYs : (f n .generator ⟨fun _ => 0, s⟩).1 = _ := hY s
    rw [mem_setOf_eq, hYs] at hs1 hs2
    simp only [if_true, AllIn, List.mem_ofFn, forall_exists_index, forall_apply_eq_imp_iff] at hs1 hs2
    have i : Fin size := ⟨0, Nat.pos_of_ne_zero hs⟩
    exact Set.disjoint_left.1 hd (hs1.2 i) (hs2.2 i)

theorem map_prob {X Y : Type} [MeasurableSpace X] [MeasurableSpace Y] {μ : Measure X} (h : IsProbabilityMeasure μ)
    {g : X → Y} (hg : Measurable g) : IsProbabilityMeasure (μ.map g) :=
  Measure.isProbabilityMeasure_map hg.aemeasurable

/-- laws that concentrate at `x₀`, seen through maps that take the neighbourhood of `x₀` close to `y` -/
theorem concentrates_through {X Y : Type} [MeasurableSpace X] [PseudoMetricSpace X] [MeasurableSpace Y]
    {μ : ℕ → Measure X} {x₀ : X} (h : ConcentratesAt μ x₀) (hμ : ∀ n, IsProbabilityMeasure (μ n)) {g : ℕ → X → Y}
    (hg : ∀ n, Measurable (g n)) {S : Set Y} (hS : MeasurableSet S)
    (hx : ∃ δ > 0, ∀ᶠ n in atTop, ∀ x ∈ Metric.ball x₀ δ, g n x ∈ S) :
    Tendsto (fun n => (μ n).map (g n) S) atTop (𝓝 1) := by
  obtain ⟨δ, hδ, hx⟩ := hx
  refine tendsto_of_tendsto_of_tendsto_of_le_of_le' (h δ hδ) tendsto_const_nhds ?_ (.of_forall fun n => ?_)
  · filter_upwards [hx] with n hn
    rw [Measure.map_apply (hg n) hS]
    exact measure_mono fun x hx => hn x hx
  · have := hμ n
    have := Measure.isProbabilityMeasure_map (μ := μ n) (hg n).aemeasurable
    exact prob_le_one

/-- `ConcentratesAt` on a product, for open boxes -/
theorem box_of_concentrates {X Y : Type} [MeasurableSpace X] [PseudoMetricSpace X] [MeasurableSpace Y]
    [PseudoMetricSpace Y] {μ : ℕ → Measure (X × Y)} {a : X} {b : Y} (hμ : ∀ n, IsProbabilityMeasure (μ n))
    (h : ConcentratesAt μ (a, b)) (U : Set X) (hU : IsOpen U) (ha : a ∈ U) (V : Set Y) (hV : IsOpen V) (hb : b ∈ V) :
    Tendsto (fun n => μ n (U ×ˢ V)) atTop (𝓝 1) := by
  obtain ⟨δ, hδ, hsub⟩ := Metric.isOpen_iff.1 (hU.prod hV) (a, b) ⟨ha, hb⟩
  exact tendsto_of_tendsto_of_tendsto_of_le_of_le (h δ hδ) tendsto_const_nhds (fun n => measure_mono hsub)
    fun n => by have := hμ n; exact prob_le_one

/-- the samples with each variance mapped by `g` -/
theorem sampled_map {C : Type} [MeasurableSpace C] [IsProbabilityMeasure P] {n : ℕ} {f : Stream → Sampled A B × Stream}
    {J : Measure (A × B)} [IsProbabilityMeasure J] (h : IIDSampledThen P n true f J) {g : B → C} (hg : Measurable g) :
    IIDSampledThen P n true (fun s => (mapVariance g (f s).1, (f s).2)) (J.map fun z => (z.1, g z.2)) := by
  obtain ⟨F, hF, hs⟩ := h.stage
  have hg' : Measurable fun z : A × B => (z.1, g z.2) := measurable_fst.prodMk (hg.comp measurable_snd)
  refine (hF.map hg').sampled true fun s => ?_
  rw [hs]
  simp [mapVariance, Function.comp_def, List.map_ofFn, Sampled.of]

end Conj
