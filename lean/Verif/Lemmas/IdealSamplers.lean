import Verif.Lemmas.LawFamilies
import Mathlib.Probability.ProductMeasure
import Mathlib.Probability.Kernel.Representation
import Mathlib.MeasureTheory.Constructions.BorelSpace.Basic

/-! Samplers that are exactly right exist: every law is a function of one uniform deviate. -/

open MeasureTheory Set ProbabilityTheory unitInterval

set_option linter.unusedSectionVars false

namespace Conj

open Scipy Spec

variable {A B C : Type} [MeasurableSpace A] [MeasurableSpace B] [MeasurableSpace C]

/-- one uniform deviate -/
noncomputable def uniformLaw : Measure ℝ := (volume : Measure I).map Subtype.val

instance : IsProbabilityMeasure uniformLaw := Measure.isProbabilityMeasure_map measurable_subtype_coe.aemeasurable

/-- a stream of independent uniform deviates -/
noncomputable def streamLaw : Measure Stream := Measure.infinitePi fun _ : ℕ => uniformLaw

instance : IsProbabilityMeasure streamLaw := by unfold streamLaw; infer_instance

/-- put a deviate in front -/
def consStream (z : ℝ × Stream) : Stream := fun i => Nat.casesOn i z.1 z.2

theorem measurable_consStream : Measurable consStream := by
  rw [measurable_pi_iff]
  intro i
  cases i with
  | zero => exact measurable_fst
  | succ i => exact (measurable_pi_apply i).comp measurable_snd

theorem map_consStream : (uniformLaw.prod streamLaw).map consStream = streamLaw := by
  refine Measure.eq_infinitePi _ fun s t ht => ?_
  obtain ⟨N, hN⟩ : ∃ N : ℕ, s ⊆ Finset.range (N + 1) :=
    ⟨s.sup id, fun i hi => Finset.mem_range.2 (Nat.lt_succ_of_le (Finset.le_sup (f := id) hi))⟩
  classical
  set t' : ℕ → Set ℝ := fun i => if i ∈ s then t i else univ with ht'
  have hm' : ∀ i, MeasurableSet (t' i) := fun i => by
    by_cases h : i ∈ s
    · simp only [ht', if_pos h]; exact ht i
    · simp only [ht', if_neg h]; exact MeasurableSet.univ
  have e1 : (s : Set ℕ).pi t = (Finset.range (N + 1) : Set ℕ).pi t' := by
    ext x
    simp only [Set.mem_pi, Finset.mem_coe]
    constructor
    · intro h i _
      by_cases hi : i ∈ s
      · simp only [ht', if_pos hi]; exact h i hi
      · simp only [ht', if_neg hi]; trivial
    · intro h i hi
      have := h i (hN hi)
      simpa only [ht', if_pos hi] using this
  have e2 : ∏ i ∈ s, uniformLaw (t i) = ∏ i ∈ Finset.range (N + 1), uniformLaw (t' i) := by
    rw [← Finset.prod_subset hN]
    · exact Finset.prod_congr rfl fun i hi => by simp only [ht', if_pos hi]
    · intro i _ hi
      simp only [ht', if_neg hi, measure_univ]
  rw [e1, e2, Measure.map_apply measurable_consStream
    (MeasurableSet.pi (Finset.countable_toSet _) fun i _ => hm' i)]
  have e3 : consStream ⁻¹' ((Finset.range (N + 1) : Set ℕ).pi t') =
      t' 0 ×ˢ ((Finset.range N : Set ℕ).pi fun i => t' (i + 1)) := by
    ext z
    simp only [Set.mem_preimage, Set.mem_pi, Finset.mem_coe, Finset.mem_range, Set.mem_prod]
    constructor
    · intro h
      exact ⟨h 0 (Nat.succ_pos _), fun i hi => h (i + 1) (by omega)⟩
    · rintro ⟨h0, h1⟩ i hi
      cases i with
      | zero => exact h0
      | succ i => exact h1 i (by omega)
  rw [e3, Measure.prod_prod, streamLaw, Measure.infinitePi_pi _ (fun i _ => hm' (i + 1)),
    Finset.prod_range_succ', mul_comm]

/-- the first deviate and the rest of the stream -/
theorem map_headTail : streamLaw.map (fun s : Stream => (s 0, s.drop 1)) = uniformLaw.prod streamLaw := by
  have hm : Measurable fun s : Stream => (s 0, s.drop 1) :=
    (measurable_pi_apply 0).prodMk (measurable_pi_iff.2 fun i => measurable_pi_apply _)
  conv_lhs => rw [← map_consStream]
  rw [Measure.map_map hm measurable_consStream]
  have : (fun s : Stream => (s 0, s.drop 1)) ∘ consStream = id := by
    funext z
    refine Prod.ext rfl ?_
    funext i
    simp only [Function.comp, Stream.drop, consStream, id, Nat.add_comm 1 i]
  rw [this, Measure.map_id]

/-- any measurable family of laws has a sampler that uses one deviate -/
theorem exists_sampler [Nonempty A] [StandardBorelSpace A] (κ : B → Measure A) {T : Set B} (hT : MeasurableSet T)
    (hp : ∀ b ∈ T, IsProbabilityMeasure (κ b))
    (hm : ∀ s, MeasurableSet s → Measurable (T.indicator fun b => κ b s)) :
    ∃ d : B → Draw A, SamplesEach streamLaw d T κ := by
  classical
  let a₀ : A := Classical.arbitrary A
  let k : Kernel B A :=
    { toFun := fun b => if b ∈ T then κ b else Measure.dirac a₀
      measurable' := by
        refine Measure.measurable_of_measurable_coe _ fun s hs => ?_
        have : (fun b => (if b ∈ T then κ b else Measure.dirac a₀) s) =
            fun b => if b ∈ T then T.indicator (fun b => κ b s) b else Measure.dirac a₀ s := by
          funext b
          by_cases h : b ∈ T
          · simp [h]
          · simp [h]
        rw [this]
        exact Measurable.ite hT (hm s hs) measurable_const }
  have hk : IsMarkovKernel k := ⟨fun b => by
    by_cases h : b ∈ T
    · have : k b = κ b := if_pos h
      rw [this]; exact hp b h
    · have : k b = Measure.dirac a₀ := if_neg h
      rw [this]; infer_instance⟩
  obtain ⟨f, hf, hfk⟩ := Kernel.exists_measurable_map_eq_unitInterval k
  let pr : ℝ → I := Set.projIcc 0 1 zero_le_one
  have hpr : Measurable pr := continuous_projIcc.measurable
  have hdrop : Measurable fun s : Stream => s.drop 1 := measurable_pi_iff.2 fun i => measurable_pi_apply _
  refine ⟨fun b => ⟨fun s => f b (pr (s 0)), fun _ => 1⟩, ?_, hp, ?_⟩
  · have h1 : Measurable fun q : B × Stream => f q.1 (pr (q.2 0)) :=
      hf.comp (f := fun q : B × Stream => (q.1, pr (q.2 0)))
        (measurable_fst.prodMk (hpr.comp ((measurable_pi_apply 0).comp measurable_snd)))
    exact h1.prodMk (hdrop.comp measurable_snd)
  · intro b hb
    have hfb : Measurable fun u : ℝ => f b (pr u) :=
      hf.comp (f := fun u : ℝ => (b, pr u)) (measurable_const.prodMk hpr)
    have e : uniformLaw.map (fun u => f b (pr u)) = κ b := by
      rw [uniformLaw, Measure.map_map hfb measurable_subtype_coe]
      have : (fun u : ℝ => f b (pr u)) ∘ Subtype.val = f b := by
        funext u
        simp only [Function.comp, pr, Set.projIcc_val]
      rw [this, hfk b]
      exact if_pos hb
    have e2 : (⟨fun s => f b (pr (s 0)), fun _ => 1⟩ : Draw A).run =
        (fun z : ℝ × Stream => (f b (pr z.1), z.2)) ∘ fun s : Stream => (s 0, s.drop 1) := rfl
    have hm2 : Measurable fun s : Stream => (s 0, s.drop 1) := (measurable_pi_apply 0).prodMk hdrop
    rw [e2, ← Measure.map_map (by fun_prop) hm2, map_headTail, ← e]
    have := Measure.map_prod_map uniformLaw streamLaw hfb measurable_id
    rw [Measure.map_id] at this
    rw [this]
    rfl

/-! ## A library of exact samplers -/

theorem exists_samples [Nonempty A] [StandardBorelSpace A] (μ : Measure A) (hp : IsProbabilityMeasure μ) :
    ∃ d : Draw A, Samples streamLaw d μ := by
  obtain ⟨d, hd⟩ := exists_sampler (fun _ : Unit => μ) MeasurableSet.univ (fun _ _ => hp)
    (fun s _ => measurable_of_countable _)
  exact ⟨d (), hd⟩

theorem measurable_withDensity {X : Type} [MeasureSpace X] [SFinite (volume : Measure X)] {f : X × B → ℝ}
    (hf : Measurable f) {s : Set X} (hs : MeasurableSet s) :
    Measurable fun b => (volume.withDensity fun x => ENNReal.ofReal (f (x, b))) s := by
  have h : ∀ b, (volume.withDensity fun x => ENNReal.ofReal (f (x, b))) s =
      ∫⁻ x in s, ENNReal.ofReal (f (x, b)) := fun b => withDensity_apply _ hs
  simp only [h]
  exact Measurable.lintegral_prod_left' (f := fun z : X × B => ENNReal.ofReal (f z)) hf.ennreal_ofReal

theorem exists_invgamma {a b : ℝ} (ha : 0 < a) (hb : 0 < b) :
    ∃ d, Samples streamLaw d (contLaw { family := .invgamma a, scale := b }) := by
  refine exists_samples _ ?_
  have e := invgamma_lawOn ⟨a, b⟩ hb
  have := lawOn_prob measurableSet_Ioi (InverseGamma.isDensity ⟨a, b⟩ ha hb)
  rw [← e] at this
  exact this

theorem exists_beta {a b : ℝ} (ha : 0 < a) (hb : 0 < b) :
    ∃ d, Samples streamLaw d (contLaw { family := .beta a b }) := by
  refine exists_samples _ ?_
  have e := beta_lawOn ⟨a, b⟩
  have := lawOn_prob measurableSet_Ioo (Beta.isDensity ⟨a, b⟩ ha hb)
  rw [← e] at this
  exact this

theorem exists_gamma {a : ℝ} (ha : 0 < a) : ∃ d : ℝ → Draw ℝ,
    SamplesEach streamLaw d (Ioi 0) fun b => contLaw { family := .gamma a, scale := b } := by
  refine exists_sampler _ measurableSet_Ioi (fun b hb => ?_) fun s hs => ?_
  · have hb' : 0 < 1 / b := one_div_pos.2 hb
    have e := gamma_lawOn ⟨a, 1 / b⟩ hb'
    have := lawOn_prob measurableSet_Ioi (Gamma.isDensity ⟨a, 1 / b⟩ ha hb')
    rw [← e] at this
    simpa [Gamma.dist] using this
  · refine Measurable.indicator ?_ measurableSet_Ioi
    refine measurable_withDensity (f := fun z : ℝ × ℝ => Cont.pdf { family := .gamma a, scale := z.2 } z.1) ?_ hs
    simp only [Cont.pdf, Family.std]
    have h1 : Measurable fun z : ℝ × ℝ => (z.1 - 0) / z.2 := by fun_prop
    refine Measurable.div (Measurable.ite (h1 measurableSet_Ici) ?_ measurable_const) measurable_snd
    fun_prop

theorem exists_norm (loc : ℝ) : ∃ d : ℝ → Draw ℝ,
    SamplesEach streamLaw d (Ioi 0) fun b => contLaw { family := .norm, loc := loc, scale := b } := by
  refine exists_sampler _ measurableSet_Ioi (fun b hb => ?_) fun s hs => ?_
  · have e := norm_lawOn ⟨loc, b⟩
    have := lawOn_prob MeasurableSet.univ (Normal.isDensity ⟨loc, b⟩ hb)
    rw [← e] at this
    exact this
  · refine Measurable.indicator ?_ measurableSet_Ioi
    refine measurable_withDensity (f := fun z : ℝ × ℝ => Cont.pdf { family := .norm, loc := loc, scale := z.2 } z.1) ?_ hs
    simp only [Cont.pdf, Family.std]
    fun_prop

theorem exists_geom : ∃ d : ℝ → Draw ℝ,
    SamplesEach streamLaw d (Ioo 0 1) fun p => (discLaw { family := .geom p }).map fun k : ℤ => (k : ℝ) := by
  refine exists_sampler _ measurableSet_Ioo (fun p hp => ⟨?_⟩) fun s hs => ?_
  · rw [← lintegral_one, lintegral_geom measurable_const]
    have h1 : HasSum (fun m : ℕ => (1 - p) ^ m * p) 1 := by
      have := (hasSum_geometric_of_lt_one (by linarith [hp.2] : 0 ≤ 1 - p) (by linarith [hp.1])).mul_right p
      rwa [sub_sub_cancel, inv_mul_cancel₀ hp.1.ne'] at this
    simp only [mul_one]
    rw [← ENNReal.ofReal_tsum_of_nonneg (fun m => mul_nonneg (pow_nonneg (by linarith [hp.2]) _) hp.1.le)
      h1.summable, h1.tsum_eq, ENNReal.ofReal_one]
  · refine Measurable.indicator ?_ measurableSet_Ioo
    have h : ∀ p : ℝ, ((discLaw { family := .geom p }).map fun k : ℤ => (k : ℝ)) s =
        ∑' m : ℕ, ENNReal.ofReal ((1 - p) ^ m * p) * s.indicator 1 (1 + (m : ℝ)) := by
      intro p
      rw [← lintegral_indicator_one hs, lintegral_geom (measurable_one.indicator hs)]
    simp only [h]
    exact Measurable.tsum fun m => by fun_prop

theorem measurableSet_posDef_matrix {n : ℕ} : MeasurableSet {S : Matrix (Fin n) (Fin n) ℝ | S.PosDef} := by
  have : {S : Matrix (Fin n) (Fin n) ℝ | S.PosDef} = symOf '' {c | (symOf c).PosDef} := by
    ext S
    constructor
    · intro h
      have e := symOf_upperOf (posDef_symm h)
      exact ⟨upperOf S, by rw [Set.mem_ofPred_eq, e]; exact h, e⟩
    · rintro ⟨c, hc, rfl⟩
      exact hc
  rw [this]
  exact measurableEmbedding_symOf.measurableSet_image.2 measurableSet_posDef

theorem exists_mvn (n : ℕ) : ∃ d : (Fin n → ℝ) × Matrix (Fin n) (Fin n) ℝ → Draw (Fin n → ℝ),
    SamplesEach streamLaw d {q | q.2.PosDef} fun q => lawOn univ (mvnPdf q.1 q.2) := by
  have hS : MeasurableSet {q : (Fin n → ℝ) × Matrix (Fin n) (Fin n) ℝ | q.2.PosDef} :=
    measurable_snd measurableSet_posDef_matrix
  refine exists_sampler _ hS
    (fun q hc => lawOn_prob MeasurableSet.univ (mvn_isDensity hc q.1)) fun s hs => ?_
  refine Measurable.indicator ?_ hS
  simp only [lawOn_univ]
  refine measurable_withDensity (f := fun z : (Fin n → ℝ) × (Fin n → ℝ) × Matrix (Fin n) (Fin n) ℝ =>
    mvnPdf z.2.1 z.2.2 z.1) ?_ hs
  exact measurable_mvnPdf_all

theorem symLaw_prob {n : ℕ} {f : Matrix (Fin n) (Fin n) ℝ → ℝ}
    (hf : IsDensity volume {c : UpperIdx n → ℝ | (symOf c).PosDef} fun c => f (symOf c)) :
    IsProbabilityMeasure (symLaw f) := by
  have := lawOn_prob measurableSet_posDef hf
  exact Measure.isProbabilityMeasure_map measurable_symOf.aemeasurable

/-- samplers as good as the theorems about sampling assume them to be -/
theorem exists_library (n : ℕ) : ∃ lib : Samplers (Fin n), CorrectScalar lib streamLaw ∧
    CorrectNormal lib streamLaw ∧ CorrectInvWishart lib streamLaw ∧ CorrectWishart lib streamLaw := by
  classical
  have h1 : ∀ a b : ℝ, ∃ d, 0 < a → 0 < b → Samples streamLaw d (contLaw { family := .invgamma a, scale := b }) := by
    intro a b
    by_cases h : 0 < a ∧ 0 < b
    · obtain ⟨d, hd⟩ := exists_invgamma h.1 h.2; exact ⟨d, fun _ _ => hd⟩
    · exact ⟨⟨fun _ => 0, fun _ => 0⟩, fun ha hb => absurd ⟨ha, hb⟩ h⟩
  have h2 : ∀ a b : ℝ, ∃ d, 0 < a → 0 < b → Samples streamLaw d (contLaw { family := .beta a b }) := by
    intro a b
    by_cases h : 0 < a ∧ 0 < b
    · obtain ⟨d, hd⟩ := exists_beta h.1 h.2; exact ⟨d, fun _ _ => hd⟩
    · exact ⟨⟨fun _ => 0, fun _ => 0⟩, fun ha hb => absurd ⟨ha, hb⟩ h⟩
  have h3 : ∀ a : ℝ, ∃ d : ℝ → Draw ℝ, 0 < a →
      SamplesEach streamLaw d (Ioi 0) fun b => contLaw { family := .gamma a, scale := b } := by
    intro a
    by_cases h : 0 < a
    · obtain ⟨d, hd⟩ := exists_gamma h; exact ⟨d, fun _ => hd⟩
    · exact ⟨fun _ => ⟨fun _ => 0, fun _ => 0⟩, fun ha => absurd ha h⟩
  have h4 : ∀ (df : ℝ) (scale : Matrix (Fin n) (Fin n) ℝ), ∃ d, (n : ℝ) - 1 < df → scale.PosDef →
      Samples streamLaw d (symLaw (invwishartPdf df scale)) := by
    intro df scale
    by_cases h : (n : ℝ) - 1 < df ∧ scale.PosDef
    · obtain ⟨d, hd⟩ := exists_samples _ (symLaw_prob (iw_isDensity h.2 h.1)); exact ⟨d, fun _ _ => hd⟩
    · exact ⟨⟨fun _ => 0, fun _ => 0⟩, fun ha hb => absurd ⟨ha, hb⟩ h⟩
  have h5 : ∀ (df : ℝ) (scale : Matrix (Fin n) (Fin n) ℝ), ∃ d, (n : ℝ) - 1 < df → scale.PosDef →
      Samples streamLaw d (symLaw (wishartPdf df scale)) := by
    intro df scale
    by_cases h : (n : ℝ) - 1 < df ∧ scale.PosDef
    · obtain ⟨d, hd⟩ := exists_samples _ (symLaw_prob (wishart_isDensity h.2 h.1)); exact ⟨d, fun _ _ => hd⟩
    · exact ⟨⟨fun _ => 0, fun _ => 0⟩, fun ha hb => absurd ⟨ha, hb⟩ h⟩
  choose invgamma h1 using h1
  choose beta h2 using h2
  choose gamma h3 using h3
  choose invwishart h4 using h4
  choose wishart h5 using h5
  choose norm h6 using exists_norm
  obtain ⟨mvn, h7⟩ := exists_mvn n
  obtain ⟨geom, h8⟩ := exists_geom
  exact ⟨⟨fun k _ => k, invgamma, gamma, norm, fun m c => mvn (m, c), wishart, invwishart, beta, geom⟩,
    ⟨fun a ha b hb => h1 a b ha hb, fun a ha => h3 a ha, h6, fun a ha b hb => h2 a b ha hb, h8⟩, h7,
    fun df hdf scale hs => h4 df scale hdf hs, fun df hdf scale hs => h5 df scale hdf hs⟩

end Conj
