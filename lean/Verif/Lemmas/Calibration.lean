import Verif.CalibrationSpec
import Verif.Lemmas.LawOn
import Verif.Lemmas.Quantile
import Verif.Lemmas.VectorDraw
import Mathlib.MeasureTheory.Measure.WithDensity
import Mathlib.MeasureTheory.Integral.Lebesgue.Countable

/-! A posterior density given by Bayes' rule is calibrated. -/

open MeasureTheory Set

namespace Conj

open Scipy Spec

section Pi

variable {A : Type} [MeasurableSpace A] {n : ℕ}

theorem lintegral_pi_prod {ν : Fin n → Measure A} [∀ i, SigmaFinite (ν i)] {g : Fin n → A → ENNReal}
    (hg : ∀ i, Measurable (g i)) : ∫⁻ x, ∏ i, g i (x i) ∂Measure.pi ν = ∏ i, ∫⁻ a, g i a ∂ν i := by
  induction n with
  | zero => simp
  | succ n ih =>
    have hm : Measurable fun x : Fin (n + 1) → A => ∏ i, g i (x i) :=
      Finset.measurable_prod _ fun i _ => (hg i).comp (measurable_pi_apply i)
    rw [lintegral_pi_cons _ _ hm, Fin.prod_univ_succ, ← lintegral_mul_const _ (hg 0)]
    refine lintegral_congr fun a => ?_
    rw [← ih (ν := fun i => ν i.succ) (fun i => hg i.succ), ← lintegral_const_mul (f := fun t : Fin n → A => ∏ i, g i.succ (t i)) _
      (Finset.measurable_prod _ fun i _ => (hg i.succ).comp (measurable_pi_apply i))]
    refine lintegral_congr fun t => ?_
    rw [Fin.prod_univ_succ]
    simp

theorem pi_withDensity_fin {ν : Fin n → Measure A} [∀ i, SigmaFinite (ν i)] {g : Fin n → A → ENNReal}
    (hg : ∀ i, Measurable (g i)) [∀ i, SigmaFinite ((ν i).withDensity (g i))] :
    Measure.pi (fun i => (ν i).withDensity (g i)) = (Measure.pi ν).withDensity fun x => ∏ i, g i (x i) := by
  refine (Measure.pi_eq fun s hs => ?_)
  rw [withDensity_apply _ (MeasurableSet.univ_pi hs), ← lintegral_indicator (MeasurableSet.univ_pi hs)]
  have e : ∀ x : Fin n → A, (univ.pi s).indicator (fun x => ∏ i, g i (x i)) x =
      ∏ i, (s i).indicator (g i) (x i) := by
    intro x
    by_cases h : x ∈ univ.pi s
    · rw [indicator_of_mem h]
      exact Finset.prod_congr rfl fun i _ => (indicator_of_mem (h i (mem_univ i)) _).symm
    · rw [indicator_of_notMem h]
      simp only [mem_univ_pi, not_forall] at h
      obtain ⟨i, hi⟩ := h
      exact (Finset.prod_eq_zero (Finset.mem_univ i) (indicator_of_notMem hi _)).symm
  simp only [e]
  rw [lintegral_pi_prod fun i => (hg i).indicator (hs i)]
  refine Finset.prod_congr rfl fun i _ => ?_
  rw [lintegral_indicator (hs i), withDensity_apply _ (hs i)]

end Pi

/-! ## The joint law of the unknown and the data -/

section Joint

variable {Ω Θ A : Type} [MeasurableSpace Ω] [MeasureSpace Θ] [SFinite (volume : Measure Θ)] [MeasurableSpace A] {n : ℕ}

/-- what is needed of a prior, a model and a posterior: densities, and Bayes' rule for data in `D` -/
structure BayesModel (S : Set Θ) (prior : Θ → ℝ) (ν : Fin n → Measure A) (D : Fin n → Set A)
    (f : Fin n → Θ → A → ℝ) (post : (Fin n → A) → Θ → ℝ) (priorLaw : Measure Θ) (model : Fin n → Θ → Measure A)
    (postLaw : (Fin n → A) → Measure Θ) : Prop where
  hS : MeasurableSet S
  hD : ∀ i, MeasurableSet (D i)
  hν : ∀ i, ∀ᵐ a ∂ν i, a ∈ D i
  prior_meas : Measurable prior
  prior_dens : IsDensity volume S prior
  meas : ∀ i, Measurable fun q : Θ × A => f i q.1 q.2
  nonneg : ∀ i, ∀ t ∈ S, ∀ a ∈ D i, 0 ≤ f i t a
  prior_law : priorLaw = lawOn S prior
  model_law : ∀ i, ∀ t ∈ S, model i t = (ν i).withDensity fun a => ENNReal.ofReal (f i t a)
  model_prob : ∀ i, ∀ t ∈ S, IsProbabilityMeasure (model i t)
  bayes : ∀ x, (∀ i, x i ∈ D i) → IsPosterior volume S prior (fun t => ∏ i, f i t (x i)) (post x)
  post_law : ∀ x, (∀ i, x i ∈ D i) → postLaw x = lawOn S (post x)

variable {S : Set Θ} {prior : Θ → ℝ} {ν : Fin n → Measure A} [∀ i, SigmaFinite (ν i)] {D : Fin n → Set A}
  {f : Fin n → Θ → A → ℝ} {post : (Fin n → A) → Θ → ℝ} {priorLaw : Measure Θ} {model : Fin n → Θ → Measure A}
  {postLaw : (Fin n → A) → Measure Θ}

/-- joint density of the unknown and the data -/
noncomputable def jointDens (prior : Θ → ℝ) (f : Fin n → Θ → A → ℝ) (z : Θ × (Fin n → A)) : ENNReal :=
  ENNReal.ofReal (prior z.1) * ∏ i, ENNReal.ofReal (f i z.1 (z.2 i))

omit [SFinite (volume : Measure Θ)] in
theorem measurable_jointDens (hp : Measurable prior) (hf : ∀ i, Measurable fun q : Θ × A => f i q.1 q.2) :
    Measurable (jointDens prior f) := by
  refine (hp.comp measurable_fst).ennreal_ofReal.mul (Finset.measurable_prod _ fun i _ => ?_)
  exact ((hf i).comp (measurable_fst.prodMk ((measurable_pi_apply i).comp measurable_snd))).ennreal_ofReal

namespace BayesModel

variable (h : BayesModel S prior ν D f post priorLaw model postLaw)
include h

omit [SFinite (volume : Measure Θ)] in
theorem pi_model {t : Θ} (ht : t ∈ S) :
    Measure.pi (fun i => model i t) = (Measure.pi ν).withDensity fun x => ∏ i, ENNReal.ofReal (f i t (x i)) := by
  have hm : ∀ i, Measurable fun a => ENNReal.ofReal (f i t a) := fun i =>
    ((h.meas i).comp (measurable_const.prodMk measurable_id)).ennreal_ofReal
  have hp : ∀ i, SigmaFinite ((ν i).withDensity fun a => ENNReal.ofReal (f i t a)) := fun i => by
    rw [← h.model_law i t ht]
    have := h.model_prob i t ht
    infer_instance
  rw [← pi_withDensity_fin hm]
  congr 1
  funext i
  exact h.model_law i t ht

/-- the probability of a joint event, by its density -/
theorem prob_event {B : Set (Θ × (Fin n → A))} (hB : MeasurableSet B) :
    ∫⁻ t, Measure.pi (fun i => model i t) {x | (t, x) ∈ B} ∂priorLaw =
      ∫⁻ x, (∫⁻ t in S, B.indicator (jointDens prior f) (t, x)) ∂Measure.pi ν := by
  have hJ := measurable_jointDens h.prior_meas h.meas
  rw [← lintegral_prod_symm' (fun z => B.indicator (jointDens prior f) z) (hJ.indicator hB),
    lintegral_prod _ (hJ.indicator hB).aemeasurable, h.prior_law, lawOn,
    lintegral_withDensity_eq_lintegral_mul_non_measurable₀ _ h.prior_meas.ennreal_ofReal.aemeasurable
      (Filter.Eventually.of_forall fun _ => ENNReal.ofReal_lt_top)]
  refine setLIntegral_congr_fun h.hS fun t ht => ?_
  have hs : MeasurableSet {x | (t, x) ∈ B} := (measurable_const.prodMk measurable_id) hB
  have hf : Measurable fun x : Fin n → A => ∏ i, ENNReal.ofReal (f i t (x i)) :=
    Finset.measurable_prod _ fun i _ =>
      ((h.meas i).comp (measurable_const.prodMk (measurable_pi_apply i))).ennreal_ofReal
  dsimp only [Pi.mul_apply]
  rw [h.pi_model ht, withDensity_apply _ hs, ← lintegral_indicator hs,
    ← lintegral_const_mul (f := ({x | (t, x) ∈ B} : Set (Fin n → A)).indicator
      fun x : Fin n → A => ∏ i, ENNReal.ofReal (f i t (x i))) _ (hf.indicator hs)]
  refine lintegral_congr fun x => ?_
  by_cases hx : (t, x) ∈ B
  · rw [indicator_of_mem hx, indicator_of_mem (s := {x | (t, x) ∈ B}) hx, jointDens]
  · rw [indicator_of_notMem hx, indicator_of_notMem (s := {x | (t, x) ∈ B}) hx, mul_zero]

omit [∀ i, SigmaFinite (ν i)] [SFinite (volume : Measure Θ)] in
/-- for data in range, the posterior probability is a ratio of integrals of the joint density -/
theorem post_event {B : Set (Θ × (Fin n → A))} (hB : MeasurableSet B) {x : Fin n → A} (hx : ∀ i, x i ∈ D i) :
    0 < ∫⁻ t in S, jointDens prior f (t, x) ∧ ∫⁻ t in S, jointDens prior f (t, x) ≠ ⊤ ∧
    postLaw x {t | (t, x) ∈ B} * ∫⁻ t in S, jointDens prior f (t, x) =
      ∫⁻ t in S, B.indicator (jointDens prior f) (t, x) := by
  obtain ⟨hpos, hb⟩ := h.bayes x hx
  obtain ⟨m, hm⟩ : ∃ m, m = ∫ t in S, prior t * ∏ i, f i t (x i) := ⟨_, rfl⟩
  rw [← hm] at hpos hb
  have hj : ∀ t ∈ S, jointDens prior f (t, x) = ENNReal.ofReal (prior t * ∏ i, f i t (x i)) := fun t ht => by
    rw [jointDens, ENNReal.ofReal_mul (h.prior_dens.1 t ht),
      ENNReal.ofReal_prod_of_nonneg fun i _ => h.nonneg i t ht _ (hx i)]
  have hint : IntegrableOn (fun t => prior t * ∏ i, f i t (x i)) S := by
    by_contra hc
    rw [integral_undef hc] at hm
    exact hpos.ne' hm
  have hM : ∫⁻ t in S, jointDens prior f (t, x) = ENNReal.ofReal m := by
    rw [setLIntegral_congr_fun h.hS hj, hm, ofReal_integral_eq_lintegral_ofReal hint]
    filter_upwards [ae_restrict_mem h.hS] with t ht
    exact mul_nonneg (h.prior_dens.1 t ht) (Finset.prod_nonneg fun i _ => h.nonneg i t ht _ (hx i))
  rw [hM]
  refine ⟨ENNReal.ofReal_pos.2 hpos, ENNReal.ofReal_ne_top, ?_⟩
  have hs : MeasurableSet {t | (t, x) ∈ B} := (measurable_id.prodMk measurable_const) hB
  rw [h.post_law x hx, lawOn, withDensity_apply _ hs, ← lintegral_indicator hs,
    ← lintegral_mul_const' (f := ({t | (t, x) ∈ B} : Set Θ).indicator fun t => ENNReal.ofReal (post x t))
      _ ENNReal.ofReal_ne_top]
  refine setLIntegral_congr_fun h.hS fun t ht => ?_
  by_cases hx' : (t, x) ∈ B
  · rw [indicator_of_mem hx', indicator_of_mem (s := {t | (t, x) ∈ B}) hx', hj t ht, hb t ht,
      ← ENNReal.ofReal_mul' hpos.le, div_mul_cancel₀ _ hpos.ne']
  · rw [indicator_of_notMem hx', indicator_of_notMem (s := {t | (t, x) ∈ B}) hx', zero_mul]

omit [SFinite (volume : Measure Θ)] in
theorem ae_range : ∀ᵐ x ∂Measure.pi ν, ∀ i, x i ∈ D i :=
  Filter.eventually_all.2 fun i => (Measure.tendsto_eval_ae_ae (μ := ν) (i := i)).eventually (h.hν i)

variable {P : Measure Ω} {θ : Ω → Θ} {X : Ω → Fin n → A} (hd : DrawThenObserve P θ X priorLaw model)
include hd

/-- the law of the data -/
theorem map_data : P.map X = (Measure.pi ν).withDensity fun x => ∫⁻ t in S, jointDens prior f (t, x) := by
  refine Measure.ext fun U hU => ?_
  have hB : MeasurableSet {z : Θ × (Fin n → A) | z.2 ∈ U} := measurable_snd hU
  rw [Measure.map_apply hd.measurable_data hU, withDensity_apply _ hU, ← lintegral_indicator hU]
  have := hd.law _ hB
  rw [h.prob_event hB] at this
  refine Eq.trans this (lintegral_congr fun x => ?_)
  by_cases hx : x ∈ U
  · rw [indicator_of_mem hx]
    exact lintegral_congr fun t => indicator_of_mem (s := {z : Θ × (Fin n → A) | z.2 ∈ U}) hx _
  · rw [indicator_of_notMem hx]
    rw [← lintegral_zero (μ := volume.restrict S)]
    exact lintegral_congr fun t => indicator_of_notMem (s := {z : Θ × (Fin n → A) | z.2 ∈ U}) hx _

theorem ae_data : ∀ᵐ ω ∂P, ∀ i, X ω i ∈ D i := by
  have h1 : ∀ᵐ x ∂P.map X, ∀ i, x i ∈ D i := by
    rw [h.map_data hd]
    exact (withDensity_absolutelyContinuous _ _).ae_le h.ae_range
  exact ae_of_ae_map hd.measurable_data.aemeasurable h1

theorem calibrated : Calibrated P θ X postLaw := by
  intro C hC
  have hJ := measurable_jointDens h.prior_meas h.meas
  obtain ⟨M, hM⟩ : ∃ M : (Fin n → A) → ENNReal, M = fun x => ∫⁻ t in S, jointDens prior f (t, x) := ⟨_, rfl⟩
  obtain ⟨N, hN⟩ : ∃ N : (Fin n → A) → ENNReal, N = fun x => ∫⁻ t in S,
    ({z : Θ × (Fin n → A) | z.1 ∈ C z.2}).indicator (jointDens prior f) (t, x) := ⟨_, rfl⟩
  have hMm : Measurable M := by rw [hM]; exact Measurable.lintegral_prod_left' hJ
  have hNm : Measurable N := by rw [hN]; exact Measurable.lintegral_prod_left' (hJ.indicator hC)
  have hpe : ∀ x, (∀ i, x i ∈ D i) → M x ≠ 0 ∧ M x ≠ ⊤ ∧ postLaw x (C x) * M x = N x := fun x hx => by
    obtain ⟨h1, h2, h3⟩ := h.post_event hC hx
    rw [hM, hN]
    exact ⟨h1.ne', h2, h3⟩
  have e1 : ∀ᵐ ω ∂P, postLaw (X ω) (C (X ω)) = N (X ω) / M (X ω) := by
    filter_upwards [h.ae_data hd] with ω hω
    obtain ⟨h1, h2, h3⟩ := hpe _ hω
    rw [← h3, ENNReal.mul_div_cancel_right h1 h2]
  rw [lintegral_congr_ae e1, ← lintegral_map (f := fun x => N x / M x) (hNm.div hMm) hd.measurable_data, h.map_data hd,
    lintegral_withDensity_eq_lintegral_mul _ (by rw [← hM]; exact hMm) (g := fun x => N x / M x) (hNm.div hMm)]
  have := hd.law _ hC
  rw [h.prob_event hC] at this
  refine Eq.trans this (lintegral_congr_ae ?_)
  filter_upwards [h.ae_range] with x hx
  obtain ⟨h1, h2, h3⟩ := hpe _ hx
  have hMx : ∫⁻ t in S, jointDens prior f (t, x) = M x := by rw [hM]
  have hNx : ∫⁻ t in S, ({z : Θ × (Fin n → A) | z.1 ∈ C z.2}).indicator (jointDens prior f) (t, x) = N x := by
    rw [hN]
  simp only [Pi.mul_apply]
  rw [hMx, ENNReal.mul_div_cancel h1 h2, ← hNx]

/-- the posterior probability of the announced region is a random variable -/
theorem aemeasurable_post {C : (Fin n → A) → Set Θ} (hC : MeasurableSet {z : Θ × (Fin n → A) | z.1 ∈ C z.2}) :
    AEMeasurable (fun ω => postLaw (X ω) (C (X ω))) P := by
  have hJ := measurable_jointDens h.prior_meas h.meas
  have hMm : Measurable fun x => ∫⁻ t in S, jointDens prior f (t, x) := Measurable.lintegral_prod_left' hJ
  have hNm : Measurable fun x => ∫⁻ t in S,
      ({z : Θ × (Fin n → A) | z.1 ∈ C z.2}).indicator (jointDens prior f) (t, x) :=
    Measurable.lintegral_prod_left' (hJ.indicator hC)
  refine ((hNm.div hMm).comp hd.measurable_data).aemeasurable.congr ?_
  filter_upwards [h.ae_data hd] with ω hω
  obtain ⟨h1, h2, h3⟩ := h.post_event hC hω
  exact (ENNReal.eq_div_iff h1.ne' h2).2 (by rw [mul_comm]; exact h3) |>.symm

/-- an event about the data that has positive measure has positive probability -/
theorem data_pos {U : Set (Fin n → A)} (hU : MeasurableSet U) (hUD : ∀ x ∈ U, ∀ i, x i ∈ D i)
    (hpos : Measure.pi ν U ≠ 0) : P {ω | X ω ∈ U} ≠ 0 := by
  have hJ := measurable_jointDens h.prior_meas h.meas
  have hMm : Measurable fun x => ∫⁻ t in S, jointDens prior f (t, x) := Measurable.lintegral_prod_left' hJ
  have e : P {ω | X ω ∈ U} = P.map X U := (Measure.map_apply hd.measurable_data hU).symm
  rw [e, h.map_data hd, withDensity_apply _ hU]
  refine (setLIntegral_pos_iff hMm).2 ?_ |>.ne'
  refine lt_of_lt_of_le (pos_iff_ne_zero.2 hpos) (measure_mono fun x hx => ⟨?_, hx⟩)
  exact (h.post_event MeasurableSet.univ (hUD x hx)).1.ne'

/-- announced probabilities that are too small on a set of data that can occur are not calibrated -/
theorem not_calibrated [IsFiniteMeasure P] {post' : (Fin n → A) → Measure Θ}
    {C : (Fin n → A) → Set Θ} (hC : MeasurableSet {z : Θ × (Fin n → A) | z.1 ∈ C z.2})
    (hle : ∀ x, (∀ i, x i ∈ D i) → post' x (C x) ≤ postLaw x (C x)) {U : Set (Fin n → A)} (hU : MeasurableSet U)
    (hUD : ∀ x ∈ U, ∀ i, x i ∈ D i) (hpos : Measure.pi ν U ≠ 0) (hlt : ∀ x ∈ U, post' x (C x) < postLaw x (C x)) :
    ¬ Calibrated P θ X post' := by
  intro hc
  have h1 := hc C hC
  have h2 := h.calibrated hd C hC
  have hfin : ∫⁻ ω, post' (X ω) (C (X ω)) ∂P ≠ ⊤ := by
    rw [← h1]
    exact measure_ne_top _ _
  have := lintegral_strict_mono_of_ae_le_of_ae_lt_on (f := fun ω => post' (X ω) (C (X ω)))
    (g := fun ω => postLaw (X ω) (C (X ω))) (h.aemeasurable_post hd hC) hfin
    (by filter_upwards [h.ae_data hd] with ω hω using hle _ hω) (s := {ω | X ω ∈ U}) (h.data_pos hd hU hUD hpos)
    (Filter.Eventually.of_forall fun ω hω => hlt _ hω)
  rw [← h1, ← h2] at this
  exact lt_irrefl _ this

/-- a wrong posterior density is not calibrated -/
theorem not_calibrated_dens [IsFiniteMeasure P] {post' : (Fin n → A) → Measure Θ} {q : (Fin n → A) → Θ → ℝ}
    (hq : Measurable fun z : Θ × (Fin n → A) => q z.2 z.1) (hqd : ∀ x, (∀ i, x i ∈ D i) → IsDensity volume S (q x))
    (hl : ∀ x, (∀ i, x i ∈ D i) → post' x = lawOn S (q x)) {U : Set (Fin n → A)} (hU : MeasurableSet U)
    (hUD : ∀ x ∈ U, ∀ i, x i ∈ D i) (hpos : Measure.pi ν U ≠ 0)
    (hne : ∀ x ∈ U, ¬ ∀ᵐ t ∂volume.restrict S, q x t = post x t) : ¬ Calibrated P θ X post' := by
  have hJ := measurable_jointDens h.prior_meas h.meas
  have hMm : Measurable fun x => ∫⁻ t in S, jointDens prior f (t, x) := Measurable.lintegral_prod_left' hJ
  -- the region where the claimed density is below the right one
  have hC : MeasurableSet {z : Θ × (Fin n → A) |
      z.1 ∈ {t | t ∈ S ∧ ENNReal.ofReal (q z.2 t) * (∫⁻ t in S, jointDens prior f (t, z.2)) <
        jointDens prior f (t, z.2)}} :=
    (measurable_fst h.hS).inter (measurableSet_lt (hq.ennreal_ofReal.mul (hMm.comp measurable_snd)) hJ)
  have hmem : ∀ x, (∀ i, x i ∈ D i) → ∀ t ∈ S, (ENNReal.ofReal (q x t) * (∫⁻ t in S, jointDens prior f (t, x)) <
        jointDens prior f (t, x) ↔ q x t < post x t) := fun x hx t ht => by
    obtain ⟨hm, hb⟩ := h.bayes x hx
    have hj : ∀ t ∈ S, jointDens prior f (t, x) = ENNReal.ofReal (prior t * ∏ i, f i t (x i)) := fun t ht => by
      rw [jointDens, ENNReal.ofReal_mul (h.prior_dens.1 t ht),
        ENNReal.ofReal_prod_of_nonneg fun i _ => h.nonneg i t ht _ (hx i)]
    have hint : IntegrableOn (fun t => prior t * ∏ i, f i t (x i)) S := by
      by_contra hc
      rw [integral_undef hc] at hm
      exact lt_irrefl _ hm
    have hM : ∫⁻ t in S, jointDens prior f (t, x) = ENNReal.ofReal (∫ t in S, prior t * ∏ i, f i t (x i)) := by
      rw [setLIntegral_congr_fun h.hS hj, ofReal_integral_eq_lintegral_ofReal hint]
      filter_upwards [ae_restrict_mem h.hS] with t ht
      exact mul_nonneg (h.prior_dens.1 t ht) (Finset.prod_nonneg fun i _ => h.nonneg i t ht _ (hx i))
    rw [hM, hj t ht, ← ENNReal.ofReal_mul ((hqd x hx).1 t ht), hb t ht, lt_div_iff₀ hm,
      ENNReal.ofReal_lt_ofReal_iff_of_nonneg (mul_nonneg ((hqd x hx).1 t ht) hm.le)]
  have hpd : ∀ x, (∀ i, x i ∈ D i) → IsDensity volume S (post x) := fun x hx => by
    obtain ⟨hm, hb⟩ := h.bayes x hx
    have hint : IntegrableOn (fun t => prior t * ∏ i, f i t (x i)) S := by
      by_contra hc
      rw [integral_undef hc] at hm
      exact lt_irrefl _ hm
    refine ⟨fun t ht => ?_, ?_, ?_⟩
    · rw [hb t ht]
      exact div_nonneg (mul_nonneg (h.prior_dens.1 t ht) (Finset.prod_nonneg fun i _ => h.nonneg i t ht _ (hx i))) hm.le
    · exact (integrableOn_congr_fun (fun t ht => hb t ht) h.hS).2 (hint.div_const _)
    · rw [setIntegral_congr_fun h.hS hb, integral_div, div_self hm.ne']
  have hset : ∀ x, (∀ i, x i ∈ D i) →
      {t | t ∈ S ∧ ENNReal.ofReal (q x t) * (∫⁻ t in S, jointDens prior f (t, x)) < jointDens prior f (t, x)} =
      {t | t ∈ S ∧ q x t < post x t} := fun x hx => by
    ext t
    exact and_congr_right fun ht => hmem x hx t ht
  have hms : ∀ x, (∀ i, x i ∈ D i) → MeasurableSet {t | t ∈ S ∧ q x t < post x t} := fun x hx => by
    rw [← hset x hx]
    exact (measurable_id.prodMk measurable_const) hC
  have hle : ∀ x, (∀ i, x i ∈ D i) →
      post' x {t | t ∈ S ∧ q x t < post x t} ≤ postLaw x {t | t ∈ S ∧ q x t < post x t} := fun x hx => by
    rw [hl x hx, h.post_law x hx, lawOn, lawOn, withDensity_apply _ (hms x hx), withDensity_apply _ (hms x hx)]
    exact setLIntegral_mono_ae' (hms x hx) (Filter.Eventually.of_forall fun t ht => ENNReal.ofReal_le_ofReal ht.2.le)
  refine h.not_calibrated hd (C := fun x => {t | t ∈ S ∧ ENNReal.ofReal (q x t) *
    (∫⁻ t in S, jointDens prior f (t, x)) < jointDens prior f (t, x)}) hC (fun x hx => ?_) hU hUD hpos fun x hx => ?_
  · rw [hset x hx]
    exact hle x hx
  · have hx' := hUD x hx
    rw [hset x hx']
    refine lt_of_le_of_ne (hle x hx') fun he => hne x hx ?_
    rw [hl x hx', h.post_law x hx', lawOn, lawOn, withDensity_apply _ (hms x hx'), withDensity_apply _ (hms x hx')] at he
    have hsub : {t | t ∈ S ∧ q x t < post x t} ⊆ S := fun t ht => ht.1
    rw [Measure.restrict_restrict (hms x hx'), inter_eq_left.2 hsub] at he
    have hqE := (hqd x hx').2.1.mono_set hsub
    have hpE := (hpd x hx').2.1.mono_set hsub
    rw [← ofReal_integral_eq_lintegral_ofReal hqE (by
        filter_upwards [ae_restrict_mem (hms x hx')] with t ht using (hqd x hx').1 t ht.1),
      ← ofReal_integral_eq_lintegral_ofReal hpE (by
        filter_upwards [ae_restrict_mem (hms x hx')] with t ht using (hpd x hx').1 t ht.1),
      ENNReal.ofReal_eq_ofReal_iff (setIntegral_nonneg (hms x hx') fun t ht => (hqd x hx').1 t ht.1)
        (setIntegral_nonneg (hms x hx') fun t ht => (hpd x hx').1 t ht.1)] at he
    -- the positive part of the difference vanishes, and so does the difference
    have hd0 : ∫ t in S, max (post x t - q x t) 0 = 0 := by
      have e1 : ∫ t in S, max (post x t - q x t) 0 = ∫ t in {t | t ∈ S ∧ q x t < post x t}, (post x t - q x t) := by
        rw [← integral_indicator (hms x hx'), ← integral_indicator h.hS]
        congr 1
        funext t
        by_cases ht : t ∈ S
        · by_cases hlt : q x t < post x t
          · rw [indicator_of_mem ht, indicator_of_mem (show t ∈ {t | t ∈ S ∧ q x t < post x t} from ⟨ht, hlt⟩),
              max_eq_left (sub_nonneg.2 hlt.le)]
          · rw [indicator_of_mem ht, indicator_of_notMem (show t ∉ {t | t ∈ S ∧ q x t < post x t} from fun h => hlt h.2),
              max_eq_right (sub_nonpos.2 (not_lt.1 hlt))]
        · rw [indicator_of_notMem ht, indicator_of_notMem (show t ∉ {t | t ∈ S ∧ q x t < post x t} from fun h => ht h.1)]
      rw [e1, integral_sub hpE hqE, he, sub_self]
    have hi : Integrable (fun t => post x t - q x t) (volume.restrict S) := (hpd x hx').2.1.sub (hqd x hx').2.1
    have hz := (integral_eq_zero_iff_of_nonneg (fun t => le_max_right _ _) hi.pos_part).1 hd0
    have hdiff : ∫ t in S, (q x t - post x t) = 0 := by
      rw [integral_sub (hqd x hx').2.1 (hpd x hx').2.1, (hqd x hx').2.2, (hpd x hx').2.2, sub_self]
    have hnn : 0 ≤ᵐ[volume.restrict S] fun t => q x t - post x t := by
      filter_upwards [hz] with t ht
      have : max (post x t - q x t) 0 = 0 := ht
      have := max_eq_right_iff.1 this
      simp only [Pi.zero_apply]
      linarith
    have hz2 := (integral_eq_zero_iff_of_nonneg_ae hnn ((hqd x hx').2.1.sub (hpd x hx').2.1)).1 hdiff
    filter_upwards [hz2] with t ht
    exact sub_eq_zero.1 ht

omit hd in
/-- the setting exists -/
theorem exists_draw : ∃ (Ω : Type) (_ : MeasurableSpace Ω) (P : Measure Ω) (θ : Ω → Θ) (X : Ω → Fin n → A),
    IsProbabilityMeasure P ∧ DrawThenObserve P θ X priorLaw model := by
  have hJ := measurable_jointDens h.prior_meas h.meas
  have key : ∀ B : Set (Θ × (Fin n → A)), MeasurableSet B →
      ((volume.restrict S).prod (Measure.pi ν)).withDensity (jointDens prior f) B =
      ∫⁻ t, Measure.pi (fun i => model i t) {x | (t, x) ∈ B} ∂priorLaw := fun B hB => by
    rw [h.prob_event hB, withDensity_apply _ hB, ← lintegral_indicator hB,
      lintegral_prod_symm' _ (hJ.indicator hB)]
  refine ⟨Θ × (Fin n → A), inferInstance, _, Prod.fst, Prod.snd, ⟨?_⟩, measurable_fst, measurable_snd, key⟩
  rw [key univ MeasurableSet.univ]
  have h1 : ∀ᵐ t ∂priorLaw, Measure.pi (fun i => model i t) {x | (t, x) ∈ (univ : Set (Θ × (Fin n → A)))} = 1 := by
    rw [h.prior_law]
    filter_upwards [ae_lawOn_mem h.hS prior] with t ht
    have := fun i => h.model_prob i t ht
    simp
  have := lawOn_prob h.hS h.prior_dens
  rw [lintegral_congr_ae h1, h.prior_law]
  simp

end BayesModel

end Joint

/-! ## Intervals between quantiles -/

theorem ppf_le_iff {μ : Measure ℝ} [hμ : IsProbabilityMeasure μ] {u : ℝ} (h0 : 0 < u) (h1 : u < 1) (x : ℝ) :
    ppf μ u ≤ x ↔ ENNReal.ofReal u ≤ μ (Iic x) := by
  rw [← quantile_le_iff h0 h1 x, quantile, if_pos ⟨h0, h1, hμ⟩]
  rfl

theorem prob_le_ppf {μ : Measure ℝ} [IsProbabilityMeasure μ] [NullSingletonClass μ] {u : ℝ} (h0 : 0 < u) (h1 : u < 1) :
    μ (Iic (ppf μ u)) = ENNReal.ofReal u := by
  refine le_antisymm ?_ ((ppf_le_iff h0 h1 _).1 le_rfl)
  rw [← Iio_ae_eq_Iic.measure_eq]
  obtain ⟨v, hv, hlt, hlim⟩ := exists_seq_strictMono_tendsto (ppf μ u)
  have hU : Iio (ppf μ u) = ⋃ k, Iic (v k) := by
    ext y
    simp only [mem_Iio, mem_iUnion, mem_Iic]
    constructor
    · intro hy
      obtain ⟨k, hk⟩ := (hlim.eventually (lt_mem_nhds hy)).exists
      exact ⟨k, hk.le⟩
    · rintro ⟨k, hk⟩
      exact hk.trans_lt (hlt k)
  rw [hU, (monotone_iff_forall_lt.2 fun i j hij => Iic_subset_Iic.2 (hv hij).le : Monotone fun k => Iic (v k)).measure_iUnion]
  refine iSup_le fun k => ?_
  have := mt (ppf_le_iff h0 h1 (v k)).2 (not_le.2 (hlt k))
  exact (not_le.1 this).le

theorem prob_between_ppf {μ : Measure ℝ} [IsProbabilityMeasure μ] [NullSingletonClass μ] {a b : ℝ} (h0 : 0 < a) (hab : a < b)
    (h1 : b < 1) : μ (Icc (ppf μ a) (ppf μ b)) = ENNReal.ofReal (b - a) := by
  have hle : ppf μ a ≤ ppf μ b := by
    rw [ppf_le_iff h0 (hab.trans h1), prob_le_ppf (h0.trans hab) h1]
    exact ENNReal.ofReal_le_ofReal hab.le
  have hd : Ioc (ppf μ a) (ppf μ b) = Iic (ppf μ b) \ Iic (ppf μ a) := by
    ext y
    simp only [mem_Ioc, mem_sdiff, mem_Iic, not_le]
    exact and_comm
  rw [← Ioc_ae_eq_Icc.measure_eq, hd, measure_sdiff (Iic_subset_Iic.2 hle) measurableSet_Iic.nullMeasurableSet
    (measure_ne_top _ _), prob_le_ppf h0 (hab.trans h1), prob_le_ppf (h0.trans hab) h1,
    ENNReal.ofReal_sub _ h0.le]

section Interval

variable {Ω A : Type} [MeasurableSpace Ω] [MeasurableSpace A] {n : ℕ}

/-- quantile intervals for a function `g` of the unknown whose posterior law `μ` has no atoms -/
theorem BayesModel.interval_of {Θ : Type} [MeasureSpace Θ] [SFinite (volume : Measure Θ)]
    {S : Set Θ} {prior : Θ → ℝ} {ν : Fin n → Measure A} [∀ i, SigmaFinite (ν i)] {D : Fin n → Set A}
    {f : Fin n → Θ → A → ℝ} {post : (Fin n → A) → Θ → ℝ} {priorLaw : Measure Θ} {model : Fin n → Θ → Measure A}
    {postLaw : (Fin n → A) → Measure Θ} {P : Measure Ω} [IsProbabilityMeasure P]
    (h : BayesModel S prior ν D f post priorLaw model postLaw)
    {θ : Ω → Θ} {X : Ω → Fin n → A} (hd : DrawThenObserve P θ X priorLaw model) {g : Θ → ℝ} (hg : Measurable g)
    {μ : (Fin n → A) → Measure ℝ}
    (hμ : ∀ x, (∀ i, x i ∈ D i) → (postLaw x).map g = μ x ∧ NullSingletonClass (μ x)) :
    IntervalCoverage P (fun ω => g (θ ω)) X μ := by
  classical
  intro a b ha hab hb
  have hJ := measurable_jointDens h.prior_meas h.meas
  have hR : MeasurableSet {x : Fin n → A | ∀ i, x i ∈ D i} := by
    have : {x : Fin n → A | ∀ i, x i ∈ D i} = univ.pi D := by ext; simp
    rw [this]
    exact MeasurableSet.univ_pi h.hD
  have hprob : ∀ x, (∀ i, x i ∈ D i) → IsProbabilityMeasure (μ x) := fun x hx => by
    refine ⟨?_⟩
    obtain ⟨h1, h2, h3⟩ := h.post_event (B := univ) MeasurableSet.univ hx
    simp only [indicator_univ] at h3
    have h4 : postLaw x {t | (t, x) ∈ (univ : Set (Θ × (Fin n → A)))} = 1 :=
      (ENNReal.mul_left_inj h1.ne' h2).1 (by rw [h3, one_mul])
    rw [← (hμ x hx).1, Measure.map_apply hg MeasurableSet.univ]
    simpa using h4
  have hq : ∀ u, 0 < u → u < 1 → Measurable fun x : Fin n → A =>
      if ∀ i, x i ∈ D i then ppf (μ x) u else 0 := fun u h0 h1 => by
    refine measurable_of_Iic fun y => ?_
    have hC : MeasurableSet {z : Θ × (Fin n → A) | g z.1 ≤ y} := (hg.comp measurable_fst) measurableSet_Iic
    obtain ⟨F, hF⟩ : ∃ F : (Fin n → A) → ENNReal, F = fun x =>
      (∫⁻ t in S, ({z : Θ × (Fin n → A) | g z.1 ≤ y}).indicator (jointDens prior f) (t, x)) /
        ∫⁻ t in S, jointDens prior f (t, x) := ⟨_, rfl⟩
    have hFm : Measurable F := by
      rw [hF]
      exact (Measurable.lintegral_prod_left' (hJ.indicator hC)).div (Measurable.lintegral_prod_left' hJ)
    have e : (fun x : Fin n → A => if ∀ i, x i ∈ D i then ppf (μ x) u else 0) ⁻¹' Iic y =
        ({x : Fin n → A | ∀ i, x i ∈ D i} ∩ {x | ENNReal.ofReal u ≤ F x}) ∪
          ({x : Fin n → A | ∀ i, x i ∈ D i}ᶜ ∩ {_x | (0 : ℝ) ≤ y}) := by
      ext x
      simp only [mem_preimage, mem_Iic, mem_union, mem_inter_iff, mem_ofPred_eq, mem_compl_iff]
      by_cases hx : ∀ i, x i ∈ D i
      · have i1 := hprob x hx
        obtain ⟨h2, h3, h4⟩ := h.post_event hC hx
        have h5 : F x = μ x (Iic y) := by
          rw [← (hμ x hx).1, Measure.map_apply hg measurableSet_Iic, hF]
          beta_reduce
          rw [← h4, ENNReal.mul_div_cancel_right h2.ne' h3]
          rfl
        simp only [hx, implies_true, if_true, true_and, not_true, false_and, or_false]
        rw [ppf_le_iff h0 h1, h5]
      · simp only [hx, if_false, false_and, false_or, not_false_iff, true_and]
    rw [e]
    exact (hR.inter (measurableSet_le measurable_const hFm)).union (hR.compl.inter (MeasurableSet.const _))
  have hb0 := ha.trans hab
  have ha1 := hab.trans hb
  have hC : MeasurableSet {z : Θ × (Fin n → A) | z.1 ∈ g ⁻¹' Icc (if ∀ i, z.2 i ∈ D i then ppf (μ z.2) a else 0)
      (if ∀ i, z.2 i ∈ D i then ppf (μ z.2) b else 0)} :=
    (measurableSet_le ((hq a ha ha1).comp measurable_snd) (hg.comp measurable_fst)).inter
      (measurableSet_le (hg.comp measurable_fst) ((hq b hb0 hb).comp measurable_snd))
  have hcal := h.calibrated hd (fun x => g ⁻¹' Icc (if ∀ i, x i ∈ D i then ppf (μ x) a else 0)
      (if ∀ i, x i ∈ D i then ppf (μ x) b else 0)) hC
  have e1 : P {ω | ppf (μ (X ω)) a ≤ g (θ ω) ∧ g (θ ω) ≤ ppf (μ (X ω)) b} =
      P {ω | θ ω ∈ g ⁻¹' Icc (if ∀ i, X ω i ∈ D i then ppf (μ (X ω)) a else 0)
      (if ∀ i, X ω i ∈ D i then ppf (μ (X ω)) b else 0)} := by
    refine measure_congr ?_
    filter_upwards [h.ae_data hd] with ω hω
    refine propext ?_
    change _ ↔ g (θ ω) ∈ Icc _ _
    rw [if_pos hω, if_pos hω]
    rfl
  rw [e1, hcal]
  have e2 : ∀ᵐ ω ∂P, postLaw (X ω) (g ⁻¹' Icc (if ∀ i, X ω i ∈ D i then ppf (μ (X ω)) a else 0)
      (if ∀ i, X ω i ∈ D i then ppf (μ (X ω)) b else 0)) = ENNReal.ofReal (b - a) := by
    filter_upwards [h.ae_data hd] with ω hω
    have i1 := hprob _ hω
    obtain ⟨e, i2⟩ := hμ _ hω
    rw [if_pos hω, if_pos hω, ← Measure.map_apply hg measurableSet_Icc, e]
    exact prob_between_ppf ha hab hb
  rw [lintegral_congr_ae e2]
  simp

theorem BayesModel.interval {S : Set ℝ} {prior : ℝ → ℝ} {ν : Fin n → Measure A} [∀ i, SigmaFinite (ν i)]
    {D : Fin n → Set A} {f : Fin n → ℝ → A → ℝ} {post : (Fin n → A) → ℝ → ℝ} {priorLaw : Measure ℝ}
    {model : Fin n → ℝ → Measure A} {postLaw : (Fin n → A) → Measure ℝ} {P : Measure Ω} [IsProbabilityMeasure P]
    (h : BayesModel S prior ν D f post priorLaw model postLaw)
    {θ : Ω → ℝ} {X : Ω → Fin n → A} (hd : DrawThenObserve P θ X priorLaw model) :
    IntervalCoverage P θ X postLaw :=
  h.interval_of hd measurable_id fun x hx => ⟨Measure.map_id, by rw [h.post_law x hx, lawOn]; infer_instance⟩

end Interval

end Conj
