import Verif.PredictionSpec
import Verif.Lemmas.Calibration
import Verif.Lemmas.Forecast
import Verif.Lemmas.TwoStage

/-! Predictions that mix the model over a posterior given by Bayes' rule are kept. -/

open MeasureTheory Set ProbabilityTheory

namespace Conj

open Scipy Spec

section Joint

variable {Ω Θ A B : Type} [MeasurableSpace Ω] [MeasureSpace Θ] [SFinite (volume : Measure Θ)] [MeasurableSpace A]
  [MeasurableSpace B] {n : ℕ}
  {S : Set Θ} {prior : Θ → ℝ} {ν : Fin n → Measure A} [∀ i, SigmaFinite (ν i)] {D : Fin n → Set A}
  {f : Fin n → Θ → A → ℝ} {post : (Fin n → A) → Θ → ℝ} {priorLaw : Measure Θ} {model : Fin n → Θ → Measure A}
  {postLaw : (Fin n → A) → Measure Θ}

namespace BayesModel

variable (h : BayesModel S prior ν D f post priorLaw model postLaw)
include h

/-- averages over unknown and data, by the joint density -/
theorem avg_event {G : Θ × (Fin n → A) → ENNReal} (hG : Measurable G) :
    ∫⁻ t, ∫⁻ x, G (t, x) ∂Measure.pi (fun i => model i t) ∂priorLaw =
      ∫⁻ x, (∫⁻ t in S, jointDens prior f (t, x) * G (t, x)) ∂Measure.pi ν := by
  have hJ := measurable_jointDens h.prior_meas h.meas
  have hJG : Measurable fun z => jointDens prior f z * G z := hJ.mul hG
  rw [← lintegral_prod_symm' _ hJG, lintegral_prod _ hJG.aemeasurable, h.prior_law, lawOn,
    lintegral_withDensity_eq_lintegral_mul_non_measurable₀ _ h.prior_meas.ennreal_ofReal.aemeasurable
      (Filter.Eventually.of_forall fun _ => ENNReal.ofReal_lt_top)]
  refine setLIntegral_congr_fun h.hS fun t ht => ?_
  have hf : Measurable fun x : Fin n → A => ∏ i, ENNReal.ofReal (f i t (x i)) :=
    Finset.measurable_prod _ fun i _ =>
      ((h.meas i).comp (measurable_const.prodMk (measurable_pi_apply i))).ennreal_ofReal
  have hGt : Measurable fun x : Fin n → A => G (t, x) := hG.comp (measurable_const.prodMk measurable_id)
  dsimp only [Pi.mul_apply]
  rw [h.pi_model ht, lintegral_withDensity_eq_lintegral_mul _ hf hGt, ← lintegral_const_mul _ (hf.mul hGt)]
  refine lintegral_congr fun x => ?_
  simp only [jointDens, Pi.mul_apply]
  ring

omit [∀ i, SigmaFinite (ν i)] [SFinite (volume : Measure Θ)] in
/-- averages over the posterior, by the joint density -/
theorem avg_post {G : Θ → ENNReal} (hG : Measurable G) {x : Fin n → A} (hx : ∀ i, x i ∈ D i) :
    (∫⁻ t, G t ∂postLaw x) * ∫⁻ t in S, jointDens prior f (t, x) = ∫⁻ t in S, jointDens prior f (t, x) * G t := by
  have hJ := measurable_jointDens h.prior_meas h.meas
  have hJx : Measurable fun t => jointDens prior f (t, x) := hJ.comp (measurable_id.prodMk measurable_const)
  obtain ⟨m0, m1, -⟩ := h.post_event (B := univ) MeasurableSet.univ hx
  obtain ⟨hpos, hb⟩ := h.bayes x hx
  obtain ⟨m, hm⟩ : ∃ m, m = ∫ t in S, prior t * ∏ i, f i t (x i) := ⟨_, rfl⟩
  rw [← hm] at hpos hb
  have hj : ∀ t ∈ S, jointDens prior f (t, x) = ENNReal.ofReal (prior t * ∏ i, f i t (x i)) := fun t ht => by
    rw [jointDens, ENNReal.ofReal_mul (h.prior_dens.1 t ht),
      ENNReal.ofReal_prod_of_nonneg fun i _ => h.nonneg i t ht _ (hx i)]
  have hint : IntegrableOn (fun t => prior t * ∏ i, f i t (x i)) S := by
    by_contra hc
    rw [integral_undef hc] at hm
    exact hpos.ne' hm
  have hM : ∫⁻ t in S, jointDens prior f (t, x) = ENNReal.ofReal m := by
    rw [setLIntegral_congr_fun h.hS hj, hm, ofReal_integral_eq_lintegral_ofReal hint]
    filter_upwards [ae_restrict_mem h.hS] with t ht
    exact mul_nonneg (h.prior_dens.1 t ht) (Finset.prod_nonneg fun i _ => h.nonneg i t ht _ (hx i))
  have hd : ∀ t ∈ S, ENNReal.ofReal (post x t) * ENNReal.ofReal m = jointDens prior f (t, x) := fun t ht => by
    rw [hj t ht, hb t ht, ← ENNReal.ofReal_mul' hpos.le, div_mul_cancel₀ _ hpos.ne']
  have hd' : ∀ t ∈ S, ENNReal.ofReal (post x t) = jointDens prior f (t, x) / ENNReal.ofReal m := fun t ht => by
    rw [← hd t ht, ENNReal.mul_div_cancel_right (ENNReal.ofReal_pos.2 hpos).ne' ENNReal.ofReal_ne_top]
  have hae : AEMeasurable (fun t => ENNReal.ofReal (post x t)) (volume.restrict S) := by
    refine (hJx.div_const (ENNReal.ofReal m)).aemeasurable.congr ?_
    filter_upwards [ae_restrict_mem h.hS] with t ht
    exact (hd' t ht).symm
  rw [hM, h.post_law x hx, lawOn, lintegral_withDensity_eq_lintegral_mul₀ hae hG.aemeasurable,
    ← lintegral_mul_const' _ _ ENNReal.ofReal_ne_top]
  refine setLIntegral_congr_fun h.hS fun t ht => ?_
  simp only [Pi.mul_apply]
  rw [← hd t ht]
  ring

variable {P : Measure Ω} {θ : Ω → Θ} {X : Ω → Fin n → A} (hd : DrawThenObserve P θ X priorLaw model)

include hd in
/-- averages over unknown and data, by the posterior -/
theorem avg {G : Θ × (Fin n → A) → ENNReal} (hG : Measurable G) :
    ∫⁻ t, ∫⁻ x, G (t, x) ∂Measure.pi (fun i => model i t) ∂priorLaw =
      ∫⁻ ω, ∫⁻ t, G (t, X ω) ∂postLaw (X ω) ∂P := by
  have hJ := measurable_jointDens h.prior_meas h.meas
  have hJG : Measurable fun z => jointDens prior f z * G z := hJ.mul hG
  obtain ⟨M, hM⟩ : ∃ M : (Fin n → A) → ENNReal, M = fun x => ∫⁻ t in S, jointDens prior f (t, x) := ⟨_, rfl⟩
  obtain ⟨N, hN⟩ : ∃ N : (Fin n → A) → ENNReal, N = fun x => ∫⁻ t in S, jointDens prior f (t, x) * G (t, x) := ⟨_, rfl⟩
  have hMm : Measurable M := by rw [hM]; exact Measurable.lintegral_prod_left' hJ
  have hNm : Measurable N := by rw [hN]; exact Measurable.lintegral_prod_left' hJG
  have hpe : ∀ x, (∀ i, x i ∈ D i) → M x ≠ 0 ∧ M x ≠ ⊤ ∧ (∫⁻ t, G (t, x) ∂postLaw x) * M x = N x := fun x hx => by
    obtain ⟨h1, h2, -⟩ := h.post_event (B := univ) MeasurableSet.univ hx
    rw [hM, hN]
    exact ⟨h1.ne', h2, h.avg_post (G := fun t => G (t, x)) (hG.comp (measurable_id.prodMk measurable_const)) hx⟩
  have e1 : ∀ᵐ ω ∂P, ∫⁻ t, G (t, X ω) ∂postLaw (X ω) = N (X ω) / M (X ω) := by
    filter_upwards [h.ae_data hd] with ω hω
    obtain ⟨h1, h2, h3⟩ := hpe _ hω
    rw [← h3, ENNReal.mul_div_cancel_right h1 h2]
  rw [h.avg_event hG, lintegral_congr_ae e1,
    ← lintegral_map (f := fun x => N x / M x) (hNm.div hMm) hd.measurable_data, h.map_data hd,
    lintegral_withDensity_eq_lintegral_mul _ (by rw [← hM]; exact hMm) (g := fun x => N x / M x) (hNm.div hMm)]
  refine lintegral_congr_ae ?_
  filter_upwards [h.ae_range] with x hx
  obtain ⟨h1, h2, h3⟩ := hpe _ hx
  have hMx : ∫⁻ t in S, jointDens prior f (t, x) = M x := by rw [hM]
  have hNx : ∫⁻ t in S, jointDens prior f (t, x) * G (t, x) = N x := by rw [hN]
  simp only [Pi.mul_apply]
  rw [hMx, ENNReal.mul_div_cancel h1 h2, ← hNx]

end BayesModel

/-- the law of the new value is a measurable function of the unknown, and a probability for every possible one -/
structure NewModel (S : Set Θ) (new : Θ → Measure B) : Prop where
  meas : ∀ U, MeasurableSet U → Measurable fun t => S.indicator (fun t => new t U) t
  prob : ∀ t ∈ S, IsProbabilityMeasure (new t)

open Classical in
/-- as a kernel -/
noncomputable def NewModel.kernel {new : Θ → Measure B} (hn : NewModel S new) : Kernel Θ B :=
  ⟨fun t => if t ∈ S then new t else 0, by
    refine Measure.measurable_of_measurable_coe _ fun U hU => ?_
    have e : (fun t => (if t ∈ S then new t else 0 : Measure B) U) = fun t => S.indicator (fun t => new t U) t := by
      funext t
      by_cases ht : t ∈ S <;> simp [ht]
    rw [e]
    exact hn.meas U hU⟩

open Classical in
omit [SFinite (volume : Measure Θ)] in
theorem NewModel.kernel_apply {new : Θ → Measure B} (hn : NewModel S new) {t : Θ} (ht : t ∈ S) :
    hn.kernel t = new t := by
  change (if t ∈ S then new t else 0) = new t
  rw [if_pos ht]

open Classical in
omit [SFinite (volume : Measure Θ)] in
theorem NewModel.finite {new : Θ → Measure B} (hn : NewModel S new) : IsFiniteKernel hn.kernel := by
  refine ⟨1, ENNReal.one_lt_top, fun t => ?_⟩
  by_cases ht : t ∈ S
  · have := hn.prob t ht
    rw [hn.kernel_apply ht]
    exact prob_le_one
  · change (if t ∈ S then new t else 0 : Measure B) univ ≤ 1
    rw [if_neg ht]
    simp

variable {P : Measure Ω} {θ : Ω → Θ} {X : Ω → Fin n → A} {Y : Ω → B} {new : Θ → Measure B}
  {pred : (Fin n → A) → Measure B}

namespace BayesModel

variable (h : BayesModel S prior ν D f post priorLaw model postLaw) (hn : NewModel S new)
include h

omit [∀ i, SigmaFinite (ν i)] [SFinite (volume : Measure Θ)] in
theorem post_ae {x : Fin n → A} (hx : ∀ i, x i ∈ D i) : ∀ᵐ t ∂postLaw x, t ∈ S := by
  rw [h.post_law x hx]
  exact ae_lawOn_mem h.hS _

include hn in
/-- announced regions -/
theorem predictions_kept (hp : DrawThenPredict P θ X Y priorLaw model new)
    (hmix : ∀ x, (∀ i, x i ∈ D i) → ∀ U, MeasurableSet U → pred x U = ∫⁻ t, new t U ∂postLaw x) :
    PredictionsKept P X Y pred := by
  intro C hC
  have := hn.finite
  obtain ⟨G, hG⟩ : ∃ G : Θ × (Fin n → A) → ENNReal, G = fun z => hn.kernel z.1 (C z.2) := ⟨_, rfl⟩
  have hE : MeasurableSet {z : (Θ × (Fin n → A)) × B | z.2 ∈ C z.1.2} :=
    (measurable_snd.prodMk measurable_fst.snd : Measurable fun z : (Θ × (Fin n → A)) × B => (z.2, z.1.2)) hC
  have hGm : Measurable G := by
    rw [hG]
    exact Kernel.measurable_kernel_prodMk_left (κ := hn.kernel.comap Prod.fst measurable_fst) hE
  have hCx : ∀ x, MeasurableSet (C x) := fun x =>
    (measurable_id.prodMk measurable_const : Measurable fun y : B => (y, x)) hC
  have hS : ∀ᵐ t ∂priorLaw, t ∈ S := by rw [h.prior_law]; exact ae_lawOn_mem h.hS _
  have e1 : P {ω | Y ω ∈ C (X ω)} = ∫⁻ t, ∫⁻ x, G (t, x) ∂Measure.pi (fun i => model i t) ∂priorLaw := by
    refine (hp.law _ hE).trans (lintegral_congr_ae ?_)
    filter_upwards [hS] with t ht
    rw [hG]
    simp only [hn.kernel_apply ht]
    rfl
  rw [e1, h.avg hp.past hGm]
  refine lintegral_congr_ae ?_
  filter_upwards [h.ae_data hp.past] with ω hω
  rw [hmix _ hω _ (hCx _), hG]
  refine lintegral_congr_ae ?_
  filter_upwards [h.post_ae hω] with t ht
  simp only [hn.kernel_apply ht]

omit [∀ i, SigmaFinite (ν i)] in
theorem post_univ {x : Fin n → A} (hx : ∀ i, x i ∈ D i) : postLaw x univ = 1 := by
  obtain ⟨h1, h2, h3⟩ := h.post_event (B := univ) MeasurableSet.univ hx
  simp only [indicator_univ] at h3
  have h4 : postLaw x {t | (t, x) ∈ (univ : Set (Θ × (Fin n → A)))} = 1 :=
    (ENNReal.mul_left_inj h1.ne' h2).1 (by rw [h3, one_mul])
  simpa using h4

omit [∀ i, SigmaFinite (ν i)] in
include hn in
theorem pred_prob (hmix : ∀ x, (∀ i, x i ∈ D i) → ∀ U, MeasurableSet U → pred x U = ∫⁻ t, new t U ∂postLaw x)
    {x : Fin n → A} (hx : ∀ i, x i ∈ D i) : IsProbabilityMeasure (pred x) := by
  refine ⟨?_⟩
  have e : ∀ᵐ t ∂postLaw x, new t univ = 1 := by
    filter_upwards [h.post_ae hx] with t ht
    have := hn.prob t ht
    exact measure_univ
  rw [hmix x hx _ MeasurableSet.univ, lintegral_congr_ae e, lintegral_const, h.post_univ hx, one_mul]

end BayesModel

theorem prob_lt_ppf {μ : Measure ℝ} [IsProbabilityMeasure μ] {u : ℝ} (h0 : 0 < u) (h1 : u < 1) :
    μ (Iio (ppf μ u)) ≤ ENNReal.ofReal u := by
  obtain ⟨v, hv, hlt, hlim⟩ := exists_seq_strictMono_tendsto (ppf μ u)
  have hU : Iio (ppf μ u) = ⋃ k, Iic (v k) := by
    ext y
    simp only [mem_Iio, mem_iUnion, mem_Iic]
    constructor
    · intro hy
      obtain ⟨k, hk⟩ := (hlim.eventually (lt_mem_nhds hy)).exists
      exact ⟨k, hk.le⟩
    · rintro ⟨k, hk⟩
      exact hk.trans_lt (hlt k)
  rw [hU, (monotone_iff_forall_lt.2 fun i j hij => Iic_subset_Iic.2 (hv hij).le : Monotone fun k => Iic (v k)).measure_iUnion]
  refine iSup_le fun k => ?_
  have := mt (ppf_le_iff (μ := μ) h0 h1 (v k)).2 (not_le.2 (hlt k))
  exact (not_le.1 this).le

/-- the new value has the density `g t` with respect to `κ` -/
structure NewDensity (S : Set Θ) (κ : Measure B) (g : Θ → B → ℝ) (new : Θ → Measure B) : Prop where
  meas : Measurable fun q : Θ × B => g q.1 q.2
  nonneg : ∀ t ∈ S, ∀ y, 0 ≤ g t y
  law : ∀ t ∈ S, new t = κ.withDensity fun y => ENNReal.ofReal (g t y)
  prob : ∀ t ∈ S, IsProbabilityMeasure (new t)

section Density

variable {κ : Measure B} [SFinite κ] {g : Θ → B → ℝ}

omit [SFinite (volume : Measure Θ)] in
theorem NewDensity.newModel (hS : MeasurableSet S) (hg : NewDensity S κ g new) : NewModel S new where
  meas U hU := by
    have e : (fun t => S.indicator (fun t => new t U) t) =
        S.indicator fun t => ∫⁻ y in U, ENNReal.ofReal (g t y) ∂κ := by
      funext t
      by_cases ht : t ∈ S
      · rw [indicator_of_mem ht, indicator_of_mem ht, hg.law t ht, withDensity_apply _ hU]
      · rw [indicator_of_notMem ht, indicator_of_notMem ht]
    rw [e]
    exact (Measurable.lintegral_prod_right' hg.meas.ennreal_ofReal).indicator hS
  prob := hg.prob

theorem NewDensity.mix (hS : MeasurableSet S) (hg : NewDensity S κ g new) {ρ : Θ → ℝ} (hd : IsDensity volume S ρ)
    {pr : B → ℝ} (hp : ∀ᵐ y ∂κ, IsPredictive volume S (fun t => g t y) ρ (pr y)) {U : Set B} (hU : MeasurableSet U) :
    (κ.withDensity fun y => ENNReal.ofReal (pr y)) U = ∫⁻ t, new t U ∂lawOn S ρ := by
  have h1 : Measurable fun y => U.indicator (fun _ => (1 : ENNReal)) y := measurable_const.indicator hU
  have ei : ∀ f : B → ENNReal, ∫⁻ y in U, f y ∂κ = ∫⁻ y, f y * U.indicator (fun _ => (1 : ENNReal)) y ∂κ := fun f => by
    rw [← lintegral_indicator hU]
    refine lintegral_congr fun y => ?_
    by_cases hy : y ∈ U <;> simp [hy]
  have hm : Measurable fun t => ∫⁻ y in U, ENNReal.ofReal (g t y) ∂κ :=
    Measurable.lintegral_prod_right' hg.meas.ennreal_ofReal
  have e1 : ∀ᵐ t ∂lawOn S ρ, new t U = ∫⁻ y in U, ENNReal.ofReal (g t y) ∂κ := by
    filter_upwards [ae_lawOn_mem hS ρ] with t ht
    rw [hg.law t ht, withDensity_apply _ hU]
  rw [lintegral_congr_ae e1, lintegral_lawOn hd hm, withDensity_apply _ hU, ei,
    mixture_lintegral hS hd hg.meas hg.nonneg hp h1]
  simp only [ei]

omit [∀ i, SigmaFinite (ν i)] [SFinite (volume : Measure Θ)] in
theorem BayesModel.post_dens (h : BayesModel S prior ν D f post priorLaw model postLaw) {x : Fin n → A}
    (hx : ∀ i, x i ∈ D i) : IsDensity volume S (post x) := by
  obtain ⟨hpos, hb⟩ := h.bayes x hx
  have hint : IntegrableOn (fun t => prior t * ∏ i, f i t (x i)) S := by
    by_contra hc
    rw [integral_undef hc] at hpos
    exact lt_irrefl _ hpos
  refine ⟨fun t ht => ?_, ?_, ?_⟩
  · rw [hb t ht]
    exact div_nonneg (mul_nonneg (h.prior_dens.1 t ht) (Finset.prod_nonneg fun i _ => h.nonneg i t ht _ (hx i))) hpos.le
  · exact (integrableOn_congr_fun hb h.hS).2 (hint.div_const _)
  · rw [setIntegral_congr_fun h.hS hb, integral_div, div_self hpos.ne']

/-- the predictive density is the density of the new value, averaged over the posterior -/
theorem BayesModel.mixes (h : BayesModel S prior ν D f post priorLaw model postLaw) (hg : NewDensity S κ g new)
    {pr : (Fin n → A) → B → ℝ} (hpr : ∀ x, (∀ i, x i ∈ D i) → pred x = κ.withDensity fun y => ENNReal.ofReal (pr x y))
    (hp : ∀ x, (∀ i, x i ∈ D i) → ∀ᵐ y ∂κ, IsPredictive volume S (fun t => g t y) (post x) (pr x y))
    (x : Fin n → A) (hx : ∀ i, x i ∈ D i) (U : Set B) (hU : MeasurableSet U) :
    pred x U = ∫⁻ t, new t U ∂postLaw x := by
  rw [hpr x hx, h.post_law x hx]
  exact hg.mix h.hS (h.post_dens hx) (hp x hx) hU

end Density

theorem Spec.DrawThenPredict.map {C : Type} [MeasurableSpace C] (hp : DrawThenPredict P θ X Y priorLaw model new)
    {c : B → C} (hc : Measurable c) :
    DrawThenPredict P θ X (fun ω => c (Y ω)) priorLaw model fun t => (new t).map c where
  past := hp.past
  measurable_new := hc.comp hp.measurable_new
  law E hE := by
    have hE' : MeasurableSet {z : (Θ × (Fin n → A)) × B | (z.1, c z.2) ∈ E} :=
      (measurable_fst.prodMk (hc.comp measurable_snd)) hE
    refine (hp.law _ hE').trans (lintegral_congr fun t => lintegral_congr fun x => ?_)
    have hEx : MeasurableSet {y | ((t, x), y) ∈ E} := (measurable_const.prodMk measurable_id) hE
    rw [Measure.map_apply hc hEx]
    rfl

theorem NewModel.map {C : Type} [MeasurableSpace C] (hn : NewModel S new) {c : B → C} (hc : Measurable c) :
    NewModel S fun t => (new t).map c where
  meas U hU := by
    simp only [Measure.map_apply hc hU]
    exact hn.meas _ (hc hU)
  prob t ht := by
    have := hn.prob t ht
    exact Measure.isProbabilityMeasure_map hc.aemeasurable

/-- the setting exists -/
theorem BayesModel.exists_predict (h : BayesModel S prior ν D f post priorLaw model postLaw) (hn : NewModel S new) :
    ∃ (Ω : Type) (_ : MeasurableSpace Ω) (P : Measure Ω) (θ : Ω → Θ) (X : Ω → Fin n → A) (Y : Ω → B),
      DrawThenPredict P θ X Y priorLaw model new := by
  classical
  have hJ := measurable_jointDens h.prior_meas h.meas
  obtain ⟨Q, hQ⟩ : ∃ Q, Q = ((volume.restrict S).prod (Measure.pi ν)).withDensity (jointDens prior f) := ⟨_, rfl⟩
  have hG : ∀ G : Θ × (Fin n → A) → ENNReal, Measurable G →
      ∫⁻ z, G z ∂Q = ∫⁻ t, ∫⁻ x, G (t, x) ∂Measure.pi (fun i => model i t) ∂priorLaw := fun G hG => by
    have hJG : Measurable fun z => jointDens prior f z * G z := hJ.mul hG
    rw [h.avg_event hG, hQ, lintegral_withDensity_eq_lintegral_mul _ hJ hG, ← lintegral_prod_symm' _ hJG]
    rfl
  have hprob := lawOn_prob h.hS h.prior_dens
  have hS : ∀ᵐ t ∂priorLaw, t ∈ S := by rw [h.prior_law]; exact ae_lawOn_mem h.hS _
  obtain ⟨t0, ht0⟩ : S.Nonempty := by
    by_contra hc
    rw [not_nonempty_iff_eq_empty] at hc
    have := hprob.measure_univ
    rw [lawOn, hc] at this
    simp at this
  let K : Kernel Θ B := ⟨fun t => if t ∈ S then new t else new t0, by
    refine Measure.measurable_of_measurable_coe _ fun U hU => ?_
    have e : (fun t => (if t ∈ S then new t else new t0 : Measure B) U) =
        fun t => if t ∈ S then S.indicator (fun t => new t U) t else new t0 U := by
      funext t
      by_cases ht : t ∈ S <;> simp [ht]
    rw [e]
    exact Measurable.ite h.hS (hn.meas U hU) measurable_const⟩
  have hK : ∀ t ∈ S, K t = new t := fun t ht => if_pos ht
  have : IsMarkovKernel K := ⟨fun t => by
    change IsProbabilityMeasure (if t ∈ S then new t else new t0)
    split_ifs with ht
    · exact hn.prob t ht
    · exact hn.prob t0 ht0⟩
  have hpi : ∀ t ∈ S, Measure.pi (fun i => model i t) univ = 1 := fun t ht => by
    have := fun i => h.model_prob i t ht
    exact measure_univ
  have : IsProbabilityMeasure Q := ⟨by
    have h1 := hG (fun _ => 1) measurable_const
    rw [lintegral_one] at h1
    rw [h1, lintegral_congr_ae (g := fun _ => 1) (hS.mono fun t ht => by simp [hpi t ht]), h.prior_law]
    simp⟩
  let K' : Kernel (Θ × (Fin n → A)) B := K.comap Prod.fst measurable_fst
  refine ⟨(Θ × (Fin n → A)) × B, inferInstance, Q ⊗ₘ K', fun ω => ω.1.1, fun ω => ω.1.2,
    Prod.snd, ⟨measurable_fst.fst, measurable_fst.snd, fun E hE => ?_⟩, measurable_snd, fun E hE => ?_⟩
  · have hE' : MeasurableSet {z : (Θ × (Fin n → A)) × B | z.1 ∈ E} := measurable_fst hE
    refine (Measure.compProd_apply hE').trans ?_
    rw [hG _ (Kernel.measurable_kernel_prodMk_left hE')]
    refine lintegral_congr fun t => ?_
    have e : ∀ x, K' (t, x) (Prod.mk (t, x) ⁻¹' {z : (Θ × (Fin n → A)) × B | z.1 ∈ E}) =
        ({x | (t, x) ∈ E}).indicator (fun _ => 1) x := fun x => by
      by_cases hx : (t, x) ∈ E
      · have : (Prod.mk (t, x) ⁻¹' {z : (Θ × (Fin n → A)) × B | z.1 ∈ E}) = univ := by
          ext y; simp [hx]
        have hi : x ∈ {x | (t, x) ∈ E} := hx
        rw [this, indicator_of_mem hi]
        exact measure_univ
      · have : (Prod.mk (t, x) ⁻¹' {z : (Θ × (Fin n → A)) × B | z.1 ∈ E}) = ∅ := by
          ext y; simp [hx]
        have hi : x ∉ {x | (t, x) ∈ E} := hx
        rw [this, indicator_of_notMem hi]
        exact measure_empty
    simp only [e]
    have hEt : MeasurableSet {x : Fin n → A | (t, x) ∈ E} := (measurable_const.prodMk measurable_id) hE
    rw [lintegral_indicator hEt, lintegral_const, one_mul,
      Measure.restrict_apply_univ]
  · refine (Measure.compProd_apply hE).trans ?_
    rw [hG _ (Kernel.measurable_kernel_prodMk_left hE)]
    refine lintegral_congr_ae ?_
    filter_upwards [hS] with t ht
    refine lintegral_congr fun x => ?_
    change K t _ = _
    rw [hK t ht]
    rfl

section Limits

variable {Y : Ω → ℝ} {new : Θ → Measure ℝ} {pred : (Fin n → A) → Measure ℝ} [IsProbabilityMeasure P]
  (h : BayesModel S prior ν D f post priorLaw model postLaw) (hn : NewModel S new)
include h hn

open Classical in
omit [IsProbabilityMeasure P] in
theorem BayesModel.measurable_quantile
    (hmix : ∀ x, (∀ i, x i ∈ D i) → ∀ U, MeasurableSet U → pred x U = ∫⁻ t, new t U ∂postLaw x)
    {u : ℝ} (h0 : 0 < u) (h1 : u < 1) :
    Measurable fun x : Fin n → A => if ∀ i, x i ∈ D i then ppf (pred x) u else 0 := by
  have hJ := measurable_jointDens h.prior_meas h.meas
  have hR : MeasurableSet {x : Fin n → A | ∀ i, x i ∈ D i} := by
    have : {x : Fin n → A | ∀ i, x i ∈ D i} = univ.pi D := by ext; simp
    rw [this]
    exact MeasurableSet.univ_pi h.hD
  refine measurable_of_Iic fun y => ?_
  have hk : Measurable fun t => hn.kernel t (Iic y) := hn.kernel.measurable_coe measurableSet_Iic
  obtain ⟨F, hF⟩ : ∃ F : (Fin n → A) → ENNReal, F = fun x =>
    (∫⁻ t in S, jointDens prior f (t, x) * hn.kernel t (Iic y)) / ∫⁻ t in S, jointDens prior f (t, x) := ⟨_, rfl⟩
  have hFm : Measurable F := by
    have hm : Measurable fun z : Θ × (Fin n → A) => jointDens prior f z * hn.kernel z.1 (Iic y) :=
      hJ.mul (hk.comp measurable_fst)
    rw [hF]
    exact (Measurable.lintegral_prod_left' hm).div (Measurable.lintegral_prod_left' hJ)
  have e : (fun x : Fin n → A => if ∀ i, x i ∈ D i then ppf (pred x) u else 0) ⁻¹' Iic y =
      ({x : Fin n → A | ∀ i, x i ∈ D i} ∩ {x | ENNReal.ofReal u ≤ F x}) ∪
        ({x : Fin n → A | ∀ i, x i ∈ D i}ᶜ ∩ {_x | (0 : ℝ) ≤ y}) := by
    ext x
    simp only [mem_preimage, mem_Iic, mem_union, mem_inter_iff, mem_ofPred_eq, mem_compl_iff]
    by_cases hx : ∀ i, x i ∈ D i
    · have i1 := h.pred_prob hn hmix hx
      obtain ⟨m0, m1, -⟩ := h.post_event (B := univ) MeasurableSet.univ hx
      have e2 : pred x (Iic y) = F x := by
        have e3 : ∀ᵐ t ∂postLaw x, new t (Iic y) = hn.kernel t (Iic y) := by
          filter_upwards [h.post_ae hx] with t ht
          rw [hn.kernel_apply ht]
        rw [hmix x hx _ measurableSet_Iic, lintegral_congr_ae e3, hF]
        simp only
        rw [← h.avg_post hk hx, ENNReal.mul_div_cancel_right m0.ne' m1]
      rw [if_pos hx, ppf_le_iff h0 h1, e2]
      simp [hx]
    · simp [hx]
  rw [e]
  exact (hR.inter (measurableSet_le measurable_const hFm)).union (hR.compl.inter (MeasurableSet.const _))

/-- announced limits -/
theorem BayesModel.limits_kept (hp : DrawThenPredict P θ X Y priorLaw model new)
    (hmix : ∀ x, (∀ i, x i ∈ D i) → ∀ U, MeasurableSet U → pred x U = ∫⁻ t, new t U ∂postLaw x) :
    LimitsKept P X Y pred := by
  classical
  intro p h0 h1
  have hq := h.measurable_quantile hn hmix h0 h1
  obtain ⟨q, hqd⟩ : ∃ q : (Fin n → A) → ℝ, q = fun x => if ∀ i, x i ∈ D i then ppf (pred x) p else 0 := ⟨_, rfl⟩
  rw [← hqd] at hq
  have hqx : ∀ x, (∀ i, x i ∈ D i) → q x = ppf (pred x) p := fun x hx => by rw [hqd]; exact if_pos hx
  have hk := h.predictions_kept hn hp hmix
  have hone : ∫⁻ _ω : Ω, ENNReal.ofReal p ∂P = ENNReal.ofReal p := by simp
  constructor
  · have e : P {ω | Y ω ≤ ppf (pred (X ω)) p} = P {ω | Y ω ∈ Iic (q (X ω))} := by
      refine measure_congr ?_
      filter_upwards [h.ae_data hp.past] with ω hω
      simp only [eq_iff_iff]
      change Y ω ≤ ppf (pred (X ω)) p ↔ Y ω ≤ q (X ω)
      rw [hqx _ hω]
    rw [e, hk (fun x => Iic (q x)) (measurableSet_le measurable_fst (hq.comp measurable_snd)), ← hone]
    refine lintegral_mono_ae ?_
    filter_upwards [h.ae_data hp.past] with ω hω
    have := h.pred_prob hn hmix hω
    rw [hqx _ hω]
    exact (ppf_le_iff h0 h1 _).1 le_rfl
  · have e : P {ω | Y ω < ppf (pred (X ω)) p} = P {ω | Y ω ∈ Iio (q (X ω))} := by
      refine measure_congr ?_
      filter_upwards [h.ae_data hp.past] with ω hω
      simp only [eq_iff_iff]
      change Y ω < ppf (pred (X ω)) p ↔ Y ω < q (X ω)
      rw [hqx _ hω]
    rw [e, hk (fun x => Iio (q x)) (measurableSet_lt measurable_fst (hq.comp measurable_snd))]
    conv_rhs => rw [← hone]
    refine lintegral_mono_ae ?_
    filter_upwards [h.ae_data hp.past] with ω hω
    have := h.pred_prob hn hmix hω
    rw [hqx _ hω]
    exact prob_lt_ppf h0 h1

/-- announced limits for measured values -/
theorem BayesModel.limits_exact (hp : DrawThenPredict P θ X Y priorLaw model new)
    (hmix : ∀ x, (∀ i, x i ∈ D i) → ∀ U, MeasurableSet U → pred x U = ∫⁻ t, new t U ∂postLaw x)
    (hna : ∀ x, (∀ i, x i ∈ D i) → NullSingletonClass (pred x)) : LimitsExact P X Y pred := by
  classical
  intro p h0 h1
  have hq := h.measurable_quantile hn hmix h0 h1
  obtain ⟨q, hqd⟩ : ∃ q : (Fin n → A) → ℝ, q = fun x => if ∀ i, x i ∈ D i then ppf (pred x) p else 0 := ⟨_, rfl⟩
  rw [← hqd] at hq
  have hqx : ∀ x, (∀ i, x i ∈ D i) → q x = ppf (pred x) p := fun x hx => by rw [hqd]; exact if_pos hx
  have e : P {ω | Y ω ≤ ppf (pred (X ω)) p} = P {ω | Y ω ∈ Iic (q (X ω))} := by
    refine measure_congr ?_
    filter_upwards [h.ae_data hp.past] with ω hω
    simp only [eq_iff_iff]
    change Y ω ≤ ppf (pred (X ω)) p ↔ Y ω ≤ q (X ω)
    rw [hqx _ hω]
  have e2 : ∀ᵐ ω ∂P, pred (X ω) (Iic (q (X ω))) = ENNReal.ofReal p := by
    filter_upwards [h.ae_data hp.past] with ω hω
    have := h.pred_prob hn hmix hω
    have := hna _ hω
    rw [hqx _ hω]
    exact prob_le_ppf h0 h1
  rw [e, h.predictions_kept hn hp hmix (fun x => Iic (q x)) (measurableSet_le measurable_fst (hq.comp measurable_snd)),
    lintegral_congr_ae e2]
  simp

end Limits

end Joint

end Conj
