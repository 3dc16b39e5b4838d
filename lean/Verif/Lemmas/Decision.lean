import Verif.DecisionSpec
import Verif.ForecastSpec
import Verif.Props.Calibration

/-!
# From Bayes' rule to decisions
-/

open MeasureTheory Set

namespace Conj

open Scipy Spec

section General

variable {Ω Θ A : Type} [MeasurableSpace Ω] [MeasurableSpace Θ] [MeasurableSpace A] {n : ℕ} {P : Measure Ω} {θ : Ω → Θ}
  {X : Ω → Fin n → A} {post : (Fin n → A) → Measure Θ}

/-- from regions to losses -/
theorem lossesKept_of (hθ : Measurable θ) (hX : Measurable X) (hc : Calibrated P θ X post)
    (hm : ∀ C : (Fin n → A) → Set Θ, MeasurableSet {z : Θ × (Fin n → A) | z.1 ∈ C z.2} →
      AEMeasurable (fun ω => post (X ω) (C (X ω))) P) : LossesKept P θ X post := by
  intro F hF
  have key : AEMeasurable (fun ω => ∫⁻ t, F (t, X ω) ∂post (X ω)) P ∧
      ∫⁻ ω, F (θ ω, X ω) ∂P = ∫⁻ ω, ∫⁻ t, F (t, X ω) ∂post (X ω) ∂P := by
    have hz : Measurable fun ω => (θ ω, X ω) := hθ.prodMk hX
    have hsec : ∀ {G : Θ × (Fin n → A) → ENNReal}, Measurable G → ∀ x, Measurable fun t => G (t, x) := fun hG x =>
      hG.comp (measurable_id.prodMk measurable_const)
    refine Measurable.ennreal_induction (motive := fun F => AEMeasurable (fun ω => ∫⁻ t, F (t, X ω) ∂post (X ω)) P ∧
      ∫⁻ ω, F (θ ω, X ω) ∂P = ∫⁻ ω, ∫⁻ t, F (t, X ω) ∂post (X ω) ∂P) ?_ ?_ ?_ hF
    · intro c s hs
      have hC : MeasurableSet {z : Θ × (Fin n → A) | z.1 ∈ (fun x => {t | (t, x) ∈ s}) z.2} := hs
      have e : ∀ ω, ∫⁻ t, s.indicator (fun _ => c) (t, X ω) ∂post (X ω) = c * post (X ω) {t | (t, X ω) ∈ s} := fun ω => by
        have hs' : MeasurableSet {t | (t, X ω) ∈ s} := (measurable_id.prodMk measurable_const) hs
        rw [← lintegral_indicator_const hs']
        rfl
      simp only [e]
      have hm' : AEMeasurable (fun ω => post (X ω) {t | (t, X ω) ∈ s}) P := hm (fun x => {t | (t, x) ∈ s}) hC
      refine ⟨hm'.const_mul c, ?_⟩
      rw [lintegral_const_mul'' _ hm']
      have h1 := hc (fun x => {t | (t, x) ∈ s}) hC
      have e2 : ∫⁻ ω, s.indicator (fun _ => c) (θ ω, X ω) ∂P = c * P {ω | (θ ω, X ω) ∈ s} :=
        lintegral_indicator_const (hz hs) c
      rw [e2]
      exact congrArg (c * ·) h1
    · intro f g hfg hf hg ihf ihg
      have e : ∀ ω, ∫⁻ t, (f + g) (t, X ω) ∂post (X ω) = ∫⁻ t, f (t, X ω) ∂post (X ω) + ∫⁻ t, g (t, X ω) ∂post (X ω) := fun ω =>
        lintegral_add_left (hsec hf (X ω)) _
      simp only [e]
      refine ⟨ihf.1.add ihg.1, ?_⟩
      rw [lintegral_add_left' ihf.1, ← ihf.2, ← ihg.2]
      exact lintegral_add_left (hf.comp hz) _
    · intro f hf hmono ih
      have e : ∀ ω, ∫⁻ t, (⨆ k, f k (t, X ω)) ∂post (X ω) = ⨆ k, ∫⁻ t, f k (t, X ω) ∂post (X ω) := fun ω =>
        lintegral_iSup (fun k => hsec (hf k) (X ω)) fun i j hij t => hmono hij _
      simp only [e]
      refine ⟨AEMeasurable.iSup fun k => (ih k).1, ?_⟩
      rw [lintegral_iSup' (fun k => (ih k).1) (Filter.Eventually.of_forall fun ω i j hij =>
        lintegral_mono fun t => hmono hij _)]
      have e2 : ∫⁻ ω, (⨆ k, f k (θ ω, X ω)) ∂P = ⨆ k, ∫⁻ ω, f k (θ ω, X ω) ∂P :=
        lintegral_iSup (fun k => (hf k).comp hz) fun i j hij ω => hmono hij _
      rw [e2]
      exact iSup_congr fun k => (ih k).2
  exact key.2

/-- losses that are kept are in particular probabilities that are kept -/
theorem Spec.LossesKept.calibrated (h : LossesKept P θ X post) (hθ : Measurable θ) (hX : Measurable X) : Calibrated P θ X post := by
  intro C hC
  have h1 := h ({z : Θ × (Fin n → A) | z.1 ∈ C z.2}.indicator fun _ => 1) (measurable_const.indicator hC)
  have hz : Measurable fun ω => (θ ω, X ω) := hθ.prodMk hX
  have e1 : ∫⁻ ω, ({z : Θ × (Fin n → A) | z.1 ∈ C z.2}.indicator (fun _ => (1 : ENNReal))) (θ ω, X ω) ∂P =
      P {ω | θ ω ∈ C (X ω)} := by
    have := lintegral_indicator_const (μ := P) (hz hC) 1
    rw [one_mul] at this
    exact this
  have e2 : ∀ ω, ∫⁻ t, ({z : Θ × (Fin n → A) | z.1 ∈ C z.2}.indicator (fun _ => (1 : ENNReal))) (t, X ω) ∂post (X ω) =
      post (X ω) (C (X ω)) := fun ω => by
    have hs' : MeasurableSet {t | t ∈ C (X ω)} := (measurable_id.prodMk measurable_const) hC
    have := lintegral_indicator_const (μ := post (X ω)) hs' 1
    rw [one_mul] at this
    exact this
  rw [e1] at h1
  simpa only [e2] using h1

theorem Spec.LossesKept.decidesWell (h : LossesKept P θ X post) (hX : Measurable X) : DecidesWell P θ X post := by
  intro B _ loss hl best rule hb hr hbest
  have ae1 : ∀ᵐ ω ∂P, best (X ω) = hb.mk best (X ω) := ae_of_ae_map hX.aemeasurable hb.ae_eq_mk
  have ae2 : ∀ᵐ ω ∂P, rule (X ω) = hr.mk rule (X ω) := ae_of_ae_map hX.aemeasurable hr.ae_eq_mk
  have e1 : ∫⁻ ω, loss (θ ω) (best (X ω)) ∂P = ∫⁻ ω, loss (θ ω) (hb.mk best (X ω)) ∂P :=
    lintegral_congr_ae (by filter_upwards [ae1] with ω hω; rw [hω])
  have e2 : ∫⁻ ω, loss (θ ω) (rule (X ω)) ∂P = ∫⁻ ω, loss (θ ω) (hr.mk rule (X ω)) ∂P :=
    lintegral_congr_ae (by filter_upwards [ae2] with ω hω; rw [hω])
  rw [e1, e2]
  have k1 := h (fun z => loss z.1 (hb.mk best z.2)) (hl.comp (measurable_fst.prodMk (hb.measurable_mk.comp measurable_snd)))
  have k2 := h (fun z => loss z.1 (hr.mk rule z.2)) (hl.comp (measurable_fst.prodMk (hr.measurable_mk.comp measurable_snd)))
  refine k1.le.trans (le_trans ?_ k2.ge)
  refine lintegral_mono_ae ?_
  filter_upwards [ae1, hbest] with ω hω hω'
  beta_reduce
  rw [← hω]
  exact hω' _

end General

/-! ## Squared error -/

/-- expected squared error of the guess `a` -/
theorem sq_loss {μ : Measure ℝ} {m v : ℝ} (h : MeanVar μ m v) (a : ℝ) :
    ∫⁻ t, ENNReal.ofReal ((t - a) ^ 2) ∂μ = ENNReal.ofReal (v + (m - a) ^ 2) := by
  have := h.prob
  have i1 : Integrable (fun x : ℝ => x) μ := h.memLp.integrable one_le_two
  have i2 : Integrable (fun x : ℝ => (x - m) ^ 2) μ := (h.memLp.sub (memLp_const m)).integrable_sq
  have i3 : Integrable (fun x : ℝ => (x - a) ^ 2) μ := (h.memLp.sub (memLp_const a)).integrable_sq
  rw [← ofReal_integral_eq_lintegral_ofReal i3 (.of_forall fun t => sq_nonneg _)]
  congr 1
  have e : ∀ t, (t - a) ^ 2 = (t - m) ^ 2 + (2 * (m - a) * (t - m) + (m - a) ^ 2) := fun t => by ring
  rw [integral_congr_ae (Filter.Eventually.of_forall e)]
  have i4 : Integrable (fun t : ℝ => 2 * (m - a) * (t - m)) μ := (i1.sub (integrable_const m)).const_mul _
  have i5 : Integrable (fun t : ℝ => 2 * (m - a) * (t - m) + (m - a) ^ 2) μ := i4.add (integrable_const _)
  rw [integral_add i2 i5, integral_add i4 (integrable_const _), integral_const_mul, integral_sub i1 (integrable_const m), h.mean,
    h.var]
  simp

section Scalar

variable {Ω A : Type} [MeasurableSpace Ω] [MeasurableSpace A] {n : ℕ} {P : Measure Ω} {θ : Ω → ℝ}
  {X : Ω → Fin n → A} {post : (Fin n → A) → Measure ℝ}

theorem Spec.LossesKept.bestGuess (h : LossesKept P θ X post) {guess error : (Fin n → A) → ℝ} (hg : Measurable guess)
    (hmv : ∀ᵐ ω ∂P, MeanVar (post (X ω)) (guess (X ω)) (error (X ω))) : BestGuess P θ X guess error := by
  have key : ∀ rule : (Fin n → A) → ℝ, Measurable rule → squaredError P θ X rule =
      ∫⁻ ω, ENNReal.ofReal (error (X ω) + (guess (X ω) - rule (X ω)) ^ 2) ∂P := by
    intro rule hr
    refine (h (fun z => ENNReal.ofReal ((z.1 - rule z.2) ^ 2))
      ((measurable_fst.sub (hr.comp measurable_snd)).pow_const 2).ennreal_ofReal).trans (lintegral_congr_ae ?_)
    filter_upwards [hmv] with ω hω
    exact sq_loss hω _
  refine ⟨by rw [key _ hg]; simp, fun rule hr => ?_⟩
  rw [key _ hg, key _ hr]
  refine lintegral_mono fun ω => ENNReal.ofReal_le_ofReal ?_
  have := sq_nonneg (guess (X ω) - rule (X ω))
  simp only [sub_self]
  linarith

end Scalar

/-! ## Stock -/

theorem stock_convex (q t a c : ℝ) :
    q * max (t - c) 0 + (1 - q) * max (c - t) 0 + (c - a) * (q - if t ≤ c then 1 else 0) ≤
      q * max (t - a) 0 + (1 - q) * max (a - t) 0 := by
  rcases le_total (t - a) 0 with h2 | h2 <;> split_ifs with h3
  · rw [max_eq_right h2, max_eq_left (by linarith : 0 ≤ a - t), max_eq_right (by linarith : t - c ≤ 0),
      max_eq_left (by linarith : 0 ≤ c - t)]
    nlinarith
  · rw [max_eq_right h2, max_eq_left (by linarith : 0 ≤ a - t), max_eq_left (by linarith : 0 ≤ t - c),
      max_eq_right (by linarith : c - t ≤ 0)]
    nlinarith
  · rw [max_eq_left h2, max_eq_right (by linarith : a - t ≤ 0), max_eq_right (by linarith : t - c ≤ 0),
      max_eq_left (by linarith : 0 ≤ c - t)]
    nlinarith
  · rw [max_eq_left h2, max_eq_right (by linarith : a - t ≤ 0), max_eq_left (by linarith : 0 ≤ t - c),
      max_eq_right (by linarith : c - t ≤ 0)]
    nlinarith

theorem measurable_stockLoss (q : ℝ) : Measurable fun z : ℝ × ℝ => stockLoss q z.1 z.2 := by
  unfold stockLoss
  fun_prop

/-- the `q` quantile is the best stock -/
theorem stock_best {μ : Measure ℝ} [IsProbabilityMeasure μ] {q : ℝ} (h0 : 0 < q) (h1 : q < 1) {c : ℝ}
    (hc : μ (Iic c) = ENNReal.ofReal q) (a : ℝ) :
    ∫⁻ t, stockLoss q t c ∂μ ≤ ∫⁻ t, stockLoss q t a ∂μ := by
  by_cases htop : ∫⁻ t, stockLoss q t a ∂μ = ⊤
  · rw [htop]
    exact le_top
  have nn : ∀ t a, 0 ≤ q * max (t - a) 0 + (1 - q) * max (a - t) 0 := fun t a =>
    add_nonneg (mul_nonneg h0.le (le_max_right _ _)) (mul_nonneg (by linarith) (le_max_right _ _))
  have ms : ∀ a : ℝ, Measurable fun t : ℝ => q * max (t - a) 0 + (1 - q) * max (a - t) 0 := fun a => by fun_prop
  have ia : Integrable (fun t => q * max (t - a) 0 + (1 - q) * max (a - t) 0) μ := by
    refine ⟨(ms a).aestronglyMeasurable, ?_⟩
    rw [hasFiniteIntegral_iff_ofReal (.of_forall fun t => nn t a)]
    exact lt_top_iff_ne_top.2 htop
  have ii : Integrable (fun t => (c - a) * (q - if t ≤ c then (1 : ℝ) else 0)) μ := by
    refine Integrable.const_mul ((integrable_const q).sub ?_) _
    exact (integrable_indicator_iff measurableSet_Iic).2 (integrable_const (1 : ℝ)).integrableOn
  have ic : Integrable (fun t => q * max (t - c) 0 + (1 - q) * max (c - t) 0) μ := by
    refine Integrable.mono' (ia.sub ii) (ms c).aestronglyMeasurable (.of_forall fun t => ?_)
    rw [Real.norm_of_nonneg (nn t c)]
    have := stock_convex q t a c
    simp only [Pi.sub_apply]
    linarith
  have hz : ∫ t, (c - a) * (q - if t ≤ c then (1 : ℝ) else 0) ∂μ = 0 := by
    have e : ∫ t, (if t ≤ c then (1 : ℝ) else 0) ∂μ = q := by
      have : (fun t : ℝ => if t ≤ c then (1 : ℝ) else 0) = (Iic c).indicator fun _ => 1 := rfl
      rw [this, integral_indicator measurableSet_Iic, setIntegral_const, smul_eq_mul, mul_one, Measure.real, hc,
        ENNReal.toReal_ofReal h0.le]
    have i1 : Integrable (fun t : ℝ => if t ≤ c then (1 : ℝ) else 0) μ :=
      (integrable_indicator_iff measurableSet_Iic).2 (integrable_const (1 : ℝ)).integrableOn
    rw [integral_const_mul, integral_sub (integrable_const q) i1, e]
    simp
  unfold stockLoss
  rw [← ofReal_integral_eq_lintegral_ofReal ic (.of_forall fun t => nn t c),
    ← ofReal_integral_eq_lintegral_ofReal ia (.of_forall fun t => nn t a)]
  refine ENNReal.ofReal_le_ofReal ?_
  have := integral_mono (ic.add ii) ia fun t => stock_convex q t a c
  simp only [Pi.add_apply] at this
  rw [integral_add ic ii, hz, add_zero] at this
  exact this

/-! ## Models -/

section Models

variable {Ω A Θ : Type} [MeasurableSpace Ω] [MeasurableSpace A] {n : ℕ} {P : Measure Ω}

section Any

variable [MeasureSpace Θ] [SFinite (volume : Measure Θ)]
  {S : Set Θ} {prior : Θ → ℝ} {ν : Fin n → Measure A} [∀ i, SigmaFinite (ν i)] {D : Fin n → Set A} {f : Fin n → Θ → A → ℝ}
  {post : (Fin n → A) → Θ → ℝ} {priorLaw : Measure Θ} {model : Fin n → Θ → Measure A} {postLaw : (Fin n → A) → Measure Θ}
  {θ : Ω → Θ} {X : Ω → Fin n → A}

theorem BayesModel.lossesKept (h : BayesModel S prior ν D f post priorLaw model postLaw)
    (hd : DrawThenObserve P θ X priorLaw model) : LossesKept P θ X postLaw :=
  lossesKept_of hd.measurable_unknown hd.measurable_data (h.calibrated hd) fun _ hC => h.aemeasurable_post hd hC

theorem BayesModel.decisions (h : BayesModel S prior ν D f post priorLaw model postLaw)
    (hd : DrawThenObserve P θ X priorLaw model) : LossesKept P θ X postLaw ∧ DecidesWell P θ X postLaw :=
  ⟨h.lossesKept hd, (h.lossesKept hd).decidesWell hd.measurable_data⟩

omit [∀ i, SigmaFinite (ν i)] in
theorem BayesModel.map_unknown (h : BayesModel S prior ν D f post priorLaw model postLaw)
    (hd : DrawThenObserve P θ X priorLaw model) : P.map θ = priorLaw := by
  ext U hU
  rw [Measure.map_apply hd.measurable_unknown hU]
  have h1 := hd.law {z | z.1 ∈ U} (measurable_fst hU)
  refine (show P (θ ⁻¹' U) = P {ω | (θ ω, X ω) ∈ {z : Θ × (Fin n → A) | z.1 ∈ U}} from rfl).trans (h1.trans ?_)
  rw [← lintegral_indicator_one hU]
  have hS : ∀ᵐ t ∂priorLaw, t ∈ S := by
    rw [h.prior_law, lawOn]
    exact (withDensity_absolutelyContinuous _ _).ae_le (ae_restrict_mem h.hS)
  refine lintegral_congr_ae ?_
  filter_upwards [hS] with t ht
  have := fun i => h.model_prob i t ht
  by_cases htU : t ∈ U
  · have e : {x : Fin n → A | t ∈ U} = univ := by ext x; simp [htU]
    change Measure.pi _ {x : Fin n → A | t ∈ U} = _
    rw [e, measure_univ, indicator_of_mem htU]
    rfl
  · have e : {x : Fin n → A | t ∈ U} = ∅ := by ext x; simp [htU]
    change Measure.pi _ {x : Fin n → A | t ∈ U} = _
    rw [e, measure_empty, indicator_of_notMem htU]

end Any

variable {S : Set ℝ} {prior : ℝ → ℝ} {ν : Fin n → Measure A} [∀ i, SigmaFinite (ν i)] {D : Fin n → Set A}
  {f : Fin n → ℝ → A → ℝ} {post : (Fin n → A) → ℝ → ℝ} {priorLaw : Measure ℝ} {model : Fin n → ℝ → Measure A}
  {postLaw : (Fin n → A) → Measure ℝ} {θ : Ω → ℝ} {X : Ω → Fin n → A}

theorem BayesModel.guess (h : BayesModel S prior ν D f post priorLaw model postLaw) (hd : DrawThenObserve P θ X priorLaw model)
    {guess error : (Fin n → A) → ℝ} (hg : Measurable guess)
    (hmv : ∀ x, (∀ i, x i ∈ D i) → MeanVar (postLaw x) (guess x) (error x)) : GuessByMean P θ X priorLaw postLaw := by
  have hmv' : ∀ᵐ ω ∂P, MeanVar (postLaw (X ω)) (guess (X ω)) (error (X ω)) := by
    filter_upwards [h.ae_data hd] with ω hω using hmv _ hω
  have hb := (h.lossesKept hd).bestGuess hg hmv'
  refine ⟨guess, error, hmv', hb, fun m v hv => ?_⟩
  rw [← hb.1]
  refine (hb.2 (fun _ => m) measurable_const).trans (le_of_eq ?_)
  have h1 := sq_loss hv m
  rw [← h.map_unknown hd, lintegral_map (by fun_prop) hd.measurable_unknown] at h1
  unfold squaredError
  simpa using h1

open Classical in
omit [∀ i, SigmaFinite (ν i)] in
theorem BayesModel.measurable_ppf (h : BayesModel S prior ν D f post priorLaw model postLaw)
    (hprob : ∀ x, (∀ i, x i ∈ D i) → IsProbabilityMeasure (postLaw x)) {u : ℝ} (h0 : 0 < u) (h1 : u < 1) :
    Measurable fun x : Fin n → A => if ∀ i, x i ∈ D i then ppf (postLaw x) u else 0 := by
  have hJ := measurable_jointDens h.prior_meas h.meas
  have hR : MeasurableSet {x : Fin n → A | ∀ i, x i ∈ D i} := by
    have : {x : Fin n → A | ∀ i, x i ∈ D i} = univ.pi D := by ext; simp
    rw [this]
    exact MeasurableSet.univ_pi h.hD
  refine measurable_of_Iic fun y => ?_
  have hC : MeasurableSet {z : ℝ × (Fin n → A) | z.1 ≤ y} := measurable_fst measurableSet_Iic
  obtain ⟨F, hF⟩ : ∃ F : (Fin n → A) → ENNReal, F = fun x =>
    (∫⁻ t in S, ({z : ℝ × (Fin n → A) | z.1 ≤ y}).indicator (jointDens prior f) (t, x)) /
      ∫⁻ t in S, jointDens prior f (t, x) := ⟨_, rfl⟩
  have hFm : Measurable F := by
    rw [hF]
    exact (Measurable.lintegral_prod_left' (hJ.indicator hC)).div (Measurable.lintegral_prod_left' hJ)
  have e : (fun x : Fin n → A => if ∀ i, x i ∈ D i then ppf (postLaw x) u else 0) ⁻¹' Iic y =
      ({x : Fin n → A | ∀ i, x i ∈ D i} ∩ {x | ENNReal.ofReal u ≤ F x}) ∪
        ({x : Fin n → A | ∀ i, x i ∈ D i}ᶜ ∩ {_x | (0 : ℝ) ≤ y}) := by
    ext x
    simp only [mem_preimage, mem_Iic, mem_union, mem_inter_iff, mem_ofPred_eq, mem_compl_iff]
    by_cases hx : ∀ i, x i ∈ D i
    · have i1 := hprob x hx
      obtain ⟨h2, h3, h4⟩ := h.post_event hC hx
      have h5 : F x = postLaw x (Iic y) := by
        rw [hF]
        beta_reduce
        rw [← h4, ENNReal.mul_div_cancel_right h2.ne' h3]
        rfl
      simp only [hx, implies_true, if_true, true_and, not_true, false_and, or_false]
      rw [ppf_le_iff h0 h1, h5]
    · simp only [hx, if_false, false_and, false_or, not_false_iff, true_and]
  rw [e]
  exact (hR.inter (measurableSet_le measurable_const hFm)).union (hR.compl.inter (MeasurableSet.const _))

theorem BayesModel.stock (h : BayesModel S prior ν D f post priorLaw model postLaw)
    (hd : DrawThenObserve P θ X priorLaw model) : StockByQuantile P θ X postLaw := by
  classical
  intro q h0 h1 rule hr
  have hprob : ∀ x, (∀ i, x i ∈ D i) → IsProbabilityMeasure (postLaw x) := fun x hx => by
    refine ⟨?_⟩
    obtain ⟨h1, h2, h3⟩ := h.post_event (B := univ) MeasurableSet.univ hx
    simp only [indicator_univ] at h3
    have h4 : postLaw x {t | (t, x) ∈ (univ : Set (ℝ × (Fin n → A)))} = 1 :=
      (ENNReal.mul_left_inj h1.ne' h2).1 (by rw [h3, one_mul])
    simpa using h4
  have hae : ∀ᵐ x ∂P.map X, ∀ i, x i ∈ D i := by
    rw [h.map_data hd]
    exact (withDensity_absolutelyContinuous _ _).ae_le h.ae_range
  have hm : AEMeasurable (fun x => ppf (postLaw x) q) (P.map X) := by
    refine ⟨_, h.measurable_ppf hprob h0 h1, ?_⟩
    filter_upwards [hae] with x hx
    rw [if_pos hx]
  refine (h.decisions hd).2 ℝ (stockLoss q) (measurable_stockLoss q) (fun x => ppf (postLaw x) q) rule hm hr.aemeasurable ?_
  filter_upwards [h.ae_data hd] with ω hω b
  have i1 := hprob _ hω
  have i2 : NullSingletonClass (postLaw (X ω)) := by rw [h.post_law _ hω, lawOn]; infer_instance
  exact stock_best h0 h1 (prob_le_ppf h0 h1) b

/-- all conclusions for one unknown number -/
theorem BayesModel.choices (h : BayesModel S prior ν D f post priorLaw model postLaw)
    (hd : DrawThenObserve P θ X priorLaw model) :
    RightChoices P θ X postLaw :=
  ⟨(h.decisions hd).1, (h.decisions hd).2, h.stock hd⟩

end Models

end Conj
