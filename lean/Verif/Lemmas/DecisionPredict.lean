import Verif.Lemmas.Decision
import Verif.Props.Prediction
import Verif.Props.PredictionVector

/-!
# From kept predictions to decisions
-/

open MeasureTheory Set ProbabilityTheory

namespace Conj

open Scipy Spec

theorem stock_convex_lt (q t a c : ℝ) :
    q * max (t - c) 0 + (1 - q) * max (c - t) 0 + (c - a) * (q - if t < c then 1 else 0) ≤
      q * max (t - a) 0 + (1 - q) * max (a - t) 0 := by
  rcases le_total (t - a) 0 with h2 | h2 <;> split_ifs with h3
  · rw [max_eq_right h2, max_eq_left (by linarith : 0 ≤ a - t), max_eq_right (by linarith : t - c ≤ 0),
      max_eq_left (by linarith : 0 ≤ c - t)]
    nlinarith
  · rw [max_eq_right h2, max_eq_left (by linarith : 0 ≤ a - t), max_eq_left (by linarith : 0 ≤ t - c),
      max_eq_right (by linarith : c - t ≤ 0)]
    nlinarith
  · rw [max_eq_left h2, max_eq_right (by linarith : a - t ≤ 0), max_eq_right (by linarith : t - c ≤ 0),
      max_eq_left (by linarith : 0 ≤ c - t)]
    nlinarith
  · rw [max_eq_left h2, max_eq_right (by linarith : a - t ≤ 0), max_eq_left (by linarith : 0 ≤ t - c),
      max_eq_right (by linarith : c - t ≤ 0)]
    nlinarith

theorem stock_of {μ : Measure ℝ} [IsProbabilityMeasure μ] {q : ℝ} (h0 : 0 < q) (h1 : q < 1) {c a : ℝ} {I : Set ℝ}
    (hI : MeasurableSet I) (hconv : ∀ t, q * max (t - c) 0 + (1 - q) * max (c - t) 0 +
      (c - a) * (q - I.indicator (fun _ => (1 : ℝ)) t) ≤ q * max (t - a) 0 + (1 - q) * max (a - t) 0)
    (hs : 0 ≤ (c - a) * (q - μ.real I)) :
    ∫⁻ t, stockLoss q t c ∂μ ≤ ∫⁻ t, stockLoss q t a ∂μ := by
  by_cases htop : ∫⁻ t, stockLoss q t a ∂μ = ⊤
  · rw [htop]
    exact le_top
  have nn : ∀ t a, 0 ≤ q * max (t - a) 0 + (1 - q) * max (a - t) 0 := fun t a =>
    add_nonneg (mul_nonneg h0.le (le_max_right _ _)) (mul_nonneg (by linarith) (le_max_right _ _))
  have ms : ∀ a : ℝ, Measurable fun t : ℝ => q * max (t - a) 0 + (1 - q) * max (a - t) 0 := fun a => by fun_prop
  have ia : Integrable (fun t => q * max (t - a) 0 + (1 - q) * max (a - t) 0) μ := by
    refine ⟨(ms a).aestronglyMeasurable, ?_⟩
    rw [hasFiniteIntegral_iff_ofReal (.of_forall fun t => nn t a)]
    exact lt_top_iff_ne_top.2 htop
  have i1 : Integrable (I.indicator fun _ => (1 : ℝ)) μ :=
    (integrable_indicator_iff hI).2 (integrable_const (1 : ℝ)).integrableOn
  have ii : Integrable (fun t => (c - a) * (q - I.indicator (fun _ => (1 : ℝ)) t)) μ :=
    Integrable.const_mul ((integrable_const q).sub i1) _
  have ic : Integrable (fun t => q * max (t - c) 0 + (1 - q) * max (c - t) 0) μ := by
    refine Integrable.mono' (ia.sub ii) (ms c).aestronglyMeasurable (.of_forall fun t => ?_)
    rw [Real.norm_of_nonneg (nn t c)]
    have := hconv t
    simp only [Pi.sub_apply]
    linarith
  have hz : ∫ t, (c - a) * (q - I.indicator (fun _ => (1 : ℝ)) t) ∂μ = (c - a) * (q - μ.real I) := by
    rw [integral_const_mul, integral_sub (integrable_const q) i1, integral_indicator hI, setIntegral_const]
    simp
  unfold stockLoss
  rw [← ofReal_integral_eq_lintegral_ofReal ic (.of_forall fun t => nn t c),
    ← ofReal_integral_eq_lintegral_ofReal ia (.of_forall fun t => nn t a)]
  refine ENNReal.ofReal_le_ofReal ?_
  have := integral_mono (ic.add ii) ia hconv
  simp only [Pi.add_apply] at this
  rw [integral_add ic ii, hz] at this
  linarith

/-- how much more the stock `a` costs than `c` -/
theorem stock_gap {μ : Measure ℝ} [IsProbabilityMeasure μ] {q : ℝ} (h0 : 0 < q) (h1 : q < 1) {a : ℝ}
    (htop : ∫⁻ t, stockLoss q t a ∂μ ≠ ⊤) (c : ℝ) (hs : 0 ≤ (c - a) * (q - μ.real (Iic c))) :
    ∫⁻ t, stockLoss q t c ∂μ + ENNReal.ofReal ((c - a) * (q - μ.real (Iic c))) ≤ ∫⁻ t, stockLoss q t a ∂μ := by
  have hconv : ∀ t, q * max (t - c) 0 + (1 - q) * max (c - t) 0 +
      (c - a) * (q - (Iic c).indicator (fun _ => (1 : ℝ)) t) ≤ q * max (t - a) 0 + (1 - q) * max (a - t) 0 :=
    fun t => stock_convex q t a c
  have nn : ∀ t a, 0 ≤ q * max (t - a) 0 + (1 - q) * max (a - t) 0 := fun t a =>
    add_nonneg (mul_nonneg h0.le (le_max_right _ _)) (mul_nonneg (by linarith) (le_max_right _ _))
  have ms : ∀ a : ℝ, Measurable fun t : ℝ => q * max (t - a) 0 + (1 - q) * max (a - t) 0 := fun a => by fun_prop
  have ia : Integrable (fun t => q * max (t - a) 0 + (1 - q) * max (a - t) 0) μ := by
    refine ⟨(ms a).aestronglyMeasurable, ?_⟩
    rw [hasFiniteIntegral_iff_ofReal (.of_forall fun t => nn t a)]
    exact lt_top_iff_ne_top.2 htop
  have i1 : Integrable ((Iic c).indicator fun _ => (1 : ℝ)) μ :=
    (integrable_indicator_iff measurableSet_Iic).2 (integrable_const (1 : ℝ)).integrableOn
  have ii : Integrable (fun t => (c - a) * (q - (Iic c).indicator (fun _ => (1 : ℝ)) t)) μ :=
    Integrable.const_mul ((integrable_const q).sub i1) _
  have ic : Integrable (fun t => q * max (t - c) 0 + (1 - q) * max (c - t) 0) μ := by
    refine Integrable.mono' (ia.sub ii) (ms c).aestronglyMeasurable (.of_forall fun t => ?_)
    rw [Real.norm_of_nonneg (nn t c)]
    have := hconv t
    simp only [Pi.sub_apply]
    linarith
  have hz : ∫ t, (c - a) * (q - (Iic c).indicator (fun _ => (1 : ℝ)) t) ∂μ = (c - a) * (q - μ.real (Iic c)) := by
    rw [integral_const_mul, integral_sub (integrable_const q) i1, integral_indicator measurableSet_Iic, setIntegral_const]
    simp
  unfold stockLoss
  rw [← ofReal_integral_eq_lintegral_ofReal ic (.of_forall fun t => nn t c),
    ← ofReal_integral_eq_lintegral_ofReal ia (.of_forall fun t => nn t a),
    ← ENNReal.ofReal_add (integral_nonneg fun t => nn t c) hs]
  refine ENNReal.ofReal_le_ofReal ?_
  have := integral_mono (ic.add ii) ia hconv
  simp only [Pi.add_apply] at this
  rw [integral_add ic ii, hz] at this
  exact this

/-- the `q` quantile is the best stock, also for counts -/
theorem stock_ppf {μ : Measure ℝ} [IsProbabilityMeasure μ] {q : ℝ} (h0 : 0 < q) (h1 : q < 1) (a : ℝ) :
    ∫⁻ t, stockLoss q t (ppf μ q) ∂μ ≤ ∫⁻ t, stockLoss q t a ∂μ := by
  obtain ⟨c, hc⟩ : ∃ c, c = ppf μ q := ⟨_, rfl⟩
  rw [← hc]
  have h2 : q ≤ μ.real (Iic c) := by
    have := (ppf_le_iff (μ := μ) h0 h1 c).1 hc.ge
    exact (ENNReal.ofReal_le_iff_le_toReal (measure_ne_top μ _)).1 this
  have h3 : μ.real (Iio c) ≤ q := by
    have := prob_lt_ppf (μ := μ) h0 h1
    rw [← hc] at this
    exact ENNReal.toReal_le_of_le_ofReal h0.le this
  rcases le_total a c with h | h
  · exact stock_of h0 h1 measurableSet_Iio (fun t => stock_convex_lt q t a c)
      (mul_nonneg (by linarith) (by linarith))
  · exact stock_of h0 h1 measurableSet_Iic (fun t => stock_convex q t a c)
      (mul_nonneg_of_nonpos_of_nonpos (by linarith) (by linarith))

section Joint

variable {Ω Θ A B : Type} [MeasurableSpace Ω] [MeasureSpace Θ] [SFinite (volume : Measure Θ)] [MeasurableSpace A]
  [MeasurableSpace B] {n : ℕ} {P : Measure Ω}
  {S : Set Θ} {prior : Θ → ℝ} {ν : Fin n → Measure A} [∀ i, SigmaFinite (ν i)] {D : Fin n → Set A}
  {f : Fin n → Θ → A → ℝ} {post : (Fin n → A) → Θ → ℝ} {priorLaw : Measure Θ} {model : Fin n → Θ → Measure A}
  {postLaw : (Fin n → A) → Measure Θ} {θ : Ω → Θ} {X : Ω → Fin n → A}
  (h : BayesModel S prior ν D f post priorLaw model postLaw)
include h

theorem BayesModel.predict_losses {Y : Ω → B} {new : Θ → Measure B} {pred : (Fin n → A) → Measure B} (hn : NewModel S new)
    (hp : DrawThenPredict P θ X Y priorLaw model new)
    (hmix : ∀ x, (∀ i, x i ∈ D i) → ∀ U, MeasurableSet U → pred x U = ∫⁻ t, new t U ∂postLaw x) :
    LossesKept P Y X pred := by
  refine lossesKept_of hp.measurable_new hp.past.measurable_data (h.predictions_kept hn hp hmix) fun C hC => ?_
  have := hn.finite
  have hJ := measurable_jointDens h.prior_meas h.meas
  obtain ⟨G, hG⟩ : ∃ G : Θ × (Fin n → A) → ENNReal, G = fun z => hn.kernel z.1 (C z.2) := ⟨_, rfl⟩
  have hE : MeasurableSet {z : (Θ × (Fin n → A)) × B | z.2 ∈ C z.1.2} :=
    (measurable_snd.prodMk measurable_fst.snd : Measurable fun z : (Θ × (Fin n → A)) × B => (z.2, z.1.2)) hC
  have hGm : Measurable G := by
    rw [hG]
    exact Kernel.measurable_kernel_prodMk_left (κ := hn.kernel.comap Prod.fst measurable_fst) hE
  have hCx : ∀ x, MeasurableSet (C x) := fun x =>
    (measurable_id.prodMk measurable_const : Measurable fun y : B => (y, x)) hC
  have hJG : Measurable fun z => jointDens prior f z * G z := hJ.mul hGm
  have hm : Measurable fun x => (∫⁻ t in S, jointDens prior f (t, x) * G (t, x)) / ∫⁻ t in S, jointDens prior f (t, x) :=
    (Measurable.lintegral_prod_left' hJG).div (Measurable.lintegral_prod_left' hJ)
  refine ⟨_, hm.comp hp.past.measurable_data, ?_⟩
  filter_upwards [h.ae_data hp.past] with ω hω
  obtain ⟨m0, m1, -⟩ := h.post_event (B := univ) MeasurableSet.univ hω
  have e : ∫⁻ t, new t (C (X ω)) ∂postLaw (X ω) = ∫⁻ t, G (t, X ω) ∂postLaw (X ω) := by
    refine lintegral_congr_ae ?_
    filter_upwards [h.post_ae hω] with t ht
    rw [hG]
    simp only [hn.kernel_apply ht]
  rw [hmix _ hω _ (hCx _), e]
  simp only [Function.comp]
  rw [← h.avg_post (G := fun t => G (t, X ω)) (hGm.comp (measurable_id.prodMk measurable_const)) hω,
    ENNReal.mul_div_cancel_right m0.ne' m1]

theorem BayesModel.predict_choices {Y : Ω → ℝ} {new : Θ → Measure ℝ} {pred : (Fin n → A) → Measure ℝ} (hn : NewModel S new)
    (hp : DrawThenPredict P θ X Y priorLaw model new)
    (hmix : ∀ x, (∀ i, x i ∈ D i) → ∀ U, MeasurableSet U → pred x U = ∫⁻ t, new t U ∂postLaw x) :
    RightChoices P Y X pred := by
  classical
  have hl := h.predict_losses hn hp hmix
  have hw := hl.decidesWell hp.past.measurable_data
  refine ⟨hl, hw, fun q h0 h1 rule hr => ?_⟩
  have hae : ∀ᵐ x ∂P.map X, ∀ i, x i ∈ D i := by
    rw [h.map_data hp.past]
    exact (withDensity_absolutelyContinuous _ _).ae_le h.ae_range
  have hm : AEMeasurable (fun x => ppf (pred x) q) (P.map X) := by
    refine ⟨_, h.measurable_quantile hn hmix h0 h1, ?_⟩
    filter_upwards [hae] with x hx
    rw [if_pos hx]
  refine hw ℝ (stockLoss q) (measurable_stockLoss q) (fun x => ppf (pred x) q) rule hm hr.aemeasurable ?_
  filter_upwards [h.ae_data hp.past] with ω hω b
  have := h.pred_prob hn hmix hω
  exact stock_ppf h0 h1 b

/-- predicting a count -/
theorem choices_disc {Y : Ω → ℤ} {d : Θ → Disc} (hd : DrawThenPredict P θ X Y priorLaw model fun t => discLaw (d t))
    (hm : ∀ k, Measurable fun t => (d t).pmf k)
    (h0 : ∀ t ∈ S, ∀ k, 0 ≤ (d t).pmf k) (hp : ∀ t ∈ S, IsProbabilityMeasure (discLaw (d t)))
    {pred : (Fin n → A) → Disc}
    (hpred : ∀ x, (∀ i, x i ∈ D i) → ∀ k, IsPredictive volume S (fun t => (d t).pmf k) (post x) ((pred x).pmf k)) :
    RightChoices P (fun ω => (Y ω : ℝ)) X fun x => discRealLaw (pred x) := by
  have hg := newDensity_disc hm h0 hp
  have hn := hg.newModel h.hS
  have hmix := h.mixes hg (pred := fun x => discLaw (pred x)) (pr := fun x k => (pred x).pmf k) (fun x _ => rfl)
    fun x hx => Filter.Eventually.of_forall (hpred x hx)
  have hc : Measurable fun k : ℤ => (k : ℝ) := measurable_of_countable _
  refine h.predict_choices (hn.map hc) (hd.map hc) fun x hx U hU => ?_
  rw [discRealLaw, Measure.map_apply hc hU, hmix x hx _ (hc hU)]
  simp only [Measure.map_apply hc hU]

/-- predicting a measured value in `T` -/
theorem choices_cont {Y : Ω → ℝ} {d : Θ → Cont} {T : Set ℝ} (hT : MeasurableSet T)
    (hd : DrawThenPredict P θ X Y priorLaw model fun t => contLaw (d t))
    (hm : Measurable fun q : Θ × ℝ => (d q.1).pdf q.2) (h0 : ∀ t ∈ S, ∀ y, 0 ≤ (d t).pdf y)
    (hl : ∀ t ∈ S, contLaw (d t) = lawOn T (d t).pdf) (hp : ∀ t ∈ S, IsProbabilityMeasure (contLaw (d t)))
    {pred : (Fin n → A) → ℝ → ℝ}
    (hpred : ∀ x, (∀ i, x i ∈ D i) → ∀ y ∈ T, IsPredictive volume S (fun t => (d t).pdf y) (post x) (pred x y)) :
    RightChoices P Y X fun x => lawOn T (pred x) := by
  have hg : NewDensity S (volume.restrict T) (fun t y => (d t).pdf y) fun t => contLaw (d t) := ⟨hm, h0, hl, hp⟩
  have hn := hg.newModel h.hS
  have hmix := h.mixes hg (pred := fun x => lawOn T (pred x)) (pr := pred) (fun x _ => rfl)
    fun x hx => by filter_upwards [ae_restrict_mem hT] with y hy using hpred x hx y hy
  exact h.predict_choices hn hd hmix

/-- predicting a value of any kind -/
theorem choices_density {Y : Ω → B} {κ : Measure B} [SFinite κ] {g : Θ → B → ℝ} {new : Θ → Measure B}
    (hg : NewDensity S κ g new)
    (hd : DrawThenPredict P θ X Y priorLaw model new) {pr : (Fin n → A) → B → ℝ}
    (hp : ∀ x, (∀ i, x i ∈ D i) → ∀ y, IsPredictive volume S (fun t => g t y) (post x) (pr x y)) :
    GoodChoices P Y X fun x => κ.withDensity fun y => ENNReal.ofReal (pr x y) := by
  have hl := h.predict_losses (hg.newModel h.hS) hd
    (h.mixes hg (pred := fun x => κ.withDensity fun y => ENNReal.ofReal (pr x y)) (fun _ _ => rfl)
      fun x hx => Filter.Eventually.of_forall (hp x hx))
  exact ⟨hl, hl.decidesWell hd.past.measurable_data⟩

end Joint

end Conj
