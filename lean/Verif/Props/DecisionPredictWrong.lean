import Verif.Props.DecisionPredict
import Verif.Props.PredictionWrong
import Mathlib.MeasureTheory.Function.Floor
import Mathlib.MeasureTheory.Integral.Layercake
import Mathlib.Analysis.SpecialFunctions.ImproperIntegrals

/-!
# C125: decisions about a new observation that are not the best

With `geometric_beta_predictive`, with `poisson_gamma_predictive` for other than one interval, and with
`exponential_gamma_predictive` after an update with the prior as documented.
-/

open MeasureTheory Set Real

namespace Conj

open Scipy Spec

variable {Ω : Type} [MeasurableSpace Ω] {P : Measure Ω} {n : ℕ}

/-! ## Counts -/

/-- C125 (disagreement). Losses computed from `geometric_beta_predictive` are not the losses suffered: never, in both
conventions. -/
theorem C125_geometric_beta_wrong (prior : Beta ℝ) (ha : 0 < prior.alpha) (hb : 0 < prior.beta) (one_start : Bool)
    {θ : Ω → ℝ} {X : Ω → Fin n → ℤ} {Y : Ω → ℤ}
    (h : DrawThenPredict P θ X Y (contLaw prior.dist) (fun _ p => discLaw (Geometric.dist ⟨p, one_start⟩))
      fun p => discLaw (Geometric.dist ⟨p, one_start⟩)) :
    ¬ LossesKept P Y X fun x => pmfLaw fun k : ℤ => (geometric_beta_predictive
      (geometric_beta (∑ i, (x i : ℝ)) (n : ℝ) prior one_start) one_start).pmf k := by
  intro hl
  have hc := hl.calibrated h.measurable_new h.past.measurable_data (fun _ => {((1 : ℕ) : ℤ)})
    (measurable_fst (measurableSet_singleton _))
  have hlt := C116_geometric_beta_too_low prior ha hb one_start h 1 fun _ => le_rfl
  refine hlt.ne' ((show P {ω | Y ω = ((1 : ℕ) : ℤ)} = P {ω | Y ω ∈ ({((1 : ℕ) : ℤ)} : Set ℤ)} from rfl).trans (hc.trans ?_))
  refine lintegral_congr fun ω => ?_
  beta_reduce
  rw [pmfLaw, withDensity_apply _ (measurableSet_singleton _)]
  simp

/-- C125 (disagreement). After Poisson counts, the decisions about the count in a window of `w` intervals that are taken
by `poisson_gamma_predictive(posterior, n=w)` rest on the right losses exactly for `w = 1`. -/
theorem C125_poisson_gamma_iff (prior : Gamma ℝ) (ha : 0 < prior.alpha) (hb : 0 < prior.beta) (w : ℝ) (hw : 0 < w)
    {θ : Ω → ℝ} {X : Ω → Fin n → ℤ} {Y : Ω → ℤ}
    (h : DrawThenPredict P θ X Y (contLaw prior.dist) (fun _ l => discLaw (Poisson.dist ⟨l⟩))
      fun l => discLaw (Poisson.dist ⟨w * l⟩)) :
    RightChoices P (fun ω => (Y ω : ℝ)) X (fun x => discRealLaw (poisson_gamma_predictive
      (poisson_gamma (∑ i, (x i : ℝ)) (n : ℝ) prior) w).dist) ↔ w = 1 := by
  have hcast : Measurable fun k : ℤ => (k : ℝ) := measurable_of_countable _
  constructor
  · rintro ⟨hl, -, -⟩
    refine (C116_poisson_gamma_iff prior ha hb w hw h).1 fun C hC => ?_
    have hcl := hl (fun z => ({z : ℤ × (Fin n → ℤ) | z.1 ∈ C z.2}.indicator fun _ => 1) (⌊z.1⌋, z.2))
      ((measurable_const.indicator hC).comp ((((Int.measurable_floor : Measurable (Int.floor : ℝ → ℤ))).comp measurable_fst).prodMk measurable_snd))
    have e1 : ∫⁻ ω, ({z : ℤ × (Fin n → ℤ) | z.1 ∈ C z.2}.indicator (fun _ => (1 : ENNReal))) (⌊(Y ω : ℝ)⌋, X ω) ∂P =
        P {ω | Y ω ∈ C (X ω)} := by
      simp only [Int.floor_intCast]
      have hz : Measurable fun ω => (Y ω, X ω) := h.measurable_new.prodMk h.past.measurable_data
      have := lintegral_indicator_const (μ := P) (hz hC) 1
      rw [one_mul] at this
      exact this
    rw [← e1]
    refine hcl.trans (lintegral_congr fun ω => ?_)
    have hg : Measurable fun t : ℝ => ({z : ℤ × (Fin n → ℤ) | z.1 ∈ C z.2}.indicator (fun _ => (1 : ENNReal)))
        (⌊t⌋, X ω) :=
      (measurable_const.indicator hC).comp (((Int.measurable_floor : Measurable (Int.floor : ℝ → ℤ))).prodMk measurable_const)
    beta_reduce
    rw [discRealLaw, lintegral_map hg hcast]
    simp only [Int.floor_intCast]
    have := lintegral_indicator_const (μ := discLaw (poisson_gamma_predictive
      (poisson_gamma (∑ i, (X ω i : ℝ)) (n : ℝ) prior) w).dist) (MeasurableSet.of_discrete (s := C (X ω))) 1
    rw [one_mul] at this
    exact this
  · rintro rfl
    exact poisson_gamma_choices prior ha hb one_pos (pred := fun d => (poisson_gamma_predictive d 1).dist)
      (fun d h1 h2 => C27_poisson_gamma_predictive_partial d h1 h2) h

/-! ## Waiting times -/

section Exponential

variable (prior : Gamma ℝ) (ha : 0 < prior.alpha) (hb : 0 < prior.beta)
include ha hb

/-- C125 (disagreement). With the prior as documented, decisions about a waiting time rest on the right losses exactly
when the prior's two parameters are equal. -/
theorem C125_exponential_gamma_iff {θ : Ω → ℝ} {X : Ω → Fin n → ℝ} {Y : Ω → ℝ}
    (h : DrawThenPredict P θ X Y (contLaw prior.dist) (fun _ r => contLaw (Exponential.dist ⟨1 / r⟩))
      fun r => contLaw (Exponential.dist ⟨1 / r⟩)) :
    RightChoices P Y X (fun x => lawOn (Ioi 0) (exponential_gamma_predictive
      (exponential_gamma (∑ i, x i) (n : ℝ) prior)).dist.pdf) ↔ prior.alpha = prior.beta := by
  constructor
  · rintro ⟨hl, -, -⟩
    exact (C116_exponential_gamma_iff prior ha hb h).1 (hl.calibrated h.measurable_new h.past.measurable_data)
  · intro he
    have e : prior = ⟨prior.beta, prior.alpha⟩ := by
      cases prior
      simp_all
    conv in exponential_gamma _ _ prior => rw [e]
    exact C125_exponential_gamma_swapped_partial prior ha hb h

end Exponential

theorem lomax_prob {s l : ℝ} (hs : 0 < s) (hl : 0 < l) : IsProbabilityMeasure (lawOn (Ioi 0) (Lomax.dist ⟨s, l⟩).pdf) := by
  constructor
  have h1 := lomax_tail ⟨s, l⟩ hs hl le_rfl
  have h2 : lawOn (Ioi 0) (Lomax.dist ⟨s, l⟩).pdf (Ioi 0)ᶜ = 0 := by
    have := ae_lawOn_mem (measurableSet_Ioi (a := (0 : ℝ))) (Lomax.dist ⟨s, l⟩).pdf
    rwa [ae_iff] at this
  rw [← union_compl_self (Ioi (0 : ℝ)), measure_union disjoint_compl_right measurableSet_Ioi.compl, h1, h2]
  simp [div_self hl.ne']

theorem lomax_cdf {s l : ℝ} (hs : 0 < s) (hl : 0 < l) {x : ℝ} (hx : 0 ≤ x) :
    (lawOn (Ioi 0) (Lomax.dist ⟨s, l⟩).pdf).real (Iic x) = 1 - ((l + x) / l) ^ (-s) := by
  have := lomax_prob hs hl
  rw [← compl_Ioi, probReal_compl_eq_one_sub measurableSet_Ioi, Measure.real, lomax_tail ⟨s, l⟩ hs hl hx,
    ENNReal.toReal_ofReal (rpow_nonneg (by positivity) _)]

theorem lomax_cdf_lt {s l x y : ℝ} (hs : 0 < s) (hl : 0 < l) (hx : 0 ≤ x) (hxy : x < y) :
    (lawOn (Ioi 0) (Lomax.dist ⟨s, l⟩).pdf).real (Iic x) < (lawOn (Ioi 0) (Lomax.dist ⟨s, l⟩).pdf).real (Iic y) := by
  rw [lomax_cdf hs hl hx, lomax_cdf hs hl (hx.trans hxy.le)]
  have h1 : 0 < (l + x) / l := by positivity
  have h2 : (l + x) / l < (l + y) / l := (div_lt_div_iff_of_pos_right hl).2 (by linarith)
  have := rpow_lt_rpow_of_neg h1 h2 (by linarith : -s < 0)
  linarith

/-- the quantile function of a waiting time -/
theorem lomax_ppf {s l q : ℝ} (hs : 0 < s) (hl : 0 < l) (h0 : 0 < q) (h1 : q < 1) :
    ppf (lawOn (Ioi 0) (Lomax.dist ⟨s, l⟩).pdf) q = l * ((1 - q) ^ (-(1 / s)) - 1) := by
  have := lomax_prob hs hl
  have hpos : 0 < l * ((1 - q) ^ (-(1 / s)) - 1) := by
    have : 1 < (1 - q) ^ (-(1 / s)) := one_lt_rpow_of_pos_of_lt_one_of_neg (by linarith) (by linarith) (by
      have : 0 < 1 / s := by positivity
      linarith)
    nlinarith
  have hc : (lawOn (Ioi 0) (Lomax.dist ⟨s, l⟩).pdf).real (Iic (l * ((1 - q) ^ (-(1 / s)) - 1))) = q := by
    rw [lomax_cdf hs hl hpos.le]
    have : (l + l * ((1 - q) ^ (-(1 / s)) - 1)) / l = (1 - q) ^ (-(1 / s)) := by field_simp; ring
    rw [this, ← rpow_mul (by linarith)]
    have : -(1 / s) * -s = 1 := by field_simp
    rw [this, rpow_one]
    ring
  refine le_antisymm ?_ ?_
  · rw [ppf_le_iff h0 h1, ENNReal.ofReal_le_iff_le_toReal (measure_ne_top _ _)]
    exact hc.ge
  · by_contra hlt
    push Not at hlt
    obtain ⟨b, hb1, hb2⟩ := exists_between (max_lt hlt hpos)
    have hb0 : 0 ≤ b := (le_max_right _ _).trans hb1.le
    have h2 := (ppf_le_iff (μ := lawOn (Ioi 0) (Lomax.dist ⟨s, l⟩).pdf) h0 h1 b).1 ((le_max_left _ _).trans hb1.le)
    rw [ENNReal.ofReal_le_iff_le_toReal (measure_ne_top _ _)] at h2
    have h3 := lomax_cdf_lt hs hl hb0 hb2
    rw [hc] at h3
    exact absurd h2 (not_le.2 h3)

/-- a stock other than the quantile costs strictly more -/
theorem lomax_stock_lt {s l q a : ℝ} (hs : 0 < s) (hl : 0 < l) (h0 : 0 < q) (h1 : q < 1)
    (ha : a ≠ ppf (lawOn (Ioi 0) (Lomax.dist ⟨s, l⟩).pdf) q)
    (hfin : ∫⁻ t, stockLoss q t (ppf (lawOn (Ioi 0) (Lomax.dist ⟨s, l⟩).pdf) q) ∂lawOn (Ioi 0) (Lomax.dist ⟨s, l⟩).pdf ≠ ⊤) :
    ∫⁻ t, stockLoss q t (ppf (lawOn (Ioi 0) (Lomax.dist ⟨s, l⟩).pdf) q) ∂lawOn (Ioi 0) (Lomax.dist ⟨s, l⟩).pdf <
      ∫⁻ t, stockLoss q t a ∂lawOn (Ioi 0) (Lomax.dist ⟨s, l⟩).pdf := by
  have := lomax_prob hs hl
  obtain ⟨μ, hμ⟩ : ∃ μ, μ = lawOn (Ioi 0) (Lomax.dist ⟨s, l⟩).pdf := ⟨_, rfl⟩
  have hc0 : 0 ≤ ppf μ q := by
    rw [hμ, lomax_ppf hs hl h0 h1]
    have : 1 < (1 - q) ^ (-(1 / s)) := one_lt_rpow_of_pos_of_lt_one_of_neg (by linarith) (by linarith) (by
      have : 0 < 1 / s := by positivity
      linarith)
    nlinarith
  have hmono : ∀ x y, 0 ≤ x → x < y → μ.real (Iic x) < μ.real (Iic y) := by
    rw [hμ]
    exact fun x y => lomax_cdf_lt hs hl
  rw [← hμ] at this ha hfin ⊢
  have hq1 : q ≤ μ.real (Iic (ppf μ q)) := by
    have := (ppf_le_iff (μ := μ) h0 h1 _).1 le_rfl
    exact (ENNReal.ofReal_le_iff_le_toReal (measure_ne_top μ _)).1 this
  obtain ⟨b, hb⟩ : ∃ b, 0 < (b - a) * (q - μ.real (Iic b)) := by
    rcases lt_or_gt_of_ne ha with hlt | hgt
    · obtain ⟨b, hb1, hb2⟩ := exists_between hlt
      refine ⟨b, mul_pos (by linarith) ?_⟩
      by_contra hn
      have h3 : q ≤ μ.real (Iic b) := by linarith
      exact absurd ((ppf_le_iff (μ := μ) h0 h1 b).2 ((ENNReal.ofReal_le_iff_le_toReal (measure_ne_top μ _)).2 h3)) (not_le.2 hb2)
    · obtain ⟨b, hb1, hb2⟩ := exists_between hgt
      have := hmono _ _ hc0 hb1
      exact ⟨b, mul_pos_of_neg_of_neg (by linarith) (by linarith)⟩
  by_cases htop : ∫⁻ t, stockLoss q t a ∂μ = ⊤
  · rw [htop]
    exact lt_top_iff_ne_top.2 hfin
  have nn : ∀ t a, 0 ≤ q * max (t - a) 0 + (1 - q) * max (a - t) 0 := fun t a =>
    add_nonneg (mul_nonneg h0.le (le_max_right _ _)) (mul_nonneg (by linarith) (le_max_right _ _))
  have hm : Measurable fun t => stockLoss q t b := by
    unfold stockLoss
    fun_prop
  have key : ∫⁻ t, stockLoss q t (ppf μ q) ∂μ + ENNReal.ofReal ((b - a) * (q - μ.real (Iic b))) ≤
      ∫⁻ t, stockLoss q t a ∂μ := by
    refine (add_le_add_left (stock_ppf h0 h1 b) _).trans ?_
    exact stock_gap h0 h1 htop b hb.le
  refine lt_of_lt_of_le ?_ key
  exact ENNReal.lt_add_right hfin (by simpa using hb)

theorem Spec.DrawThenPredict.forget {Θ A B : Type} [MeasurableSpace Θ] [MeasurableSpace A] [MeasurableSpace B] {θ : Ω → Θ}
    {X : Ω → Fin n → A} {Y : Ω → B} {prior : Measure Θ} {model : Fin n → Θ → Measure A} {new : Θ → Measure B}
    (h : DrawThenPredict P θ X Y prior model new) (hp : ∀ᵐ t ∂prior, ∀ i, IsProbabilityMeasure (model i t))
    (model' : Fin 0 → Θ → Measure A) :
    DrawThenPredict P θ (fun _ => (Fin.elim0 : Fin 0 → A)) Y prior model' new where
  past := {
    measurable_unknown := h.past.measurable_unknown
    measurable_data := measurable_const
    law := fun B hB => by
      have hm : Measurable fun z : Θ × (Fin n → A) => (z.1, (Fin.elim0 : Fin 0 → A)) := measurable_fst.prodMk measurable_const
      refine (h.past.law _ (hm hB)).trans (lintegral_congr_ae ?_)
      filter_upwards [hp] with t ht
      have : ∀ i, IsProbabilityMeasure (model' i t) := fun i => i.elim0
      have e : ∀ x : Fin 0 → A, x = Fin.elim0 := fun x => Subsingleton.elim _ _
      by_cases hb : (t, (Fin.elim0 : Fin 0 → A)) ∈ B
      · have e1 : {x : Fin n → A | (t, x) ∈ (fun z : Θ × (Fin n → A) => (z.1, (Fin.elim0 : Fin 0 → A))) ⁻¹' B} = univ := by
          ext x
          simp [hb]
        have e2 : {x : Fin 0 → A | (t, x) ∈ B} = univ := by
          ext x
          simp [e x, hb]
        rw [e1, e2, measure_univ, measure_univ]
      · have e1 : {x : Fin n → A | (t, x) ∈ (fun z : Θ × (Fin n → A) => (z.1, (Fin.elim0 : Fin 0 → A))) ⁻¹' B} = ∅ := by
          ext x
          simp [hb]
        have e2 : {x : Fin 0 → A | (t, x) ∈ B} = ∅ := by
          ext x
          simp [e x, hb]
        rw [e1, e2, measure_empty, measure_empty] }
  measurable_new := h.measurable_new
  law E hE := by
    have hm : Measurable fun z : (Θ × (Fin n → A)) × B => ((z.1.1, (Fin.elim0 : Fin 0 → A)), z.2) :=
      (measurable_fst.fst.prodMk measurable_const).prodMk measurable_snd
    refine (h.law _ (hm hE)).trans (lintegral_congr_ae ?_)
    filter_upwards [hp] with t ht
    have : ∀ i, IsProbabilityMeasure (model' i t) := fun i => i.elim0
    have e : ∀ x : Fin 0 → A, x = Fin.elim0 := fun x => Subsingleton.elim _ _
    have e2 : ∀ x : Fin 0 → A, {y | ((t, x), y) ∈ E} = {y | ((t, (Fin.elim0 : Fin 0 → A)), y) ∈ E} := fun x => by rw [e x]
    simp only [e2]
    rw [lintegral_const, measure_univ]
    have : ∀ x : Fin n → A, {y | ((t, x), y) ∈ (fun z : (Θ × (Fin n → A)) × B => ((z.1.1, (Fin.elim0 : Fin 0 → A)), z.2)) ⁻¹' E} =
        {y | ((t, (Fin.elim0 : Fin 0 → A)), y) ∈ E} := fun x => rfl
    simp only [this]
    rw [lintegral_const, measure_univ]

theorem lomax_mean_finite {s l : ℝ} (hs : 1 < s) (hl : 0 < l) :
    ∫⁻ t, ENNReal.ofReal t ∂lawOn (Ioi 0) (Lomax.dist ⟨s, l⟩).pdf ≠ ⊤ := by
  have hae := ae_lawOn_mem (measurableSet_Ioi (a := (0 : ℝ))) (Lomax.dist ⟨s, l⟩).pdf
  rw [lintegral_eq_lintegral_meas_lt (f := fun t : ℝ => t) _ (by filter_upwards [hae] with t ht using le_of_lt ht)
    measurable_id.aemeasurable]
  have e : ∀ t ∈ Ioi (0 : ℝ), lawOn (Ioi 0) (Lomax.dist ⟨s, l⟩).pdf {a | t < a} =
      ENNReal.ofReal ((1 / l) ^ (-s) * (t + l) ^ (-s)) := fun t ht => by
    have ht : 0 < t := ht
    refine (lomax_tail ⟨s, l⟩ (by simp only; linarith) hl ht.le).trans ?_
    simp only
    rw [← mul_rpow (by positivity) (by positivity)]
    congr 2
    ring
  rw [setLIntegral_congr_fun measurableSet_Ioi e]
  have hi : IntegrableOn (fun t : ℝ => (1 / l) ^ (-s) * (t + l) ^ (-s)) (Ioi 0) :=
    (integrableOn_add_rpow_Ioi_of_lt (by linarith) (by linarith)).const_mul _
  rw [← ofReal_integral_eq_lintegral_ofReal hi (by
    filter_upwards [ae_restrict_mem measurableSet_Ioi] with t ht
    have ht : 0 < t := ht
    positivity)]
  exact ENNReal.ofReal_ne_top

section Exponential

variable (prior : Gamma ℝ) (hb : 0 < prior.beta)
include hb

/-- C125 (disagreement). With the prior as documented and a finite average waiting time (`1 < alpha`): unless the prior's
two parameters are equal, whoever prepares for the `q` quantile of the predictive distribution suffers on average strictly more than with
the same call after the two parameters of the prior were entered in exchanged order. For every `q`. -/
theorem C125_exponential_gamma_costs_more (ha : 1 < prior.alpha) (hne : prior.alpha ≠ prior.beta) {θ : Ω → ℝ} {X : Ω → Fin n → ℝ}
    {Y : Ω → ℝ} (h : DrawThenPredict P θ X Y (contLaw prior.dist) (fun _ r => contLaw (Exponential.dist ⟨1 / r⟩))
      fun r => contLaw (Exponential.dist ⟨1 / r⟩)) (q : ℝ) (h0 : 0 < q) (h1 : q < 1) :
    ∫⁻ ω, stockLoss q (Y ω) (ppf (lawOn (Ioi 0) (exponential_gamma_predictive
      (exponential_gamma (∑ i, X ω i) (n : ℝ) ⟨prior.beta, prior.alpha⟩)).dist.pdf) q) ∂P <
    ∫⁻ ω, stockLoss q (Y ω) (ppf (lawOn (Ioi 0) (exponential_gamma_predictive
      (exponential_gamma (∑ i, X ω i) (n : ℝ) prior)).dist.pdf) q) ∂P := by
  have ha0 : 0 < prior.alpha := by linarith
  have hB := bayes_exponential (n := n) prior ha0 hb
  have hP := hB.prob h.past
  have hprior : ∀ᵐ t ∂contLaw prior.dist, t ∈ Ioi (0 : ℝ) := by
    rw [gamma_lawOn _ hb]
    exact ae_lawOn_mem measurableSet_Ioi _
  have hn : (0 : ℝ) ≤ n := by positivity
  obtain ⟨hl, hw, hst⟩ := exponential_choices prior ha0 hb h
  have e1 : ∀ x : Fin n → ℝ, exponential_gamma_predictive (exponential_gamma (∑ i, x i) (n : ℝ) prior) =
      ⟨prior.beta + n, prior.alpha + ∑ i, x i⟩ := fun x => rfl
  have e2 : ∀ x : Fin n → ℝ, exponential_gamma_predictive (exponential_gamma (∑ i, x i) (n : ℝ) ⟨prior.beta, prior.alpha⟩) =
      ⟨prior.alpha + n, prior.beta + ∑ i, x i⟩ := fun x => rfl
  simp only [e1, e2]
  have hX := h.past.measurable_data
  have hsum : Measurable fun x : Fin n → ℝ => ∑ i, x i := Finset.measurable_sum _ fun i _ => measurable_pi_apply i
  have hS : ∀ᵐ ω ∂P, 0 ≤ ∑ i, X ω i := by
    filter_upwards [hB.ae_data h.past] with ω hω
    exact Finset.sum_nonneg fun i _ => le_of_lt (hω i)
  have hfin : ∫⁻ ω, stockLoss q (Y ω) (ppf (lawOn (Ioi 0) (Lomax.dist ⟨prior.alpha + n, prior.beta + ∑ i, X ω i⟩).pdf) q) ∂P ≠ ⊤ := by
    refine ((hst q h0 h1 (fun _ => 0) measurable_const).trans_lt ?_).ne
    have h' := h.forget (by filter_upwards [hprior] with t ht using fun i => exponential_prob (one_div_pos.2 ht))
      (fun _ r => contLaw (Exponential.dist ⟨1 / r⟩))
    have hk := (exponential_choices prior ha0 hb h').1 (fun z => stockLoss q z.1 0)
      ((measurable_stockLoss q).comp (measurable_fst.prodMk measurable_const))
    refine hk.trans_lt ?_
    simp only [Finset.univ_eq_empty, Finset.sum_empty, add_zero, Nat.cast_zero, lintegral_const, measure_univ, mul_one]
    refine lt_of_le_of_lt (lintegral_mono_ae (g := fun t => ENNReal.ofReal t) ?_)
      (lt_top_iff_ne_top.2 (lomax_mean_finite ha hb))
    filter_upwards [ae_lawOn_mem (measurableSet_Ioi (a := (0 : ℝ))) (Lomax.dist ⟨prior.alpha, prior.beta⟩).pdf] with t ht
    have ht : 0 < t := ht
    refine ENNReal.ofReal_le_ofReal ?_
    rw [sub_zero, zero_sub, max_eq_left ht.le, max_eq_right (by linarith)]
    nlinarith
  have hq : ∀ s l : ℝ, 0 < s → 0 < l → ∀ᵐ ω ∂P, ppf (lawOn (Ioi 0) (Lomax.dist ⟨s, l + ∑ i, X ω i⟩).pdf) q =
      (l + ∑ i, X ω i) * ((1 - q) ^ (-(1 / s)) - 1) := fun s l h2 h3 => by
    filter_upwards [hS] with ω hω
    exact lomax_ppf h2 (by linarith) h0 h1
  have k : ∀ s l : ℝ, ∫⁻ ω, stockLoss q (Y ω) ((l + ∑ i, X ω i) * ((1 - q) ^ (-(1 / s)) - 1)) ∂P =
      ∫⁻ ω, ∫⁻ t, stockLoss q t ((l + ∑ i, X ω i) * ((1 - q) ^ (-(1 / s)) - 1))
        ∂lawOn (Ioi 0) (Lomax.dist ⟨prior.alpha + n, prior.beta + ∑ i, X ω i⟩).pdf ∂P := fun s l =>
    hl (fun z => stockLoss q z.1 ((l + ∑ i, z.2 i) * ((1 - q) ^ (-(1 / s)) - 1)))
      ((measurable_stockLoss q).comp (measurable_fst.prodMk
        (((hsum.comp measurable_snd).const_add l).mul_const _)))
  have r : ∀ s l : ℝ, 0 < s → 0 < l → ∫⁻ ω, stockLoss q (Y ω) (ppf (lawOn (Ioi 0) (Lomax.dist ⟨s, l + ∑ i, X ω i⟩).pdf) q) ∂P =
      ∫⁻ ω, ∫⁻ t, stockLoss q t ((l + ∑ i, X ω i) * ((1 - q) ^ (-(1 / s)) - 1))
        ∂lawOn (Ioi 0) (Lomax.dist ⟨prior.alpha + n, prior.beta + ∑ i, X ω i⟩).pdf ∂P := fun s l h2 h3 => by
    rw [← k]
    refine lintegral_congr_ae ?_
    filter_upwards [hq s l h2 h3] with ω hω
    rw [hω]
  have p1 : 0 < prior.alpha + n := by linarith
  have p2 : 0 < prior.beta + n := by linarith
  rw [r _ _ p1 hb] at hfin ⊢
  rw [r _ _ p2 ha0]
  have hmeas : ∀ s l : ℝ, AEMeasurable (fun ω => ∫⁻ t, stockLoss q t ((l + ∑ i, X ω i) * ((1 - q) ^ (-(1 / s)) - 1))
      ∂lawOn (Ioi 0) (Lomax.dist ⟨prior.alpha + n, prior.beta + ∑ i, X ω i⟩).pdf) P := fun s l => by
    have hj : Measurable fun z : (Fin n → ℝ) × ℝ => (Lomax.dist ⟨prior.alpha + n, prior.beta + ∑ i, z.1 i⟩).pdf z.2 :=
      measurable_loc_scale (loc := fun _ : Fin n → ℝ => 0) (scale := fun x : Fin n → ℝ => prior.beta + ∑ i, x i)
        (measurable_std_lomax _) measurable_const (hsum.const_add _)
    have hst : Measurable fun z : (Fin n → ℝ) × ℝ => stockLoss q z.2 ((l + ∑ i, z.1 i) * ((1 - q) ^ (-(1 / s)) - 1)) :=
      (measurable_stockLoss q).comp (measurable_snd.prodMk (((hsum.comp measurable_fst).const_add l).mul_const _))
    have e : ∀ x : Fin n → ℝ, ∫⁻ t, stockLoss q t ((l + ∑ i, x i) * ((1 - q) ^ (-(1 / s)) - 1))
        ∂lawOn (Ioi 0) (Lomax.dist ⟨prior.alpha + n, prior.beta + ∑ i, x i⟩).pdf =
        ∫⁻ t in Ioi 0, ENNReal.ofReal ((Lomax.dist ⟨prior.alpha + n, prior.beta + ∑ i, x i⟩).pdf t) *
          stockLoss q t ((l + ∑ i, x i) * ((1 - q) ^ (-(1 / s)) - 1)) := fun x => by
      have m1 : Measurable fun t => ENNReal.ofReal ((Lomax.dist ⟨prior.alpha + n, prior.beta + ∑ i, x i⟩).pdf t) :=
        (hj.comp (measurable_prodMk_left (x := x))).ennreal_ofReal
      have m2 : Measurable fun t => stockLoss q t ((l + ∑ i, x i) * ((1 - q) ^ (-(1 / s)) - 1)) :=
        hst.comp (measurable_prodMk_left (x := x))
      exact lintegral_withDensity_eq_lintegral_mul _ m1 m2
    have := (Measurable.lintegral_prod_right' (ν := volume.restrict (Ioi (0 : ℝ))) (hj.ennreal_ofReal.mul hst)).comp hX
    refine this.aemeasurable.congr (Filter.Eventually.of_forall fun ω => ?_)
    exact (e (X ω)).symm
  have hfin' := ae_lt_top' (hmeas _ _) hfin
  refine lintegral_strict_mono (IsProbabilityMeasure.ne_zero P) (hmeas _ _) hfin ?_
  · filter_upwards [hS, hfin'] with ω hω hf
    have p3 : 0 < prior.beta + ∑ i, X ω i := by linarith
    have hc := lomax_ppf (q := q) p1 p3 h0 h1
    rw [← hc] at hf ⊢
    refine lomax_stock_lt p1 p3 h0 h1 ?_ hf.ne
    rw [hc]
    have hu : 1 < (1 - q)⁻¹ := (one_lt_inv₀ (by linarith)).2 (by linarith)
    have hr : ∀ s : ℝ, (1 - q) ^ (-(1 / s)) = (1 - q)⁻¹ ^ (1 / s) := fun s => by
      rw [rpow_neg (by linarith), inv_rpow (by linarith)]
    rw [hr, hr]
    have hone : ∀ s : ℝ, 0 < s → 1 < (1 - q)⁻¹ ^ (1 / s) := fun s hs => one_lt_rpow hu (by positivity)
    have q1 := hone _ p1
    have q2 := hone _ p2
    rcases lt_or_gt_of_ne hne with hlt | hgt
    · have := rpow_lt_rpow_of_exponent_lt hu (one_div_lt_one_div_of_lt p1 (by linarith : prior.alpha + n < prior.beta + n))
      refine ne_of_lt ?_
      refine mul_lt_mul'' (by linarith) (by linarith) (by linarith) (by linarith)
    · have := rpow_lt_rpow_of_exponent_lt hu (one_div_lt_one_div_of_lt p2 (by linarith : prior.beta + n < prior.alpha + n))
      refine ne_of_gt ?_
      refine mul_lt_mul'' (by linarith) (by linarith) (by linarith) (by linarith)

end Exponential

/-- the setting exists: waiting times with the prior `Gamma(alpha=3, beta=1)` -/
example : ∃ (Ω : Type) (_ : MeasurableSpace Ω) (P : Measure Ω) (θ : Ω → ℝ) (X : Ω → Fin 3 → ℝ) (Y : Ω → ℝ),
    DrawThenPredict P θ X Y (contLaw (Gamma.dist ⟨3, 1⟩)) (fun _ r => contLaw (Exponential.dist ⟨1 / r⟩))
      (fun r => contLaw (Exponential.dist ⟨1 / r⟩)) ∧
    ∫⁻ ω, stockLoss (9 / 10) (Y ω) (ppf (lawOn (Ioi 0) (exponential_gamma_predictive
      (exponential_gamma (∑ i, X ω i) ((3 : ℕ) : ℝ) ⟨1, 3⟩)).dist.pdf) (9 / 10)) ∂P <
    ∫⁻ ω, stockLoss (9 / 10) (Y ω) (ppf (lawOn (Ioi 0) (exponential_gamma_predictive
      (exponential_gamma (∑ i, X ω i) ((3 : ℕ) : ℝ) ⟨3, 1⟩)).dist.pdf) (9 / 10)) ∂P := by
  obtain ⟨Ω, i, P, θ, X, Y, h⟩ := (bayes_exponential (n := 3) ⟨3, 1⟩ three_pos one_pos).exists_again 0
  exact ⟨Ω, i, P, θ, X, Y, h, C125_exponential_gamma_costs_more ⟨3, 1⟩ one_pos (by norm_num) (by norm_num) h _
    (by norm_num) (by norm_num)⟩

end Conj
