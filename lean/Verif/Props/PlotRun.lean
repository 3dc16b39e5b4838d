import Verif.Lemmas.PlotRun
import Verif.Lemmas.Cdf
import Verif.Props.CalibrationExponential
import Mathlib.Probability.ConditionalProbability

/-!
# C117: what is drawn is the distribution
-/

open MeasureTheory Set

namespace Conj

open Scipy Spec NdArr

variable {D : Type → Type}

theorem xValues_of_max {s : PlotState ℝ} {hi : ℝ} (h : s.max = some hi) (grid : ℝ → ℝ → List ℝ) :
    s.xValues grid = .ok (grid (s.min.getD 0) hi) := by
  have h1 : s.minValue.1 = s.min.getD 0 := by
    unfold PlotState.minValue
    split <;> simp_all
  have h2 : s.minValue.2.maxValue = .ok hi := by
    have : s.minValue.2.max = some hi := by
      unfold PlotState.minValue
      split <;> simp_all
    rw [PlotState.maxValue, this]
  simp [PlotState.xValues, h1, h2, bind, Except.bind, pure, Except.pure]

theorem map_id' (a : NdArr ℝ) : a.map (fun x => x) = a := rfl

theorem plotContinuous_eq [Plottable D] {d : D Field} {k : ℕ} (hd : Objects d k) {s : PlotState ℝ} {hi : ℝ}
    (hs : s.max = some hi) (f : D ℝ → ℝ → ℝ) {label : Option Label} (hl : LabelOk label k) :
    plotContinuous (.ok f) s d label =
      .ok (picture (continuousXValues (s.min.getD 0) hi) k label fun j => f (nth d j)) := by
  obtain ⟨yy, h1, h2⟩ := table_of_object hd f (continuousXValues (s.min.getD 0) hi)
  have h3 := h2 (fun x => x) label hl
  rw [map_id'] at h3
  simp only [plotContinuous, xValues_of_max hs, h1, bind, Except.bind] at h3 ⊢
  exact h3

theorem plotDiscrete_eq [Plottable D] {d : D Field} {k : ℕ} (hd : Objects d k) {s : PlotState ℝ} {hi : ℝ}
    (hs : s.max = some hi) (f : D ℝ → ℝ → ℝ) {label : Option Label} (hl : LabelOk label k) :
    plotDiscrete (.ok f) s d false label =
      .ok (picture (discreteXValues (s.min.getD 0) hi) k label fun j => f (nth d j)) := by
  obtain ⟨yy, h1, h2⟩ := table_of_object hd f (discreteXValues (s.min.getD 0) hi)
  have h3 := h2 (fun x => x) label hl
  rw [map_id'] at h3
  simp only [plotDiscrete, xValues_of_max hs, h1, bind, Except.bind, Bool.false_eq_true, if_false] at h3 ⊢
  exact h3

/-- C117 `plot_pdf`: for every continuous class, every object that stands for `k` distributions (floats, other numbers,
vectors, rows), every bounds and label, `k` lines are drawn; line `j` is the density of distribution `j` over the 100
points between the bounds and has its label. -/
theorem C117_plot_pdf [ContPlot D] (d : D Field) (k : ℕ) (hd : Objects d k) (s : PlotState ℝ) (hi : ℝ)
    (hs : s.max = some hi) (label : Option Label) (hl : LabelOk label k) :
    plot_pdf s d label =
      .ok (picture (continuousXValues (s.min.getD 0) hi) k label fun j => ContPlot.pdf (nth d j)) :=
  plotContinuous_eq hd hs _ hl

/-- C117 `plot_pmf`: the same for every discrete class, over `min, min + 1, ..., max` -/
theorem C117_plot_pmf [DiscPlot D] (d : D Field) (k : ℕ) (hd : Objects d k) (s : PlotState ℝ) (hi : ℝ)
    (hs : s.max = some hi) (label : Option Label) (hl : LabelOk label k) :
    plot_pmf s d false label =
      .ok (picture (discreteXValues (s.min.getD 0) hi) k label fun j => DiscPlot.pmf (nth d j)) :=
  plotDiscrete_eq hd hs _ hl

/-- two beta distributions, one of them given by an `int` -/
noncomputable def twoBetas : Beta Field :=
  { alpha := .array { rshape := [2], get := fun idx => if idx = [0] then 1 else 3 }, beta := .number 2 }

theorem twoBetas_objects : Objects twoBetas 2 := by
  refine .inr ⟨two_pos, ?_, ?_⟩
  · intro F hF
    have hF : F = twoBetas.alpha ∨ F = twoBetas.beta := by simpa [Plottable.params] using hF
    rcases hF with rfl | rfl <;> simp [twoBetas, Field.arr, NdArr.scalar, FitsIn]
  · exact ⟨twoBetas.alpha, by simp [Plottable.params], rfl⟩

/-- a legend with two entries; the second line is the density of `Beta(3, 2)` -/
example : plot_pdf unitPostInit twoBetas (some (.str "arm")) = .ok
    [{ points := curve (continuousXValues 0 1) (Beta.dist ⟨1, 2⟩).pdf, label := .str "arm 1" },
     { points := curve (continuousXValues 0 1) (Beta.dist ⟨3, 2⟩).pdf, label := .str "arm 2" }] := by
  rw [C117_plot_pdf twoBetas 2 twoBetas_objects unitPostInit 1 rfl _ (by simp [LabelOk, LabelFits])]
  simp [picture, List.range_succ, lineLabel, nthLabel, ContPlot.pdf, nth, fmap, entry, twoBetas, Field.arr, NdArr.scalar, atIdx,
    proj, unitPostInit]
  decide

/-! ## Cumulative distribution functions -/

/-- C117 `plot_cdf`, continuous classes: line `j` is the probability, under distribution `j`, of a value up to `x`. -/
theorem plot_cdf_prob [ContPlot D] (dist : D ℝ → Cont) (hc : ContPlot.cdf (D := D) = .ok fun d => (dist d).cdf)
    (d : D Field) (k : ℕ) (hd : Objects d k) (hm : ∀ j < k, Measurable (dist (nth d j)).pdf)
    (h0 : ∀ j < k, ∀ x, 0 ≤ (dist (nth d j)).pdf x) (s : PlotState ℝ) (hi : ℝ) (hs : s.max = some hi)
    (label : Option Label) (hl : LabelOk label k) :
    plot_cdf s d label = .ok (picture (continuousXValues (s.min.getD 0) hi) k label fun j x =>
      (contLaw (dist (nth d j))).real (Iic x)) := by
  rw [plot_cdf, hc, plotContinuous_eq hd hs _ hl]
  congr 1
  refine List.map_congr_left fun j hj => ?_
  have hj := List.mem_range.1 hj
  simp only [Line.mk.injEq, and_true, curve]
  exact List.map_congr_left fun x _ => by rw [cont_cdf (hm j hj) (h0 j hj)]

theorem plot_cdf_discrete_prob [DiscPlot D] (dist : D ℝ → Disc) (hc : DiscPlot.cdf (D := D) = .ok fun d => (dist d).cdf)
    (d : D Field) (k : ℕ) (hd : Objects d k) (hp : ∀ j < k, IsProbabilityMeasure (discLaw (dist (nth d j))))
    (h0 : ∀ j < k, ∀ x, 0 ≤ (dist (nth d j)).pmf x) (s : PlotState ℝ) (hi : ℝ) (hs : s.max = some hi)
    (label : Option Label) (hl : LabelOk label k) :
    plot_cdf_discrete s d false label = .ok (picture (discreteXValues (s.min.getD 0) hi) k label fun j x =>
      (discRealLaw (dist (nth d j))).real (Iic x)) := by
  rw [plot_cdf_discrete, hc, plotDiscrete_eq hd hs _ hl]
  congr 1
  refine List.map_congr_left fun j hj => ?_
  have hj := List.mem_range.1 hj
  simp only [Line.mk.injEq, and_true, curve]
  exact List.map_congr_left fun x _ => by rw [disc_cdf (h0 j hj) (hp j hj)]

theorem measurable_pareto_std (a : ℝ) : Measurable fun x : ℝ => (Family.pareto a).std x :=
  measurable_std_pareto.comp (measurable_const.prodMk measurable_id)

theorem binomial_mk {d : Binomial ℝ} {m : ℕ} (h : d.n = m) : d = ⟨(m : ℝ), d.p⟩ := by cases d; simp_all

theorem betabinom_mk {d : BetaBinomial ℝ} {m : ℕ} (h : d.n = m) : d = ⟨(m : ℝ), d.alpha, d.beta⟩ := by
  cases d; simp_all

section cdf
variable (k : ℕ) (s : PlotState ℝ) (hi : ℝ) (hs : s.max = some hi) (label : Option Label) (hl : LabelOk label k)
include hs hl

/-- C117 `Beta.plot_cdf` -/
theorem C117_cdf_beta (d : Beta Field) (hd : Objects d k) (hv : ∀ j < k, 0 < (nth d j).alpha ∧ 0 < (nth d j).beta) :
    plot_cdf s d label = .ok (picture (continuousXValues (s.min.getD 0) hi) k label fun j x =>
      (contLaw (nth d j).dist).real (Iic x)) :=
  plot_cdf_prob Beta.dist rfl d k hd (fun _ _ => measurable_pdf (measurable_std_beta _ _) _ _)
    (fun j hj => beta_pdf_nonneg (hv j hj).1 (hv j hj).2) s hi hs label hl

/-- C117 `Gamma.plot_cdf` -/
theorem C117_cdf_gamma (d : Gamma Field) (hd : Objects d k) (hv : ∀ j < k, 0 < (nth d j).alpha ∧ 0 < (nth d j).beta) :
    plot_cdf s d label = .ok (picture (continuousXValues (s.min.getD 0) hi) k label fun j x =>
      (contLaw (nth d j).dist).real (Iic x)) :=
  plot_cdf_prob Gamma.dist rfl d k hd (fun _ _ => measurable_pdf (measurable_std_gamma _) _ _)
    (fun j hj => gamma_pdf_nonneg (hv j hj).1 (hv j hj).2) s hi hs label hl

/-- C117 `InverseGamma.plot_cdf` -/
theorem C117_cdf_inverse_gamma (d : InverseGamma Field) (hd : Objects d k) (hv : ∀ j < k, 0 < (nth d j).alpha ∧ 0 < (nth d j).beta) :
    plot_cdf s d label = .ok (picture (continuousXValues (s.min.getD 0) hi) k label fun j x =>
      (contLaw (nth d j).dist).real (Iic x)) :=
  plot_cdf_prob InverseGamma.dist rfl d k hd (fun _ _ => measurable_pdf (measurable_std_invgamma _) _ _)
    (fun j hj => invgamma_pdf_nonneg (hv j hj).1 (hv j hj).2) s hi hs label hl

/-- C117 `Exponential.plot_cdf` -/
theorem C117_cdf_exponential (d : Exponential Field) (hd : Objects d k) (hv : ∀ j < k, 0 < (nth d j).lam) :
    plot_cdf s d label = .ok (picture (continuousXValues (s.min.getD 0) hi) k label fun j x =>
      (contLaw (nth d j).dist).real (Iic x)) :=
  plot_cdf_prob Exponential.dist rfl d k hd (fun _ _ => measurable_pdf measurable_std_expon _ _)
    (fun j hj => exponential_pdf_nonneg (hv j hj)) s hi hs label hl

/-- C117 `Normal.plot_cdf` -/
theorem C117_cdf_normal (d : Normal Field) (hd : Objects d k) (hv : ∀ j < k, 0 < (nth d j).sigma) :
    plot_cdf s d label = .ok (picture (continuousXValues (s.min.getD 0) hi) k label fun j x =>
      (contLaw (nth d j).dist).real (Iic x)) :=
  plot_cdf_prob Normal.dist rfl d k hd (fun _ _ => measurable_pdf measurable_std_norm _ _)
    (fun j hj => normal_pdf_nonneg _ (hv j hj)) s hi hs label hl

/-- C117 `Pareto.plot_cdf` -/
theorem C117_cdf_pareto (d : Pareto Field) (hd : Objects d k) (hv : ∀ j < k, 0 < (nth d j).x_m ∧ 0 < (nth d j).alpha) :
    plot_cdf s d label = .ok (picture (continuousXValues (s.min.getD 0) hi) k label fun j x =>
      (contLaw (nth d j).dist).real (Iic x)) :=
  plot_cdf_prob Pareto.dist rfl d k hd (fun _ _ => measurable_pdf (measurable_pareto_std _) _ _)
    (fun j hj => pareto_pdf_nonneg (hv j hj).1 (hv j hj).2) s hi hs label hl

/-- C117 `Weibull.plot_cdf` -/
theorem C117_cdf_weibull (d : Weibull Field) (hd : Objects d k) (hv : ∀ j < k, 0 < (nth d j).beta ∧ 0 < (nth d j).theta) :
    plot_cdf s d label = .ok (picture (continuousXValues (s.min.getD 0) hi) k label fun j x =>
      (contLaw (nth d j).dist).real (Iic x)) :=
  plot_cdf_prob Weibull.dist rfl d k hd (fun _ _ => measurable_pdf (measurable_std_weibull _) _ _)
    (fun j hj => weibull_pdf_nonneg (hv j hj).1 (hv j hj).2) s hi hs label hl

/-- C117 `Uniform.plot_cdf` -/
theorem C117_cdf_uniform (d : Uniform Field) (hd : Objects d k) (hv : ∀ j < k, 0 < (nth d j).high) :
    plot_cdf s d label = .ok (picture (continuousXValues (s.min.getD 0) hi) k label fun j x =>
      (contLaw (nth d j).dist).real (Iic x)) :=
  plot_cdf_prob Uniform.dist rfl d k hd (fun _ _ => measurable_pdf measurable_std_uniform _ _)
    (fun j hj => uniform_pdf_nonneg (hv j hj)) s hi hs label hl

/-- C117 `Lomax.plot_cdf` -/
theorem C117_cdf_lomax (d : Lomax Field) (hd : Objects d k) (hv : ∀ j < k, 0 < (nth d j).alpha ∧ 0 < (nth d j).lam) :
    plot_cdf s d label = .ok (picture (continuousXValues (s.min.getD 0) hi) k label fun j x =>
      (contLaw (nth d j).dist).real (Iic x)) :=
  plot_cdf_prob Lomax.dist rfl d k hd (fun _ _ => measurable_pdf (measurable_std_lomax _) _ _)
    (fun j hj => lomax_pdf_nonneg (hv j hj).1 (hv j hj).2) s hi hs label hl

/-- C117 `StudentT.plot_cdf` -/
theorem C117_cdf_student_t (d : StudentT Field) (hd : Objects d k) (hv : ∀ j < k, 0 < (nth d j).sigma ∧ 0 < (nth d j).nu) :
    plot_cdf s d label = .ok (picture (continuousXValues (s.min.getD 0) hi) k label fun j x =>
      (contLaw (nth d j).dist).real (Iic x)) :=
  plot_cdf_prob StudentT.dist rfl d k hd (fun _ _ => measurable_pdf (measurable_std_t _) _ _)
    (fun j hj => student_pdf_nonneg _ (hv j hj).1 (hv j hj).2) s hi hs label hl

/-- C117 `LogNormal.plot_cdf` -/
theorem C117_cdf_log_normal (d : LogNormal Field) (hd : Objects d k) (hv : ∀ j < k, 0 < (nth d j).sigma) :
    plot_cdf s d label = .ok (picture (continuousXValues (s.min.getD 0) hi) k label fun j x =>
      (contLaw (nth d j).dist).real (Iic x)) :=
  plot_cdf_prob LogNormal.dist rfl d k hd (fun _ _ => measurable_pdf (measurable_std_lognorm _) _ _)
    (fun j hj => log_normal_pdf_nonneg _ (hv j hj)) s hi hs label hl

/-- C117 `ScaledInverseChiSquared.plot_cdf` -/
theorem C117_cdf_scaled_inverse_chi_squared (d : ScaledInverseChiSquared Field) (hd : Objects d k) (hv : ∀ j < k, 0 < (nth d j).nu ∧ 0 < (nth d j).sigma2) :
    plot_cdf s d label = .ok (picture (continuousXValues (s.min.getD 0) hi) k label fun j x =>
      (contLaw (nth d j).dist).real (Iic x)) :=
  plot_cdf_prob ScaledInverseChiSquared.dist rfl d k hd (fun _ _ => measurable_pdf (measurable_std_invgamma _) _ _)
    (fun j hj => scaled_pdf_nonneg (hv j hj).1 (hv j hj).2) s hi hs label hl

/-- C117 `Poisson.plot_cdf` -/
theorem C117_cdf_poisson (d : Poisson Field) (hd : Objects d k) (hv : ∀ j < k, 0 ≤ (nth d j).lam) :
    plot_cdf_discrete s d false label = .ok (picture (discreteXValues (s.min.getD 0) hi) k label fun j x =>
      (discRealLaw (nth d j).dist).real (Iic x)) :=
  plot_cdf_discrete_prob Poisson.dist rfl d k hd (fun j hj => poisson_prob (hv j hj))
    (fun j hj => poisson_nonneg _ (hv j hj)) s hi hs label hl

/-- C117 `Geometric.plot_cdf` -/
theorem C117_cdf_geometric (d : Geometric Field) (hd : Objects d k) (hv : ∀ j < k, 0 < (nth d j).p ∧ (nth d j).p ≤ 1) :
    plot_cdf_discrete s d false label = .ok (picture (discreteXValues (s.min.getD 0) hi) k label fun j x =>
      (discRealLaw (nth d j).dist).real (Iic x)) :=
  plot_cdf_discrete_prob Geometric.dist rfl d k hd (fun j hj => geometric_prob (hv j hj).1 (hv j hj).2 _)
    (fun j hj => geometric_nonneg (hv j hj).1.le (hv j hj).2 _) s hi hs label hl

/-- C117 `NegativeBinomial.plot_cdf` -/
theorem C117_cdf_negative_binomial (d : NegativeBinomial Field) (hd : Objects d k) (hv : ∀ j < k, 0 < (nth d j).n ∧ 0 < (nth d j).p ∧ (nth d j).p ≤ 1) :
    plot_cdf_discrete s d false label = .ok (picture (discreteXValues (s.min.getD 0) hi) k label fun j x =>
      (discRealLaw (nth d j).dist).real (Iic x)) :=
  plot_cdf_discrete_prob NegativeBinomial.dist rfl d k hd (fun j hj => nb_prob (hv j hj).1 (hv j hj).2.1 (hv j hj).2.2)
    (fun j hj => nb_nonneg _ _ (hv j hj).1 (hv j hj).2.1.le (hv j hj).2.2) s hi hs label hl

/-- C117 `Binomial.plot_cdf` -/
theorem C117_cdf_binomial (d : Binomial Field) (hd : Objects d k) (hv : ∀ j < k, (∃ m : ℕ, (nth d j).n = m) ∧ 0 ≤ (nth d j).p ∧ (nth d j).p ≤ 1) :
    plot_cdf_discrete s d false label = .ok (picture (discreteXValues (s.min.getD 0) hi) k label fun j x =>
      (discRealLaw (nth d j).dist).real (Iic x)) :=
  plot_cdf_discrete_prob Binomial.dist rfl d k hd (fun j hj => by
    obtain ⟨⟨m, e⟩, h0, h1⟩ := hv j hj
    rw [binomial_mk e]; exact binomial_prob m h0 h1)
    (fun j hj => by
    obtain ⟨⟨m, e⟩, h0, h1⟩ := hv j hj
    rw [binomial_mk e]; exact binomial_nonneg m h0 h1) s hi hs label hl

/-- C117 `BetaBinomial.plot_cdf` -/
theorem C117_cdf_beta_binomial (d : BetaBinomial Field) (hd : Objects d k) (hv : ∀ j < k, (∃ m : ℕ, (nth d j).n = m) ∧ 0 < (nth d j).alpha ∧ 0 < (nth d j).beta) :
    plot_cdf_discrete s d false label = .ok (picture (discreteXValues (s.min.getD 0) hi) k label fun j x =>
      (discRealLaw (nth d j).dist).real (Iic x)) :=
  plot_cdf_discrete_prob BetaBinomial.dist rfl d k hd (fun j hj => by
    obtain ⟨⟨m, e⟩, h0, h1⟩ := hv j hj
    rw [betabinom_mk e]; exact betabinom_prob m h0 h1)
    (fun j hj => by
    obtain ⟨⟨m, e⟩, h0, h1⟩ := hv j hj
    rw [betabinom_mk e]; exact betabinom_nonneg m h0 h1) s hi hs label hl

end cdf

/-- the two curves end at one: `Beta(1, 2)` and `Beta(3, 2)` put all their mass below `1` -/
example : ∃ lines, plot_cdf unitPostInit twoBetas (some (.iter ["a", "b"])) = .ok lines ∧
    lines.map Line.label = [.str "a", .str "b"] ∧ ∀ l ∈ lines, (l.points.getLast?.map Prod.snd) = some 1 := by
  have hv : ∀ j < 2, 0 < (nth twoBetas j).alpha ∧ 0 < (nth twoBetas j).beta := by
    intro j _
    simp only [nth, fmap, entry, twoBetas, Field.arr, NdArr.scalar, atIdx]
    constructor
    · split_ifs <;> norm_num
    · norm_num
  refine ⟨_, C117_cdf_beta 2 unitPostInit 1 rfl _ (by simp [LabelOk, LabelFits]) twoBetas twoBetas_objects hv, ?_, ?_⟩
  · simp [picture, List.range_succ, lineLabel, nthLabel]
  · intro l hl
    obtain ⟨j, hj, rfl⟩ := List.mem_map.1 hl
    have hx : (continuousXValues (unitPostInit.min.getD 0) 1).getLast? = some (1 : ℝ) := by
      simp [continuousXValues, linspace, unitPostInit, List.getLast?_eq_getElem?]
    simp only [curve, List.getLast?_map, hx, Option.map_some, Option.some.injEq]
    have ha := hv j (List.mem_range.1 hj)
    have := lawOn_prob measurableSet_Ioo (Beta.isDensity (nth twoBetas j) ha.1 ha.2)
    rw [← beta_lawOn] at this
    have h1 : ∀ᵐ x ∂contLaw (nth twoBetas j).dist, x ∈ Ioo (0 : ℝ) 1 := by
      rw [beta_lawOn]
      exact ae_lawOn_mem measurableSet_Ioo _
    have h2 : contLaw (nth twoBetas j).dist (Iic 1) = 1 := by
      rw [← prob_compl_eq_zero_iff measurableSet_Iic]
      exact h1.mono fun x hx => hx.2.le
    rw [Measure.real, h2]
    rfl

/-! ## Conditional plots -/

/-- C117 `conditional=True`: every value is divided by one number, the sum over all points and all distributions
(not zero, otherwise numpy's result is `nan`). -/
theorem C117_plot_pmf_conditional [DiscPlot D] (d : D Field) (k : ℕ) (hd : Objects d k) (s : PlotState ℝ) (hi : ℝ)
    (hs : s.max = some hi) (label : Option Label) (hl : LabelOk label k)
    (_h0 : ∑ i ∈ Finset.range k, ((discreteXValues (s.min.getD 0) hi).map (DiscPlot.pmf (nth d i))).sum ≠ 0) :
    plot_pmf s d true label = .ok (picture (discreteXValues (s.min.getD 0) hi) k label fun j x =>
      DiscPlot.pmf (nth d j) x /
        ∑ i ∈ Finset.range k, ((discreteXValues (s.min.getD 0) hi).map (DiscPlot.pmf (nth d i))).sum) := by
  obtain ⟨yy, h1, h2⟩ := table_of_object hd DiscPlot.pmf (discreteXValues (s.min.getD 0) hi)
  have h3 := h2 (fun x => x / npSum yy) label hl
  rw [npSum_object hd _ _ h1] at h3
  rw [← h3]
  simp only [plot_pmf, plotDiscrete, xValues_of_max hs, h1, bind, Except.bind, if_true]
  rw [npSum_object hd _ _ h1]

theorem sum_pmf_grid {p : Disc} (h0 : ∀ k, 0 ≤ p.pmf k) (a : ℤ) (n : ℕ) :
    ((discreteXValues a (a + n)).map p.pmfAt).sum = (discRealLaw p).real (Icc (a : ℝ) (a + n)) := by
  rw [mass_Icc h0, (C62_discrete_grid_partial (a : ℝ) (a + n) n (by ring)).1, List.map_map]
  change ∑ i ∈ Finset.range (n + 1), p.pmfAt ((a : ℝ) + (i : ℝ)) = _
  refine Finset.sum_congr rfl fun i _ => ?_
  have := pmfAt_int p (a + i)
  push_cast at this
  exact this

/-- C117 `plot_pmf(conditional=True)` of one distribution with integer bounds: the conditional probabilities given that
the value is within the bounds. -/
theorem C117_conditional_one [DiscPlot D] (dist : D ℝ → Disc) (hp : DiscPlot.pmf (D := D) = fun d => (dist d).pmfAt)
    (d : D Field) (hd : Objects d 1) (h0 : ∀ k, 0 ≤ (dist (nth d 0)).pmf k) (s : PlotState ℝ) (a : ℤ) (n : ℕ)
    (hlo : s.min.getD 0 = a) (hs : s.max = some (a + n : ℝ)) (label : Option Label) (hl : LabelOk label 1)
    (hpos : (discRealLaw (dist (nth d 0))).real (Icc (a : ℝ) (a + n)) ≠ 0) :
    plot_pmf s d true label = .ok (picture (discreteXValues a (a + n)) 1 label fun _ x =>
      (ProbabilityTheory.cond (discRealLaw (dist (nth d 0))) (Icc (a : ℝ) (a + n))).real {x}) := by
  rw [C117_plot_pmf_conditional d 1 hd s _ hs label hl (by simpa [hp, hlo, sum_pmf_grid h0] using hpos), hlo,
    Finset.sum_range_one]
  simp only [hp, sum_pmf_grid h0]
  congr 1
  refine List.map_congr_left fun j hj => ?_
  obtain rfl : j = 0 := by simpa using hj
  simp only [Line.mk.injEq, and_true, curve]
  refine List.map_congr_left fun x hx => ?_
  have hmem : x ∈ Icc (a : ℝ) (a + n) := by
    rw [(C62_discrete_grid_partial (a : ℝ) (a + n) n (by ring)).1] at hx
    obtain ⟨i, hi, rfl⟩ := List.mem_map.1 hx
    have : (i : ℝ) ≤ n := by
      have := List.mem_range.1 hi
      exact_mod_cast Nat.lt_succ_iff.1 this
    constructor <;> [(have : (0 : ℝ) ≤ i := by positivity); skip] <;> linarith
  rw [pmfAt_real h0, Measure.real, Measure.real, Measure.real, ProbabilityTheory.cond_apply measurableSet_Icc,
    inter_eq_right.2 (singleton_subset_iff.2 hmem), ENNReal.toReal_mul, ENNReal.toReal_inv]
  ring_nf

/-- the theorem applies to the classes that use SciPy's `pmf`: a Poisson distribution between 1 and 3 -/
example : plot_pmf { min := some 1, max := some 3 } { lam := .float 2 : Poisson Field } true (some (.str "two")) =
    .ok (picture [1, 2, 3] 1 (some (.str "two")) fun _ x =>
      (ProbabilityTheory.cond (discRealLaw (Poisson.dist ⟨2⟩)) (Icc 1 3)).real {x}) := by
  have hd : Objects ({ lam := .float 2 } : Poisson Field) 1 := by
    refine .inl ⟨rfl, fun F hF => ?_⟩
    obtain rfl : F = .float 2 := by simpa [Plottable.params] using hF
    rfl
  have h0 := poisson_nonneg 2 zero_le_two
  have h := C117_conditional_one Poisson.dist rfl _ hd h0 { min := some 1, max := some 3 } 1 2 (by simp) (by norm_num)
    (some (.str "two")) (by simp [LabelOk, SingleLabel]) (by
      change (discRealLaw (Poisson.dist ⟨2⟩)).real _ ≠ 0
      rw [mass_Icc h0]
      refine (Finset.sum_pos' (fun i _ => h0 _) ⟨0, by simp, ?_⟩).ne'
      have hG : (0 : ℝ) < Real.Gamma (1 + 1) := Real.Gamma_pos_of_pos (by norm_num)
      simp only [Poisson.dist, Disc.pmf, DiscFamily.pmf0]
      norm_num
      positivity)
  rw [h]
  have e : discreteXValues ((1 : ℤ) : ℝ) ((1 : ℤ) + (2 : ℕ)) = [1, 2, 3] := by
    rw [(C62_discrete_grid_partial _ _ 2 (by simp)).1]
    simp [List.range_succ]
    norm_num
  rw [e]
  norm_num
  rfl

/-! ## All the mass of a count is drawn -/

/-- C117 the default plot of a count with at most `M` successes, on `0, ..., M`: the heights of every line add up to one. -/
theorem C117_binomial_total (d : Binomial Field) (k : ℕ) (hd : Objects d k) (M : ℕ)
    (hn : ∀ j < k, ∃ m : ℕ, (nth d j).n = m ∧ m ≤ M) (label : Option Label) (hl : LabelOk label k) :
    ∃ lines, plot_pmf { max := some (M : ℝ) } d false label = .ok lines ∧ lines.length = k ∧
      ∀ l ∈ lines, (l.points.map Prod.snd).sum = 1 := by
  refine ⟨_, C117_plot_pmf d k hd _ M rfl label hl, by simp [picture], fun l hl => ?_⟩
  obtain ⟨j, hj, rfl⟩ := List.mem_map.1 hl
  obtain ⟨m, hm, hmM⟩ := hn j (List.mem_range.1 hj)
  have h := (binomial_total m (nth d j).p).unique (hasSum_sum_of_ne_finset_zero (s := Finset.range (M + 1)) fun i hi => by
    by_contra hne
    have := (binom_support hne).2
    have : i ≤ m := by exact_mod_cast this
    exact hi (Finset.mem_range.2 (by omega)))
  rw [h]
  simp only [curve, List.map_map, Option.getD_none, (C62_discrete_grid_partial (0 : ℝ) M M (by simp)).1]
  change ∑ i ∈ Finset.range (M + 1), (nth d j).dist.pmfAt (0 + (i : ℝ)) = _
  refine Finset.sum_congr rfl fun i _ => ?_
  rw [zero_add, ← Int.cast_natCast, pmfAt_int, binomial_mk hm]

/-- three and five tosses of a fair coin -/
noncomputable def twoCoins : Binomial Field :=
  { n := .array { rshape := [2], get := fun idx => if idx = [0] then 3 else 5 }, p := .float (1 / 2) }

example : ∃ lines, plot_pmf { max := some 5 } twoCoins false none = .ok lines ∧ lines.length = 2 ∧
    ∀ l ∈ lines, (l.points.map Prod.snd).sum = 1 := by
  have hd : Objects twoCoins 2 := by
    refine .inr ⟨two_pos, ?_, ?_⟩
    · intro F hF
      have hF : F = twoCoins.n ∨ F = twoCoins.p := by simpa [Plottable.params] using hF
      rcases hF with rfl | rfl <;> simp [twoCoins, Field.arr, NdArr.scalar, FitsIn]
    · exact ⟨twoCoins.n, by simp [Plottable.params], rfl⟩
  have h := C117_binomial_total twoCoins 2 hd 5 (fun j _ => ?_) none (by simp [LabelOk, LabelFits])
  · exact_mod_cast h
  · simp only [nth, fmap, entry, twoCoins, Field.arr, atIdx]
    split_ifs
    · exact ⟨3, by norm_num, by norm_num⟩
    · exact ⟨5, by norm_num, by norm_num⟩

/-! ## Tables -/

theorem table_not_float [Plottable D] {d : D Field} {F : Field} (hF : F ∈ Plottable.params d) (h : F.arr.rshape ≠ []) :
    (fieldInfos d).any (fun f => !f.isFloat) = true := by
  rw [map_fieldInfos_any, Bool.or_eq_true]
  refine .inr (List.any_eq_true.2 ⟨F, hF, ?_⟩)
  cases F <;> simp [Field.isFloat, Field.arr, NdArr.scalar] at h ⊢

/-- C117 a parameter with several rows, neither one nor one for each of the 100 points: `ValueError` -/
theorem C117_table_error [ContPlot D] (d : D Field) (s : PlotState ℝ) (hi : ℝ) (hs : s.max = some hi)
    (h2 : ∀ F ∈ Plottable.params d, F.arr.rshape.length ≤ 2) (k m : ℕ) (hm : m ≠ 1) (hm' : m ≠ 100)
    (hF : ∃ F ∈ Plottable.params d, F.arr.rshape = [k, m]) (label : Option Label) :
    ∃ msg, plot_pdf s d label = .error (.valueError msg) := by
  have hlen : (continuousXValues (s.min.getD 0) hi).length = 100 := by simp [continuousXValues, linspace]
  have hy : yShape (fieldInfos d) (continuousXValues (s.min.getD 0) hi).length = none := by
    obtain ⟨F, hF, hk⟩ := hF
    rw [hlen, yShape, reshapedX, if_pos (table_not_float hF (by simp [hk]))]
    exact fold_bad_table (by norm_num) hm hm' _ (infos_shape (p := fun s => s.length ≤ 2) (by simp) h2)
      ⟨F.info, List.mem_append_left _ (List.mem_map_of_mem hF), hk⟩ 1
  simp only [plot_pdf, plotContinuous, xValues_of_max hs, bind, Except.bind, evalOn, hy]
  exact ⟨_, rfl⟩

/-- C117 a parameter of three axes or more: `ValueError` -/
theorem C117_cube_error [ContPlot D] (d : D Field) (s : PlotState ℝ) (hi : ℝ) (hs : s.max = some hi)
    (hF : ∃ F ∈ Plottable.params d, 3 ≤ F.arr.rshape.length) (label : Option Label) :
    ∃ msg, plot_pdf s d label = .error (.valueError msg) := by
  obtain ⟨F, hF, h3⟩ := hF
  simp only [plot_pdf, plotContinuous, xValues_of_max hs, bind, Except.bind, evalOn]
  cases hy : yShape (fieldInfos d) (continuousXValues (s.min.getD 0) hi).length with
  | none => exact ⟨_, rfl⟩
  | some u =>
    have hu : 3 ≤ u.length := h3.trans ((fold_length _ _ _ hy).2 F.info
      (List.mem_append_left _ (List.mem_map_of_mem hF)))
    simp only
    generalize hyy : (NdArr.mk u fun idx => ContPlot.pdf (fmap (fun F => F.arr.atIdx idx) d)
      ((xArray d (continuousXValues (s.min.getD 0) hi)).atIdx idx)) = yy
    have hs : yy.rshape = u := by rw [← hyy]
    have hax : ∀ r, ∃ msg, axPlot (xArray d (continuousXValues (s.min.getD 0) hi)) yy r = .error (.valueError msg) := by
      intro r
      unfold axPlot
      split_ifs with h1 h2
      · exact ⟨_, rfl⟩
      · exact ⟨_, rfl⟩
      all_goals exact absurd (.inr (by rw [hs]; omega)) h2
    cases hl : labelArg label yy with
    | ok r => exact hax r
    | error e =>
      match label, hl with
      | some l, hl =>
        rw [labelArg, hs, resolveLabel, if_neg (by omega)] at hl
        have : 1 < u.reverse.length := by rw [List.length_reverse]; omega
        rw [List.getElem?_eq_getElem this] at hl
        simp only at hl
        split_ifs at hl
        cases l <;> simp [labelToIterable, Except.map] at hl
        exact ⟨_, by rw [← hl]⟩

/-- a table of two rows and three columns; a cube -/
example : (∃ msg, plot_pdf unitPostInit
      { alpha := .array { rshape := [3, 2], get := fun _ => 1 }, beta := .float 1 : Beta Field } none =
      .error (.valueError msg)) ∧
    ∃ msg, plot_pdf unitPostInit
      { alpha := .array { rshape := [3, 2, 2], get := fun _ => 1 }, beta := .float 1 : Beta Field } none =
      .error (.valueError msg) :=
  ⟨C117_table_error _ _ 1 rfl (by simp [Plottable.params, Field.arr, NdArr.scalar]) 3 2 (by norm_num) (by norm_num)
    ⟨_, by simp [Plottable.params]; exact .inl rfl, rfl⟩ _,
   C117_cube_error _ _ 1 rfl ⟨_, by simp [Plottable.params]; exact .inl rfl, by simp [Field.arr]⟩ _⟩

/-- a column of 100 values -/
def column (a : ℕ → ℝ) : Field := .array { rshape := [1, 100], get := fun idx => a (idx.getD 1 0) }

/-- C117 disagreement: exactly 100 rows are not refused. A single line is drawn that shows none of the 100
distributions: point `i` is on the curve of distribution `i`. -/
theorem C117_table_mixed (a : ℕ → ℝ) :
    plot_pdf unitPostInit { alpha := column a, beta := .float 1 : Beta Field } none =
      .ok [{ points := (List.range 100).map fun i : ℕ => ((i : ℝ) / 99, (Beta.dist ⟨a i, 1⟩).pdf ((i : ℝ) / 99)),
             label := .none }] := by
  have hlen : (continuousXValues 0 1).length = 100 := by simp [continuousXValues, linspace]
  have hget : ∀ i < 100, (continuousXValues 0 1).getD i 0 = (i : ℝ) / 99 := by
    intro i hi
    simp only [continuousXValues, linspace, List.getD_eq_getElem?_getD, List.getElem?_map, List.getElem?_range hi,
      Option.map_some, Option.getD_some]
    split_ifs with h
    · have : (i : ℝ) = 99 := by exact_mod_cast (by omega : i = 99)
      rw [this]; norm_num
    · norm_num; ring
  simp only [plot_pdf, plotContinuous, xValues_of_max (s := unitPostInit) (hi := 1) rfl, bind, Except.bind]
  set d : Beta Field := { alpha := column a, beta := .float 1 }
  have hx : (xArray d (continuousXValues 0 1)).rshape = [1, 100] := by
    rw [xArray]
    simp only [hlen]
    rfl
  have hy : yShape (fieldInfos d) (continuousXValues 0 1).length = some [1, 100] := by
    rw [hlen]
    rfl
  rw [show (unitPostInit.min.getD 0 : ℝ) = 0 from rfl]
  simp only [evalOn, hy, labelArg]
  rw [axPlot_table (n := 100) (k := 1) one_pos hx rfl]
  simp only [lineLabels]
  change Except.ok _ = Except.ok _
  congr 1
  simp only [List.range_one, List.map_cons, List.map_nil]
  congr 2
  rw [List.zip_map', ]
  refine List.map_congr_left fun i hi => ?_
  have hi := List.mem_range.1 hi
  have e1 : (xArray d (continuousXValues 0 1)).get [0, i] = (i : ℝ) / 99 := hget i hi
  have e2 : (xArray d (continuousXValues 0 1)).atIdx [0, i] = (i : ℝ) / 99 := by
    rw [atIdx, hx]
    exact hget i hi
  rw [e1, e2]
  rfl

/-- C117 disagreement: `plot_cdf` of a `BetaGeometric` raises `AttributeError`, whatever its parameters -/
theorem C117_no_cdf_beta_geometric (d : BetaGeometric Field) (s : PlotState ℝ) (hi : ℝ) (hs : s.max = some hi)
    (conditional : Bool) (label : Option Label) :
    plot_cdf_discrete s d conditional label = .error .attributeError := by
  simp only [plot_cdf_discrete, plotDiscrete, xValues_of_max hs, bind, Except.bind]
  rfl

/-- C117 disagreement: `plot_cdf` of a `CompoundGamma` raises `AttributeError`, whatever its parameters -/
theorem C117_no_cdf_compound_gamma (d : CompoundGamma Field) (s : PlotState ℝ) (hi : ℝ) (hs : s.max = some hi)
    (label : Option Label) : plot_cdf s d label = .error .attributeError := by
  simp only [plot_cdf, plotContinuous, xValues_of_max hs, bind, Except.bind]
  rfl

end Conj
