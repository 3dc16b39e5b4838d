import Verif.PlotSpec
import Verif.Props.RvsArray
import Verif.Props.MonotonePredictive
import Verif.Lemmas.DiscreteMeans
import Verif.Lemmas.Prediction

/-!
# Cumulative distribution functions as probabilities
-/

open MeasureTheory Set

namespace Conj

open Scipy Spec

theorem cont_cdf {d : Cont} (hm : Measurable d.pdf) (h0 : ∀ x, 0 ≤ d.pdf x) (x : ℝ) :
    d.cdf x = (contLaw d).real (Iic x) := by
  rw [Cont.cdf, integral_eq_lintegral_of_nonneg_ae (.of_forall h0) hm.aestronglyMeasurable, Measure.real, contLaw,
    withDensity_apply _ measurableSet_Iic]

open Classical in
theorem disc_real_law (d : Disc) {U : Set ℝ} (hU : MeasurableSet U) :
    discRealLaw d U = ∑' k : ℤ, if (k : ℝ) ∈ U then ENNReal.ofReal (d.pmf k) else 0 := by
  rw [discRealLaw, Measure.map_apply (by fun_prop) hU, discLaw, withDensity_apply _ (by measurability),
    ← lintegral_indicator (by measurability), lintegral_count]
  refine tsum_congr fun k => ?_
  simp only [indicator, mem_preimage]

theorem disc_cdf {d : Disc} (h0 : ∀ k, 0 ≤ d.pmf k) (hp : IsProbabilityMeasure (discLaw d)) (x : ℝ) :
    d.cdf x = (discRealLaw d).real (Iic x) := by
  have hp' : IsProbabilityMeasure (discRealLaw d) := Measure.isProbabilityMeasure_map (by fun_prop)
  have hfin := measure_ne_top (discRealLaw d) (Iic x)
  rw [Disc.cdf, Measure.real]
  rw [disc_real_law d measurableSet_Iic] at hfin ⊢
  rw [ENNReal.tsum_toReal_eq (ENNReal.ne_top_of_tsum_ne_top hfin)]
  refine tsum_congr fun k => ?_
  by_cases h : (k : ℝ) ≤ x
  · simp [h, h0 k]
  · simp [h]

theorem pmfAt_int (d : Disc) (k : ℤ) : d.pmfAt k = d.pmf k := by simp [Disc.pmfAt]

theorem pmfAt_real {d : Disc} (h0 : ∀ k, 0 ≤ d.pmf k) (x : ℝ) : d.pmfAt x = (discRealLaw d).real {x} := by
  rw [Measure.real, disc_real_law d (measurableSet_singleton x), Disc.pmfAt]
  split_ifs with h
  · rw [tsum_eq_single ⌊x⌋, if_pos (by rw [mem_singleton_iff]; exact h.symm), ENNReal.toReal_ofReal (h0 _)]
    intro k hk
    refine if_neg fun e => hk ?_
    rw [← mem_singleton_iff.1 e, Int.floor_intCast]
  · have : ∀ k : ℤ, (k : ℝ) ∉ ({x} : Set ℝ) := by
      intro k hk
      rw [mem_singleton_iff] at hk
      subst hk
      simp at h
    simp only [this, if_false, tsum_zero, ENNReal.toReal_zero]

open Classical in
/-- the mass between two integers -/
theorem mass_Icc {d : Disc} (h0 : ∀ k, 0 ≤ d.pmf k) (a : ℤ) (n : ℕ) :
    (discRealLaw d).real (Icc (a : ℝ) (a + n)) = ∑ i ∈ Finset.range (n + 1), d.pmf (a + i) := by
  rw [Measure.real, disc_real_law d measurableSet_Icc]
  have e := tsum_eq_sum (L := SummationFilter.unconditional ℤ) (s := Finset.Icc a (a + n))
    (f := fun k : ℤ => if (k : ℝ) ∈ Icc (a : ℝ) (a + n) then ENNReal.ofReal (d.pmf k) else 0)
    fun k hk => if_neg fun h => hk (Finset.mem_Icc.2 ⟨by exact_mod_cast h.1, by exact_mod_cast h.2⟩)
  refine (congrArg ENNReal.toReal ((tsum_congr fun k => by congr).trans e)).trans ?_
  rw [ENNReal.toReal_sum (fun k _ => by split_ifs <;> simp)]
  refine Finset.sum_bij' (i := fun k _ => (k - a).toNat) (j := fun i _ => a + (i : ℤ)) ?_ ?_ ?_ ?_ ?_
  · intro k hk
    rw [Finset.mem_Icc] at hk
    rw [Finset.mem_range]
    omega
  · intro i hi
    rw [Finset.mem_range] at hi
    rw [Finset.mem_Icc]
    omega
  · intro k hk
    rw [Finset.mem_Icc] at hk
    omega
  · intro i _
    simp
  · intro k hk
    rw [Finset.mem_Icc] at hk
    have e1 : a + ((k - a).toNat : ℤ) = k := by omega
    rw [e1, if_pos ⟨by exact_mod_cast hk.1, by exact_mod_cast hk.2⟩, ENNReal.toReal_ofReal (h0 k)]

theorem beta_pdf_nonneg {a b : ℝ} (ha : 0 < a) (hb : 0 < b) (x : ℝ) : 0 ≤ (Beta.dist ⟨a, b⟩).pdf x := by
  have h1 := Real.Gamma_pos_of_pos ha
  have h2 := Real.Gamma_pos_of_pos hb
  have h3 := Real.Gamma_pos_of_pos (add_pos ha hb)
  simp only [Cont.pdf, Beta.dist, Family.std, sub_zero, div_one]
  split_ifs with h
  · have := h.1
    have : 0 ≤ 1 - x := by linarith [h.2]
    positivity
  · exact le_rfl

theorem gamma_pdf_nonneg {a b : ℝ} (ha : 0 < a) (hb : 0 < b) (x : ℝ) : 0 ≤ (Gamma.dist ⟨a, b⟩).pdf x := by
  have h1 := Real.Gamma_pos_of_pos ha
  simp only [Cont.pdf, Gamma.dist, Family.std]
  split_ifs with h
  · positivity
  · simp

theorem invgamma_pdf_nonneg {a b : ℝ} (ha : 0 < a) (hb : 0 < b) (x : ℝ) : 0 ≤ (InverseGamma.dist ⟨a, b⟩).pdf x := by
  have h1 := Real.Gamma_pos_of_pos ha
  simp only [Cont.pdf, InverseGamma.dist, Family.std]
  split_ifs with h
  · have := h.le
    positivity
  · simp

theorem exponential_pdf_nonneg {s : ℝ} (hs : 0 < s) (x : ℝ) : 0 ≤ (Exponential.dist ⟨s⟩).pdf x := by
  simp only [Cont.pdf, Exponential.dist, Family.std]
  split_ifs with h
  · positivity
  · simp

theorem pareto_pdf_nonneg {m a : ℝ} (hm : 0 < m) (ha : 0 < a) (x : ℝ) : 0 ≤ (Pareto.dist ⟨m, a⟩).pdf x := by
  simp only [Cont.pdf, Pareto.dist, Family.std]
  split_ifs with h
  · have : 0 ≤ (x - 0) / m := zero_le_one.trans h
    positivity
  · simp

theorem weibull_pdf_nonneg {k θ : ℝ} (hk : 0 < k) (hθ : 0 < θ) (x : ℝ) : 0 ≤ (Weibull.dist ⟨k, θ⟩).pdf x := by
  simp only [Cont.pdf, Weibull.dist, Family.std]
  split_ifs with h
  · positivity
  · simp

theorem uniform_pdf_nonneg {a w : ℝ} (hw : 0 < w) (x : ℝ) : 0 ≤ (Uniform.dist ⟨a, w⟩).pdf x := by
  simp only [Cont.pdf, Uniform.dist, Family.std]
  split_ifs with h
  · positivity
  · simp

theorem lomax_pdf_nonneg {a s : ℝ} (ha : 0 < a) (hs : 0 < s) (x : ℝ) : 0 ≤ (Lomax.dist ⟨a, s⟩).pdf x := by
  simp only [Cont.pdf, Lomax.dist, Family.std]
  split_ifs with h
  · positivity
  · simp

theorem student_pdf_nonneg (m : ℝ) {s nu : ℝ} (hs : 0 < s) (hnu : 0 < nu) (x : ℝ) :
    0 ≤ (StudentT.dist ⟨m, s, nu⟩).pdf x := by
  have h1 : 0 < Real.Gamma ((nu + 1) / 2) := Real.Gamma_pos_of_pos (by positivity)
  have h2 : 0 < Real.Gamma (nu / 2) := Real.Gamma_pos_of_pos (by positivity)
  simp only [Cont.pdf, StudentT.dist, Family.std]
  positivity

theorem log_normal_pdf_nonneg (m : ℝ) {s : ℝ} (hs : 0 < s) (x : ℝ) : 0 ≤ (LogNormal.dist ⟨m, s⟩).pdf x := by
  simp only [Cont.pdf, LogNormal.dist, Family.std]
  split_ifs with h
  · positivity
  · simp

theorem measurable_std_lognorm (s : ℝ) : Measurable fun x : ℝ => (Family.lognorm s).std x :=
  Measurable.ite measurableSet_Ioi (by fun_prop) measurable_const

theorem scaled_pdf_nonneg {nu s : ℝ} (hnu : 0 < nu) (hs : 0 < s) (x : ℝ) :
    0 ≤ (ScaledInverseChiSquared.dist ⟨nu, s⟩).pdf x :=
  invgamma_pdf_nonneg (a := nu / 2) (b := nu * s / 2) (by positivity) (by positivity) x

theorem betabinom_nonneg (n : ℕ) {a b : ℝ} (ha : 0 < a) (hb : 0 < b) (k : ℤ) :
    0 ≤ (BetaBinomial.dist ⟨(n : ℝ), a, b⟩).pmf k := by
  by_cases h : 0 ≤ k ∧ (k : ℝ) ≤ n
  · obtain ⟨i, rfl⟩ := Int.eq_ofNat_of_zero_le h.1
    have h1 : i ≤ n := by exact_mod_cast h.2
    have h2 : (i : ℝ) ≤ n := by exact_mod_cast h1
    have := betaFn_pos ha hb
    have : 0 < betaFn (i + a) ((n : ℝ) - i + b) := betaFn_pos (by positivity) (by linarith)
    rw [BetaBinomial.pmf_nat _ _ h1]
    positivity
  · simp only [BetaBinomial.dist, Disc.pmf, sub_zero, DiscFamily.pmf0]
    rw [if_neg h]

theorem betabinom_prob (n : ℕ) {a b : ℝ} (ha : 0 < a) (hb : 0 < b) :
    IsProbabilityMeasure (discLaw (BetaBinomial.dist ⟨(n : ℝ), a, b⟩)) := by
  refine disc_prob (fun k hk => ?_) (betabinom_nonneg n ha hb) (BetaBinomial.hasSum_pmf n ha hb)
  simp only [BetaBinomial.dist, Disc.pmf, sub_zero, DiscFamily.pmf0]
  rw [if_neg]
  rintro ⟨h, -⟩
  omega

end Conj
