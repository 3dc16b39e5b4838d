import Mathlib.Probability.ProductMeasure
import Mathlib.Analysis.Convex.Integral
import Mathlib.Analysis.Convex.SpecificFunctions.Deriv
import Mathlib.Analysis.SpecialFunctions.ExpDeriv
import Verif.Maxima
import Verif.Lemmas.Forecast
import Verif.Lemmas.VectorDraw

/-!
# Laws of maxima
-/

open MeasureTheory Set

namespace Conj

open Scipy Spec

theorem measurable_iSup_fin (n : ℕ) : Measurable fun x : Fin n → ℝ => ⨆ i, x i :=
  Measurable.iSup fun i => measurable_pi_apply i

theorem maxLaw_prob (n : ℕ) (μ : Measure ℝ) [IsProbabilityMeasure μ] : IsProbabilityMeasure (maxLaw n μ) :=
  Measure.isProbabilityMeasure_map (measurable_iSup_fin n).aemeasurable

/-- the largest of `n` draws is at most `k` when all are -/
theorem maxLaw_Iic {n : ℕ} (hn : 0 < n) (μ : Measure ℝ) [IsProbabilityMeasure μ] (k : ℝ) :
    maxLaw n μ (Iic k) = μ (Iic k) ^ n := by
  have : Nonempty (Fin n) := ⟨⟨0, hn⟩⟩
  rw [maxLaw, Measure.map_apply (measurable_iSup_fin n) measurableSet_Iic]
  have e : (fun x : Fin n → ℝ => ⨆ i, x i) ⁻¹' Iic k = univ.pi fun _ => Iic k := by
    ext x
    simp only [mem_preimage, mem_Iic, mem_univ_pi]
    exact ciSup_le_iff (Set.finite_range x).bddAbove
  rw [e, Measure.pi_pi]
  simp

theorem max_ofFn {n : ℕ} (hn : 0 < n) (x : Fin n → ℝ) : (List.ofFn x).max?.getD 0 = ⨆ i, x i := by
  have : Nonempty (Fin n) := ⟨⟨0, hn⟩⟩
  have hne : List.ofFn x ≠ [] := by
    intro h
    have := congrArg List.length h
    simp at this
    omega
  obtain ⟨a, ha⟩ : ∃ a, (List.ofFn x).max? = some a := by
    cases h : (List.ofFn x).max? with
    | none => exact absurd (List.max?_eq_none_iff.1 h) hne
    | some a => exact ⟨a, rfl⟩
  rw [ha]
  obtain ⟨h1, h2⟩ := List.max?_eq_some_iff.1 ha
  obtain ⟨i, hi⟩ := (List.mem_ofFn' x a).1 h1
  refine le_antisymm ?_ (ciSup_le fun j => h2 _ ((List.mem_ofFn' x _).2 ⟨j, rfl⟩))
  simp only [Option.getD_some]
  rw [← hi]
  exact le_ciSup (Set.finite_range x).bddAbove i

/-- the columns of a table of independent draws are independent -/
theorem pi_columns (rows cols : ℕ) (μ : Measure ℝ) [IsProbabilityMeasure μ] :
    (Measure.pi fun _ : Fin (rows * cols) => μ).map
      (fun x (j : Fin cols) (i : Fin rows) => x (finProdFinEquiv (i, j))) =
    Measure.pi fun _ : Fin cols => Measure.pi fun _ : Fin rows => μ := by
  have h := Measure.infinitePi_map_curry (ι := Fin cols) (κ := Fin rows) (fun _ _ => μ)
  simp only [Measure.infinitePi_eq_pi] at h
  rw [← h]
  have h2 := Measure.pi_map_piCongrLeft (((Equiv.prodComm _ _).trans finProdFinEquiv : Fin cols × Fin rows ≃ Fin (rows * cols))) (β := fun _ => ℝ)
    (fun _ => μ)
  rw [← h2, Measure.map_map (by fun_prop) (MeasurableEquiv.measurable _)]
  congr 1
  funext x j i
  simp [MeasurableEquiv.piCongrLeft, Equiv.piCongrLeft, MeasurableEquiv.curry]

theorem maxAxis0_ofFn {rows : ℕ} (hr : 0 < rows) (cols : ℕ) (x : Fin (rows * cols) → ℝ) :
    maxAxis0 rows cols (List.ofFn x) =
      .ok (List.ofFn fun j : Fin cols => ⨆ i : Fin rows, x (finProdFinEquiv (i, j))) := by
  have : ¬ (rows = 0 ∧ cols ≠ 0) := by omega
  rw [maxAxis0, if_neg this]
  congr 1
  refine List.ext_getElem (by simp) fun j h1 h2 => ?_
  simp only [List.length_map, List.length_range] at h1
  simp only [List.getElem_map, List.getElem_range, List.getElem_ofFn]
  rw [← max_ofFn hr]
  congr 2
  refine List.ext_getElem (by simp) fun i h3 h4 => ?_
  simp only [List.length_map, List.length_range] at h3
  have hlt : i * cols + j < rows * cols := by
    calc i * cols + j < i * cols + cols := by omega
      _ = (i + 1) * cols := by ring
      _ ≤ rows * cols := Nat.mul_le_mul_right _ h3
  simp only [List.getElem_map, List.getElem_range, List.getElem_ofFn]
  rw [List.getD_eq_getElem?_getD, List.getElem?_eq_getElem (by simpa using hlt), Option.getD_some, List.getElem_ofFn]
  congr 1
  ext
  simp [finProdFinEquiv]
  ring

/-- a draw at most `k` -/
theorem Spec.Mixes.atMost {pred post : Measure ℝ} {model : ℝ → Measure ℝ} (h : Mixes pred post model) (k : ℝ) :
    pred (Iic k) = ∫⁻ θ, model θ (Iic k) ∂post := by
  have := h ((Iic k).indicator fun _ => 1) (measurable_const.indicator measurableSet_Iic)
  simpa [lintegral_indicator, measurableSet_Iic] using this

/-- Jensen -/
theorem lintegral_pow_le {post : Measure ℝ} [IsProbabilityMeasure post] {F : ℝ → ℝ} (hF : AEStronglyMeasurable F post)
    (h0 : ∀ᵐ θ ∂post, F θ ∈ Icc (0 : ℝ) 1) (n : ℕ) :
    (∫⁻ θ, ENNReal.ofReal (F θ) ∂post) ^ n ≤ ∫⁻ θ, ENNReal.ofReal (F θ) ^ n ∂post ∧
    (2 ≤ n → (∫⁻ θ, ENNReal.ofReal (F θ) ∂post) ^ n = ∫⁻ θ, ENNReal.ofReal (F θ) ^ n ∂post →
      ∃ c, ∀ᵐ θ ∂post, F θ = c) := by
  have hi : Integrable F post := Integrable.of_bound hF 1 (h0.mono fun θ h => by
    rw [Real.norm_eq_abs, abs_of_nonneg h.1]; exact h.2)
  have hin : Integrable ((fun x : ℝ => x ^ n) ∘ F) post := Integrable.of_bound (hF.pow n) 1 (h0.mono fun θ h => by
    simp only [Function.comp, norm_pow, Real.norm_eq_abs]
    rw [abs_of_nonneg h.1]; exact pow_le_one₀ h.1 h.2)
  have hp : 0 ≤ᵐ[post] F := h0.mono fun θ h => h.1
  have hpn : 0 ≤ᵐ[post] (fun x : ℝ => x ^ n) ∘ F := h0.mono fun θ h => pow_nonneg h.1 n
  have e1 : (∫⁻ θ, ENNReal.ofReal (F θ) ∂post) ^ n = ENNReal.ofReal ((∫ θ, F θ ∂post) ^ n) := by
    rw [← ofReal_integral_eq_lintegral_ofReal hi hp, ENNReal.ofReal_pow (integral_nonneg_of_ae hp)]
  have e2 : ∫⁻ θ, ENNReal.ofReal (F θ) ^ n ∂post = ENNReal.ofReal (∫ θ, F θ ^ n ∂post) := by
    refine Eq.trans ?_ (ofReal_integral_eq_lintegral_ofReal hin hpn).symm
    refine lintegral_congr_ae (h0.mono fun θ h => ?_)
    simp only [Function.comp]
    rw [ENNReal.ofReal_pow h.1]
  have hIci : ∀ᵐ θ ∂post, F θ ∈ Ici (0 : ℝ) := hp
  rw [e1, e2]
  refine ⟨ENNReal.ofReal_le_ofReal
    ((convexOn_pow n).map_integral_le (by fun_prop) isClosed_Ici hIci hi hin), fun hn h => ?_⟩
  replace h := (ENNReal.ofReal_eq_ofReal_iff (pow_nonneg (integral_nonneg_of_ae hp) n) (integral_nonneg_of_ae hpn)).1 h
  rcases (strictConvexOn_pow hn).ae_eq_const_or_map_average_lt (by fun_prop) isClosed_Ici hIci hi hin with hc | hlt
  · exact ⟨_, hc⟩
  · simp only [average_eq_integral] at hlt
    exact absurd h hlt.ne

theorem discRealLaw_Iic {d : Disc} (hneg : ∀ k : ℤ, k < 0 → d.pmf k = 0) (h0 : ∀ k, 0 ≤ d.pmf k) {k : ℝ} (hk : 0 ≤ k) :
    discRealLaw d (Iic k) = ENNReal.ofReal (∑ i ∈ Finset.range (⌊k⌋₊ + 1), d.pmf (i : ℕ)) := by
  rw [discRealLaw, Measure.map_apply (measurable_of_countable _) measurableSet_Iic, discLaw,
    withDensity_apply _ (Set.to_countable _).measurableSet, ← lintegral_indicator (Set.to_countable _).measurableSet,
    lintegral_count, ENNReal.ofReal_sum_of_nonneg fun i _ => h0 _]
  rw [tsum_eq_sum (s := (Finset.range (⌊k⌋₊ + 1)).map Nat.castEmbedding) ?_, Finset.sum_map]
  · refine Finset.sum_congr rfl fun i hi => ?_
    rw [Finset.mem_range, Nat.lt_succ_iff, Nat.le_floor_iff hk] at hi
    rw [indicator_of_mem]
    · rfl
    · simpa only [mem_preimage, mem_Iic, Nat.castEmbedding_apply, Int.cast_natCast] using hi
  · intro j hj
    by_cases hj0 : j < 0
    · simp [indicator, hneg j hj0]
    · obtain ⟨i, rfl⟩ := Int.eq_ofNat_of_zero_le (not_lt.1 hj0)
      rw [indicator_of_notMem]
      intro hi
      apply hj
      simp only [mem_preimage, mem_Iic, Int.cast_natCast] at hi
      simp only [Finset.mem_map, Finset.mem_range, Nat.castEmbedding_apply]
      exact ⟨i, Nat.lt_succ_of_le (Nat.le_floor hi), rfl⟩

/-- a larger rate makes a small count less likely -/
theorem hasDerivAt_poisson_cdf (N : ℕ) (l : ℝ) :
    HasDerivAt (fun l : ℝ => ∑ i ∈ Finset.range (N + 1), Real.exp (-l) * l ^ i / i.factorial)
      (-(Real.exp (-l) * l ^ N / N.factorial)) l := by
  have hexp : HasDerivAt (fun l : ℝ => Real.exp (-l)) (-Real.exp (-l)) l := by
    simpa using (hasDerivAt_neg l).exp
  induction N with
  | zero => simpa using hexp
  | succ N ih =>
    simp only [Finset.sum_range_succ _ (N + 1)]
    have h := ih.add ((hexp.mul (hasDerivAt_pow (N + 1) l)).div_const ((N + 1).factorial : ℝ))
    refine h.congr_deriv ?_
    have hf : (N.factorial : ℝ) ≠ 0 := by exact_mod_cast N.factorial_ne_zero
    have hf' : (N : ℝ) + 1 ≠ 0 := by positivity
    rw [Nat.factorial_succ]
    push_cast
    field_simp
    try simp only [Nat.add_sub_cancel]
    ring

theorem strictAntiOn_poisson_cdf (N : ℕ) :
    StrictAntiOn (fun l : ℝ => ∑ i ∈ Finset.range (N + 1), Real.exp (-l) * l ^ i / i.factorial) (Ioi 0) := by
  refine strictAntiOn_of_deriv_neg (convex_Ioi 0)
    (fun l _ => (hasDerivAt_poisson_cdf N l).continuousAt.continuousWithinAt) fun l hl => ?_
  rw [interior_Ioi] at hl
  rw [(hasDerivAt_poisson_cdf N l).deriv]
  have : 0 < l := hl
  have : 0 < Real.exp (-l) * l ^ N / N.factorial := by positivity
  linarith

end Conj
