import Verif.SumSpec
import Verif.Lemmas.Density
import Verif.Lemmas.Kernel
import Mathlib.Analysis.LConvolution
import Mathlib.Probability.Distributions.Gaussian.Real
import Mathlib.MeasureTheory.Group.Convolution

/-! Convolutions of the laws of the scalar distributions. -/

open MeasureTheory Set Real

namespace Conj

open Scipy Spec

theorem sumLaw_eq_conv {X : Type} [MeasurableSpace X] [AddMonoid X] (μ ν : Measure X) :
    sumLaw μ ν = μ ∗ ν := rfl

theorem sumOfCopies_zero {X : Type} [MeasurableSpace X] [AddCommMonoid X] (μ : Measure X) :
    sumOfCopies μ 0 = Measure.dirac 0 := by
  simp [sumOfCopies]

theorem sumOfCopies_succ {X : Type} [MeasurableSpace X] [AddCommMonoid X] [MeasurableAdd₂ X]
    (μ : Measure X) [SigmaFinite μ] (k : ℕ) :
    sumOfCopies μ (k + 1) = sumLaw μ (sumOfCopies μ k) := by
  have h := measurePreserving_piFinSuccAbove (fun _ : Fin (k + 1) => μ) 0
  have hs : Measurable fun x : Fin k → X => ∑ i, x i :=
    Finset.measurable_sum _ fun i _ => measurable_pi_apply i
  rw [sumLaw, sumOfCopies, sumOfCopies]
  have e : (fun x : Fin (k + 1) → X => ∑ i, x i) =
      (fun z : X × (Fin k → X) => z.1 + ∑ i, z.2 i) ∘
        MeasurableEquiv.piFinSuccAbove (fun _ => X) 0 := by
    funext x
    simp [Fin.sum_univ_succ, MeasurableEquiv.piFinSuccAbove]
    rfl
  have hm2 : Measurable (fun z : X × (Fin k → X) => z.1 + ∑ i, z.2 i) :=
    measurable_fst.add (hs.comp measurable_snd)
  rw [e, ← Measure.map_map hm2 (MeasurableEquiv.measurable _), h.map_eq]
  have e2 : (fun z : X × (Fin k → X) => z.1 + ∑ i, z.2 i) =
      (fun z : X × X => z.1 + z.2) ∘ Prod.map id (fun x : Fin k → X => ∑ i, x i) := rfl
  rw [e2, ← Measure.map_map (by fun_prop) (by fun_prop),
    ← Measure.map_prod_map _ _ measurable_id hs, Measure.map_id]

/-- closure under sums of two gives closure under sums of `k` copies -/
theorem sumOfCopies_family {X : Type} [MeasurableSpace X] [AddCommMonoid X] [MeasurableAdd₂ X]
    (law : ℝ → Measure X) (valid : ℝ → Prop)
    (hv : ∀ a b, valid a → valid b → valid (a + b))
    (hadd : ∀ a b, valid a → valid b → sumLaw (law a) (law b) = law (a + b)) {a : ℝ}
    (ha : valid a) [SigmaFinite (law a)] (k : ℕ) :
    sumOfCopies (law a) (k + 1) = law (a * ((k + 1 : ℕ) : ℝ)) := by
  have hval : ∀ k : ℕ, valid (a * ((k + 1 : ℕ) : ℝ)) := by
    intro k
    induction k with
    | zero => simpa using ha
    | succ k ih =>
      have := hv _ _ ha ih
      convert this using 1; push_cast; ring
  induction k with
  | zero =>
    rw [sumOfCopies_succ, sumOfCopies_zero, sumLaw_eq_conv, Measure.conv_dirac_zero]
    simp
  | succ k ih =>
    rw [sumOfCopies_succ, ih, hadd _ _ ha (hval k)]
    congr 1; push_cast; ring

/-! ### Normal -/

theorem normal_law (mu : ℝ) {s : ℝ} (hs : 0 < s) :
    contLaw (Normal.dist ⟨mu, s⟩) = ProbabilityTheory.gaussianReal mu (Real.toNNReal (s ^ 2)) := by
  rw [contLaw, Normal.pdf_eq_gaussian ⟨mu, s⟩ hs, ProbabilityTheory.gaussianReal_of_var_ne_zero]
  · rfl
  · simp; positivity

/-! ### Discrete laws on the naturals -/

theorem measurable_int {β : Type} [MeasurableSpace β] (f : ℤ → β) : Measurable f :=
  measurable_from_top

theorem discLaw_conv (d₁ d₂ d₃ : Disc) (h1 : ∀ k : ℤ, k < 0 → d₁.pmf k = 0)
    (h2 : ∀ k : ℤ, k < 0 → d₂.pmf k = 0) (h3 : ∀ k : ℤ, k < 0 → d₃.pmf k = 0)
    (n1 : ∀ k, 0 ≤ d₁.pmf k) (n2 : ∀ k, 0 ≤ d₂.pmf k)
    (h : ∀ k : ℕ, ∑ i ∈ Finset.range (k + 1), d₁.pmf (i : ℤ) * d₂.pmf ((k - i : ℕ) : ℤ) =
      d₃.pmf (k : ℤ)) :
    sumLaw (discLaw d₁) (discLaw d₂) = discLaw d₃ := by
  rw [sumLaw_eq_conv, discLaw, discLaw,
    conv_withDensity_eq_lconvolution (measurable_int _) (measurable_int _), discLaw]
  congr 1
  funext k
  rw [lconvolution_def, lintegral_count]
  rcases lt_or_ge k 0 with hk | hk
  · rw [h3 k hk, ENNReal.ofReal_zero, ENNReal.tsum_eq_zero]
    intro i
    rcases lt_or_ge i 0 with hi | hi
    · simp [h1 i hi]
    · simp [h2 (-i + k) (by omega)]
  · obtain ⟨n, rfl⟩ := Int.eq_ofNat_of_zero_le hk
    rw [← h n, ENNReal.ofReal_sum_of_nonneg fun i _ => mul_nonneg (n1 _) (n2 _)]
    have hinj : Function.Injective (fun i : ℕ => (i : ℤ)) := Nat.cast_injective
    rw [← hinj.tsum_eq]
    · rw [tsum_eq_sum (s := Finset.range (n + 1))]
      · refine Finset.sum_congr rfl fun i hi => ?_
        have hi' : i ≤ n := Nat.lt_succ_iff.1 (Finset.mem_range.1 hi)
        rw [ENNReal.ofReal_mul (n1 _)]
        congr 3
        push_cast [hi']; ring
      · intro i hi
        have hi' : n < i := by simpa using hi
        rw [h2 (-(i : ℤ) + (n : ℤ)) (by omega)]; simp
    · intro i hi
      rcases lt_or_ge i 0 with hneg | hpos
      · simp [h1 i hneg] at hi
      · exact ⟨i.toNat, by simp [hpos]⟩

theorem poisson_nonneg (l : ℝ) (hl : 0 ≤ l) (k : ℤ) : 0 ≤ (Poisson.dist ⟨l⟩).pmf k := by
  simp only [Poisson.dist, Disc.pmf, sub_zero, DiscFamily.pmf0]
  split_ifs with h
  · have h0 : (0 : ℝ) ≤ k := by exact_mod_cast h
    have : 0 < Real.Gamma ((k : ℝ) + 1) := Real.Gamma_pos_of_pos (by positivity)
    positivity
  · exact le_rfl

theorem poisson_neg (l : ℝ) (k : ℤ) (hk : k < 0) : (Poisson.dist ⟨l⟩).pmf k = 0 := by
  simp [Poisson.dist, Disc.pmf, DiscFamily.pmf0, not_le.2 hk]

theorem poisson_conv (a b : ℝ) (ha : 0 ≤ a) (hb : 0 ≤ b) :
    sumLaw (discLaw (Poisson.dist ⟨a⟩)) (discLaw (Poisson.dist ⟨b⟩)) =
      discLaw (Poisson.dist ⟨a + b⟩) := by
  refine discLaw_conv _ _ _ (poisson_neg a) (poisson_neg b) (poisson_neg (a + b))
    (poisson_nonneg a ha) (poisson_nonneg b hb) fun k => ?_
  simp only [Poisson.pmf_nat]
  rw [add_pow, neg_add, exp_add, Finset.mul_sum, Finset.sum_div]
  refine Finset.sum_congr rfl fun i hi => ?_
  have hi' : i ≤ k := Nat.lt_succ_iff.1 (Finset.mem_range.1 hi)
  rw [Nat.cast_choose ℝ hi']
  have := Nat.factorial_ne_zero
  field_simp

/-- `Γ(k + a) / (k! Γ(a))` -/
noncomputable def nbCoef (a : ℝ) (k : ℕ) : ℝ := (∏ j ∈ Finset.range k, (a + j)) / k.factorial

theorem nbCoef_succ (a : ℝ) (k : ℕ) : (k + 1 : ℝ) * nbCoef a (k + 1) = (a + k) * nbCoef a k := by
  simp only [nbCoef, Finset.prod_range_succ, Nat.factorial_succ]
  push_cast
  have : (k.factorial : ℝ) ≠ 0 := by exact_mod_cast k.factorial_ne_zero
  field_simp

theorem nbCoef_conv (a b : ℝ) (k : ℕ) :
    ∑ i ∈ Finset.range (k + 1), nbCoef a i * nbCoef b (k - i) = nbCoef (a + b) k := by
  induction k with
  | zero => simp [nbCoef]
  | succ k ih =>
    have h : (k + 1 : ℝ) * ∑ i ∈ Finset.range (k + 2), nbCoef a i * nbCoef b (k + 1 - i) =
        (a + b + k) * ∑ i ∈ Finset.range (k + 1), nbCoef a i * nbCoef b (k - i) := by
      have e1 : (k + 1 : ℝ) * ∑ i ∈ Finset.range (k + 2), nbCoef a i * nbCoef b (k + 1 - i) =
          ∑ i ∈ Finset.range (k + 2), (i : ℝ) * nbCoef a i * nbCoef b (k + 1 - i) +
          ∑ i ∈ Finset.range (k + 2), nbCoef a i * (((k + 1 - i : ℕ) : ℝ) * nbCoef b (k + 1 - i)) := by
        rw [Finset.mul_sum, ← Finset.sum_add_distrib]
        refine Finset.sum_congr rfl fun i hi => ?_
        have hi' : i ≤ k + 1 := Nat.lt_succ_iff.1 (Finset.mem_range.1 hi)
        push_cast [hi']; ring
      rw [e1, Finset.sum_range_succ', Finset.sum_range_succ (n := k + 1)]
      simp only [Nat.cast_zero, zero_mul, add_zero, Nat.sub_self, mul_zero]
      rw [Finset.mul_sum, ← Finset.sum_add_distrib]
      refine Finset.sum_congr rfl fun i hi => ?_
      have hi' : i ≤ k := Nat.lt_succ_iff.1 (Finset.mem_range.1 hi)
      have s1 := nbCoef_succ a i
      have s2 := nbCoef_succ b (k - i)
      rw [show k + 1 - i = k - i + 1 by omega, show k + 1 - (i + 1) = k - i by omega]
      push_cast [hi'] at s2 ⊢
      rw [s1, s2]; ring
    have h2 := nbCoef_succ (a + b) k
    rw [ih, ← h2] at h
    exact mul_left_cancel₀ (by positivity) h

theorem prod_eq_gamma (a : ℝ) (ha : 0 < a) (k : ℕ) :
    ∏ j ∈ Finset.range k, (a + j) = Real.Gamma (a + k) / Real.Gamma a := by
  have hG := Real.Gamma_pos_of_pos ha
  induction k with
  | zero => simp [hG.ne']
  | succ k ih =>
    rw [Finset.prod_range_succ, ih]
    have : Real.Gamma (a + (k + 1 : ℕ)) = (a + k) * Real.Gamma (a + k) := by
      rw [← Real.Gamma_add_one (by positivity)]; push_cast; ring_nf
    rw [this]; ring

theorem choose_eq_nbCoef (a : ℝ) (ha : 0 < a) (k : ℕ) :
    choose ((k : ℝ) + a - 1) k = nbCoef a k := by
  rw [choose, nbCoef, prod_eq_gamma a ha, Real.Gamma_nat_eq_factorial,
    show (k : ℝ) + a - 1 + 1 = a + k by ring, show (k : ℝ) + a - 1 - k + 1 = a by ring]
  field_simp

theorem nb_neg (n p : ℝ) (k : ℤ) (hk : k < 0) : (NegativeBinomial.dist ⟨n, p⟩).pmf k = 0 := by
  simp [NegativeBinomial.dist, Disc.pmf, DiscFamily.pmf0, not_le.2 hk]

theorem nb_nonneg (n p : ℝ) (hn : 0 < n) (hp : 0 ≤ p) (hp1 : p ≤ 1) (k : ℤ) :
    0 ≤ (NegativeBinomial.dist ⟨n, p⟩).pmf k := by
  rcases lt_or_ge k 0 with hk | hk
  · rw [nb_neg n p k hk]
  · obtain ⟨m, rfl⟩ := Int.eq_ofNat_of_zero_le hk
    rw [NegativeBinomial.pmf_nat, choose_eq_nbCoef n hn, nbCoef]
    have : 0 ≤ 1 - p := by linarith
    have : 0 ≤ ∏ j ∈ Finset.range m, (n + j) := Finset.prod_nonneg fun j _ => by positivity
    positivity

theorem nb_conv (a b p : ℝ) (ha : 0 < a) (hb : 0 < b) (hp : 0 < p) (hp1 : p ≤ 1) :
    sumLaw (discLaw (NegativeBinomial.dist ⟨a, p⟩)) (discLaw (NegativeBinomial.dist ⟨b, p⟩)) =
      discLaw (NegativeBinomial.dist ⟨a + b, p⟩) := by
  refine discLaw_conv _ _ _ (nb_neg a p) (nb_neg b p) (nb_neg (a + b) p)
    (nb_nonneg a p ha hp.le hp1) (nb_nonneg b p hb hp.le hp1) fun k => ?_
  simp only [NegativeBinomial.pmf_nat]
  rw [choose_eq_nbCoef _ (by positivity), ← nbCoef_conv, Finset.sum_mul, Finset.sum_mul]
  refine Finset.sum_congr rfl fun i hi => ?_
  have hi' : i ≤ k := Nat.lt_succ_iff.1 (Finset.mem_range.1 hi)
  rw [choose_eq_nbCoef _ ha, choose_eq_nbCoef _ hb, rpow_add hp,
    show (1 - p) ^ k = (1 - p) ^ i * (1 - p) ^ (k - i) by rw [← pow_add]; congr 1; omega]
  ring

/-! ### Gamma -/

theorem gamma_pdf_neg (d : Gamma ℝ) (hb : 0 < d.beta) {x : ℝ} (hx : x < 0) : d.dist.pdf x = 0 := by
  simp only [Gamma.dist, Cont.pdf, sub_zero, Family.std]
  rw [if_neg, zero_div]
  have : x / (1 / d.beta) = d.beta * x := by field_simp
  rw [this]; nlinarith

theorem gamma_law (d : Gamma ℝ) (hb : 0 < d.beta) :
    contLaw d.dist = volume.withDensity fun x => ENNReal.ofReal ((Ioi (0 : ℝ)).indicator
      (fun x => d.beta ^ d.alpha / Real.Gamma d.alpha * x ^ (d.alpha - 1) * exp (-(d.beta * x))) x) := by
  refine withDensity_congr_ae ?_
  have h0 : ∀ᵐ x : ℝ, x ≠ 0 := by simp [ae_iff, measure_singleton]
  filter_upwards [h0] with x hx
  rcases lt_or_gt_of_ne hx with h | h
  · rw [gamma_pdf_neg d hb h, indicator_of_notMem (by simpa using h.le)]
  · rw [Gamma.pdf_eq d hb h, indicator_of_mem (by exact h)]

theorem beta_scaled_integral {a b x : ℝ} (ha : 0 < a) (hb : 0 < b) (hx : 0 < x) :
    ∫⁻ y in Ioo 0 x, ENNReal.ofReal (y ^ (a - 1) * (x - y) ^ (b - 1)) =
      ENNReal.ofReal (x ^ (a + b - 1) * betaFn a b) := by
  have hG := Real.Gamma_pos_of_pos ha
  have hG' := Real.Gamma_pos_of_pos hb
  have hG'' := Real.Gamma_pos_of_pos (add_pos ha hb)
  have hd := Beta.isDensity ⟨a, b⟩ ha hb
  have hbeta : 0 < betaFn a b := by unfold betaFn; positivity
  set g : ℝ → ℝ := (Ioo (0 : ℝ) 1).indicator (Beta.dist ⟨a, b⟩).pdf with hg
  have hgi : Integrable g := (integrable_indicator_iff measurableSet_Ioo).2 hd.2.1
  have hgint : ∫ u, g u = 1 := by rw [hg, integral_indicator measurableSet_Ioo, hd.2.2]
  have hgn : ∀ u, 0 ≤ g u := indicator_nonneg hd.1
  have hsc : ∫⁻ y, ENNReal.ofReal (g (y / x)) = ENNReal.ofReal x := by
    rw [← ofReal_integral_eq_lintegral_ofReal (hgi.comp_div hx.ne')
      (Filter.Eventually.of_forall fun y => hgn _), Measure.integral_comp_div g x, hgint]
    simp [abs_of_pos hx]
  have e : ∀ y ∈ Ioo (0 : ℝ) x, ENNReal.ofReal (y ^ (a - 1) * (x - y) ^ (b - 1)) =
      ENNReal.ofReal (x ^ (a + b - 1) * betaFn a b / x) * ENNReal.ofReal (g (y / x)) := by
    intro y hy
    have hm : y / x ∈ Ioo (0 : ℝ) 1 := ⟨div_pos hy.1 hx, (div_lt_one hx).2 hy.2⟩
    have h1 : 0 < x - y := sub_pos.2 hy.2
    rw [← ENNReal.ofReal_mul (by positivity), hg, indicator_of_mem hm, Beta.pdf_eq ⟨a, b⟩ hm]
    congr 1
    simp only
    rw [show 1 - y / x = (x - y) / x by field_simp, div_rpow hy.1.le hx.le, div_rpow h1.le hx.le,
      show a + b - 1 = (a - 1) + (b - 1) + 1 by ring, rpow_add hx, rpow_add hx, rpow_one]
    have := (rpow_pos_of_pos hx (a - 1)).ne'
    have := (rpow_pos_of_pos hx (b - 1)).ne'
    field_simp
  rw [setLIntegral_congr_fun measurableSet_Ioo e, lintegral_const_mul' _ _ ENNReal.ofReal_ne_top,
    ← lintegral_indicator measurableSet_Ioo]
  have e2 : (Ioo 0 x).indicator (fun y => ENNReal.ofReal (g (y / x))) =
      fun y => ENNReal.ofReal (g (y / x)) := by
    funext y
    by_cases hy : y ∈ Ioo 0 x
    · rw [indicator_of_mem hy]
    · rw [indicator_of_notMem hy, hg, indicator_of_notMem, ENNReal.ofReal_zero]
      intro h
      exact hy ⟨by have := h.1; rwa [div_pos_iff_of_pos_right hx] at this,
        by have := h.2; rwa [div_lt_one hx] at this⟩
  rw [e2, hsc, ← ENNReal.ofReal_mul (by positivity)]
  congr 1
  field_simp

theorem gamma_conv (a b r : ℝ) (ha : 0 < a) (hb : 0 < b) (hr : 0 < r) :
    sumLaw (contLaw (Gamma.dist ⟨a, r⟩)) (contLaw (Gamma.dist ⟨b, r⟩)) =
      contLaw (Gamma.dist ⟨a + b, r⟩) := by
  have hG := Real.Gamma_pos_of_pos ha
  have hG' := Real.Gamma_pos_of_pos hb
  have hG'' := Real.Gamma_pos_of_pos (add_pos ha hb)
  have hmeas : ∀ c : ℝ, Measurable fun x => ENNReal.ofReal ((Ioi (0 : ℝ)).indicator
      (fun x => r ^ c / Real.Gamma c * x ^ (c - 1) * exp (-(r * x))) x) := fun c =>
    (Measurable.indicator (by fun_prop) measurableSet_Ioi).ennreal_ofReal
  rw [gamma_law _ hr, gamma_law _ hr, gamma_law _ hr, sumLaw_eq_conv,
    conv_withDensity_eq_lconvolution (hmeas a) (hmeas b)]
  congr 1
  funext x
  rw [lconvolution_def]
  rcases le_or_gt x 0 with hx | hx
  · rw [indicator_of_notMem (by simpa using hx), ENNReal.ofReal_zero, lintegral_eq_zero_iff']
    · refine Filter.Eventually.of_forall fun y => ?_
      rcases le_or_gt y 0 with hy | hy
      · simp [hy]
      · have : ¬ (0 < -y + x) := by linarith
        simp [this]
    · exact (Measurable.mul (hmeas a) ((hmeas b).comp (by fun_prop))).aemeasurable
  · rw [indicator_of_mem (by exact hx)]
    set K := r ^ a / Real.Gamma a * (r ^ b / Real.Gamma b) * exp (-(r * x)) with hK
    have e : ∀ y, ENNReal.ofReal ((Ioi (0 : ℝ)).indicator
        (fun x => r ^ a / Real.Gamma a * x ^ (a - 1) * exp (-(r * x))) y) *
        ENNReal.ofReal ((Ioi (0 : ℝ)).indicator
        (fun x => r ^ b / Real.Gamma b * x ^ (b - 1) * exp (-(r * x))) (-y + x)) =
        (Ioo 0 x).indicator (fun y => ENNReal.ofReal K *
          ENNReal.ofReal (y ^ (a - 1) * (x - y) ^ (b - 1))) y := by
      intro y
      by_cases hy : y ∈ Ioo 0 x
      · rw [indicator_of_mem hy, indicator_of_mem (by exact hy.1),
          indicator_of_mem (show -y + x ∈ Ioi 0 by simpa using hy.2),
          ← ENNReal.ofReal_mul (by have := hy.1; positivity),
          ← ENNReal.ofReal_mul (by positivity), hK]
        congr 1
        rw [show -y + x = x - y by ring, show -(r * x) = -(r * y) + -(r * (x - y)) by ring, exp_add]
        ring
      · rw [indicator_of_notMem hy]
        by_cases h1 : 0 < y
        · have : ¬ (0 < -y + x) := fun h => hy ⟨h1, by linarith⟩
          simp [this]
        · simp [h1]
    simp_rw [e]
    rw [lintegral_indicator measurableSet_Ioo, lintegral_const_mul' _ _ ENNReal.ofReal_ne_top,
      beta_scaled_integral ha hb hx, ← ENNReal.ofReal_mul (by positivity)]
    congr 1
    simp only [hK, betaFn]
    rw [rpow_add hr]
    field_simp

end Conj
