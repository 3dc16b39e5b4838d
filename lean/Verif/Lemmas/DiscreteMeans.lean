import Verif.Lemmas.Concentration
import Mathlib.Analysis.Analytic.Binomial
import Mathlib.RingTheory.Polynomial.Bernstein
import Mathlib.Analysis.SpecificLimits.Normed

/-! Total mass and mean of the discrete families. -/

open MeasureTheory Set Filter Topology

set_option linter.unusedSectionVars false

namespace Conj

open Scipy Spec

section
variable {d : Disc} (hneg : ∀ k : ℤ, k < 0 → d.pmf k = 0) (h0 : ∀ k, 0 ≤ d.pmf k)
include hneg h0

theorem disc_mean {T : ℤ → ℝ} (hT : ∀ k : ℕ, 0 ≤ T k) {m : ℝ} (h : HasSum (fun k : ℕ => d.pmf k * T k) m) :
    Integrable T (discLaw d) ∧ ∫ k, T k ∂discLaw d = m := by
  have hz : HasSum (fun k : ℤ => d.pmf k * T k) m := by
    refine (Nat.cast_injective (R := ℤ)).hasSum_iff ?_ |>.1 h
    intro k hk
    have : k < 0 := by
      by_contra hc
      exact hk ⟨k.toNat, Int.toNat_of_nonneg (not_lt.1 hc)⟩
    rw [hneg k this, zero_mul]
  have hn : ∀ k : ℤ, 0 ≤ d.pmf k * T k := by
    intro k
    rcases lt_or_ge k 0 with hk | hk
    · rw [hneg k hk, zero_mul]
    · obtain ⟨n, rfl⟩ := Int.eq_ofNat_of_zero_le hk
      exact mul_nonneg (h0 _) (hT n)
  have hm : Measurable fun k : ℤ => Real.toNNReal (d.pmf k) := measurable_int _
  have e : discLaw d = Measure.count.withDensity fun k : ℤ => ((Real.toNNReal (d.pmf k) : NNReal) : ENNReal) := rfl
  have hs : ∀ k : ℤ, Real.toNNReal (d.pmf k) • T k = d.pmf k * T k := fun k => by
    rw [NNReal.smul_def, Real.coe_toNNReal _ (h0 k), smul_eq_mul]
  have hi : Integrable (fun k : ℤ => d.pmf k * T k) Measure.count := by
    rw [integrable_count_iff]
    simpa only [Real.norm_of_nonneg (hn _)] using hz.summable
  constructor
  · rw [e, integrable_withDensity_iff_integrable_smul hm]
    simpa only [hs] using hi
  · rw [e, integral_withDensity_eq_integral_smul hm]
    simp only [hs]
    rw [integral_countable hi]
    simp only [Measure.real, Measure.count_singleton, ENNReal.toReal_one, one_smul]
    exact hz.tsum_eq

theorem disc_prob (h : HasSum (fun k : ℕ => d.pmf k) 1) : IsProbabilityMeasure (discLaw d) := by
  have h1 := disc_mean hneg h0 (T := fun _ => 1) (fun _ => zero_le_one) (m := 1) (by simpa using h)
  have hfin : IsFiniteMeasure (discLaw d) := by
    have := (integrable_const_iff (c := (1 : ℝ))).1 h1.1
    exact this.resolve_left one_ne_zero
  refine ⟨?_⟩
  have h2 := h1.2
  rw [integral_const, smul_eq_mul, mul_one, Measure.real] at h2
  rw [← ENNReal.toReal_eq_one_iff]
  exact h2

end

/-! ## Poisson -/

theorem poisson_total (l : ℝ) : HasSum (fun k : ℕ => (Poisson.dist ⟨l⟩).pmf k) 1 := by
  simp only [Poisson.pmf_nat]
  have h := (NormedSpace.expSeries_div_hasSum_exp (𝔸 := ℝ) l).mul_left (Real.exp (-l))
  rw [← Real.exp_eq_exp_ℝ, ← Real.exp_add, neg_add_cancel, Real.exp_zero] at h
  simpa only [mul_div_assoc] using h

theorem poisson_mean (l : ℝ) : HasSum (fun k : ℕ => (Poisson.dist ⟨l⟩).pmf k * ((k : ℤ) : ℝ)) l := by
  have h := (poisson_total l).mul_left l
  rw [mul_one] at h
  rw [← hasSum_nat_add_iff' 1]
  simp only [Finset.range_one, Finset.sum_singleton, CharP.cast_eq_zero, Int.cast_zero, mul_zero, sub_zero]
  refine (congrArg (HasSum · l) (funext fun k : ℕ => ?_)).mp h
  simp only [Poisson.pmf_nat, Nat.factorial_succ]
  push_cast
  have : (k.factorial : ℝ) ≠ 0 := by exact_mod_cast k.factorial_ne_zero
  field_simp
  ring

theorem poisson_prob {l : ℝ} (hl : 0 ≤ l) : IsProbabilityMeasure (discLaw (Poisson.dist ⟨l⟩)) :=
  disc_prob (poisson_neg l) (poisson_nonneg l hl) (poisson_total l)

theorem poisson_expect {l : ℝ} (hl : 0 ≤ l) : Integrable (fun k : ℤ => (k : ℝ)) (discLaw (Poisson.dist ⟨l⟩)) ∧
    ∫ k : ℤ, (k : ℝ) ∂discLaw (Poisson.dist ⟨l⟩) = l :=
  disc_mean (poisson_neg l) (poisson_nonneg l hl) (fun k => by simp) (poisson_mean l)

/-! ## Binomial -/

theorem binomial_neg (n : ℕ) (p : ℝ) (k : ℤ) (hk : k < 0) : (Binomial.dist ⟨n, p⟩).pmf k = 0 := by
  simp [Binomial.dist, Disc.pmf, DiscFamily.pmf0, not_le.2 hk]

theorem binomial_gt (n k : ℕ) (hk : n < k) (p : ℝ) : (Binomial.dist ⟨n, p⟩).pmf k = 0 := by
  simp [Binomial.dist, Disc.pmf, DiscFamily.pmf0, not_le.2 hk]

theorem binomial_nonneg (n : ℕ) {p : ℝ} (hp : 0 ≤ p) (hp1 : p ≤ 1) (k : ℤ) : 0 ≤ (Binomial.dist ⟨n, p⟩).pmf k := by
  rcases lt_or_ge k 0 with hk | hk
  · rw [binomial_neg n p k hk]
  · obtain ⟨m, rfl⟩ := Int.eq_ofNat_of_zero_le hk
    rcases lt_or_ge n m with h | h
    · rw [binomial_gt n m h]
    · rw [Binomial.pmf_nat n m h]
      have : 0 ≤ 1 - p := by linarith
      positivity

theorem binomial_hasSum (n : ℕ) (p : ℝ) (T : ℕ → ℝ) :
    HasSum (fun k : ℕ => (Binomial.dist ⟨n, p⟩).pmf k * T k)
      (∑ k ∈ Finset.range (n + 1), (bernsteinPolynomial ℝ n k).eval p * T k) := by
  have : ∀ k ∈ Finset.range (n + 1), (bernsteinPolynomial ℝ n k).eval p * T k =
      (Binomial.dist ⟨n, p⟩).pmf k * T k := by
    intro k hk
    have hk' : k ≤ n := Nat.lt_succ_iff.1 (Finset.mem_range.1 hk)
    rw [Binomial.pmf_nat n k hk']
    simp [bernsteinPolynomial]
  rw [Finset.sum_congr rfl this]
  refine hasSum_sum_of_ne_finset_zero fun k hk => ?_
  rw [binomial_gt n k (by simpa [Nat.lt_succ_iff] using hk), zero_mul]

theorem binomial_total (n : ℕ) (p : ℝ) : HasSum (fun k : ℕ => (Binomial.dist ⟨n, p⟩).pmf k) 1 := by
  have h := binomial_hasSum n p fun _ => 1
  have e := congrArg (Polynomial.eval p) (bernsteinPolynomial.sum ℝ n)
  rw [Polynomial.eval_finsetSum, Polynomial.eval_one] at e
  simpa [e] using h

theorem binomial_mean (n : ℕ) (p : ℝ) : HasSum (fun k : ℕ => (Binomial.dist ⟨n, p⟩).pmf k * ((k : ℤ) : ℝ)) (n * p) := by
  have h := binomial_hasSum n p fun k => k
  have e := congrArg (Polynomial.eval p) (bernsteinPolynomial.sum_smul ℝ n)
  rw [Polynomial.eval_finsetSum] at e
  simp only [nsmul_eq_mul, Polynomial.eval_mul, Polynomial.eval_natCast, Polynomial.eval_X] at e
  simp only [mul_comm _ ((_ : ℕ) : ℝ)] at h e
  rw [e] at h
  simpa [mul_comm] using h

theorem binomial_prob (n : ℕ) {p : ℝ} (hp : 0 ≤ p) (hp1 : p ≤ 1) :
    IsProbabilityMeasure (discLaw (Binomial.dist ⟨n, p⟩)) :=
  disc_prob (binomial_neg n p) (binomial_nonneg n hp hp1) (binomial_total n p)

theorem binomial_expect (n : ℕ) {p : ℝ} (hp : 0 ≤ p) (hp1 : p ≤ 1) :
    Integrable (fun k : ℤ => (k : ℝ)) (discLaw (Binomial.dist ⟨n, p⟩)) ∧
    ∫ k : ℤ, (k : ℝ) ∂discLaw (Binomial.dist ⟨n, p⟩) = n * p :=
  disc_mean (binomial_neg n p) (binomial_nonneg n hp hp1) (fun k => by simp) (binomial_mean n p)

/-! ## Negative binomial -/

theorem nbCoef_eq_choose (a : ℝ) (k : ℕ) : Ring.choose (a + k - 1) k = nbCoef a k := by
  rw [← Ring.multichoose_eq, nbCoef]
  have h := Ring.factorial_nsmul_multichoose_eq_ascPochhammer a k
  rw [Polynomial.ascPochhammer_smeval_eq_eval, nsmul_eq_mul] at h
  have e : ∀ k : ℕ, (ascPochhammer ℝ k).eval a = ∏ j ∈ Finset.range k, (a + j) := by
    intro k
    induction k with
    | zero => simp
    | succ k ih => rw [ascPochhammer_succ_eval, Finset.prod_range_succ, ih]
  rw [← e, ← h]
  have : (k.factorial : ℝ) ≠ 0 := by exact_mod_cast k.factorial_ne_zero
  field_simp

theorem nbCoef_hasSum (a : ℝ) {q : ℝ} (hq : |q| < 1) : HasSum (fun k : ℕ => nbCoef a k * q ^ k) (1 / (1 - q) ^ a) := by
  have h := (Real.one_div_one_sub_rpow_hasFPowerSeriesOnBall_zero a).hasSum (y := q)
    (by simpa [enorm_eq_nnnorm, ← NNReal.coe_lt_coe] using hq)
  simpa [FormalMultilinearSeries.ofScalars_apply_eq, nbCoef_eq_choose, mul_comm] using h

theorem nb_total {r p : ℝ} (hr : 0 < r) (hp : 0 < p) (hp1 : p ≤ 1) :
    HasSum (fun k : ℕ => (NegativeBinomial.dist ⟨r, p⟩).pmf k) 1 := by
  have h := (nbCoef_hasSum r (q := 1 - p) (by rw [abs_lt]; constructor <;> linarith)).mul_left (p ^ r)
  rw [sub_sub_cancel, mul_one_div_cancel (Real.rpow_pos_of_pos hp r).ne'] at h
  refine (congrArg (HasSum · 1) (funext fun k : ℕ => ?_)).mp h
  rw [NegativeBinomial.pmf_nat, choose_eq_nbCoef r hr]
  ring

theorem nbCoef_shift (r : ℝ) (k : ℕ) : ((k : ℝ) + 1) * nbCoef r (k + 1) = r * nbCoef (r + 1) k := by
  simp only [nbCoef, Nat.factorial_succ]
  rw [Finset.prod_range_succ']
  have : (k.factorial : ℝ) ≠ 0 := by exact_mod_cast k.factorial_ne_zero
  push_cast
  rw [Finset.prod_congr rfl fun (j : ℕ) _ => show r + ((j : ℝ) + 1) = r + 1 + j by ring]
  field_simp
  ring

theorem nb_mean {r p : ℝ} (hr : 0 < r) (hp : 0 < p) (hp1 : p ≤ 1) :
    HasSum (fun k : ℕ => (NegativeBinomial.dist ⟨r, p⟩).pmf k * ((k : ℤ) : ℝ)) (r * (1 - p) / p) := by
  have h := (nb_total (r := r + 1) (by positivity) hp hp1).mul_left (r * (1 - p) / p)
  rw [mul_one] at h
  rw [← hasSum_nat_add_iff' 1]
  simp only [Finset.range_one, Finset.sum_singleton, CharP.cast_eq_zero, Int.cast_zero, mul_zero, sub_zero]
  refine (congrArg (HasSum · (r * (1 - p) / p)) (funext fun k : ℕ => ?_)).mp h
  rw [NegativeBinomial.pmf_nat, NegativeBinomial.pmf_nat, choose_eq_nbCoef r hr, choose_eq_nbCoef (r + 1) (by positivity),
    Real.rpow_add hp, Real.rpow_one]
  have := nbCoef_shift r k
  push_cast
  have e : nbCoef r (k + 1) * p ^ r * (1 - p) ^ (k + 1) * ((k : ℝ) + 1) =
      (((k : ℝ) + 1) * nbCoef r (k + 1)) * p ^ r * (1 - p) ^ (k + 1) := by ring
  rw [e, this, pow_succ]
  field_simp

theorem nb_prob {r p : ℝ} (hr : 0 < r) (hp : 0 < p) (hp1 : p ≤ 1) :
    IsProbabilityMeasure (discLaw (NegativeBinomial.dist ⟨r, p⟩)) :=
  disc_prob (nb_neg r p) (nb_nonneg r p hr hp.le hp1) (nb_total hr hp hp1)

theorem nb_expect {r p : ℝ} (hr : 0 < r) (hp : 0 < p) (hp1 : p ≤ 1) :
    Integrable (fun k : ℤ => (k : ℝ)) (discLaw (NegativeBinomial.dist ⟨r, p⟩)) ∧
    ∫ k : ℤ, (k : ℝ) ∂discLaw (NegativeBinomial.dist ⟨r, p⟩) = r * (1 - p) / p :=
  disc_mean (nb_neg r p) (nb_nonneg r p hr hp.le hp1) (fun k => by simp) (nb_mean hr hp hp1)

/-! ## Geometric -/

theorem geometric_neg (p : ℝ) (one_start : Bool) (k : ℤ) (hk : k < 0) : (Geometric.dist ⟨p, one_start⟩).pmf k = 0 := by
  cases one_start
  · simp only [Geometric.dist, Disc.pmf, DiscFamily.pmf0]
    rw [if_neg (by simp; omega)]
  · simp only [Geometric.dist, Disc.pmf, DiscFamily.pmf0]
    rw [if_neg (by simp; omega)]

theorem geometric_zero (p : ℝ) : (Geometric.dist ⟨p, true⟩).pmf ((0 : ℕ) : ℤ) = 0 := by
  simp [Geometric.dist, Disc.pmf, DiscFamily.pmf0]

theorem geometric_nonneg {p : ℝ} (hp : 0 ≤ p) (hp1 : p ≤ 1) (one_start : Bool) (k : ℤ) :
    0 ≤ (Geometric.dist ⟨p, one_start⟩).pmf k := by
  have h1 : 0 ≤ 1 - p := by linarith
  rcases lt_or_ge k 0 with hk | hk
  · rw [geometric_neg p _ k hk]
  · obtain ⟨m, rfl⟩ := Int.eq_ofNat_of_zero_le hk
    cases one_start
    · rw [Geometric.pmf_zero_start]; positivity
    · rcases Nat.eq_zero_or_pos m with rfl | hm
      · rw [geometric_zero]
      · rw [Geometric.pmf_one_start p m hm]; positivity

theorem geometric_total {p : ℝ} (hp : 0 < p) (hp1 : p ≤ 1) (one_start : Bool) :
    HasSum (fun k : ℕ => (Geometric.dist ⟨p, one_start⟩).pmf k) 1 := by
  have h := (hasSum_geometric_of_lt_one (by linarith : 0 ≤ 1 - p) (by linarith)).mul_right p
  rw [sub_sub_cancel, inv_mul_cancel₀ hp.ne'] at h
  cases one_start
  · simpa only [Geometric.pmf_zero_start] using h
  · rw [← hasSum_nat_add_iff' 1]
    simp only [Finset.range_one, Finset.sum_singleton, geometric_zero, sub_zero]
    refine (congrArg (HasSum · 1) (funext fun k : ℕ => ?_)).mp h
    rw [Geometric.pmf_one_start p (k + 1) (by omega), Nat.add_sub_cancel]

theorem geometric_mean {p : ℝ} (hp : 0 < p) (hp1 : p ≤ 1) (one_start : Bool) :
    HasSum (fun k : ℕ => (Geometric.dist ⟨p, one_start⟩).pmf k * ((k : ℤ) : ℝ))
      (if one_start then 1 / p else 1 / p - 1) := by
  have h := (hasSum_coe_mul_geometric_of_norm_lt_one (r := 1 - p)
    (by rw [Real.norm_eq_abs, abs_lt]; constructor <;> linarith)).mul_right p
  have hz : HasSum (fun k : ℕ => (Geometric.dist ⟨p, false⟩).pmf k * ((k : ℤ) : ℝ)) (1 / p - 1) := by
    have e : (1 - p) / (1 - (1 - p)) ^ 2 * p = 1 / p - 1 := by
      rw [sub_sub_cancel]; field_simp
    rw [e] at h
    refine (congrArg (HasSum · _) (funext fun k : ℕ => ?_)).mp h
    rw [Geometric.pmf_zero_start, Int.cast_natCast]
    ring
  cases one_start
  · simpa using hz
  · have ht := hz.add (geometric_total hp hp1 false)
    rw [sub_add_cancel] at ht
    simp only [if_true]
    rw [← hasSum_nat_add_iff' 1]
    simp only [Finset.range_one, Finset.sum_singleton, geometric_zero, zero_mul, sub_zero]
    refine (congrArg (HasSum · _) (funext fun k : ℕ => ?_)).mp ht
    rw [Geometric.pmf_one_start p (k + 1) (by omega), Nat.add_sub_cancel, Geometric.pmf_zero_start]
    push_cast
    ring

theorem geometric_prob {p : ℝ} (hp : 0 < p) (hp1 : p ≤ 1) (one_start : Bool) :
    IsProbabilityMeasure (discLaw (Geometric.dist ⟨p, one_start⟩)) :=
  disc_prob (geometric_neg p one_start) (geometric_nonneg hp.le hp1 one_start) (geometric_total hp hp1 one_start)

theorem geometric_expect {p : ℝ} (hp : 0 < p) (hp1 : p ≤ 1) (one_start : Bool) :
    Integrable (fun k : ℤ => (k : ℝ)) (discLaw (Geometric.dist ⟨p, one_start⟩)) ∧
    ∫ k : ℤ, (k : ℝ) ∂discLaw (Geometric.dist ⟨p, one_start⟩) = if one_start then 1 / p else 1 / p - 1 :=
  disc_mean (geometric_neg p one_start) (geometric_nonneg hp.le hp1 one_start) (fun k => by simp)
    (geometric_mean hp hp1 one_start)

end Conj
