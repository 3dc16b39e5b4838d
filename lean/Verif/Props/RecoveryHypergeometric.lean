import Verif.Props.Consistency
import Verif.Props.DistMeaning
import Mathlib.Data.Nat.Choose.Vandermonde

/-!
# The hypergeometric example of `scripts/parameter-recovery.py` (C92)

`scripts/parameter-recovery.py:87-109` ("TODO: Correct this example.") draws `m` independent counts, each the number
of marked items among `n` taken from `N` of which `k` are marked, and hands `n=len(data), x_total=data.sum()` to
`hypergeometric_beta_binomial` with `prior=BetaBinomial(n=N, ...)`.  The second parameter of what is returned is
`prior.beta + N - data.sum()`: it does not stay positive, so that from some sample size on what the script plots is
not a distribution at all.  Without marked items nothing is learnt either.
-/

open MeasureTheory Set Filter Topology

namespace Conj

open Scipy Spec

variable {Ω : Type} [MeasurableSpace Ω] {Q : Measure Ω}

section

variable {N k n : ℕ}

theorem hypergeometric_neg (x : ℤ) (hx : x < 0) : (Hypergeometric.dist ⟨(N : ℝ), (k : ℝ), (n : ℝ)⟩).pmf x = 0 := by
  simp only [Hypergeometric.dist, Disc.pmf, sub_zero, DiscFamily.pmf0]
  rw [if_neg]
  rintro ⟨h1, -⟩
  have h0 := (le_max_left _ _).trans h1
  have : (0 : ℤ) ≤ x := by exact_mod_cast h0
  omega

theorem hypergeometric_nonneg (hk : k ≤ N) (hn : n ≤ N) (x : ℤ) :
    0 ≤ (Hypergeometric.dist ⟨(N : ℝ), (k : ℝ), (n : ℝ)⟩).pmf x := by
  rcases lt_or_ge x 0 with h | h
  · rw [hypergeometric_neg x h]
  · obtain ⟨m, rfl⟩ := Int.eq_ofNat_of_zero_le h
    rw [C52_hypergeometric N k n m hk hn]
    split_ifs <;> positivity

theorem hypergeometric_hasSum (hk : k ≤ N) (hn : n ≤ N) (T : ℕ → ℝ) :
    HasSum (fun x : ℕ => (Hypergeometric.dist ⟨(N : ℝ), (k : ℝ), (n : ℝ)⟩).pmf x * T x)
      ((∑ x ∈ Finset.range (n + 1), (k.choose x * (N - k).choose (n - x) : ℝ) * T x) / N.choose n) := by
  have : ∀ x ∈ Finset.range (n + 1), (k.choose x * (N - k).choose (n - x) : ℝ) * T x / N.choose n =
      (Hypergeometric.dist ⟨(N : ℝ), (k : ℝ), (n : ℝ)⟩).pmf x * T x := by
    intro x hx
    have hx' : x ≤ n := Nat.lt_succ_iff.1 (Finset.mem_range.1 hx)
    rw [C52_hypergeometric N k n x hk hn, if_pos hx']
    ring
  rw [Finset.sum_div, Finset.sum_congr rfl this]
  refine hasSum_sum_of_ne_finset_zero fun x hx => ?_
  rw [C52_hypergeometric N k n x hk hn, if_neg (by simpa [Nat.lt_succ_iff] using hx), zero_mul]

theorem vandermonde_range (a b n : ℕ) :
    ∑ x ∈ Finset.range (n + 1), a.choose x * b.choose (n - x) = (a + b).choose n := by
  rw [Nat.add_choose_eq, Finset.Nat.sum_antidiagonal_eq_sum_range_succ fun i j => a.choose i * b.choose j]

theorem hypergeometric_total (hk : k ≤ N) (hn : n ≤ N) :
    HasSum (fun x : ℕ => (Hypergeometric.dist ⟨(N : ℝ), (k : ℝ), (n : ℝ)⟩).pmf x) 1 := by
  have h := hypergeometric_hasSum hk hn fun _ => 1
  have e := vandermonde_range k (N - k) n
  rw [Nat.add_sub_cancel' hk] at e
  have e' : (∑ x ∈ Finset.range (n + 1), (k.choose x * (N - k).choose (n - x) : ℝ)) = N.choose n := by
    rw [← e]; push_cast; rfl
  simp only [mul_one] at h
  have hc : (N.choose n : ℝ) ≠ 0 := by exact_mod_cast (Nat.choose_pos hn).ne'
  rwa [e', div_self hc] at h

theorem hypergeometric_mean (hk : k ≤ N) (hn : n ≤ N) :
    HasSum (fun x : ℕ => (Hypergeometric.dist ⟨(N : ℝ), (k : ℝ), (n : ℝ)⟩).pmf x * ((x : ℤ) : ℝ)) (n * k / N : ℝ) := by
  have h := hypergeometric_hasSum hk hn fun x => ((x : ℤ) : ℝ)
  have hc : (N.choose n : ℝ) ≠ 0 := by exact_mod_cast (Nat.choose_pos hn).ne'
  convert h using 1
  rcases n with _ | n
  · simp
  rcases k with _ | k
  · rw [Finset.sum_range_succ']
    simp
  obtain ⟨M, rfl⟩ : ∃ M, N = M + 1 := ⟨N - 1, by omega⟩
  have e := vandermonde_range k (M - k) n
  rw [Nat.add_sub_cancel' (by omega)] at e
  have e' : (∑ x ∈ Finset.range (n + 1), (k.choose x * (M - k).choose (n - x) : ℝ)) = M.choose n := by
    rw [← e]; push_cast; rfl
  rw [Finset.sum_range_succ']
  have : ∀ x ∈ Finset.range (n + 1), (((k + 1).choose (x + 1) * (M + 1 - (k + 1)).choose (n + 1 - (x + 1)) : ℝ)) *
      (((x + 1 : ℕ) : ℤ) : ℝ) = (k + 1) * (k.choose x * (M - k).choose (n - x) : ℝ) := by
    intro x _
    have h1 : ((k + 1).choose (x + 1) : ℝ) * (x + 1) = (k + 1) * k.choose x := by
      exact_mod_cast (Nat.add_one_mul_choose_eq k x).symm
    rw [Nat.add_sub_add_right, Nat.add_sub_add_right]
    push_cast
    linear_combination ((M - k).choose (n - x) : ℝ) * h1
  rw [Finset.sum_congr rfl this, ← Finset.mul_sum, e']
  have h2 : ((M + 1).choose (n + 1) : ℝ) * (n + 1) = (M + 1) * M.choose n := by
    exact_mod_cast (Nat.add_one_mul_choose_eq M n).symm
  have hM : (M : ℝ) + 1 ≠ 0 := by positivity
  rw [eq_div_iff hc]
  push_cast
  field_simp
  simp only [Int.cast_zero, CharP.cast_eq_zero, mul_zero, add_zero]
  linear_combination (k + 1 : ℝ) * h2

end

/-- C52: `Hypergeometric(N, k, n).dist` is a probability distribution and its mean is `n k / N` -/
theorem C52_hypergeometric_law {N k n : ℕ} (hk : k ≤ N) (hn : n ≤ N) :
    IsProbabilityMeasure (discLaw (Hypergeometric.dist ⟨(N : ℝ), (k : ℝ), (n : ℝ)⟩)) ∧
    Integrable (fun x : ℤ => (x : ℝ)) (discLaw (Hypergeometric.dist ⟨(N : ℝ), (k : ℝ), (n : ℝ)⟩)) ∧
    ∫ x : ℤ, (x : ℝ) ∂discLaw (Hypergeometric.dist ⟨(N : ℝ), (k : ℝ), (n : ℝ)⟩) = n * k / N :=
  ⟨disc_prob hypergeometric_neg (hypergeometric_nonneg hk hn) (hypergeometric_total hk hn),
    disc_mean hypergeometric_neg (hypergeometric_nonneg hk hn) (fun k => by simp) (hypergeometric_mean hk hn)⟩

/-- C92 fails for `hypergeometric()` of `scripts/parameter-recovery.py`: whatever the prior, if there are marked items
and each sample takes some, almost surely the second parameter returned tends to minus infinity, so that it is negative,
and the result not a distribution, from some number of samples on -/
theorem C92_hypergeometric_breaks {X : ℕ → Ω → ℤ} {N k n : ℕ} (hk : k ≤ N) (hn : n ≤ N) (hk0 : 0 < k) (hn0 : 0 < n)
    (prior : BetaBinomial ℝ) (h : IIDFrom Q X (discLaw (Hypergeometric.dist ⟨(N : ℝ), (k : ℝ), (n : ℝ)⟩))) :
    ∀ᵐ ω ∂Q,
      Tendsto (fun m : ℕ => (hypergeometric_beta_binomial (∑ i ∈ Finset.range m, (X i ω : ℝ)) (m : ℝ) prior).beta)
        atTop atBot ∧
      ∀ᶠ m : ℕ in atTop, (hypergeometric_beta_binomial (∑ i ∈ Finset.range m, (X i ω : ℝ)) (m : ℝ) prior).beta < 0 := by
  obtain ⟨-, hi, hm⟩ := C52_hypergeometric_law hk hn
  filter_upwards [iid_average h (T := fun x => (x : ℝ)) (measurable_int _) hi] with ω hω
  rw [hm] at hω
  have hN : 0 < N := hk0.trans_le hk
  have ht := atTop_of_average hω (by positivity)
  have : Tendsto (fun m : ℕ => (hypergeometric_beta_binomial (∑ i ∈ Finset.range m, (X i ω : ℝ)) (m : ℝ) prior).beta)
      atTop atBot := by
    simp only [hypergeometric_beta_binomial]
    refine tendsto_atBot_add_const_left _ _ ?_
    simp only [sub_eq_add_neg]
    exact tendsto_atBot_add_const_left _ _ (tendsto_neg_atTop_atBot.comp ht)
  exact ⟨this, this.eventually_lt_atBot 0⟩

/-- C92: with no marked items (or samples of no items) almost surely what is returned does not depend on the number of
samples, so that the example does not concentrate on the true count there either -/
theorem C92_hypergeometric_stuck {X : ℕ → Ω → ℤ} {N k n : ℕ} (hk : k ≤ N) (hn : n ≤ N) (h0 : k = 0 ∨ n = 0)
    (prior : BetaBinomial ℝ) (h : IIDFrom Q X (discLaw (Hypergeometric.dist ⟨(N : ℝ), (k : ℝ), (n : ℝ)⟩))) :
    ∀ᵐ ω ∂Q, ∀ m : ℕ, hypergeometric_beta_binomial (∑ i ∈ Finset.range m, (X i ω : ℝ)) (m : ℝ) prior =
      ⟨prior.n, prior.alpha, prior.beta + prior.n⟩ := by
  have hs : ∀ᵐ x : ℤ ∂discLaw (Hypergeometric.dist ⟨(N : ℝ), (k : ℝ), (n : ℝ)⟩), x = 0 := by
    refine disc_ae fun x hx => ?_
    rcases lt_or_ge x 0 with hlt | hge
    · exact hypergeometric_neg x hlt
    · obtain ⟨m, rfl⟩ := Int.eq_ofNat_of_zero_le hge
      have hm : 0 < m := by omega
      rw [C52_hypergeometric N k n m hk hn]
      rcases h0 with rfl | rfl
      · rw [Nat.choose_eq_zero_of_lt hm]
        simp
      · rw [if_neg (by omega)]
  filter_upwards [iid_forall h hs] with ω hω m
  simp [hω, hypergeometric_beta_binomial]

/-- the numbers of the script: `N = 100`, `k = 10`, `n = 10`, prior `BetaBinomial(n=100, alpha=1, beta=1)` -/
example : ∃ (Q : Measure (ℕ → ℤ)) (X : ℕ → (ℕ → ℤ) → ℤ), IsProbabilityMeasure Q ∧
    IIDFrom Q X (discLaw (Hypergeometric.dist ⟨((100 : ℕ) : ℝ), ((10 : ℕ) : ℝ), ((10 : ℕ) : ℝ)⟩)) ∧ ∀ᵐ ω ∂Q,
      ∀ᶠ m : ℕ in atTop,
        (hypergeometric_beta_binomial (∑ i ∈ Finset.range m, (X i ω : ℝ)) (m : ℝ) ⟨100, 1, 1⟩).beta < 0 := by
  haveI := (C52_hypergeometric_law (N := 100) (k := 10) (n := 10) (by norm_num) (by norm_num)).1
  obtain ⟨Q, X, hQ, hX⟩ := exists_iid (discLaw (Hypergeometric.dist ⟨((100 : ℕ) : ℝ), ((10 : ℕ) : ℝ), ((10 : ℕ) : ℝ)⟩))
  exact ⟨Q, X, hQ, hX, (C92_hypergeometric_breaks (by norm_num) (by norm_num) (by norm_num) (by norm_num) _ hX).mono
    fun _ h => h.2⟩

end Conj
