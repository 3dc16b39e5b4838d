import Verif.Props.PredictiveScalar
import Verif.Props.DistMeaning

/-!
# Drawing without replacement (C17)

C17 is false of the code: it overwrites the number of draws by the population size.
-/

open MeasureTheory Set Real

namespace Conj

open Scipy Spec

/-- Full statement of C17. The unknown is the number `m` of successes in a population of `N`;
`x` successes were seen in `n` draws. -/
def C17_statement (N n x : ℕ) (a b : ℝ) : Prop :=
  IsPosteriorSum (Finset.range (N + 1))
    (fun m : ℕ => (BetaBinomial.dist { n := (N : ℝ), alpha := a, beta := b }).pmf m)
    (fun m : ℕ => (Hypergeometric.dist { N := (N : ℝ), k := (m : ℝ), n := (n : ℝ) }).pmf x)
    (fun m : ℕ => (hypergeometric_beta_binomial (x : ℝ) (n : ℝ)
      { n := (N : ℝ), alpha := a, beta := b }).dist.pmf m)

theorem BetaBinomial.pmf_nat (N m : ℕ) (hm : m ≤ N) (a b : ℝ) :
    (BetaBinomial.dist { n := (N : ℝ), alpha := a, beta := b }).pmf m =
      N.choose m * betaFn (m + a) (N - m + b) / betaFn a b := by
  simp only [BetaBinomial.dist, Disc.pmf, sub_zero, DiscFamily.pmf0]
  rw [if_pos ⟨by simp, by exact_mod_cast hm⟩, Int.cast_natCast, choose_natCast hm]

theorem BetaBinomial.pmf_pos (N m : ℕ) (hm : m ≤ N) (a b : ℝ) (ha : 0 < a) (hb : 0 < b) :
    0 < (BetaBinomial.dist { n := (N : ℝ), alpha := a, beta := b }).pmf m := by
  rw [BetaBinomial.pmf_nat N m hm]
  have h0 : (0 : ℝ) ≤ N - m := by rw [sub_nonneg]; exact_mod_cast hm
  have h1 := betaFn_pos ha hb
  have h2 : 0 < betaFn (m + a) (N - m + b) := betaFn_pos (by positivity) (by positivity)
  have h3 : (0 : ℝ) < N.choose m := by exact_mod_cast Nat.choose_pos hm
  positivity

/-- the beta-binomial pmf sums to one -/
theorem BetaBinomial.sum_pmf (N : ℕ) (a b : ℝ) (ha : 0 < a) (hb : 0 < b) :
    ∑ m ∈ Finset.range (N + 1),
      (BetaBinomial.dist { n := (N : ℝ), alpha := a, beta := b }).pmf (m : ℤ) = 1 := by
  have hd := Beta.isDensity ⟨a, b⟩ ha hb
  have hp : ∀ m : ℕ, IsPredictive volume (Ioo 0 1) (fun p => (Binomial.dist ⟨(N : ℝ), p⟩).pmf m)
      (Beta.dist ⟨a, b⟩).pdf
      ((BetaBinomial.dist { n := (N : ℝ), alpha := a, beta := b }).pmf (m : ℤ)) :=
    fun m => C24_binomial_beta_predictive N ⟨a, b⟩ ha hb m
  rw [Finset.sum_congr rfl (fun m _ => (hp m).2), ← integral_finsetSum _ (fun m _ => (hp m).1)]
  refine Eq.trans ?_ hd.2.2
  apply setIntegral_congr_fun measurableSet_Ioo
  intro p hpp
  simp only
  rw [← Finset.sum_mul]
  have : ∑ m ∈ Finset.range (N + 1), (Binomial.dist ⟨(N : ℝ), p⟩).pmf (m : ℤ) = 1 := by
    rw [Finset.sum_congr rfl (fun m hm => Binomial.pmf_nat N m
      (Nat.lt_succ_iff.1 (Finset.mem_range.1 hm)) p)]
    have := (add_pow p (1 - p) N).symm
    rw [add_sub_cancel, one_pow] at this
    refine Eq.trans ?_ this
    exact Finset.sum_congr rfl (fun m _ => by ring)
  rw [this, one_mul]

/-- The true posterior: given `x` successes in `n` draws, the number of successes among the
`N - n` undrawn is BetaBinomial(N - n, a + x, b + n - x). (Shows that C17 is a meaningful
statement: the Bayes posterior exists.) -/
theorem C17_true_posterior (N n x : ℕ) (hn : n ≤ N) (hx : x ≤ n) (a b : ℝ) (ha : 0 < a)
    (hb : 0 < b) :
    IsPosteriorSum (Finset.range (N + 1))
      (fun m : ℕ => (BetaBinomial.dist { n := (N : ℝ), alpha := a, beta := b }).pmf m)
      (fun m : ℕ => (Hypergeometric.dist { N := (N : ℝ), k := (m : ℝ), n := (n : ℝ) }).pmf x)
      (fun m : ℕ => (BetaBinomial.dist ⟨((N - n : ℕ) : ℝ), a + x, b + (n - x)⟩).pmf ((m : ℤ) - x)) := by
  have hnx : (0 : ℝ) ≤ n - x := by rw [sub_nonneg]; exact_mod_cast hx
  have hB := betaFn_pos ha hb
  have ha' : 0 < a + x := by positivity
  have hb' : 0 < b + (n - x) := by positivity
  have hB' := betaFn_pos ha' hb'
  set c : ℝ := n.choose x * betaFn (a + x) (b + (n - x)) / betaFn a b with hc
  have hcpos : 0 < c := by
    have : (0 : ℝ) < n.choose x := by exact_mod_cast Nat.choose_pos hx
    positivity
  have hneg : ∀ z : ℤ, (z < 0 ∨ ((N - n : ℕ) : ℤ) < z) →
      (BetaBinomial.dist ⟨((N - n : ℕ) : ℝ), a + x, b + (n - x)⟩).pmf z = 0 := by
    intro z hz
    simp only [BetaBinomial.dist, Disc.pmf, sub_zero, DiscFamily.pmf0]
    rw [if_neg]
    rintro ⟨h1, h2⟩
    have h2' : z ≤ ((N - n : ℕ) : ℤ) := by exact_mod_cast h2
    omega
  have key : ∀ m ∈ Finset.range (N + 1),
      (BetaBinomial.dist { n := (N : ℝ), alpha := a, beta := b }).pmf (m : ℤ) *
      (Hypergeometric.dist { N := (N : ℝ), k := (m : ℝ), n := (n : ℝ) }).pmf (x : ℤ) =
      c * (BetaBinomial.dist ⟨((N - n : ℕ) : ℝ), a + x, b + (n - x)⟩).pmf ((m : ℤ) - x) := by
    intro m hm
    have hmN : m ≤ N := Nat.lt_succ_iff.1 (Finset.mem_range.1 hm)
    rw [C52_hypergeometric N m n x hmN hn, if_pos hx, BetaBinomial.pmf_nat N m hmN]
    by_cases h1 : x ≤ m
    · by_cases h2 : n - x ≤ N - m
      · obtain ⟨j, rfl⟩ := Nat.exists_eq_add_of_le h1
        have hj : j ≤ N - n := by omega
        have e0 : (((x + j : ℕ) : ℤ) - x) = (j : ℤ) := by push_cast; ring
        rw [e0, BetaBinomial.pmf_nat (N - n) j hj]
        have eN : ((N - n : ℕ) : ℝ) = (N : ℝ) - n := by push_cast [hn]; ring
        have e1 : ((x + j : ℕ) : ℝ) + a = j + (a + x) := by push_cast; ring
        have e2 : (N : ℝ) - ((x + j : ℕ) : ℝ) + b = ((N - n : ℕ) : ℝ) - j + (b + (n - x)) := by
          rw [eN]; push_cast; ring
        rw [e1, e2]
        have hch : (N.choose (x + j) : ℝ) * ((x + j).choose x * (N - (x + j)).choose (n - x)) =
            N.choose n * (n.choose x * (N - n).choose j) := by
          have : N.choose (x + j) * ((x + j).choose x * (N - (x + j)).choose (n - x)) =
              N.choose n * (n.choose x * (N - n).choose j) := by
            have i1 := Nat.choose_mul (n := N) (k := x + j) (s := x) (by omega) 
            have i2 := Nat.choose_mul (n := N) (k := n) (s := x) hx
            have i3 := Nat.choose_mul (n := N - x) (k := j + (n - x)) (s := j) (by omega)
            have i4 := Nat.choose_mul (n := N - x) (k := j + (n - x)) (s := n - x) (by omega)
            have e5 : x + j - x = j := by omega
            have e6 : N - x - j = N - (x + j) := by omega
            have e7 : j + (n - x) - j = n - x := by omega
            have e8 : N - x - (n - x) = N - n := by omega
            have e9 : j + (n - x) - (n - x) = j := by omega
            rw [e5] at i1
            rw [e6, e7] at i3
            rw [e8, e9] at i4
            have e10 : (j + (n - x)).choose j = (j + (n - x)).choose (n - x) :=
              Nat.choose_symm_add
            calc _ = (N.choose (x + j) * (x + j).choose x) * (N - (x + j)).choose (n - x) := by ring
              _ = N.choose x * ((N - x).choose j * (N - (x + j)).choose (n - x)) := by
                  rw [i1]; ring
              _ = N.choose x * ((N - x).choose (n - x) * (N - n).choose j) := by
                  rw [← i3, ← i4, e10]
              _ = (N.choose n * n.choose x) * (N - n).choose j := by rw [i2]; ring
              _ = _ := by ring
          exact_mod_cast this
        have hNn : (0 : ℝ) < N.choose n := by exact_mod_cast Nat.choose_pos hn
        rw [hc]
        field_simp
        linear_combination (betaFn (↑j + (a + ↑x)) (((N - n : ℕ) : ℝ) - ↑j + (b + (↑n - ↑x)))) * hch
      · have h2' : N - m < n - x := not_le.1 h2
        rw [Nat.choose_eq_zero_of_lt h2', hneg _ (Or.inr (by omega))]
        simp
    · rw [Nat.choose_eq_zero_of_lt (not_le.1 h1), hneg _ (Or.inl (by omega))]
      simp
  have hsum : ∑ m ∈ Finset.range (N + 1),
      (BetaBinomial.dist ⟨((N - n : ℕ) : ℝ), a + x, b + (n - x)⟩).pmf ((m : ℤ) - x) = 1 := by
    rw [← BetaBinomial.sum_pmf (N - n) (a + x) (b + (n - x)) ha' hb']
    symm
    apply Finset.sum_of_injOn (fun j => x + j)
    · intro i _ j _ h; simpa using h
    · intro j hj
      simp only [Finset.coe_range, mem_Iio] at hj ⊢
      omega
    · intro m hm hm'
      apply hneg
      simp only [Finset.coe_range, mem_image, mem_Iio, not_exists, not_and] at hm'
      by_contra hcon
      push Not at hcon
      exact hm' (m - x) (by omega) (by omega)
    · intro j _
      congr 1
      push_cast; ring
  have htot : ∑ m ∈ Finset.range (N + 1),
      (BetaBinomial.dist { n := (N : ℝ), alpha := a, beta := b }).pmf (m : ℤ) *
      (Hypergeometric.dist { N := (N : ℝ), k := (m : ℝ), n := (n : ℝ) }).pmf (x : ℤ) = c := by
    rw [Finset.sum_congr rfl key, ← Finset.mul_sum, hsum, mul_one]
  refine ⟨by rw [htot]; exact hcpos, fun m hm => ?_⟩
  rw [htot, key m hm]
  field_simp

/-- C17 (disagreement). The returned distribution is never the Bayes posterior: not for any
population size `N ≥ 1`, number of draws, outcome or prior. -/
theorem C17_hypergeometric_beta_binomial_false (N n x : ℕ) (hN : 1 ≤ N) (hn : n ≤ N) (hx : x ≤ n)
    (a b : ℝ) (ha : 0 < a) (hb : 0 < b) : ¬ C17_statement N n x a b := by
  intro h
  have hxN : (0 : ℝ) ≤ N - x := by rw [sub_nonneg]; exact_mod_cast hx.trans hn
  have hcode : ∀ m : ℕ, m ≤ N → 0 < (hypergeometric_beta_binomial (x : ℝ) (n : ℝ)
      { n := (N : ℝ), alpha := a, beta := b }).dist.pmf m := by
    intro m hm
    exact BetaBinomial.pmf_pos N m hm _ _ (by positivity) (by positivity)
  have htrue := C17_true_posterior N n x hn hx a b ha hb
  have huniq : ∀ m : ℕ, m ≤ N → (hypergeometric_beta_binomial (x : ℝ) (n : ℝ)
      { n := (N : ℝ), alpha := a, beta := b }).dist.pmf m =
      (BetaBinomial.dist ⟨((N - n : ℕ) : ℝ), a + x, b + (n - x)⟩).pmf ((m : ℤ) - x) := by
    intro m hm
    have hm' : m ∈ Finset.range (N + 1) := Finset.mem_range.2 (by omega)
    exact (h.2 m hm').trans (htrue.2 m hm').symm
  rcases Nat.eq_zero_or_pos n with h0 | hpos
  · -- no draws: the posterior should be the prior
    subst h0
    have hx0 : x = 0 := by omega
    subst hx0
    have e := huniq N le_rfl
    have e1 : ((N : ℤ) - ((0 : ℕ) : ℤ)) = (N : ℤ) := by simp
    rw [e1] at e
    simp only [hypergeometric_beta_binomial] at e
    rw [show ((N - 0 : ℕ) : ℝ) = (N : ℝ) by simp] at e
    simp only [Nat.cast_zero, add_zero, sub_zero] at e
    rw [BetaBinomial.pmf_nat N N le_rfl, BetaBinomial.pmf_nat N N le_rfl] at e
    simp only [Nat.choose_self, Nat.cast_one, one_mul, sub_self, zero_add] at e
    -- increasing the second Beta parameter lowers the probability of all successes
    have mono : ∀ k : ℕ, betaFn ((N : ℝ) + a) (b + k) / betaFn a (b + k) ≤
        betaFn ((N : ℝ) + a) b / betaFn a b ∧ (1 ≤ k →
        betaFn ((N : ℝ) + a) (b + k) / betaFn a (b + k) <
        betaFn ((N : ℝ) + a) b / betaFn a b) := by
      have stepk : ∀ k : ℕ, betaFn ((N : ℝ) + a) (b + (k + 1 : ℕ)) / betaFn a (b + (k + 1 : ℕ)) <
          betaFn ((N : ℝ) + a) (b + k) / betaFn a (b + k) := by
        intro k
        have s1 : ∀ u : ℝ, 0 < u → betaFn u (b + (k + 1 : ℕ)) =
            betaFn u (b + k) * ((b + k) / (u + (b + k))) := by
          intro u hu
          simp only [betaFn]
          push_cast
          rw [← add_assoc b, Real.Gamma_add_one (by positivity), ← add_assoc u,
            Real.Gamma_add_one (by positivity)]
          have hg1 : 0 < Real.Gamma (u + (b + k)) := Real.Gamma_pos_of_pos (by positivity)
          field_simp
        rw [s1 _ (by positivity), s1 _ ha, mul_div_mul_comm]
        have p1 : 0 < betaFn ((N : ℝ) + a) (b + k) / betaFn a (b + k) :=
          div_pos (betaFn_pos (by positivity) (by positivity)) (betaFn_pos ha (by positivity))
        apply mul_lt_of_lt_one_right p1
        have hN' : (0 : ℝ) < N := by exact_mod_cast hN
        rw [div_lt_one (by positivity)]
        apply div_lt_div_of_pos_left (by positivity) (by positivity)
        linarith
      intro k
      induction k with
      | zero => simp
      | succ k ih => exact ⟨(stepk k).le.trans ih.1, fun _ => (stepk k).trans_le ih.1⟩
    have := (mono N).2 hN
    rw [e] at this
    exact lt_irrefl _ this
  · rcases Nat.eq_zero_or_pos x with hx0 | hx0
    · -- no success drawn: all N being successes is impossible
      have e := huniq N le_rfl
      have p := hcode N le_rfl
      rw [e] at p
      subst hx0
      simp only [BetaBinomial.dist, Disc.pmf, sub_zero, DiscFamily.pmf0] at p
      rw [if_neg] at p
      · exact lt_irrefl _ p
      · rintro ⟨-, h2⟩
        have : (N : ℤ) - ((0 : ℕ) : ℤ) ≤ ((N - n : ℕ) : ℤ) := by exact_mod_cast h2
        omega
    · -- a success drawn: no success in the population is impossible
      have e := huniq 0 (by omega)
      have p := hcode 0 (by omega)
      rw [e] at p
      simp only [BetaBinomial.dist, Disc.pmf, sub_zero, DiscFamily.pmf0] at p
      rw [if_neg] at p
      · exact lt_irrefl _ p
      · rintro ⟨h1, -⟩
        omega

/-- C17. What the code computes: the predictive number of successes in `N` *new* trials after
`x` successes in `N` trials *with* replacement. Missing: sampling without replacement and
the number of draws. -/
theorem C17_hypergeometric_is_binomial_predictive_partial (N x : ℕ) (hx : x ≤ N) (n a b : ℝ)
    (ha : 0 < a) (hb : 0 < b) (k : ℤ) :
    ∃ post : ℝ → ℝ,
      IsPosterior volume (Ioo 0 1) (Beta.dist { alpha := a, beta := b }).pdf
        (fun p => (Binomial.dist { n := (N : ℝ), p := p }).pmf x) post ∧
      IsPredictive volume (Ioo 0 1) (fun p => (Binomial.dist { n := (N : ℝ), p := p }).pmf k) post
        ((hypergeometric_beta_binomial (x : ℝ) n
          { n := (N : ℝ), alpha := a, beta := b }).dist.pmf k) := by
  have hxN : (0 : ℝ) ≤ N - x := by rw [sub_nonneg]; exact_mod_cast hx
  refine ⟨(binomial_beta (N : ℝ) (x : ℝ) { alpha := a, beta := b }).dist.pdf, ?_, ?_⟩
  · obtain ⟨c, hc, h⟩ := beta_step { alpha := a, beta := b }
      (binomial_beta (N : ℝ) (x : ℝ) { alpha := a, beta := b }) ⟨ha, hb⟩
      ⟨by simp only [binomial_beta, getBinomialBetaPosteriorParams]; positivity,
       by simp only [binomial_beta, getBinomialBetaPosteriorParams]; positivity⟩
      (C := N.choose x) (u := x) (v := N - x)
      (f := fun p => (Binomial.dist { n := (N : ℝ), p := p }).pmf x)
      (by exact_mod_cast Nat.choose_pos hx) (fun p hp => by
        have h1 : (N : ℝ) - x = ((N - x : ℕ) : ℝ) := by push_cast [hx]; ring
        rw [Binomial.pmf_nat N x hx p, h1, rpow_natCast, rpow_natCast]) rfl rfl
    exact IsPosterior.of_density measurableSet_Ioo (Beta.isDensity _
      (by simp only [binomial_beta, getBinomialBetaPosteriorParams]; positivity)
      (by simp only [binomial_beta, getBinomialBetaPosteriorParams]; positivity)) hc h
  · exact C24_binomial_beta_predictive N (binomial_beta (N : ℝ) (x : ℝ) { alpha := a, beta := b })
      (by simp only [binomial_beta, getBinomialBetaPosteriorParams]; positivity)
      (by simp only [binomial_beta, getBinomialBetaPosteriorParams]; positivity) k

example := C17_hypergeometric_beta_binomial_false 10 4 3 (by norm_num) (by norm_num) (by norm_num)
  1 1 (by norm_num) (by norm_num)
example := C17_true_posterior 10 4 3 (by norm_num) (by norm_num) 1 1 (by norm_num) (by norm_num)

end Conj
