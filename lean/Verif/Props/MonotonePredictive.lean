import Verif.Props.Monotone
import Verif.Props.IdentifiableDiscrete
import Verif.Props.PredictiveGeometricPoisson
import Verif.Props.Exponential

/-!
# C100: data that point higher move the predictive up
-/

open MeasureTheory Set Real

namespace Conj

open Scipy Spec

/-! ## Beta-binomial -/

theorem BetaBinomial.pmf_gt (n k : ℕ) (a b : ℝ) (hk : n < k) : (BetaBinomial.dist ⟨(n : ℝ), a, b⟩).pmf k = 0 := by
  simp only [BetaBinomial.dist, Disc.pmf, sub_zero, DiscFamily.pmf0]
  rw [if_neg]
  rintro ⟨-, h2⟩
  have : k ≤ n := by exact_mod_cast h2
  omega

theorem BetaBinomial.hasSum_pmf (n : ℕ) {a b : ℝ} (ha : 0 < a) (hb : 0 < b) :
    HasSum (fun k : ℕ => (BetaBinomial.dist ⟨(n : ℝ), a, b⟩).pmf k) 1 := by
  rw [← BetaBinomial.sum_pmf n a b ha hb]
  refine hasSum_sum_of_ne_finset_zero fun k hk => BetaBinomial.pmf_gt n k a b ?_
  rw [Finset.mem_range, not_lt] at hk
  omega

theorem BetaBinomial.pmf_succ (n k : ℕ) (hk : k + 1 ≤ n) {a b : ℝ} (ha : 0 < a) (hb : 0 < b) :
    (BetaBinomial.dist ⟨(n : ℝ), a, b⟩).pmf ((k + 1 : ℕ) : ℤ) * ((k + 1) * (n - k - 1 + b)) =
      (BetaBinomial.dist ⟨(n : ℝ), a, b⟩).pmf (k : ℤ) * ((n - k) * (k + a)) := by
  have h1 : (k : ℝ) + 1 ≤ n := by exact_mod_cast hk
  rw [BetaBinomial.pmf_nat _ _ hk, BetaBinomial.pmf_nat _ _ (by omega)]
  have s1 := betaFn_succ_left (a := k + a) (b := n - k - 1 + b) (by positivity) (by linarith)
  have s2 := betaFn_succ_right (a := k + a) (b := n - k - 1 + b) (by positivity) (by linarith)
  have hB := betaFn_pos ha hb
  have c := Nat.choose_succ_right_eq n k
  have c' : (n.choose (k + 1) : ℝ) * (k + 1) = n.choose k * (n - k) := by
    have : ((n.choose (k + 1) * (k + 1) : ℕ) : ℝ) = (n.choose k * (n - k) : ℕ) := by rw [c]
    push_cast [Nat.cast_sub (by omega : k ≤ n)] at this
    linarith
  rw [show ((k + 1 : ℕ) : ℝ) + a = k + a + 1 by push_cast; ring,
    show (n : ℝ) - ((k + 1 : ℕ) : ℝ) + b = n - k - 1 + b by push_cast; ring,
    show (n : ℝ) - k + b = n - k - 1 + b + 1 by ring, s1, s2]
  have hS : 0 < k + a + (n - k - 1 + b) := by linarith
  generalize betaFn (k + a) (n - k - 1 + b) = B
  generalize k + a + (n - k - 1 + b) = T at hS
  rw [div_mul_eq_mul_div, div_mul_eq_mul_div]
  congr 1
  linear_combination (k + a) / T * B * (n - k - 1 + b) * c'

/-- A larger `alpha` and a smaller `beta` move a beta-binomial up. -/
theorem BetaBinomial.higher (n : ℕ) {a b a' b' : ℝ} (ha : 0 < a) (hb' : 0 < b') (h1 : a ≤ a') (h2 : b' ≤ b)
    (h : a < a' ∨ b' < b) :
    HigherCounts {k | k ≤ n} (BetaBinomial.dist ⟨(n : ℝ), a, b⟩).pmf (BetaBinomial.dist ⟨(n : ℝ), a', b'⟩).pmf := by
  have ha' := ha.trans_le h1
  have hb := hb'.trans_le h2
  refine higherCounts_of_ratio (fun k (hk : k + 1 ≤ n) => show k ≤ n by omega) (hasSum_pmf n ha hb)
    (hasSum_pmf n ha' hb') (fun k hk => pmf_gt n k _ _ (not_le.1 hk)) (fun k hk => pmf_gt n k _ _ (not_le.1 hk))
    (fun k hk => BetaBinomial.pmf_pos n k hk a b ha hb) (fun k hk => BetaBinomial.pmf_pos n k hk a' b' ha' hb') ?_
  intro k hk
  have hk : k + 1 ≤ n := hk
  have hk' : (k : ℝ) + 1 ≤ n := by exact_mod_cast hk
  have e := pmf_succ n k hk ha hb
  have e' := pmf_succ n k hk ha' hb'
  have p := BetaBinomial.pmf_pos n k (by omega) a b ha hb
  have p' := BetaBinomial.pmf_pos n k (by omega) a' b' ha' hb'
  have d : 0 < ((k : ℝ) + 1) * (n - k - 1 + b) := mul_pos (by positivity) (by linarith)
  have d' : 0 < ((k : ℝ) + 1) * (n - k - 1 + b') := mul_pos (by positivity) (by linarith)
  rw [← eq_div_iff d.ne'] at e
  rw [← eq_div_iff d'.ne'] at e'
  rw [e, e', ← mul_div_assoc, div_mul_eq_mul_div, div_lt_div_iff₀ d d']
  have key : (k + a) * (n - k - 1 + b') < (k + a') * (n - k - 1 + b) := by
    have q0 : 0 < (k : ℝ) + a := by positivity
    have q1 : 0 < (n : ℝ) - k - 1 + b' := by linarith
    rcases h with h | h
    · exact mul_lt_mul (by linarith) (by linarith) q1 (by linarith)
    · calc (k + a) * (n - k - 1 + b') < (k + a) * (n - k - 1 + b) := by
            apply mul_lt_mul_of_pos_left _ q0; linarith
        _ ≤ _ := by apply mul_le_mul_of_nonneg_right _ (by linarith); linarith
  have hn : 0 < (n : ℝ) - k := by linarith
  have := mul_lt_mul_of_pos_left key (mul_pos (mul_pos (mul_pos p' p) hn) (by positivity : (0 : ℝ) < k + 1))
  nlinarith [this]

/-- C100 binomial: more successes seen, more predicted. -/
theorem C100_binomial_beta_predictive (prior : Beta ℝ) (hp : prior.Valid) (m : ℕ) {n x x' : ℝ} (hx : 0 ≤ x)
    (h : x < x') (hn : x' ≤ n) :
    HigherCounts {k | k ≤ m} (binomial_beta_predictive (m : ℝ) (binomial_beta n x prior)).dist.pmf
      (binomial_beta_predictive (m : ℝ) (binomial_beta n x' prior)).dist.pmf := by
  obtain ⟨a, b⟩ := prior
  obtain ⟨ha, hb⟩ : 0 < a ∧ 0 < b := hp
  exact BetaBinomial.higher m (a := a + x) (b := b + (n - x)) (a' := a + x') (b' := b + (n - x')) (by linarith)
    (by linarith) (by linarith) (by linarith) (Or.inl (by linarith))

example : HigherCounts {k | k ≤ 5} (binomial_beta_predictive ((5 : ℕ) : ℝ) (binomial_beta 10 3 ⟨1, 1⟩)).dist.pmf
    (binomial_beta_predictive ((5 : ℕ) : ℝ) (binomial_beta 10 4 ⟨1, 1⟩)).dist.pmf :=
  C100_binomial_beta_predictive ⟨1, 1⟩ ⟨one_pos, one_pos⟩ 5 (by norm_num) (by norm_num) (by norm_num)

/-- C99 hypergeometric: more successes among the draws, more in the population. -/
theorem C99_hypergeometric_beta_binomial_successes (N : ℕ) {a b : ℝ} (ha : 0 < a) (hb : 0 < b) {n x x' : ℝ}
    (hx : 0 ≤ x) (h : x < x') (hn : x' ≤ n) (hN : n ≤ N) :
    HigherCounts {k | k ≤ N} (hypergeometric_beta_binomial x n ⟨(N : ℝ), a, b⟩).dist.pmf
      (hypergeometric_beta_binomial x' n ⟨(N : ℝ), a, b⟩).dist.pmf :=
  BetaBinomial.higher N (a := a + x) (b := b + (N - x)) (a' := a + x') (b' := b + (N - x')) (by linarith)
    (by linarith) (by linarith) (by linarith) (Or.inl (by linarith))

example : HigherCounts {k | k ≤ 50} (hypergeometric_beta_binomial 3 10 ⟨((50 : ℕ) : ℝ), 1, 1⟩).dist.pmf
    (hypergeometric_beta_binomial 4 10 ⟨((50 : ℕ) : ℝ), 1, 1⟩).dist.pmf :=
  C99_hypergeometric_beta_binomial_successes 50 one_pos one_pos (by norm_num) (by norm_num) (by norm_num) (by norm_num)

/-- Full statement of C99 for `hypergeometric_beta_binomial`: the same successes in more draws point to fewer in the
population. -/
def C99_hypergeometric_draws_statement (N : ℕ) (a b n n' x : ℝ) : Prop :=
  HigherCounts {k | k ≤ N} (hypergeometric_beta_binomial x n' ⟨(N : ℝ), a, b⟩).dist.pmf
    (hypergeometric_beta_binomial x n ⟨(N : ℝ), a, b⟩).dist.pmf

/-- C99 is false for the number of draws, for every prior and all data: it has no effect. -/
theorem C99_hypergeometric_draws_false (N : ℕ) (hN : 1 ≤ N) (a b n n' x : ℝ) :
    ¬ C99_hypergeometric_draws_statement N a b n n' x :=
  fun h => lt_irrefl _ (h 0 (by simpa using hN))

example : ¬ C99_hypergeometric_draws_statement 50 1 1 10 20 3 := C99_hypergeometric_draws_false 50 (by norm_num) _ _ _ _ _

/-! ## Negative binomial -/

theorem NegativeBinomial.pmf_succ (r p : ℝ) (hr : 0 < r) (k : ℕ) :
    (NegativeBinomial.dist ⟨r, p⟩).pmf ((k + 1 : ℕ) : ℤ) =
      (NegativeBinomial.dist ⟨r, p⟩).pmf (k : ℤ) * ((r + k) / (k + 1) * (1 - p)) := by
  have a1 := NegativeBinomial.pmf_nat r p (k + 1)
  have a2 := NegativeBinomial.pmf_nat r p k
  rw [choose_step r hr k, pow_succ] at a1
  rw [a1, a2]
  ring

theorem NegativeBinomial.pmf_pos {r p : ℝ} (hr : 0 < r) (hp : p ∈ Ioo (0 : ℝ) 1) (k : ℕ) :
    0 < (NegativeBinomial.dist ⟨r, p⟩).pmf (k : ℤ) := by
  have := hp.1
  have := sub_pos.2 hp.2
  have := choose_add_sub_one_pos k hr
  rw [NegativeBinomial.pmf_nat]
  positivity

/-- A larger `n` and a smaller `p` move a negative binomial up. -/
theorem NegativeBinomial.higher {r p r' p' : ℝ} (hr : 0 < r) (hp' : 0 < p') (hp : p < 1) (h1 : r ≤ r') (h2 : p' ≤ p)
    (h : r < r' ∨ p' < p) :
    HigherCounts univ (NegativeBinomial.dist ⟨r, p⟩).pmf (NegativeBinomial.dist ⟨r', p'⟩).pmf := by
  have hr' := hr.trans_le h1
  have hpm : p ∈ Ioo (0 : ℝ) 1 := ⟨hp'.trans_le h2, hp⟩
  have hpm' : p' ∈ Ioo (0 : ℝ) 1 := ⟨hp', h2.trans_lt hp⟩
  refine higherCounts_of_ratio (fun _ _ => mem_univ _) (nb_total hr hpm.1 hp.le) (nb_total hr' hp' hpm'.2.le)
    (fun k hk => absurd (mem_univ k) hk) (fun k hk => absurd (mem_univ k) hk) (fun k _ => pmf_pos hr hpm k)
    (fun k _ => pmf_pos hr' hpm' k) fun k _ => ?_
  have P := pmf_pos hr hpm k
  have P' := pmf_pos hr' hpm' k
  rw [pmf_succ r p hr, pmf_succ r' p' hr']
  have q : 0 < 1 - p := sub_pos.2 hp
  have key : (r + k) / (k + 1) * (1 - p) < (r' + k) / (k + 1) * (1 - p') := by
    rcases h with h | h
    · refine mul_lt_mul ?_ (by linarith) q (by positivity)
      exact (div_lt_div_iff_of_pos_right (by positivity)).2 (by linarith)
    · calc (r + k) / (k + 1) * (1 - p) < (r + k) / (k + 1) * (1 - p') := by
            apply mul_lt_mul_of_pos_left (by linarith); positivity
        _ ≤ _ := by
            refine mul_le_mul_of_nonneg_right ?_ (by linarith)
            exact (div_le_div_iff_of_pos_right (by positivity)).2 (by linarith)
  nlinarith [mul_lt_mul_of_pos_left key (mul_pos P' P)]

theorem poisson_gamma_predictive_form (a b : ℝ) : poisson_gamma_predictive (⟨a, b⟩ : Gamma ℝ) (1 : ℝ) =
    ⟨a, b / (1 + b)⟩ := by
  simp [poisson_gamma_predictive]

/-- C100 Poisson: more events seen, more predicted for the next interval. -/
theorem C100_poisson_gamma_events (prior : Gamma ℝ) (hp : prior.Valid) {n x x' : ℝ} (hn : 0 ≤ n) (hx : 0 ≤ x)
    (h : x < x') :
    HigherCounts univ (poisson_gamma_predictive (poisson_gamma x n prior) 1).dist.pmf
      (poisson_gamma_predictive (poisson_gamma x' n prior) 1).dist.pmf := by
  obtain ⟨a, b⟩ := prior
  obtain ⟨ha, hb⟩ : 0 < a ∧ 0 < b := hp
  have e : ∀ x, poisson_gamma_predictive (poisson_gamma x n ⟨a, b⟩) 1 = ⟨a + x, (b + n) / (1 + (b + n))⟩ :=
    fun x => poisson_gamma_predictive_form (a + x) (b + n)
  rw [e, e]
  have hbn : 0 < b + n := by linarith
  exact NegativeBinomial.higher (by linarith) (by positivity) ((div_lt_one (by positivity)).2 (by linarith))
    (by linarith) le_rfl (Or.inl (by linarith))

example : HigherCounts univ (poisson_gamma_predictive (poisson_gamma 5 3 ⟨1, 2⟩) (1 : ℝ)).dist.pmf
    (poisson_gamma_predictive (poisson_gamma 6 3 ⟨1, 2⟩) 1).dist.pmf :=
  C100_poisson_gamma_events ⟨1, 2⟩ ⟨one_pos, two_pos⟩ (by norm_num) (by norm_num) (by norm_num)

/-- C100 Poisson: the same events in more exposure, fewer predicted. -/
theorem C100_poisson_gamma_exposure (prior : Gamma ℝ) (hp : prior.Valid) {n n' x : ℝ} (hn : 0 ≤ n) (hx : 0 ≤ x)
    (h : n < n') :
    HigherCounts univ (poisson_gamma_predictive (poisson_gamma x n' prior) 1).dist.pmf
      (poisson_gamma_predictive (poisson_gamma x n prior) 1).dist.pmf := by
  obtain ⟨a, b⟩ := prior
  obtain ⟨ha, hb⟩ : 0 < a ∧ 0 < b := hp
  have e : ∀ n, poisson_gamma_predictive (poisson_gamma x n ⟨a, b⟩) 1 = ⟨a + x, (b + n) / (1 + (b + n))⟩ :=
    fun n => poisson_gamma_predictive_form (a + x) (b + n)
  rw [e, e]
  have hbn : 0 < b + n := by linarith
  have hbn' : 0 < b + n' := by linarith
  have key : (b + n) / (1 + (b + n)) < (b + n') / (1 + (b + n')) := by
    rw [div_lt_div_iff₀ (by positivity) (by positivity)]
    nlinarith
  exact NegativeBinomial.higher (by linarith) (by positivity) ((div_lt_one (by positivity)).2 (by linarith))
    le_rfl key.le (Or.inr key)

example : HigherCounts univ (poisson_gamma_predictive (poisson_gamma 5 4 ⟨1, 2⟩) (1 : ℝ)).dist.pmf
    (poisson_gamma_predictive (poisson_gamma 5 3 ⟨1, 2⟩) 1).dist.pmf :=
  C100_poisson_gamma_exposure ⟨1, 2⟩ ⟨one_pos, two_pos⟩ (by norm_num) (by norm_num) (by norm_num)

/-! ## Beta-negative-binomial -/

theorem BetaNegativeBinomial.hasSum_pmf {n a b : ℝ} (hn : 0 < n) (ha : 0 < a) (hb : 0 < b) :
    HasSum (fun k : ℕ => (BetaNegativeBinomial.dist ⟨n, a, b⟩).pmf k) 1 := by
  have hd := Beta.isDensity ⟨a, b⟩ ha hb
  have hpred := fun k : ℕ => C25_negative_binomial_beta_predictive n hn ⟨a, b⟩ ha hb k
  have hpos : ∀ k : ℕ, ∀ p ∈ Ioo (0 : ℝ) 1,
      0 ≤ (NegativeBinomial.dist ⟨n, p⟩).pmf k * (Beta.dist ⟨a, b⟩).pdf p :=
    fun k p hp => mul_nonneg (NegativeBinomial.pmf_pos hn hp k).le (hd.1 p hp)
  have hs : ∀ p ∈ Ioo (0 : ℝ) 1, HasSum (fun k : ℕ => (NegativeBinomial.dist ⟨n, p⟩).pmf k *
      (Beta.dist ⟨a, b⟩).pdf p) ((Beta.dist ⟨a, b⟩).pdf p) := fun p hp => by
    simpa using (nb_total hn hp.1 hp.2.le).mul_right ((Beta.dist ⟨a, b⟩).pdf p)
  have h := hasSum_integral_of_dominated_convergence (μ := volume.restrict (Ioo (0 : ℝ) 1))
    (F := fun (k : ℕ) p => (NegativeBinomial.dist ⟨n, p⟩).pmf k * (Beta.dist ⟨a, b⟩).pdf p)
    (f := (Beta.dist ⟨a, b⟩).pdf)
    (fun k p => (NegativeBinomial.dist ⟨n, p⟩).pmf k * (Beta.dist ⟨a, b⟩).pdf p)
    (fun k => (hpred k).1.aestronglyMeasurable)
    (fun k => by
      filter_upwards [ae_restrict_mem measurableSet_Ioo] with p hp
      rw [norm_eq_abs, abs_of_nonneg (hpos k p hp)])
    (by
      filter_upwards [ae_restrict_mem measurableSet_Ioo] with p hp
      exact (hs p hp).summable)
    (by
      refine hd.2.1.congr ?_
      filter_upwards [ae_restrict_mem measurableSet_Ioo] with p hp
      exact (hs p hp).tsum_eq.symm)
    (by
      filter_upwards [ae_restrict_mem measurableSet_Ioo] with p hp
      exact hs p hp)
  rw [hd.2.2] at h
  exact h.congr_fun fun k => (hpred k).2

theorem BetaNegativeBinomial.higher {n a b a' b' : ℝ} (hn : 0 < n) (ha' : 0 < a') (hb : 0 < b) (h1 : a' ≤ a)
    (h2 : b ≤ b') (h : a' < a ∨ b < b') :
    HigherCounts univ (BetaNegativeBinomial.dist ⟨n, a, b⟩).pmf (BetaNegativeBinomial.dist ⟨n, a', b'⟩).pmf := by
  have ha := ha'.trans_le h1
  have hb' := hb.trans_le h2
  refine higherCounts_of_ratio (fun _ _ => mem_univ _) (hasSum_pmf hn ha hb) (hasSum_pmf hn ha' hb')
    (fun k hk => absurd (mem_univ k) hk) (fun k hk => absurd (mem_univ k) hk)
    (fun k _ => BetaNegativeBinomial.pmf_pos n a b hn ha hb k)
    (fun k _ => BetaNegativeBinomial.pmf_pos n a' b' hn ha' hb' k) fun k _ => ?_
  have P := BetaNegativeBinomial.pmf_pos n a b hn ha hb k
  have P' := BetaNegativeBinomial.pmf_pos n a' b' hn ha' hb' k
  rw [BetaNegativeBinomial.pmf_succ n a b hn ha hb, BetaNegativeBinomial.pmf_succ n a' b' hn ha' hb']
  have key : (n + k) * (b + k) / ((k + 1) * (a + n + b + k)) < (n + k) * (b' + k) / ((k + 1) * (a' + n + b' + k)) := by
    rw [div_lt_div_iff₀ (by positivity) (by positivity)]
    have q : (b + k) * (a' + n) < (b' + k) * (a + n) := by
      rcases h with h | h
      · calc (b + k) * (a' + n) < (b + k) * (a + n) := by
              apply mul_lt_mul_of_pos_left (by linarith); positivity
          _ ≤ _ := mul_le_mul_of_nonneg_right (by linarith) (by positivity)
      · exact mul_lt_mul (by linarith) (by linarith) (by positivity) (by positivity)
    have c : 0 < (n + k) * ((k : ℝ) + 1) := by positivity
    nlinarith [mul_lt_mul_of_pos_left q c]
  nlinarith [mul_lt_mul_of_pos_left key (mul_pos P' P)]

/-- C100 negative binomial: more failures seen, more predicted. -/
theorem C100_negative_binomial_beta_predictive (prior : Beta ℝ) (hp : prior.Valid) {s r n x x' : ℝ} (hs : 0 < s)
    (hr : 0 ≤ r) (hn : 0 ≤ n) (hx : 0 ≤ x) (h : x < x') :
    HigherCounts univ (negative_binomial_beta_predictive s (negative_binomial_beta r n x prior)).dist.pmf
      (negative_binomial_beta_predictive s (negative_binomial_beta r n x' prior)).dist.pmf := by
  obtain ⟨a, b⟩ := prior
  obtain ⟨ha, hb⟩ : 0 < a ∧ 0 < b := hp
  have := mul_nonneg hr hn
  exact BetaNegativeBinomial.higher (a := a + r * n) (b := b + x) (a' := a + r * n) (b' := b + x') hs (by linarith)
    (by linarith) le_rfl (by linarith) (Or.inr (by linarith))

example : HigherCounts univ (negative_binomial_beta_predictive 2 (negative_binomial_beta 3 4 5 ⟨1, 2⟩ : Beta ℝ)).dist.pmf
    (negative_binomial_beta_predictive 2 (negative_binomial_beta 3 4 6 ⟨1, 2⟩)).dist.pmf :=
  C100_negative_binomial_beta_predictive ⟨1, 2⟩ ⟨one_pos, two_pos⟩ (by norm_num) (by norm_num) (by norm_num)
    (by norm_num) (by norm_num)

/-! ## Lomax and compound gamma -/

theorem CompoundGamma.pdf_eq (d : CompoundGamma ℝ) (hl : 0 < d.lam) {x : ℝ} (hx : 0 < x) :
    d.pdf x = (x / d.lam) ^ (d.alpha - 1) * ((d.lam + x) / d.lam) ^ (-(d.alpha + d.beta)) /
      (d.lam * betaFn d.alpha d.beta) := by
  simp only [CompoundGamma.pdf, compoundGammaPdf]
  rw [show 1 + x / d.lam = (d.lam + x) / d.lam by field_simp, show -d.alpha - d.beta = -(d.alpha + d.beta) by ring]

theorem CompoundGamma.pdf_pos (d : CompoundGamma ℝ) (ha : 0 < d.alpha) (hb : 0 < d.beta) (hl : 0 < d.lam) {x : ℝ}
    (hx : 0 < x) : 0 < d.pdf x := by
  rw [CompoundGamma.pdf_eq d hl hx]
  have := betaFn_pos ha hb
  positivity

/-- A larger scale moves a compound gamma up. -/
theorem CompoundGamma.higher_lam {a b l l' : ℝ} (ha : 0 < a) (hb : 0 < b) (hl : 0 < l) (h : l < l') :
    Higher (Ioi 0) (CompoundGamma.pdf ⟨a, b, l⟩) (CompoundGamma.pdf ⟨a, b, l'⟩) := by
  have hl' := hl.trans h
  have hB := betaFn_pos ha hb
  refine higher_of_ratio isOpen_Ioi (C55_compound_gamma_normalised ⟨a, b, l⟩ ha hb hl)
    (C55_compound_gamma_normalised ⟨a, b, l'⟩ ha hb hl')
    (fun x hx => CompoundGamma.pdf_pos ⟨a, b, l⟩ ha hb hl hx)
    (r := fun x => (l' / l) ^ b * ((l + x) / (l' + x)) ^ (a + b)) (fun x hx => ?_) ?_
  · have hx : 0 < x := hx
    rw [CompoundGamma.pdf_eq ⟨a, b, l⟩ hl hx, CompoundGamma.pdf_eq ⟨a, b, l'⟩ hl' hx]
    simp only
    have p1 : 0 < l + x := by positivity
    have p2 : 0 < l' + x := by positivity
    rw [div_rpow hx.le hl'.le, div_rpow hx.le hl.le, div_rpow p2.le hl'.le, div_rpow p1.le hl.le, div_rpow hl'.le hl.le,
      div_rpow p1.le p2.le, rpow_neg p2.le, rpow_neg hl'.le, rpow_neg p1.le, rpow_neg hl.le, rpow_sub hl', rpow_sub hl,
      rpow_one, rpow_one, rpow_add hl', rpow_add hl]
    have q1 := rpow_pos_of_pos hl a
    have q2 := rpow_pos_of_pos hl b
    have q3 := rpow_pos_of_pos hl' a
    have q4 := rpow_pos_of_pos hl' b
    have q5 := rpow_pos_of_pos p1 (a + b)
    have q6 := rpow_pos_of_pos p2 (a + b)
    field_simp
  · intro x hx y hy hxy
    have hx : 0 < x := hx
    have hy : 0 < y := hy
    refine mul_lt_mul_of_pos_left ?_ (by positivity)
    refine rpow_lt_rpow (by positivity) ?_ (by positivity)
    rw [div_lt_div_iff₀ (by positivity) (by positivity)]
    nlinarith [mul_pos (sub_pos.2 h) (sub_pos.2 hxy)]

/-- A smaller `beta` moves a compound gamma up. -/
theorem CompoundGamma.higher_beta {a b b' l : ℝ} (ha : 0 < a) (hb' : 0 < b') (hl : 0 < l) (h : b' < b) :
    Higher (Ioi 0) (CompoundGamma.pdf ⟨a, b, l⟩) (CompoundGamma.pdf ⟨a, b', l⟩) := by
  have hb := hb'.trans h
  have hB := betaFn_pos ha hb
  have hB' := betaFn_pos ha hb'
  refine higher_of_ratio isOpen_Ioi (C55_compound_gamma_normalised ⟨a, b, l⟩ ha hb hl)
    (C55_compound_gamma_normalised ⟨a, b', l⟩ ha hb' hl)
    (fun x hx => CompoundGamma.pdf_pos ⟨a, b, l⟩ ha hb hl hx)
    (r := fun x => betaFn a b / betaFn a b' * ((l + x) / l) ^ (b - b')) (fun x hx => ?_) ?_
  · have hx : 0 < x := hx
    rw [CompoundGamma.pdf_eq ⟨a, b, l⟩ hl hx, CompoundGamma.pdf_eq ⟨a, b', l⟩ hl hx]
    simp only
    have p : 0 < (l + x) / l := by positivity
    rw [show -(a + b') = (b - b') + -(a + b) by ring, rpow_add p]
    field_simp
  · intro x hx y hy hxy
    have hx : 0 < x := hx
    refine mul_lt_mul_of_pos_left ?_ (by positivity)
    refine rpow_lt_rpow (by positivity) ?_ (by linarith)
    exact (div_lt_div_iff_of_pos_right hl).2 (by linarith)

/-- C100 gamma with known shape: a larger total, larger predictions. -/
theorem C100_gamma_known_shape_total (prior : Gamma ℝ) (hp : prior.Valid) {shape n x x' : ℝ} (hs : 0 < shape)
    (hn : 0 ≤ n) (hx : 0 ≤ x) (h : x < x') :
    Higher (Ioi 0) (gamma_known_shape_predictive (gamma_known_shape x n shape prior) shape).pdf
      (gamma_known_shape_predictive (gamma_known_shape x' n shape prior) shape).pdf := by
  obtain ⟨a, b⟩ := prior
  obtain ⟨ha, hb⟩ : 0 < a ∧ 0 < b := hp
  have := mul_nonneg hn hs.le
  exact CompoundGamma.higher_lam (a := shape) (b := a + n * shape) (l := b + x) (l' := b + x') hs (by linarith)
    (by linarith) (by linarith)

example : Higher (Ioi 0) (gamma_known_shape_predictive (gamma_known_shape 5 3 2 ⟨1, 2⟩) (2 : ℝ)).pdf
    (gamma_known_shape_predictive (gamma_known_shape 6 3 2 ⟨1, 2⟩) 2).pdf :=
  C100_gamma_known_shape_total ⟨1, 2⟩ ⟨one_pos, two_pos⟩ (by norm_num) (by norm_num) (by norm_num) (by norm_num)

/-- C100 gamma with known shape: the same total from more observations, smaller predictions. -/
theorem C100_gamma_known_shape_count (prior : Gamma ℝ) (hp : prior.Valid) {shape n n' x : ℝ} (hs : 0 < shape)
    (hn : 0 ≤ n) (hx : 0 ≤ x) (h : n < n') :
    Higher (Ioi 0) (gamma_known_shape_predictive (gamma_known_shape x n' shape prior) shape).pdf
      (gamma_known_shape_predictive (gamma_known_shape x n shape prior) shape).pdf := by
  obtain ⟨a, b⟩ := prior
  obtain ⟨ha, hb⟩ : 0 < a ∧ 0 < b := hp
  have := mul_nonneg hn hs.le
  have := mul_lt_mul_of_pos_right h hs
  exact CompoundGamma.higher_beta (a := shape) (b := a + n' * shape) (b' := a + n * shape) (l := b + x) hs (by linarith)
    (by linarith) (by linarith)

example : Higher (Ioi 0) (gamma_known_shape_predictive (gamma_known_shape 5 4 2 ⟨1, 2⟩) (2 : ℝ)).pdf
    (gamma_known_shape_predictive (gamma_known_shape 5 3 2 ⟨1, 2⟩) 2).pdf :=
  C100_gamma_known_shape_count ⟨1, 2⟩ ⟨one_pos, two_pos⟩ (by norm_num) (by norm_num) (by norm_num) (by norm_num)

/-- a Lomax density is a compound gamma density with first shape 1 -/
theorem Lomax.pdf_compound (d : Lomax ℝ) (ha : 0 < d.alpha) (hl : 0 < d.lam) {x : ℝ} (hx : 0 < x) :
    d.dist.pdf x = CompoundGamma.pdf ⟨1, d.alpha, d.lam⟩ x := by
  rw [Lomax.pdf_eq d hl hx.le, CompoundGamma.pdf_eq ⟨1, d.alpha, d.lam⟩ hl hx]
  simp only
  have hB : betaFn 1 d.alpha = 1 / d.alpha := by
    have := Real.Gamma_pos_of_pos ha
    rw [betaFn, add_comm 1, Real.Gamma_add_one ha.ne', Real.Gamma_one]
    field_simp
  rw [hB, sub_self, rpow_zero, add_comm 1]
  field_simp

theorem higher_congr {S : Set ℝ} (hS : MeasurableSet S) {f g f' g' : ℝ → ℝ} (hf : ∀ x ∈ S, f x = f' x)
    (hg : ∀ x ∈ S, g x = g' x) (h : Higher S f' g') : Higher S f g := by
  intro t ht
  have := h t ht
  rw [tailProb, tailProb] at *
  rwa [setIntegral_congr_fun (μ := volume) (hS.inter measurableSet_Ioi) fun x hx => hf x hx.1,
    setIntegral_congr_fun (μ := volume) (hS.inter measurableSet_Ioi) fun x hx => hg x hx.1]

/-- C100 exponential: longer waits seen, longer predicted.  (The posterior and the predictive both exchange the
roles of the two parameters, and here the two exchanges cancel.) -/
theorem C100_exponential_gamma_total (prior : Gamma ℝ) (hp : prior.Valid) {n x x' : ℝ} (hn : 0 ≤ n) (hx : 0 ≤ x)
    (h : x < x') :
    Higher (Ioi 0) (exponential_gamma_predictive (exponential_gamma x n prior)).dist.pdf
      (exponential_gamma_predictive (exponential_gamma x' n prior)).dist.pdf := by
  obtain ⟨a, b⟩ := prior
  obtain ⟨ha, hb⟩ : 0 < a ∧ 0 < b := hp
  refine higher_congr measurableSet_Ioi
    (fun y hy => Lomax.pdf_compound ⟨b + n, a + x⟩ (by show 0 < b + n; linarith) (by show 0 < a + x; linarith) hy)
    (fun y hy => Lomax.pdf_compound ⟨b + n, a + x'⟩ (by show 0 < b + n; linarith) (by show 0 < a + x'; linarith) hy) ?_
  exact CompoundGamma.higher_lam one_pos (by show 0 < b + n; linarith) (by show 0 < a + x; linarith)
    (by show a + x < a + x'; linarith)

example : Higher (Ioi 0) (exponential_gamma_predictive (exponential_gamma 5 3 ⟨1, 2⟩ : Gamma ℝ)).dist.pdf
    (exponential_gamma_predictive (exponential_gamma 6 3 ⟨1, 2⟩)).dist.pdf :=
  C100_exponential_gamma_total ⟨1, 2⟩ ⟨one_pos, two_pos⟩ (by norm_num) (by norm_num) (by norm_num)

/-- C100 exponential: the same total wait for more events, shorter predictions. -/
theorem C100_exponential_gamma_count (prior : Gamma ℝ) (hp : prior.Valid) {n n' x : ℝ} (hn : 0 ≤ n) (hx : 0 ≤ x)
    (h : n < n') :
    Higher (Ioi 0) (exponential_gamma_predictive (exponential_gamma x n' prior)).dist.pdf
      (exponential_gamma_predictive (exponential_gamma x n prior)).dist.pdf := by
  obtain ⟨a, b⟩ := prior
  obtain ⟨ha, hb⟩ : 0 < a ∧ 0 < b := hp
  refine higher_congr measurableSet_Ioi
    (fun y hy => Lomax.pdf_compound ⟨b + n', a + x⟩ (by show 0 < b + n'; linarith) (by show 0 < a + x; linarith) hy)
    (fun y hy => Lomax.pdf_compound ⟨b + n, a + x⟩ (by show 0 < b + n; linarith) (by show 0 < a + x; linarith) hy) ?_
  exact CompoundGamma.higher_beta one_pos (by show 0 < b + n; linarith) (by show 0 < a + x; linarith)
    (by show b + n < b + n'; linarith)

example : Higher (Ioi 0) (exponential_gamma_predictive (exponential_gamma 5 4 ⟨1, 2⟩ : Gamma ℝ)).dist.pdf
    (exponential_gamma_predictive (exponential_gamma 5 3 ⟨1, 2⟩)).dist.pdf :=
  C100_exponential_gamma_count ⟨1, 2⟩ ⟨one_pos, two_pos⟩ (by norm_num) (by norm_num) (by norm_num)

/-! ## Normal -/

/-- C100 normal with known variance: a larger total, larger predictions. -/
theorem C100_normal_known_variance (prior : Normal ℝ) (hs : 0 < prior.sigma) {var n x x' : ℝ} (hv : 0 < var)
    (hn : 0 ≤ n) (h : x < x') :
    Higher univ (normal_known_variance_predictive var (normal_known_variance x n var prior)).dist.pdf
      (normal_known_variance_predictive var (normal_known_variance x' n var prior)).dist.pdf := by
  obtain ⟨s, hs', k, hk, hform⟩ := normal_known_variance_form prior hs hv hn
  obtain ⟨m, e1, e2⟩ := hform x
  obtain ⟨m', e1', e2'⟩ := hform x'
  rw [e1, e1']
  have hm : m < m' := by
    rw [e2, e2', div_lt_div_iff_of_pos_right hk]
    have := (div_lt_div_iff_of_pos_right hv).2 h
    linarith
  have hsig : 0 < √(var + s ^ 2) := by positivity
  have := Normal.higher_mu hsig hm
  simpa only [normal_known_variance_predictive, powq_two, powq_half] using this

example : Higher univ (normal_known_variance_predictive 2 (normal_known_variance 5 3 2 ⟨1, 2⟩ : Normal ℝ)).dist.pdf
    (normal_known_variance_predictive 2 (normal_known_variance 6 3 2 ⟨1, 2⟩)).dist.pdf :=
  C100_normal_known_variance ⟨1, 2⟩ two_pos (by norm_num) (by norm_num) (by norm_num)

/-- C100 normal with known precision. -/
theorem C100_normal_known_precision (prior : Normal ℝ) (hs : 0 < prior.sigma) {precision n x x' : ℝ}
    (hv : 0 < precision) (hn : 0 ≤ n) (h : x < x') :
    Higher univ (normal_known_precision_predictive precision (normal_known_precision x n precision prior)).dist.pdf
      (normal_known_precision_predictive precision (normal_known_precision x' n precision prior)).dist.pdf :=
  C100_normal_known_variance prior hs (by simp; positivity) hn h

example : Higher univ (normal_known_precision_predictive 2 (normal_known_precision 5 3 2 ⟨1, 2⟩ : Normal ℝ)).dist.pdf
    (normal_known_precision_predictive 2 (normal_known_precision 6 3 2 ⟨1, 2⟩)).dist.pdf :=
  C100_normal_known_precision ⟨1, 2⟩ two_pos (by norm_num) (by norm_num) (by norm_num)

end Conj
