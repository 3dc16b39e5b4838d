import Verif.Lemmas.StochOrder
import Verif.Props.LikelihoodPrinciple

/-!
# Data that point higher move the posterior up (C99)
-/

open MeasureTheory Set Real

namespace Conj

open Scipy Spec

/-! ## Families -/

theorem Beta.higher_alpha {a a' b : ℝ} (ha : 0 < a) (hb : 0 < b) (h : a < a') :
    Higher (Ioo 0 1) (Beta.dist ⟨a, b⟩).pdf (Beta.dist ⟨a', b⟩).pdf := by
  refine higher_of_ratio isOpen_Ioo (Beta.isDensity ⟨a, b⟩ ha hb) (Beta.isDensity ⟨a', b⟩ (ha.trans h) hb)
    (fun x hx => Beta.pdf_pos ⟨a, b⟩ ⟨ha, hb⟩ hx)
    (r := fun x => betaFn a b / betaFn a' b * x ^ (a' - a)) ?_ ?_
  · intro x hx
    rw [Beta.pdf_eq _ hx, Beta.pdf_eq _ hx]
    have h1 := betaFn_pos ha hb
    have h2 := betaFn_pos (ha.trans h) hb
    have e : x ^ (a' - 1) = x ^ (a' - a) * x ^ (a - 1) := by rw [← rpow_add hx.1]; ring_nf
    simp only
    rw [e]
    field_simp
  · intro x hx y hy hxy
    have h1 := betaFn_pos ha hb
    have h2 := betaFn_pos (ha.trans h) hb
    exact mul_lt_mul_of_pos_left (rpow_lt_rpow hx.1.le hxy (by linarith)) (by positivity)

theorem Beta.higher_beta {a b b' : ℝ} (ha : 0 < a) (hb' : 0 < b') (h : b' < b) :
    Higher (Ioo 0 1) (Beta.dist ⟨a, b⟩).pdf (Beta.dist ⟨a, b'⟩).pdf := by
  have hb : 0 < b := hb'.trans h
  refine higher_of_ratio isOpen_Ioo (Beta.isDensity ⟨a, b⟩ ha hb) (Beta.isDensity ⟨a, b'⟩ ha hb')
    (fun x hx => Beta.pdf_pos ⟨a, b⟩ ⟨ha, hb⟩ hx)
    (r := fun x => betaFn a b / betaFn a b' * (1 - x) ^ (b' - b)) ?_ ?_
  · intro x hx
    have hx' : 0 < 1 - x := by linarith [hx.2]
    rw [Beta.pdf_eq _ hx, Beta.pdf_eq _ hx]
    have h1 := betaFn_pos ha hb
    have h2 := betaFn_pos ha hb'
    have e : (1 - x) ^ (b' - 1) = (1 - x) ^ (b' - b) * (1 - x) ^ (b - 1) := by rw [← rpow_add hx']; ring_nf
    simp only
    rw [e]
    field_simp
  · intro x hx y hy hxy
    have h1 := betaFn_pos ha hb
    have h2 := betaFn_pos ha hb'
    exact mul_lt_mul_of_pos_left (rpow_lt_rpow_of_neg (by linarith [hy.2]) (by linarith) (by linarith)) (by positivity)

theorem Gamma.higher_alpha {a a' b : ℝ} (ha : 0 < a) (hb : 0 < b) (h : a < a') :
    Higher (Ioi 0) (Gamma.dist ⟨a, b⟩).pdf (Gamma.dist ⟨a', b⟩).pdf := by
  have ha' := ha.trans h
  have g1 := Real.Gamma_pos_of_pos ha
  have g2 := Real.Gamma_pos_of_pos ha'
  refine higher_of_ratio isOpen_Ioi (Gamma.isDensity ⟨a, b⟩ ha hb) (Gamma.isDensity ⟨a', b⟩ ha' hb)
    (fun x hx => Gamma.pdf_pos ⟨a, b⟩ ⟨ha, hb⟩ hx)
    (r := fun x => b ^ (a' - a) * Real.Gamma a / Real.Gamma a' * x ^ (a' - a)) ?_ ?_
  · intro x hx
    have hx : 0 < x := hx
    rw [Gamma.pdf_eq _ hb hx, Gamma.pdf_eq _ hb hx]
    have e : x ^ (a' - 1) = x ^ (a' - a) * x ^ (a - 1) := by rw [← rpow_add hx]; ring_nf
    have e2 : b ^ a' = b ^ (a' - a) * b ^ a := by rw [← rpow_add hb]; ring_nf
    simp only
    rw [e, e2]
    field_simp
  · intro x hx y hy hxy
    exact mul_lt_mul_of_pos_left (rpow_lt_rpow (le_of_lt hx) hxy (by linarith)) (by positivity)

theorem Gamma.higher_beta {a b b' : ℝ} (ha : 0 < a) (hb' : 0 < b') (h : b' < b) :
    Higher (Ioi 0) (Gamma.dist ⟨a, b⟩).pdf (Gamma.dist ⟨a, b'⟩).pdf := by
  have hb := hb'.trans h
  have g1 := Real.Gamma_pos_of_pos ha
  refine higher_of_ratio isOpen_Ioi (Gamma.isDensity ⟨a, b⟩ ha hb) (Gamma.isDensity ⟨a, b'⟩ ha hb')
    (fun x hx => Gamma.pdf_pos ⟨a, b⟩ ⟨ha, hb⟩ hx)
    (r := fun x => b' ^ a / b ^ a * exp ((b - b') * x)) ?_ ?_
  · intro x hx
    have hx : 0 < x := hx
    rw [Gamma.pdf_eq _ hb' hx, Gamma.pdf_eq _ hb hx]
    have e : exp (-(b' * x)) = exp ((b - b') * x) * exp (-(b * x)) := by rw [← exp_add]; ring_nf
    have := rpow_pos_of_pos hb a
    simp only
    rw [e]
    field_simp
  · intro x hx y hy hxy
    have := rpow_pos_of_pos hb a
    have := rpow_pos_of_pos hb' a
    exact mul_lt_mul_of_pos_left (exp_lt_exp.2 (mul_lt_mul_of_pos_left hxy (by linarith))) (by positivity)

theorem InverseGamma.higher_alpha {a a' b : ℝ} (ha' : 0 < a') (hb : 0 < b) (h : a' < a) :
    Higher (Ioi 0) (InverseGamma.dist ⟨a, b⟩).pdf (InverseGamma.dist ⟨a', b⟩).pdf := by
  have ha := ha'.trans h
  have g1 := Real.Gamma_pos_of_pos ha
  have g2 := Real.Gamma_pos_of_pos ha'
  refine higher_of_ratio isOpen_Ioi (InverseGamma.isDensity ⟨a, b⟩ ha hb) (InverseGamma.isDensity ⟨a', b⟩ ha' hb)
    (fun x hx => InverseGamma.pdf_pos ⟨a, b⟩ ⟨ha, hb⟩ hx)
    (r := fun x => b ^ (a' - a) * Real.Gamma a / Real.Gamma a' * x ^ (a - a')) ?_ ?_
  · intro x hx
    have hx : 0 < x := hx
    rw [InverseGamma.pdf_eq _ hb hx, InverseGamma.pdf_eq _ hb hx]
    have e : x ^ (-a' - 1) = x ^ (a - a') * x ^ (-a - 1) := by rw [← rpow_add hx]; ring_nf
    have e2 : b ^ a' = b ^ (a' - a) * b ^ a := by rw [← rpow_add hb]; ring_nf
    simp only
    rw [e, e2]
    field_simp
  · intro x hx y hy hxy
    exact mul_lt_mul_of_pos_left (rpow_lt_rpow (le_of_lt hx) hxy (by linarith)) (by positivity)

theorem InverseGamma.higher_beta {a b b' : ℝ} (ha : 0 < a) (hb : 0 < b) (h : b < b') :
    Higher (Ioi 0) (InverseGamma.dist ⟨a, b⟩).pdf (InverseGamma.dist ⟨a, b'⟩).pdf := by
  have hb' := hb.trans h
  have g1 := Real.Gamma_pos_of_pos ha
  refine higher_of_ratio isOpen_Ioi (InverseGamma.isDensity ⟨a, b⟩ ha hb) (InverseGamma.isDensity ⟨a, b'⟩ ha hb')
    (fun x hx => InverseGamma.pdf_pos ⟨a, b⟩ ⟨ha, hb⟩ hx)
    (r := fun x => b' ^ a / b ^ a * exp ((b - b') / x)) ?_ ?_
  · intro x hx
    have hx : 0 < x := hx
    rw [InverseGamma.pdf_eq _ hb' hx, InverseGamma.pdf_eq _ hb hx]
    have e : exp (-(b' / x)) = exp ((b - b') / x) * exp (-(b / x)) := by rw [← exp_add]; ring_nf
    have := rpow_pos_of_pos hb a
    simp only
    rw [e]
    field_simp
  · intro x hx y hy hxy
    have hx : 0 < x := hx
    have := rpow_pos_of_pos hb a
    have := rpow_pos_of_pos hb' a
    refine mul_lt_mul_of_pos_left (exp_lt_exp.2 ?_) (by positivity)
    rw [div_lt_div_iff₀ hx (hx.trans hxy)]
    exact mul_lt_mul_of_neg_left hxy (by linarith)

theorem Normal.higher_mu {m m' s : ℝ} (hs : 0 < s) (h : m < m') :
    Higher univ (Normal.dist ⟨m, s⟩).pdf (Normal.dist ⟨m', s⟩).pdf := by
  refine higher_of_ratio isOpen_univ (Normal.isDensity ⟨m, s⟩ hs) (Normal.isDensity ⟨m', s⟩ hs)
    (fun x _ => Normal.pdf_pos ⟨m, s⟩ hs x)
    (r := fun x => exp ((m' - m) * (2 * x - m - m') / (2 * s ^ 2))) ?_ ?_
  · intro x _
    rw [Normal.pdf_eq _ hs, Normal.pdf_eq _ hs]
    have e : exp (-(x - m') ^ 2 / (2 * s ^ 2)) =
        exp ((m' - m) * (2 * x - m - m') / (2 * s ^ 2)) * exp (-(x - m) ^ 2 / (2 * s ^ 2)) := by
      rw [← exp_add]; ring_nf
    simp only
    rw [e]
    ring
  · intro x _ y _ hxy
    refine exp_lt_exp.2 ((div_lt_div_iff_of_pos_right (by positivity)).2 (mul_lt_mul_of_pos_left (by linarith) (by linarith)))

/-- The chance of a Pareto value above `t`. -/
theorem Pareto.tail (d : Pareto ℝ) (hm : 0 < d.x_m) (ha : 0 < d.alpha) {t : ℝ} (ht : d.x_m ≤ t) :
    tailProb (Ioi 0) d.dist.pdf t = (d.x_m / t) ^ d.alpha := by
  have ht0 : 0 < t := hm.trans_le ht
  have e : Ioi (0 : ℝ) ∩ Ioi t = Ioi t := by rw [Ioi_inter_Ioi, sup_eq_right.2 ht0.le]
  rw [tailProb, e]
  have h : ∀ x ∈ Ioi t, d.dist.pdf x = d.alpha * d.x_m ^ d.alpha * x ^ (-(d.alpha + 1)) := by
    intro x hx
    have hx' : t < x := hx
    have hx0 : 0 < x := ht0.trans hx'
    rw [Pareto.pdf_eq d hm (ht.trans hx'.le), rpow_neg hx0.le, div_eq_mul_inv]
  rw [setIntegral_congr_fun measurableSet_Ioi h, integral_const_mul, integral_Ioi_rpow_of_lt (by linarith) ht0,
    show -(d.alpha + 1) + 1 = -d.alpha by ring, rpow_neg ht0.le, div_rpow hm.le ht0.le]
  have : 0 < t ^ d.alpha := rpow_pos_of_pos ht0 _
  field_simp

theorem Pareto.tail_one (d : Pareto ℝ) (hm : 0 < d.x_m) (ha : 0 < d.alpha) {t : ℝ} (ht : t ≤ d.x_m) :
    tailProb (Ioi 0) d.dist.pdf t = 1 := by
  rcases ht.eq_or_lt with rfl | ht
  · rw [Pareto.tail d hm ha le_rfl, div_self hm.ne', one_rpow]
  have h := Pareto.isDensity d hm ha
  rw [← h.2.2, tailProb]
  refine (setIntegral_eq_of_subset_of_forall_sdiff_eq_zero measurableSet_Ioi inter_subset_left ?_).symm
  rintro x ⟨hx, hx'⟩
  have : x ≤ t := by
    by_contra hc
    exact hx' ⟨hx, not_le.1 hc⟩
  exact Pareto.pdf_eq_zero d hm (this.trans_lt ht)

/-! ## Proportions -/

/-- C99 binomial: more successes in the same number of trials. -/
theorem C99_binomial_beta_successes (prior : Beta ℝ) (hp : prior.Valid) {n x x' : ℝ} (hx : 0 ≤ x) (h : x < x')
    (hn : x' ≤ n) : Higher (Ioo 0 1) (binomial_beta n x prior).dist.pdf (binomial_beta n x' prior).dist.pdf := by
  obtain ⟨a, b⟩ := prior
  obtain ⟨ha, hb⟩ : 0 < a ∧ 0 < b := hp
  exact Higher.trans
    (Beta.higher_alpha (a := a + x) (b := b + (n - x)) (a' := a + x') (by linarith) (by linarith) (by linarith))
    (Beta.higher_beta (a := a + x') (b := b + (n - x)) (b' := b + (n - x')) (by linarith) (by linarith) (by linarith))

example : Higher (Ioo 0 1) (binomial_beta 10 3 ⟨1, 1⟩ : Beta ℝ).dist.pdf (binomial_beta 10 4 ⟨1, 1⟩).dist.pdf :=
  C99_binomial_beta_successes ⟨1, 1⟩ ⟨one_pos, one_pos⟩ (by norm_num) (by norm_num) (by norm_num)

/-- C99 binomial: more trials for the same number of successes. -/
theorem C99_binomial_beta_trials (prior : Beta ℝ) (hp : prior.Valid) {n n' x : ℝ} (hx : 0 ≤ x) (hn : x ≤ n)
    (h : n < n') : Higher (Ioo 0 1) (binomial_beta n' x prior).dist.pdf (binomial_beta n x prior).dist.pdf := by
  obtain ⟨a, b⟩ := prior
  obtain ⟨ha, hb⟩ : 0 < a ∧ 0 < b := hp
  exact Beta.higher_beta (a := a + x) (b := b + (n' - x)) (b' := b + (n - x)) (by linarith) (by linarith) (by linarith)

example : Higher (Ioo 0 1) (binomial_beta 20 3 ⟨1, 1⟩ : Beta ℝ).dist.pdf (binomial_beta 10 3 ⟨1, 1⟩).dist.pdf :=
  C99_binomial_beta_trials ⟨1, 1⟩ ⟨one_pos, one_pos⟩ (by norm_num) (by norm_num) (by norm_num)

/-- C99 Bernoulli: a success moves the posterior above the prior, a failure below. -/
theorem C99_bernoulli_beta (prior : Beta ℝ) (hp : prior.Valid) :
    Higher (Ioo 0 1) prior.dist.pdf (bernoulli_beta 1 prior).dist.pdf ∧
    Higher (Ioo 0 1) (bernoulli_beta 0 prior).dist.pdf prior.dist.pdf := by
  obtain ⟨a, b⟩ := prior
  obtain ⟨ha, hb⟩ : 0 < a ∧ 0 < b := hp
  have e1 : bernoulli_beta 1 ⟨a, b⟩ = (⟨a + 1, b⟩ : Beta ℝ) := by
    simp [bernoulli_beta, binomial_beta, getBinomialBetaPosteriorParams]
  have e0 : bernoulli_beta 0 ⟨a, b⟩ = (⟨a, b + 1⟩ : Beta ℝ) := by
    simp [bernoulli_beta, binomial_beta, getBinomialBetaPosteriorParams]
  rw [e1, e0]
  exact ⟨Beta.higher_alpha ha hb (by linarith), Beta.higher_beta ha hb (by linarith)⟩

example : Higher (Ioo 0 1) (⟨1, 2⟩ : Beta ℝ).dist.pdf (bernoulli_beta 1 ⟨1, 2⟩).dist.pdf :=
  (C99_bernoulli_beta ⟨1, 2⟩ ⟨one_pos, two_pos⟩).1

/-- C99 negative binomial: more failures before the same number of successes. -/
theorem C99_negative_binomial_beta (prior : Beta ℝ) (hp : prior.Valid) {r n x x' : ℝ} (hr : 0 ≤ r) (hn : 0 ≤ n)
    (hx : 0 ≤ x) (h : x < x') :
    Higher (Ioo 0 1) (negative_binomial_beta r n x' prior).dist.pdf (negative_binomial_beta r n x prior).dist.pdf := by
  obtain ⟨a, b⟩ := prior
  obtain ⟨ha, hb⟩ : 0 < a ∧ 0 < b := hp
  have := mul_nonneg hr hn
  exact Beta.higher_beta (a := a + r * n) (b := b + x') (b' := b + x) (by linarith) (by linarith) (by linarith)

example : Higher (Ioo 0 1) (negative_binomial_beta 3 2 9 ⟨1, 2⟩ : Beta ℝ).dist.pdf
    (negative_binomial_beta 3 2 5 ⟨1, 2⟩).dist.pdf :=
  C99_negative_binomial_beta ⟨1, 2⟩ ⟨one_pos, two_pos⟩ (by norm_num) (by norm_num) (by norm_num) (by norm_num)

/-- C99 geometric: longer waits for the same number of successes, in both conventions. -/
theorem C99_geometric_beta (one_start : Bool) (prior : Beta ℝ) (hp : prior.Valid) {n x x' : ℝ} (hn : 0 ≤ n)
    (hx : (if one_start then n else 0) ≤ x) (h : x < x') :
    Higher (Ioo 0 1) (geometric_beta x' n prior one_start).dist.pdf (geometric_beta x n prior one_start).dist.pdf := by
  obtain ⟨a, b⟩ := prior
  obtain ⟨ha, hb⟩ : 0 < a ∧ 0 < b := hp
  cases one_start
  · have hx : 0 ≤ x := by simpa using hx
    exact Beta.higher_beta (a := a + n) (b := b + x') (b' := b + x) (by linarith) (by linarith) (by linarith)
  · have hx : n ≤ x := by simpa using hx
    exact Beta.higher_beta (a := a + n) (b := b + x' - n) (b' := b + x - n) (by linarith) (by linarith) (by linarith)

example : Higher (Ioo 0 1) (geometric_beta 9 3 ⟨1, 2⟩ true : Beta ℝ).dist.pdf (geometric_beta 5 3 ⟨1, 2⟩ true).dist.pdf :=
  C99_geometric_beta true ⟨1, 2⟩ ⟨one_pos, two_pos⟩ (by norm_num) (by norm_num) (by norm_num)

/-! ## Rates -/

/-- C99 Poisson: more events in the same exposure. -/
theorem C99_poisson_gamma_events (prior : Gamma ℝ) (hp : prior.Valid) {n x x' : ℝ} (hn : 0 ≤ n) (hx : 0 ≤ x)
    (h : x < x') : Higher (Ioi 0) (poisson_gamma x n prior).dist.pdf (poisson_gamma x' n prior).dist.pdf := by
  obtain ⟨a, b⟩ := prior
  obtain ⟨ha, hb⟩ : 0 < a ∧ 0 < b := hp
  exact Gamma.higher_alpha (a := a + x) (b := b + n) (a' := a + x') (by linarith) (by linarith) (by linarith)

example : Higher (Ioi 0) (poisson_gamma 5 3 ⟨1, 2⟩ : Gamma ℝ).dist.pdf (poisson_gamma 6 3 ⟨1, 2⟩).dist.pdf :=
  C99_poisson_gamma_events ⟨1, 2⟩ ⟨one_pos, two_pos⟩ (by norm_num) (by norm_num) (by norm_num)

/-- C99 Poisson: the same events in more exposure. -/
theorem C99_poisson_gamma_exposure (prior : Gamma ℝ) (hp : prior.Valid) {n n' x : ℝ} (hn : 0 ≤ n) (hx : 0 ≤ x)
    (h : n < n') : Higher (Ioi 0) (poisson_gamma x n' prior).dist.pdf (poisson_gamma x n prior).dist.pdf := by
  obtain ⟨a, b⟩ := prior
  obtain ⟨ha, hb⟩ : 0 < a ∧ 0 < b := hp
  exact Gamma.higher_beta (a := a + x) (b := b + n') (b' := b + n) (by linarith) (by linarith) (by linarith)

example : Higher (Ioi 0) (poisson_gamma 5 4 ⟨1, 2⟩ : Gamma ℝ).dist.pdf (poisson_gamma 5 3 ⟨1, 2⟩).dist.pdf :=
  C99_poisson_gamma_exposure ⟨1, 2⟩ ⟨one_pos, two_pos⟩ (by norm_num) (by norm_num) (by norm_num)

/-- Full statement of C99 for `exponential_gamma`: longer waiting times for the same number of events mean a lower
rate. -/
def C99_exponential_statement (prior : Gamma ℝ) (n x x' : ℝ) : Prop :=
  Higher (Ioi 0) (exponential_gamma x' n prior).dist.pdf (exponential_gamma x n prior).dist.pdf

/-- C99 is false for `exponential_gamma`, for every prior and all data: longer waiting times move the posterior
of the rate up. -/
theorem C99_exponential_gamma_false (prior : Gamma ℝ) (hp : prior.Valid) {n x x' : ℝ} (hn : 0 ≤ n) (hx : 0 ≤ x)
    (h : x < x') : ¬ C99_exponential_statement prior n x x' :=
  Higher.not_rev (S := Ioi 0) ⟨1, mem_Ioi.2 one_pos⟩ (C99_poisson_gamma_events prior hp hn hx h)

example : ¬ C99_exponential_statement ⟨1, 2⟩ 3 5 6 :=
  C99_exponential_gamma_false ⟨1, 2⟩ ⟨one_pos, two_pos⟩ (by norm_num) (by norm_num) (by norm_num)

/-- C99 exponential, what is proved: the statement holds when the caller exchanges the two arguments, which is the
only way to get the right posterior from this function.  Missing: the call as documented, which is false. -/
theorem C99_exponential_gamma_partial (prior : Gamma ℝ) (hp : prior.Valid) {n x x' : ℝ} (hn : 0 ≤ n) (hx : 0 ≤ x)
    (h : x < x') : Higher (Ioi 0) (exponential_gamma n x' prior).dist.pdf (exponential_gamma n x prior).dist.pdf :=
  C99_poisson_gamma_exposure prior hp hx hn h

example : Higher (Ioi 0) (exponential_gamma 3 6 ⟨1, 2⟩ : Gamma ℝ).dist.pdf (exponential_gamma 3 5 ⟨1, 2⟩).dist.pdf :=
  C99_exponential_gamma_partial ⟨1, 2⟩ ⟨one_pos, two_pos⟩ (by norm_num) (by norm_num) (by norm_num)

/-- C99 gamma with known shape: a larger total. -/
theorem C99_gamma_known_shape_total (prior : Gamma ℝ) (hp : prior.Valid) {shape n x x' : ℝ} (hs : 0 ≤ shape)
    (hn : 0 ≤ n) (hx : 0 ≤ x) (h : x < x') :
    Higher (Ioi 0) (gamma_known_shape x' n shape prior).dist.pdf (gamma_known_shape x n shape prior).dist.pdf := by
  obtain ⟨a, b⟩ := prior
  obtain ⟨ha, hb⟩ : 0 < a ∧ 0 < b := hp
  have := mul_nonneg hn hs
  exact Gamma.higher_beta (a := a + n * shape) (b := b + x') (b' := b + x) (by linarith) (by linarith) (by linarith)

example : Higher (Ioi 0) (gamma_known_shape 6 3 2 ⟨1, 2⟩ : Gamma ℝ).dist.pdf (gamma_known_shape 5 3 2 ⟨1, 2⟩).dist.pdf :=
  C99_gamma_known_shape_total ⟨1, 2⟩ ⟨one_pos, two_pos⟩ (by norm_num) (by norm_num) (by norm_num) (by norm_num)

/-- C99 gamma with known shape: the same total from more observations. -/
theorem C99_gamma_known_shape_count (prior : Gamma ℝ) (hp : prior.Valid) {shape n n' x : ℝ} (hs : 0 < shape)
    (hn : 0 ≤ n) (hx : 0 ≤ x) (h : n < n') :
    Higher (Ioi 0) (gamma_known_shape x n shape prior).dist.pdf (gamma_known_shape x n' shape prior).dist.pdf := by
  obtain ⟨a, b⟩ := prior
  obtain ⟨ha, hb⟩ : 0 < a ∧ 0 < b := hp
  have := mul_nonneg hn hs.le
  have := mul_lt_mul_of_pos_right h hs
  exact Gamma.higher_alpha (a := a + n * shape) (b := b + x) (a' := a + n' * shape) (by linarith) (by linarith)
    (by linarith)

example : Higher (Ioi 0) (gamma_known_shape 6 3 2 ⟨1, 2⟩ : Gamma ℝ).dist.pdf (gamma_known_shape 6 4 2 ⟨1, 2⟩).dist.pdf :=
  C99_gamma_known_shape_count ⟨1, 2⟩ ⟨one_pos, two_pos⟩ (by norm_num) (by norm_num) (by norm_num) (by norm_num)

/-- C99 inverse gamma: a larger total of reciprocals. -/
theorem C99_inverse_gamma_known_rate (prior : Gamma ℝ) (hp : prior.Valid) {shape n x x' : ℝ} (hs : 0 ≤ shape)
    (hn : 0 ≤ n) (hx : 0 ≤ x) (h : x < x') :
    Higher (Ioi 0) (inverse_gamma_known_rate x' n shape prior).dist.pdf
      (inverse_gamma_known_rate x n shape prior).dist.pdf :=
  C99_gamma_known_shape_total prior hp hs hn hx h

example : Higher (Ioi 0) (inverse_gamma_known_rate 6 3 2 ⟨1, 2⟩ : Gamma ℝ).dist.pdf
    (inverse_gamma_known_rate 5 3 2 ⟨1, 2⟩).dist.pdf :=
  C99_inverse_gamma_known_rate ⟨1, 2⟩ ⟨one_pos, two_pos⟩ (by norm_num) (by norm_num) (by norm_num) (by norm_num)

/-- C99 Pareto: larger data mean a lower tail index. -/
theorem C99_pareto_gamma (prior : Gamma ℝ) (hp : prior.Valid) {n L L' x_m : ℝ} (hn : 0 ≤ n)
    (hL : n * Real.log x_m ≤ L) (h : L < L') :
    Higher (Ioi 0) (pareto_gamma n L' x_m prior Real.log).dist.pdf (pareto_gamma n L x_m prior Real.log).dist.pdf := by
  obtain ⟨a, b⟩ := prior
  obtain ⟨ha, hb⟩ : 0 < a ∧ 0 < b := hp
  exact Gamma.higher_beta (a := a + n) (b := b + L' - n * Real.log x_m) (b' := b + L - n * Real.log x_m)
    (by linarith) (by linarith) (by linarith)

example : Higher (Ioi 0) (pareto_gamma 3 6 1 ⟨1, 2⟩ Real.log : Gamma ℝ).dist.pdf
    (pareto_gamma 3 5 1 ⟨1, 2⟩ Real.log).dist.pdf :=
  C99_pareto_gamma ⟨1, 2⟩ ⟨one_pos, two_pos⟩ (by norm_num) (by norm_num) (by norm_num)

/-! ## Scales and variances -/

/-- C99 Weibull: larger lifetimes. -/
theorem C99_weibull (prior : InverseGamma ℝ) (hp : prior.Valid) {n x x' : ℝ} (hn : 0 ≤ n) (hx : 0 ≤ x) (h : x < x') :
    Higher (Ioi 0) (weibull_inverse_gamma_known_shape n x prior).dist.pdf
      (weibull_inverse_gamma_known_shape n x' prior).dist.pdf := by
  obtain ⟨a, b⟩ := prior
  obtain ⟨ha, hb⟩ : 0 < a ∧ 0 < b := hp
  exact InverseGamma.higher_beta (a := a + n) (b := b + x) (b' := b + x') (by linarith) (by linarith) (by linarith)

example : Higher (Ioi 0) (weibull_inverse_gamma_known_shape 3 5 ⟨1, 2⟩ : InverseGamma ℝ).dist.pdf
    (weibull_inverse_gamma_known_shape 3 6 ⟨1, 2⟩).dist.pdf :=
  C99_weibull ⟨1, 2⟩ ⟨one_pos, two_pos⟩ (by norm_num) (by norm_num) (by norm_num)

/-- C99 normal with known mean, `InverseGamma` prior: data spread wider around the known mean. -/
theorem C99_normal_known_mean_inverse_gamma (prior : InverseGamma ℝ) (hp : prior.Valid) (mu : ℝ) (xs ys : List ℝ)
    (hl : xs.length = ys.length)
    (h : (xs.map fun x => (x - mu) ^ 2).sum < (ys.map fun x => (x - mu) ^ 2).sum) :
    Higher (Ioi 0)
      (normal_known_mean xs.sum (xs.map (· ^ 2)).sum (xs.length : ℝ) mu (.inverseGamma prior)).pdf
      (normal_known_mean ys.sum (ys.map (· ^ 2)).sum (ys.length : ℝ) mu (.inverseGamma prior)).pdf := by
  obtain ⟨a, b⟩ := prior
  obtain ⟨ha, hb⟩ : 0 < a ∧ 0 < b := hp
  have e : ∀ l : List ℝ, normal_known_mean l.sum (l.map (· ^ 2)).sum (l.length : ℝ) mu (.inverseGamma ⟨a, b⟩) =
      .inverseGamma ⟨a + l.length / 2, b + (l.map fun x => (x - mu) ^ 2).sum / 2⟩ := by
    intro l
    have hs : (l.map (· ^ 2)).sum - 2 * mu * l.sum + l.length * mu ^ 2 = (l.map fun x => (x - mu) ^ 2).sum := by
      induction l with
      | nil => simp
      | cons x l ih =>
        simp only [List.map_cons, List.sum_cons, List.length_cons, Nat.cast_add, Nat.cast_one]
        linarith
    simp only [normal_known_mean, normalKnownMeanInverseGammaPrior, lit_real, powq_two]
    push_cast
    rw [hs]
    congr 3
    ring
  rw [e, e, ← hl]
  have hx : 0 ≤ (xs.map fun x => (x - mu) ^ 2).sum := List.sum_nonneg (by
    intro y hy
    obtain ⟨x, _, rfl⟩ := List.mem_map.1 hy
    positivity)
  exact InverseGamma.higher_beta (a := a + xs.length / 2) (by positivity) (by linarith) (by linarith)

example : Higher (Ioi 0)
    (normal_known_mean [1, 2].sum ([1, 2].map (· ^ 2)).sum (([1, 2] : List ℝ).length : ℝ) 0 (.inverseGamma ⟨1, 2⟩)).pdf
    (normal_known_mean [1, 3].sum ([1, 3].map (· ^ 2)).sum (([1, 3] : List ℝ).length : ℝ) 0 (.inverseGamma ⟨1, 2⟩)).pdf :=
  C99_normal_known_mean_inverse_gamma ⟨1, 2⟩ ⟨one_pos, two_pos⟩ 0 [1, 2] [1, 3] rfl (by norm_num)

/-! ## Locations -/

theorem normal_known_variance_form (prior : Normal ℝ) (hs : 0 < prior.sigma) {var : ℝ} (hv : 0 < var) {n : ℝ}
    (hn : 0 ≤ n) : ∃ s > 0, ∃ k > 0, ∀ x, ∃ m, normal_known_variance x n var prior = ⟨m, s⟩ ∧
      m = (prior.mu / prior.sigma ^ 2 + x / var) / k := by
  refine ⟨√(1 / (1 / prior.sigma ^ 2 + n / var)), by positivity, 1 / prior.sigma ^ 2 + n / var, by positivity,
    fun x => ⟨_, ?_, rfl⟩⟩
  simp only [normal_known_variance, powq_two, powq_half, lit_real, Rat.cast_one]

/-- C99 normal with known variance: a larger total. -/
theorem C99_normal_known_variance (prior : Normal ℝ) (hs : 0 < prior.sigma) {var n x x' : ℝ} (hv : 0 < var)
    (hn : 0 ≤ n) (h : x < x') :
    Higher univ (normal_known_variance x n var prior).dist.pdf (normal_known_variance x' n var prior).dist.pdf := by
  obtain ⟨s, hs', k, hk, hform⟩ := normal_known_variance_form prior hs hv hn
  obtain ⟨m, e1, e2⟩ := hform x
  obtain ⟨m', e1', e2'⟩ := hform x'
  rw [e1, e1']
  refine Normal.higher_mu hs' ?_
  rw [e2, e2', div_lt_div_iff_of_pos_right hk]
  have := (div_lt_div_iff_of_pos_right hv).2 h
  linarith

example : Higher univ (normal_known_variance 5 3 2 ⟨1, 2⟩ : Normal ℝ).dist.pdf
    (normal_known_variance 6 3 2 ⟨1, 2⟩).dist.pdf :=
  C99_normal_known_variance ⟨1, 2⟩ two_pos (by norm_num) (by norm_num) (by norm_num)

/-- C99 normal with known precision. -/
theorem C99_normal_known_precision (prior : Normal ℝ) (hs : 0 < prior.sigma) {precision n x x' : ℝ}
    (hv : 0 < precision) (hn : 0 ≤ n) (h : x < x') :
    Higher univ (normal_known_precision x n precision prior).dist.pdf
      (normal_known_precision x' n precision prior).dist.pdf :=
  C99_normal_known_variance prior hs (by simp; positivity) hn h

example : Higher univ (normal_known_precision (-5) 3 2 ⟨1, 2⟩ : Normal ℝ).dist.pdf
    (normal_known_precision 6 3 2 ⟨1, 2⟩).dist.pdf :=
  C99_normal_known_precision ⟨1, 2⟩ two_pos (by norm_num) (by norm_num) (by norm_num)

/-- C99 uniform: a larger maximum, for thresholds that the first posterior can fall short of. -/
theorem C99_uniform_pareto_max (prior : Pareto ℝ) (hp : prior.Valid) {n x x' : ℝ} (hn : 0 ≤ n) (hx : prior.x_m ≤ x)
    (h : x < x') {t : ℝ} (ht : x < t) :
    tailProb (Ioi 0) (uniform_pareto x n prior max).dist.pdf t <
      tailProb (Ioi 0) (uniform_pareto x' n prior max).dist.pdf t := by
  obtain ⟨m, a⟩ := prior
  obtain ⟨hm, ha⟩ : 0 < m ∧ 0 < a := hp
  have hx : m ≤ x := hx
  have e1 : uniform_pareto x n ⟨m, a⟩ max = ⟨x, a + n⟩ := by simp [uniform_pareto, hx]
  have e2 : uniform_pareto x' n ⟨m, a⟩ max = ⟨x', a + n⟩ := by simp [uniform_pareto, hx.trans h.le]
  have x0 : 0 < x := hm.trans_le hx
  have han : 0 < a + n := by linarith
  rw [e1, e2, Pareto.tail ⟨x, a + n⟩ x0 han ht.le]
  have t0 := x0.trans ht
  rcases le_or_gt t x' with h1 | h1
  · rw [Pareto.tail_one ⟨x', a + n⟩ (x0.trans h) han h1]
    exact rpow_lt_one (by positivity) ((div_lt_one t0).2 ht) han
  · rw [Pareto.tail ⟨x', a + n⟩ (x0.trans h) han h1.le]
    exact rpow_lt_rpow (by positivity) ((div_lt_div_iff_of_pos_right t0).2 h) han

example : tailProb (Ioi 0) (uniform_pareto 5 3 ⟨1, 2⟩ max : Pareto ℝ).dist.pdf 7 <
    tailProb (Ioi 0) (uniform_pareto 6 3 ⟨1, 2⟩ max).dist.pdf 7 :=
  C99_uniform_pareto_max ⟨1, 2⟩ ⟨one_pos, two_pos⟩ (by norm_num) (by norm_num) (by norm_num) (by norm_num)

/-- C99 uniform: the same maximum from more observations. -/
theorem C99_uniform_pareto_count (prior : Pareto ℝ) (hp : prior.Valid) {n n' x : ℝ} (hn : 0 ≤ n) (h : n < n')
    {t : ℝ} (ht : max prior.x_m x < t) :
    tailProb (Ioi 0) (uniform_pareto x n' prior max).dist.pdf t <
      tailProb (Ioi 0) (uniform_pareto x n prior max).dist.pdf t := by
  obtain ⟨m, a⟩ := prior
  obtain ⟨hm, ha⟩ : 0 < m ∧ 0 < a := hp
  have ht : max m x < t := ht
  have m0 : 0 < max m x := lt_max_of_lt_left hm
  have t0 := m0.trans ht
  show tailProb (Ioi 0) (Pareto.dist ⟨max m x, a + n'⟩).pdf t < tailProb (Ioi 0) (Pareto.dist ⟨max m x, a + n⟩).pdf t
  rw [Pareto.tail ⟨max m x, a + n'⟩ m0 (by linarith : 0 < a + n') ht.le,
    Pareto.tail ⟨max m x, a + n⟩ m0 (by linarith : 0 < a + n) ht.le]
  exact rpow_lt_rpow_of_exponent_gt (by positivity) ((div_lt_one t0).2 ht) (by show a + n < a + n'; linarith)

example : tailProb (Ioi 0) (uniform_pareto 5 4 ⟨1, 2⟩ max : Pareto ℝ).dist.pdf 7 <
    tailProb (Ioi 0) (uniform_pareto 5 3 ⟨1, 2⟩ max).dist.pdf 7 :=
  C99_uniform_pareto_count ⟨1, 2⟩ ⟨one_pos, two_pos⟩ (by norm_num) (by norm_num) (by norm_num)

end Conj
