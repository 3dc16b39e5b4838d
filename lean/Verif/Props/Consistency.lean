import Verif.Lemmas.DataMeans

/-!
# Learning the true parameter (C88, C92)

Observations `X 0, X 1, ...` are independent draws from the model with true parameter.  Feeding the
statistics of the first `n` of them to the model function gives a posterior which, almost surely,
puts probability tending to one on every neighbourhood of the true parameter as `n` grows.

C92 (`scripts/parameter-recovery.py`): besides, the posterior mean and both ends of every credible interval, the
numbers the script plots, tend to the true parameter.  C88 and C92 have the same hypotheses; the example after each
pair meets them.
-/

open MeasureTheory Set Filter Topology

namespace Conj

open Scipy Spec

variable {Ω : Type} [MeasurableSpace Ω] {Q : Measure Ω}

theorem disc_ae {d : Disc} {p : ℤ → Prop} (h : ∀ k, ¬ p k → d.pmf k = 0) : ∀ᵐ k ∂discLaw d, p k := by
  rw [ae_iff, discLaw, withDensity_apply _ (MeasurableSet.of_discrete)]
  rw [setLIntegral_congr_fun (g := fun _ => 0) (MeasurableSet.of_discrete) fun k hk => ?_, lintegral_zero]
  simp only [h k hk, ENNReal.ofReal_zero]

theorem sum_nonneg_of {x : ℕ → ℝ} (h : ∀ i, 0 ≤ x i) (n : ℕ) : 0 ≤ ∑ i ∈ Finset.range n, x i :=
  Finset.sum_nonneg fun i _ => h i

theorem average_n : Tendsto (fun n : ℕ => (n : ℝ) / n) atTop (𝓝 1) := by
  simpa using average_linear (d := 1)

/-! ## Beta posteriors -/

theorem binomial_beta_limit {X : ℕ → Ω → ℤ} (prior : Beta ℝ) (ha : 0 < prior.alpha) (hb : 0 < prior.beta) (N : ℕ)
    (hN : 0 < N) {p₀ : ℝ} (h0 : 0 ≤ p₀) (h1 : p₀ ≤ 1) (h : IIDFrom Q X (discLaw (Binomial.dist ⟨N, p₀⟩))) :
    ∀ᵐ ω ∂Q, BetaLimit
      (fun n => (binomial_beta (n * N : ℝ) (∑ i ∈ Finset.range n, (X i ω : ℝ)) prior)) p₀ := by
  have hN' : (0 : ℝ) < N := by exact_mod_cast hN
  obtain ⟨hi, hm⟩ := binomial_expect N h0 h1
  have hs : ∀ᵐ k : ℤ ∂discLaw (Binomial.dist ⟨N, p₀⟩), (0 : ℝ) ≤ k ∧ (k : ℝ) ≤ N := by
    refine disc_ae fun k hk => ?_
    simp only [Binomial.dist, Disc.pmf, DiscFamily.pmf0, sub_zero]
    rw [if_neg]
    rintro ⟨h1, h2⟩
    exact hk ⟨by exact_mod_cast h1, h2⟩
  filter_upwards [iid_average h (T := fun k => (k : ℝ)) (measurable_int _) hi, iid_forall h hs] with ω hω hx
  rw [hm] at hω
  have hle : ∀ n : ℕ, 0 ≤ (n * N : ℝ) - ∑ i ∈ Finset.range n, (X i ω : ℝ) := fun n => by
    rw [sub_nonneg]
    refine (Finset.sum_le_sum fun i _ => (hx i).2).trans ?_
    simp
  have hA := average_const_add (c := prior.alpha) hω
  have hB := average_const_add (c := prior.beta) (average_sub (average_linear (d := (N : ℝ))) hω)
  have e : ∀ n : ℕ, (n * N : ℝ) = N * n := fun n => mul_comm _ _
  simp only [binomial_beta, getBinomialBetaPosteriorParams]
  refine BetaLimit.mk (fun n => ?_) (fun n => ?_) ?_ ?_
  · have := sum_nonneg_of (fun i => (hx i).1) n; positivity
  · have := hle n; positivity
  · have := ratio_of_averages hA (average_add hA hB) (by ring_nf; positivity)
    convert this using 2
    · simp only [e]
    · field_simp; ring
  · have := atTop_of_average (average_add hA hB) (by ring_nf; positivity)
    simpa only [e] using this

/-- C92, `N` trials per batch, `X i` successes in batch `i` -/
theorem C92_binomial_beta {X : ℕ → Ω → ℤ} (prior : Beta ℝ) (ha : 0 < prior.alpha) (hb : 0 < prior.beta) (N : ℕ)
    (hN : 0 < N) {p₀ : ℝ} (h0 : 0 ≤ p₀) (h1 : p₀ ≤ 1) (h : IIDFrom Q X (discLaw (Binomial.dist ⟨N, p₀⟩))) :
    ∀ᵐ ω ∂Q, Recovers
      (fun n => contLaw (binomial_beta (n * N : ℝ) (∑ i ∈ Finset.range n, (X i ω : ℝ)) prior).dist) p₀ :=
  (binomial_beta_limit prior ha hb N hN h0 h1 h).mono fun _ h => h.recovers

/-- C88, `N` trials per batch, `X i` successes in batch `i` -/
theorem C88_binomial_beta {X : ℕ → Ω → ℤ} (prior : Beta ℝ) (ha : 0 < prior.alpha) (hb : 0 < prior.beta) (N : ℕ)
    (hN : 0 < N) {p₀ : ℝ} (h0 : 0 ≤ p₀) (h1 : p₀ ≤ 1) (h : IIDFrom Q X (discLaw (Binomial.dist ⟨N, p₀⟩))) :
    ∀ᵐ ω ∂Q, ConcentratesAt
      (fun n => contLaw (binomial_beta (n * N : ℝ) (∑ i ∈ Finset.range n, (X i ω : ℝ)) prior).dist) p₀ :=
  (C92_binomial_beta prior ha hb N hN h0 h1 h).mono fun _ h => h.concentrates

example : ∃ (Q : Measure (ℕ → ℤ)) (X : ℕ → (ℕ → ℤ) → ℤ), IsProbabilityMeasure Q ∧
    IIDFrom Q X (discLaw (Binomial.dist ⟨(10 : ℕ), (1 / 3 : ℝ)⟩)) ∧ ∀ᵐ ω ∂Q, ConcentratesAt
      (fun n => contLaw (binomial_beta (n * (10 : ℕ) : ℝ) (∑ i ∈ Finset.range n, (X i ω : ℝ)) ⟨1, 1⟩).dist) (1 / 3) := by
  have := binomial_prob 10 (p := 1 / 3) (by norm_num) (by norm_num)
  obtain ⟨Q, X, hQ, h⟩ := exists_iid (discLaw (Binomial.dist ⟨(10 : ℕ), (1 / 3 : ℝ)⟩))
  exact ⟨Q, X, hQ, h, C88_binomial_beta _ (by norm_num) (by norm_num) 10 (by norm_num) (by norm_num) (by norm_num) h⟩

theorem bernoulli_beta_limit {X : ℕ → Ω → ℤ} (prior : Beta ℝ) (ha : 0 < prior.alpha) (hb : 0 < prior.beta)
    {p₀ : ℝ} (h0 : 0 ≤ p₀) (h1 : p₀ ≤ 1) (h : IIDFrom Q X (discLaw (Binomial.dist ⟨1, p₀⟩))) :
    ∀ᵐ ω ∂Q, BetaLimit
      (fun n => ((List.range n).foldl (fun d i => bernoulli_beta (X i ω : ℝ) d) prior)) p₀ := by
  have h' : IIDFrom Q X (discLaw (Binomial.dist ⟨(1 : ℕ), p₀⟩)) := by simpa using h
  filter_upwards [binomial_beta_limit prior ha hb 1 one_pos h0 h1 h'] with ω hω
  convert hω using 3 with n
  rename_i n
  have : (List.range n).foldl (fun d i => bernoulli_beta (X i ω : ℝ) d) prior =
      binomial_beta (n * (1 : ℕ) : ℝ) (∑ i ∈ Finset.range n, (X i ω : ℝ)) prior := by
    induction n with
    | zero => simp [binomial_beta, getBinomialBetaPosteriorParams]
    | succ n ih =>
      rw [List.range_succ, List.foldl_append, ih, List.foldl_cons, List.foldl_nil, Finset.sum_range_succ]
      ext <;> simp [bernoulli_beta, binomial_beta, getBinomialBetaPosteriorParams] <;> ring
  rw [this]

/-- C92, outcomes 1 / 0 fed one at a time -/
theorem C92_bernoulli_beta {X : ℕ → Ω → ℤ} (prior : Beta ℝ) (ha : 0 < prior.alpha) (hb : 0 < prior.beta)
    {p₀ : ℝ} (h0 : 0 ≤ p₀) (h1 : p₀ ≤ 1) (h : IIDFrom Q X (discLaw (Binomial.dist ⟨1, p₀⟩))) :
    ∀ᵐ ω ∂Q, Recovers
      (fun n => contLaw ((List.range n).foldl (fun d i => bernoulli_beta (X i ω : ℝ) d) prior).dist) p₀ :=
  (bernoulli_beta_limit prior ha hb h0 h1 h).mono fun _ h => h.recovers

/-- C88, outcomes 1 / 0 fed one at a time -/
theorem C88_bernoulli_beta {X : ℕ → Ω → ℤ} (prior : Beta ℝ) (ha : 0 < prior.alpha) (hb : 0 < prior.beta)
    {p₀ : ℝ} (h0 : 0 ≤ p₀) (h1 : p₀ ≤ 1) (h : IIDFrom Q X (discLaw (Binomial.dist ⟨1, p₀⟩))) :
    ∀ᵐ ω ∂Q, ConcentratesAt
      (fun n => contLaw ((List.range n).foldl (fun d i => bernoulli_beta (X i ω : ℝ) d) prior).dist) p₀ :=
  (C92_bernoulli_beta prior ha hb h0 h1 h).mono fun _ h => h.concentrates

example : ∃ (Q : Measure (ℕ → ℤ)) (X : ℕ → (ℕ → ℤ) → ℤ), IsProbabilityMeasure Q ∧
    IIDFrom Q X (discLaw (Binomial.dist ⟨1, (1 / 3 : ℝ)⟩)) ∧ ∀ᵐ ω ∂Q, ConcentratesAt
      (fun n => contLaw ((List.range n).foldl (fun d i => bernoulli_beta (X i ω : ℝ) d) ⟨1, 1⟩).dist) (1 / 3) := by
  have : IsProbabilityMeasure (discLaw (Binomial.dist ⟨1, (1 / 3 : ℝ)⟩)) := by
    simpa using binomial_prob 1 (p := 1 / 3) (by norm_num) (by norm_num)
  obtain ⟨Q, X, hQ, h⟩ := exists_iid (discLaw (Binomial.dist ⟨1, (1 / 3 : ℝ)⟩))
  exact ⟨Q, X, hQ, h, C88_bernoulli_beta _ (by norm_num) (by norm_num) (by norm_num) (by norm_num) h⟩

theorem negative_binomial_beta_limit {X : ℕ → Ω → ℤ} (prior : Beta ℝ) (ha : 0 < prior.alpha) (hb : 0 < prior.beta)
    (r : ℝ) (hr : 0 < r) {p₀ : ℝ} (h0 : 0 < p₀) (h1 : p₀ ≤ 1)
    (h : IIDFrom Q X (discLaw (NegativeBinomial.dist ⟨r, p₀⟩))) :
    ∀ᵐ ω ∂Q, BetaLimit
      (fun n => (negative_binomial_beta r (n : ℝ) (∑ i ∈ Finset.range n, (X i ω : ℝ)) prior)) p₀ := by
  obtain ⟨hi, hm⟩ := nb_expect hr h0 h1
  have hs : ∀ᵐ k : ℤ ∂discLaw (NegativeBinomial.dist ⟨r, p₀⟩), (0 : ℝ) ≤ k :=
    disc_ae fun k hk => nb_neg r p₀ k (by simpa using hk)
  filter_upwards [iid_average h (T := fun k => (k : ℝ)) (measurable_int _) hi, iid_forall h hs] with ω hω hx
  rw [hm] at hω
  have hA := average_const_add (c := prior.alpha) (average_linear (d := r))
  have hB := average_const_add (c := prior.beta) hω
  have hpos : 0 < r + r * (1 - p₀) / p₀ := by
    have : 0 ≤ 1 - p₀ := by linarith
    positivity
  simp only [negative_binomial_beta]
  refine BetaLimit.mk (fun n => ?_) (fun n => ?_) ?_ ?_
  · positivity
  · have := sum_nonneg_of hx n; positivity
  · have := ratio_of_averages hA (average_add hA hB) hpos.ne'
    convert this using 2
    field_simp; ring
  · exact atTop_of_average (average_add hA hB) hpos

/-- C92, `r` known -/
theorem C92_negative_binomial_beta {X : ℕ → Ω → ℤ} (prior : Beta ℝ) (ha : 0 < prior.alpha) (hb : 0 < prior.beta)
    (r : ℝ) (hr : 0 < r) {p₀ : ℝ} (h0 : 0 < p₀) (h1 : p₀ ≤ 1)
    (h : IIDFrom Q X (discLaw (NegativeBinomial.dist ⟨r, p₀⟩))) :
    ∀ᵐ ω ∂Q, Recovers
      (fun n => contLaw (negative_binomial_beta r (n : ℝ) (∑ i ∈ Finset.range n, (X i ω : ℝ)) prior).dist) p₀ :=
  (negative_binomial_beta_limit prior ha hb r hr h0 h1 h).mono fun _ h => h.recovers

/-- C88, `r` known -/
theorem C88_negative_binomial_beta {X : ℕ → Ω → ℤ} (prior : Beta ℝ) (ha : 0 < prior.alpha) (hb : 0 < prior.beta)
    (r : ℝ) (hr : 0 < r) {p₀ : ℝ} (h0 : 0 < p₀) (h1 : p₀ ≤ 1)
    (h : IIDFrom Q X (discLaw (NegativeBinomial.dist ⟨r, p₀⟩))) :
    ∀ᵐ ω ∂Q, ConcentratesAt
      (fun n => contLaw (negative_binomial_beta r (n : ℝ) (∑ i ∈ Finset.range n, (X i ω : ℝ)) prior).dist) p₀ :=
  (C92_negative_binomial_beta prior ha hb r hr h0 h1 h).mono fun _ h => h.concentrates

example : ∃ (Q : Measure (ℕ → ℤ)) (X : ℕ → (ℕ → ℤ) → ℤ), IsProbabilityMeasure Q ∧
    IIDFrom Q X (discLaw (NegativeBinomial.dist ⟨5, (1 / 3 : ℝ)⟩)) ∧ ∀ᵐ ω ∂Q, ConcentratesAt
      (fun n => contLaw (negative_binomial_beta 5 (n : ℝ) (∑ i ∈ Finset.range n, (X i ω : ℝ)) ⟨1, 1⟩).dist) (1 / 3) := by
  have := nb_prob (r := 5) (p := 1 / 3) (by norm_num) (by norm_num) (by norm_num)
  obtain ⟨Q, X, hQ, h⟩ := exists_iid (discLaw (NegativeBinomial.dist ⟨5, (1 / 3 : ℝ)⟩))
  exact ⟨Q, X, hQ, h, C88_negative_binomial_beta _ (by norm_num) (by norm_num) 5 (by norm_num) (by norm_num) (by norm_num) h⟩

theorem geometric_beta_limit {X : ℕ → Ω → ℤ} (prior : Beta ℝ) (ha : 0 < prior.alpha) (hb : 0 < prior.beta)
    (one_start : Bool) {p₀ : ℝ} (h0 : 0 < p₀) (h1 : p₀ ≤ 1)
    (h : IIDFrom Q X (discLaw (Geometric.dist ⟨p₀, one_start⟩))) :
    ∀ᵐ ω ∂Q, BetaLimit
      (fun n => (geometric_beta (∑ i ∈ Finset.range n, (X i ω : ℝ)) (n : ℝ) prior one_start)) p₀ := by
  obtain ⟨hi, hm⟩ := geometric_expect h0 h1 one_start
  have hs : ∀ᵐ k : ℤ ∂discLaw (Geometric.dist ⟨p₀, one_start⟩), (if one_start then (1 : ℝ) else 0) ≤ k := by
    refine disc_ae fun k hk => ?_
    simp only [Geometric.dist, Disc.pmf, DiscFamily.pmf0]
    rw [if_neg]
    intro hc
    apply hk
    cases one_start
    · simp only [Bool.false_eq_true, if_false] at hc ⊢
      exact_mod_cast (by omega : 0 ≤ k)
    · simp only [if_true, sub_zero] at hc ⊢
      exact_mod_cast hc
  filter_upwards [iid_average h (T := fun k => (k : ℝ)) (measurable_int _) hi, iid_forall h hs] with ω hω hx
  rw [hm] at hω
  have hA := average_const_add (c := prior.alpha) average_n
  have hpos : (0 : ℝ) < 1 + (1 / p₀ - 1) := by ring_nf; positivity
  have hlim : p₀ = 1 / (1 + (1 / p₀ - 1)) := by rw [add_sub_cancel, one_div_one_div]
  cases one_start
  · simp only [Bool.false_eq_true, if_false] at hω hx
    have hB := average_const_add (c := prior.beta) hω
    simp only [geometric_beta, Bool.false_eq_true, if_false]
    refine BetaLimit.mk (fun n => ?_) (fun n => ?_) ?_ ?_
    · positivity
    · have := sum_nonneg_of hx n; positivity
    · rw [hlim]; exact ratio_of_averages hA (average_add hA hB) hpos.ne'
    · exact atTop_of_average (average_add hA hB) hpos
  · simp only [if_true] at hω hx
    have hB := average_sub (average_const_add (c := prior.beta) hω) average_n
    simp only [geometric_beta, if_true]
    refine BetaLimit.mk (fun n => ?_) (fun n => ?_) ?_ ?_
    · positivity
    · have : (n : ℝ) ≤ ∑ i ∈ Finset.range n, (X i ω : ℝ) := by
        have := Finset.sum_le_sum (s := Finset.range n) fun i _ => hx i
        simpa using this
      linarith
    · rw [hlim]; exact ratio_of_averages hA (average_add hA hB) hpos.ne'
    · exact atTop_of_average (average_add hA hB) hpos

/-- C92, both conventions for the geometric distribution -/
theorem C92_geometric_beta {X : ℕ → Ω → ℤ} (prior : Beta ℝ) (ha : 0 < prior.alpha) (hb : 0 < prior.beta)
    (one_start : Bool) {p₀ : ℝ} (h0 : 0 < p₀) (h1 : p₀ ≤ 1)
    (h : IIDFrom Q X (discLaw (Geometric.dist ⟨p₀, one_start⟩))) :
    ∀ᵐ ω ∂Q, Recovers
      (fun n => contLaw (geometric_beta (∑ i ∈ Finset.range n, (X i ω : ℝ)) (n : ℝ) prior one_start).dist) p₀ :=
  (geometric_beta_limit prior ha hb one_start h0 h1 h).mono fun _ h => h.recovers

/-- C88, both conventions for the geometric distribution -/
theorem C88_geometric_beta {X : ℕ → Ω → ℤ} (prior : Beta ℝ) (ha : 0 < prior.alpha) (hb : 0 < prior.beta)
    (one_start : Bool) {p₀ : ℝ} (h0 : 0 < p₀) (h1 : p₀ ≤ 1)
    (h : IIDFrom Q X (discLaw (Geometric.dist ⟨p₀, one_start⟩))) :
    ∀ᵐ ω ∂Q, ConcentratesAt
      (fun n => contLaw (geometric_beta (∑ i ∈ Finset.range n, (X i ω : ℝ)) (n : ℝ) prior one_start).dist) p₀ :=
  (C92_geometric_beta prior ha hb one_start h0 h1 h).mono fun _ h => h.concentrates

example : ∃ (Q : Measure (ℕ → ℤ)) (X : ℕ → (ℕ → ℤ) → ℤ), IsProbabilityMeasure Q ∧
    IIDFrom Q X (discLaw (Geometric.dist ⟨(1 / 3 : ℝ), false⟩)) ∧ ∀ᵐ ω ∂Q, ConcentratesAt
      (fun n => contLaw (geometric_beta (∑ i ∈ Finset.range n, (X i ω : ℝ)) (n : ℝ) ⟨1, 1⟩ false).dist) (1 / 3) := by
  have := geometric_prob (p := 1 / 3) (by norm_num) (by norm_num) false
  obtain ⟨Q, X, hQ, h⟩ := exists_iid (discLaw (Geometric.dist ⟨(1 / 3 : ℝ), false⟩))
  exact ⟨Q, X, hQ, h, C88_geometric_beta _ (by norm_num) (by norm_num) false (by norm_num) (by norm_num) h⟩

/-! ## Gamma posteriors -/

theorem poisson_gamma_limit {X : ℕ → Ω → ℤ} (prior : Gamma ℝ) (ha : 0 < prior.alpha) (hb : 0 < prior.beta)
    {l₀ : ℝ} (hl : 0 < l₀) (h : IIDFrom Q X (discLaw (Poisson.dist ⟨l₀⟩))) :
    ∀ᵐ ω ∂Q, GammaLimit
      (fun n => (poisson_gamma (∑ i ∈ Finset.range n, (X i ω : ℝ)) (n : ℝ) prior)) l₀ := by
  obtain ⟨hi, hm⟩ := poisson_expect hl.le
  have hs : ∀ᵐ k : ℤ ∂discLaw (Poisson.dist ⟨l₀⟩), (0 : ℝ) ≤ k :=
    disc_ae fun k hk => poisson_neg l₀ k (by simpa using hk)
  filter_upwards [iid_average h (T := fun k => (k : ℝ)) (measurable_int _) hi, iid_forall h hs] with ω hω hx
  rw [hm] at hω
  have hA := average_const_add (c := prior.alpha) hω
  have hB := average_const_add (c := prior.beta) average_n
  simp only [poisson_gamma, getPoissonGammaPosteriorParams]
  refine GammaLimit.mk (fun n => ?_) (fun n => ?_) ?_ ?_
  · have := sum_nonneg_of hx n; positivity
  · positivity
  · simpa using ratio_of_averages hA hB one_ne_zero
  · exact atTop_of_average hB one_pos

/-- C92 -/
theorem C92_poisson_gamma {X : ℕ → Ω → ℤ} (prior : Gamma ℝ) (ha : 0 < prior.alpha) (hb : 0 < prior.beta)
    {l₀ : ℝ} (hl : 0 < l₀) (h : IIDFrom Q X (discLaw (Poisson.dist ⟨l₀⟩))) :
    ∀ᵐ ω ∂Q, Recovers
      (fun n => contLaw (poisson_gamma (∑ i ∈ Finset.range n, (X i ω : ℝ)) (n : ℝ) prior).dist) l₀ :=
  (poisson_gamma_limit prior ha hb hl h).mono fun _ h => h.recovers

/-- C88 -/
theorem C88_poisson_gamma {X : ℕ → Ω → ℤ} (prior : Gamma ℝ) (ha : 0 < prior.alpha) (hb : 0 < prior.beta)
    {l₀ : ℝ} (hl : 0 < l₀) (h : IIDFrom Q X (discLaw (Poisson.dist ⟨l₀⟩))) :
    ∀ᵐ ω ∂Q, ConcentratesAt
      (fun n => contLaw (poisson_gamma (∑ i ∈ Finset.range n, (X i ω : ℝ)) (n : ℝ) prior).dist) l₀ :=
  (C92_poisson_gamma prior ha hb hl h).mono fun _ h => h.concentrates

example : ∃ (Q : Measure (ℕ → ℤ)) (X : ℕ → (ℕ → ℤ) → ℤ), IsProbabilityMeasure Q ∧
    IIDFrom Q X (discLaw (Poisson.dist ⟨(3 : ℝ)⟩)) ∧ ∀ᵐ ω ∂Q, ConcentratesAt
      (fun n => contLaw (poisson_gamma (∑ i ∈ Finset.range n, (X i ω : ℝ)) (n : ℝ) ⟨1, 1⟩).dist) 3 := by
  have := poisson_prob (l := 3) (by norm_num)
  obtain ⟨Q, X, hQ, h⟩ := exists_iid (discLaw (Poisson.dist ⟨(3 : ℝ)⟩))
  exact ⟨Q, X, hQ, h, C88_poisson_gamma _ (by norm_num) (by norm_num) (by norm_num) h⟩

/-- Wherever the observations have mean `m`, `exponential_gamma` settles at `m`. -/
theorem exponential_gamma_limit {X : ℕ → Ω → ℝ} (prior : Gamma ℝ) (ha : 0 < prior.alpha) (hb : 0 < prior.beta)
    {r : ℝ} (hr : 0 < r) (h : IIDFrom Q X (contLaw (Gamma.dist ⟨1, r⟩))) :
    ∀ᵐ ω ∂Q, (∀ n, IsProbabilityMeasure
        (contLaw (exponential_gamma (∑ i ∈ Finset.range n, X i ω) (n : ℝ) prior).dist)) ∧ Recovers
      (fun n => contLaw (exponential_gamma (∑ i ∈ Finset.range n, X i ω) (n : ℝ) prior).dist) (1 / r) := by
  obtain ⟨hi, hm⟩ := gamma_expect one_pos hr
  filter_upwards [iid_average h measurable_id hi, iid_forall h (gamma_pos hr)] with ω hω hx
  simp only [id, hm] at hω
  have hA := average_const_add (c := prior.alpha) hω
  have hB := average_const_add (c := prior.beta) average_n
  have h1 : ∀ n : ℕ, 0 < prior.alpha + ∑ i ∈ Finset.range n, X i ω := fun n => by
    have := sum_nonneg_of (fun i => (hx i).le) n; positivity
  have h2 : ∀ n : ℕ, 0 < prior.beta + (n : ℝ) := fun n => by positivity
  simp only [exponential_gamma, getExponentialGammaPosteriorParams, getPoissonGammaPosteriorParams]
  refine ⟨fun n => gamma_prob (h1 n) (h2 n), recovers_gamma h1 h2 ?_ ?_⟩
  · simpa using ratio_of_averages hA hB one_ne_zero
  · exact atTop_of_average hB one_pos

/-- C92 for data from the library's own `Exponential(lam)` -/
theorem C92_exponential_gamma_own_class {X : ℕ → Ω → ℝ} (prior : Gamma ℝ) (ha : 0 < prior.alpha)
    (hb : 0 < prior.beta) {lam : ℝ} (hl : 0 < lam) (h : IIDFrom Q X (contLaw (Exponential.dist ⟨lam⟩))) :
    ∀ᵐ ω ∂Q, Recovers
      (fun n => contLaw (exponential_gamma (∑ i ∈ Finset.range n, X i ω) (n : ℝ) prior).dist) lam := by
  rw [exponential_as_gamma hl] at h
  filter_upwards [exponential_gamma_limit prior ha hb (one_div_pos.2 hl) h] with ω hω
  simpa using hω.2

/-- C88 for data from the library's own `Exponential(lam)` -/
theorem C88_exponential_gamma_own_class {X : ℕ → Ω → ℝ} (prior : Gamma ℝ) (ha : 0 < prior.alpha)
    (hb : 0 < prior.beta) {lam : ℝ} (hl : 0 < lam) (h : IIDFrom Q X (contLaw (Exponential.dist ⟨lam⟩))) :
    ∀ᵐ ω ∂Q, ConcentratesAt
      (fun n => contLaw (exponential_gamma (∑ i ∈ Finset.range n, X i ω) (n : ℝ) prior).dist) lam :=
  (C92_exponential_gamma_own_class prior ha hb hl h).mono fun _ h => h.concentrates

example : ∃ (Q : Measure (ℕ → ℝ)) (X : ℕ → (ℕ → ℝ) → ℝ), IsProbabilityMeasure Q ∧
    IIDFrom Q X (contLaw (Exponential.dist ⟨(3 : ℝ)⟩)) ∧ ∀ᵐ ω ∂Q, ConcentratesAt
      (fun n => contLaw (exponential_gamma (∑ i ∈ Finset.range n, X i ω) (n : ℝ) ⟨1, 1⟩).dist) 3 := by
  have : IsProbabilityMeasure (contLaw (Exponential.dist ⟨(3 : ℝ)⟩)) := by
    rw [exponential_as_gamma (by norm_num)]; exact gamma_prob one_pos (by norm_num)
  obtain ⟨Q, X, hQ, h⟩ := exists_iid (contLaw (Exponential.dist ⟨(3 : ℝ)⟩))
  exact ⟨Q, X, hQ, h, C88_exponential_gamma_own_class _ (by norm_num) (by norm_num) (by norm_num) h⟩

/-- C92 as claimed for the rate (density `r * exp (-r * x)`), like C88: only when the rate is 1. Missing: every other
rate, for which the claim is false. -/
theorem C92_exponential_gamma_rate_partial [NeZero Q] {X : ℕ → Ω → ℝ} (prior : Gamma ℝ) (ha : 0 < prior.alpha)
    (hb : 0 < prior.beta) {r : ℝ} (hr : 0 < r)
    (h : IIDFrom Q X (lawOn (Ioi 0) fun x => r * Real.exp (-(r * x)))) :
    (∀ᵐ ω ∂Q, Tendsto (fun n => ∫ x, x ∂contLaw
      (exponential_gamma (∑ i ∈ Finset.range n, X i ω) (n : ℝ) prior).dist) atTop (𝓝 r)) ↔ r = 1 := by
  have e : (lawOn (Ioi 0) fun x => r * Real.exp (-(r * x))) = contLaw (Gamma.dist ⟨1, r⟩) := by
    rw [gamma_lawOn _ hr]
    refine lawOn_congr measurableSet_Ioi fun x hx => ?_
    rw [Gamma.pdf_eq _ hr hx]
    simp
  rw [e] at h
  have hlim := exponential_gamma_limit prior ha hb hr h
  constructor
  · intro hc
    obtain ⟨ω, ⟨h1, h2⟩, h3⟩ := (hlim.and hc).exists
    have := tendsto_nhds_unique h2.mean h3
    have h4 : 1 = r * r := by field_simp at this; nlinarith
    nlinarith
  · rintro rfl
    filter_upwards [hlim] with ω hω
    simpa using hω.2.mean

/-- C88 as claimed for the rate (density `r * exp (-r * x)`): the posterior concentrates at the rate only
when the rate is 1. Missing: every other rate, for which the claim is false. -/
theorem C88_exponential_gamma_rate_partial [NeZero Q] {X : ℕ → Ω → ℝ} (prior : Gamma ℝ) (ha : 0 < prior.alpha)
    (hb : 0 < prior.beta) {r : ℝ} (hr : 0 < r)
    (h : IIDFrom Q X (lawOn (Ioi 0) fun x => r * Real.exp (-(r * x)))) :
    (∀ᵐ ω ∂Q, ConcentratesAt
      (fun n => contLaw (exponential_gamma (∑ i ∈ Finset.range n, X i ω) (n : ℝ) prior).dist) r) ↔ r = 1 := by
  have e : (lawOn (Ioi 0) fun x => r * Real.exp (-(r * x))) = contLaw (Gamma.dist ⟨1, r⟩) := by
    rw [gamma_lawOn _ hr]
    refine lawOn_congr measurableSet_Ioi fun x hx => ?_
    rw [Gamma.pdf_eq _ hr hx]
    simp
  rw [e] at h
  have hlim := exponential_gamma_limit prior ha hb hr h
  constructor
  · intro hc
    obtain ⟨ω, ⟨h1, h2⟩, h3⟩ := (hlim.and hc).exists
    have := concentrates_unique (Eventually.of_forall h1) h2.concentrates h3
    have h4 : 1 = r * r := by field_simp at this; nlinarith
    nlinarith
  · rintro rfl
    filter_upwards [hlim] with ω hω
    simpa using hω.2.concentrates

example : ∃ (Q : Measure (ℕ → ℝ)) (X : ℕ → (ℕ → ℝ) → ℝ), IsProbabilityMeasure Q ∧
    IIDFrom Q X (lawOn (Ioi 0) fun x => (3 : ℝ) * Real.exp (-(3 * x))) ∧ ¬ ∀ᵐ ω ∂Q, ConcentratesAt
      (fun n => contLaw (exponential_gamma (∑ i ∈ Finset.range n, X i ω) (n : ℝ) ⟨1, 1⟩).dist) 3 := by
  have e : (lawOn (Ioi 0) fun x => (3 : ℝ) * Real.exp (-(3 * x))) = contLaw (Gamma.dist ⟨1, 3⟩) := by
    rw [gamma_lawOn _ (by norm_num)]
    refine lawOn_congr measurableSet_Ioi fun x hx => ?_
    rw [Gamma.pdf_eq _ (by norm_num) hx]
    simp
  have : IsProbabilityMeasure (lawOn (Ioi 0) fun x => (3 : ℝ) * Real.exp (-(3 * x))) := by rw [e]; exact gamma_prob one_pos (by norm_num)
  obtain ⟨Q, X, hQ, h⟩ := exists_iid (lawOn (Ioi 0) fun x => (3 : ℝ) * Real.exp (-(3 * x)))
  exact ⟨Q, X, hQ, h, fun hc => absurd ((C88_exponential_gamma_rate_partial _ (by norm_num) (by norm_num)
    (by norm_num) h).1 hc) (by norm_num)⟩

theorem gamma_known_shape_limit {X : ℕ → Ω → ℝ} (prior : Gamma ℝ) (ha : 0 < prior.alpha) (hb : 0 < prior.beta)
    (shape : ℝ) (hk : 0 < shape) {r : ℝ} (hr : 0 < r) (h : IIDFrom Q X (contLaw (Gamma.dist ⟨shape, r⟩))) :
    ∀ᵐ ω ∂Q, GammaLimit
      (fun n => (gamma_known_shape (∑ i ∈ Finset.range n, X i ω) (n : ℝ) shape prior)) r := by
  obtain ⟨hi, hm⟩ := gamma_expect hk hr
  filter_upwards [iid_average h measurable_id hi, iid_forall h (gamma_pos hr)] with ω hω hx
  simp only [id, hm] at hω
  have hA := average_const_add (c := prior.alpha) (average_linear (d := shape))
  have hB := average_const_add (c := prior.beta) hω
  simp only [gamma_known_shape, mul_comm _ shape]
  refine GammaLimit.mk (fun n => ?_) (fun n => ?_) ?_ ?_
  · positivity
  · have := sum_nonneg_of (fun i => (hx i).le) n; positivity
  · have := ratio_of_averages hA hB (by positivity)
    rwa [show shape / (shape / r) = r by field_simp] at this
  · exact atTop_of_average hB (by positivity)

/-- C92 -/
theorem C92_gamma_known_shape {X : ℕ → Ω → ℝ} (prior : Gamma ℝ) (ha : 0 < prior.alpha) (hb : 0 < prior.beta)
    (shape : ℝ) (hk : 0 < shape) {r : ℝ} (hr : 0 < r) (h : IIDFrom Q X (contLaw (Gamma.dist ⟨shape, r⟩))) :
    ∀ᵐ ω ∂Q, Recovers
      (fun n => contLaw (gamma_known_shape (∑ i ∈ Finset.range n, X i ω) (n : ℝ) shape prior).dist) r :=
  (gamma_known_shape_limit prior ha hb shape hk hr h).mono fun _ h => h.recovers

/-- C88 -/
theorem C88_gamma_known_shape {X : ℕ → Ω → ℝ} (prior : Gamma ℝ) (ha : 0 < prior.alpha) (hb : 0 < prior.beta)
    (shape : ℝ) (hk : 0 < shape) {r : ℝ} (hr : 0 < r) (h : IIDFrom Q X (contLaw (Gamma.dist ⟨shape, r⟩))) :
    ∀ᵐ ω ∂Q, ConcentratesAt
      (fun n => contLaw (gamma_known_shape (∑ i ∈ Finset.range n, X i ω) (n : ℝ) shape prior).dist) r :=
  (C92_gamma_known_shape prior ha hb shape hk hr h).mono fun _ h => h.concentrates

example : ∃ (Q : Measure (ℕ → ℝ)) (X : ℕ → (ℕ → ℝ) → ℝ), IsProbabilityMeasure Q ∧
    IIDFrom Q X (contLaw (Gamma.dist ⟨(2 : ℝ), 3⟩)) ∧ ∀ᵐ ω ∂Q, ConcentratesAt
      (fun n => contLaw (gamma_known_shape (∑ i ∈ Finset.range n, X i ω) (n : ℝ) 2 ⟨1, 1⟩).dist) 3 := by
  have := gamma_prob (a := 2) (b := 3) (by norm_num) (by norm_num)
  obtain ⟨Q, X, hQ, h⟩ := exists_iid (contLaw (Gamma.dist ⟨(2 : ℝ), 3⟩))
  exact ⟨Q, X, hQ, h, C88_gamma_known_shape _ (by norm_num) (by norm_num) 2 (by norm_num) (by norm_num) h⟩

theorem inverse_gamma_known_rate_limit {X : ℕ → Ω → ℝ} (prior : Gamma ℝ) (ha : 0 < prior.alpha)
    (hb : 0 < prior.beta) (shape : ℝ) (hk : 0 < shape) {s : ℝ} (hs : 0 < s)
    (h : IIDFrom Q X (contLaw (InverseGamma.dist ⟨shape, s⟩))) :
    ∀ᵐ ω ∂Q, GammaLimit
      (fun n => (inverse_gamma_known_rate (∑ i ∈ Finset.range n, 1 / X i ω) (n : ℝ) shape prior)) s := by
  obtain ⟨hi, hm⟩ := invgamma_recip_expect hk hs
  filter_upwards [iid_average h (T := fun x => 1 / x) (by fun_prop) hi, iid_forall h (invgamma_pos hs)] with ω hω hx
  rw [hm] at hω
  have hA := average_const_add (c := prior.alpha) (average_linear (d := shape))
  have hB := average_const_add (c := prior.beta) hω
  simp only [inverse_gamma_known_rate, mul_comm _ shape]
  refine GammaLimit.mk (fun n => ?_) (fun n => ?_) ?_ ?_
  · positivity
  · have := sum_nonneg_of (fun i => (one_div_pos.2 (hx i)).le) n; positivity
  · have := ratio_of_averages hA hB (by positivity)
    rwa [show shape / (shape / s) = s by field_simp] at this
  · exact atTop_of_average hB (by positivity)

/-- C92 -/
theorem C92_inverse_gamma_known_rate {X : ℕ → Ω → ℝ} (prior : Gamma ℝ) (ha : 0 < prior.alpha)
    (hb : 0 < prior.beta) (shape : ℝ) (hk : 0 < shape) {s : ℝ} (hs : 0 < s)
    (h : IIDFrom Q X (contLaw (InverseGamma.dist ⟨shape, s⟩))) :
    ∀ᵐ ω ∂Q, Recovers
      (fun n => contLaw (inverse_gamma_known_rate (∑ i ∈ Finset.range n, 1 / X i ω) (n : ℝ) shape prior).dist) s :=
  (inverse_gamma_known_rate_limit prior ha hb shape hk hs h).mono fun _ h => h.recovers

/-- C88 -/
theorem C88_inverse_gamma_known_rate {X : ℕ → Ω → ℝ} (prior : Gamma ℝ) (ha : 0 < prior.alpha)
    (hb : 0 < prior.beta) (shape : ℝ) (hk : 0 < shape) {s : ℝ} (hs : 0 < s)
    (h : IIDFrom Q X (contLaw (InverseGamma.dist ⟨shape, s⟩))) :
    ∀ᵐ ω ∂Q, ConcentratesAt
      (fun n => contLaw (inverse_gamma_known_rate (∑ i ∈ Finset.range n, 1 / X i ω) (n : ℝ) shape prior).dist) s :=
  (C92_inverse_gamma_known_rate prior ha hb shape hk hs h).mono fun _ h => h.concentrates

example : ∃ (Q : Measure (ℕ → ℝ)) (X : ℕ → (ℕ → ℝ) → ℝ), IsProbabilityMeasure Q ∧
    IIDFrom Q X (contLaw (InverseGamma.dist ⟨(2 : ℝ), 3⟩)) ∧ ∀ᵐ ω ∂Q, ConcentratesAt
      (fun n => contLaw (inverse_gamma_known_rate (∑ i ∈ Finset.range n, 1 / X i ω) (n : ℝ) 2 ⟨1, 1⟩).dist) 3 := by
  have := invgamma_prob (a := 2) (b := 3) (by norm_num) (by norm_num)
  obtain ⟨Q, X, hQ, h⟩ := exists_iid (contLaw (InverseGamma.dist ⟨(2 : ℝ), 3⟩))
  exact ⟨Q, X, hQ, h, C88_inverse_gamma_known_rate _ (by norm_num) (by norm_num) 2 (by norm_num) (by norm_num) h⟩

theorem pareto_gamma_limit {X : ℕ → Ω → ℝ} (prior : Gamma ℝ) (ha : 0 < prior.alpha) (hb : 0 < prior.beta)
    (x_m : ℝ) (hm : 0 < x_m) {a : ℝ} (ha0 : 0 < a) (h : IIDFrom Q X (contLaw (Pareto.dist ⟨x_m, a⟩))) :
    ∀ᵐ ω ∂Q, GammaLimit
      (fun n => (pareto_gamma (n : ℝ) (∑ i ∈ Finset.range n, Real.log (X i ω)) x_m prior Real.log))
      a := by
  obtain ⟨hi, hmean⟩ := pareto_log_expect hm ha0
  filter_upwards [iid_average h (T := Real.log) Real.measurable_log hi, iid_forall h (pareto_ge hm ha0)] with ω hω hx
  rw [hmean] at hω
  have hA := average_const_add (c := prior.alpha) average_n
  have hB := average_sub (average_const_add (c := prior.beta) hω) (average_linear (d := Real.log x_m))
  rw [add_sub_cancel_left] at hB
  simp only [pareto_gamma, mul_comm _ (Real.log x_m)]
  refine GammaLimit.mk (fun n => ?_) (fun n => ?_) ?_ ?_
  · positivity
  · have : Real.log x_m * n ≤ ∑ i ∈ Finset.range n, Real.log (X i ω) := by
      have := Finset.sum_le_sum (s := Finset.range n) fun i _ => Real.log_le_log hm (hx i)
      simpa [mul_comm] using this
    linarith
  · have := ratio_of_averages hA hB (by positivity)
    rwa [one_div_one_div] at this
  · exact atTop_of_average hB (by positivity)

/-- C92 -/
theorem C92_pareto_gamma {X : ℕ → Ω → ℝ} (prior : Gamma ℝ) (ha : 0 < prior.alpha) (hb : 0 < prior.beta)
    (x_m : ℝ) (hm : 0 < x_m) {a : ℝ} (ha0 : 0 < a) (h : IIDFrom Q X (contLaw (Pareto.dist ⟨x_m, a⟩))) :
    ∀ᵐ ω ∂Q, Recovers
      (fun n => contLaw (pareto_gamma (n : ℝ) (∑ i ∈ Finset.range n, Real.log (X i ω)) x_m prior Real.log).dist)
      a :=
  (pareto_gamma_limit prior ha hb x_m hm ha0 h).mono fun _ h => h.recovers

/-- C88 -/
theorem C88_pareto_gamma {X : ℕ → Ω → ℝ} (prior : Gamma ℝ) (ha : 0 < prior.alpha) (hb : 0 < prior.beta)
    (x_m : ℝ) (hm : 0 < x_m) {a : ℝ} (ha0 : 0 < a) (h : IIDFrom Q X (contLaw (Pareto.dist ⟨x_m, a⟩))) :
    ∀ᵐ ω ∂Q, ConcentratesAt
      (fun n => contLaw (pareto_gamma (n : ℝ) (∑ i ∈ Finset.range n, Real.log (X i ω)) x_m prior Real.log).dist)
      a :=
  (C92_pareto_gamma prior ha hb x_m hm ha0 h).mono fun _ h => h.concentrates

example : ∃ (Q : Measure (ℕ → ℝ)) (X : ℕ → (ℕ → ℝ) → ℝ), IsProbabilityMeasure Q ∧
    IIDFrom Q X (contLaw (Pareto.dist ⟨(2 : ℝ), 3⟩)) ∧ ∀ᵐ ω ∂Q, ConcentratesAt
      (fun n => contLaw (pareto_gamma (n : ℝ) (∑ i ∈ Finset.range n, Real.log (X i ω)) 2 ⟨1, 1⟩ Real.log).dist) 3 := by
  have := pareto_prob (m := 2) (a := 3) (by norm_num) (by norm_num)
  obtain ⟨Q, X, hQ, h⟩ := exists_iid (contLaw (Pareto.dist ⟨(2 : ℝ), 3⟩))
  exact ⟨Q, X, hQ, h, C88_pareto_gamma _ (by norm_num) (by norm_num) 2 (by norm_num) (by norm_num) h⟩

/-! ## Inverse gamma posteriors -/

theorem weibull_inverse_gamma_known_shape_limit {X : ℕ → Ω → ℝ} (prior : InverseGamma ℝ)
    (hb : 0 < prior.beta) (k : ℝ) (hk : 0 < k) {θ : ℝ} (hθ : 0 < θ)
    (h : IIDFrom Q X (contLaw (Weibull.dist ⟨k, θ⟩))) :
    ∀ᵐ ω ∂Q, InverseGammaLimit (fun n => (weibull_inverse_gamma_known_shape (n : ℝ) (∑ i ∈ Finset.range n, X i ω ^ k) prior)) θ := by
  obtain ⟨hi, hm⟩ := weibull_pow_expect hk hθ
  filter_upwards [iid_average h (T := fun x => x ^ k) (by fun_prop) hi, iid_forall h (weibull_pos hk hθ)] with ω hω hx
  rw [hm] at hω
  have hA := average_const_add (c := prior.alpha) average_n
  have hB := average_const_add (c := prior.beta) hω
  simp only [weibull_inverse_gamma_known_shape]
  refine InverseGammaLimit.mk (fun n => ?_) ?_ ?_
  · have := sum_nonneg_of (fun i => (Real.rpow_pos_of_pos (hx i) k).le) n
    positivity
  · simpa using ratio_of_averages hB hA one_ne_zero
  · exact atTop_of_average hA one_pos

/-- C92 -/
theorem C92_weibull_inverse_gamma_known_shape {X : ℕ → Ω → ℝ} (prior : InverseGamma ℝ)
    (hb : 0 < prior.beta) (k : ℝ) (hk : 0 < k) {θ : ℝ} (hθ : 0 < θ)
    (h : IIDFrom Q X (contLaw (Weibull.dist ⟨k, θ⟩))) :
    ∀ᵐ ω ∂Q, Recovers (fun n => contLaw
      (weibull_inverse_gamma_known_shape (n : ℝ) (∑ i ∈ Finset.range n, X i ω ^ k) prior).dist) θ :=
  (weibull_inverse_gamma_known_shape_limit prior hb k hk hθ h).mono fun _ h => h.recovers

/-- C88 -/
theorem C88_weibull_inverse_gamma_known_shape {X : ℕ → Ω → ℝ} (prior : InverseGamma ℝ)
    (hb : 0 < prior.beta) (k : ℝ) (hk : 0 < k) {θ : ℝ} (hθ : 0 < θ)
    (h : IIDFrom Q X (contLaw (Weibull.dist ⟨k, θ⟩))) :
    ∀ᵐ ω ∂Q, ConcentratesAt (fun n => contLaw
      (weibull_inverse_gamma_known_shape (n : ℝ) (∑ i ∈ Finset.range n, X i ω ^ k) prior).dist) θ :=
  (C92_weibull_inverse_gamma_known_shape prior hb k hk hθ h).mono fun _ h => h.concentrates

example : ∃ (Q : Measure (ℕ → ℝ)) (X : ℕ → (ℕ → ℝ) → ℝ), IsProbabilityMeasure Q ∧
    IIDFrom Q X (contLaw (Weibull.dist ⟨(2 : ℝ), 3⟩)) ∧ ∀ᵐ ω ∂Q, ConcentratesAt
      (fun n => contLaw (weibull_inverse_gamma_known_shape (n : ℝ) (∑ i ∈ Finset.range n, X i ω ^ (2 : ℝ)) ⟨1, 1⟩).dist) 3 := by
  have := weibull_prob (k := 2) (θ := 3) (by norm_num) (by norm_num)
  obtain ⟨Q, X, hQ, h⟩ := exists_iid (contLaw (Weibull.dist ⟨(2 : ℝ), 3⟩))
  exact ⟨Q, X, hQ, h, C88_weibull_inverse_gamma_known_shape _ (by norm_num) 2 (by norm_num) (by norm_num) h⟩

/-! ## Normal models -/

theorem normal_known_variance_limit {X : ℕ → Ω → ℝ} (prior : Normal ℝ) (hs : 0 < prior.sigma) (var : ℝ)
    (hv : 0 < var) (m₀ : ℝ) (h : IIDFrom Q X (contLaw (Normal.dist ⟨m₀, √var⟩))) :
    ∀ᵐ ω ∂Q, NormalLimit
      (fun n => (normal_known_variance (∑ i ∈ Finset.range n, X i ω) (n : ℝ) var prior)) m₀ := by
  obtain ⟨hi, hm⟩ := normal_expect m₀ (Real.sqrt_pos.2 hv)
  filter_upwards [iid_average h measurable_id hi] with ω hω
  simp only [id, hm] at hω
  have hA := average_const_add (c := prior.mu / prior.sigma ^ 2) (average_mul (c := 1 / var) hω)
  have hB := average_const_add (c := 1 / prior.sigma ^ 2) (average_linear (d := 1 / var))
  have hpos : ∀ n : ℕ, 0 < 1 / prior.sigma ^ 2 + (n : ℝ) / var := fun n => by positivity
  have e : ∀ x : ℝ, 1 / var * x = x / var := fun x => by ring
  simp only [e] at hA hB
  simp only [normal_known_variance, powq_two, powq_half, lit_real, Rat.cast_one]
  refine NormalLimit.mk (fun n => Real.sqrt_pos.2 (one_div_pos.2 (hpos n))) ?_ ?_
  · have := ratio_of_averages hA hB (by positivity)
    rwa [show m₀ / var / (1 / var) = m₀ by field_simp] at this
  · simp only [Real.sq_sqrt (one_div_pos.2 (hpos _)).le]
    exact tendsto_const_nhds.div_atTop (atTop_of_average hB (by positivity))

/-- C92 -/
theorem C92_normal_known_variance {X : ℕ → Ω → ℝ} (prior : Normal ℝ) (hs : 0 < prior.sigma) (var : ℝ)
    (hv : 0 < var) (m₀ : ℝ) (h : IIDFrom Q X (contLaw (Normal.dist ⟨m₀, √var⟩))) :
    ∀ᵐ ω ∂Q, Recovers
      (fun n => contLaw (normal_known_variance (∑ i ∈ Finset.range n, X i ω) (n : ℝ) var prior).dist) m₀ :=
  (normal_known_variance_limit prior hs var hv m₀ h).mono fun _ h => h.recovers

/-- C88 -/
theorem C88_normal_known_variance {X : ℕ → Ω → ℝ} (prior : Normal ℝ) (hs : 0 < prior.sigma) (var : ℝ)
    (hv : 0 < var) (m₀ : ℝ) (h : IIDFrom Q X (contLaw (Normal.dist ⟨m₀, √var⟩))) :
    ∀ᵐ ω ∂Q, ConcentratesAt
      (fun n => contLaw (normal_known_variance (∑ i ∈ Finset.range n, X i ω) (n : ℝ) var prior).dist) m₀ :=
  (C92_normal_known_variance prior hs var hv m₀ h).mono fun _ h => h.concentrates

example : ∃ (Q : Measure (ℕ → ℝ)) (X : ℕ → (ℕ → ℝ) → ℝ), IsProbabilityMeasure Q ∧
    IIDFrom Q X (contLaw (Normal.dist ⟨(2 : ℝ), √3⟩)) ∧ ∀ᵐ ω ∂Q, ConcentratesAt
      (fun n => contLaw (normal_known_variance (∑ i ∈ Finset.range n, X i ω) (n : ℝ) 3 ⟨0, 10⟩).dist) 2 := by
  have := normal_prob 2 (s := √3) (by positivity)
  obtain ⟨Q, X, hQ, h⟩ := exists_iid (contLaw (Normal.dist ⟨(2 : ℝ), √3⟩))
  exact ⟨Q, X, hQ, h, C88_normal_known_variance _ (by norm_num) 3 (by norm_num) 2 h⟩

theorem normal_known_precision_limit {X : ℕ → Ω → ℝ} (prior : Normal ℝ) (hs : 0 < prior.sigma) (precision : ℝ)
    (hp : 0 < precision) (m₀ : ℝ) (h : IIDFrom Q X (contLaw (Normal.dist ⟨m₀, √(1 / precision)⟩))) :
    ∀ᵐ ω ∂Q, NormalLimit (fun n => (normal_known_precision (∑ i ∈ Finset.range n, X i ω) (n : ℝ) precision prior)) m₀ := by
  have := normal_known_variance_limit prior hs (1 / precision) (by positivity) m₀ h
  simpa only [normal_known_precision, lit_real, Rat.cast_one] using this

/-- C92 -/
theorem C92_normal_known_precision {X : ℕ → Ω → ℝ} (prior : Normal ℝ) (hs : 0 < prior.sigma) (precision : ℝ)
    (hp : 0 < precision) (m₀ : ℝ) (h : IIDFrom Q X (contLaw (Normal.dist ⟨m₀, √(1 / precision)⟩))) :
    ∀ᵐ ω ∂Q, Recovers (fun n => contLaw
      (normal_known_precision (∑ i ∈ Finset.range n, X i ω) (n : ℝ) precision prior).dist) m₀ :=
  (normal_known_precision_limit prior hs precision hp m₀ h).mono fun _ h => h.recovers

/-- C88 -/
theorem C88_normal_known_precision {X : ℕ → Ω → ℝ} (prior : Normal ℝ) (hs : 0 < prior.sigma) (precision : ℝ)
    (hp : 0 < precision) (m₀ : ℝ) (h : IIDFrom Q X (contLaw (Normal.dist ⟨m₀, √(1 / precision)⟩))) :
    ∀ᵐ ω ∂Q, ConcentratesAt (fun n => contLaw
      (normal_known_precision (∑ i ∈ Finset.range n, X i ω) (n : ℝ) precision prior).dist) m₀ :=
  (C92_normal_known_precision prior hs precision hp m₀ h).mono fun _ h => h.concentrates

example : ∃ (Q : Measure (ℕ → ℝ)) (X : ℕ → (ℕ → ℝ) → ℝ), IsProbabilityMeasure Q ∧
    IIDFrom Q X (contLaw (Normal.dist ⟨(2 : ℝ), √(1 / 3)⟩)) ∧ ∀ᵐ ω ∂Q, ConcentratesAt
      (fun n => contLaw (normal_known_precision (∑ i ∈ Finset.range n, X i ω) (n : ℝ) 3 ⟨0, 10⟩).dist) 2 := by
  have := normal_prob 2 (s := √(1 / 3)) (by positivity)
  obtain ⟨Q, X, hQ, h⟩ := exists_iid (contLaw (Normal.dist ⟨(2 : ℝ), √(1 / 3)⟩))
  exact ⟨Q, X, hQ, h, C88_normal_known_precision _ (by norm_num) 3 (by norm_num) 2 h⟩

end Conj
