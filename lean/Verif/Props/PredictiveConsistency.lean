import Verif.Lemmas.PredictiveLimit
import Verif.Props.ConsistencyNormal
import Verif.Props.ConsistencyDirichlet
import Verif.Props.PredictiveScalar
import Verif.Props.PredictiveGeometricPoisson
import Verif.Props.Exponential

/-!
# Predictions find the true law of the data (C93)

Observations `X 0, X 1, ...` are independent draws from the model with its true parameter.  The predictive
distribution computed from the posterior after the first `n` of them gives each possible next observation a probability
(density) which, almost surely, tends to its true probability as `n` grows.  The hypotheses are those of C88; examples
are given where something new happens.
-/

open MeasureTheory Set Filter Topology

namespace Conj

open Scipy Spec

variable {Ω : Type} [MeasurableSpace Ω] {Q : Measure Ω}

/-! ## Beta posteriors -/

/-- the average over Beta distributions that concentrate -/
theorem BetaLimit.predictive {d : ℕ → Beta ℝ} {p : ℝ} (h : BetaLimit d p) {lik : ℝ → ℝ} {pred : ℕ → ℝ}
    (hlik : Continuous lik) (hpred : ∀ n, IsPredictive volume (Ioo 0 1) lik (d n).dist.pdf (pred n)) :
    Tendsto pred atTop (𝓝 (lik p)) := by
  obtain ⟨C, hC⟩ := isCompact_Icc.exists_bound_of_continuousOn (s := Icc (0 : ℝ) 1) hlik.continuousOn
  refine predictive_tendsto (C := C) measurableSet_Ioo
    (Eventually.of_forall fun n => Beta.isDensity (d n) (h.alpha_pos n) (h.beta_pos n)) (Eventually.of_forall hpred)
    ((funext fun n => beta_lawOn (d n)) ▸ h.recovers.concentrates) hlik.continuousWithinAt
    fun θ hθ => hC θ ⟨hθ.1.le, hθ.2.le⟩

theorem continuous_binomial_pmf (N : ℕ) (k : ℤ) : Continuous fun p : ℝ => (Binomial.dist ⟨(N : ℝ), p⟩).pmf k := by
  simp only [Binomial.dist, Disc.pmf, DiscFamily.pmf0, sub_zero]
  split_ifs with hk
  · have h1 : (0 : ℝ) ≤ k := by exact_mod_cast hk.1
    have h2 : (0 : ℝ) ≤ N - k := by linarith [hk.2]
    exact (continuous_const.mul (Real.continuous_rpow_const h1)).mul
      ((Real.continuous_rpow_const h2).comp (continuous_const.sub continuous_id))
  · exact continuous_const

/-- C93. `N` trials per batch; the next batch may have any number `m` of trials. -/
theorem C93_binomial_beta {X : ℕ → Ω → ℤ} (prior : Beta ℝ) (ha : 0 < prior.alpha) (hb : 0 < prior.beta) (N : ℕ)
    (hN : 0 < N) {p₀ : ℝ} (h0 : 0 ≤ p₀) (h1 : p₀ ≤ 1) (h : IIDFrom Q X (discLaw (Binomial.dist ⟨N, p₀⟩))) (m : ℕ) :
    ∀ᵐ ω ∂Q, ∀ k : ℤ, Tendsto
      (fun n : ℕ => (binomial_beta_predictive (m : ℝ)
        (binomial_beta (n * N : ℝ) (∑ i ∈ Finset.range n, (X i ω : ℝ)) prior)).dist.pmf k) atTop
      (𝓝 ((Binomial.dist ⟨(m : ℝ), p₀⟩).pmf k)) := by
  filter_upwards [binomial_beta_limit prior ha hb N hN h0 h1 h] with ω hω k
  exact hω.predictive (continuous_binomial_pmf m k)
    fun n => C24_binomial_beta_predictive m _ (hω.alpha_pos n) (hω.beta_pos n) k

example : ∃ (Q : Measure (ℕ → ℤ)) (X : ℕ → (ℕ → ℤ) → ℤ), IsProbabilityMeasure Q ∧
    IIDFrom Q X (discLaw (Binomial.dist ⟨((10 : ℕ) : ℝ), 1 / 3⟩)) ∧ ∀ᵐ ω ∂Q, ∀ k : ℤ, Tendsto
      (fun n : ℕ => (binomial_beta_predictive ((5 : ℕ) : ℝ)
        (binomial_beta (n * (10 : ℕ) : ℝ) (∑ i ∈ Finset.range n, (X i ω : ℝ)) ⟨1, 1⟩)).dist.pmf k) atTop
      (𝓝 ((Binomial.dist ⟨((5 : ℕ) : ℝ), 1 / 3⟩).pmf k)) := by
  have := binomial_prob 10 (p := 1 / 3) (by norm_num) (by norm_num)
  obtain ⟨Q, X, hQ, h⟩ := exists_iid (discLaw (Binomial.dist ⟨((10 : ℕ) : ℝ), 1 / 3⟩))
  exact ⟨Q, X, hQ, h, C93_binomial_beta _ one_pos one_pos 10 (by norm_num) (by norm_num) (by norm_num) h 5⟩

/-- C93, one flip at a time -/
theorem C93_bernoulli_beta {X : ℕ → Ω → ℤ} (prior : Beta ℝ) (ha : 0 < prior.alpha) (hb : 0 < prior.beta)
    {p₀ : ℝ} (h0 : 0 ≤ p₀) (h1 : p₀ ≤ 1) (h : IIDFrom Q X (discLaw (Binomial.dist ⟨1, p₀⟩))) :
    ∀ᵐ ω ∂Q, ∀ k : ℤ, Tendsto
      (fun n => (bernoulli_beta_predictive
        ((List.range n).foldl (fun d i => bernoulli_beta (X i ω : ℝ) d) prior)).dist.pmf k) atTop
      (𝓝 ((Binomial.dist ⟨1, p₀⟩).pmf k)) := by
  filter_upwards [bernoulli_beta_limit prior ha hb h0 h1 h] with ω hω k
  have hc := continuous_binomial_pmf 1 k
  simp only [Nat.cast_one] at hc
  exact hω.predictive hc fun n => C24_bernoulli_beta_predictive _ (hω.alpha_pos n) (hω.beta_pos n) k

/-- C93. `r` successes per experiment, `s` for the predicted one. -/
theorem C93_negative_binomial_beta {X : ℕ → Ω → ℤ} (prior : Beta ℝ) (ha : 0 < prior.alpha) (hb : 0 < prior.beta)
    (r : ℝ) (hr : 0 < r) {p₀ : ℝ} (h0 : 0 < p₀) (h1 : p₀ ≤ 1)
    (h : IIDFrom Q X (discLaw (NegativeBinomial.dist ⟨r, p₀⟩))) (s : ℝ) (hs : 0 < s) :
    ∀ᵐ ω ∂Q, ∀ k : ℤ, Tendsto
      (fun n : ℕ => (negative_binomial_beta_predictive s
        (negative_binomial_beta r (n : ℝ) (∑ i ∈ Finset.range n, (X i ω : ℝ)) prior)).dist.pmf k) atTop
      (𝓝 ((NegativeBinomial.dist ⟨s, p₀⟩).pmf k)) := by
  filter_upwards [negative_binomial_beta_limit prior ha hb r hr h0 h1 h] with ω hω k
  refine hω.predictive (lik := fun p => (NegativeBinomial.dist ⟨s, p⟩).pmf k) ?_
    fun n => C25_negative_binomial_beta_predictive s hs _ (hω.alpha_pos n) (hω.beta_pos n) k
  simp only [NegativeBinomial.dist, Disc.pmf, DiscFamily.pmf0, sub_zero]
  split_ifs with hk
  · have h1 : (0 : ℝ) ≤ k := by exact_mod_cast hk
    exact (continuous_const.mul (Real.continuous_rpow_const hs.le)).mul
      ((Real.continuous_rpow_const h1).comp (continuous_const.sub continuous_id))
  · exact continuous_const

/-- C93 fails for the geometric model, by the shift of C26: the probability given to `k` tends to the true probability
of `k + 1`. Missing: the same limit at `k`. -/
theorem C93_geometric_beta_shifted_partial {X : ℕ → Ω → ℤ} (prior : Beta ℝ) (ha : 0 < prior.alpha)
    (hb : 0 < prior.beta) (one_start : Bool) {p₀ : ℝ} (h0 : 0 < p₀) (h1 : p₀ ≤ 1)
    (h : IIDFrom Q X (discLaw (Geometric.dist ⟨p₀, one_start⟩))) :
    ∀ᵐ ω ∂Q, ∀ k : ℕ, Tendsto
      (fun n => (geometric_beta_predictive
        (geometric_beta (∑ i ∈ Finset.range n, (X i ω : ℝ)) (n : ℝ) prior one_start) one_start).pmf k) atTop
      (𝓝 ((Geometric.dist ⟨p₀, one_start⟩).pmf ((k + 1 : ℕ) : ℤ))) := by
  filter_upwards [geometric_beta_limit prior ha hb one_start h0 h1 h] with ω hω k
  refine hω.predictive (lik := fun p => (Geometric.dist ⟨p, one_start⟩).pmf ((k + 1 : ℕ) : ℤ)) ?_
    fun n => C26_geometric_beta_predictive_shifted_partial _ (hω.alpha_pos n) (hω.beta_pos n) one_start k
  cases one_start
  · simp only [Geometric.pmf_zero_start]; fun_prop
  · simp only [Geometric.pmf_one_start _ (k + 1) (by omega)]; fun_prop

/-- C93 is false of the geometric model wherever two successive probabilities differ. -/
theorem C93_geometric_beta_false [NeZero Q] {X : ℕ → Ω → ℤ} (prior : Beta ℝ) (ha : 0 < prior.alpha)
    (hb : 0 < prior.beta) {p₀ : ℝ} (h0 : 0 < p₀) (h1 : p₀ < 1)
    (h : IIDFrom Q X (discLaw (Geometric.dist ⟨p₀, true⟩))) (k : ℕ) (hk : 1 ≤ k) :
    ¬ ∀ᵐ ω ∂Q, Tendsto
      (fun n => (geometric_beta_predictive
        (geometric_beta (∑ i ∈ Finset.range n, (X i ω : ℝ)) (n : ℝ) prior true) true).pmf k) atTop
      (𝓝 ((Geometric.dist ⟨p₀, true⟩).pmf (k : ℤ))) := by
  intro hc
  obtain ⟨ω, hω, hω'⟩ := (hc.and (C93_geometric_beta_shifted_partial prior ha hb true h0 h1.le h)).exists
  have e := tendsto_nhds_unique hω (hω' k)
  rw [Geometric.pmf_one_start _ _ hk, Geometric.pmf_one_start _ (k + 1) (by omega)] at e
  obtain ⟨j, rfl⟩ := Nat.exists_eq_add_of_le' hk
  simp only [Nat.add_sub_cancel, pow_succ] at e
  have hq : 0 < (1 - p₀) ^ j := pow_pos (by linarith) j
  nlinarith [mul_pos hq h0]

/-! ## Gamma posteriors -/

theorem GammaLimit.density {d : ℕ → Gamma ℝ} {m : ℝ} (h : GammaLimit d m) :
    ∀ᶠ n in atTop, IsDensity volume (Ioi 0) (d n).dist.pdf :=
  Eventually.of_forall fun n => Gamma.isDensity (d n) (h.alpha_pos n) (h.beta_pos n)

theorem GammaLimit.concentrates {d : ℕ → Gamma ℝ} {m : ℝ} (h : GammaLimit d m) :
    ConcentratesAt (fun n => lawOn (Ioi 0) (d n).dist.pdf) m :=
  (funext fun n => gamma_lawOn (d n) (h.beta_pos n)) ▸ h.recovers.concentrates

/-- C93. Counts per interval; the predicted count is over `m > 0` intervals. The code's predictive is not the exact one
unless `m = 1` (C27), but in the limit it is right for every `m`. -/
theorem C93_poisson_gamma {X : ℕ → Ω → ℤ} (prior : Gamma ℝ) (ha : 0 < prior.alpha) (hb : 0 < prior.beta)
    {l₀ : ℝ} (hl : 0 < l₀) (h : IIDFrom Q X (discLaw (Poisson.dist ⟨l₀⟩))) (m : ℝ) (hm : 0 < m) :
    ∀ᵐ ω ∂Q, ∀ k : ℤ, Tendsto
      (fun n => (poisson_gamma_predictive
        (poisson_gamma (∑ i ∈ Finset.range n, (X i ω : ℝ)) (n : ℝ) prior) m).dist.pmf k) atTop
      (𝓝 ((Poisson.dist ⟨m * l₀⟩).pmf k)) := by
  filter_upwards [poisson_gamma_limit prior ha hb hl h] with ω hω k
  set d := fun n : ℕ => poisson_gamma (∑ i ∈ Finset.range n, (X i ω : ℝ)) (n : ℝ) prior with hd
  have hω' : GammaLimit (fun n => ⟨m * (d n).alpha, (d n).beta⟩) (m * l₀) :=
    ⟨fun n => mul_pos hm (hω.alpha_pos n), hω.beta_pos, (hω.ratio.const_mul m).congr fun n => (mul_div_assoc _ _ _).symm,
      hω.total⟩
  refine predictive_tendsto (C := 1) (lik := fun l => (Poisson.dist ⟨l⟩).pmf k) measurableSet_Ioi hω'.density
    (Eventually.of_forall fun n => ?_) hω'.concentrates ?_ ?_
  · have := poisson_predictive_true ⟨m * (d n).alpha, (d n).beta⟩ (hω'.alpha_pos n) (hω'.beta_pos n) 1 one_pos k
    simp only [one_mul] at this
    simpa [poisson_gamma_predictive, mul_comm] using this
  · refine Continuous.continuousWithinAt ?_
    simp only [Poisson.dist, Disc.pmf, DiscFamily.pmf0, sub_zero]
    split_ifs with hk
    · have h1 : (0 : ℝ) ≤ k := by exact_mod_cast hk
      exact ((Real.continuous_exp.comp continuous_neg).mul (Real.continuous_rpow_const h1)).div_const _
    · exact continuous_const
  · intro l hl
    by_cases hk : 0 ≤ k
    · obtain ⟨j, rfl⟩ := Int.eq_ofNat_of_zero_le hk
      have hl : 0 < l := hl
      change |(Poisson.dist ⟨l⟩).pmf (j : ℤ)| ≤ 1
      rw [Poisson.pmf_nat, abs_of_nonneg (by positivity), mul_div_assoc, Real.exp_neg]
      exact inv_mul_le_one_of_le₀ (Real.pow_div_factorial_le_exp l hl.le j) (Real.exp_pos l).le
    · simp only [Poisson.dist, Disc.pmf, DiscFamily.pmf0, sub_zero]
      rw [if_neg hk]; simp

example : ∃ (Q : Measure (ℕ → ℤ)) (X : ℕ → (ℕ → ℤ) → ℤ), IsProbabilityMeasure Q ∧
    IIDFrom Q X (discLaw (Poisson.dist ⟨(3 : ℝ)⟩)) ∧ ∀ᵐ ω ∂Q, ∀ k : ℤ, Tendsto
      (fun n => (poisson_gamma_predictive
        (poisson_gamma (∑ i ∈ Finset.range n, (X i ω : ℝ)) (n : ℝ) ⟨1, 1⟩) 7).dist.pmf k) atTop
      (𝓝 ((Poisson.dist ⟨7 * 3⟩).pmf k)) := by
  have := poisson_prob (l := 3) (by norm_num)
  obtain ⟨Q, X, hQ, h⟩ := exists_iid (discLaw (Poisson.dist ⟨(3 : ℝ)⟩))
  exact ⟨Q, X, hQ, h, C93_poisson_gamma _ one_pos one_pos (by norm_num) h 7 (by norm_num)⟩

/-- C93, the rate of gamma data with known shape -/
theorem C93_gamma_known_shape {X : ℕ → Ω → ℝ} (prior : Gamma ℝ) (ha : 0 < prior.alpha) (hb : 0 < prior.beta)
    (a : ℝ) (hsh : 0 < a) {r : ℝ} (hr : 0 < r) (h : IIDFrom Q X (contLaw (Gamma.dist ⟨a, r⟩))) :
    ∀ᵐ ω ∂Q, ∀ x > 0, Tendsto
      (fun n => (gamma_known_shape_predictive
        (gamma_known_shape (∑ i ∈ Finset.range n, X i ω) (n : ℝ) a prior) a).pdf x) atTop
      (𝓝 ((Gamma.dist ⟨a, r⟩).pdf x)) := by
  filter_upwards [gamma_known_shape_limit prior ha hb a hsh hr h] with ω hω x hx
  have hx : 0 < x := hx
  refine predictive_tendsto (C := (a / x) ^ a * x ^ (a - 1) / Real.Gamma a)
    (lik := fun rate => (Gamma.dist ⟨a, rate⟩).pdf x) measurableSet_Ioi hω.density
    (Eventually.of_forall fun n => C29_gamma_known_shape_predictive a hsh _ (hω.alpha_pos n) (hω.beta_pos n) x hx)
    hω.concentrates ?_ ?_
  · have hcont : Continuous fun rate : ℝ =>
        rate ^ a / Real.Gamma a * x ^ (a - 1) * Real.exp (-(rate * x)) :=
      ((((Real.continuous_rpow_const hsh.le).div_const _).mul continuous_const)).mul
        (Real.continuous_exp.comp (continuous_id.mul continuous_const).neg)
    rw [Gamma.pdf_eq ⟨a, r⟩ hr hx]
    refine (hcont.continuousWithinAt (s := Ioi 0) (x := r)).tendsto.congr' ?_
    filter_upwards [self_mem_nhdsWithin] with rate hrate
    rw [Gamma.pdf_eq ⟨a, rate⟩ hrate hx]
  · intro rate hrate
    have hrate : 0 < rate := hrate
    have hG := Real.Gamma_pos_of_pos hsh
    change |(Gamma.dist ⟨a, rate⟩).pdf x| ≤ _
    rw [Gamma.pdf_eq ⟨a, rate⟩ hrate hx]
    simp only
    rw [abs_of_nonneg (by positivity)]
    have key : rate ^ a * Real.exp (-(rate * x)) ≤ (a / x) ^ a := by
      have h1 : rate ≤ a / x * Real.exp (rate * x / a) := by
        have := Real.add_one_le_exp (rate * x / a)
        calc rate = a / x * (rate * x / a) := by field_simp
          _ ≤ _ := mul_le_mul_of_nonneg_left (by linarith) (by positivity)
      have h2 := Real.rpow_le_rpow hrate.le h1 hsh.le
      rw [Real.mul_rpow (by positivity) (Real.exp_pos _).le, ← Real.exp_mul, div_mul_cancel₀ _ hsh.ne'] at h2
      calc rate ^ a * Real.exp (-(rate * x)) ≤ (a / x) ^ a * Real.exp (rate * x) * Real.exp (-(rate * x)) :=
            mul_le_mul_of_nonneg_right h2 (Real.exp_pos _).le
        _ = (a / x) ^ a := by rw [mul_assoc, ← Real.exp_add, add_neg_cancel, Real.exp_zero, mul_one]
    calc rate ^ a / Real.Gamma a * x ^ (a - 1) * Real.exp (-(rate * x))
        = rate ^ a * Real.exp (-(rate * x)) * (x ^ (a - 1) / Real.Gamma a) := by ring
      _ ≤ (a / x) ^ a * (x ^ (a - 1) / Real.Gamma a) := mul_le_mul_of_nonneg_right key (by positivity)
      _ = _ := by ring

theorem gamma_second_moment (d : Gamma ℝ) (ha : 0 < d.alpha) (hb : 0 < d.beta) :
    Integrable (fun r => r ^ 2) (lawOn (Ioi 0) d.dist.pdf) ∧
      ∫ r, r ^ 2 ∂lawOn (Ioi 0) d.dist.pdf = d.alpha / d.beta * ((d.alpha + 1) / d.beta) := by
  refine mean_of_tilt measurableSet_Ioi (Gamma.isDensity d ha hb)
    (Gamma.isDensity ⟨d.alpha + 1 + 1, d.beta⟩ (by simp only; positivity) hb) fun r hr => ?_
  rw [pow_two, mul_assoc, Gamma.tilt d ha hb hr]
  have := Gamma.tilt ⟨d.alpha + 1, d.beta⟩ (by simp only; positivity) hb hr
  simp only at this
  rw [mul_left_comm, this]
  ring

/-- C93, exponential data. `exponential_gamma` learns the inverse of the rate (C88), and
`exponential_gamma_predictive` swaps the parameters back: predictions end up right. -/
theorem C93_exponential_gamma {X : ℕ → Ω → ℝ} (prior : Gamma ℝ) (ha : 0 < prior.alpha) (hb : 0 < prior.beta)
    {lam : ℝ} (hl : 0 < lam) (h : IIDFrom Q X (contLaw (Exponential.dist ⟨lam⟩))) :
    ∀ᵐ ω ∂Q, ∀ x ≥ 0, Tendsto
      (fun n => (exponential_gamma_predictive
        (exponential_gamma (∑ i ∈ Finset.range n, X i ω) (n : ℝ) prior)).dist.pdf x) atTop
      (𝓝 ((Exponential.dist ⟨lam⟩).pdf x)) := by
  rw [exponential_as_gamma hl] at h
  obtain ⟨hi, hm⟩ := gamma_expect one_pos (one_div_pos.2 hl)
  filter_upwards [iid_average h measurable_id hi, iid_forall h (gamma_pos (one_div_pos.2 hl))] with ω hω hx x hx0
  simp only [id, hm, one_div_one_div] at hω
  have hA := average_const_add (c := prior.alpha) hω
  have hB := average_const_add (c := prior.beta) average_n
  have hω' : GammaLimit (fun n : ℕ => ⟨prior.beta + n, prior.alpha + ∑ i ∈ Finset.range n, X i ω⟩) (1 / lam) := by
    refine ⟨fun n => ?_, fun n => ?_, ratio_of_averages hB hA hl.ne', atTop_of_average hA hl⟩
    · simp only; positivity
    · have := sum_nonneg_of (fun i => (hx i).le) n; simp only; positivity
  have hlim : Tendsto (fun n : ℕ => (prior.beta + n) / (prior.alpha + ∑ i ∈ Finset.range n, X i ω) *
      ((prior.beta + n + 1) / (prior.alpha + ∑ i ∈ Finset.range n, X i ω))) atTop (𝓝 (1 / lam * (1 / lam))) := by
    refine hω'.ratio.mul ?_
    have h1 := hω'.ratio.add (tendsto_inv_atTop_zero.comp hω'.total)
    rw [add_zero] at h1
    refine h1.congr fun n => ?_
    simp only [Function.comp]
    ring
  refine predictive_tendsto_of_moment (G := fun r => r ^ 2) (C := 1 / lam * (1 / lam) + 1)
    (lik := fun r => (Exponential.dist ⟨1 / r⟩).pdf x) measurableSet_Ioi hω'.density
    (Eventually.of_forall fun n => ?_) hω'.concentrates ?_ ?_ ?_
  · have := exponential_predictive_true ⟨prior.beta + n, prior.alpha + ∑ i ∈ Finset.range n, X i ω⟩
      (hω'.alpha_pos n) (hω'.beta_pos n) x hx0
    simpa [exponential_gamma_predictive, exponential_gamma, getExponentialGammaPosteriorParams,
      getPoissonGammaPosteriorParams] using this
  · have hcont : Continuous fun r : ℝ => Real.exp (-(x * r)) * r := by fun_prop
    have e : (Exponential.dist ⟨lam⟩).pdf x = Real.exp (-(x * (1 / lam))) * (1 / lam) := by
      rw [Exponential.pdf_eq _ hl hx0]; simp only [div_eq_mul_inv, one_mul]
    rw [e]
    refine (hcont.continuousWithinAt (s := Ioi 0) (x := 1 / lam)).tendsto.congr' ?_
    filter_upwards [self_mem_nhdsWithin] with r hr
    have hr : 0 < r := hr
    rw [Exponential.pdf_eq _ (one_div_pos.2 hr) hx0]
    field_simp
  · intro r hr
    have hr : 0 < r := hr
    rw [Exponential.pdf_eq _ (one_div_pos.2 hr) hx0]
    have e : Real.exp (-(x / (1 / r))) / (1 / r) = Real.exp (-(x * r)) * r := by field_simp
    rw [e, mul_pow]
    have h1 : Real.exp (-(x * r)) ≤ 1 := Real.exp_le_one_iff.2 (neg_nonpos.2 (mul_nonneg hx0 hr.le))
    exact mul_le_of_le_one_left (sq_nonneg r) (pow_le_one₀ (Real.exp_pos _).le h1)
  · filter_upwards [hlim.eventually_le_const (lt_add_one _)] with n hn
    have := gamma_second_moment ⟨prior.beta + n, prior.alpha + ∑ i ∈ Finset.range n, X i ω⟩ (hω'.alpha_pos n)
      (hω'.beta_pos n)
    exact ⟨this.1, this.2 ▸ hn⟩

example : ∃ (Q : Measure (ℕ → ℝ)) (X : ℕ → (ℕ → ℝ) → ℝ), IsProbabilityMeasure Q ∧
    IIDFrom Q X (contLaw (Exponential.dist ⟨(3 : ℝ)⟩)) ∧ ∀ᵐ ω ∂Q, ∀ x ≥ 0, Tendsto
      (fun n => (exponential_gamma_predictive
        (exponential_gamma (∑ i ∈ Finset.range n, X i ω) (n : ℝ) ⟨1, 1⟩)).dist.pdf x) atTop
      (𝓝 ((Exponential.dist ⟨(3 : ℝ)⟩).pdf x)) := by
  have : IsProbabilityMeasure (contLaw (Exponential.dist ⟨(3 : ℝ)⟩)) := by
    rw [exponential_as_gamma (by norm_num)]; exact gamma_prob one_pos (by norm_num)
  obtain ⟨Q, X, hQ, h⟩ := exists_iid (contLaw (Exponential.dist ⟨(3 : ℝ)⟩))
  exact ⟨Q, X, hQ, h, C93_exponential_gamma _ one_pos one_pos (by norm_num) h⟩

/-! ## Normal data -/

theorem normal_lik_sq {m v x : ℝ} (hv : 0 < v) : (Normal.dist ⟨m, √v⟩).pdf x ^ 2 ≤ 1 / v := by
  rw [Normal.pdf_eq ⟨m, √v⟩ (Real.sqrt_pos.2 hv), mul_pow, div_pow, one_pow, mul_pow]
  simp only [Real.sq_sqrt hv.le, Real.sq_sqrt (show (0 : ℝ) ≤ 2 * Real.pi by positivity)]
  have h1 : Real.exp (-(x - m) ^ 2 / (2 * v)) ≤ 1 := by
    rw [Real.exp_le_one_iff, neg_div]
    exact neg_nonpos.2 (by positivity)
  have h2 : Real.exp (-(x - m) ^ 2 / (2 * v)) ^ 2 ≤ 1 := pow_le_one₀ (Real.exp_pos _).le h1
  calc 1 / (v * (2 * Real.pi)) * Real.exp (-(x - m) ^ 2 / (2 * v)) ^ 2 ≤ 1 / (v * (2 * Real.pi)) * 1 :=
        mul_le_mul_of_nonneg_left h2 (by positivity)
    _ ≤ 1 / v := by
        rw [mul_one]
        refine one_div_le_one_div_of_le hv (le_mul_of_one_le_right hv.le ?_)
        linarith [Real.two_le_pi]

theorem normal_lik_continuousAt {m v : ℝ} (hv : 0 < v) (x : ℝ) :
    ContinuousAt (fun θ : ℝ × ℝ => (Normal.dist ⟨θ.1, √θ.2⟩).pdf x) (m, v) := by
  have hs : √v ≠ 0 := (Real.sqrt_pos.2 hv).ne'
  have h1 : ContinuousAt (fun θ : ℝ × ℝ => √θ.2) (m, v) := by fun_prop
  have h2 : ContinuousAt (fun θ : ℝ × ℝ => 1 / (√θ.2 * √(2 * Real.pi)) *
      Real.exp (-(x - θ.1) ^ 2 / (2 * √θ.2 ^ 2))) (m, v) := by
    refine ContinuousAt.mul (ContinuousAt.div continuousAt_const (h1.mul continuousAt_const) ?_)
      (Real.continuous_exp.continuousAt.comp (ContinuousAt.div (by fun_prop) (by fun_prop) ?_))
    · simp only; positivity
    · simp only; positivity
  refine h2.congr ?_
  have : ∀ᶠ θ : ℝ × ℝ in 𝓝 (m, v), 0 < θ.2 := continuous_snd.continuousAt.eventually (lt_mem_nhds hv)
  filter_upwards [this] with θ hθ
  rw [Normal.pdf_eq ⟨θ.1, √θ.2⟩ (Real.sqrt_pos.2 hθ)]

/-- C93, variance known -/
theorem C93_normal_known_variance {X : ℕ → Ω → ℝ} (prior : Normal ℝ) (hs : 0 < prior.sigma) (var : ℝ)
    (hv : 0 < var) (m₀ : ℝ) (h : IIDFrom Q X (contLaw (Normal.dist ⟨m₀, √var⟩))) :
    ∀ᵐ ω ∂Q, ∀ x, Tendsto
      (fun n => (normal_known_variance_predictive var
        (normal_known_variance (∑ i ∈ Finset.range n, X i ω) (n : ℝ) var prior)).dist.pdf x) atTop
      (𝓝 ((Normal.dist ⟨m₀, √var⟩).pdf x)) := by
  filter_upwards [normal_known_variance_limit prior hs var hv m₀ h] with ω hω x
  refine predictive_tendsto_of_moment (G := fun _ => 1 / var) (C := 1 / var)
    (lik := fun m => (Normal.dist ⟨m, √var⟩).pdf x) MeasurableSet.univ
    (Eventually.of_forall fun n => Normal.isDensity _ (hω.sigma_pos n))
    (Eventually.of_forall fun n => C30_normal_known_variance_predictive var hv _ (hω.sigma_pos n) x)
    ((funext fun n => norm_lawOn _) ▸ hω.recovers.concentrates) ?_ (fun m _ => normal_lik_sq hv) ?_
  · have := (normal_lik_continuousAt (m := m₀) hv x).comp (x := m₀) (f := fun m : ℝ => (m, var)) (by fun_prop)
    exact this.continuousWithinAt
  · refine Eventually.of_forall fun n => ?_
    have := lawOn_prob MeasurableSet.univ (Normal.isDensity _ (hω.sigma_pos n))
    exact ⟨integrable_const _, by simp⟩

/-- C93, precision known -/
theorem C93_normal_known_precision {X : ℕ → Ω → ℝ} (prior : Normal ℝ) (hs : 0 < prior.sigma) (precision : ℝ)
    (hp : 0 < precision) (m₀ : ℝ) (h : IIDFrom Q X (contLaw (Normal.dist ⟨m₀, √(1 / precision)⟩))) :
    ∀ᵐ ω ∂Q, ∀ x, Tendsto
      (fun n => (normal_known_precision_predictive precision
        (normal_known_precision (∑ i ∈ Finset.range n, X i ω) (n : ℝ) precision prior)).dist.pdf x) atTop
      (𝓝 ((Normal.dist ⟨m₀, √(1 / precision)⟩).pdf x)) := by
  filter_upwards [C93_normal_known_variance prior hs (1 / precision) (by positivity) m₀ h] with ω hω x
  simpa only [normal_known_precision_predictive, normal_known_precision, lit_real, Rat.cast_one] using hω x

theorem invgamma_inv_moment (d : InverseGamma ℝ) (ha : 0 < d.alpha) (hb : 0 < d.beta) :
    Integrable (fun v => 1 / v) (lawOn (Ioi 0) d.dist.pdf) ∧
      ∫ v, 1 / v ∂lawOn (Ioi 0) d.dist.pdf = d.alpha / d.beta := by
  refine mean_of_tilt measurableSet_Ioi (InverseGamma.isDensity d ha hb)
    (InverseGamma.isDensity ⟨d.alpha + 1, d.beta⟩ (by simp only; positivity) hb) fun v hv => ?_
  have h := InverseGamma.tilt ⟨d.alpha + 1, d.beta⟩ (by simp only; linarith) hb hv
  have hv : 0 < v := hv
  simp only [add_sub_cancel_right] at h
  have h' : d.dist.pdf v = d.alpha / d.beta * (v * (InverseGamma.dist ⟨d.alpha + 1, d.beta⟩).pdf v) := by
    rw [h]; field_simp
  rw [h']; field_simp

theorem InverseGammaLimit.predictive {d : ℕ → InverseGamma ℝ} {v₀ : ℝ} (h : InverseGammaLimit d v₀) (hv : 0 < v₀)
    (mu x : ℝ) :
    Tendsto (fun n => (normal_known_mean_predictive mu (.inverseGamma (d n))).dist.pdf x) atTop
      (𝓝 ((Normal.dist ⟨mu, √v₀⟩).pdf x)) := by
  have hpos : ∀ᶠ n in atTop, 0 < (d n).alpha := h.total.eventually_gt_atTop 0
  have hinv : Tendsto (fun n => (d n).alpha / (d n).beta) atTop (𝓝 v₀⁻¹) :=
    (h.ratio.inv₀ hv.ne').congr fun n => inv_div _ _
  refine predictive_tendsto_of_moment (G := fun v => 1 / v) (C := v₀⁻¹ + 1) (f := fun n => (d n).dist.pdf)
    (lik := fun v => (Normal.dist ⟨mu, √v⟩).pdf x) measurableSet_Ioi
    (hpos.mono fun n hn => InverseGamma.isDensity _ hn (h.beta_pos n))
    (hpos.mono fun n hn => C31_normal_known_mean_predictive mu (.inverseGamma (d n)) ⟨hn, h.beta_pos n⟩ x)
    ((funext fun n => invgamma_lawOn _ (h.beta_pos n)) ▸ h.recovers.concentrates) ?_ (fun v hv => normal_lik_sq hv) ?_
  · have := (normal_lik_continuousAt (m := mu) hv x).comp (x := v₀) (f := fun v : ℝ => (mu, v)) (by fun_prop)
    exact this.continuousWithinAt
  · filter_upwards [hpos, hinv.eventually_le_const (lt_add_one _)] with n hn hle
    have := invgamma_inv_moment (d n) hn (h.beta_pos n)
    exact ⟨this.1, this.2 ▸ hle⟩

/-- C93, mean known: the Student t predictive tends to the true normal law -/
theorem C93_normal_known_mean {X : ℕ → Ω → ℝ} (prior : VariancePrior ℝ) (hp : prior.Valid) (mu : ℝ) {v₀ : ℝ}
    (hv : 0 < v₀) (h : IIDFrom Q X (contLaw (Normal.dist ⟨mu, √v₀⟩))) :
    ∀ᵐ ω ∂Q, ∀ x, Tendsto
      (fun n => (normal_known_mean_predictive mu (normal_known_mean (∑ i ∈ Finset.range n, X i ω)
        (∑ i ∈ Finset.range n, X i ω ^ 2) (n : ℝ) mu prior)).dist.pdf x) atTop
      (𝓝 ((Normal.dist ⟨mu, √v₀⟩).pdf x)) := by
  cases prior with
  | inverseGamma d =>
    filter_upwards [known_mean_limit d hp.2 mu hv h] with ω hω x
    exact hω.predictive hv mu x
  | scaledInverseChiSquared d =>
    have h1 := hp.1; have h2 := hp.2
    have ha : 0 < d.to_inverse_gamma.alpha := by simp [ScaledInverseChiSquared.to_inverse_gamma]; positivity
    have hb : 0 < d.to_inverse_gamma.beta := by simp [ScaledInverseChiSquared.to_inverse_gamma]; positivity
    filter_upwards [known_mean_limit d.to_inverse_gamma hb mu hv h] with ω hω x
    refine (hω.predictive hv mu x).congr fun n => ?_
    simp only [normal_known_mean, normal_known_mean_predictive]
    rw [ScaledInverseChiSquared.to_from _ (known_mean_valid (fun i => X i ω) mu d.to_inverse_gamma ha hb n).1.ne']

example : ∃ (Q : Measure (ℕ → ℝ)) (X : ℕ → (ℕ → ℝ) → ℝ), IsProbabilityMeasure Q ∧
    IIDFrom Q X (contLaw (Normal.dist ⟨(2 : ℝ), √3⟩)) ∧ ∀ᵐ ω ∂Q, ∀ x, Tendsto
      (fun n => (normal_known_mean_predictive 2 (normal_known_mean (∑ i ∈ Finset.range n, X i ω)
        (∑ i ∈ Finset.range n, X i ω ^ 2) (n : ℝ) 2 (.inverseGamma ⟨1, 1⟩))).dist.pdf x) atTop
      (𝓝 ((Normal.dist ⟨(2 : ℝ), √3⟩).pdf x)) := by
  have := normal_prob 2 (s := √3) (by positivity)
  obtain ⟨Q, X, hQ, h⟩ := exists_iid (contLaw (Normal.dist ⟨(2 : ℝ), √3⟩))
  exact ⟨Q, X, hQ, h, C93_normal_known_mean (.inverseGamma ⟨1, 1⟩) ⟨one_pos, one_pos⟩ 2 (by norm_num) h⟩

/-- an average of a function of the scale parameter alone -/
theorem scaleMix_integral {g V : ℝ → ℝ} {m : ℝ} (hg : IsDensity volume (Ioi 0) g) (hV : ∀ y ∈ Ioi (0 : ℝ), 0 < V y)
    (hd : IsDensity volume (univ ×ˢ Ioi 0) (scaleMix g V m)) {T : ℝ → ℝ} (hT : Measurable T) {c : ℝ}
    (h : Integrable T (lawOn (Ioi 0) g) ∧ ∫ y, T y ∂lawOn (Ioi 0) g = c) :
    Integrable (fun θ : ℝ × ℝ => T θ.2) (lawOn (univ ×ˢ Ioi 0) (scaleMix g V m)) ∧
      ∫ θ : ℝ × ℝ, T θ.2 ∂lawOn (univ ×ˢ Ioi 0) (scaleMix g V m) = c := by
  rw [← scaleMix_snd hg hV hd] at h
  refine ⟨(integrable_map_measure hT.aestronglyMeasurable measurable_snd.aemeasurable).1 h.1, ?_⟩
  rw [← h.2, integral_map measurable_snd.aemeasurable hT.aestronglyMeasurable]

/-- C93, mean and variance unknown, NormalInverseGamma prior: `normal_predictive` after `n + 1` observations -/
theorem C93_normal_nig {M : Type} {X : ℕ → Ω → ℝ} (prior : NormalInverseGamma ℝ ℝ M) (nu : ℝ)
    (hn : prior.nu = some nu) (hnu : 0 < nu) (ha : 0 < prior.alpha) (hb : 0 < prior.beta) (m₀ : ℝ) {v₀ : ℝ} (hv : 0 < v₀)
    (h : IIDFrom Q X (contLaw (Normal.dist ⟨m₀, √v₀⟩))) :
    ∀ᵐ ω ∂Q, ∃ pred : ℕ → StudentT ℝ,
      (∀ n, (do normal_predictive (← normal (∑ i ∈ Finset.range (n + 1), X i ω)
        (∑ i ∈ Finset.range (n + 1), X i ω ^ 2) ((n + 1 : ℕ) : ℝ) (.nig prior))) = .ok (pred n)) ∧
      ∀ x, Tendsto (fun n => (pred n).dist.pdf x) atTop (𝓝 ((Normal.dist ⟨m₀, √v₀⟩).pdf x)) := by
  filter_upwards [normal_averages hv h] with ω hω
  obtain ⟨l1, l2, l3, -, l5⟩ := normal_numbers_limit hω.1 hω.2 hv prior.mu nu prior.alpha prior.beta
  let r := fun n : ℕ => normalUpdate (∑ i ∈ Finset.range (n + 1), X i ω) (∑ i ∈ Finset.range (n + 1), X i ω ^ 2)
    ((n + 1 : ℕ) : ℝ) prior.mu nu prior.alpha prior.beta
  have hr : ∀ n, NormalValid (r n) := fun n => normal_numbers_valid _ n hnu ha hb
  let post : ℕ → NormalInverseGamma ℝ ℝ M := fun n => ⟨(r n).1, (r n).2.2.1, (r n).2.2.2, none, some (r n).2.1⟩
  have hp : ∀ n x, ∃ t : StudentT ℝ, normal_predictive (.nig (post n)) = .ok t ∧ _ := fun n x =>
    C32_normal_predictive_nig (post n) (r n).2.1 rfl (hr n).1 (hr n).2.1 (hr n).2.2 x
  choose t ht using fun n => hp n 0
  have hs := tendsto_add_atTop_nat 1
  have hinv := (l5.comp hs).inv₀ hv.ne'
  refine ⟨t, fun n => ?_, fun x => ?_⟩
  · rw [← (ht n).1]
    simp only [normal, hn]; rfl
  · refine predictive_tendsto_of_moment (G := fun θ : ℝ × ℝ => 1 / θ.2) (C := v₀⁻¹ + 1) (y := (m₀, v₀))
      (f := fun n => nigPdf (r n).1 (r n).2.1 (r n).2.2.1 (r n).2.2.2)
      (lik := fun θ : ℝ × ℝ => (Normal.dist ⟨θ.1, √θ.2⟩).pdf x) (MeasurableSet.univ.prod measurableSet_Ioi)
      (Eventually.of_forall fun n => nigPdf_isDensity _ _ _ _ (hr n).1 (hr n).2.1 (hr n).2.2)
      (Eventually.of_forall fun n => ?_) ?_ (normal_lik_continuousAt hv x).continuousWithinAt
      (fun θ hθ => normal_lik_sq hθ.2) ?_
    · obtain ⟨t', ht', h2⟩ := hp n x
      have e : t' = t n := Except.ok.inj (ht'.symm.trans (ht n).1)
      rw [← e]
      refine (congrArg (fun f => IsPredictive volume (univ ×ˢ Ioi 0)
        (fun θ : ℝ × ℝ => (Normal.dist ⟨θ.1, √θ.2⟩).pdf x) f (t'.dist.pdf x)) (funext fun θ => ?_)).mp h2
      simp [NormalInverseGamma.jointPdf, nigPdf, NormalInverseGamma.inverse_gamma, post]
    · exact concentrates_nig (mu := fun n => (r n).1) (nu := fun n => (r n).2.1) (a := fun n => (r n).2.2.1)
        (b := fun n => (r n).2.2.2) (fun n => (hr n).1) (fun n => (hr n).2.2) (l1.comp hs) (l5.comp hs) (l3.comp hs)
        (l2.comp hs)
    · filter_upwards [hinv.eventually_le_const (lt_add_one _)] with n hle
      have h1 := invgamma_inv_moment ⟨(r n).2.2.1, (r n).2.2.2⟩ (hr n).2.1 (hr n).2.2
      have h2 := scaleMix_integral (V := fun y => y / (r n).2.1) (m := (r n).1)
        (InverseGamma.isDensity ⟨(r n).2.2.1, (r n).2.2.2⟩ (hr n).2.1 (hr n).2.2) (fun y hy => div_pos hy (hr n).1)
        (nigPdf_isDensity _ _ _ _ (hr n).1 (hr n).2.1 (hr n).2.2) (by fun_prop) h1
      refine ⟨h2.1, h2.2.trans_le ?_⟩
      have : ((r n).2.2.2 / (r n).2.2.1)⁻¹ ≤ v₀⁻¹ + 1 := hle
      rwa [inv_div] at this

example : ∃ (Q : Measure (ℕ → ℝ)) (X : ℕ → (ℕ → ℝ) → ℝ), IsProbabilityMeasure Q ∧
    IIDFrom Q X (contLaw (Normal.dist ⟨(2 : ℝ), √3⟩)) ∧ ∀ᵐ ω ∂Q, ∃ pred : ℕ → StudentT ℝ,
      (∀ n, (do normal_predictive (← normal (∑ i ∈ Finset.range (n + 1), X i ω)
        (∑ i ∈ Finset.range (n + 1), X i ω ^ 2) ((n + 1 : ℕ) : ℝ)
        (.nig ⟨0, 1, 1, none, some 1⟩ : NormalPrior ℝ Unit))) = .ok (pred n)) ∧
      ∀ x, Tendsto (fun n => (pred n).dist.pdf x) atTop (𝓝 ((Normal.dist ⟨(2 : ℝ), √3⟩).pdf x)) := by
  have := normal_prob 2 (s := √3) (by positivity)
  obtain ⟨Q, X, hQ, h⟩ := exists_iid (contLaw (Normal.dist ⟨(2 : ℝ), √3⟩))
  exact ⟨Q, X, hQ, h, C93_normal_nig _ 1 rfl one_pos one_pos one_pos 2 (by norm_num) h⟩

/-- C93, NormalGamma prior; the true law is given by its precision -/
theorem C93_normal_ng {M : Type} {X : ℕ → Ω → ℝ} (prior : NormalGamma ℝ) (hlam : 0 < prior.lam) (ha : 0 < prior.alpha)
    (hb : 0 < prior.beta) (m₀ : ℝ) {t₀ : ℝ} (ht : 0 < t₀)
    (h : IIDFrom Q X (contLaw (Normal.dist ⟨m₀, √(1 / t₀)⟩))) :
    ∀ᵐ ω ∂Q, ∃ pred : ℕ → StudentT ℝ,
      (∀ n, (do normal_predictive (← normal (∑ i ∈ Finset.range (n + 1), X i ω)
        (∑ i ∈ Finset.range (n + 1), X i ω ^ 2) ((n + 1 : ℕ) : ℝ) (.ng prior : NormalPrior ℝ M))) = .ok (pred n)) ∧
      ∀ x, Tendsto (fun n => (pred n).dist.pdf x) atTop (𝓝 ((Normal.dist ⟨m₀, √(1 / t₀)⟩).pdf x)) := by
  have := C93_normal_nig (M := M) ⟨prior.mu, prior.alpha, prior.beta, none, some prior.lam⟩ prior.lam rfl hlam ha hb m₀
    (one_div_pos.2 ht) h
  filter_upwards [this] with ω hω
  obtain ⟨pred, h1, h2⟩ := hω
  exact ⟨pred, fun n => h1 n, h2⟩

/-! ## Dirichlet posteriors -/

variable {k : ℕ}

theorem dirichlet_predictive_limit {d : ℕ → Dirichlet (Fin (k + 1) → ℝ)} (hd : ∀ n i, 0 < (d n).alpha i)
    {q : Fin (k + 1) → ℝ}
    (hc : ConcentratesAt (fun n => (lawOn (simplex k) fun p => (d n).pdf (fullVector p)).map fullVector) q) (m : ℕ)
    (x : Fin (k + 1) → ℕ) :
    Tendsto (fun n => (multinomial_dirichlet_predictive (d n) (m : ℝ)).pmf x) atTop
      (𝓝 ((Multinomial.mk (m : ℝ) q).pmf x)) := by
  have hcont : Continuous fun q : Fin (k + 1) → ℝ => (Multinomial.mk (m : ℝ) q).pmf x := by
    simp only [Multinomial.pmf, multinomialPmf]
    split_ifs
    · exact continuous_const.mul (continuous_finsetProd _ fun i _ => (continuous_apply i).pow _)
    · exact continuous_const
  obtain ⟨C, hC⟩ := (isCompact_univ_pi fun _ : Fin (k + 1) => isCompact_Icc (a := (0 : ℝ)) (b := 1)
    ).exists_bound_of_continuousOn hcont.continuousOn
  have hden : ∀ n, IsDensity volume (simplex k) fun p => (d n).pdf (fullVector p) := fun n => dirichlet_isDensity _ (hd n)
  have hprob : ∀ n, IsProbabilityMeasure (lawOn (simplex k) fun p => (d n).pdf (fullVector p)) := fun n =>
    lawOn_prob (measurableSet_simplex k) (hden n)
  have hprob' : ∀ n, IsProbabilityMeasure ((lawOn (simplex k) fun p => (d n).pdf (fullVector p)).map fullVector) :=
    fun n => Measure.isProbabilityMeasure_map measurable_fullVector.aemeasurable
  have hpi := fun n => predictive_integral (measurableSet_simplex k) (hden n)
    (C36_multinomial_dirichlet_predictive (d n) (hd n) m x)
  have hmem : ∀ p ∈ simplex k, fullVector p ∈ univ.pi fun _ : Fin (k + 1) => Icc (0 : ℝ) 1 := by
    intro p hp i _
    have h0 : ∀ i, 0 ≤ p i := fun i => (hp.1 i).le
    refine Fin.lastCases ?_ (fun j => ?_) i
    · simp only [fullVector, Fin.snoc_last]
      exact ⟨by linarith [hp.2], by linarith [Finset.sum_nonneg fun i (_ : i ∈ Finset.univ) => h0 i]⟩
    · simp only [fullVector, Fin.snoc_castSucc]
      exact ⟨h0 j, (Finset.single_le_sum (fun i _ => h0 i) (Finset.mem_univ j)).trans hp.2.le⟩
  have := expect_tendsto (S := univ.pi fun _ => Icc (0 : ℝ) 1) (G := fun _ => C ^ 2) (C := C ^ 2)
    (Eventually.of_forall hprob') hc (Eventually.of_forall fun n => ?_)
    (Eventually.of_forall fun n => ?_) hcont.continuousWithinAt (fun q hq => ?_)
    (Eventually.of_forall fun n => ⟨integrable_const _, by have := hprob' n; simp⟩)
  · refine this.congr fun n => ?_
    rw [integral_map measurable_fullVector.aemeasurable hcont.measurable.aestronglyMeasurable]
    exact (hpi n).2
  · have hms : MeasurableSet (univ.pi fun _ : Fin (k + 1) => Icc (0 : ℝ) 1) :=
      MeasurableSet.univ_pi fun _ => measurableSet_Icc
    refine (ae_map_iff measurable_fullVector.aemeasurable hms).2 ?_
    filter_upwards [ae_lawOn_mem (measurableSet_simplex k) _] with p hp
    exact hmem p hp
  · rw [integrable_map_measure hcont.measurable.aestronglyMeasurable measurable_fullVector.aemeasurable]
    exact (hpi n).1
  · rw [← sq_abs]
    exact pow_le_pow_left₀ (abs_nonneg _) (hC q hq) 2

/-- C93. Categorical data, the next `m` draws. -/
theorem C93_categorical_dirichlet {X : ℕ → Ω → Fin (k + 1)} (prior : Dirichlet (Fin (k + 1) → ℝ))
    (hp : ∀ i, 0 < prior.alpha i) (q : Fin (k + 1) → ℝ) (h0 : ∀ i, 0 ≤ q i) (h1 : ∑ i, q i = 1)
    (h : IIDFrom Q X (pmfLaw q)) (m : ℕ) :
    ∀ᵐ ω ∂Q, ∃ post : ℕ → Dirichlet (Fin (k + 1) → ℝ),
      (∀ n, categorical_dirichlet (fun j => ((List.range n).countP fun i => X i ω = j : ℝ)) prior = .ok (post n)) ∧
      ∀ x, Tendsto (fun n => (categorical_dirichlet_predictive (post n) (m : ℝ)).pmf x) atTop
        (𝓝 ((Multinomial.mk (m : ℝ) q).pmf x)) := by
  filter_upwards [C88_categorical_dirichlet prior hp q h0 h1 h] with ω ⟨post, hpost, hc⟩
  refine ⟨post, hpost, fun x => dirichlet_predictive_limit (fun n i => ?_) hc m x⟩
  have e := Except.ok.inj (hpost n)
  rw [← e]
  exact add_pos_of_pos_of_nonneg (hp i) (Nat.cast_nonneg _)

/-- C93. Multinomial data, a next batch of `m` trials. -/
theorem C93_multinomial_dirichlet {X : ℕ → Ω → Fin (k + 1) → ℕ} (prior : Dirichlet (Fin (k + 1) → ℝ))
    (hp : ∀ i, 0 < prior.alpha i) (N : ℕ) (hN : 0 < N) (q : Fin (k + 1) → ℝ) (h0 : ∀ i, 0 ≤ q i) (h1 : ∑ i, q i = 1)
    (h : IIDFrom Q X (pmfLaw (Multinomial.mk (N : ℝ) q).pmf)) (m : ℕ) :
    ∀ᵐ ω ∂Q, ∃ post : ℕ → Dirichlet (Fin (k + 1) → ℝ),
      (∀ n, multinomial_dirichlet (fun j => ∑ i ∈ Finset.range n, (X i ω j : ℝ)) prior = .ok (post n)) ∧
      ∀ x, Tendsto (fun n => (multinomial_dirichlet_predictive (post n) (m : ℝ)).pmf x) atTop
        (𝓝 ((Multinomial.mk (m : ℝ) q).pmf x)) := by
  filter_upwards [C88_multinomial_dirichlet prior hp N hN q h0 h1 h] with ω ⟨post, hpost, hc⟩
  refine ⟨post, hpost, fun x => dirichlet_predictive_limit (fun n i => ?_) hc m x⟩
  have e := Except.ok.inj (hpost n)
  rw [← e]
  exact add_pos_of_pos_of_nonneg (hp i) (sum_nonneg_of (fun l => Nat.cast_nonneg _) n)

example : ∃ (Q : Measure (ℕ → Fin 3)) (X : ℕ → (ℕ → Fin 3) → Fin 3), IsProbabilityMeasure Q ∧
    IIDFrom Q X (pmfLaw threeProbs) ∧ ∀ᵐ ω ∂Q, ∃ post : ℕ → Dirichlet (Fin 3 → ℝ),
      (∀ n, categorical_dirichlet (fun j => ((List.range n).countP fun i => X i ω = j : ℝ)) ⟨fun _ => 1⟩ = .ok (post n)) ∧
      ∀ x, Tendsto (fun n => (categorical_dirichlet_predictive (post n) ((2 : ℕ) : ℝ)).pmf x) atTop
        (𝓝 ((Multinomial.mk ((2 : ℕ) : ℝ) threeProbs).pmf x)) := by
  have := pmf_prob (p := threeProbs) threeProbs_nonneg
    (threeProbs_sum ▸ hasSum_fintype threeProbs)
  obtain ⟨Q, X, hQ, h⟩ := exists_iid (pmfLaw threeProbs)
  exact ⟨Q, X, hQ, h, C93_categorical_dirichlet _ (fun _ => one_pos) _ threeProbs_nonneg threeProbs_sum h 2⟩

end Conj
