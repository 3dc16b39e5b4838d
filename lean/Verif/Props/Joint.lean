import Verif.Lemmas.JointSamples
import Verif.Props.Calibration
import Verif.Props.Exponential
import Verif.CallTable

/-!
# C105: vectorised posteriors, taken together

A vectorised call updates every group on its own. If the unknowns of the groups are independent before the data, the
entries it returns are together the posterior of all unknowns, whichever way the next group to observe was chosen, and
rows of samples answer questions that compare groups: which group is the best, how large a difference is.
-/

open MeasureTheory Set Real

namespace Conj

open Scipy Spec

variable {k : ℕ} {ι : Type} {P : Measure Stream} [IsProbabilityMeasure P]

theorem observed_mem {X : Type} {h : List (Fin k × X)} {ok : Fin k → X → Prop} (hx : ∀ p ∈ h, ok p.1 p.2) (i : Fin k) :
    ∀ x ∈ observed h i, ok i x := by
  intro x hm
  simp only [observed, List.mem_map, List.mem_filter, decide_eq_true_eq] at hm
  obtain ⟨p, ⟨h1, h2⟩, h3⟩ := hm
  rw [← h3, ← h2]
  exact hx p h1

/-! ## Beta priors -/

theorem joint_beta {X : Type} (lib : FrozenSamplers ι) (hlib : CorrectFrozen lib P) {prior : Fin k → Beta ℝ}
    {post : Fin k → Beta ℝ} (hpa : ∀ i, 0 < (post i).alpha) (hpb : ∀ i, 0 < (post i).beta) {f : Fin k → ℝ → X → ℝ}
    {h : List (Fin k × X)} (each : ∀ i, IsPosterior volume (Ioo 0 1) (prior i).dist.pdf
      (likelihood (f i) (observed h i)) (post i).dist.pdf) (size : ℕ) :
    JointlyRight P (Ioo 0 1) (fun i => (prior i).dist.pdf) (groupLikelihood f h) (fun i => (post i).dist.pdf) size
      (rvsRows lib (fun i => lib.cont (post i).dist) size) :=
  jointly_right lib hlib measurableSet_Ioo (post := fun i => (post i).dist) each (fun i => beta_lawOn _)
    (fun _ => measurable_pdf (measurable_std_beta _ _) _ _) (fun i => Beta.isDensity _ (hpa i) (hpb i)) size

section Beta

variable (lib : FrozenSamplers ι) (hlib : CorrectFrozen lib P) (prior : Fin k → Beta ℝ) (ha : ∀ i, 0 < (prior i).alpha)
  (hb : ∀ i, 0 < (prior i).beta) (size : ℕ)
include hlib ha hb

/-- C105. Binomial counts: an observation is a number of trials with a number of successes. -/
theorem C105_binomial_beta (h : List (Fin k × ℕ × ℕ)) (hx : ∀ p ∈ h, p.2.2 ≤ p.2.1) :
    let post := fun i => binomial_beta ((((observed h i).map Prod.fst).sum : ℕ) : ℝ)
      ((((observed h i).map Prod.snd).sum : ℕ) : ℝ) (prior i)
    JointlyRight P (Ioo 0 1) (fun i => (prior i).dist.pdf)
      (groupLikelihood (fun _ p (e : ℕ × ℕ) => (Binomial.dist { n := e.1, p := p }).pmf e.2) h)
      (fun i => (post i).dist.pdf) size (rvsRows lib (fun i => lib.cont (post i).dist) size) := by
  intro post
  have hle : ∀ i, ((observed h i).map Prod.snd).sum ≤ ((observed h i).map Prod.fst).sum := by
    intro i
    exact List.sum_le_sum fun e he => observed_mem (ok := fun _ (e : ℕ × ℕ) => e.2 ≤ e.1) hx i e he
  refine joint_beta lib hlib (fun i => ?_) (fun i => ?_) (fun i => C01_binomial_beta_posterior_list (prior i) (ha i) (hb i)
    (observed h i) (observed_mem (ok := fun _ (e : ℕ × ℕ) => e.2 ≤ e.1) hx i)) size
  · have := ha i
    simp only [binomial_beta, getBinomialBetaPosteriorParams]; positivity
  · have := hb i
    have h2 : (0 : ℝ) ≤ ((((observed h i).map Prod.fst).sum : ℕ) : ℝ) - ((((observed h i).map Prod.snd).sum : ℕ) : ℝ) :=
      sub_nonneg.2 (by exact_mod_cast hle i)
    simp only [binomial_beta, getBinomialBetaPosteriorParams]; linarith

/-- C105. Negative binomial counts; each group has its own number of successes to wait for. -/
theorem C105_negative_binomial_beta (r : Fin k → ℝ) (hr : ∀ i, 0 < r i) (h : List (Fin k × ℕ)) :
    let post := fun i => negative_binomial_beta (r i) ((observed h i).length : ℝ) (((observed h i).sum : ℕ) : ℝ) (prior i)
    JointlyRight P (Ioo 0 1) (fun i => (prior i).dist.pdf)
      (groupLikelihood (fun i p (x : ℕ) => (NegativeBinomial.dist { n := r i, p := p }).pmf x) h)
      (fun i => (post i).dist.pdf) size (rvsRows lib (fun i => lib.cont (post i).dist) size) := by
  intro post
  refine joint_beta lib hlib (fun i => ?_) (fun i => ?_)
    (fun i => C03_negative_binomial_beta_posterior (prior i) (ha i) (hb i) (r i) (hr i) (observed h i)) size
  · have := ha i; have := hr i
    simp only [negative_binomial_beta]; positivity
  · have := hb i
    simp only [negative_binomial_beta]; positivity

/-- C105. Geometric counts, in both conventions. -/
theorem C105_geometric_beta (one_start : Bool) (h : List (Fin k × ℕ)) (hx : ∀ p ∈ h, one_start = true → 1 ≤ p.2) :
    let post := fun i => geometric_beta (((observed h i).sum : ℕ) : ℝ) ((observed h i).length : ℝ) (prior i) one_start
    JointlyRight P (Ioo 0 1) (fun i => (prior i).dist.pdf)
      (groupLikelihood (fun _ p (x : ℕ) => (Geometric.dist { p := p, one_start := one_start }).pmf x) h)
      (fun i => (post i).dist.pdf) size (rvsRows lib (fun i => lib.cont (post i).dist) size) := by
  intro post
  have hx' := fun i => observed_mem (ok := fun _ x => one_start = true → 1 ≤ x) hx i
  refine joint_beta lib hlib (fun i => ?_) (fun i => ?_)
    (fun i => C04_geometric_beta_posterior (prior i) (ha i) (hb i) one_start (observed h i) (hx' i)) size
  · have := ha i
    simp only [geometric_beta]; positivity
  · have := hb i
    cases one_start with
    | false => simp only [geometric_beta, Bool.false_eq_true, if_false]; positivity
    | true =>
      have : (observed h i).length ≤ (observed h i).sum := by
        have := List.length_le_sum_of_one_le (observed h i) fun x hm => hx' i x hm rfl
        exact this
      have h2 : ((observed h i).length : ℝ) ≤ (((observed h i).sum : ℕ) : ℝ) := by exact_mod_cast this
      simp only [geometric_beta, if_true]; linarith

end Beta

/-! ## Gamma priors -/

theorem joint_gamma {X : Type} (lib : FrozenSamplers ι) (hlib : CorrectFrozen lib P) {prior : Fin k → Gamma ℝ}
    {post : Fin k → Gamma ℝ} (hpa : ∀ i, 0 < (post i).alpha) (hpb : ∀ i, 0 < (post i).beta) {f : Fin k → ℝ → X → ℝ}
    {h : List (Fin k × X)} (each : ∀ i, IsPosterior volume (Ioi 0) (prior i).dist.pdf
      (likelihood (f i) (observed h i)) (post i).dist.pdf) (size : ℕ) :
    JointlyRight P (Ioi 0) (fun i => (prior i).dist.pdf) (groupLikelihood f h) (fun i => (post i).dist.pdf) size
      (rvsRows lib (fun i => lib.cont (post i).dist) size) :=
  jointly_right lib hlib measurableSet_Ioi (post := fun i => (post i).dist) each (fun i => gamma_lawOn _ (hpb i))
    (fun _ => measurable_pdf (measurable_std_gamma _) _ _) (fun i => Gamma.isDensity _ (hpa i) (hpb i)) size

section Gamma

variable (lib : FrozenSamplers ι) (hlib : CorrectFrozen lib P) (prior : Fin k → Gamma ℝ)
  (ha : ∀ i, 0 < (prior i).alpha) (hb : ∀ i, 0 < (prior i).beta) (size : ℕ)
include hlib ha hb

/-- C105. Poisson counts. -/
theorem C105_poisson_gamma (h : List (Fin k × ℕ)) :
    let post := fun i => poisson_gamma (((observed h i).sum : ℕ) : ℝ) ((observed h i).length : ℝ) (prior i)
    JointlyRight P (Ioi 0) (fun i => (prior i).dist.pdf)
      (groupLikelihood (fun _ l (x : ℕ) => (Poisson.dist { lam := l }).pmf x) h)
      (fun i => (post i).dist.pdf) size (rvsRows lib (fun i => lib.cont (post i).dist) size) := by
  intro post
  refine joint_gamma lib hlib (fun i => ?_) (fun i => ?_)
    (fun i => C05_poisson_gamma_posterior (prior i) (ha i) (hb i) (observed h i)) size
  · have := ha i
    simp only [poisson_gamma, getPoissonGammaPosteriorParams]; positivity
  · have := hb i
    simp only [poisson_gamma, getPoissonGammaPosteriorParams]; positivity

/-- C105. Gamma observations; each group has its own known shape. -/
theorem C105_gamma_known_shape (shape : Fin k → ℝ) (hk : ∀ i, 0 < shape i) (h : List (Fin k × ℝ))
    (hx : ∀ p ∈ h, 0 < p.2) :
    let post := fun i => gamma_known_shape (observed h i).sum ((observed h i).length : ℝ) (shape i) (prior i)
    JointlyRight P (Ioi 0) (fun i => (prior i).dist.pdf)
      (groupLikelihood (fun i r x => (Gamma.dist { alpha := shape i, beta := r }).pdf x) h)
      (fun i => (post i).dist.pdf) size (rvsRows lib (fun i => lib.cont (post i).dist) size) := by
  intro post
  have hx' := fun i => observed_mem (ok := fun _ x => 0 < x) hx i
  refine joint_gamma lib hlib (fun i => ?_) (fun i => ?_)
    (fun i => C07_gamma_known_shape_posterior (prior i) (ha i) (hb i) (shape i) (hk i) (observed h i) (hx' i)) size
  · have := ha i; have := hk i
    simp only [gamma_known_shape]; positivity
  · have := hb i
    have h2 : 0 ≤ (observed h i).sum := List.sum_nonneg fun x hm => (hx' i x hm).le
    simp only [gamma_known_shape]; positivity

/-- C105. Inverse gamma observations; each group has its own known shape. -/
theorem C105_inverse_gamma_known_rate (shape : Fin k → ℝ) (hk : ∀ i, 0 < shape i) (h : List (Fin k × ℝ))
    (hx : ∀ p ∈ h, 0 < p.2) :
    let post := fun i => inverse_gamma_known_rate ((observed h i).map fun x => 1 / x).sum ((observed h i).length : ℝ)
      (shape i) (prior i)
    JointlyRight P (Ioi 0) (fun i => (prior i).dist.pdf)
      (groupLikelihood (fun i s x => (InverseGamma.dist { alpha := shape i, beta := s }).pdf x) h)
      (fun i => (post i).dist.pdf) size (rvsRows lib (fun i => lib.cont (post i).dist) size) := by
  intro post
  have hx' := fun i => observed_mem (ok := fun _ x => 0 < x) hx i
  refine joint_gamma lib hlib (fun i => ?_) (fun i => ?_)
    (fun i => C08_inverse_gamma_known_rate_posterior (prior i) (ha i) (hb i) (shape i) (hk i) (observed h i) (hx' i)) size
  · have := ha i; have := hk i
    simp only [inverse_gamma_known_rate]; positivity
  · have := hb i
    have h2 : 0 ≤ ((observed h i).map fun x => 1 / x).sum := List.sum_nonneg fun y hm => by
      obtain ⟨x, hxm, rfl⟩ := List.mem_map.1 hm
      have := hx' i x hxm
      positivity
    simp only [inverse_gamma_known_rate]; positivity

/-- C105. Pareto observations; each group has its own known minimum. -/
theorem C105_pareto_gamma (x_m : Fin k → ℝ) (hm : ∀ i, 0 < x_m i) (h : List (Fin k × ℝ))
    (hx : ∀ p ∈ h, x_m p.1 ≤ p.2) :
    let post := fun i => pareto_gamma ((observed h i).length : ℝ) ((observed h i).map Real.log).sum (x_m i) (prior i) Real.log
    JointlyRight P (Ioi 0) (fun i => (prior i).dist.pdf)
      (groupLikelihood (fun i a x => (Pareto.dist { x_m := x_m i, alpha := a }).pdf x) h)
      (fun i => (post i).dist.pdf) size (rvsRows lib (fun i => lib.cont (post i).dist) size) := by
  intro post
  have hx' := fun i => observed_mem (ok := fun i x => x_m i ≤ x) hx i
  refine joint_gamma lib hlib (fun i => ?_) (fun i => ?_)
    (fun i => C09_pareto_gamma_posterior (prior i) (ha i) (hb i) (x_m i) (hm i) (observed h i) (hx' i)) size
  · have := ha i
    simp only [pareto_gamma]; positivity
  · have := hb i
    have h2 : ((observed h i).length : ℝ) * Real.log (x_m i) ≤ ((observed h i).map Real.log).sum := by
      have : ∀ l : List ℝ, (∀ x ∈ l, x_m i ≤ x) → (l.length : ℝ) * Real.log (x_m i) ≤ (l.map Real.log).sum := by
        intro l hl
        induction l with
        | nil => simp
        | cons y l ih =>
          have h1 := Real.log_le_log (hm i) (hl y (by simp))
          have h2 := ih fun x hx => hl x (by simp [hx])
          simp only [List.length_cons, Nat.cast_add, Nat.cast_one, List.map_cons, List.sum_cons]
          linarith
      exact this _ (hx' i)
    simp only [pareto_gamma]; linarith

end Gamma

/-! ## Other priors -/

/-- C105. Uniform observations; every group has been observed. -/
theorem C105_uniform_pareto (lib : FrozenSamplers ι) (hlib : CorrectFrozen lib P) (prior : Fin k → Pareto ℝ)
    (hm : ∀ i, 0 < (prior i).x_m) (ha : ∀ i, 0 < (prior i).alpha) (size : ℕ) (h : List (Fin k × ℝ))
    (hx : ∀ p ∈ h, 0 < p.2) (x_max : Fin k → ℝ) (hmem : ∀ i, x_max i ∈ observed h i)
    (hmax : ∀ i, ∀ x ∈ observed h i, x ≤ x_max i) :
    let post := fun i => uniform_pareto (x_max i) ((observed h i).length : ℝ) (prior i) max
    JointlyRight P (Ioi 0) (fun i => (prior i).dist.pdf)
      (groupLikelihood (fun _ θ x => (Uniform.dist { low := 0, high := θ }).pdf x) h)
      (fun i => (post i).dist.pdf) size (rvsRows lib (fun i => lib.cont (post i).dist) size) := by
  intro post
  have hx' := fun i => observed_mem (ok := fun _ x => 0 < x) hx i
  have h1 : ∀ i, 0 < (post i).x_m := fun i => by
    have := hm i
    simp only [post, uniform_pareto]; positivity
  have h2 : ∀ i, 0 < (post i).alpha := fun i => by
    have := ha i
    simp only [post, uniform_pareto]; positivity
  exact jointly_right lib hlib measurableSet_Ioi (post := fun i => (post i).dist)
    (fun i => C10_uniform_pareto_posterior (prior i) (hm i) (ha i) (observed h i) (hx' i) (x_max i) (hmem i) (hmax i))
    (fun i => pareto_lawOn _ (h1 i))
    (fun i => measurable_pdf (F := .pareto (post i).alpha)
      (measurable_std_pareto.comp (measurable_const.prodMk measurable_id)) _ _)
    (fun i => Pareto.isDensity _ (h1 i) (h2 i)) size

/-- C105. Weibull observations; each group has its own known shape. -/
theorem C105_weibull_inverse_gamma (lib : FrozenSamplers ι) (hlib : CorrectFrozen lib P) (prior : Fin k → InverseGamma ℝ)
    (ha : ∀ i, 0 < (prior i).alpha) (hb : ∀ i, 0 < (prior i).beta) (size : ℕ) (shape : Fin k → ℝ)
    (hk : ∀ i, 0 < shape i) (h : List (Fin k × ℝ)) (hx : ∀ p ∈ h, 0 < p.2) :
    let post := fun i => weibull_inverse_gamma_known_shape ((observed h i).length : ℝ)
      ((observed h i).map fun x => x ^ shape i).sum (prior i)
    JointlyRight P (Ioi 0) (fun i => (prior i).dist.pdf)
      (groupLikelihood (fun i θ x => (Weibull.dist { beta := shape i, theta := θ }).pdf x) h)
      (fun i => (post i).dist.pdf) size (rvsRows lib (fun i => lib.cont (post i).dist) size) := by
  intro post
  have hx' := fun i => observed_mem (ok := fun _ x => 0 < x) hx i
  have h1 : ∀ i, 0 < (post i).alpha := fun i => by
    have := ha i
    simp only [post, weibull_inverse_gamma_known_shape]; positivity
  have h2 : ∀ i, 0 < (post i).beta := fun i => by
    have := hb i
    have h2 : 0 ≤ ((observed h i).map fun x => x ^ shape i).sum := List.sum_nonneg fun y hm => by
      obtain ⟨x, hxm, rfl⟩ := List.mem_map.1 hm
      exact rpow_nonneg (hx' i x hxm).le _
    simp only [post, weibull_inverse_gamma_known_shape]; positivity
  exact jointly_right lib hlib measurableSet_Ioi (post := fun i => (post i).dist)
    (fun i => C11_weibull_posterior (prior i) (ha i) (hb i) (shape i) (hk i) (observed h i) (hx' i))
    (fun i => invgamma_lawOn _ (h2 i)) (fun _ => measurable_pdf (measurable_std_invgamma _) _ _)
    (fun i => InverseGamma.isDensity _ (h1 i) (h2 i)) size

/-- C105. Normal observations; each group has its own known variance. -/
theorem C105_normal_known_variance (lib : FrozenSamplers ι) (hlib : CorrectFrozen lib P) (prior : Fin k → Normal ℝ)
    (hs : ∀ i, 0 < (prior i).sigma) (size : ℕ) (var : Fin k → ℝ) (hv : ∀ i, 0 < var i) (h : List (Fin k × ℝ)) :
    let post := fun i => normal_known_variance (observed h i).sum ((observed h i).length : ℝ) (var i) (prior i)
    JointlyRight P univ (fun i => (prior i).dist.pdf)
      (groupLikelihood (fun i m x => (Normal.dist { mu := m, sigma := √(var i) }).pdf x) h)
      (fun i => (post i).dist.pdf) size (rvsRows lib (fun i => lib.cont (post i).dist) size) := by
  intro post
  have h1 : ∀ i, 0 < (post i).sigma := fun i => by
    have := hs i; have := hv i
    simp only [post, normal_known_variance, powq_two, powq_half, lit_real, Rat.cast_one]
    exact Real.sqrt_pos.2 (by positivity)
  exact jointly_right lib hlib MeasurableSet.univ (post := fun i => (post i).dist)
    (fun i => C12_normal_known_variance_posterior (prior i) (hs i) (var i) (hv i) (observed h i))
    (fun i => norm_lawOn _) (fun _ => measurable_pdf measurable_std_norm _ _)
    (fun i => Normal.isDensity _ (h1 i)) size

/-- C105. Normal observations; each group has its own known precision. -/
theorem C105_normal_known_precision (lib : FrozenSamplers ι) (hlib : CorrectFrozen lib P) (prior : Fin k → Normal ℝ)
    (hs : ∀ i, 0 < (prior i).sigma) (size : ℕ) (precision : Fin k → ℝ) (hv : ∀ i, 0 < precision i) (h : List (Fin k × ℝ)) :
    let post := fun i => normal_known_precision (observed h i).sum ((observed h i).length : ℝ) (precision i) (prior i)
    JointlyRight P univ (fun i => (prior i).dist.pdf)
      (groupLikelihood (fun i m x => (Normal.dist { mu := m, sigma := √(1 / precision i) }).pdf x) h)
      (fun i => (post i).dist.pdf) size (rvsRows lib (fun i => lib.cont (post i).dist) size) := by
  have h1 := C105_normal_known_variance lib hlib prior hs size (fun i => 1 / precision i)
    (fun i => one_div_pos.2 (hv i)) h
  simpa only [normal_known_precision, lit_real, Rat.cast_one] using h1

/-- C105. Normal observations; each group has its own known mean. -/
theorem C105_normal_known_mean (lib : FrozenSamplers ι) (hlib : CorrectFrozen lib P) (prior : Fin k → VariancePrior ℝ)
    (hp : ∀ i, (prior i).Valid) (size : ℕ) (mu : Fin k → ℝ) (h : List (Fin k × ℝ)) :
    let post := fun i => normal_known_mean (observed h i).sum ((observed h i).map (· ^ 2)).sum
      ((observed h i).length : ℝ) (mu i) (prior i)
    JointlyRight P (Ioi 0) (fun i => (prior i).frozen.pdf)
      (groupLikelihood (fun i v x => (Normal.dist { mu := mu i, sigma := √v }).pdf x) h)
      (fun i => (post i).frozen.pdf) size (rvsRows lib (fun i => lib.cont (post i).frozen) size) := by
  intro post
  have hv : ∀ i, (post i).Valid := fun i => normal_known_mean_valid (prior i) (hp i) (mu i) (observed h i)
  have e1 := fun i => VariancePrior.frozen_lawOn _ (hp i)
  have e2 := fun i => VariancePrior.frozen_lawOn _ (hv i)
  refine jointly_right lib hlib measurableSet_Ioi (post := fun i => (post i).frozen) (fun i => ?_)
    (fun i => by rw [(e2 i).2.1]; exact (e2 i).1) (fun i => by rw [(e2 i).2.1]; exact (e2 i).2.2)
    (fun i => by rw [(e2 i).2.1]; exact VariancePrior.isDensity _ (hv i)) size
  rw [(e1 i).2.1, (e2 i).2.1]
  exact C13_normal_known_mean_posterior (prior i) (hp i) (mu i) (observed h i)

/-! ## Comparing groups -/

section Compare

omit [IsProbabilityMeasure P]

variable {S : Set ℝ} {prior post : Fin k → ℝ → ℝ} {lik : (Fin k → ℝ) → ℝ} {size : ℕ}
  {rows : RandomState → World → List (Fin k → ℝ) × World}

/-- C105. The bar chart of `scripts/post-engagement.py:94-95`: the share of rows in which group `i` is the greatest is
close to the posterior probability that it is the best group. -/
theorem C105_most_engaged (hj : JointlyRight P S prior lik post size rows) (h0 : 0 < size) (i : Fin k) :
    FreshStream rows fun f => CloseTo P size (fun s => (mostEngaged (f s) i).getD 0)
      (posteriorProb (box k S) (fun θ => ∏ i, prior i (θ i)) lik (IsBest i)) := by
  have h := hj.answers (argmaxSet i) (measurableSet_argmaxSet i) h0
  simpa only [mostEngaged_eq, ← posteriorProb_best] using h

/-- C105. The histogram of `scripts/post-engagement.py:81-82`: the share of differences up to `t` is close to the
posterior probability that the unknowns of the two groups differ by at most that. -/
theorem C105_difference (hj : JointlyRight P S prior lik post size rows) (h0 : 0 < size) (i j : Fin k) (t : ℝ) :
    FreshStream rows fun f => CloseTo P size (fun s => share (Iic t) (difference (f s) i j))
      (posteriorProb (box k S) (fun θ => ∏ i, prior i (θ i)) lik {θ | θ i - θ j ≤ t}) := by
  have hB : MeasurableSet {θ : Fin k → ℝ | θ i - θ j ≤ t} :=
    measurableSet_le ((measurable_pi_apply i).sub (measurable_pi_apply j)) measurable_const
  have h := hj.answers _ hB h0
  have e : ∀ l : List (Fin k → ℝ), share (Iic t) (difference l i j) = share {θ | θ i - θ j ≤ t} l := by
    intro l
    simp only [share, difference, List.countP_map, List.length_map]
    congr 2
  simpa only [e] using h

/-- C105. One group is the best: the probabilities of being the best add up to one. -/
theorem C105_best_total (hS : MeasurableSet S) (hj : JointlyRight P S prior lik post size rows) (hk : 0 < k) :
    ∑ i, posteriorProb (box k S) (fun θ => ∏ i, prior i (θ i)) lik (IsBest i) = 1 := by
  have hpos := hj.posterior.1
  have hint : IntegrableOn (fun θ : Fin k → ℝ => (∏ i, prior i (θ i)) * lik θ) (box k S) := by
    by_contra hn
    rw [integral_undef hn] at hpos
    exact lt_irrefl _ hpos
  have hbox : MeasurableSet (box k S) := MeasurableSet.univ_pi fun _ => hS
  rw [Finset.sum_congr rfl fun i _ => (posteriorProb_best _ _ _ i).symm]
  simp only [posteriorProb]
  rw [← Finset.sum_div, div_eq_one_iff_eq hpos.ne', ← integral_iUnion_fintype (fun i => hbox.inter (measurableSet_argmaxSet i))]
  · congr 2
    rw [← inter_iUnion]
    refine inter_eq_left.2 fun θ _ => ?_
    have hne : List.ofFn θ ≠ [] := by
      intro e
      have e' := congrArg List.length e
      simp only [List.length_ofFn, List.length_nil] at e'
      omega
    obtain ⟨m, hm, hs⟩ := argmax_spec (List.ofFn θ) hne
    exact mem_iUnion.2 ⟨⟨m, by simpa using hs.1⟩, hm⟩
  · intro i j hij
    refine disjoint_left.2 fun θ h1 h2 => hij (Fin.ext ?_)
    exact Except.ok.inj (h1.2.symm.trans h2.2)
  · exact fun i => hint.mono_set inter_subset_left

end Compare

/-! ## Exponential waiting times -/

theorem exponential_gamma_valid (prior : Gamma ℝ) (ha : 0 < prior.alpha) (hb : 0 < prior.beta) {xs : List ℝ}
    (hx : ∀ x ∈ xs, 0 < x) :
    0 < (exponential_gamma xs.sum (xs.length : ℝ) prior).alpha ∧ 0 < (exponential_gamma xs.sum (xs.length : ℝ) prior).beta := by
  have h2 : 0 ≤ xs.sum := List.sum_nonneg fun x hm => (hx x hm).le
  constructor <;> simp only [exponential_gamma, getExponentialGammaPosteriorParams, getPoissonGammaPosteriorParams] <;>
    positivity

theorem exponential_likelihood_nonneg {xs : List ℝ} (hx : ∀ x ∈ xs, 0 < x) {m : ℝ → ℝ} {t : ℝ} (hm : 0 < m t) :
    0 ≤ likelihood (fun t x => (Exponential.dist { lam := m t }).pdf x) xs t := by
  refine List.prod_nonneg fun y hy => ?_
  obtain ⟨x, hxm, rfl⟩ := List.mem_map.1 hy
  beta_reduce
  rw [Exponential.pdf_eq (m t) hm (hx x hxm).le]
  positivity

/-- C105 (disagreement). The groups of `docs/examples/thompson.md`, the unknowns being rates: the returned entries are
together the posterior exactly when in every group the sum of the waiting times is their number. -/
theorem C105_exponential_gamma_rate_iff (prior : Fin k → Gamma ℝ) (ha : ∀ i, 0 < (prior i).alpha)
    (hb : ∀ i, 0 < (prior i).beta) (h : List (Fin k × ℝ)) (hx : ∀ p ∈ h, 0 < p.2) :
    IsPosterior volume (box k (Ioi 0)) (fun θ => ∏ i, (prior i).dist.pdf (θ i))
      (groupLikelihood (fun _ r x => (Exponential.dist { lam := 1 / r }).pdf x) h)
      (fun θ => ∏ i, (exponential_gamma (observed h i).sum ((observed h i).length : ℝ) (prior i)).dist.pdf (θ i)) ↔
    ∀ i, (observed h i).sum = ((observed h i).length : ℝ) := by
  have hx' := fun i => observed_mem (ok := fun _ x => 0 < x) hx i
  have hv := fun i => exponential_gamma_valid (prior i) (ha i) (hb i) (hx' i)
  have e := funext fun θ => groupLikelihood_eq (fun _ r x => (Exponential.dist { lam := 1 / r }).pdf x) h θ
  rw [e]
  constructor
  · intro hj i
    refine (C06_exponential_gamma_rate_iff (prior i) (ha i) (hb i) _ (hx' i)).1 ?_
    refine joint_posterior_each (post := fun i t => (exponential_gamma (observed h i).sum ((observed h i).length : ℝ)
      (prior i)).dist.pdf t) measurableSet_Ioi (fun i => Gamma.isDensity _ (hv i).1 (hv i).2) (fun i t ht => ?_) hj i
    exact mul_nonneg ((Gamma.isDensity _ (ha i) (hb i)).1 t ht)
      (exponential_likelihood_nonneg (hx' i) (m := fun t => 1 / t) (one_div_pos.2 ht))
  · intro hj
    exact joint_posterior fun i => (C06_exponential_gamma_rate_iff (prior i) (ha i) (hb i) _ (hx' i)).2 (hj i)

/-- C105 (disagreement). The same with the unknowns the means, as in `Exponential.dist`: never, after any observation. -/
theorem C105_exponential_gamma_mean_false (prior : Fin k → Gamma ℝ) (ha : ∀ i, 0 < (prior i).alpha)
    (hb : ∀ i, 0 < (prior i).beta) (h : List (Fin k × ℝ)) (hne : h ≠ []) (hx : ∀ p ∈ h, 0 < p.2) :
    ¬ IsPosterior volume (box k (Ioi 0)) (fun θ => ∏ i, (prior i).dist.pdf (θ i))
      (groupLikelihood (fun _ m x => (Exponential.dist { lam := m }).pdf x) h)
      (fun θ => ∏ i, (exponential_gamma (observed h i).sum ((observed h i).length : ℝ) (prior i)).dist.pdf (θ i)) := by
  have hx' := fun i => observed_mem (ok := fun _ x => 0 < x) hx i
  have hv := fun i => exponential_gamma_valid (prior i) (ha i) (hb i) (hx' i)
  have e := funext fun θ => groupLikelihood_eq (fun _ m x => (Exponential.dist { lam := m }).pdf x) h θ
  rw [e]
  intro hj
  obtain ⟨p, hp⟩ := List.exists_mem_of_ne_nil h hne
  refine C06_exponential_gamma_mean_false (prior p.1) (ha _) (hb _) (observed h p.1) ?_ (hx' _) ?_
  · refine List.ne_nil_of_mem (a := p.2) ?_
    simp only [observed, List.mem_map, List.mem_filter, decide_eq_true_eq]
    exact ⟨p, ⟨hp, rfl⟩, rfl⟩
  · refine joint_posterior_each (post := fun i t => (exponential_gamma (observed h i).sum ((observed h i).length : ℝ)
      (prior i)).dist.pdf t) measurableSet_Ioi (fun i => Gamma.isDensity _ (hv i).1 (hv i).2) (fun i t ht => ?_) hj p.1
    exact mul_nonneg ((Gamma.isDensity _ (ha i) (hb i)).1 t ht)
      (exponential_likelihood_nonneg (hx' i) (m := fun t => t) ht)

/-- C105 (disagreement). `scripts/post-engagement.py:56` calls `binomial_beta(n=…, x=…, beta_prior=prior)`: whatever the
data and the prior, that is a `ValueError`, so the script as it stands computes nothing. -/
theorem C105_script_call (n x prior : PyVal) (body : (String → Option PyVal) → Except PyErr PyVal) :
    binomial_beta_sig.invoke PyVal.typeOf body [] [("n", n), ("x", x), ("beta_prior", prior)] =
      .error (.valueError "Expected prior to be of type 'Beta', got 'NoneType' instead.") := by
  rfl

/-! ## The script's data -/

/-- the posts of `scripts/post-engagement.py:19-38`: impressions with reactions -/
def posts : List (Fin 4 × ℕ × ℕ) := [(0, 1769, 43), (1, 1585, 22), (2, 3803, 40), (3, 6415, 81)]

/-- the script's prior and sample size, with a sampler that satisfies the contract -/
example : ∃ lib : FrozenSamplers (Fin 1),
    let post := fun i => binomial_beta ((((observed posts i).map Prod.fst).sum : ℕ) : ℝ)
      ((((observed posts i).map Prod.snd).sum : ℕ) : ℝ) (Beta.from_mean (173 / 10000) 1)
    JointlyRight streamLaw (Ioo 0 1) (fun _ => (Beta.from_mean (173 / 10000 : ℝ) 1).dist.pdf)
      (groupLikelihood (fun _ p (e : ℕ × ℕ) => (Binomial.dist { n := e.1, p := p }).pmf e.2) posts)
      (fun i => (post i).dist.pdf) 5000 (rvsRows lib (fun i => lib.cont (post i).dist) 5000) := by
  obtain ⟨lib, h⟩ := exists_frozen 1
  refine ⟨lib, C105_binomial_beta lib h (fun _ => Beta.from_mean (173 / 10000) 1) (fun _ => ?_) (fun _ => ?_) 5000 posts ?_⟩
  · simp [Beta.from_mean]
  · simp only [Beta.from_mean, getBetaParamFromMeanAndAlpha, lit_real]; norm_num
  · intro p hp
    simp only [posts, List.mem_cons, List.not_mem_nil, or_false] at hp
    rcases hp with rfl | rfl | rfl | rfl <;> norm_num

section Examples

variable (lib : FrozenSamplers ι) (hlib : CorrectFrozen lib P)

example := C105_negative_binomial_beta lib hlib (fun _ : Fin 2 => ⟨1, 1⟩) (fun _ => one_pos) (fun _ => one_pos) 100
  (fun i => i.val + 1) (fun i => by positivity) [(0, 3), (1, 0), (0, 2)]
example := C105_geometric_beta lib hlib (fun _ : Fin 2 => ⟨1, 1⟩) (fun _ => one_pos) (fun _ => one_pos) 100 true
  [(0, 3), (1, 1), (0, 2)] (by simp)
example := C105_poisson_gamma lib hlib (fun _ : Fin 2 => ⟨1, 1⟩) (fun _ => one_pos) (fun _ => one_pos) 100
  [(0, 3), (1, 1), (0, 2)]
example := C105_gamma_known_shape lib hlib (fun _ : Fin 2 => ⟨1, 1⟩) (fun _ => one_pos) (fun _ => one_pos) 100
  (fun _ => 2) (fun _ => two_pos) [(0, 3), (1, 1), (0, 2)] (by simp)
example := C105_inverse_gamma_known_rate lib hlib (fun _ : Fin 2 => ⟨1, 1⟩) (fun _ => one_pos) (fun _ => one_pos) 100
  (fun _ => 2) (fun _ => two_pos) [(0, 3), (1, 1), (0, 2)] (by simp)
example := C105_pareto_gamma lib hlib (fun _ : Fin 2 => ⟨1, 1⟩) (fun _ => one_pos) (fun _ => one_pos) 100
  (fun _ => 1) (fun _ => one_pos) [(0, 3), (1, 1), (0, 2)] (by simp)
example := C105_uniform_pareto lib hlib (fun _ : Fin 2 => ⟨1, 1⟩) (fun _ => one_pos) (fun _ => one_pos) 100
  [(0, 3), (1, 1), (0, 2)] (by simp) ![3, 1] (by intro i; fin_cases i <;> simp [observed])
  (by intro i; fin_cases i <;> simp [observed]; norm_num)
example := C105_weibull_inverse_gamma lib hlib (fun _ : Fin 2 => ⟨1, 1⟩) (fun _ => one_pos) (fun _ => one_pos) 100
  (fun _ => 2) (fun _ => two_pos) [(0, 3), (1, 1), (0, 2)] (by simp)
example := C105_normal_known_variance lib hlib (fun _ : Fin 2 => ⟨0, 1⟩) (fun _ => one_pos) 100
  (fun _ => 2) (fun _ => two_pos) [(0, 3), (1, -1), (0, 2)]
example := C105_normal_known_precision lib hlib (fun _ : Fin 2 => ⟨0, 1⟩) (fun _ => one_pos) 100
  (fun _ => 2) (fun _ => two_pos) [(0, 3), (1, -1), (0, 2)]
example := C105_normal_known_mean lib hlib (fun _ : Fin 2 => .inverseGamma ⟨1, 1⟩) (fun _ => ⟨one_pos, one_pos⟩) 100
  (fun _ => 2) [(0, 3), (1, -1), (0, 2)]

/-- the chart and the histogram for two groups, and the total -/
example (i j : Fin 2) (t : ℝ) :=
  let hj := C105_poisson_gamma lib hlib (fun _ : Fin 2 => ⟨1, 1⟩) (fun _ => one_pos) (fun _ => one_pos) 100
    [(0, 3), (1, 1), (0, 2)]
  (⟨C105_most_engaged hj (by norm_num) i, C105_difference hj (by norm_num) i j t,
    C105_best_total measurableSet_Ioi hj (by norm_num)⟩ : _ ∧ _ ∧ _)

/-- two groups whose sums are not their numbers of waiting times -/
example : ¬ IsPosterior volume (box 2 (Ioi 0)) (fun θ => ∏ i, (Gamma.dist ⟨1, 1⟩).pdf (θ i))
    (groupLikelihood (fun _ r x => (Exponential.dist { lam := 1 / r }).pdf x) [(0, 3), (1, 1), (0, 2)])
    (fun θ => ∏ i, (exponential_gamma (observed [((0 : Fin 2), (3 : ℝ)), (1, 1), (0, 2)] i).sum
      ((observed [((0 : Fin 2), (3 : ℝ)), (1, 1), (0, 2)] i).length : ℝ) ⟨1, 1⟩).dist.pdf (θ i)) := by
  rw [C105_exponential_gamma_rate_iff (fun _ => ⟨1, 1⟩) (fun _ => one_pos) (fun _ => one_pos) _ (by simp)]
  intro h
  have := h 0
  norm_num [observed] at this
example := C105_exponential_gamma_mean_false (fun _ : Fin 2 => ⟨1, 1⟩) (fun _ => one_pos) (fun _ => one_pos)
  [(0, 3), (1, 1), (0, 2)] (by simp) (by simp)

end Examples

end Conj
