import Verif.Lemmas.Steps
import Verif.Props.Sequential

/-!
# Bayes' rule for the scalar models (C01 - C05, C07 - C11)

Each theorem takes raw observations, forms the sufficient statistics named in the
function's docstring, calls the model function, and compares the density of the returned
object's `.dist` with Bayes' rule (`Spec.IsPosterior`).
-/

open MeasureTheory Set Real

namespace Conj

open Scipy Spec

/-! ## C01 -/

/-- C01. One binomial experiment. -/
theorem C01_binomial_beta_posterior (prior : Beta ℝ) (ha : 0 < prior.alpha) (hb : 0 < prior.beta)
    (n x : ℕ) (hx : x ≤ n) :
    IsPosterior volume (Ioo 0 1) prior.dist.pdf
      (fun p => (Binomial.dist { n := n, p := p }).pmf x)
      (binomial_beta (n : ℝ) (x : ℝ) prior).dist.pdf := by
  have hnx : (0 : ℝ) ≤ n - x := sub_nonneg.2 (by exact_mod_cast hx)
  have hv : (binomial_beta (n : ℝ) (x : ℝ) prior).Valid :=
    ⟨by simp only [binomial_beta, getBinomialBetaPosteriorParams]; positivity,
     by simp only [binomial_beta, getBinomialBetaPosteriorParams]; positivity⟩
  obtain ⟨c, hc, h⟩ := beta_step prior (binomial_beta (n : ℝ) (x : ℝ) prior) ⟨ha, hb⟩ hv
    (C := (n.choose x : ℝ)) (u := x) (v := n - x)
    (by exact_mod_cast Nat.choose_pos hx)
    (f := fun p => (Binomial.dist { n := n, p := p }).pmf x)
    (fun p hp => by
      rw [Binomial.pmf_nat n x hx p, ← Nat.cast_sub hx, rpow_natCast, rpow_natCast]) rfl rfl
  exact IsPosterior.of_density measurableSet_Ioo (Beta.isDensity _ hv.1 hv.2) hc h

/-- C01, several experiments: `n` and `x` are the totals. -/
theorem C01_binomial_beta_posterior_list (prior : Beta ℝ) (ha : 0 < prior.alpha)
    (hb : 0 < prior.beta) (data : List (ℕ × ℕ)) (hx : ∀ e ∈ data, e.2 ≤ e.1) :
    IsPosterior volume (Ioo 0 1) prior.dist.pdf
      (likelihood (fun p (e : ℕ × ℕ) => (Binomial.dist { n := e.1, p := p }).pmf e.2) data)
      (binomial_beta (((data.map Prod.fst).sum : ℕ) : ℝ) (((data.map Prod.snd).sum : ℕ) : ℝ)
        prior).dist.pdf := by
  have hval : ∀ (d : Beta ℝ) (e : ℕ × ℕ), d.Valid → e.2 ≤ e.1 →
      (binomial_beta (e.1 : ℝ) (e.2 : ℝ) d).Valid := by
    intro d e hd he
    have hnx : (0 : ℝ) ≤ e.1 - e.2 := sub_nonneg.2 (by exact_mod_cast he)
    have h1 := hd.1; have h2 := hd.2
    exact ⟨by simp only [binomial_beta, getBinomialBetaPosteriorParams]; positivity,
      by simp only [binomial_beta, getBinomialBetaPosteriorParams]; positivity⟩
  refine posterior_of_steps measurableSet_Ioo (valid := Beta.Valid)
    (pdf := fun d : Beta ℝ => d.dist.pdf)
    (step := fun d e => binomial_beta (e.1 : ℝ) (e.2 : ℝ) d)
    (fun d hd => Beta.isDensity d hd.1 hd.2) hval ?_ data hx prior ⟨ha, hb⟩ ?_
  · intro d e hd he
    refine beta_step d _ hd (hval d e hd he) (C := (e.1.choose e.2 : ℝ)) (u := e.2)
      (v := e.1 - e.2) (by exact_mod_cast Nat.choose_pos he) (fun p hp => ?_) rfl rfl
    rw [Binomial.pmf_nat _ _ he p, ← Nat.cast_sub he, rpow_natCast, rpow_natCast]
  · have h := C37_binomial_beta (data.map fun e => ((e.1 : ℝ), (e.2 : ℝ))) prior
    rw [List.foldl_map] at h
    rw [h, List.map_map, List.map_map, Nat.cast_list_sum, Nat.cast_list_sum, List.map_map,
      List.map_map]
    rfl

/-- hypotheses of C01 are met: 10 trials, 4 successes, Beta(2, 3) prior -/
example := C01_binomial_beta_posterior ⟨2, 3⟩ (by norm_num) (by norm_num) 10 4 (by norm_num)
example := C01_binomial_beta_posterior_list ⟨2, 3⟩ (by norm_num) (by norm_num) [(10, 4), (3, 0)]
  (by simp)

/-! ## C02 -/

/-- C02. Outcomes `true` / `false` (1 / 0) fed one at a time through `bernoulli_beta`. -/
theorem C02_bernoulli_beta_posterior (prior : Beta ℝ) (ha : 0 < prior.alpha)
    (hb : 0 < prior.beta) (flips : List Bool) :
    IsPosterior volume (Ioo 0 1) prior.dist.pdf
      (likelihood (fun p (x : Bool) => if x then p else 1 - p) flips)
      (flips.foldl (fun d x => bernoulli_beta (if x then 1 else 0 : ℝ) d) prior).dist.pdf := by
  have hval : ∀ (d : Beta ℝ) (x : Bool), d.Valid → True →
      (bernoulli_beta (if x then 1 else 0 : ℝ) d).Valid := by
    intro d x hd _
    have h1 := hd.1; have h2 := hd.2
    cases x <;> simp [Beta.Valid, bernoulli_beta, binomial_beta, getBinomialBetaPosteriorParams,
      h1, h2] <;> positivity
  refine posterior_of_steps measurableSet_Ioo (valid := Beta.Valid) (ok := fun _ => True)
    (pdf := fun d : Beta ℝ => d.dist.pdf)
    (fun d hd => Beta.isDensity d hd.1 hd.2) hval ?_ flips (by simp) prior ⟨ha, hb⟩ rfl
  intro d x hd _
  refine beta_step d _ hd (hval d x hd trivial) (C := 1) (u := if x then 1 else 0)
    (v := if x then 0 else 1) one_pos (fun p hp => ?_) ?_ ?_
  · cases x <;> simp
  · cases x <;> simp [bernoulli_beta, binomial_beta, getBinomialBetaPosteriorParams]
  · cases x <;> simp [bernoulli_beta, binomial_beta, getBinomialBetaPosteriorParams]

/-- C02. The same object as one `binomial_beta` call with the counts. -/
theorem C02_bernoulli_beta_eq_binomial_beta (prior : Beta ℝ) (flips : List Bool) :
    flips.foldl (fun d x => bernoulli_beta (if x then 1 else 0 : ℝ) d) prior =
      binomial_beta (flips.length : ℝ) (flips.count true : ℝ) prior := by
  have h := C37_bernoulli_beta (flips.map fun x => if x then (1 : ℝ) else 0) prior
  rw [List.foldl_map, List.length_map] at h
  rw [h]
  congr 1
  clear h
  induction flips with
  | nil => simp
  | cons x l ih => cases x <;> simp [ih, add_comm]

example := C02_bernoulli_beta_posterior ⟨1, 1⟩ (by norm_num) (by norm_num) [true, false, true]

/-! ## C03 -/

/-- C03. Counts `xs` of a NegativeBinomial(r, p) likelihood. -/
theorem C03_negative_binomial_beta_posterior (prior : Beta ℝ) (ha : 0 < prior.alpha)
    (hb : 0 < prior.beta) (r : ℝ) (hr : 0 < r) (xs : List ℕ) :
    IsPosterior volume (Ioo 0 1) prior.dist.pdf
      (likelihood (fun p (x : ℕ) => (NegativeBinomial.dist { n := r, p := p }).pmf x) xs)
      (negative_binomial_beta r (xs.length : ℝ) ((xs.sum : ℕ) : ℝ) prior).dist.pdf := by
  have hval : ∀ (d : Beta ℝ) (x : ℕ), d.Valid → True →
      (negative_binomial_beta r 1 (x : ℝ) d).Valid := by
    intro d x hd _
    have h1 := hd.1; have h2 := hd.2
    exact ⟨by simp only [negative_binomial_beta]; positivity,
      by simp only [negative_binomial_beta]; positivity⟩
  refine posterior_of_steps measurableSet_Ioo (valid := Beta.Valid) (ok := fun _ => True)
    (pdf := fun d : Beta ℝ => d.dist.pdf) (step := fun d (x : ℕ) => negative_binomial_beta r 1 (x : ℝ) d)
    (fun d hd => Beta.isDensity d hd.1 hd.2) hval ?_ xs (by simp) prior ⟨ha, hb⟩ ?_
  · intro d x hd _
    refine beta_step d _ hd (hval d x hd trivial) (C := choose (x + r - 1) x) (u := r) (v := x)
      (choose_add_sub_one_pos x hr) (fun p hp => ?_) ?_ ?_
    · rw [NegativeBinomial.pmf_nat, rpow_natCast]
    · simp [negative_binomial_beta]
    · simp [negative_binomial_beta]
  · have h := C37_negative_binomial_beta r (xs.map fun x : ℕ => ((1 : ℝ), (x : ℝ))) prior
    rw [List.foldl_map] at h
    rw [h, List.map_map, List.map_map, Nat.cast_list_sum]
    congr 1
    simp [Function.comp_def]

example := C03_negative_binomial_beta_posterior ⟨1, 1⟩ (by norm_num) (by norm_num) 3 (by norm_num)
  [4, 0, 7]

/-! ## C04 -/

/-- C04. Outcomes from 1 (`one_start = true`) or from 0 (`one_start = false`). -/
theorem C04_geometric_beta_posterior (prior : Beta ℝ) (ha : 0 < prior.alpha)
    (hb : 0 < prior.beta) (one_start : Bool) (xs : List ℕ)
    (hx : ∀ x ∈ xs, one_start = true → 1 ≤ x) :
    IsPosterior volume (Ioo 0 1) prior.dist.pdf
      (likelihood (fun p (x : ℕ) => (Geometric.dist { p := p, one_start := one_start }).pmf x) xs)
      (geometric_beta ((xs.sum : ℕ) : ℝ) (xs.length : ℝ) prior one_start).dist.pdf := by
  have hval : ∀ (d : Beta ℝ) (x : ℕ), d.Valid → (one_start = true → 1 ≤ x) →
      (geometric_beta (x : ℝ) 1 d one_start).Valid := by
    intro d x hd hx
    have h1 := hd.1; have h2 := hd.2
    cases one_start
    · exact ⟨by simp only [geometric_beta]; positivity, by simp [geometric_beta]; positivity⟩
    · have : (1 : ℝ) ≤ x := by exact_mod_cast hx rfl
      exact ⟨by simp only [geometric_beta]; positivity, by simp [geometric_beta]; linarith⟩
  refine posterior_of_steps measurableSet_Ioo (valid := Beta.Valid)
    (pdf := fun d : Beta ℝ => d.dist.pdf) (step := fun d (x : ℕ) => geometric_beta (x : ℝ) 1 d one_start)
    (fun d hd => Beta.isDensity d hd.1 hd.2) hval ?_ xs hx prior ⟨ha, hb⟩ ?_
  · intro d x hd hx
    refine beta_step d _ hd (hval d x hd hx) (C := 1) (u := 1)
      (v := if one_start then (x : ℝ) - 1 else x) one_pos (fun p hp => ?_) ?_ ?_
    · cases one_start
      · rw [Geometric.pmf_zero_start]
        simp [mul_comm]
      · rw [Geometric.pmf_one_start p x (hx rfl)]
        have : ((x : ℝ) - 1) = ((x - 1 : ℕ) : ℝ) := by push_cast [hx rfl]; ring
        simp only [if_true, rpow_one, one_mul, this, rpow_natCast]
        ring
    · simp [geometric_beta]
    · cases one_start <;> simp [geometric_beta]; ring
  · have h := C37_geometric_beta one_start (xs.map fun x : ℕ => ((x : ℝ), (1 : ℝ))) prior
    rw [List.foldl_map] at h
    rw [h, List.map_map, List.map_map, Nat.cast_list_sum]
    congr 1
    simp [Function.comp_def]

example := C04_geometric_beta_posterior ⟨1, 1⟩ (by norm_num) (by norm_num) true [3, 1, 1, 3, 2, 1]
  (by simp)
example := C04_geometric_beta_posterior ⟨1, 1⟩ (by norm_num) (by norm_num) false [0, 2]
  (by simp)

/-! ## C05 -/

/-- C05. Poisson counts. -/
theorem C05_poisson_gamma_posterior (prior : Gamma ℝ) (ha : 0 < prior.alpha)
    (hb : 0 < prior.beta) (xs : List ℕ) :
    IsPosterior volume (Ioi 0) prior.dist.pdf
      (likelihood (fun l (x : ℕ) => (Poisson.dist { lam := l }).pmf x) xs)
      (poisson_gamma ((xs.sum : ℕ) : ℝ) (xs.length : ℝ) prior).dist.pdf := by
  have hval : ∀ (d : Gamma ℝ) (x : ℕ), d.Valid → True → (poisson_gamma (x : ℝ) 1 d).Valid := by
    intro d x hd _
    have h1 := hd.1; have h2 := hd.2
    exact ⟨by simp only [poisson_gamma, getPoissonGammaPosteriorParams]; positivity,
      by simp only [poisson_gamma, getPoissonGammaPosteriorParams]; positivity⟩
  refine posterior_of_steps measurableSet_Ioi (valid := Gamma.Valid) (ok := fun _ => True)
    (pdf := fun d : Gamma ℝ => d.dist.pdf) (step := fun d (x : ℕ) => poisson_gamma (x : ℝ) 1 d)
    (fun d hd => Gamma.isDensity d hd.1 hd.2) hval ?_ xs (by simp) prior ⟨ha, hb⟩ ?_
  · intro d x hd _
    refine gamma_step d _ hd (hval d x hd trivial) (C := 1 / x.factorial) (u := x) (v := 1)
      (by positivity) (fun l hl => ?_) rfl rfl
    rw [Poisson.pmf_nat, rpow_natCast, one_mul]
    ring
  · have h := C37_poisson_gamma (xs.map fun x : ℕ => ((x : ℝ), (1 : ℝ))) prior
    rw [List.foldl_map] at h
    rw [h, List.map_map, List.map_map, Nat.cast_list_sum]
    congr 1
    simp [Function.comp_def]

example := C05_poisson_gamma_posterior ⟨1, 1⟩ (by norm_num) (by norm_num) [4, 0, 7]

/-! ## C07 -/

/-- C07. Gamma observations with known shape. -/
theorem C07_gamma_known_shape_posterior (prior : Gamma ℝ) (ha : 0 < prior.alpha)
    (hb : 0 < prior.beta) (shape : ℝ) (hk : 0 < shape) (xs : List ℝ) (hx : ∀ x ∈ xs, 0 < x) :
    IsPosterior volume (Ioi 0) prior.dist.pdf
      (likelihood (fun r x => (Gamma.dist { alpha := shape, beta := r }).pdf x) xs)
      (gamma_known_shape xs.sum (xs.length : ℝ) shape prior).dist.pdf := by
  have hval : ∀ (d : Gamma ℝ) (x : ℝ), d.Valid → 0 < x → (gamma_known_shape x 1 shape d).Valid := by
    intro d x hd hx
    have h1 := hd.1; have h2 := hd.2
    exact ⟨by simp only [gamma_known_shape]; positivity, by simp only [gamma_known_shape]; positivity⟩
  refine posterior_of_steps measurableSet_Ioi (valid := Gamma.Valid) (ok := fun x => 0 < x)
    (pdf := fun d : Gamma ℝ => d.dist.pdf) (step := fun d x => gamma_known_shape x 1 shape d)
    (fun d hd => Gamma.isDensity d hd.1 hd.2) hval ?_ xs hx prior ⟨ha, hb⟩ ?_
  · intro d x hd hx
    have hG := Real.Gamma_pos_of_pos hk
    refine gamma_step d _ hd (hval d x hd hx) (C := x ^ (shape - 1) / Real.Gamma shape)
      (u := shape) (v := x) (by positivity) (fun l hl => ?_) ?_ rfl
    · rw [Gamma.pdf_eq { alpha := shape, beta := l } hl hx]
      simp only
      rw [mul_comm x l]
      ring
    · simp [gamma_known_shape]
  · have h := C37_gamma_known_shape shape (xs.map fun x => (x, (1 : ℝ))) prior
    rw [List.foldl_map] at h
    rw [h, List.map_map, List.map_map]
    congr 1 <;> simp [Function.comp_def]

example := C07_gamma_known_shape_posterior ⟨1, 1⟩ (by norm_num) (by norm_num) 2 (by norm_num)
  [1 / 2, 3] (by simp)

/-! ## C08 -/

/-- C08. InverseGamma observations with known shape and unknown scale. -/
theorem C08_inverse_gamma_known_rate_posterior (prior : Gamma ℝ) (ha : 0 < prior.alpha)
    (hb : 0 < prior.beta) (shape : ℝ) (hk : 0 < shape) (xs : List ℝ) (hx : ∀ x ∈ xs, 0 < x) :
    IsPosterior volume (Ioi 0) prior.dist.pdf
      (likelihood (fun s x => (InverseGamma.dist { alpha := shape, beta := s }).pdf x) xs)
      (inverse_gamma_known_rate (xs.map fun x => 1 / x).sum (xs.length : ℝ) shape
        prior).dist.pdf := by
  have hval : ∀ (d : Gamma ℝ) (x : ℝ), d.Valid → 0 < x →
      (inverse_gamma_known_rate (1 / x) 1 shape d).Valid := by
    intro d x hd hx
    have h1 := hd.1; have h2 := hd.2
    exact ⟨by simp only [inverse_gamma_known_rate]; positivity,
      by simp only [inverse_gamma_known_rate]; positivity⟩
  refine posterior_of_steps measurableSet_Ioi (valid := Gamma.Valid) (ok := fun x => 0 < x)
    (pdf := fun d : Gamma ℝ => d.dist.pdf)
    (step := fun d x => inverse_gamma_known_rate (1 / x) 1 shape d)
    (fun d hd => Gamma.isDensity d hd.1 hd.2) hval ?_ xs hx prior ⟨ha, hb⟩ ?_
  · intro d x hd hx
    have hG := Real.Gamma_pos_of_pos hk
    refine gamma_step d _ hd (hval d x hd hx) (C := x ^ (-shape - 1) / Real.Gamma shape)
      (u := shape) (v := 1 / x) (by positivity) (fun l hl => ?_) ?_ rfl
    · rw [InverseGamma.pdf_eq { alpha := shape, beta := l } hl hx]
      simp only
      rw [show 1 / x * l = l / x by ring]
      ring
    · simp [inverse_gamma_known_rate]
  · have h := C37_inverse_gamma_known_rate shape (xs.map fun x => (1 / x, (1 : ℝ))) prior
    rw [List.foldl_map] at h
    rw [h, List.map_map, List.map_map]
    congr 1; simp [Function.comp_def]

example := C08_inverse_gamma_known_rate_posterior ⟨1, 1⟩ (by norm_num) (by norm_num) 2
  (by norm_num) [1 / 2, 3] (by simp)

/-! ## C09 -/

/-- C09. Pareto observations with known minimum `x_m`. -/
theorem C09_pareto_gamma_posterior (prior : Gamma ℝ) (ha : 0 < prior.alpha)
    (hb : 0 < prior.beta) (x_m : ℝ) (hm : 0 < x_m) (xs : List ℝ) (hx : ∀ x ∈ xs, x_m ≤ x) :
    IsPosterior volume (Ioi 0) prior.dist.pdf
      (likelihood (fun a x => (Pareto.dist { x_m := x_m, alpha := a }).pdf x) xs)
      (pareto_gamma (xs.length : ℝ) (xs.map Real.log).sum x_m prior Real.log).dist.pdf := by
  have hval : ∀ (d : Gamma ℝ) (x : ℝ), d.Valid → x_m ≤ x →
      (pareto_gamma 1 (Real.log x) x_m d Real.log).Valid := by
    intro d x hd hx
    have h1 := hd.1; have h2 := hd.2
    have := Real.log_le_log hm hx
    exact ⟨by simp only [pareto_gamma]; positivity,
      by simp only [pareto_gamma]; linarith⟩
  refine posterior_of_steps measurableSet_Ioi (valid := Gamma.Valid) (ok := fun x => x_m ≤ x)
    (pdf := fun d : Gamma ℝ => d.dist.pdf)
    (step := fun d x => pareto_gamma 1 (Real.log x) x_m d Real.log)
    (fun d hd => Gamma.isDensity d hd.1 hd.2) hval ?_ xs hx prior ⟨ha, hb⟩ ?_
  · intro d x hd hx
    have hx0 : 0 < x := hm.trans_le hx
    refine gamma_step d _ hd (hval d x hd hx) (C := 1 / x)
      (u := 1) (v := Real.log x - Real.log x_m) (by positivity) (fun l hl => ?_) rfl ?_
    · rw [Pareto.pdf_eq _ hm hx]
      simp only
      rw [rpow_add_one hx0.ne', rpow_def_of_pos hm, rpow_def_of_pos hx0, rpow_one]
      have : exp (-((Real.log x - Real.log x_m) * l)) =
          exp (Real.log x_m * l) / exp (Real.log x * l) := by
        rw [← exp_sub]; ring_nf
      rw [this]
      field_simp
    · simp only [pareto_gamma]; ring
  · have h := C37_pareto_gamma x_m Real.log (xs.map fun x => ((1 : ℝ), Real.log x)) prior
    rw [List.foldl_map] at h
    rw [h, List.map_map, List.map_map]
    congr 1; simp [Function.comp_def]

example := C09_pareto_gamma_posterior ⟨1, 1⟩ (by norm_num) (by norm_num) 2 (by norm_num)
  [2, 5, 3] (by norm_num)

/-! ## C10 -/

/-- C10. Uniform(0, θ) observations; `m` is their maximum. -/
theorem C10_uniform_pareto_posterior (prior : Pareto ℝ) (hm : 0 < prior.x_m)
    (ha : 0 < prior.alpha) (xs : List ℝ) (hx : ∀ x ∈ xs, 0 < x) (m : ℝ) (hmem : m ∈ xs)
    (hmax : ∀ x ∈ xs, x ≤ m) :
    IsPosterior volume (Ioi 0) prior.dist.pdf
      (likelihood (fun θ x => (Uniform.dist { low := 0, high := θ }).pdf x) xs)
      (uniform_pareto m (xs.length : ℝ) prior max).dist.pdf := by
  have hval : ∀ (d : Pareto ℝ) (x : ℝ), d.Valid → 0 < x → (uniform_pareto x 1 d max).Valid := by
    intro d x hd hx
    have h1 := hd.1; have h2 := hd.2
    exact ⟨by simp only [uniform_pareto]; positivity, by simp only [uniform_pareto]; positivity⟩
  refine posterior_of_steps measurableSet_Ioi (valid := Pareto.Valid) (ok := fun x => 0 < x)
    (pdf := fun d : Pareto ℝ => d.dist.pdf) (step := fun d x => uniform_pareto x 1 d max)
    (fun d hd => Pareto.isDensity d hd.1 hd.2) hval ?_ xs hx prior ⟨hm, ha⟩ ?_
  · intro d x hd hx
    have h1 := hd.1; have h2 := hd.2
    have hM : 0 < max d.x_m x := by positivity
    refine ⟨(d.alpha * d.x_m ^ d.alpha) / ((d.alpha + 1) * max d.x_m x ^ (d.alpha + 1)),
      by positivity, fun θ hθ => ?_⟩
    have hθ : 0 < θ := hθ
    rw [Uniform.pdf_zero θ hθ hx.le]
    rcases lt_or_ge θ (max d.x_m x) with h | h
    · rw [Pareto.pdf_eq_zero (uniform_pareto x 1 d max) (hval d x hd hx).1
        (by simpa only [uniform_pareto] using h), mul_zero]
      rcases lt_max_iff.1 h with h | h
      · rw [Pareto.pdf_eq_zero d hd.1 h, zero_mul]
      · rw [if_neg (not_le.2 h), mul_zero]
    · rw [Pareto.pdf_eq d hd.1 ((le_max_left _ _).trans h), if_pos ((le_max_right _ _).trans h),
        Pareto.pdf_eq (uniform_pareto x 1 d max) (hval d x hd hx).1
        (by simpa only [uniform_pareto] using h)]
      simp only [uniform_pareto]
      rw [rpow_add_one hθ.ne' (d.alpha + 1)]
      field_simp
  · have h := C37_uniform_pareto (xs.map fun x => (x, (1 : ℝ))) prior m
      (by simpa using hmax) (by simpa using hmem)
    rw [List.foldl_map] at h
    rw [h, List.map_map]
    congr 1; simp [Function.comp_def]

example := C10_uniform_pareto_posterior ⟨1, 2⟩ (by norm_num) (by norm_num) [1 / 2, 3, 2]
  (by simp) 3 (by simp) (by norm_num)

/-! ## C11 -/

/-- C11. Weibull observations with known shape. -/
theorem C11_weibull_posterior (prior : InverseGamma ℝ) (ha : 0 < prior.alpha)
    (hb : 0 < prior.beta) (k : ℝ) (hk : 0 < k) (xs : List ℝ) (hx : ∀ x ∈ xs, 0 < x) :
    IsPosterior volume (Ioi 0) prior.dist.pdf
      (likelihood (fun θ x => (Weibull.dist { beta := k, theta := θ }).pdf x) xs)
      (weibull_inverse_gamma_known_shape (xs.length : ℝ) (xs.map fun x => x ^ k).sum
        prior).dist.pdf := by
  have hval : ∀ (d : InverseGamma ℝ) (x : ℝ), d.Valid → 0 < x →
      (weibull_inverse_gamma_known_shape 1 (x ^ k) d).Valid := by
    intro d x hd hx
    have h1 := hd.1; have h2 := hd.2
    exact ⟨by simp only [weibull_inverse_gamma_known_shape]; positivity,
      by simp only [weibull_inverse_gamma_known_shape]; positivity⟩
  refine posterior_of_steps measurableSet_Ioi (valid := InverseGamma.Valid) (ok := fun x => 0 < x)
    (pdf := fun d : InverseGamma ℝ => d.dist.pdf)
    (step := fun d x => weibull_inverse_gamma_known_shape 1 (x ^ k) d)
    (fun d hd => InverseGamma.isDensity d hd.1 hd.2) hval ?_ xs hx prior ⟨ha, hb⟩ ?_
  · intro d x hd hx
    refine invgamma_step d _ hd (hval d x hd hx) (C := k * x ^ (k - 1)) (u := 1) (v := x ^ k)
      (by positivity) (fun t ht => ?_) rfl rfl
    rw [Weibull.pdf_eq k t hk ht hx, rpow_neg_one]
    ring
  · have h := C37_weibull (xs.map fun x => ((1 : ℝ), x ^ k)) prior
    rw [List.foldl_map] at h
    rw [h, List.map_map, List.map_map]
    congr 1; simp [Function.comp_def]

example := C11_weibull_posterior ⟨1, 1⟩ (by norm_num) (by norm_num) 2 (by norm_num)
  [1 / 2, 3] (by simp)

end Conj
