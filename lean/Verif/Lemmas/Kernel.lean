import Verif.Lemmas.Density

/-! One-observation updates and how they compose over a list of observations. -/

open MeasureTheory Set Real

namespace Conj

open Scipy Spec

/-- If one observation updates the hyperparameters correctly (up to a constant), then a
list of observations, fed one after the other, does too. -/
theorem kernel_foldl {P X Θ : Type*} {pdf : P → Θ → ℝ} {f : Θ → X → ℝ} {step : P → X → P}
    {valid : P → Prop} {ok : X → Prop} {S : Set Θ}
    (hstep : ∀ d x, valid d → ok x → valid (step d x) ∧
      ∃ c : ℝ, 0 < c ∧ ∀ θ ∈ S, pdf d θ * f θ x = c * pdf (step d x) θ) :
    ∀ (xs : List X) (d : P), (∀ x ∈ xs, ok x) → valid d → valid (xs.foldl step d) ∧
      ∃ c : ℝ, 0 < c ∧ ∀ θ ∈ S, pdf d θ * likelihood f xs θ = c * pdf (xs.foldl step d) θ := by
  intro xs
  induction xs with
  | nil =>
    intro d _ hd
    exact ⟨hd, 1, one_pos, fun θ _ => by simp [likelihood]⟩
  | cons x xs ih =>
    intro d hx hd
    obtain ⟨h1, c1, hc1, e1⟩ := hstep d x hd (hx x (by simp))
    obtain ⟨h2, c2, hc2, e2⟩ := ih (step d x) (fun y hy => hx y (by simp [hy])) h1
    refine ⟨h2, c1 * c2, mul_pos hc1 hc2, fun θ hθ => ?_⟩
    have e := e2 θ hθ
    simp only [likelihood, List.map_cons, List.prod_cons, List.foldl_cons] at e ⊢
    rw [← mul_assoc, e1 θ hθ, mul_assoc, e, mul_assoc]

/-- One-observation updates + normalisation + pooled statistics give Bayes' rule for a
whole data set. -/
theorem posterior_of_steps {P X Θ : Type*} [MeasurableSpace Θ] {μ : Measure Θ} {S : Set Θ}
    (hS : MeasurableSet S) {pdf : P → Θ → ℝ} {f : Θ → X → ℝ} {step : P → X → P}
    {valid : P → Prop} {ok : X → Prop}
    (hdens : ∀ d, valid d → IsDensity μ S (pdf d))
    (hvalid : ∀ d x, valid d → ok x → valid (step d x))
    (hstep : ∀ d x, valid d → ok x →
      ∃ c : ℝ, 0 < c ∧ ∀ θ ∈ S, pdf d θ * f θ x = c * pdf (step d x) θ)
    (xs : List X) (hx : ∀ x ∈ xs, ok x) (d : P) (hd : valid d) {pooled : P}
    (hp : xs.foldl step d = pooled) : IsPosterior μ S (pdf d) (likelihood f xs) (pdf pooled) := by
  obtain ⟨hv, c, hc, h⟩ := kernel_foldl (S := S) (pdf := pdf) (f := f) (step := step)
    (valid := valid) (ok := ok) (fun d x h1 h2 => ⟨hvalid d x h1 h2, hstep d x h1 h2⟩) xs d hx hd
  rw [hp] at hv h
  exact IsPosterior.of_density hS (hdens _ hv) hc h

/-! ### pmfs at natural numbers -/

theorem Binomial.pmf_nat (n x : ℕ) (hx : x ≤ n) (p : ℝ) :
    (Binomial.dist ⟨n, p⟩).pmf x = n.choose x * p ^ x * (1 - p) ^ (n - x) := by
  have h1 : (n : ℝ) - x = ((n - x : ℕ) : ℝ) := by push_cast [hx]; ring
  simp only [Binomial.dist, Disc.pmf, sub_zero, DiscFamily.pmf0]
  rw [if_pos (by constructor <;> simp [hx]), Int.cast_natCast, choose_natCast hx, h1, rpow_natCast,
    rpow_natCast]

theorem choose_add_sub_one_pos (k : ℕ) {r : ℝ} (hr : 0 < r) : 0 < choose (k + r - 1) k := by
  have e1 : (k : ℝ) + r - 1 + 1 = k + r := by ring
  have e2 : (k : ℝ) + r - 1 - k + 1 = r := by ring
  rw [choose, e1, e2]
  have h1 : 0 < Real.Gamma (k + r) := Real.Gamma_pos_of_pos (by positivity)
  have h2 : 0 < Real.Gamma ((k : ℝ) + 1) := Real.Gamma_pos_of_pos (by positivity)
  have h3 : 0 < Real.Gamma r := Real.Gamma_pos_of_pos hr
  positivity

theorem NegativeBinomial.pmf_nat (r p : ℝ) (x : ℕ) :
    (NegativeBinomial.dist ⟨r, p⟩).pmf x = choose (x + r - 1) x * p ^ r * (1 - p) ^ x := by
  simp only [NegativeBinomial.dist, Disc.pmf, sub_zero, DiscFamily.pmf0]
  rw [if_pos (by simp), Int.cast_natCast, rpow_natCast]

theorem Geometric.pmf_one_start (p : ℝ) (x : ℕ) (hx : 1 ≤ x) :
    (Geometric.dist ⟨p, true⟩).pmf x = (1 - p) ^ (x - 1) * p := by
  simp only [Geometric.dist, if_true, Disc.pmf, sub_zero, DiscFamily.pmf0]
  have h1 : ((x : ℤ) : ℝ) - 1 = ((x - 1 : ℕ) : ℝ) := by push_cast [hx]; ring
  rw [if_pos (by exact_mod_cast hx), h1, rpow_natCast]

theorem Geometric.pmf_zero_start (p : ℝ) (x : ℕ) :
    (Geometric.dist ⟨p, false⟩).pmf x = (1 - p) ^ x * p := by
  simp only [Geometric.dist, Disc.pmf, DiscFamily.pmf0]
  simp

theorem Poisson.pmf_nat (l : ℝ) (x : ℕ) :
    (Poisson.dist ⟨l⟩).pmf x = exp (-l) * l ^ x / x.factorial := by
  simp only [Poisson.dist, Disc.pmf, sub_zero, DiscFamily.pmf0]
  rw [if_pos (by simp), Int.cast_natCast, rpow_natCast, Real.Gamma_nat_eq_factorial]

/-! ### other observation densities -/

theorem Exponential.pdf_eq (s : ℝ) (hs : 0 < s) {x : ℝ} (hx : 0 ≤ x) :
    (Exponential.dist ⟨s⟩).pdf x = exp (-(x / s)) / s := by
  simp only [Exponential.dist, Cont.pdf, sub_zero, Family.std]
  rw [if_pos (by positivity)]

theorem Uniform.pdf_zero (θ : ℝ) (hθ : 0 < θ) {x : ℝ} (hx : 0 ≤ x) :
    (Uniform.dist ⟨0, θ⟩).pdf x = if x ≤ θ then 1 / θ else 0 := by
  simp only [Uniform.dist, Cont.pdf, sub_zero, Family.std]
  have h0 : 0 ≤ x / θ := by positivity
  by_cases h : x ≤ θ
  · rw [if_pos ⟨h0, (div_le_one hθ).2 h⟩, if_pos h]
  · rw [if_neg (fun h' => h ((div_le_one hθ).1 h'.2)), if_neg h, zero_div]

theorem Weibull.pdf_eq (k θ : ℝ) (hk : 0 < k) (hθ : 0 < θ) {x : ℝ} (hx : 0 < x) :
    (Weibull.dist ⟨k, θ⟩).pdf x = k * x ^ (k - 1) / θ * exp (-(x ^ k / θ)) := by
  simp only [Weibull.dist, Cont.pdf, sub_zero, Family.std]
  have hl : 0 < θ ^ (1 / k) := rpow_pos_of_pos hθ _
  have hlk : (θ ^ (1 / k)) ^ k = θ := by rw [← rpow_mul hθ.le, one_div_mul_cancel hk.ne', rpow_one]
  rw [if_pos (by positivity), div_rpow hx.le hl.le, div_rpow hx.le hl.le, hlk,
    rpow_sub_one hl.ne', hlk]
  field_simp

end Conj
