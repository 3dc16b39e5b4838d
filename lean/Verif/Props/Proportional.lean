import Verif.Lemmas.Steps
import Mathlib.MeasureTheory.Integral.IntervalIntegral.Basic
import Mathlib.Analysis.SpecialFunctions.Integrals.Basic

/-!
# Families known up to a constant (C18), Von Mises (C19, C76)
-/

open MeasureTheory Set Real

namespace Conj

open Scipy Spec

/-! ## C18 -/

theorem log_prod_of_pos (xs : List ℝ) (hx : ∀ x ∈ xs, 0 < x) :
    0 < xs.prod ∧ Real.log xs.prod = (xs.map Real.log).sum := by
  induction xs with
  | nil => simp
  | cons x l ih =>
    obtain ⟨h1, h2⟩ := ih fun y hy => hx y (by simp [hy])
    have h0 := hx x (by simp)
    simp only [List.prod_cons, List.map_cons, List.sum_cons]
    exact ⟨mul_pos h0 h1, by rw [Real.log_mul h0.ne' h1.ne', h2]⟩

/-- C18, `gamma`: unknown shape and rate. The factor is exactly 1. -/
theorem C18_gamma_posterior (prior : GammaProportional ℝ) (hp : 0 < prior.p) (xs : List ℝ)
    (hx : ∀ x ∈ xs, 0 < x) :
    IsPosteriorKernel (Ioi 0 ×ˢ Ioi 0)
      (fun θ : ℝ × ℝ => exp (prior.approx_log_likelihood θ.1 θ.2 Real.log gammaln))
      (likelihood (fun (θ : ℝ × ℝ) x => (Gamma.dist { alpha := θ.1, beta := θ.2 }).pdf x) xs)
      (fun θ : ℝ × ℝ => exp ((gamma xs.sum xs.prod (xs.length : ℝ) prior).approx_log_likelihood
        θ.1 θ.2 Real.log gammaln)) := by
  refine ⟨1, one_pos, ?_⟩
  rintro ⟨a, b⟩ ⟨ha, hb⟩
  have ha : 0 < a := ha
  have hb : 0 < b := hb
  have hG := Real.Gamma_pos_of_pos ha
  have hl : ∀ l : List ℝ, (∀ x ∈ l, 0 < x) →
      likelihood (fun (θ : ℝ × ℝ) x => (Gamma.dist { alpha := θ.1, beta := θ.2 }).pdf x) l (a, b) =
      exp (l.length * a * Real.log b + (a - 1) * (l.map Real.log).sum - b * l.sum -
        l.length * gammaln a) := by
    intro l hl
    induction l with
    | nil => simp [likelihood]
    | cons x l ih =>
      have hx0 := hl x (by simp)
      have ih := ih fun y hy => hl y (by simp [hy])
      simp only [likelihood, List.map_cons, List.prod_cons, List.length_cons, List.sum_cons] at ih ⊢
      rw [ih, Gamma.pdf_eq ⟨a, b⟩ hb hx0]
      simp only
      rw [rpow_def_of_pos hb, rpow_def_of_pos hx0,
        show Real.Gamma a = exp (gammaln a) by rw [gammaln, Real.exp_log hG],
        ← exp_sub, ← exp_add, ← exp_add, ← exp_add]
      congr 1
      push_cast
      ring
  simp only [one_mul]
  rw [hl xs hx, ← exp_add]
  congr 1
  obtain ⟨h1, h2⟩ := log_prod_of_pos xs hx
  simp only [GammaProportional.approx_log_likelihood, gamma, lit_real, Rat.cast_one]
  rw [Real.log_mul hp.ne' h1.ne', h2]
  ring

/-- C18, `gamma_known_rate`: unknown shape, known rate. -/
theorem C18_gamma_known_rate_posterior (prior : GammaKnownRateProportional ℝ) (hp : 0 < prior.a)
    (beta : ℝ) (hb : 0 < beta) (xs : List ℝ) (hx : ∀ x ∈ xs, 0 < x) :
    IsPosteriorKernel (Ioi 0)
      (fun alpha => exp (prior.approx_log_likelihood alpha beta Real.log gammaln))
      (likelihood (fun alpha x => (Gamma.dist { alpha := alpha, beta := beta }).pdf x) xs)
      (fun alpha => exp ((gamma_known_rate xs.prod (xs.length : ℝ) beta
        prior).approx_log_likelihood alpha beta Real.log gammaln)) := by
  refine ⟨exp (-(beta * xs.sum)), exp_pos _, ?_⟩
  intro a ha
  have ha : 0 < a := ha
  have hG := Real.Gamma_pos_of_pos ha
  have hl : ∀ l : List ℝ, (∀ x ∈ l, 0 < x) →
      likelihood (fun alpha x => (Gamma.dist { alpha := alpha, beta := beta }).pdf x) l a =
      exp (l.length * a * Real.log beta + (a - 1) * (l.map Real.log).sum - beta * l.sum -
        l.length * gammaln a) := by
    intro l hl
    induction l with
    | nil => simp [likelihood]
    | cons x l ih =>
      have hx0 := hl x (by simp)
      have ih := ih fun y hy => hl y (by simp [hy])
      simp only [likelihood, List.map_cons, List.prod_cons, List.length_cons, List.sum_cons] at ih ⊢
      rw [ih, Gamma.pdf_eq ⟨a, beta⟩ hb hx0]
      simp only
      rw [rpow_def_of_pos hb, rpow_def_of_pos hx0,
        show Real.Gamma a = exp (gammaln a) by rw [gammaln, Real.exp_log hG],
        ← exp_sub, ← exp_add, ← exp_add, ← exp_add]
      congr 1
      push_cast
      ring
  rw [hl xs hx, ← exp_add, ← exp_add]
  congr 1
  obtain ⟨h1, h2⟩ := log_prod_of_pos xs hx
  simp only [GammaKnownRateProportional.approx_log_likelihood, gamma_known_rate, lit_real,
    Rat.cast_one]
  rw [Real.log_mul hp.ne' h1.ne', h2]
  ring

/-- C18, `beta`: unknown shapes of Beta observations. -/
theorem C18_beta_posterior (prior : BetaProportional ℝ) (hp : 0 < prior.p) (hq : 0 < prior.q)
    (xs : List ℝ) (hx : ∀ x ∈ xs, 0 < x ∧ x < 1) :
    IsPosteriorKernel (Ioi 0 ×ˢ Ioi 0)
      (fun θ : ℝ × ℝ => exp (prior.approx_log_likelihood θ.1 θ.2 Real.log gammaln))
      (likelihood (fun (θ : ℝ × ℝ) x => (Beta.dist { alpha := θ.1, beta := θ.2 }).pdf x) xs)
      (fun θ : ℝ × ℝ => exp ((beta xs.prod (xs.map fun x => 1 - x).prod (xs.length : ℝ)
        prior).approx_log_likelihood θ.1 θ.2 Real.log gammaln)) := by
  refine ⟨exp (-(xs.map Real.log).sum - ((xs.map fun x => 1 - x).map Real.log).sum), exp_pos _, ?_⟩
  rintro ⟨a, b⟩ ⟨ha, hb⟩
  have ha : 0 < a := ha
  have hb : 0 < b := hb
  have hG := Real.Gamma_pos_of_pos ha
  have hG' := Real.Gamma_pos_of_pos hb
  have hG'' := Real.Gamma_pos_of_pos (add_pos ha hb)
  have hl : ∀ l : List ℝ, (∀ x ∈ l, 0 < x ∧ x < 1) →
      likelihood (fun (θ : ℝ × ℝ) x => (Beta.dist { alpha := θ.1, beta := θ.2 }).pdf x) l (a, b) =
      exp (l.length * (gammaln (a + b) - gammaln a - gammaln b) + (a - 1) * (l.map Real.log).sum +
        (b - 1) * ((l.map fun x => 1 - x).map Real.log).sum) := by
    intro l hl
    induction l with
    | nil => simp [likelihood]
    | cons x l ih =>
      have hx0 := hl x (by simp)
      have hx1 : 0 < 1 - x := sub_pos.2 hx0.2
      have ih := ih fun y hy => hl y (by simp [hy])
      simp only [likelihood, List.map_cons, List.prod_cons, List.length_cons, List.sum_cons] at ih ⊢
      rw [ih, Beta.pdf_eq ⟨a, b⟩ hx0]
      simp only [betaFn]
      rw [rpow_def_of_pos hx1, rpow_def_of_pos hx0.1,
        show Real.Gamma a = exp (gammaln a) by rw [gammaln, Real.exp_log hG],
        show Real.Gamma b = exp (gammaln b) by rw [gammaln, Real.exp_log hG'],
        show Real.Gamma (a + b) = exp (gammaln (a + b)) by rw [gammaln, Real.exp_log hG''],
        ← exp_add, ← exp_sub, ← exp_neg, ← exp_add, ← exp_add, ← exp_add]
      congr 1
      push_cast
      ring
  simp only
  rw [hl xs hx, ← exp_add, ← exp_add]
  congr 1
  obtain ⟨h1, h2⟩ := log_prod_of_pos xs fun x h => (hx x h).1
  obtain ⟨h3, h4⟩ := log_prod_of_pos (xs.map fun x => 1 - x) (by
    intro y hy
    obtain ⟨x, hx', rfl⟩ := List.mem_map.1 hy
    exact sub_pos.2 (hx x hx').2)
  simp only [BetaProportional.approx_log_likelihood, beta]
  rw [Real.log_mul hp.ne' h1.ne', h2, Real.log_mul hq.ne' h3.ne', h4]
  ring

theorem i0_pos (k : ℝ) : 0 < i0 k := by
  have h : 0 < ∫ t in (0 : ℝ)..π, exp (k * cos t) :=
    intervalIntegral.intervalIntegral_pos_of_pos (by
      apply Continuous.intervalIntegrable
      fun_prop) (fun t => exp_pos _) pi_pos
  rw [i0]
  positivity

theorem VonMises.pdf_eq (mu kappa x : ℝ) :
    (VonMises.dist { mu := mu, kappa := kappa }).pdf x =
      exp (kappa * cos (x - mu)) / (2 * π * i0 kappa) := by
  simp [VonMises.dist, Cont.pdf, Family.std]

/-- C18, `von_mises_known_direction`: unknown concentration, known direction. -/
theorem C18_von_mises_known_direction_posterior (prior : VonMisesKnownDirectionProportional ℝ)
    (mu : ℝ) (xs : List ℝ) :
    IsPosteriorKernel (Ioi 0)
      (fun kappa => exp (prior.approx_log_likelihood kappa Real.log i0))
      (likelihood (fun kappa x => (VonMises.dist { mu := mu, kappa := kappa }).pdf x) xs)
      (fun kappa => exp ((von_mises_known_direction (xs.map fun x => cos (x - mu)).sum
        (xs.length : ℝ) prior).approx_log_likelihood kappa Real.log i0)) := by
  refine ⟨exp (-(xs.length * Real.log (2 * π))), exp_pos _, ?_⟩
  intro k _
  have hI := i0_pos k
  have hl : ∀ l : List ℝ,
      likelihood (fun kappa x => (VonMises.dist { mu := mu, kappa := kappa }).pdf x) l k =
      exp (k * (l.map fun x => cos (x - mu)).sum - l.length * Real.log (i0 k) -
        l.length * Real.log (2 * π)) := by
    intro l
    induction l with
    | nil => simp [likelihood]
    | cons x l ih =>
      simp only [likelihood, List.map_cons, List.prod_cons, List.length_cons, List.sum_cons] at ih ⊢
      rw [ih, VonMises.pdf_eq]
      rw [show 2 * π * i0 k = exp (Real.log (2 * π) + Real.log (i0 k)) by
        rw [exp_add, Real.exp_log (by positivity), Real.exp_log hI], ← exp_sub, ← exp_add]
      congr 1
      push_cast
      ring
  rw [hl xs, ← exp_add, ← exp_add]
  congr 1
  simp only [VonMisesKnownDirectionProportional.approx_log_likelihood, von_mises_known_direction]
  ring

example := C18_gamma_posterior ⟨1, 1, 1, 1⟩ (by norm_num) [1, 2, 3] (by simp)
example := C18_gamma_known_rate_posterior ⟨1, 1, 1⟩ (by norm_num) 2 (by norm_num) [1, 2, 3] (by simp)
example := C18_beta_posterior ⟨1 / 2, 1 / 2, 1⟩ (by norm_num) (by norm_num) [1 / 2, 1 / 3]
  (by norm_num)
example := C18_von_mises_known_direction_posterior ⟨1, 1⟩ 0 [1, 2, 3]

/-! ## C19 -/

/-- likelihood of Von Mises data as a function of the direction -/
theorem vonMises_likelihood (kappa : ℝ) (xs : List ℝ) (mu : ℝ) :
    likelihood (fun m x => (VonMises.dist { mu := m, kappa := kappa }).pdf x) xs mu =
      (1 / (2 * π * i0 kappa)) ^ xs.length *
      exp (kappa * ((xs.map cos).sum * cos mu + (xs.map sin).sum * sin mu)) := by
  induction xs with
  | nil => simp [likelihood]
  | cons x l ih =>
    simp only [likelihood, List.map_cons, List.prod_cons, List.length_cons, List.sum_cons] at ih ⊢
    rw [ih, VonMises.pdf_eq, cos_sub, pow_succ,
      show kappa * ((cos x + (l.map cos).sum) * cos mu + (sin x + (l.map sin).sum) * sin mu) =
        kappa * (cos x * cos mu + sin x * sin mu) +
        kappa * ((l.map cos).sum * cos mu + (l.map sin).sum * sin mu) by ring, exp_add]
    ring

/-- Full statement of C19. `(a, b)` stands for the density proportional to
`exp(w a cos(mu - b))` of the direction, where `w` is 1 (Von Mises with concentration `a`) or
`kappa` (`a` counted in observations). -/
def C19_statement (w kappa : ℝ) (prior : VonMisesKnownConcentration ℝ) (xs : List ℝ) : Prop :=
  let post := von_mises_known_concentration (xs.map cos).sum (xs.map sin).sum (xs.length : ℝ) kappa
    prior sin cos arctan2
  IsPosteriorKernel univ (fun mu => exp (w * prior.a * cos (mu - prior.b)))
    (likelihood (fun m x => (VonMises.dist { mu := m, kappa := kappa }).pdf x) xs)
    (fun mu => exp (w * post.a * cos (mu - post.b)))

/-- kernels `exp(A cos mu + B sin mu)` determine `(A, B)` -/
theorem cos_sin_kernel {A B A' B' c : ℝ} (hc : 0 < c)
    (h : ∀ mu, exp (A * cos mu + B * sin mu) = c * exp (A' * cos mu + B' * sin mu)) :
    A = A' ∧ B = B' := by
  have l : ∀ mu, A * cos mu + B * sin mu = Real.log c + (A' * cos mu + B' * sin mu) := by
    intro mu
    have := congrArg Real.log (h mu)
    rwa [Real.log_mul hc.ne' (exp_pos _).ne', Real.log_exp, Real.log_exp] at this
  have h0 := l 0
  have h1 := l π
  have h2 := l (π / 2)
  simp only [cos_zero, sin_zero, cos_pi, sin_pi, cos_pi_div_two, sin_pi_div_two] at h0 h1 h2
  constructor <;> linarith

/-- `r cos(arctan2 y x) = x`, `r sin(arctan2 y x) = y` with `r = √(x² + y²)` -/
theorem arctan2_polar (y x : ℝ) :
    √(x ^ 2 + y ^ 2) * cos (arctan2 y x) = x ∧ √(x ^ 2 + y ^ 2) * sin (arctan2 y x) = y := by
  have hn : ‖(⟨x, y⟩ : ℂ)‖ = √(x ^ 2 + y ^ 2) := by
    rw [Complex.norm_def, Complex.normSq_mk]; ring_nf
  have h1 := Complex.norm_mul_cos_arg (⟨x, y⟩ : ℂ)
  have h2 := Complex.norm_mul_sin_arg (⟨x, y⟩ : ℂ)
  rw [hn] at h1 h2
  exact ⟨h1, h2⟩

/-- C19 in terms of the two coordinates of the resultant vector. -/
theorem C19_iff_vector (w kappa : ℝ) (prior : VonMisesKnownConcentration ℝ) (xs : List ℝ) :
    let S := prior.a * sin prior.b + (xs.map sin).sum
    let C := prior.a * cos prior.b + (xs.map cos).sum
    C19_statement w kappa prior xs ↔
      w * (kappa * S) * cos (arctan2 S C) = w * prior.a * cos prior.b + kappa * (xs.map cos).sum ∧
      w * (kappa * S) * sin (arctan2 S C) = w * prior.a * sin prior.b + kappa * (xs.map sin).sum := by
  intro S C
  have e1 : ∀ u v mu : ℝ, u * cos (mu - v) = u * cos v * cos mu + u * sin v * sin mu := by
    intro u v mu; rw [cos_sub]; ring
  have hk : 0 < (1 / (2 * π * i0 kappa)) ^ xs.length := by
    have := i0_pos kappa
    positivity
  simp only [C19_statement, IsPosteriorKernel, von_mises_known_concentration, mem_univ, true_imp_iff,
    vonMises_likelihood]
  constructor
  · rintro ⟨c, hc, h⟩
    have := cos_sin_kernel (A := w * prior.a * cos prior.b + kappa * (xs.map cos).sum)
      (B := w * prior.a * sin prior.b + kappa * (xs.map sin).sum)
      (A' := w * (kappa * S) * cos (arctan2 S C)) (B' := w * (kappa * S) * sin (arctan2 S C))
      (c := c / (1 / (2 * π * i0 kappa)) ^ xs.length) (by positivity) (by
        intro mu
        have hm := h mu
        rw [e1, e1] at hm
        rw [show (w * prior.a * cos prior.b + kappa * (xs.map cos).sum) * cos mu +
            (w * prior.a * sin prior.b + kappa * (xs.map sin).sum) * sin mu =
            (w * prior.a * cos prior.b * cos mu + w * prior.a * sin prior.b * sin mu) +
            kappa * ((xs.map cos).sum * cos mu + (xs.map sin).sum * sin mu) by ring, exp_add]
        rw [div_mul_eq_mul_div, eq_div_iff hk.ne', ← hm]
        ring)
    exact ⟨this.1.symm, this.2.symm⟩
  · rintro ⟨h1, h2⟩
    refine ⟨(1 / (2 * π * i0 kappa)) ^ xs.length, hk, fun mu => ?_⟩
    rw [e1, e1 (w * (kappa * S)), h1, h2]
    have e : exp ((w * prior.a * cos prior.b + kappa * (xs.map cos).sum) * cos mu +
            (w * prior.a * sin prior.b + kappa * (xs.map sin).sum) * sin mu) =
            exp (w * prior.a * cos prior.b * cos mu + w * prior.a * sin prior.b * sin mu) *
            exp (kappa * ((xs.map cos).sum * cos mu + (xs.map sin).sum * sin mu)) := by
      rw [← exp_add]; congr 1; ring
    rw [e]; ring

/-- C19 (disagreement), `a` counted in observations: right exactly when `kappa` times the
*sine* total is the length of the resultant vector. -/
theorem C19_von_mises_known_concentration_iff (kappa : ℝ) (hk : 0 < kappa)
    (prior : VonMisesKnownConcentration ℝ) (xs : List ℝ) :
    let S := prior.a * sin prior.b + (xs.map sin).sum
    let C := prior.a * cos prior.b + (xs.map cos).sum
    C19_statement kappa kappa prior xs ↔ kappa * S = √(C ^ 2 + S ^ 2) := by
  intro S C
  refine (C19_iff_vector kappa kappa prior xs).trans ?_
  obtain ⟨p1, p2⟩ := arctan2_polar S C
  have hCS : (kappa * prior.a * cos prior.b + kappa * (xs.map cos).sum = kappa * C) ∧
      (kappa * prior.a * sin prior.b + kappa * (xs.map sin).sum = kappa * S) := by
    constructor <;> simp only [S, C] <;> ring
  rw [hCS.1, hCS.2]
  set r := √(C ^ 2 + S ^ 2)
  have hcs := cos_sq_add_sin_sq (arctan2 S C)
  change (kappa * (kappa * S) * cos (arctan2 S C) = kappa * C ∧
    kappa * (kappa * S) * sin (arctan2 S C) = kappa * S) ↔ _
  constructor
  · rintro ⟨h1, h2⟩
    have h1' : kappa * S * cos (arctan2 S C) = C := by
      have := mul_left_cancel₀ hk.ne' (by rw [← mul_assoc]; exact h1 :
        kappa * (kappa * S * cos (arctan2 S C)) = kappa * C)
      exact this
    have h2' : kappa * S * sin (arctan2 S C) = S := by
      have := mul_left_cancel₀ hk.ne' (by rw [← mul_assoc]; exact h2 :
        kappa * (kappa * S * sin (arctan2 S C)) = kappa * S)
      exact this
    linear_combination cos (arctan2 S C) * (h1' - p1) + sin (arctan2 S C) * (h2' - p2) +
      (r - kappa * S) * hcs
  · intro h
    exact ⟨by linear_combination kappa * cos (arctan2 S C) * h + kappa * p1,
      by linear_combination kappa * sin (arctan2 S C) * h + kappa * p2⟩

/-- C19 (disagreement), `a` a concentration, unit `kappa`: right exactly when the cosine total
vanishes and the sine total is not negative. -/
theorem C19_von_mises_unit_kappa_iff (prior : VonMisesKnownConcentration ℝ) (xs : List ℝ) :
    C19_statement 1 1 prior xs ↔
      prior.a * cos prior.b + (xs.map cos).sum = 0 ∧
      0 ≤ prior.a * sin prior.b + (xs.map sin).sum := by
  have h := C19_von_mises_known_concentration_iff 1 one_pos prior xs
  simp only [one_mul] at h
  rw [h]
  set S := prior.a * sin prior.b + (xs.map sin).sum
  set C := prior.a * cos prior.b + (xs.map cos).sum
  constructor
  · intro e
    have h0 : 0 ≤ S := e ▸ Real.sqrt_nonneg _
    have h1 : S ^ 2 = C ^ 2 + S ^ 2 := by
      conv_lhs => rw [e]
      exact Real.sq_sqrt (by positivity)
    exact ⟨pow_eq_zero_iff (n := 2) (by norm_num) |>.1 (by linarith), h0⟩
  · rintro ⟨h1, h2⟩
    rw [h1, zero_pow (by norm_num), zero_add, Real.sqrt_sq h2]

/-- C19: the *direction* of the posterior is right (prior counted in observations): with the
proper concentration the returned `b` gives the Bayes posterior.
Missing: the concentration. -/
theorem C19_von_mises_direction_partial (kappa : ℝ) (prior : VonMisesKnownConcentration ℝ)
    (xs : List ℝ) :
    ∃ R : ℝ, 0 ≤ R ∧ IsPosteriorKernel univ (fun mu => exp (kappa * prior.a * cos (mu - prior.b)))
      (likelihood (fun m x => (VonMises.dist { mu := m, kappa := kappa }).pdf x) xs)
      (fun mu => exp (kappa * R * cos (mu - (von_mises_known_concentration (xs.map cos).sum
        (xs.map sin).sum (xs.length : ℝ) kappa prior sin cos arctan2).b))) := by
  set S := prior.a * sin prior.b + (xs.map sin).sum with hS
  set C := prior.a * cos prior.b + (xs.map cos).sum with hC
  obtain ⟨p1, p2⟩ := arctan2_polar S C
  have hk : 0 < (1 / (2 * π * i0 kappa)) ^ xs.length := by
    have := i0_pos kappa
    positivity
  refine ⟨√(C ^ 2 + S ^ 2), Real.sqrt_nonneg _, (1 / (2 * π * i0 kappa)) ^ xs.length, hk,
    fun mu _ => ?_⟩
  rw [vonMises_likelihood]
  simp only [von_mises_known_concentration]
  rw [show kappa * √(C ^ 2 + S ^ 2) * cos (mu - arctan2 S C) =
    kappa * (√(C ^ 2 + S ^ 2) * cos (arctan2 S C) * cos mu +
      √(C ^ 2 + S ^ 2) * sin (arctan2 S C) * sin mu) by rw [cos_sub]; ring, p1, p2, hS, hC]
  rw [show kappa * ((prior.a * cos prior.b + (xs.map cos).sum) * cos mu +
      (prior.a * sin prior.b + (xs.map sin).sum) * sin mu) =
      kappa * prior.a * cos (mu - prior.b) +
      kappa * ((xs.map cos).sum * cos mu + (xs.map sin).sum * sin mu) by rw [cos_sub]; ring, exp_add]
  ring

/-- concrete disagreement: one observation at angle 0, prior pointing to 0 -/
example : ¬ C19_statement 1 1 ⟨1, 0⟩ [0] := by
  rw [C19_von_mises_unit_kappa_iff]; simp
example : ¬ C19_statement 2 2 ⟨1, 0⟩ [0] := by
  have := C19_von_mises_known_concentration_iff 2 two_pos ⟨1, 0⟩ [0]
  simp only at this
  rw [this]
  simp
  norm_num

/-! ## C76 -/

/-- Full statement of C76. -/
def C76_statement (d : VonMisesKnownConcentration ℝ) : Prop :=
  ∃ K : ℝ, ∀ mu, d.log_likelihood mu cos Real.log i0 =
    Real.log ((VonMises.dist { mu := d.b, kappa := d.a }).pdf mu) + K

/-- C76 (disagreement). It holds exactly when the concentration is 1: the code adds `a` to the
cosine where the density multiplies. -/
theorem C76_von_mises_log_likelihood_iff (d : VonMisesKnownConcentration ℝ) :
    C76_statement d ↔ d.a = 1 := by
  have hI := i0_pos d.a
  have hlog : ∀ mu, Real.log ((VonMises.dist { mu := d.b, kappa := d.a }).pdf mu) =
      d.a * cos (mu - d.b) - Real.log (2 * π * i0 d.a) := by
    intro mu
    rw [VonMises.pdf_eq, Real.log_div (exp_pos _).ne' (by positivity), Real.log_exp]
  constructor
  · rintro ⟨K, h⟩
    have h1 := h d.b
    have h2 := h (d.b + π)
    rw [hlog] at h1 h2
    simp only [VonMisesKnownConcentration.log_likelihood, sub_self, cos_zero, add_sub_cancel_left,
      cos_pi] at h1 h2
    linarith
  · intro h
    refine ⟨d.a - Real.log (i0 d.a) + Real.log (2 * π * i0 d.a), fun mu => ?_⟩
    rw [hlog]
    simp only [VonMisesKnownConcentration.log_likelihood]
    rw [h]
    ring

/-- C76: what the code's function of `mu` is: the log density with concentration 1 whatever
`a`, up to a constant. Missing: concentration `a`. -/
theorem C76_von_mises_log_likelihood_partial (d : VonMisesKnownConcentration ℝ) :
    ∃ K : ℝ, ∀ mu, d.log_likelihood mu cos Real.log i0 =
      Real.log ((VonMises.dist { mu := d.b, kappa := 1 }).pdf mu) + K := by
  have hI := i0_pos 1
  refine ⟨d.a - Real.log (i0 d.a) + Real.log (2 * π * i0 1), fun mu => ?_⟩
  rw [VonMises.pdf_eq, Real.log_div (exp_pos _).ne' (by positivity), Real.log_exp]
  simp only [VonMisesKnownConcentration.log_likelihood]
  ring

example : ¬ C76_statement ⟨2, 0⟩ := by
  rw [C76_von_mises_log_likelihood_iff]; norm_num

end Conj
