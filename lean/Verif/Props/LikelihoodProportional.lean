import Verif.Props.LikelihoodPrinciple
import Verif.Props.Proportional
import Verif.Props.ProperKernels
import Verif.Props.Hypergeometric

/-!
# C98 for the families known up to a constant

The posterior of `gamma`, `gamma_known_rate`, `beta` and `von_mises_known_direction` is used through its
`approx_log_likelihood`, which is known up to a constant (C18).  Two data sets give the same posterior object exactly
when their likelihoods are proportional.  For `von_mises_known_concentration` this is false.
-/

open MeasureTheory Set Real Filter Topology

namespace Conj

open Scipy Spec

/-- Posteriors known up to a constant: they are proportional exactly when the likelihoods are. -/
theorem kernel_proportional_iff {Θ : Type*} {S : Set Θ} {prior lik lik' post post' : Θ → ℝ}
    (hpos : ∀ θ ∈ S, 0 < prior θ) (h : IsPosteriorKernel S prior lik post)
    (h' : IsPosteriorKernel S prior lik' post') : ProportionalOn S post post' ↔ ProportionalOn S lik lik' := by
  obtain ⟨c, hc, h⟩ := h
  obtain ⟨c', hc', h'⟩ := h'
  constructor
  · rintro ⟨k, hk, e⟩
    refine ⟨c * k / c', by positivity, fun θ hθ => ?_⟩
    have h1 := h θ hθ
    have h2 := h' θ hθ
    rw [e θ hθ] at h1
    rw [div_mul_eq_mul_div, eq_div_iff hc'.ne']
    refine mul_left_cancel₀ (hpos θ hθ).ne' ?_
    linear_combination c' * h1 - c * k * h2
  · rintro ⟨k, hk, e⟩
    refine ⟨k * c' / c, by positivity, fun θ hθ => ?_⟩
    have h1 := h θ hθ
    have h2 := h' θ hθ
    rw [e θ hθ] at h1
    rw [div_mul_eq_mul_div, eq_div_iff hc.ne']
    linear_combination k * h2 - h1

theorem ProportionalOn.log {Θ : Type*} {S : Set Θ} {f g : Θ → ℝ}
    (h : ProportionalOn S (fun θ => exp (f θ)) fun θ => exp (g θ)) : ∃ K, ∀ θ ∈ S, f θ = K + g θ := by
  obtain ⟨c, hc, h⟩ := h
  refine ⟨Real.log c, fun θ hθ => ?_⟩
  have := congrArg Real.log (h θ hθ)
  rwa [Real.log_mul hc.ne' (exp_pos _).ne', Real.log_exp, Real.log_exp] at this

theorem ProportionalOn.rfl {Θ : Type*} {S : Set Θ} {f : Θ → ℝ} : ProportionalOn S f f :=
  ⟨1, one_pos, fun θ _ => (one_mul _).symm⟩

theorem gammaln_one : gammaln 1 = 0 := by rw [gammaln, Real.Gamma_one, Real.log_one]
theorem gammaln_two : gammaln 2 = 0 := by rw [gammaln, Real.Gamma_two, Real.log_one]
theorem gammaln_three : gammaln 3 = Real.log 2 := by
  rw [gammaln, show (3 : ℝ) = 2 + 1 by norm_num, Real.Gamma_add_one two_ne_zero, Real.Gamma_two, mul_one]
theorem gammaln_four : gammaln 4 = Real.log 6 := by
  rw [gammaln, show (4 : ℝ) = 2 + 1 + 1 by norm_num, Real.Gamma_add_one (by norm_num), Real.Gamma_add_one two_ne_zero,
    Real.Gamma_two]
  norm_num

/-- C97, `GammaProportional`: its `approx_log_likelihood` determines every parameter. -/
theorem C97_gamma_proportional (d d' : GammaProportional ℝ) (hp : 0 < d.p) (hp' : 0 < d'.p)
    (h : ProportionalOn (Ioi 0 ×ˢ Ioi 0)
      (fun θ : ℝ × ℝ => exp (d.approx_log_likelihood θ.1 θ.2 Real.log gammaln))
      (fun θ : ℝ × ℝ => exp (d'.approx_log_likelihood θ.1 θ.2 Real.log gammaln))) : d = d' := by
  obtain ⟨K, hK⟩ := ProportionalOn.log h
  have e : ∀ a b : ℝ, 0 < a → 0 < b → (a - 1) * Real.log d.p - d.q * b - d.r * gammaln a + d.s * a * Real.log b =
      K + ((a - 1) * Real.log d'.p - d'.q * b - d'.r * gammaln a + d'.s * a * Real.log b) := by
    intro a b ha hb
    have := hK (a, b) ⟨ha, hb⟩
    simpa only [GammaProportional.approx_log_likelihood, lit_real, Rat.cast_one] using this
  have l2 : 0 < Real.log 2 := Real.log_pos (by norm_num)
  have l4 : Real.log 4 = 2 * Real.log 2 := by
    rw [show (4 : ℝ) = 2 ^ 2 by norm_num, Real.log_pow]; norm_num
  have e11 := e 1 1 one_pos one_pos
  have e12 := e 1 2 one_pos two_pos
  have e14 := e 1 4 one_pos (by norm_num)
  have e21 := e 2 1 two_pos one_pos
  have e31 := e 3 1 three_pos one_pos
  rw [gammaln_one, Real.log_one] at e11
  rw [gammaln_one] at e12
  rw [gammaln_one, l4] at e14
  rw [gammaln_two, Real.log_one] at e21
  rw [gammaln_three, Real.log_one] at e31
  have hq : d.q = d'.q := by linear_combination -(e14 - 2 * e12 + e11)
  have hs : d.s = d'.s := by
    refine mul_right_cancel₀ l2.ne' ?_
    linear_combination e12 - e11 + hq
  have hpp : Real.log d.p = Real.log d'.p := by linear_combination e21 - e11
  have hr : d.r = d'.r := by
    refine mul_right_cancel₀ l2.ne' ?_
    linear_combination -(e31 - e11) + 2 * hpp
  have hp'' : d.p = d'.p := Real.log_injOn_pos (mem_Ioi.2 hp) (mem_Ioi.2 hp') hpp
  ext1 <;> assumption

/-- C98, `gamma`. -/
theorem C98_gamma (prior : GammaProportional ℝ) (hp : 0 < prior.p) (xs ys : List ℝ) (hx : ∀ x ∈ xs, 0 < x)
    (hy : ∀ x ∈ ys, 0 < x) :
    gamma xs.sum xs.prod (xs.length : ℝ) prior = gamma ys.sum ys.prod (ys.length : ℝ) prior ↔
    ProportionalOn (Ioi 0 ×ˢ Ioi 0)
      (likelihood (fun (θ : ℝ × ℝ) x => (Gamma.dist { alpha := θ.1, beta := θ.2 }).pdf x) xs)
      (likelihood (fun (θ : ℝ × ℝ) x => (Gamma.dist { alpha := θ.1, beta := θ.2 }).pdf x) ys) := by
  rw [← kernel_proportional_iff (fun θ _ => exp_pos _) (C18_gamma_posterior prior hp xs hx)
    (C18_gamma_posterior prior hp ys hy)]
  refine ⟨fun e => by rw [e]; exact ProportionalOn.rfl, fun e => C97_gamma_proportional _ _ ?_ ?_ e⟩
  · exact mul_pos hp (log_prod_of_pos xs hx).1
  · exact mul_pos hp (log_prod_of_pos ys hy).1

/-- C98, `gamma_known_rate`. -/
theorem C98_gamma_known_rate (prior : GammaKnownRateProportional ℝ) (hp : 0 < prior.a) (rate : ℝ) (hb : 0 < rate)
    (xs ys : List ℝ) (hx : ∀ x ∈ xs, 0 < x) (hy : ∀ x ∈ ys, 0 < x) :
    gamma_known_rate xs.prod (xs.length : ℝ) rate prior = gamma_known_rate ys.prod (ys.length : ℝ) rate prior ↔
    ProportionalOn (Ioi 0)
      (likelihood (fun alpha x => (Gamma.dist { alpha := alpha, beta := rate }).pdf x) xs)
      (likelihood (fun alpha x => (Gamma.dist { alpha := alpha, beta := rate }).pdf x) ys) := by
  rw [← kernel_proportional_iff (fun θ _ => exp_pos _) (C18_gamma_known_rate_posterior prior hp rate hb xs hx)
    (C18_gamma_known_rate_posterior prior hp rate hb ys hy)]
  refine ⟨fun e => by rw [e]; exact ProportionalOn.rfl, fun e => ?_⟩
  obtain ⟨K, hK⟩ := ProportionalOn.log e
  have p1 := (log_prod_of_pos xs hx).1
  have p2 := (log_prod_of_pos ys hy).1
  have e1 := hK 1 (mem_Ioi.2 one_pos)
  have e2 := hK 2 (mem_Ioi.2 two_pos)
  have e3 := hK 3 (mem_Ioi.2 three_pos)
  simp only [GammaKnownRateProportional.approx_log_likelihood, gamma_known_rate, lit_real, Rat.cast_one,
    gammaln_one, gammaln_two, gammaln_three, Real.log_mul hp.ne' p1.ne', Real.log_mul hp.ne' p2.ne'] at e1 e2 e3
  have l2 : 0 < Real.log 2 := Real.log_pos (by norm_num)
  have hn : (xs.length : ℝ) = ys.length := by
    refine mul_right_cancel₀ l2.ne' ?_
    linear_combination -(e3 - 2 * e2 + e1)
  have hl : Real.log xs.prod = Real.log ys.prod := by linear_combination e2 - e1 - Real.log rate * hn
  have := Real.log_injOn_pos (mem_Ioi.2 p1) (mem_Ioi.2 p2) hl
  simp only [gamma_known_rate, this, hn]

/-- C97, `BetaProportional`. -/
theorem C97_beta_proportional (d d' : BetaProportional ℝ) (hp : 0 < d.p) (hq : 0 < d.q) (hp' : 0 < d'.p)
    (hq' : 0 < d'.q) (h : ProportionalOn (Ioi 0 ×ˢ Ioi 0)
      (fun θ : ℝ × ℝ => exp (d.approx_log_likelihood θ.1 θ.2 Real.log gammaln))
      (fun θ : ℝ × ℝ => exp (d'.approx_log_likelihood θ.1 θ.2 Real.log gammaln))) : d = d' := by
  obtain ⟨K, hK⟩ := ProportionalOn.log h
  have e11 := hK (1, 1) ⟨mem_Ioi.2 one_pos, mem_Ioi.2 one_pos⟩
  have e12 := hK (1, 2) ⟨mem_Ioi.2 one_pos, mem_Ioi.2 two_pos⟩
  have e21 := hK (2, 1) ⟨mem_Ioi.2 two_pos, mem_Ioi.2 one_pos⟩
  have e22 := hK (2, 2) ⟨mem_Ioi.2 two_pos, mem_Ioi.2 two_pos⟩
  simp only [BetaProportional.approx_log_likelihood, gammaln_one, gammaln_two,
    show (1 : ℝ) + 1 = 2 by norm_num, show (1 : ℝ) + 2 = 3 by norm_num, show (2 : ℝ) + 1 = 3 by norm_num,
    show (2 : ℝ) + 2 = 4 by norm_num, gammaln_three, gammaln_four] at e11 e12 e21 e22
  have l : Real.log 6 - 2 * Real.log 2 ≠ 0 := by
    have : Real.log 6 - 2 * Real.log 2 = Real.log (3 / 2) := by
      rw [show (6 : ℝ) = 3 / 2 * 2 ^ 2 by norm_num, Real.log_mul (by norm_num) (by norm_num), Real.log_pow]
      push_cast
      ring
    rw [this]
    exact (Real.log_pos (by norm_num)).ne'
  have hk : d.k = d'.k := by
    refine mul_right_cancel₀ l ?_
    linear_combination e22 - e12 - e21 + e11
  have h1 : Real.log d.p = Real.log d'.p := by linear_combination e21 - e11 - Real.log 2 * hk
  have h2 : Real.log d.q = Real.log d'.q := by linear_combination e12 - e11 - Real.log 2 * hk
  have h1' : d.p = d'.p := Real.log_injOn_pos (mem_Ioi.2 hp) (mem_Ioi.2 hp') h1
  have h2' : d.q = d'.q := Real.log_injOn_pos (mem_Ioi.2 hq) (mem_Ioi.2 hq') h2
  ext1 <;> assumption

/-- C98, `beta`. -/
theorem C98_beta (prior : BetaProportional ℝ) (hp : 0 < prior.p) (hq : 0 < prior.q) (xs ys : List ℝ)
    (hx : ∀ x ∈ xs, 0 < x ∧ x < 1) (hy : ∀ x ∈ ys, 0 < x ∧ x < 1) :
    beta xs.prod (xs.map fun x => 1 - x).prod (xs.length : ℝ) prior =
      beta ys.prod (ys.map fun x => 1 - x).prod (ys.length : ℝ) prior ↔
    ProportionalOn (Ioi 0 ×ˢ Ioi 0)
      (likelihood (fun (θ : ℝ × ℝ) x => (Beta.dist { alpha := θ.1, beta := θ.2 }).pdf x) xs)
      (likelihood (fun (θ : ℝ × ℝ) x => (Beta.dist { alpha := θ.1, beta := θ.2 }).pdf x) ys) := by
  rw [← kernel_proportional_iff (fun θ _ => exp_pos _) (C18_beta_posterior prior hp hq xs hx)
    (C18_beta_posterior prior hp hq ys hy)]
  have pos : ∀ l : List ℝ, (∀ x ∈ l, 0 < x ∧ x < 1) → 0 < (l.map fun x => 1 - x).prod := fun l hl =>
    List.prod_pos fun y hy => by
      obtain ⟨x, hx', rfl⟩ := List.mem_map.1 hy
      linarith [(hl x hx').2]
  refine ⟨fun e => by rw [e]; exact ProportionalOn.rfl, fun e => C97_beta_proportional _ _ ?_ ?_ ?_ ?_ e⟩
  · exact mul_pos hp (log_prod_of_pos xs fun x h => (hx x h).1).1
  · exact mul_pos hq (pos xs hx)
  · exact mul_pos hp (log_prod_of_pos ys fun x h => (hy x h).1).1
  · exact mul_pos hq (pos ys hy)

/-! ## Von Mises -/

theorem i0_le {k : ℝ} (hk : 0 ≤ k) : i0 k ≤ exp k := by
  have h : ∫ t in (0 : ℝ)..π, exp (k * cos t) ≤ ∫ _ in (0 : ℝ)..π, exp k :=
    intervalIntegral.integral_mono_on pi_pos.le (Continuous.intervalIntegrable (by fun_prop) _ _) (by simp)
      fun t _ => exp_le_exp.2 (by nlinarith [cos_le_one t])
  rw [intervalIntegral.integral_const, smul_eq_mul, sub_zero] at h
  rw [i0, one_div, inv_mul_le_iff₀ pi_pos]
  exact h

theorem i0_one_lt : i0 1 < exp 1 := by
  have h : ∫ t in (0 : ℝ)..π, exp (1 * cos t) < ∫ _ in (0 : ℝ)..π, exp 1 := by
    refine intervalIntegral.integral_lt_integral_of_continuousOn_of_le_of_exists_lt pi_pos
      (Continuous.continuousOn (by fun_prop)) continuousOn_const
      (fun t _ => exp_le_exp.2 (by nlinarith [cos_le_one t])) ⟨π, right_mem_Icc.2 pi_pos.le, ?_⟩
    rw [cos_pi]
    exact exp_lt_exp.2 (by norm_num)
  rw [intervalIntegral.integral_const, smul_eq_mul, sub_zero] at h
  rw [i0, one_div, inv_mul_lt_iff₀ pi_pos]
  exact h

theorem one_le_i0 (k : ℝ) : 1 ≤ i0 k := by
  have h : ∫ t in (0 : ℝ)..π, (1 + k * cos t) ≤ ∫ t in (0 : ℝ)..π, exp (k * cos t) :=
    intervalIntegral.integral_mono_on pi_pos.le (Continuous.intervalIntegrable (by fun_prop) _ _)
      (Continuous.intervalIntegrable (by fun_prop) _ _) fun t _ => by linarith [add_one_le_exp (k * cos t)]
  rw [intervalIntegral.integral_add (by simp) (Continuous.intervalIntegrable (by fun_prop) _ _),
    intervalIntegral.integral_const, intervalIntegral.integral_const_mul, integral_cos, sin_pi, sin_zero] at h
  simp only [smul_eq_mul, sub_zero, mul_one, mul_zero, add_zero] at h
  rw [i0, one_div, ← div_eq_inv_mul, le_div_iff₀ pi_pos, one_mul]
  exact h

/-- `log i0` is not a line, not even up to a constant. -/
theorem log_i0_independent {u v K : ℝ} (h : ∀ k, 0 < k → k * u - v * Real.log (i0 k) = K) : u = 0 ∧ v = 0 := by
  have hb : ∀ k : ℝ, 0 < k → 0 ≤ Real.log (i0 k) ∧ Real.log (i0 k) ≤ k := fun k hk =>
    ⟨Real.log_nonneg (one_le_i0 k), (Real.log_le_iff_le_exp (i0_pos k)).2 (i0_le hk.le)⟩
  have hl0 : Tendsto (fun k => Real.log (i0 k)) (𝓝[>] 0) (𝓝 0) := by
    refine tendsto_of_tendsto_of_tendsto_of_le_of_le' tendsto_const_nhds
      (tendsto_id.mono_left nhdsWithin_le_nhds) ?_ ?_
    · filter_upwards [self_mem_nhdsWithin] with k hk using (hb k hk).1
    · filter_upwards [self_mem_nhdsWithin] with k hk using (hb k hk).2
  have hK : K = 0 := by
    have h1 : Tendsto (fun k : ℝ => k * u - v * Real.log (i0 k)) (𝓝[>] 0) (𝓝 (0 * u - v * 0)) :=
      ((tendsto_id.mono_left nhdsWithin_le_nhds).mul_const u).sub (hl0.const_mul v)
    have h2 : Tendsto (fun k : ℝ => k * u - v * Real.log (i0 k)) (𝓝[>] 0) (𝓝 K) := by
      refine tendsto_const_nhds.congr' ?_
      filter_upwards [self_mem_nhdsWithin] with k hk using (h k hk).symm
    have := tendsto_nhds_unique h1 h2
    linarith
  subst hK
  have hv : v = 0 := by
    by_contra hv
    obtain ⟨w, hw⟩ : ∃ w, w = u / v := ⟨_, rfl⟩
    have hlin : ∀ k : ℝ, 0 < k → Real.log (i0 k) = w * k := by
      intro k hk
      have := h k hk
      rw [hw, div_mul_eq_mul_div, eq_div_iff hv]
      linarith
    have hw1 : w < 1 := by
      have := hlin 1 one_pos
      rw [mul_one] at this
      rw [← this]
      exact (Real.log_lt_iff_lt_exp (i0_pos 1)).2 i0_one_lt
    have hlow : ∀ k : ℝ, 0 < k → (1 - w) * k ≤ 1 + Real.log π + Real.log (1 + k) := by
      intro k hk
      have h1 := Real.log_le_log (by positivity) (i0_ge hk)
      rw [Real.log_div (exp_pos _).ne' (by positivity), Real.log_mul pi_pos.ne' (by positivity), Real.log_exp,
        hlin k hk] at h1
      linarith
    have hsqrt : ∀ k : ℝ, 0 < k → Real.log (1 + k) ≤ 2 * √(1 + k) := by
      intro k hk
      have h1 : Real.log (1 + k) = 2 * Real.log (√(1 + k)) := by
        rw [Real.log_sqrt (by positivity)]; ring
      have h2 := Real.log_le_sub_one_of_pos (Real.sqrt_pos.2 (show 0 < 1 + k by positivity))
      rw [h1]
      linarith
    -- a large `k` contradicts the lower bound
    obtain ⟨c, hc⟩ : ∃ c, c = 1 - w := ⟨_, rfl⟩
    have hc0 : 0 < c := by rw [hc]; linarith
    have hlp : 0 ≤ Real.log π := Real.log_nonneg (by linarith [two_le_pi])
    obtain ⟨t, ht⟩ : ∃ t, t = (3 + Real.log π + c) / c + 1 := ⟨_, rfl⟩
    have ht1 : 1 < t := by
      rw [ht]
      have : 0 < (3 + Real.log π + c) / c := by positivity
      linarith
    have hk : 0 < t ^ 2 - 1 := by nlinarith
    have e1 := hlow (t ^ 2 - 1) hk
    have e2 := hsqrt (t ^ 2 - 1) hk
    rw [show 1 + (t ^ 2 - 1) = t ^ 2 by ring, Real.sqrt_sq (by linarith)] at e2
    rw [show 1 + (t ^ 2 - 1) = t ^ 2 by ring, ← hc] at e1
    have e3 : c * t = 3 + Real.log π + 2 * c := by
      rw [ht]; field_simp; ring
    nlinarith
  refine ⟨?_, hv⟩
  have := h 1 one_pos
  rw [hv] at this
  linarith

/-- C97, `VonMisesKnownDirectionProportional`. -/
theorem C97_von_mises_known_direction_proportional (d d' : VonMisesKnownDirectionProportional ℝ)
    (h : ProportionalOn (Ioi 0) (fun kappa => exp (d.approx_log_likelihood kappa Real.log i0))
      (fun kappa => exp (d'.approx_log_likelihood kappa Real.log i0))) : d = d' := by
  obtain ⟨K, hK⟩ := ProportionalOn.log h
  obtain ⟨h1, h2⟩ := log_i0_independent (u := d.r - d'.r) (v := d.c - d'.c) (K := K) fun k hk => by
    have := hK k hk
    simp only [VonMisesKnownDirectionProportional.approx_log_likelihood] at this
    linear_combination this
  ext1 <;> linarith

/-- C98, `von_mises_known_direction`; the known directions may differ. -/
theorem C98_von_mises_known_direction (prior : VonMisesKnownDirectionProportional ℝ) (mu mu' : ℝ) (xs ys : List ℝ) :
    von_mises_known_direction (xs.map fun x => cos (x - mu)).sum (xs.length : ℝ) prior =
      von_mises_known_direction (ys.map fun x => cos (x - mu')).sum (ys.length : ℝ) prior ↔
    ProportionalOn (Ioi 0)
      (likelihood (fun kappa x => (VonMises.dist { mu := mu, kappa := kappa }).pdf x) xs)
      (likelihood (fun kappa x => (VonMises.dist { mu := mu', kappa := kappa }).pdf x) ys) := by
  rw [← kernel_proportional_iff (fun θ _ => exp_pos _) (C18_von_mises_known_direction_posterior prior mu xs)
    (C18_von_mises_known_direction_posterior prior mu' ys)]
  exact ⟨fun e => by rw [e]; exact ProportionalOn.rfl, C97_von_mises_known_direction_proportional _ _⟩

/-- Von Mises likelihoods of the direction are proportional exactly when both totals agree. -/
theorem vonMises_proportional_iff (kappa : ℝ) (hk : 0 < kappa) (xs ys : List ℝ) :
    ProportionalOn univ (likelihood (fun m x => (VonMises.dist { mu := m, kappa := kappa }).pdf x) xs)
      (likelihood (fun m x => (VonMises.dist { mu := m, kappa := kappa }).pdf x) ys) ↔
    (xs.map cos).sum = (ys.map cos).sum ∧ (xs.map sin).sum = (ys.map sin).sum := by
  have hi : ∀ l : List ℝ, 0 < (1 / (2 * π * i0 kappa)) ^ l.length := fun l => by
    have := i0_pos kappa
    positivity
  have e : ∀ (l : List ℝ) (m : ℝ), likelihood (fun m x => (VonMises.dist { mu := m, kappa := kappa }).pdf x) l m =
      (1 / (2 * π * i0 kappa)) ^ l.length * exp (kappa * (l.map cos).sum * cos m + kappa * (l.map sin).sum * sin m) := by
    intro l m
    rw [vonMises_likelihood]
    congr 2
    ring
  constructor
  · rintro ⟨c, hc, h⟩
    have h1 := hi xs
    have h2 := hi ys
    obtain ⟨r1, r2⟩ := cos_sin_kernel (A := kappa * (xs.map cos).sum) (B := kappa * (xs.map sin).sum)
      (A' := kappa * (ys.map cos).sum) (B' := kappa * (ys.map sin).sum)
      (c := c * (1 / (2 * π * i0 kappa)) ^ ys.length / (1 / (2 * π * i0 kappa)) ^ xs.length) (by positivity) (by
        intro m
        have := h m (mem_univ m)
        rw [e, e] at this
        rw [div_mul_eq_mul_div, eq_div_iff h1.ne']
        linear_combination this)
    exact ⟨mul_left_cancel₀ hk.ne' r1, mul_left_cancel₀ hk.ne' r2⟩
  · rintro ⟨h1, h2⟩
    refine ⟨(1 / (2 * π * i0 kappa)) ^ xs.length / (1 / (2 * π * i0 kappa)) ^ ys.length, div_pos (hi xs) (hi ys),
      fun m _ => ?_⟩
    have := hi ys
    rw [e, e, h1, h2]
    field_simp

/-- Full statement of C98 for `von_mises_known_concentration`. -/
def C98_von_mises_statement (kappa : ℝ) (prior : VonMisesKnownConcentration ℝ) (xs ys : List ℝ) : Prop :=
  von_mises_known_concentration (xs.map cos).sum (xs.map sin).sum (xs.length : ℝ) kappa prior sin cos arctan2 =
      von_mises_known_concentration (ys.map cos).sum (ys.map sin).sum (ys.length : ℝ) kappa prior sin cos arctan2 ↔
    ProportionalOn univ (likelihood (fun m x => (VonMises.dist { mu := m, kappa := kappa }).pdf x) xs)
      (likelihood (fun m x => (VonMises.dist { mu := m, kappa := kappa }).pdf x) ys)

/-- C98 is false for `von_mises_known_concentration`: after one observation at angle 0 and after two, the posterior
is the same object, because the concentration is computed from the sine total alone. -/
theorem C98_von_mises_known_concentration_false (kappa : ℝ) (hk : 0 < kappa) (a : ℝ) (ha : 0 < a) :
    ¬ C98_von_mises_statement kappa ⟨a, 0⟩ [0] [0, 0] := by
  intro h
  rw [C98_von_mises_statement, vonMises_proportional_iff kappa hk] at h
  have h1 := (h.1 (by
    simp only [von_mises_known_concentration, List.map_cons, List.map_nil, List.sum_cons, List.sum_nil, sin_zero,
      cos_zero, mul_zero, add_zero, mul_one, VonMisesKnownConcentration.mk.injEq, true_and, arctan2]
    have e : ∀ r : ℝ, 0 < r → Complex.arg ⟨r, 0⟩ = 0 := fun r hr => Complex.arg_ofReal_of_nonneg hr.le
    rw [e _ (by positivity), e _ (by positivity)])).1
  simp at h1

/-- C98 for `von_mises_known_concentration` when the resultant's sine total is not zero.
Missing: the case where it is zero, where the claim is false. -/
theorem C98_von_mises_known_concentration_partial (kappa : ℝ) (hk : 0 < kappa) (prior : VonMisesKnownConcentration ℝ)
    (xs ys : List ℝ) (hS : prior.a * sin prior.b + (xs.map sin).sum ≠ 0) :
    C98_von_mises_statement kappa prior xs ys := by
  rw [C98_von_mises_statement, vonMises_proportional_iff kappa hk]
  constructor
  · intro e
    simp only [von_mises_known_concentration, VonMisesKnownConcentration.mk.injEq] at e
    obtain ⟨e1, e2⟩ := e
    have es := mul_left_cancel₀ hk.ne' e1
    have hs : (xs.map sin).sum = (ys.map sin).sum := by linarith
    refine ⟨?_, hs⟩
    rw [← es] at e2
    obtain ⟨S, hSd⟩ : ∃ S, S = prior.a * sin prior.b + (xs.map sin).sum := ⟨_, rfl⟩
    obtain ⟨C, hC⟩ : ∃ C, C = prior.a * cos prior.b + (xs.map cos).sum := ⟨_, rfl⟩
    obtain ⟨C', hC'⟩ : ∃ C', C' = prior.a * cos prior.b + (ys.map cos).sum := ⟨_, rfl⟩
    rw [← hSd, ← hC, ← hC'] at e2
    rw [← hSd] at hS
    obtain ⟨p1, p2⟩ := arctan2_polar S C
    obtain ⟨q1, q2⟩ := arctan2_polar S C'
    rw [← e2] at q1 q2
    have hsin : sin (arctan2 S C) ≠ 0 := by
      intro h0
      rw [h0, mul_zero] at p2
      exact hS p2.symm
    have hr : √(C ^ 2 + S ^ 2) = √(C' ^ 2 + S ^ 2) := mul_right_cancel₀ hsin (p2.trans q2.symm)
    have : C = C' := by rw [← p1, ← q1, hr]
    linarith
  · rintro ⟨h1, h2⟩
    simp only [von_mises_known_concentration, h1, h2]

/-! ## Drawing without replacement -/

/-- The hypergeometric likelihood of a population with `m` successes is positive exactly when both the successes
and the failures drawn fit into the population. -/
theorem hypergeometric_pmf_pos_iff (N n x m : ℕ) (hm : m ≤ N) (hn : n ≤ N) (hx : x ≤ n) :
    (Hypergeometric.dist { N := (N : ℝ), k := (m : ℝ), n := (n : ℝ) }).pmf x ≠ 0 ↔ x ≤ m ∧ n - x ≤ N - m := by
  rw [C52_hypergeometric N m n x hm hn, if_pos hx, Ne, div_eq_zero_iff, mul_eq_zero]
  have h3 : ((N.choose n : ℕ) : ℝ) ≠ 0 := by exact_mod_cast (Nat.choose_pos hn).ne'
  simp only [h3, or_false, Nat.cast_eq_zero, Nat.choose_eq_zero_iff]
  omega

/-- Full statement of C98 for `hypergeometric_beta_binomial`: `x` successes in `n` draws against `y` in `n'`,
from a population of `N` whose number of successes is unknown. -/
def C98_hypergeometric_statement (N n x n' y : ℕ) (a b : ℝ) : Prop :=
  hypergeometric_beta_binomial (x : ℝ) (n : ℝ) { n := (N : ℝ), alpha := a, beta := b } =
      hypergeometric_beta_binomial (y : ℝ) (n' : ℝ) { n := (N : ℝ), alpha := a, beta := b } ↔
    ProportionalOn {m : ℕ | m ≤ N}
      (fun m => (Hypergeometric.dist { N := (N : ℝ), k := (m : ℝ), n := (n : ℝ) }).pmf x)
      (fun m => (Hypergeometric.dist { N := (N : ℝ), k := (m : ℝ), n := (n' : ℝ) }).pmf y)

/-- Hypergeometric likelihoods are proportional only for the same counts. -/
theorem hypergeometric_proportional_iff (N n x n' y : ℕ) (hn : n ≤ N) (hx : x ≤ n) (hn' : n' ≤ N) (hy : y ≤ n') :
    ProportionalOn {m : ℕ | m ≤ N}
      (fun m => (Hypergeometric.dist { N := (N : ℝ), k := (m : ℝ), n := (n : ℝ) }).pmf x)
      (fun m => (Hypergeometric.dist { N := (N : ℝ), k := (m : ℝ), n := (n' : ℝ) }).pmf y) ↔ x = y ∧ n = n' := by
  constructor
  · rintro ⟨c, hc, h⟩
    have e : ∀ m ≤ N, (x ≤ m ∧ n - x ≤ N - m ↔ y ≤ m ∧ n' - y ≤ N - m) := by
      intro m hm
      rw [← hypergeometric_pmf_pos_iff N n x m hm hn hx, ← hypergeometric_pmf_pos_iff N n' y m hm hn' hy]
      have := h m hm
      simp only at this
      rw [this]
      simp [hc.ne']
    have e1 := e x (by omega)
    have e2 := e y (by omega)
    have e3 := e (N - (n - x)) (by omega)
    have e4 := e (N - (n' - y)) (by omega)
    omega
  · rintro ⟨rfl, rfl⟩
    exact ProportionalOn.rfl

/-- C98 is false for `hypergeometric_beta_binomial` whenever two samples with the same number of successes have
different sizes: the size of the sample is ignored, so the posterior is the same. -/
theorem C98_hypergeometric_beta_binomial_false (N n n' x : ℕ) (hn : n ≤ N) (hn' : n' ≤ N) (hx : x ≤ n)
    (hx' : x ≤ n') (hne : n ≠ n') (a b : ℝ) : ¬ C98_hypergeometric_statement N n x n' x a b := by
  rw [C98_hypergeometric_statement, hypergeometric_proportional_iff N n x n' x hn hx hn' hx']
  intro h
  exact hne (h.1 rfl).2

/-- C98 for `hypergeometric_beta_binomial` and samples of the same size.
Missing: samples of different sizes, where the claim is false. -/
theorem C98_hypergeometric_beta_binomial_partial (N n x y : ℕ) (hn : n ≤ N) (hx : x ≤ n) (hy : y ≤ n) (a b : ℝ) :
    C98_hypergeometric_statement N n x n y a b := by
  rw [C98_hypergeometric_statement, hypergeometric_proportional_iff N n x n y hn hx hn hy]
  simp only [hypergeometric_beta_binomial, BetaBinomial.mk.injEq, add_right_inj, sub_right_inj, Nat.cast_inj]
  tauto

example := C98_hypergeometric_beta_binomial_false 10 3 4 2 (by norm_num) (by norm_num) (by norm_num) (by norm_num)
  (by norm_num) 1 1
example := C98_hypergeometric_beta_binomial_partial 10 4 2 3 (by norm_num) (by norm_num) (by norm_num) 1 1
example := C98_gamma ⟨1, 1, 1, 1⟩ one_pos [1, 4] [2, 2] (by simp) (by simp)
example := C98_gamma_known_rate ⟨1, 1, 1⟩ one_pos 2 two_pos [1, 4] [2, 2] (by simp) (by simp)
example := C98_beta ⟨1 / 2, 1 / 2, 1⟩ (by norm_num) (by norm_num) [1 / 2, 1 / 3] [1 / 3, 1 / 2] (by norm_num) (by norm_num)
example := C98_von_mises_known_direction ⟨1, 1⟩ 0 1 [1, 2] [3]
example := C98_von_mises_known_concentration_partial 1 one_pos ⟨1, 0⟩ [π / 2] [0] (by simp)

end Conj
