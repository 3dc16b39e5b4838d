import Verif.Lemmas.Identify
import Verif.Props.DistMeaning

/-!
# C97: different parameters mean different distributions

If two instances of a class give the same `dist.pdf` (or `dist.pmf`) wherever the class' distribution
lives, their parameters are the same.  A posterior printed with different numbers is a different posterior.
-/

open Real Filter Topology Set

namespace Conj

open Scipy

/-! ## Densities on an interval or on the line -/

/-- C97, `Beta`. -/
theorem C97_beta (d d' : Beta ℝ) (hd : d.Valid) (hd' : d'.Valid)
    (h : ∀ x ∈ Ioo (0 : ℝ) 1, d.dist.pdf x = d'.dist.pdf x) : d = d' := by
  have hlog : ∀ x ∈ Ioo (0 : ℝ) 1, log (betaFn d.alpha d.beta)⁻¹ + (d.alpha - 1) * log x +
      (d.beta - 1) * log (1 - x) = log (betaFn d'.alpha d'.beta)⁻¹ + (d'.alpha - 1) * log x +
      (d'.beta - 1) * log (1 - x) := by
    intro x hx
    have e := congrArg log (h x hx)
    have h1 := hx.1
    have h2 : 0 < 1 - x := sub_pos.2 hx.2
    rwa [Beta.pdf_eq d hx, Beta.pdf_eq d' hx, log_kernel (inv_pos.2 (betaFn_pos hd.1 hd.2)) h1 h2,
      log_kernel (inv_pos.2 (betaFn_pos hd'.1 hd'.2)) h1 h2] at e
  have l2 : 0 < log 2 := log_pos (by norm_num)
  have l3 : 0 < log 3 := log_pos (by norm_num)
  have l4 : log 4 = 2 * log 2 := by
    rw [show (4 : ℝ) = 2 ^ 2 by norm_num, log_pow]; norm_num
  have l34 : log 3 < log 4 := log_lt_log (by norm_num) (by norm_num)
  have e1 := hlog (1 / 2) (by constructor <;> norm_num)
  have e2 := hlog (1 / 4) (by constructor <;> norm_num)
  have e3 := hlog (3 / 4) (by constructor <;> norm_num)
  rw [show (1 : ℝ) - 1 / 2 = 1 / 2 by norm_num, log_div (by norm_num) (by norm_num), log_one] at e1
  rw [show (1 : ℝ) - 1 / 4 = 3 / 4 by norm_num, log_div (by norm_num) (by norm_num),
    log_div (by norm_num) (by norm_num), log_one] at e2
  rw [show (1 : ℝ) - 3 / 4 = 1 / 4 by norm_num, log_div (by norm_num) (by norm_num),
    log_div (by norm_num) (by norm_num), log_one] at e3
  have hab : d.alpha - d.beta = d'.alpha - d'.beta := by
    have : (d.alpha - d.beta - (d'.alpha - d'.beta)) * log 3 = 0 := by linear_combination e3 - e2
    rcases mul_eq_zero.1 this with h | h
    · linarith
    · exact absurd h l3.ne'
  have ha : d.alpha = d'.alpha := by
    have : (d.alpha - d'.alpha) * (log 3 - 2 * log 2) = 0 := by
      rw [l4] at e2
      linear_combination e2 - e1 + (log 3 - log 2) * hab
    rcases mul_eq_zero.1 this with h | h
    · linarith
    · linarith
  cases d; cases d'
  simp only [Beta.mk.injEq] at *
  exact ⟨ha, by linarith⟩

/-- C97, `Gamma`. -/
theorem C97_gamma (d d' : Gamma ℝ) (hd : d.Valid) (hd' : d'.Valid)
    (h : ∀ x ∈ Ioi (0 : ℝ), d.dist.pdf x = d'.dist.pdf x) : d = d' := by
  have hc : ∀ d : Gamma ℝ, d.Valid → 0 < d.beta ^ d.alpha / Real.Gamma d.alpha := fun d hd =>
    div_pos (rpow_pos_of_pos hd.2 _) (Real.Gamma_pos_of_pos hd.1)
  have hlog : ∀ x ∈ Ioi (0 : ℝ), log (d.beta ^ d.alpha / Real.Gamma d.alpha) + (d.alpha - 1) * log x +
      -(d.beta * x) = log (d'.beta ^ d'.alpha / Real.Gamma d'.alpha) + (d'.alpha - 1) * log x +
      -(d'.beta * x) := by
    intro x hx
    have e := congrArg log (h x hx)
    rwa [Gamma.pdf_eq d hd.2 hx, Gamma.pdf_eq d' hd'.2 hx, log_kernel_exp (hc d hd) hx,
      log_kernel_exp (hc d' hd') hx] at e
  have l2 : 0 < log 2 := log_pos (by norm_num)
  have l4 : log 4 = 2 * log 2 := by
    rw [show (4 : ℝ) = 2 ^ 2 by norm_num, log_pow]; norm_num
  have e1 := hlog 1 (by simp)
  have e2 := hlog 2 (by simp)
  have e4 := hlog 4 (by simp)
  rw [log_one] at e1
  rw [l4] at e4
  have hb : d.beta = d'.beta := by linear_combination -e4 + 2 * e2 - e1
  have ha : (d.alpha - d'.alpha) * log 2 = 0 := by
    linear_combination e2 - e1 + hb
  have ha' : d.alpha = d'.alpha := by
    rcases mul_eq_zero.1 ha with h | h
    · linarith
    · exact absurd h l2.ne'
  cases d; cases d'
  simp only [Gamma.mk.injEq] at *
  exact ⟨ha', hb⟩

/-- C97, `InverseGamma`. -/
theorem C97_inverse_gamma (d d' : InverseGamma ℝ) (hd : d.Valid) (hd' : d'.Valid)
    (h : ∀ x ∈ Ioi (0 : ℝ), d.dist.pdf x = d'.dist.pdf x) : d = d' := by
  have hc : ∀ d : InverseGamma ℝ, d.Valid → 0 < d.beta ^ d.alpha / Real.Gamma d.alpha := fun d hd =>
    div_pos (rpow_pos_of_pos hd.2 _) (Real.Gamma_pos_of_pos hd.1)
  have hlog : ∀ x ∈ Ioi (0 : ℝ), log (d.beta ^ d.alpha / Real.Gamma d.alpha) + (-d.alpha - 1) * log x +
      -(d.beta / x) = log (d'.beta ^ d'.alpha / Real.Gamma d'.alpha) + (-d'.alpha - 1) * log x +
      -(d'.beta / x) := by
    intro x hx
    have e := congrArg log (h x hx)
    rwa [InverseGamma.pdf_eq d hd.2 hx, InverseGamma.pdf_eq d' hd'.2 hx, log_kernel_exp (hc d hd) hx,
      log_kernel_exp (hc d' hd') hx] at e
  have l2 : 0 < log 2 := log_pos (by norm_num)
  have l4 : log 4 = 2 * log 2 := by
    rw [show (4 : ℝ) = 2 ^ 2 by norm_num, log_pow]; norm_num
  have e1 := hlog 1 (by simp)
  have e2 := hlog 2 (by simp)
  have e4 := hlog 4 (by simp)
  rw [log_one] at e1
  rw [l4] at e4
  have hb : d.beta = d'.beta := by linear_combination -4 * e4 + 8 * e2 - 4 * e1
  have ha : (d.alpha - d'.alpha) * log 2 = 0 := by
    linear_combination -e2 + e1 + hb / 2
  have ha' : d.alpha = d'.alpha := by
    rcases mul_eq_zero.1 ha with h | h
    · linarith
    · exact absurd h l2.ne'
  cases d; cases d'
  simp only [InverseGamma.mk.injEq] at *
  exact ⟨ha', hb⟩

/-- C97, `ScaledInverseChiSquared`. -/
theorem C97_scaled_inverse_chi_squared (d d' : ScaledInverseChiSquared ℝ) (hn : 0 < d.nu) (hs : 0 < d.sigma2)
    (hn' : 0 < d'.nu) (hs' : 0 < d'.sigma2)
    (h : ∀ x ∈ Ioi (0 : ℝ), d.dist.pdf x = d'.dist.pdf x) : d = d' := by
  have e := C97_inverse_gamma ⟨d.nu / 2, d.nu * d.sigma2 / 2⟩ ⟨d'.nu / 2, d'.nu * d'.sigma2 / 2⟩
    ⟨by simp only; positivity, by simp only; positivity⟩ ⟨by simp only; positivity, by simp only; positivity⟩ h
  simp only [InverseGamma.mk.injEq] at e
  have e1 : d.nu = d'.nu := by linarith [e.1]
  have e2 : d.sigma2 = d'.sigma2 := by
    have := e.2
    rw [e1] at this
    field_simp at this
    exact this
  cases d; cases d'
  simp only [ScaledInverseChiSquared.mk.injEq] at *
  exact ⟨e1, e2⟩

/-- C97, `Normal`. -/
theorem C97_normal (d d' : Normal ℝ) (hs : 0 < d.sigma) (hs' : 0 < d'.sigma)
    (h : ∀ x, d.dist.pdf x = d'.dist.pdf x) : d = d' := by
  have hlog : ∀ x, log (1 / (d.sigma * √(2 * π))) + -(x - d.mu) ^ 2 / (2 * d.sigma ^ 2) =
      log (1 / (d'.sigma * √(2 * π))) + -(x - d'.mu) ^ 2 / (2 * d'.sigma ^ 2) := by
    intro x
    have e := congrArg log (h x)
    rwa [Normal.pdf_eq d hs, Normal.pdf_eq d' hs', log_mul (by positivity) (exp_pos _).ne',
      log_mul (by positivity) (exp_pos _).ne', log_exp, log_exp] at e
  have e0 := hlog 0
  have e1 := hlog 1
  have e2 := hlog (-1)
  have hq : (d.sigma ^ 2)⁻¹ = (d'.sigma ^ 2)⁻¹ := by
    have a : ∀ s m : ℝ, -(1 - m) ^ 2 / (2 * s ^ 2) + -(-1 - m) ^ 2 / (2 * s ^ 2) -
        2 * (-(0 - m) ^ 2 / (2 * s ^ 2)) = -(s ^ 2)⁻¹ := fun s m => by
      rw [div_eq_mul_inv, div_eq_mul_inv, div_eq_mul_inv, mul_inv]; ring
    have := a d.sigma d.mu
    have := a d'.sigma d'.mu
    linarith
  have hσ : d.sigma = d'.sigma := by
    have := inv_inj.1 hq
    exact (pow_left_inj₀ hs.le hs'.le two_ne_zero).1 this
  have hm : d.mu = d'.mu := by
    have a : ∀ s m : ℝ, -(1 - m) ^ 2 / (2 * s ^ 2) - -(-1 - m) ^ 2 / (2 * s ^ 2) =
        2 * m * (s ^ 2)⁻¹ := fun s m => by
      rw [div_eq_mul_inv, div_eq_mul_inv, mul_inv]; ring
    have h1 := a d.sigma d.mu
    have h2 := a d'.sigma d'.mu
    have h3 : (d.mu - d'.mu) * (d'.sigma ^ 2)⁻¹ = 0 := by
      rw [hq] at h1
      linarith
    rcases mul_eq_zero.1 h3 with h | h
    · linarith
    · exact absurd h (by positivity)
  cases d; cases d'
  simp only [Normal.mk.injEq] at *
  exact ⟨hm, hσ⟩

theorem Exponential.pdf_pos (d : Exponential ℝ) (hd : 0 < d.lam) {x : ℝ} (hx : 0 < x) :
    d.dist.pdf x = exp (-(x / d.lam)) / d.lam := by
  simp only [Exponential.dist, Cont.pdf, sub_zero, Family.std]
  rw [if_pos (by positivity)]

/-- C97, `Exponential`. -/
theorem C97_exponential (d d' : Exponential ℝ) (hd : 0 < d.lam) (hd' : 0 < d'.lam)
    (h : ∀ x ∈ Ioi (0 : ℝ), d.dist.pdf x = d'.dist.pdf x) : d = d' := by
  have hlog : ∀ x ∈ Ioi (0 : ℝ), -(x / d.lam) - log d.lam = -(x / d'.lam) - log d'.lam := by
    intro x hx
    have e := congrArg log (h x hx)
    rwa [Exponential.pdf_pos d hd hx, Exponential.pdf_pos d' hd' hx, log_div (exp_pos _).ne' hd.ne',
      log_div (exp_pos _).ne' hd'.ne', log_exp, log_exp] at e
  have e1 := hlog 1 (by simp)
  have e2 := hlog 2 (by simp)
  have : (d.lam)⁻¹ = (d'.lam)⁻¹ := by
    simp only [div_eq_mul_inv] at e1 e2
    linarith
  cases d; cases d'
  simp only [Exponential.mk.injEq] at *
  exact inv_inj.1 this

theorem Uniform.pdf_ne_zero (d : Uniform ℝ) (hd : 0 < d.high) (x : ℝ) :
    d.dist.pdf x ≠ 0 ↔ d.low ≤ x ∧ x ≤ d.low + d.high := by
  have e : (0 ≤ (x - d.low) / d.high ∧ (x - d.low) / d.high ≤ 1) ↔ d.low ≤ x ∧ x ≤ d.low + d.high := by
    rw [le_div_iff₀ hd, div_le_one hd, zero_mul, sub_nonneg, sub_le_iff_le_add, add_comm d.high]
  simp only [Uniform.dist, Cont.pdf, Family.std]
  simp only [e]
  split_ifs with h
  · simp [h, hd.ne']
  · simp [h]

/-- C97, `Uniform`. -/
theorem C97_uniform (d d' : Uniform ℝ) (hd : 0 < d.high) (hd' : 0 < d'.high)
    (h : ∀ x, d.dist.pdf x = d'.dist.pdf x) : d = d' := by
  have hs : ∀ x, (d.low ≤ x ∧ x ≤ d.low + d.high) ↔ (d'.low ≤ x ∧ x ≤ d'.low + d'.high) := fun x => by
    rw [← Uniform.pdf_ne_zero d hd, ← Uniform.pdf_ne_zero d' hd', h]
  have h1 := (hs d.low).1 ⟨le_rfl, by linarith⟩
  have h2 := (hs d'.low).2 ⟨le_rfl, by linarith⟩
  have h3 := (hs (d.low + d.high)).1 ⟨by linarith, le_rfl⟩
  have h4 := (hs (d'.low + d'.high)).2 ⟨by linarith, le_rfl⟩
  cases d; cases d'
  simp only [Uniform.mk.injEq] at *
  constructor <;> linarith

theorem Pareto.pdf_ne_zero (d : Pareto ℝ) (hd : d.Valid) (x : ℝ) : d.dist.pdf x ≠ 0 ↔ d.x_m ≤ x := by
  rcases lt_or_ge x d.x_m with h | h
  · simp [Pareto.pdf_eq_zero d hd.1 h, h]
  · have hx := hd.1.trans_le h
    have h1 := hd.1
    have h2 := hd.2
    rw [Pareto.pdf_eq d hd.1 h]
    simp only [h, iff_true]
    positivity

/-- C97, `Pareto`. -/
theorem C97_pareto (d d' : Pareto ℝ) (hd : d.Valid) (hd' : d'.Valid)
    (h : ∀ x ∈ Ioi (0 : ℝ), d.dist.pdf x = d'.dist.pdf x) : d = d' := by
  have hs : ∀ x, 0 < x → (d.x_m ≤ x ↔ d'.x_m ≤ x) := fun x hx => by
    rw [← Pareto.pdf_ne_zero d hd, ← Pareto.pdf_ne_zero d' hd', h x hx]
  have hm : d.x_m = d'.x_m :=
    le_antisymm ((hs _ hd'.1).2 le_rfl) ((hs _ hd.1).1 le_rfl)
  have e := h d.x_m hd.1
  have h0 := hd.1
  rw [Pareto.pdf_eq d hd.1 le_rfl, Pareto.pdf_eq d' hd'.1 hm.ge, ← hm, rpow_add_one h0.ne',
    rpow_add_one h0.ne'] at e
  have p1 := rpow_pos_of_pos h0 d.alpha
  have p2 := rpow_pos_of_pos h0 d'.alpha
  field_simp at e
  cases d; cases d'
  simp only [Pareto.mk.injEq] at *
  exact ⟨hm, e⟩

/-! ## Heavy tails -/

theorem tendsto_log_affine {a b : ℝ} (hb : 0 < b) :
    Tendsto (fun x => log (a + b * x) - log x) atTop (𝓝 (log b)) := by
  have h1 : Tendsto (fun x : ℝ => a / x + b) atTop (𝓝 (0 + b)) :=
    (tendsto_const_nhds.div_atTop tendsto_id).add tendsto_const_nhds
  rw [zero_add] at h1
  refine ((continuousAt_log hb.ne').tendsto.comp h1).congr' ?_
  filter_upwards [eventually_gt_atTop 0, (tendsto_const_nhds.add_atTop
    (Tendsto.const_mul_atTop hb tendsto_id)).eventually (eventually_gt_atTop (0 : ℝ))] with x hx hx'
  simp only [Function.comp]
  have hx'' : 0 < a + b * x := hx'
  rw [← log_div hx''.ne' hx.ne']
  congr 1
  field_simp

/-- C97, `Lomax`. -/
theorem C97_lomax (d d' : Lomax ℝ) (ha : 0 < d.alpha) (hl : 0 < d.lam) (ha' : 0 < d'.alpha) (hl' : 0 < d'.lam)
    (h : ∀ x ∈ Ioi (0 : ℝ), d.dist.pdf x = d'.dist.pdf x) : d = d' := by
  have key : ∀ e : Lomax ℝ, 0 < e.alpha → 0 < e.lam →
      Tendsto (fun x => log (e.dist.pdf x) + (e.alpha + 1) * log x) atTop
        (𝓝 (log (e.alpha / e.lam) - (e.alpha + 1) * log (1 / e.lam))) := by
    intro e hea hel
    have := (tendsto_log_affine (a := 1) (b := 1 / e.lam) (by positivity)).const_mul (e.alpha + 1)
    refine (this.const_sub (log (e.alpha / e.lam))).congr' ?_
    filter_upwards [eventually_gt_atTop 0] with x hx
    rw [Lomax.pdf_eq e hel hx.le, log_mul (by positivity) (by positivity), log_rpow (by positivity),
      show (e.lam + x) / e.lam = 1 + 1 / e.lam * x by field_simp]
    ring
  have h1 := key d ha hl
  have h2 := key d' ha' hl'
  have h3 : Tendsto (fun x => log (d.dist.pdf x) + (d'.alpha + 1) * log x) atTop
      (𝓝 (log (d'.alpha / d'.lam) - (d'.alpha + 1) * log (1 / d'.lam))) := by
    refine h2.congr' ?_
    filter_upwards [eventually_gt_atTop 0] with x hx
    rw [h x hx]
  obtain ⟨e1, e2⟩ := rate_unique tendsto_log_atTop h1 h3
  have e1' : d.alpha = d'.alpha := by linarith
  rw [log_div ha.ne' hl.ne', log_div ha'.ne' hl'.ne', log_div one_ne_zero hl.ne',
    log_div one_ne_zero hl'.ne', log_one, ← e1'] at e2
  have e3 : d.alpha * (log d.lam - log d'.lam) = 0 := by linear_combination e2
  have e4 : d.lam = d'.lam := by
    rcases mul_eq_zero.1 e3 with h | h
    · exact absurd h ha.ne'
    · exact log_injOn_pos hl hl' (sub_eq_zero.1 h)
  cases d; cases d'
  simp only [Lomax.mk.injEq] at *
  exact ⟨e1', e4⟩

theorem tendsto_log_quadratic (m : ℝ) {b : ℝ} (hb : 0 < b) :
    Tendsto (fun x => log (1 + b * (x - m) ^ 2) - 2 * log x) atTop (𝓝 (log b)) := by
  have h1 : Tendsto (fun x : ℝ => (1 / x) ^ 2 + b * (1 - m / x) ^ 2) atTop
      (𝓝 (0 ^ 2 + b * (1 - 0) ^ 2)) := by
    have a1 : Tendsto (fun x : ℝ => 1 / x) atTop (𝓝 0) := tendsto_const_nhds.div_atTop tendsto_id
    have a2 : Tendsto (fun x : ℝ => m / x) atTop (𝓝 0) := tendsto_const_nhds.div_atTop tendsto_id
    exact (a1.pow 2).add (((a2.const_sub 1).pow 2).const_mul b)
  rw [show (0 : ℝ) ^ 2 + b * (1 - 0) ^ 2 = b by ring] at h1
  refine ((continuousAt_log hb.ne').tendsto.comp h1).congr' ?_
  filter_upwards [eventually_gt_atTop 0] with x hx
  simp only [Function.comp]
  have e : (1 / x) ^ 2 + b * (1 - m / x) ^ 2 = (1 + b * (x - m) ^ 2) / x ^ 2 := by
    field_simp
  rw [e, log_div (by positivity) (by positivity), log_pow]
  norm_num

/-- C97, `StudentT`. -/
theorem C97_student_t (d d' : StudentT ℝ) (hs : 0 < d.sigma) (hn : 0 < d.nu) (hs' : 0 < d'.sigma)
    (hn' : 0 < d'.nu) (h : ∀ x, d.dist.pdf x = d'.dist.pdf x) : d = d' := by
  have key : ∀ e : StudentT ℝ, 0 < e.sigma → 0 < e.nu →
      Tendsto (fun x => log (e.dist.pdf x) + (e.nu + 1) * log x) atTop
        (𝓝 (log (Real.Gamma ((e.nu + 1) / 2) / (Real.Gamma (e.nu / 2) * √(π * e.nu) * e.sigma)) -
          (e.nu + 1) / 2 * log (1 / (e.nu * e.sigma ^ 2)))) := by
    intro e hes hen
    have g1 : 0 < Real.Gamma ((e.nu + 1) / 2) := Real.Gamma_pos_of_pos (by positivity)
    have g2 : 0 < Real.Gamma (e.nu / 2) := Real.Gamma_pos_of_pos (by positivity)
    have g3 : 0 < √(π * e.nu) := Real.sqrt_pos.2 (by positivity)
    have := (tendsto_log_quadratic e.mu (b := 1 / (e.nu * e.sigma ^ 2)) (by positivity)).const_mul
      ((e.nu + 1) / 2)
    refine (this.const_sub (log (Real.Gamma ((e.nu + 1) / 2) /
      (Real.Gamma (e.nu / 2) * √(π * e.nu) * e.sigma)))).congr' ?_
    filter_upwards [eventually_gt_atTop 0] with x hx
    rw [C52_student_t e hes hen, log_mul (by positivity) (by positivity), log_rpow (by positivity),
      show 1 / e.nu * ((x - e.mu) / e.sigma) ^ 2 = 1 / (e.nu * e.sigma ^ 2) * (x - e.mu) ^ 2 by field_simp]
    ring
  have h1 := key d hs hn
  have h2 := key d' hs' hn'
  simp only [← h] at h2
  obtain ⟨e1, e2⟩ := rate_unique tendsto_log_atTop h1 h2
  have e1' : d.nu = d'.nu := by linarith
  have g1 : 0 < Real.Gamma ((d.nu + 1) / 2) := Real.Gamma_pos_of_pos (by positivity)
  have g2 : 0 < Real.Gamma (d.nu / 2) := Real.Gamma_pos_of_pos (by positivity)
  have g3 : 0 < √(π * d.nu) := Real.sqrt_pos.2 (by positivity)
  have e3 : d.sigma = d'.sigma := by
    rw [← e1', ← div_div _ _ d.sigma, ← div_div _ _ d'.sigma, log_div (by positivity) hs.ne', log_div (by positivity) hs'.ne',
      log_div one_ne_zero (by positivity), log_div one_ne_zero (by positivity), log_mul hn.ne' (by positivity),
      log_mul hn.ne' (by positivity), log_pow, log_pow] at e2
    push_cast at e2
    have e3 : d.nu * (log d.sigma - log d'.sigma) = 0 := by linear_combination e2
    rcases mul_eq_zero.1 e3 with h | h
    · exact absurd h hn.ne'
    · exact log_injOn_pos hs hs' (sub_eq_zero.1 h)
  have e4 : d.mu = d'.mu := by
    have e := h d.mu
    rw [C52_student_t d hs hn, C52_student_t d' hs' hn', ← e1', ← e3] at e
    have e5 := mul_left_cancel₀ (by positivity) e
    rw [sub_self, zero_div, zero_pow two_ne_zero, mul_zero, add_zero, one_rpow] at e5
    by_contra hne
    have hlt : 1 < 1 + 1 / d.nu * ((d.mu - d'.mu) / d.sigma) ^ 2 := by
      have : d.mu - d'.mu ≠ 0 := sub_ne_zero.2 hne
      have : 0 < ((d.mu - d'.mu) / d.sigma) ^ 2 := by positivity
      have : 0 < 1 / d.nu * ((d.mu - d'.mu) / d.sigma) ^ 2 := by positivity
      linarith
    have := rpow_lt_one_of_one_lt_of_neg hlt (z := -(d.nu + 1) / 2) (by linarith)
    linarith
  cases d; cases d'
  simp only [StudentT.mk.injEq] at *
  exact ⟨e4, e3, e1'⟩

/-- C97, `CompoundGamma`. -/
theorem C97_compound_gamma (d d' : CompoundGamma ℝ) (ha : 0 < d.alpha) (hb : 0 < d.beta) (hl : 0 < d.lam)
    (ha' : 0 < d'.alpha) (hb' : 0 < d'.beta) (hl' : 0 < d'.lam)
    (h : ∀ x ∈ Ioi (0 : ℝ), d.pdf x = d'.pdf x) : d = d' := by
  have hlog : ∀ e : CompoundGamma ℝ, 0 < e.alpha → 0 < e.beta → 0 < e.lam → ∀ x : ℝ, 0 < x →
      log (e.pdf x) = (e.alpha - 1) * (log x - log e.lam) - (e.alpha + e.beta) * log (1 + 1 / e.lam * x) -
        log (e.lam * betaFn e.alpha e.beta) := by
    intro e hea heb hel x hx
    have := betaFn_pos hea heb
    rw [CompoundGamma.pdf, compoundGammaPdf, log_div (by positivity) (by positivity),
      log_mul (by positivity) (by positivity), log_rpow (by positivity), log_rpow (by positivity),
      log_div hx.ne' hel.ne', show x / e.lam = 1 / e.lam * x by ring]
    ring
  have keyTop : ∀ e : CompoundGamma ℝ, 0 < e.alpha → 0 < e.beta → 0 < e.lam →
      Tendsto (fun x => log (e.pdf x) + (e.beta + 1) * log x) atTop
        (𝓝 (-(e.alpha - 1) * log e.lam - log (e.lam * betaFn e.alpha e.beta) -
          (e.alpha + e.beta) * log (1 / e.lam))) := by
    intro e hea heb hel
    have := (tendsto_log_affine (a := 1) (b := 1 / e.lam) (by positivity)).const_mul (e.alpha + e.beta)
    refine (this.const_sub (-(e.alpha - 1) * log e.lam - log (e.lam * betaFn e.alpha e.beta))).congr' ?_
    filter_upwards [eventually_gt_atTop 0] with x hx
    rw [hlog e hea heb hel x hx]
    ring
  have keyZero : ∀ e : CompoundGamma ℝ, 0 < e.alpha → 0 < e.beta → 0 < e.lam →
      Tendsto (fun x => log (e.pdf x) + (e.alpha - 1) * (-log x)) (𝓝[>] 0)
        (𝓝 (-(e.alpha - 1) * log e.lam - log (e.lam * betaFn e.alpha e.beta) -
          (e.alpha + e.beta) * log (1 + 1 / e.lam * 0))) := by
    intro e hea heb hel
    have h1 : Tendsto (fun x : ℝ => log (1 + 1 / e.lam * x)) (𝓝[>] 0) (𝓝 (log (1 + 1 / e.lam * 0))) := by
      refine Tendsto.mono_left ?_ nhdsWithin_le_nhds
      have : ContinuousAt (fun x : ℝ => log (1 + 1 / e.lam * x)) 0 := by
        refine ContinuousAt.log (by fun_prop) (by simp)
      exact this.tendsto
    refine ((h1.const_mul (e.alpha + e.beta)).const_sub
      (-(e.alpha - 1) * log e.lam - log (e.lam * betaFn e.alpha e.beta))).congr' ?_
    filter_upwards [self_mem_nhdsWithin] with x hx
    rw [hlog e hea heb hel x hx]
    ring
  have hg : Tendsto (fun x : ℝ => -log x) (𝓝[>] 0) atTop := tendsto_neg_atBot_atTop.comp tendsto_log_nhdsGT_zero
  obtain ⟨e1, -⟩ := rate_unique tendsto_log_atTop (keyTop d ha hb hl) ((keyTop d' ha' hb' hl').congr' (by
    filter_upwards [eventually_gt_atTop 0] with x hx
    rw [h x hx]))
  obtain ⟨e2, e3⟩ := rate_unique hg (keyZero d ha hb hl) ((keyZero d' ha' hb' hl').congr' (by
    filter_upwards [self_mem_nhdsWithin] with x hx
    rw [h x hx]))
  have eb : d.beta = d'.beta := by linarith
  have ea : d.alpha = d'.alpha := by linarith
  have hB := betaFn_pos ha hb
  rw [← ea, ← eb, log_mul hl.ne' hB.ne', log_mul hl'.ne' hB.ne'] at e3
  simp only [mul_zero, add_zero, log_one] at e3
  have e4 : d.alpha * (log d.lam - log d'.lam) = 0 := by linear_combination -e3
  have el : d.lam = d'.lam := by
    rcases mul_eq_zero.1 e4 with h | h
    · exact absurd h ha.ne'
    · exact log_injOn_pos hl hl' (sub_eq_zero.1 h)
  cases d; cases d'
  simp only [CompoundGamma.mk.injEq] at *
  exact ⟨ea, eb, el⟩

/-- C97, `Weibull`. -/
theorem C97_weibull (d d' : Weibull ℝ) (hb : 0 < d.beta) (ht : 0 < d.theta) (hb' : 0 < d'.beta)
    (ht' : 0 < d'.theta) (h : ∀ x ∈ Ioi (0 : ℝ), d.dist.pdf x = d'.dist.pdf x) : d = d' := by
  have key : ∀ e : Weibull ℝ, 0 < e.beta → 0 < e.theta →
      Tendsto (fun x => log (e.dist.pdf x) + (e.beta - 1) * (-log x)) (𝓝[>] 0)
        (𝓝 (log (e.beta / e.theta) - 0 ^ e.beta / e.theta)) := by
    intro e heb het
    have h1 : Tendsto (fun x : ℝ => x ^ e.beta / e.theta) (𝓝[>] 0) (𝓝 (0 ^ e.beta / e.theta)) := by
      refine Tendsto.mono_left ?_ nhdsWithin_le_nhds
      exact ((continuousAt_rpow_const 0 e.beta (Or.inr heb.le)).tendsto).div_const _
    refine (h1.const_sub (log (e.beta / e.theta))).congr' ?_
    filter_upwards [self_mem_nhdsWithin] with x hx
    have hx0 : 0 < x := hx
    have e1 : e.dist.pdf x = e.beta / e.theta * x ^ (e.beta - 1) * exp (-(x ^ e.beta / e.theta)) := by
      rw [C52_weibull e heb het x hx]; ring
    rw [e1, log_kernel_exp (by positivity) hx0]
    ring
  have hg : Tendsto (fun x : ℝ => -log x) (𝓝[>] 0) atTop := tendsto_neg_atBot_atTop.comp tendsto_log_nhdsGT_zero
  obtain ⟨e1, e2⟩ := rate_unique hg (key d hb ht) ((key d' hb' ht').congr' (by
    filter_upwards [self_mem_nhdsWithin] with x hx
    rw [h x hx]))
  have eb : d.beta = d'.beta := by linarith
  rw [zero_rpow hb.ne', zero_rpow hb'.ne', zero_div, zero_div, sub_zero, sub_zero, ← eb] at e2
  have e3 := log_injOn_pos (show 0 < d.beta / d.theta by positivity) (show 0 < d.beta / d'.theta by positivity) e2
  have et : d.theta = d'.theta := by
    field_simp at e3
    exact e3.symm
  cases d; cases d'
  simp only [Weibull.mk.injEq] at *
  exact ⟨eb, et⟩

/-! ## `LogNormal` and `VonMises` -/

theorem LogNormal.pdf_pos_iff (d : LogNormal ℝ) (hs : 0 < d.sigma) (x : ℝ) : d.dist.pdf x ≠ 0 ↔ d.mu < x := by
  simp only [LogNormal.dist, Cont.pdf, Family.std, div_one]
  split_ifs with h
  · have : 0 < √(2 * π) := Real.sqrt_pos.2 (by positivity)
    have hx := sub_pos.1 h
    simp only [hx, iff_true]
    positivity
  · have hx : ¬ d.mu < x := fun h' => h (sub_pos.2 h')
    simp [hx]

/-- C97, `LogNormal`: `mu` moves the support, so it can be read off (it is not the mean of the logarithm, see
C52). -/
theorem C97_log_normal (d d' : LogNormal ℝ) (hs : 0 < d.sigma) (hs' : 0 < d'.sigma)
    (h : ∀ x, d.dist.pdf x = d'.dist.pdf x) : d = d' := by
  have hx : ∀ x, d.mu < x ↔ d'.mu < x := fun x => by
    rw [← LogNormal.pdf_pos_iff d hs, ← LogNormal.pdf_pos_iff d' hs', h]
  have hm : d.mu = d'.mu := by
    rcases lt_trichotomy d.mu d'.mu with h | h | h
    · exact absurd ((hx _).1 h) (lt_irrefl _)
    · exact h
    · exact absurd ((hx _).2 h) (lt_irrefl _)
  have e := h (d.mu + 1)
  simp only [LogNormal.dist, Cont.pdf, Family.std, ← hm, add_sub_cancel_left, div_one, zero_lt_one, if_true,
    log_one] at e
  have hq : 0 < √(2 * π) := Real.sqrt_pos.2 (by positivity)
  simp at e
  have e2 : d.sigma = d'.sigma := by
    rcases e with e | e
    · exact e
    · exact absurd e (by positivity)
  cases d; cases d'
  simp only [LogNormal.mk.injEq] at *
  exact ⟨hm, e2⟩

/-- C97, `VonMises`: the concentration is determined, the direction up to whole turns. -/
theorem C97_von_mises (d d' : VonMises ℝ) (hk : 0 < d.kappa) (hk' : 0 < d'.kappa) :
    (∀ x, d.dist.pdf x = d'.dist.pdf x) ↔ d.kappa = d'.kappa ∧ ∃ n : ℤ, d.mu = d'.mu + n * (2 * π) := by
  have e : ∀ (d : VonMises ℝ) x, d.dist.pdf x = exp (d.kappa * cos (x - d.mu)) / (2 * π * i0 d.kappa) :=
    fun d x => VonMises.pdf_eq d.mu d.kappa x
  constructor
  · intro h
    have hlog : ∀ x, d.kappa * cos (x - d.mu) - log (2 * π * i0 d.kappa) =
        d'.kappa * cos (x - d'.mu) - log (2 * π * i0 d'.kappa) := by
      intro x
      have := congrArg log (h x)
      have p1 := i0_pos d.kappa
      have p2 := i0_pos d'.kappa
      rwa [e, e, log_div (exp_pos _).ne' (by positivity), log_div (exp_pos _).ne' (by positivity), log_exp,
        log_exp] at this
    have hcos : ∀ x, d.kappa * cos (x - d.mu) = d'.kappa * cos (x - d'.mu) := by
      intro x
      have h1 := hlog x
      have h2 := hlog (x + π)
      rw [show x + π - d.mu = x - d.mu + π by ring, show x + π - d'.mu = x - d'.mu + π by ring, cos_add_pi,
        cos_add_pi] at h2
      linarith
    have h1 := hcos d.mu
    have h2 := hcos d'.mu
    rw [sub_self, cos_zero, mul_one] at h1 h2
    have c1 := cos_le_one (d.mu - d'.mu)
    have c2 := cos_le_one (d'.mu - d.mu)
    have hkk : d.kappa = d'.kappa := by
      refine le_antisymm ?_ ?_
      · rw [h1]; nlinarith
      · rw [← h2]; nlinarith
    refine ⟨hkk, ?_⟩
    have hc : cos (d.mu - d'.mu) = 1 := by
      rw [← hkk] at h1
      have : d.kappa * (1 - cos (d.mu - d'.mu)) = 0 := by linarith
      rcases mul_eq_zero.1 this with h | h
      · exact absurd h hk.ne'
      · linarith
    obtain ⟨n, hn⟩ := (cos_eq_one_iff _).1 hc
    exact ⟨n, by linarith⟩
  · rintro ⟨h1, n, hn⟩ x
    rw [e, e, h1, hn, show x - (d'.mu + n * (2 * π)) = x - d'.mu - n * (2 * π) by ring, cos_sub_int_mul_two_pi]

/-- C97, `VonMises` with the direction in the documented range. -/
theorem C97_von_mises_principal (d d' : VonMises ℝ) (hk : 0 < d.kappa) (hk' : 0 < d'.kappa)
    (hm : d.mu ∈ Ioc (-π) π) (hm' : d'.mu ∈ Ioc (-π) π) (h : ∀ x, d.dist.pdf x = d'.dist.pdf x) : d = d' := by
  obtain ⟨h1, n, hn⟩ := (C97_von_mises d d' hk hk').1 h
  have hp := pi_pos
  have n0 : n = 0 := by
    have a1 : (n : ℝ) < 1 := by
      by_contra hc
      have := hm.2
      have := hm'.1
      nlinarith
    have a2 : (-1 : ℝ) < n := by
      by_contra hc
      have := hm.1
      have := hm'.2
      nlinarith
    have b1 : n < 1 := by exact_mod_cast a1
    have b2 : -1 < n := by exact_mod_cast a2
    omega
  rw [n0, Int.cast_zero, zero_mul, add_zero] at hn
  cases d; cases d'
  simp only [VonMises.mk.injEq] at *
  exact ⟨hn, h1⟩

/-! ## The hypotheses are met

For each distribution two different valid sets of parameters; the theorems give a point where the densities differ. -/

example : ∃ x ∈ Ioo (0 : ℝ) 1, (Beta.mk (1 : ℝ) 2).dist.pdf x ≠ (Beta.mk 2 1).dist.pdf x := by
  by_contra h
  push Not at h
  have := C97_beta ⟨1, 2⟩ ⟨2, 1⟩ ⟨by norm_num, by norm_num⟩ ⟨by norm_num, by norm_num⟩ h
  norm_num at this

example : ∃ x ∈ Ioi (0 : ℝ), (Gamma.mk (1 : ℝ) 2).dist.pdf x ≠ (Gamma.mk 2 1).dist.pdf x := by
  by_contra h
  push Not at h
  have := C97_gamma ⟨1, 2⟩ ⟨2, 1⟩ ⟨by norm_num, by norm_num⟩ ⟨by norm_num, by norm_num⟩ h
  norm_num at this

example : ∃ x ∈ Ioi (0 : ℝ), (InverseGamma.mk (1 : ℝ) 2).dist.pdf x ≠ (InverseGamma.mk 2 1).dist.pdf x := by
  by_contra h
  push Not at h
  have := C97_inverse_gamma ⟨1, 2⟩ ⟨2, 1⟩ ⟨by norm_num, by norm_num⟩ ⟨by norm_num, by norm_num⟩ h
  norm_num at this

example : ∃ x ∈ Ioi (0 : ℝ), (ScaledInverseChiSquared.mk (1 : ℝ) 2).dist.pdf x ≠ (ScaledInverseChiSquared.mk 2 1).dist.pdf x := by
  by_contra h
  push Not at h
  have := C97_scaled_inverse_chi_squared ⟨1, 2⟩ ⟨2, 1⟩ (by norm_num) (by norm_num) (by norm_num) (by norm_num) h
  norm_num at this

example : ∃ x, (Normal.mk (0 : ℝ) 1).dist.pdf x ≠ (Normal.mk 0 2).dist.pdf x := by
  by_contra h
  push Not at h
  have := C97_normal ⟨0, 1⟩ ⟨0, 2⟩ (by norm_num) (by norm_num) h
  norm_num at this

example : ∃ x ∈ Ioi (0 : ℝ), (Exponential.mk (1 : ℝ)).dist.pdf x ≠ (Exponential.mk 2).dist.pdf x := by
  by_contra h
  push Not at h
  have := C97_exponential ⟨1⟩ ⟨2⟩ (by norm_num) (by norm_num) h
  norm_num at this

example : ∃ x, (Uniform.mk (0 : ℝ) 1).dist.pdf x ≠ (Uniform.mk 0 2).dist.pdf x := by
  by_contra h
  push Not at h
  have := C97_uniform ⟨0, 1⟩ ⟨0, 2⟩ (by norm_num) (by norm_num) h
  norm_num at this

example : ∃ x ∈ Ioi (0 : ℝ), (Pareto.mk (1 : ℝ) 2).dist.pdf x ≠ (Pareto.mk 2 1).dist.pdf x := by
  by_contra h
  push Not at h
  have := C97_pareto ⟨1, 2⟩ ⟨2, 1⟩ ⟨by norm_num, by norm_num⟩ ⟨by norm_num, by norm_num⟩ h
  norm_num at this

example : ∃ x ∈ Ioi (0 : ℝ), (Lomax.mk (1 : ℝ) 2).dist.pdf x ≠ (Lomax.mk 2 1).dist.pdf x := by
  by_contra h
  push Not at h
  have := C97_lomax ⟨1, 2⟩ ⟨2, 1⟩ (by norm_num) (by norm_num) (by norm_num) (by norm_num) h
  norm_num at this

example : ∃ x, (StudentT.mk (0 : ℝ) 1 3).dist.pdf x ≠ (StudentT.mk 0 1 4).dist.pdf x := by
  by_contra h
  push Not at h
  have := C97_student_t ⟨0, 1, 3⟩ ⟨0, 1, 4⟩ (by norm_num) (by norm_num) (by norm_num) (by norm_num) h
  norm_num at this

example : ∃ x ∈ Ioi (0 : ℝ), (CompoundGamma.mk (1 : ℝ) 2 3).pdf x ≠ (CompoundGamma.mk 2 1 3).pdf x := by
  by_contra h
  push Not at h
  have := C97_compound_gamma ⟨1, 2, 3⟩ ⟨2, 1, 3⟩ (by norm_num) (by norm_num) (by norm_num) (by norm_num) (by norm_num) (by norm_num) h
  norm_num at this

example : ∃ x ∈ Ioi (0 : ℝ), (Weibull.mk (1 : ℝ) 2).dist.pdf x ≠ (Weibull.mk 2 1).dist.pdf x := by
  by_contra h
  push Not at h
  have := C97_weibull ⟨1, 2⟩ ⟨2, 1⟩ (by norm_num) (by norm_num) (by norm_num) (by norm_num) h
  norm_num at this

example : ∃ x, (LogNormal.mk (0 : ℝ) 1).dist.pdf x ≠ (LogNormal.mk 0 2).dist.pdf x := by
  by_contra h
  push Not at h
  have := C97_log_normal ⟨0, 1⟩ ⟨0, 2⟩ (by norm_num) (by norm_num) h
  norm_num at this

example : ∃ x, (VonMises.mk (0 : ℝ) 1).dist.pdf x ≠ (VonMises.mk 1 1).dist.pdf x := by
  by_contra h
  push Not at h
  have := C97_von_mises_principal ⟨0, 1⟩ ⟨1, 1⟩ one_pos one_pos ⟨by linarith [pi_pos], pi_pos.le⟩
    ⟨by linarith [pi_pos], by linarith [two_le_pi]⟩ h
  norm_num at this

end Conj
