import Verif.Lemmas.Rounding
import Verif.Params

/-!
# Relative errors of float expressions
-/

set_option linter.unusedSectionVars false

namespace Conj

open Spec

/-- `y` is `x` up to `k` roundings -/
def Near (u : ℝ) (k : ℕ) (x y : ℝ) : Prop := ∃ t, (1 - u) ^ k ≤ t ∧ t ≤ ((1 - u) ^ k)⁻¹ ∧ y = x * t

variable {u : ℝ} {F : FloatArith} {j k : ℕ} {x y a b a' b' : ℝ}

theorem near_refl (x : ℝ) : Near u 0 x x := ⟨1, by simp, by simp, by simp⟩

section
variable (h0 : 0 ≤ u) (h1 : u ≤ 1 / 4)
include h0 h1

theorem near_mono (h : Near u j x y) (hjk : j ≤ k) : Near u k x y := by
  obtain ⟨t, l, r, e⟩ := h
  have hp : (1 - u) ^ k ≤ (1 - u) ^ j := pow_le_pow_of_le_one (by linarith) (by linarith) hjk
  have hk : 0 < (1 - u) ^ k := pow_pos (by linarith) _
  exact ⟨t, hp.trans l, r.trans (inv_anti₀ hk hp), e⟩

theorem near_trans {z : ℝ} (h : Near u j x y) (h' : Near u k y z) : Near u (j + k) x z := by
  obtain ⟨t, l, r, e⟩ := h
  obtain ⟨t', l', r', e'⟩ := h'
  have hj : 0 < (1 - u) ^ j := pow_pos (by linarith) _
  have hk : 0 < (1 - u) ^ k := pow_pos (by linarith) _
  refine ⟨t * t', ?_, ?_, by rw [e', e, mul_assoc]⟩
  · rw [pow_add]; exact mul_le_mul l l' hk.le (hj.le.trans l)
  · rw [pow_add, mul_inv]; exact mul_le_mul r r' (hk.le.trans l') (inv_pos.2 hj).le

theorem near_of_relError (h : RelError u x y) : Near u 1 x y := by
  rw [RelError] at h
  by_cases hx : x = 0
  · subst hx
    rw [sub_zero, abs_zero, mul_zero] at h
    have := abs_nonpos_iff.1 h
    exact ⟨1, by simp [h0], by rw [pow_one]; exact (one_le_inv₀ (by linarith)).2 (by linarith), by simp [this]⟩
  have h3 : |y / x - 1| ≤ u := by
    rw [div_sub_one hx, abs_div, div_le_iff₀ (abs_pos.2 hx)]; exact h
  rw [abs_le] at h3
  refine ⟨y / x, by rw [pow_one]; linarith, ?_, by field_simp⟩
  rw [pow_one, le_inv_comm₀ (by linarith) (by linarith)]
  have : (y / x)⁻¹ ≥ (1 + u)⁻¹ := inv_anti₀ (by linarith) (by linarith)
  refine le_trans ?_ this
  rw [le_inv_comm₀ (by linarith) (by linarith), le_inv_comm₀ (by linarith) (by linarith)]
  rw [le_inv_comm₀ (by linarith) (by linarith), ← one_div, le_div_iff₀ (by linarith)]
  nlinarith

theorem near_of_relError_two (h : RelError (2 * u) x y) : Near u 3 x y := by
  rw [RelError] at h
  have hc : (0 : ℝ) < (1 - u) ^ 3 := pow_pos (by linarith) _
  have hlow : (1 - u) ^ 3 ≤ 1 - 2 * u := by nlinarith [mul_nonneg h0 h0, mul_nonneg h0 (mul_nonneg h0 h0)]
  have hhigh : 1 + 2 * u ≤ ((1 - u) ^ 3)⁻¹ := by
    rw [← one_div, le_div_iff₀ hc]
    nlinarith [mul_nonneg h0 h0, mul_nonneg h0 (mul_nonneg h0 h0)]
  by_cases hx : x = 0
  · subst hx
    rw [sub_zero, abs_zero, mul_zero] at h
    have := abs_nonpos_iff.1 h
    exact ⟨1, by linarith, by linarith, by simp [this]⟩
  have h3 : |y / x - 1| ≤ 2 * u := by
    rw [div_sub_one hx, abs_div, div_le_iff₀ (abs_pos.2 hx)]; exact h
  rw [abs_le] at h3
  exact ⟨y / x, by linarith, by linarith, by field_simp⟩

theorem near_mul (h : Near u j a a') (h' : Near u k b b') : Near u (j + k) (a * b) (a' * b') := by
  obtain ⟨t, l, r, e⟩ := h
  obtain ⟨t', l', r', e'⟩ := h'
  have hj : 0 < (1 - u) ^ j := pow_pos (by linarith) _
  have hk : 0 < (1 - u) ^ k := pow_pos (by linarith) _
  refine ⟨t * t', ?_, ?_, by rw [e', e]; ring⟩
  · rw [pow_add]; exact mul_le_mul l l' hk.le (hj.le.trans l)
  · rw [pow_add, mul_inv]; exact mul_le_mul r r' (hk.le.trans l') (inv_pos.2 hj).le

theorem near_inv (h : Near u k b b') : Near u k b⁻¹ b'⁻¹ := by
  obtain ⟨t, l, r, e⟩ := h
  have hk : 0 < (1 - u) ^ k := pow_pos (by linarith) _
  have ht : 0 < t := hk.trans_le l
  exact ⟨t⁻¹, (le_inv_comm₀ hk ht).2 r, inv_anti₀ hk l, by rw [e, mul_inv]⟩

theorem near_div (h : Near u j a a') (h' : Near u k b b') : Near u (j + k) (a / b) (a' / b') := by
  rw [div_eq_mul_inv, div_eq_mul_inv]
  exact near_mul h0 h1 h (near_inv h0 h1 h')

omit h0 h1 in
theorem near_add (ha : 0 ≤ a) (hb : 0 ≤ b) (h : Near u k a a') (h' : Near u k b b') :
    Near u k (a + b) (a' + b') := by
  obtain ⟨t, l, r, e⟩ := h
  obtain ⟨t', l', r', e'⟩ := h'
  rcases (add_nonneg ha hb).eq_or_lt' with hs | hs
  · obtain ⟨rfl, rfl⟩ := (add_eq_zero_iff_of_nonneg ha hb).1 hs
    exact ⟨t, l, r, by rw [e, e']; ring⟩
  refine ⟨(a * t + b * t') / (a + b), ?_, ?_, by rw [e, e']; field_simp⟩
  · rw [le_div_iff₀ hs]; nlinarith [mul_le_mul_of_nonneg_left l ha, mul_le_mul_of_nonneg_left l' hb]
  · rw [div_le_iff₀ hs]; nlinarith [mul_le_mul_of_nonneg_left r ha, mul_le_mul_of_nonneg_left r' hb]

theorem near_sqrt (hx : 0 ≤ x) (h : Near u k x y) : Near u k (√x) (√y) := by
  obtain ⟨t, l, r, e⟩ := h
  have hk : 0 < (1 - u) ^ k := pow_pos (by linarith) _
  have hk1 : (1 - u) ^ k ≤ 1 := pow_le_one₀ (by linarith) (by linarith)
  refine ⟨√t, ?_, ?_, by rw [e, Real.sqrt_mul hx]⟩
  · refine Real.le_sqrt_of_sq_le (le_trans ?_ l)
    nlinarith
  · rw [Real.sqrt_le_left (inv_pos.2 hk).le]
    refine r.trans ?_
    have : 1 ≤ ((1 - u) ^ k)⁻¹ := (one_le_inv₀ hk).2 hk1
    nlinarith

theorem near_pos (h : Near u k x y) (hx : 0 < x) : 0 < y := by
  obtain ⟨t, l, r, e⟩ := h
  have hk : 0 < (1 - u) ^ k := pow_pos (by linarith) _
  rw [e]; exact mul_pos hx (hk.trans_le l)

theorem near_nonneg (h : Near u k x y) (hx : 0 ≤ x) : 0 ≤ y := by
  obtain ⟨t, l, r, e⟩ := h
  have hk : 0 < (1 - u) ^ k := pow_pos (by linarith) _
  rw [e]; exact mul_nonneg hx (hk.le.trans l)

theorem near_factor {t : ℝ} (hk : 2 * (k * u) ≤ 1) (l : (1 - u) ^ k ≤ t) (r : t ≤ ((1 - u) ^ k)⁻¹) :
    |t - 1| ≤ 2 * k * u := by
  have hB : 1 - k * u ≤ (1 - u) ^ k := by
    have := one_add_mul_le_pow (a := -u) (by linarith) k
    rw [← sub_eq_add_neg] at this
    linarith
  have hku : 0 ≤ k * u := by positivity
  rw [abs_le]
  refine ⟨by linarith, ?_⟩
  have h3 : ((1 - u) ^ k)⁻¹ ≤ (1 - k * u)⁻¹ := inv_anti₀ (by linarith) hB
  have h4 : (1 - k * u)⁻¹ ≤ 1 + 2 * (k * u) := by
    rw [← one_div, div_le_iff₀ (by linarith)]
    nlinarith
  linarith

/-- the final bound: `k` roundings cost at most the fraction `2 * k * u` -/
theorem near_bound (h : Near u k x y) (hk : 2 * (k * u) ≤ 1) : RelError (2 * k * u) x y := by
  obtain ⟨t, l, r, e⟩ := h
  rw [RelError, e, show x * t - x = (t - 1) * x by ring, abs_mul]
  exact mul_le_mul_of_nonneg_right (near_factor h0 h1 hk l r) (abs_nonneg _)

theorem near_bound' {c : ℝ} (h : Near u k x y) (hc : 2 * (k : ℝ) ≤ c) (hk : c * u ≤ 1) : RelError (c * u) x y := by
  have hm : 2 * (k : ℝ) * u ≤ c * u := mul_le_mul_of_nonneg_right hc h0
  refine (near_bound h0 h1 h (by linarith)).trans ?_
  exact mul_le_mul_of_nonneg_right hm (abs_nonneg _)

end

section
variable (hF : Accurate u F.rnd F.pow)
include hF

theorem near_rnd (h : Near u k x y) : Near u (k + 1) x (F.rnd y) :=
  near_trans hF.u_nonneg hF.u_le h (near_of_relError hF.u_nonneg hF.u_le (hF.rnd_error y))

theorem near_lit (q : ℚ) : Near u 1 (q : ℝ) (F.rnd q) := near_of_relError hF.u_nonneg hF.u_le (hF.rnd_error _)

theorem near_pow_half (hx : 0 < x) (h : Near u k x y) : Near u (k + 3) (powq x (1 / 2)) (F.pow y (1 / 2)) := by
  have h3 := near_of_relError_two hF.u_nonneg hF.u_le (hF.pow_error y (1 / 2) (near_pos hF.u_nonneg hF.u_le h hx))
  rw [← powq_real, powq_half] at h3
  rw [powq_half]
  exact near_trans hF.u_nonneg hF.u_le (near_sqrt hF.u_nonneg hF.u_le hx.le h) h3

theorem near_pow_two (hx : 0 < x) (h : Near u k x y) : Near u (2 * k + 3) (powq x 2) (F.pow y 2) := by
  have h3 := near_of_relError_two hF.u_nonneg hF.u_le (hF.pow_error y 2 (near_pos hF.u_nonneg hF.u_le h hx))
  rw [← powq_real, powq_two] at h3
  rw [powq_two]
  refine near_trans hF.u_nonneg hF.u_le ?_ h3
  rw [sq, sq, two_mul]
  exact near_mul hF.u_nonneg hF.u_le h h

end

end Conj
