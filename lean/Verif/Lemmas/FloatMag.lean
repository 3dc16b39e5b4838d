import Verif.Lemmas.FloatNear

/-!
# Absolute errors of float expressions that may cancel
-/

namespace Conj

open Spec

/-- `y` is `x` up to `k` roundings of quantities of size at most `A` -/
def Mag (u : ℝ) (k : ℕ) (A x y : ℝ) : Prop := |x| ≤ A ∧ |y - x| ≤ (((1 - u) ^ k)⁻¹ - 1) * A

variable {u : ℝ} {F : FloatArith} {j k : ℕ} {x y a b a' b' A B : ℝ}

section
variable (h0 : 0 ≤ u) (h1 : u ≤ 1 / 4)
include h0 h1

theorem one_le_g (k : ℕ) : 1 ≤ ((1 - u) ^ k)⁻¹ :=
  (one_le_inv₀ (pow_pos (by linarith) _)).2 (pow_le_one₀ (by linarith) (by linarith))

theorem mag_of_near (h : Near u k x y) (hA : |x| ≤ A) : Mag u k A x y := by
  obtain ⟨t, l, r, e⟩ := h
  refine ⟨hA, ?_⟩
  have hk : 0 < (1 - u) ^ k := pow_pos (by linarith) _
  have hg := one_le_g h0 h1 k
  have ht : |t - 1| ≤ ((1 - u) ^ k)⁻¹ - 1 := by
    rw [abs_le]
    refine ⟨?_, by linarith⟩
    generalize (1 - u) ^ k = c at *
    have e : c⁻¹ * (c - 1) ^ 2 = c - 2 + c⁻¹ := by field_simp; ring
    have := mul_nonneg (inv_pos.2 hk).le (sq_nonneg (c - 1))
    linarith
  rw [e, show x * t - x = (t - 1) * x by ring, abs_mul]
  exact mul_le_mul ht hA (abs_nonneg _) (by linarith)

theorem mag_mono (h : Mag u j A x y) (hjk : j ≤ k) : Mag u k A x y := by
  refine ⟨h.1, h.2.trans (mul_le_mul_of_nonneg_right ?_ ((abs_nonneg _).trans h.1))⟩
  have hp : (1 - u) ^ k ≤ (1 - u) ^ j := pow_le_pow_of_le_one (by linarith) (by linarith) hjk
  have hk : 0 < (1 - u) ^ k := pow_pos (by linarith) _
  linarith [inv_anti₀ hk hp]

theorem mag_weaken (h : Mag u k A x y) (hAB : A ≤ B) : Mag u k B x y :=
  ⟨h.1.trans hAB, h.2.trans (mul_le_mul_of_nonneg_left hAB (by linarith [one_le_g h0 h1 k]))⟩

theorem mag_exact (x : ℝ) (k : ℕ) : Mag u k |x| x x :=
  mag_of_near h0 h1 (near_mono h0 h1 (near_refl x) (Nat.zero_le k)) le_rfl

omit h0 h1 in
theorem mag_add (h : Mag u k A a a') (h' : Mag u k B b b') : Mag u k (A + B) (a + b) (a' + b') := by
  refine ⟨(abs_add_le _ _).trans (add_le_add h.1 h'.1), ?_⟩
  rw [show a' + b' - (a + b) = (a' - a) + (b' - b) by ring, mul_add]
  exact (abs_add_le _ _).trans (add_le_add h.2 h'.2)

omit h0 h1 in
theorem mag_neg (h : Mag u k B b b') : Mag u k B (-b) (-b') := by
  refine ⟨by rw [abs_neg]; exact h.1, ?_⟩
  rw [show -b' - -b = -(b' - b) by ring, abs_neg]
  exact h.2

omit h0 h1 in
theorem mag_sub (h : Mag u k A a a') (h' : Mag u k B b b') : Mag u k (A + B) (a - b) (a' - b') := by
  rw [sub_eq_add_neg, sub_eq_add_neg]
  exact mag_add h (mag_neg h')

omit h0 h1 in
theorem mag_abs (h : Mag u k A a a') : |a'| ≤ ((1 - u) ^ k)⁻¹ * A := by
  have := abs_sub_abs_le_abs_sub a' a
  linarith [h.1, h.2]

theorem mag_mul (h : Mag u j A a a') (h' : Mag u k B b b') : Mag u (j + k) (A * B) (a * b) (a' * b') := by
  have hA : 0 ≤ A := (abs_nonneg _).trans h.1
  have hB : 0 ≤ B := (abs_nonneg _).trans h'.1
  refine ⟨by rw [abs_mul]; exact mul_le_mul h.1 h'.1 (abs_nonneg _) hA, ?_⟩
  have e : a' * b' - a * b = a' * (b' - b) + (a' - a) * b := by ring
  rw [e, pow_add, mul_inv]
  refine (abs_add_le _ _).trans ?_
  rw [abs_mul, abs_mul]
  have m1 := mul_le_mul (mag_abs h) h'.2 (abs_nonneg _) (mul_nonneg (by linarith [one_le_g h0 h1 j]) hA)
  have m2 := mul_le_mul h.2 h'.1 (abs_nonneg _) (mul_nonneg (by linarith [one_le_g h0 h1 j]) hA)
  refine (add_le_add m1 m2).trans (le_of_eq ?_)
  ring

theorem mag_div (h : Mag u j A a a') (h' : Near u k b b') : Mag u (j + k) (A / |b|) (a / b) (a' / b') := by
  rw [div_eq_mul_inv, div_eq_mul_inv, div_eq_mul_inv, ← abs_inv]
  exact mag_mul h0 h1 h (mag_of_near h0 h1 (near_inv h0 h1 h') le_rfl)

/-- the final bound -/
theorem mag_bound {c : ℝ} (h : Mag u k A x y) (hc : 2 * (k : ℝ) ≤ c) (hk : c * u ≤ 1) : |y - x| ≤ c * u * A := by
  have hA : 0 ≤ A := (abs_nonneg _).trans h.1
  refine h.2.trans (mul_le_mul_of_nonneg_right ?_ hA)
  have hm : 2 * (k : ℝ) * u ≤ c * u := mul_le_mul_of_nonneg_right hc h0
  have hg := one_le_g h0 h1 k
  have hle : (1 - u) ^ k ≤ 1 := pow_le_one₀ (by linarith) (by linarith)
  have := near_factor h0 h1 (k := k) (t := ((1 - u) ^ k)⁻¹) (by linarith) (by linarith) le_rfl
  rw [abs_of_nonneg (by linarith)] at this
  linarith

end

section
variable (hF : Accurate u F.rnd F.pow)
include hF

theorem mag_rnd (h : Mag u k A x y) : Mag u (k + 1) A x (F.rnd y) := by
  have h0 := hF.u_nonneg
  have h1 := hF.u_le
  have hA : 0 ≤ A := (abs_nonneg _).trans h.1
  refine ⟨h.1, ?_⟩
  have e1 := hF.rnd_error y
  rw [RelError] at e1
  have e2 := mag_abs h
  have e3 : u * |y| ≤ u * (((1 - u) ^ k)⁻¹ * A) := mul_le_mul_of_nonneg_left e2 h0
  have e4 : |F.rnd y - x| ≤ |F.rnd y - y| + |y - x| := abs_sub_le _ _ _
  have e5 := h.2
  have hg := one_le_g h0 h1 k
  have hgk : ((1 - u) ^ k)⁻¹ * (1 + u) ≤ ((1 - u) ^ (k + 1))⁻¹ := by
    rw [pow_succ, mul_inv]
    refine mul_le_mul_of_nonneg_left ?_ (by linarith)
    rw [← one_div, le_div_iff₀ (by linarith)]
    nlinarith
  have e6 := mul_le_mul_of_nonneg_right hgk hA
  linarith

theorem mag_fl_add (h : Mag u k A a a') (h' : Mag u k B b b') : Mag u (k + 1) (A + B) (a + b) (F.rnd (a' + b')) :=
  mag_rnd hF (mag_add h h')

theorem mag_fl_sub (h : Mag u k A a a') (h' : Mag u k B b b') : Mag u (k + 1) (A + B) (a - b) (F.rnd (a' - b')) :=
  mag_rnd hF (mag_sub h h')

theorem mag_pow_two (hsq : AccurateSquare u F.pow) (h : Mag u k A x y) :
    Mag u (2 * k + 3) (A ^ 2) (x ^ 2) (F.pow y 2) := by
  have h0 := hF.u_nonneg
  have h1 := hF.u_le
  have hA : 0 ≤ A := (abs_nonneg _).trans h.1
  have m := mag_mul h0 h1 h h
  rw [← sq, ← sq, ← sq, ← two_mul] at m
  obtain ⟨t, l, r, e⟩ := near_of_relError_two h0 h1 (hsq y)
  have m2 := mag_mul h0 h1 m (mag_of_near h0 h1 (⟨t, l, r, (one_mul t).symm⟩ : Near u 3 1 t) (A := 1) (by simp))
  rw [mul_one, mul_one, ← e] at m2
  exact m2

end

/-- Python floats square numbers of either sign accurately. -/
theorem binary_accurate_square {p : ℕ} (hp : 1 < p) : AccurateSquare (1 / 2 ^ p) (binary p).pow := by
  intro x
  have h := (binary_accurate hp).rnd_error (x ^ 2)
  have e : (binary p).pow x 2 = (binary p).rnd (x ^ 2) := by
    show roundBits p (x ^ (((2 : ℚ)) : ℝ)) = roundBits p (x ^ 2)
    norm_num
  rw [e]
  refine h.trans (mul_le_mul_of_nonneg_right ?_ (abs_nonneg _))
  have : (0 : ℝ) ≤ 1 / 2 ^ p := by positivity
  linarith

end Conj
