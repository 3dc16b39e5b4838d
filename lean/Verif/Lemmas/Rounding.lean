import Verif.Float
import Verif.FloatSpec

/-!
# Binary rounding
-/

namespace Conj

open Spec

theorem roundHalfEven_err (x : ℝ) : |(roundHalfEven x : ℝ) - x| ≤ 1 / 2 := by
  have h := Int.floor_add_fract x
  have h0 := Int.fract_nonneg x
  have h1 := Int.fract_lt_one x
  rw [abs_le, roundHalfEven]
  split_ifs <;> push_cast <;> constructor <;> linarith

theorem roundHalfEven_int (m : ℤ) : roundHalfEven m = m := by
  simp [roundHalfEven]

/-- the nearest integer is the only candidate -/
theorem roundHalfEven_eq {x : ℝ} {m : ℤ} (h : |x - m| < 1 / 2 ∨ |x - m| = 1 / 2 ∧ Even m) : roundHalfEven x = m := by
  have hf := Int.floor_add_fract x
  have h0 := Int.fract_nonneg x
  have h1 := Int.fract_lt_one x
  rcases h with h | ⟨h, he⟩
  · rw [abs_lt] at h
    rcases le_or_gt (m : ℝ) x with hm | hm
    · have e : ⌊x⌋ = m := Int.floor_eq_iff.2 ⟨hm, by linarith⟩
      rw [e] at hf
      rw [roundHalfEven, if_pos (by linarith), e]
    · have e : ⌊x⌋ = m - 1 := Int.floor_eq_iff.2 ⟨by push_cast; linarith, by push_cast; linarith⟩
      rw [e] at hf; push_cast at hf
      rw [roundHalfEven, if_neg (by linarith), if_pos (by linarith), e]; ring
  · rcases le_or_gt (m : ℝ) x with hm | hm
    · rw [abs_of_nonneg (by linarith)] at h
      have e : ⌊x⌋ = m := Int.floor_eq_iff.2 ⟨hm, by linarith⟩
      rw [e] at hf
      rw [roundHalfEven, if_neg (by linarith), if_neg (by linarith), e, if_pos he]
    · rw [abs_of_neg (by linarith)] at h
      have e : ⌊x⌋ = m - 1 := Int.floor_eq_iff.2 ⟨by push_cast; linarith, by push_cast; linarith⟩
      rw [e] at hf; push_cast at hf
      have ho : ¬ Even (m - 1) := by
        rw [Int.even_sub_one, not_not]; exact he
      rw [roundHalfEven, if_neg (by linarith), if_neg (by linarith), e, if_neg ho]; ring

/-- how to compute a rounded number: find the exponent -/
theorem roundBits_eq {p : ℕ} {x : ℝ} (e m : ℤ) (hlo : 2 ^ ((p : ℤ) - 1 + e) ≤ |x|) (hhi : |x| < 2 ^ ((p : ℤ) + e))
    (h : |x / 2 ^ e - m| < 1 / 2 ∨ |x / 2 ^ e - m| = 1 / 2 ∧ Even m) : roundBits p x = m * 2 ^ e := by
  have hx : 0 < |x| := lt_of_lt_of_le (by positivity) hlo
  have hl : Int.log 2 |x| = (p : ℤ) - 1 + e := by
    apply le_antisymm
    · have := (Int.lt_zpow_iff_log_lt (b := 2) (by norm_num) (x := (p : ℤ) + e) hx).1 (by exact_mod_cast hhi)
      omega
    · exact (Int.zpow_le_iff_le_log (b := 2) (by norm_num) hx).1 (by exact_mod_cast hlo)
  have he : Int.log 2 |x| - ((p : ℤ) - 1) = e := by omega
  rw [roundBits, if_neg (abs_pos.1 hx)]
  dsimp only
  rw [he, roundHalfEven_eq h]

theorem roundBits_err {p : ℕ} (x : ℝ) : RelError (1 / 2 ^ p) x (roundBits p x) := by
  unfold RelError
  by_cases hx : x = 0
  · simp [hx, roundBits]
  have hx' : 0 < |x| := abs_pos.2 hx
  rw [roundBits, if_neg hx]
  dsimp only
  generalize he : Int.log 2 |x| - ((p : ℤ) - 1) = e
  have h2 : (0 : ℝ) < 2 ^ e := by positivity
  have hlog : (2 : ℝ) ^ (Int.log 2 |x|) ≤ |x| := by exact_mod_cast Int.zpow_log_le_self (b := 2) (by norm_num) hx'
  have : (roundHalfEven (x / 2 ^ e) : ℝ) * 2 ^ e - x = (roundHalfEven (x / 2 ^ e) - x / 2 ^ e) * 2 ^ e := by
    field_simp
  rw [this, abs_mul, abs_of_pos h2]
  calc _ ≤ 1 / 2 * (2 : ℝ) ^ e := by gcongr; exact roundHalfEven_err _
    _ = 1 / 2 ^ p * 2 ^ (Int.log 2 |x|) := by
      have : Int.log 2 |x| = e + p - 1 := by omega
      rw [this, zpow_sub₀ (by norm_num), zpow_add₀ (by norm_num), zpow_natCast, zpow_one]
      field_simp
    _ ≤ _ := by gcongr

theorem roundBits_keeps {p : ℕ} (hp : 0 < p) : KeepsBits p (roundBits p) := by
  intro m k hm
  by_cases h0 : m = 0
  · simp [h0, roundBits]
  have hx : (m : ℝ) * 2 ^ k ≠ 0 := mul_ne_zero (by exact_mod_cast h0) (by positivity)
  have hx' : 0 < |(m : ℝ) * 2 ^ k| := abs_pos.2 hx
  rw [roundBits, if_neg hx]
  dsimp only
  generalize he : Int.log 2 |(m : ℝ) * 2 ^ k| - ((p : ℤ) - 1) = e
  have hcast : |(m : ℝ) * 2 ^ k| = (|m| : ℤ) * 2 ^ k := by
    rw [abs_mul, abs_of_pos (show (0 : ℝ) < 2 ^ k by positivity)]; push_cast; rfl
  suffices h : ∃ j : ℤ, (m : ℝ) * 2 ^ k / 2 ^ e = j by
    obtain ⟨j, hj⟩ := h
    rw [hj, roundHalfEven_int, ← hj, div_mul_cancel₀ _ (by positivity)]
  rcases hm.lt_or_eq with hlt | heq
  · have hlog : Int.log 2 |(m : ℝ) * 2 ^ k| < (p : ℤ) + k := by
      refine (Int.lt_zpow_iff_log_lt (b := 2) (by norm_num) hx').1 ?_
      rw [hcast, Nat.cast_ofNat, zpow_add₀ (by norm_num), zpow_natCast]
      gcongr
      exact_mod_cast hlt
    have hek : e ≤ k := by omega
    refine ⟨m * 2 ^ (k - e).toNat, ?_⟩
    rw [mul_div_assoc, ← zpow_sub₀ (by norm_num)]
    push_cast
    rw [← zpow_natCast, Int.toNat_of_nonneg (by omega)]
  · have hlog : Int.log 2 |(m : ℝ) * 2 ^ k| = (p : ℤ) + k := by
      rw [hcast, heq]
      have : (((2 : ℤ) ^ p : ℤ) : ℝ) * 2 ^ k = ((2 : ℕ) : ℝ) ^ ((p : ℤ) + k) := by
        push_cast
        rw [zpow_add₀ (by norm_num), zpow_natCast]
      rw [this]
      exact Int.log_zpow (by norm_num) _
    have hek : e = k + 1 := by omega
    obtain ⟨q, rfl⟩ : ∃ q, p = q + 1 := ⟨p - 1, by omega⟩
    have h2 : (2 : ℝ) ^ k ≠ 0 := by positivity
    rcases abs_eq (by positivity) |>.1 heq with h | h
    · refine ⟨2 ^ q, ?_⟩
      rw [h, hek, zpow_add₀ (by norm_num), zpow_one]
      push_cast
      field_simp
      ring
    · refine ⟨-2 ^ q, ?_⟩
      rw [h, hek, zpow_add₀ (by norm_num), zpow_one]
      push_cast
      field_simp
      ring

theorem binary_keeps {p : ℕ} (hp : 0 < p) : KeepsBits p (binary p).rnd := roundBits_keeps hp

theorem binary_accurate {p : ℕ} (hp : 1 < p) : Accurate (1 / 2 ^ p) (binary p).rnd (binary p).pow where
  u_nonneg := by positivity
  u_le := by
    have : (2 : ℝ) ^ 2 ≤ 2 ^ p := pow_le_pow_right₀ (by norm_num) hp
    rw [div_le_div_iff₀ (by positivity) (by norm_num)]
    linarith
  rnd_error := roundBits_err
  pow_error x c _ := (roundBits_err (p := p) (x ^ (c : ℝ))).trans (by
    gcongr
    have : (0 : ℝ) ≤ 1 / 2 ^ p := by positivity
    linarith)

theorem keeps_fracBits {p : ℕ} {rnd : ℝ → ℝ} (h : KeepsBits p rnd) {k : ℕ} {x : ℝ} (hx : FracBits k x)
    (hb : |x| ≤ 2 ^ p / 2 ^ k) : rnd x = x := by
  obtain ⟨m, rfl⟩ := hx
  have h2 : (0 : ℝ) < 2 ^ k := by positivity
  have hm : |m| ≤ 2 ^ p := by
    rw [abs_div, abs_of_pos h2, div_le_div_iff_of_pos_right h2] at hb
    exact_mod_cast hb
  have := h m (-k) hm
  rwa [zpow_neg, zpow_natCast, ← div_eq_mul_inv] at this

theorem Spec.FracBits.add {k : ℕ} {x y : ℝ} (hx : FracBits k x) (hy : FracBits k y) : FracBits k (x + y) := by
  obtain ⟨a, rfl⟩ := hx; obtain ⟨b, rfl⟩ := hy
  exact ⟨a + b, by push_cast; ring⟩

theorem Spec.FracBits.sub {k : ℕ} {x y : ℝ} (hx : FracBits k x) (hy : FracBits k y) : FracBits k (x - y) := by
  obtain ⟨a, rfl⟩ := hx; obtain ⟨b, rfl⟩ := hy
  exact ⟨a - b, by push_cast; ring⟩

theorem fracBits_nat (k n : ℕ) : FracBits k (n : ℝ) := ⟨n * 2 ^ k, by push_cast; field_simp⟩

theorem fracBits_int (k : ℕ) (n : ℤ) : FracBits k (n : ℝ) := ⟨n * 2 ^ k, by push_cast; field_simp⟩

theorem Spec.FracBits.nat_mul {k : ℕ} {x : ℝ} (n : ℕ) (hx : FracBits k x) : FracBits k (n * x) := by
  obtain ⟨a, rfl⟩ := hx
  exact ⟨n * a, by push_cast; ring⟩

end Conj
