import Verif.IeeeSpec
import Verif.Lemmas.Rounding

/-!
# Doubles whose exponents stay in range
-/

namespace Conj

open Spec

/-- 53 bits, none below `2 ^ -1074` -/
def Grid (x : ℝ) : Prop := ∃ m e : ℤ, |m| ≤ 2 ^ 53 ∧ -1074 ≤ e ∧ x = m * 2 ^ e

/-- the double `v` is the number `x` -/
def Rep (v : F64) (x : ℝ) : Prop := (∃ s, v = .zero s ∧ x = 0) ∨ (v = .num x ∧ x ≠ 0 ∧ Grid x)

theorem Rep.value {v : F64} {x : ℝ} (h : Rep v x) : v.value = some x := by
  rcases h with ⟨s, rfl, rfl⟩ | ⟨rfl, _, _⟩ <;> rfl

theorem grid_zero : Grid 0 := ⟨0, 0, by norm_num, by norm_num, by norm_num⟩

theorem Rep.grid {v : F64} {x : ℝ} (h : Rep v x) : Grid x := by
  rcases h with ⟨s, rfl, rfl⟩ | ⟨rfl, _, h⟩
  · exact grid_zero
  · exact h

theorem grid_neg {x : ℝ} (h : Grid x) : Grid (-x) := by
  obtain ⟨m, e, hm, he, rfl⟩ := h
  exact ⟨-m, e, by rwa [abs_neg], he, by push_cast; ring⟩

theorem grid_keep {x : ℝ} (h : Grid x) : roundBits 53 x = x := by
  obtain ⟨m, e, hm, he, rfl⟩ := h
  exact roundBits_keeps (by norm_num) m e hm

theorem grid_multiple {x : ℝ} (h : Grid x) : ∃ k : ℤ, x = k * 2 ^ (-1074 : ℤ) := by
  obtain ⟨m, e, hm, he, rfl⟩ := h
  refine ⟨m * 2 ^ (e + 1074).toNat, ?_⟩
  push_cast
  rw [← zpow_natCast, Int.toNat_of_nonneg (by omega), mul_assoc, ← zpow_add₀ (by norm_num)]
  congr 2
  ring

/-- a nonzero double is a multiple of a power of two not much below it -/
theorem grid_fine {x : ℝ} (h : Grid x) {K : ℤ} (hK : x = 0 ∨ (2 : ℝ) ^ K ≤ |x|) : ∃ k : ℤ, x = k * 2 ^ (K - 53) := by
  rcases hK with rfl | hK
  · exact ⟨0, by simp⟩
  obtain ⟨m, e, hm, he, rfl⟩ := h
  have h2 : (0 : ℝ) < 2 ^ e := by positivity
  have hme : |(m : ℝ)| ≤ 2 ^ 53 := by exact_mod_cast hm
  have : (2 : ℝ) ^ K ≤ 2 ^ (53 + e) := by
    rw [abs_mul, abs_of_pos h2] at hK
    calc _ ≤ _ := hK
      _ ≤ 2 ^ 53 * 2 ^ e := by gcongr
      _ = 2 ^ (53 + e) := by rw [zpow_add₀ (by norm_num)]; norm_cast
  have hle : K ≤ 53 + e := (zpow_le_zpow_iff_right₀ (by norm_num : (1 : ℝ) < 2)).1 this
  refine ⟨m * 2 ^ (e - (K - 53)).toNat, ?_⟩
  push_cast
  rw [← zpow_natCast, Int.toNat_of_nonneg (by omega), mul_assoc, ← zpow_add₀ (by norm_num)]
  congr 2
  ring

theorem abs_roundBits (x : ℝ) : |x| / 2 ≤ |roundBits 53 x| ∧ |roundBits 53 x| ≤ 2 * |x| ∧
    (x ≠ 0 → |roundBits 53 x| < 2 * |x|) := by
  have h := roundBits_err (p := 53) x
  unfold RelError at h
  have h0 := abs_nonneg x
  have h1 : (1 : ℝ) / 2 ^ 53 * |x| ≤ 1 / 2 * |x| := by gcongr; norm_num
  have h2 := abs_sub_abs_le_abs_sub (roundBits 53 x) x
  have h3 := abs_sub_abs_le_abs_sub x (roundBits 53 x)
  rw [abs_sub_comm] at h3
  refine ⟨by linarith, by linarith, fun hx => ?_⟩
  have := abs_pos.2 hx
  linarith

theorem roundBits_zero (p : ℕ) : roundBits p 0 = 0 := by simp [roundBits]

/-- rounding to a double is rounding to 53 bits -/
theorem round_eq {x : ℝ} (hx : x ≠ 0) (hhi : |x| ≤ 2 ^ 1023)
    (hlo : (2 : ℝ) ^ (-1022 : ℤ) ≤ |x| ∨ ∃ k : ℤ, x = k * 2 ^ (-1074 : ℤ)) :
    Rep (F64.round x) (roundBits 53 x) := by
  have hx' : 0 < |x| := abs_pos.2 hx
  obtain ⟨hr1, _, hr3⟩ := abs_roundBits x
  have hr0 : roundBits 53 x ≠ 0 := by
    rw [← abs_pos]; linarith
  have hrb : |roundBits 53 x| < 2 ^ 1024 := by
    have := hr3 hx
    have e : (2 : ℝ) ^ 1024 = 2 * 2 ^ 1023 := by rw [pow_succ' (2 : ℝ) 1023]
    rw [e]
    exact this.trans_le (mul_le_mul_of_nonneg_left hhi (by norm_num))
  suffices h : roundBits 53 x = roundHalfEven (x / 2 ^ F64.lastBit x) * 2 ^ F64.lastBit x ∧
      |roundHalfEven (x / 2 ^ F64.lastBit x)| ≤ 2 ^ 53 by
    right
    obtain ⟨h, hm⟩ := h
    have hm0 : roundHalfEven (x / 2 ^ F64.lastBit x) ≠ 0 := by
      intro h0; rw [h, h0] at hr0; simp at hr0
    refine ⟨?_, hr0, _, _, hm, le_max_right _ _, h⟩
    rw [F64.round]
    rw [if_neg hm0, if_neg (by rw [← h]; exact not_le.2 hrb), ← h]
  have hlog : (2 : ℝ) ^ Int.log 2 |x| ≤ |x| := by exact_mod_cast Int.zpow_log_le_self (b := 2) (by norm_num) hx'
  have hlog2 : |x| < (2 : ℝ) ^ (Int.log 2 |x| + 1) := by
    exact_mod_cast Int.lt_zpow_succ_log_self (b := 2) (by norm_num) |x|
  have caseA : -1022 ≤ Int.log 2 |x| → roundBits 53 x =
      roundHalfEven (x / 2 ^ F64.lastBit x) * 2 ^ F64.lastBit x ∧
      |roundHalfEven (x / 2 ^ F64.lastBit x)| ≤ 2 ^ 53 := by
    intro hl
    have e : F64.lastBit x = Int.log 2 |x| - 52 := by rw [F64.lastBit, max_eq_left (by omega)]
    have e' : Int.log 2 |x| - (((53 : ℕ) : ℤ) - 1) = F64.lastBit x := by rw [e]; norm_num
    refine ⟨by rw [roundBits, if_neg hx]; dsimp only; rw [e'], ?_⟩
    have h2 : (0 : ℝ) < 2 ^ F64.lastBit x := by positivity
    have hb : |x / 2 ^ F64.lastBit x| < 2 ^ 53 := by
      rw [abs_div, abs_of_pos h2, div_lt_iff₀ h2, e]
      calc _ < _ := hlog2
        _ = _ := by
          rw [← zpow_natCast, ← zpow_add₀ (by norm_num)]
          congr 1; push_cast; ring
    have herr := roundHalfEven_err (x / 2 ^ F64.lastBit x)
    have : |(roundHalfEven (x / 2 ^ F64.lastBit x) : ℝ)| < 2 ^ 53 + 1 := by
      have := abs_sub_abs_le_abs_sub (roundHalfEven (x / 2 ^ F64.lastBit x) : ℝ) (x / 2 ^ F64.lastBit x)
      linarith
    have : |roundHalfEven (x / 2 ^ F64.lastBit x)| < 2 ^ 53 + 1 := by exact_mod_cast this
    omega
  by_cases hl : -1022 ≤ Int.log 2 |x|
  · exact caseA hl
  · push Not at hl
    have hsmall : |x| < (2 : ℝ) ^ (-1022 : ℤ) := hlog2.trans_le (zpow_le_zpow_right₀ (by norm_num) (by omega))
    rcases hlo with hlo | ⟨k, hk⟩
    · exact absurd hlo (not_le.2 hsmall)
    · have e : F64.lastBit x = -1074 := by rw [F64.lastBit, max_eq_right (by omega)]
      have hk53 : |k| ≤ 2 ^ 53 := by
        have h2 : (0 : ℝ) < 2 ^ (-1074 : ℤ) := by positivity
        have : |(k : ℝ)| < 2 ^ 52 := by
          rw [hk, abs_mul, abs_of_pos h2] at hsmall
          have : (2 : ℝ) ^ (-1022 : ℤ) = 2 ^ 52 * 2 ^ (-1074 : ℤ) := by
            rw [← zpow_natCast, ← zpow_add₀ (by norm_num)]; norm_num
          rw [this] at hsmall
          exact lt_of_mul_lt_mul_right hsmall h2.le
        have : |k| < 2 ^ 52 := by exact_mod_cast this
        omega
      have hq : x / 2 ^ (-1074 : ℤ) = k := by
        rw [hk, mul_div_assoc, div_self (by positivity), mul_one]
      rw [e, hq, roundHalfEven_int]
      refine ⟨?_, hk53⟩
      rw [hk]
      exact roundBits_keeps (by norm_num) k _ hk53

section
variable {a b : F64} {x y : ℝ}

theorem rep_neg (h : Rep a x) : Rep a.neg (-x) := by
  rcases h with ⟨s, rfl, rfl⟩ | ⟨rfl, h0, hg⟩
  · exact .inl ⟨!s, rfl, by simp⟩
  · exact .inr ⟨rfl, neg_ne_zero.2 h0, grid_neg hg⟩

theorem rep_add (ha : Rep a x) (hb : Rep b y) (h : |x + y| ≤ 2 ^ 1023) : Rep (a + b) (roundBits 53 (x + y)) := by
  change Rep (F64.add a b) _
  rcases ha with ⟨s, rfl, rfl⟩ | ⟨rfl, hx0, hx⟩ <;> rcases hb with ⟨t, rfl, rfl⟩ | ⟨rfl, hy0, hy⟩
  · rw [add_zero, roundBits_zero]
    exact .inl ⟨s && t, rfl, rfl⟩
  · rw [zero_add, grid_keep hy]
    exact .inr ⟨rfl, hy0, hy⟩
  · rw [add_zero, grid_keep hx]
    exact .inr ⟨rfl, hx0, hx⟩
  · rw [F64.add]
    by_cases h0 : x + y = 0
    · rw [if_pos h0, h0, roundBits_zero]
      exact .inl ⟨_, rfl, rfl⟩
    · rw [if_neg h0]
      obtain ⟨k, hk⟩ := grid_multiple hx
      obtain ⟨l, hl⟩ := grid_multiple hy
      exact round_eq h0 h (.inr ⟨k + l, by push_cast; rw [add_mul, ← hk, ← hl]⟩)

theorem rep_sub (ha : Rep a x) (hb : Rep b y) (h : |x - y| ≤ 2 ^ 1023) : Rep (a - b) (roundBits 53 (x - y)) := by
  have := rep_add ha (rep_neg hb) (by rwa [← sub_eq_add_neg])
  rwa [← sub_eq_add_neg] at this

theorem rep_mul (ha : Rep a x) (hb : Rep b y) (h : |x * y| ≤ 2 ^ 1023)
    (h' : x * y = 0 ∨ (2 : ℝ) ^ (-1022 : ℤ) ≤ |x * y|) : Rep (a * b) (roundBits 53 (x * y)) := by
  change Rep (F64.mul a b) _
  rcases ha with ⟨s, rfl, rfl⟩ | ⟨rfl, hx0, hx⟩ <;> rcases hb with ⟨t, rfl, rfl⟩ | ⟨rfl, hy0, hy⟩
  · rw [zero_mul, roundBits_zero]
    exact .inl ⟨_, rfl, rfl⟩
  · rw [zero_mul, roundBits_zero]
    exact .inl ⟨_, rfl, rfl⟩
  · rw [mul_zero, roundBits_zero]
    exact .inl ⟨_, rfl, rfl⟩
  · rcases h' with h' | h'
    · exact absurd h' (mul_ne_zero hx0 hy0)
    · exact round_eq (mul_ne_zero hx0 hy0) h (.inl h')

theorem rep_div (ha : Rep a x) (hb : Rep b y) (hy : y ≠ 0) (h : |x / y| ≤ 2 ^ 1023)
    (h' : x = 0 ∨ (2 : ℝ) ^ (-1022 : ℤ) ≤ |x / y|) : Rep (a / b) (roundBits 53 (x / y)) := by
  change Rep (F64.div a b) _
  rcases hb with ⟨t, rfl, rfl⟩ | ⟨rfl, hy0, hy⟩
  · exact absurd rfl hy
  rcases ha with ⟨s, rfl, rfl⟩ | ⟨rfl, hx0, hx⟩
  · rw [zero_div, roundBits_zero]
    exact .inl ⟨_, rfl, rfl⟩
  · rcases h' with h' | h'
    · exact absurd h' hx0
    · exact round_eq (div_ne_zero hx0 hy0) h (.inl h')

theorem rep_lit {q : ℚ} (hq : q ≠ 0) (h : |(q : ℝ)| ≤ 2 ^ 1023) (h' : (2 : ℝ) ^ (-1022 : ℤ) ≤ |(q : ℝ)|) :
    Rep (lit q) (roundBits 53 q) := by
  change Rep (if q = 0 then .zero false else F64.round q) _
  rw [if_neg hq]
  exact round_eq (by exact_mod_cast hq) h (.inl h')

theorem rep_sq (ha : Rep a x) (h : |x ^ 2| ≤ 2 ^ 1023) (h' : x = 0 ∨ (2 : ℝ) ^ (-1022 : ℤ) ≤ |x ^ 2|) :
    Rep (powq a 2) (roundBits 53 (x ^ ((2 : ℚ) : ℝ))) := by
  have e : x ^ ((2 : ℚ) : ℝ) = x ^ 2 := by norm_num
  rw [e]
  change Rep (F64.pow a 2) _
  rw [F64.pow, if_neg (by norm_num)]
  rcases ha with ⟨s, rfl, rfl⟩ | ⟨rfl, hx0, hx⟩
  · dsimp only
    rw [if_pos (by norm_num)]
    exact .inl ⟨_, rfl, by simp [roundBits_zero]⟩
  · dsimp only
    rw [if_neg (by simp), e]
    rcases h' with h' | h'
    · exact absurd h' hx0
    · exact round_eq (pow_ne_zero 2 hx0) h (.inl h')

theorem rep_sqrt (ha : Rep a x) (h0 : 0 ≤ x) (h : x ≤ 2 ^ 1023) :
    Rep (powq a (1 / 2)) (roundBits 53 (x ^ (((1 / 2 : ℚ)) : ℝ))) := by
  have e : x ^ (((1 / 2 : ℚ)) : ℝ) = √x := by rw [Real.sqrt_eq_rpow]; norm_num
  rw [e]
  change Rep (F64.pow a (1 / 2)) _
  rw [F64.pow, if_neg (by norm_num)]
  rcases ha with ⟨s, rfl, rfl⟩ | ⟨rfl, hx0, hx⟩
  · dsimp only
    rw [if_pos (by norm_num)]
    exact .inl ⟨_, rfl, by simp [roundBits_zero]⟩
  · dsimp only
    rw [if_neg (by push Not; intro h; linarith), e]
    have hp : 0 < x := lt_of_le_of_ne h0 (Ne.symm hx0)
    refine round_eq (Real.sqrt_ne_zero'.2 hp) ?_ (.inl ?_)
    · rw [abs_of_nonneg (Real.sqrt_nonneg x), Real.sqrt_le_left (by positivity)]
      exact h.trans (by
        rw [← pow_mul]; exact pow_le_pow_right₀ (by norm_num) (by norm_num))
    · rw [abs_of_nonneg (Real.sqrt_nonneg x)]
      apply Real.le_sqrt_of_sq_le
      obtain ⟨k, hk⟩ := grid_multiple hx
      have hk1 : (1 : ℝ) ≤ k := by
        have : 0 < (k : ℝ) := by
          rw [hk] at hp
          exact pos_of_mul_pos_left hp (by positivity)
        have : 0 < k := by exact_mod_cast this
        exact_mod_cast this
      rw [hk, ← zpow_natCast, ← zpow_mul]
      calc (2 : ℝ) ^ (-1022 * ((2 : ℕ) : ℤ)) ≤ 1 * 2 ^ (-1074 : ℤ) := by
            rw [one_mul]; exact zpow_le_zpow_right₀ (by norm_num) (by norm_num)
        _ ≤ _ := by gcongr

end

end Conj
