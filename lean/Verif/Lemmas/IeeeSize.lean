import Verif.Lemmas.Ieee

/-!
# Bounds on exponents along a computation
-/

namespace Conj

open Spec

/-- zero, or within `2 ^ ±K` in magnitude -/
def Sz (K : ℕ) (x : ℝ) : Prop := x = 0 ∨ (2 : ℝ) ^ (-(K : ℤ)) ≤ |x| ∧ |x| ≤ 2 ^ K

/-- the double `v` is the float `y`, of size `K` -/
structure Mid (K : ℕ) (v : F64) (y : Fl (binary 53)) : Prop where
  rep : Rep v y.val
  sz : Sz K y.val

/-- and not negative -/
structure MidNN (K : ℕ) (v : F64) (y : Fl (binary 53)) : Prop extends Mid K v y where
  nonneg : 0 ≤ y.val

/-- and positive -/
structure MidPos (K : ℕ) (v : F64) (y : Fl (binary 53)) : Prop extends MidNN K v y where
  pos : 0 < y.val

theorem Sz.hi {K : ℕ} {x : ℝ} (h : Sz K x) : |x| ≤ 2 ^ K := by
  rcases h with rfl | h
  · simp
  · exact h.2

theorem Sz.mono {j k : ℕ} {x : ℝ} (h : Sz j x) (hjk : j ≤ k) : Sz k x := by
  rcases h with h | ⟨h1, h2⟩
  · exact .inl h
  · exact .inr ⟨(zpow_le_zpow_right₀ (by norm_num) (by omega)).trans h1, h2.trans (pow_le_pow_right₀ (by norm_num) hjk)⟩

theorem Sz.round {K : ℕ} {x : ℝ} (h : Sz K x) : Sz (K + 1) (roundBits 53 x) := by
  rcases h with rfl | ⟨h1, h2⟩
  · exact .inl (roundBits_zero _)
  · obtain ⟨r1, r2, _⟩ := abs_roundBits x
    refine .inr ⟨?_, ?_⟩
    · have : (2 : ℝ) ^ (-((K + 1 : ℕ) : ℤ)) = 2 ^ (-(K : ℤ)) / 2 := by
        push_cast
        rw [neg_add, zpow_add₀ (by norm_num)]; norm_num; ring
      rw [this]; linarith
    · rw [pow_succ]; linarith

theorem Sz.mul {j k : ℕ} {x y : ℝ} (h : Sz j x) (h' : Sz k y) : Sz (j + k) (x * y) := by
  rcases h with rfl | ⟨h1, h2⟩
  · exact .inl (zero_mul _)
  rcases h' with rfl | ⟨h3, h4⟩
  · exact .inl (mul_zero _)
  refine .inr ⟨?_, ?_⟩
  · rw [abs_mul]; push_cast
    rw [neg_add, zpow_add₀ (by norm_num)]
    gcongr
  · rw [abs_mul, pow_add]; gcongr

theorem Sz.inv {k : ℕ} {y : ℝ} (h' : Sz k y) : Sz k y⁻¹ := by
  rcases h' with rfl | ⟨h3, h4⟩
  · exact .inl inv_zero
  have hy : 0 < |y| := lt_of_lt_of_le (by positivity) h3
  refine .inr ⟨?_, ?_⟩
  · rw [abs_inv, zpow_neg, zpow_natCast]; gcongr
  · rw [abs_inv, inv_le_comm₀ hy (by positivity)]
    rwa [zpow_neg, zpow_natCast] at h3

theorem Sz.div {j k : ℕ} {x y : ℝ} (h : Sz j x) (h' : Sz k y) : Sz (j + k) (x / y) := by
  rw [div_eq_mul_inv]; exact h.mul h'.inv

theorem Sz.add {K : ℕ} {x y : ℝ} (hx : Grid x) (hy : Grid y) (h : Sz K x) (h' : Sz K y) : Sz (K + 53) (x + y) := by
  by_cases h0 : x + y = 0
  · exact .inl h0
  refine .inr ⟨?_, ?_⟩
  · obtain ⟨k, hk⟩ := grid_fine hx (K := -(K : ℤ)) (h.imp id And.left)
    obtain ⟨l, hl⟩ := grid_fine hy (K := -(K : ℤ)) (h'.imp id And.left)
    have e : x + y = ((k + l : ℤ) : ℝ) * 2 ^ (-(K : ℤ) - 53) := by push_cast; rw [add_mul, ← hk, ← hl]
    have hkl : (1 : ℝ) ≤ |((k + l : ℤ) : ℝ)| := by
      have : k + l ≠ 0 := by rintro h; rw [h] at e; simp at e; exact h0 e
      exact_mod_cast Int.one_le_abs this
    rw [e, abs_mul, abs_of_pos (show (0 : ℝ) < 2 ^ (-(K : ℤ) - 53) by positivity)]
    have : (-((K + 53 : ℕ) : ℤ)) = -(K : ℤ) - 53 := by push_cast; ring
    rw [this]
    exact le_mul_of_one_le_left (by positivity) hkl
  · have := abs_add_le x y
    have h1 := h.hi
    have h2 := h'.hi
    have : (2 : ℝ) ^ (K + 1) ≤ 2 ^ (K + 53) := pow_le_pow_right₀ (by norm_num) (by omega)
    rw [pow_succ] at this
    linarith

theorem Sz.add_nonneg {K : ℕ} {x y : ℝ} (hx : 0 ≤ x) (hy : 0 ≤ y) (h : Sz K x) (h' : Sz K y) : Sz (K + 1) (x + y) := by
  rcases h with rfl | ⟨h1, h2⟩
  · rw [zero_add]; exact h'.mono (by omega)
  refine .inr ⟨?_, ?_⟩
  · rw [abs_of_nonneg (by linarith)]
    rw [abs_of_nonneg hx] at h1
    have : (2 : ℝ) ^ (-((K + 1 : ℕ) : ℤ)) ≤ 2 ^ (-(K : ℤ)) := zpow_le_zpow_right₀ (by norm_num) (by omega)
    linarith
  · have := abs_add_le x y
    have := h'.hi
    rw [pow_succ]; linarith

theorem Sz.sq {K : ℕ} {x : ℝ} (h : Sz K x) : Sz (2 * K) (x ^ 2) := by
  rw [pow_two, two_mul]; exact h.mul h

theorem Sz.sqrt {K : ℕ} {x : ℝ} (h0 : 0 ≤ x) (h : Sz K x) : Sz K (√x) := by
  rcases h with rfl | ⟨h1, h2⟩
  · exact .inl Real.sqrt_zero
  rw [abs_of_nonneg h0] at h1 h2
  have one : (1 : ℝ) ≤ 2 ^ K := one_le_pow₀ (by norm_num)
  refine .inr ⟨?_, ?_⟩
  · rw [abs_of_nonneg (Real.sqrt_nonneg _)]
    apply Real.le_sqrt_of_sq_le
    rw [zpow_neg, zpow_natCast] at h1 ⊢
    have h3 : ((2 : ℝ) ^ K)⁻¹ ≤ 1 := inv_le_one_of_one_le₀ one
    have : 0 < ((2 : ℝ) ^ K)⁻¹ := by positivity
    nlinarith
  · rw [abs_of_nonneg (Real.sqrt_nonneg _), Real.sqrt_le_left (by positivity)]
    nlinarith

/-- a size of at most 1022 fits -/
theorem Sz.fits {K : ℕ} {x : ℝ} (h : Sz K x) (hK : K ≤ 1022) :
    |x| ≤ 2 ^ 1023 ∧ (x = 0 ∨ (2 : ℝ) ^ (-1022 : ℤ) ≤ |x|) := by
  have h := h.mono hK
  refine ⟨h.hi.trans (pow_le_pow_right₀ (by norm_num) (by norm_num)), ?_⟩
  rcases h with h | ⟨h, _⟩
  · exact .inl h
  · exact .inr ((zpow_le_zpow_right₀ (by norm_num) (by norm_num)).trans h)

theorem roundBits_nonneg {x : ℝ} (h : 0 ≤ x) : 0 ≤ roundBits 53 x := by
  have := roundBits_err (p := 53) x
  unfold RelError at this
  rw [abs_of_nonneg h] at this
  have h1 : (1 : ℝ) / 2 ^ 53 * x ≤ 1 * x := by gcongr; norm_num
  have := (abs_le.1 this).1
  linarith

theorem roundBits_pos {x : ℝ} (h : 0 < x) : 0 < roundBits 53 x := by
  have h1 := roundBits_nonneg h.le
  have h2 := (abs_roundBits x).1
  rw [abs_of_nonneg h1, abs_of_pos h] at h2
  linarith

variable {j k K : ℕ} {a b : F64} {x y : Fl (binary 53)}

theorem Mid.mono (h : Mid j a x) (hjk : j ≤ k) : Mid k a x := ⟨h.rep, h.sz.mono hjk⟩
theorem MidNN.mono (h : MidNN j a x) (hjk : j ≤ k) : MidNN k a x := ⟨h.toMid.mono hjk, h.nonneg⟩
theorem MidPos.mono (h : MidPos j a x) (hjk : j ≤ k) : MidPos k a x := ⟨h.toMidNN.mono hjk, h.pos⟩

theorem Mid.neg (h : Mid K b y) : Mid K b.neg ⟨-y.val⟩ := ⟨rep_neg h.rep, by
  rcases h.sz with h | h
  · exact .inl (by simp [h])
  · exact .inr (by simpa using h)⟩

theorem Mid.add (h : Mid j a x) (h' : Mid k b y) (hK : max j k ≤ 969 := by norm_num) :
    Mid (max j k + 54) (a + b) (x + y) := by
  have hs := Sz.add h.rep.grid h'.rep.grid (h.sz.mono (le_max_left j k)) (h'.sz.mono (le_max_right j k))
  exact ⟨rep_add h.rep h'.rep (hs.fits (by omega)).1, hs.round⟩

theorem Mid.sub (h : Mid j a x) (h' : Mid k b y) (hK : max j k ≤ 969 := by norm_num) :
    Mid (max j k + 54) (a - b) (x - y) := by
  have := h.add h'.neg hK
  have e : x + ⟨-y.val⟩ = x - y := by ext; simp [sub_eq_add_neg]
  rw [e] at this
  exact this

theorem Mid.mul (h : Mid j a x) (h' : Mid k b y) (hK : j + k ≤ 1022 := by norm_num) : Mid (j + k + 1) (a * b) (x * y) := by
  have hs := h.sz.mul h'.sz
  exact ⟨rep_mul h.rep h'.rep (hs.fits hK).1 (hs.fits hK).2, hs.round⟩

theorem Mid.div (h : Mid j a x) (h' : MidPos k b y) (hK : j + k ≤ 1022 := by norm_num) :
    Mid (j + k + 1) (a / b) (x / y) := by
  have hs := h.sz.div h'.sz
  refine ⟨rep_div h.rep h'.rep h'.pos.ne' (hs.fits hK).1 ?_, hs.round⟩
  rcases (hs.fits hK).2 with h0 | h0
  · rw [div_eq_zero_iff] at h0
    exact .inl (h0.resolve_right h'.pos.ne')
  · exact .inr h0

theorem Mid.sq (h : Mid K a x) (hK : 2 * K ≤ 1022 := by norm_num) : MidNN (2 * K + 1) (powq a 2) (powq x 2) := by
  have hs := h.sz.sq
  have e : x.val ^ ((2 : ℚ) : ℝ) = x.val ^ 2 := by norm_num
  have h1 : Rep (powq a 2) (powq x 2).val := by
    refine rep_sq h.rep (hs.fits hK).1 ?_
    rcases (hs.fits hK).2 with h0 | h0
    · exact .inl (pow_eq_zero_iff (by norm_num) |>.1 h0)
    · exact .inr h0
  have h2 : (powq x 2).val = roundBits 53 (x.val ^ 2) := by
    rw [Fl.powq_val]; change roundBits 53 _ = _; rw [e]
  exact ⟨⟨h1, by rw [h2]; exact hs.round⟩, by rw [h2]; exact roundBits_nonneg (sq_nonneg _)⟩

theorem MidNN.add (h : MidNN j a x) (h' : MidNN k b y) (hK : max j k ≤ 969 := by norm_num) :
    MidNN (max j k + 2) (a + b) (x + y) := by
  have hs := Sz.add_nonneg h.nonneg h'.nonneg (h.sz.mono (le_max_left j k)) (h'.sz.mono (le_max_right j k))
  exact ⟨⟨rep_add h.rep h'.rep (hs.fits (by omega)).1, hs.round⟩, roundBits_nonneg (add_nonneg h.nonneg h'.nonneg)⟩

theorem MidNN.mul (h : MidNN j a x) (h' : MidNN k b y) (hK : j + k ≤ 1022 := by norm_num) :
    MidNN (j + k + 1) (a * b) (x * y) :=
  ⟨h.toMid.mul h'.toMid hK, roundBits_nonneg (mul_nonneg h.nonneg h'.nonneg)⟩

theorem MidNN.div (h : MidNN j a x) (h' : MidPos k b y) (hK : j + k ≤ 1022 := by norm_num) :
    MidNN (j + k + 1) (a / b) (x / y) :=
  ⟨h.toMid.div h' hK, roundBits_nonneg (div_nonneg h.nonneg h'.nonneg)⟩

theorem MidNN.sqrt (h : MidNN K a x) (hK : K ≤ 1022 := by norm_num) :
    MidNN (K + 1) (powq a (1 / 2)) (powq x (1 / 2)) := by
  have e : x.val ^ (((1 / 2 : ℚ)) : ℝ) = √x.val := by rw [Real.sqrt_eq_rpow]; norm_num
  have h2 : (powq x (1 / 2)).val = roundBits 53 (√x.val) := by
    rw [Fl.powq_val]; change roundBits 53 _ = _; rw [e]
  have hb := (h.sz.fits hK).1
  rw [abs_of_nonneg h.nonneg] at hb
  exact ⟨⟨rep_sqrt h.rep h.nonneg hb, by rw [h2]; exact (h.sz.sqrt h.nonneg).round⟩,
    by rw [h2]; exact roundBits_nonneg (Real.sqrt_nonneg _)⟩

theorem MidPos.add (h : MidPos j a x) (h' : MidNN k b y) (hK : max j k ≤ 969 := by norm_num) :
    MidPos (max j k + 2) (a + b) (x + y) :=
  ⟨h.toMidNN.add h' hK, roundBits_pos (add_pos_of_pos_of_nonneg h.pos h'.nonneg)⟩

theorem MidPos.mul (h : MidPos j a x) (h' : MidPos k b y) (hK : j + k ≤ 1022 := by norm_num) :
    MidPos (j + k + 1) (a * b) (x * y) :=
  ⟨h.toMidNN.mul h'.toMidNN hK, roundBits_pos (mul_pos h.pos h'.pos)⟩

theorem MidPos.div (h : MidPos j a x) (h' : MidPos k b y) (hK : j + k ≤ 1022 := by norm_num) :
    MidPos (j + k + 1) (a / b) (x / y) :=
  ⟨h.toMidNN.div h' hK, roundBits_pos (div_pos h.pos h'.pos)⟩

theorem MidPos.sq (h : MidPos K a x) (hK : 2 * K ≤ 1022 := by norm_num) : MidPos (2 * K + 1) (powq a 2) (powq x 2) := by
  refine ⟨h.toMid.sq hK, ?_⟩
  have e : x.val ^ ((2 : ℚ) : ℝ) = x.val ^ 2 := by norm_num
  have h2 : (powq x 2).val = roundBits 53 (x.val ^ 2) := by
    rw [Fl.powq_val]; change roundBits 53 _ = _; rw [e]
  rw [h2]; exact roundBits_pos (pow_pos h.pos 2)

theorem MidPos.sqrt (h : MidPos K a x) (hK : K ≤ 1022 := by norm_num) :
    MidPos (K + 1) (powq a (1 / 2)) (powq x (1 / 2)) := by
  refine ⟨h.toMidNN.sqrt hK, ?_⟩
  have e : x.val ^ (((1 / 2 : ℚ)) : ℝ) = √x.val := by rw [Real.sqrt_eq_rpow]; norm_num
  have h2 : (powq x (1 / 2)).val = roundBits 53 (√x.val) := by
    rw [Fl.powq_val]; change roundBits 53 _ = _; rw [e]
  rw [h2]; exact roundBits_pos (Real.sqrt_pos.2 h.pos)

theorem mid_lit {q : ℚ} (h1 : (1 : ℝ) / 2 ≤ q) (h2 : (q : ℝ) ≤ 2) : MidPos 2 (lit q) (lit q) := by
  have hq : (0 : ℝ) < q := by linarith
  have hs : Sz 1 (q : ℝ) := .inr (by rw [abs_of_pos hq]; norm_num; exact ⟨by linarith, h2⟩)
  have hf := hs.fits (by norm_num)
  exact ⟨⟨⟨rep_lit (by exact_mod_cast hq.ne') hf.1 (hf.2.resolve_left hq.ne'), hs.round⟩, (roundBits_pos hq).le⟩,
    roundBits_pos hq⟩

/-! ## Inputs -/

theorem rep_ofReal {x : ℝ} (h : IsDouble x) : Rep (F64.ofReal x) x := by
  unfold F64.ofReal
  by_cases h0 : x = 0
  · rw [if_pos h0]; exact .inl ⟨_, rfl, h0⟩
  · rw [if_neg h0]; exact .inr ⟨rfl, h0, h.2⟩

theorem Spec.Input.mid {x : ℝ} (h : Input x) : Mid 84 (F64.ofReal x) ⟨x⟩ := by
  refine ⟨rep_ofReal h.1, ?_⟩
  rcases h.2 with h | ⟨h1, h2⟩
  · exact .inl h
  · refine .inr ⟨?_, h2.trans (by norm_num)⟩
    refine le_trans ?_ h1
    rw [zpow_neg, ← one_div]
    exact one_div_le_one_div_of_le (by norm_num) (by norm_num)

theorem Spec.Input.nn {x : ℝ} (h : Input x) (h0 : 0 ≤ x) : MidNN 84 (F64.ofReal x) ⟨x⟩ := ⟨h.mid, h0⟩

theorem Spec.Input.pos {x : ℝ} (h : Input x) (h0 : 0 < x) : MidPos 84 (F64.ofReal x) ⟨x⟩ := ⟨h.nn h0.le, h0⟩

theorem Mid.value (h : Mid K a x) : a.value = some x.val := h.rep.value

end Conj
