import Verif.Props.PlotRun
import Verif.Props.MonotonePredictive
import Verif.Props.IdentifiableDiscrete

/-!
# C117 continued: `plot_cdf` of the hypergeometric and the beta-negative-binomial
-/

open MeasureTheory Set

namespace Conj

open Spec Scipy

/-! ### Hypergeometric -/

theorem hypergeom_pmf_nat (N k n i : ℕ) (hk : k ≤ N) (hn : n ≤ N) :
    (Hypergeometric.dist ⟨(N : ℝ), k, n⟩).pmf i =
      if i ≤ n then (k.choose i : ℝ) * (N - k).choose (n - i) / N.choose n else 0 := by
  simp only [Hypergeometric.dist, Disc.pmf, DiscFamily.pmf0, sub_zero, Int.cast_natCast]
  by_cases h : i ≤ k ∧ i ≤ n ∧ n ≤ i + (N - k)
  · obtain ⟨h1, h2, h3⟩ := h
    have c1 : (i : ℝ) ≤ k := by exact_mod_cast h1
    have c2 : (i : ℝ) ≤ n := by exact_mod_cast h2
    have c3 : (n : ℝ) ≤ i + (N - k) := by
      have : (n : ℝ) ≤ ((i + (N - k) : ℕ) : ℝ) := by exact_mod_cast h3
      push_cast [hk] at this
      exact this
    rw [if_pos ⟨max_le (by positivity) (by linarith), le_min c1 c2⟩, if_pos h2, choose_natCast h1, choose_natCast hn,
      ← Nat.cast_sub hk, ← Nat.cast_sub h2, choose_natCast (by omega)]
  · rw [if_neg]
    · split
      · rename_i hin
        rcases Nat.lt_or_ge k i with hki | hki
        · simp [Nat.choose_eq_zero_of_lt hki]
        · rw [Nat.choose_eq_zero_of_lt (show N - k < n - i by omega)]; simp
      · rfl
    · rintro ⟨h1, h2⟩
      have c1 : i ≤ k := by exact_mod_cast h2.trans (min_le_left _ _)
      have c2 : i ≤ n := by exact_mod_cast h2.trans (min_le_right _ _)
      refine h ⟨c1, c2, ?_⟩
      have c3 : (n : ℝ) - (N - k) ≤ i := (le_max_right _ _).trans h1
      have : (n : ℝ) ≤ ((i + (N - k) : ℕ) : ℝ) := by
        push_cast [hk]
        linarith
      exact_mod_cast this

theorem hypergeom_neg (N k n : ℝ) (i : ℤ) (hi : i < 0) : (Hypergeometric.dist ⟨N, k, n⟩).pmf i = 0 := by
  by_contra h
  have := (hypergeom_support h).1
  omega

theorem hypergeom_nonneg (N k n : ℕ) (hk : k ≤ N) (hn : n ≤ N) (i : ℤ) : 0 ≤ (Hypergeometric.dist ⟨(N : ℝ), k, n⟩).pmf i := by
  rcases lt_or_ge i 0 with hi | hi
  · rw [hypergeom_neg _ _ _ _ hi]
  · obtain ⟨m, rfl⟩ := Int.eq_ofNat_of_zero_le hi
    rw [hypergeom_pmf_nat N k n m hk hn]
    split <;> positivity

/-- Vandermonde's identity: the probabilities add to one -/
theorem hypergeom_total (N k n : ℕ) (hk : k ≤ N) (hn : n ≤ N) :
    HasSum (fun i : ℕ => (Hypergeometric.dist ⟨(N : ℝ), k, n⟩).pmf i) 1 := by
  have hfin : ∀ i ∉ Finset.range (n + 1), (Hypergeometric.dist ⟨(N : ℝ), k, n⟩).pmf (i : ℕ) = 0 := by
    intro i hi
    rw [hypergeom_pmf_nat N k n i hk hn, if_neg]
    simpa [Nat.lt_succ_iff] using hi
  have hs := hasSum_sum_of_ne_finset_zero (L := .unconditional ℕ) hfin
  have e : ∑ i ∈ Finset.range (n + 1), (Hypergeometric.dist ⟨(N : ℝ), k, n⟩).pmf (i : ℕ) = 1 := by
    have h1 : ∀ i ∈ Finset.range (n + 1), (Hypergeometric.dist ⟨(N : ℝ), k, n⟩).pmf (i : ℕ) =
        ((k.choose i * (N - k).choose (n - i) : ℕ) : ℝ) / N.choose n := by
      intro i hi
      rw [hypergeom_pmf_nat N k n i hk hn, if_pos (Nat.lt_succ_iff.1 (Finset.mem_range.1 hi))]
      push_cast
      rfl
    rw [Finset.sum_congr rfl h1, ← Finset.sum_div, ← Nat.cast_sum,
      ← Finset.Nat.sum_antidiagonal_eq_sum_range_succ (fun i j => k.choose i * (N - k).choose j), ← Nat.add_choose_eq,
      Nat.add_sub_cancel' hk]
    have : (N.choose n : ℝ) ≠ 0 := by exact_mod_cast (Nat.choose_pos hn).ne'
    field_simp
  rwa [e] at hs

theorem hypergeom_prob (N k n : ℕ) (hk : k ≤ N) (hn : n ≤ N) :
    IsProbabilityMeasure (discLaw (Hypergeometric.dist ⟨(N : ℝ), k, n⟩)) :=
  disc_prob (hypergeom_neg _ _ _) (hypergeom_nonneg N k n hk hn) (hypergeom_total N k n hk hn)

theorem hypergeom_mk {d : Hypergeometric ℝ} {N k n : ℕ} (h1 : d.N = N) (h2 : d.k = k) (h3 : d.n = n) :
    d = ⟨(N : ℝ), k, n⟩ := by cases d; simp_all

/-! ### Beta-negative-binomial -/

theorem betanb_neg (n a b : ℝ) (i : ℤ) (hi : i < 0) : (BetaNegativeBinomial.dist ⟨n, a, b⟩).pmf i = 0 := by
  simp only [BetaNegativeBinomial.dist, Disc.pmf, DiscFamily.pmf0, sub_zero]
  rw [if_neg (by omega)]

theorem betanb_nonneg {n a b : ℝ} (hn : 0 < n) (ha : 0 < a) (hb : 0 < b) (i : ℤ) :
    0 ≤ (BetaNegativeBinomial.dist ⟨n, a, b⟩).pmf i := by
  rcases lt_or_ge i 0 with hi | hi
  · rw [betanb_neg _ _ _ _ hi]
  · obtain ⟨m, rfl⟩ := Int.eq_ofNat_of_zero_le hi
    exact (BetaNegativeBinomial.pmf_pos n a b hn ha hb m).le

theorem betanb_prob {n a b : ℝ} (hn : 0 < n) (ha : 0 < a) (hb : 0 < b) :
    IsProbabilityMeasure (discLaw (BetaNegativeBinomial.dist ⟨n, a, b⟩)) :=
  disc_prob (betanb_neg _ _ _) (betanb_nonneg hn ha hb) (BetaNegativeBinomial.hasSum_pmf hn ha hb)

section cdf
variable (k : ℕ) (s : PlotState ℝ) (hi : ℝ) (hs : s.max = some hi) (label : Option Label) (hl : LabelOk label k)
include hs hl

/-- C117 `Hypergeometric.plot_cdf` -/
theorem C117_cdf_hypergeometric (d : Hypergeometric Field) (hd : Objects d k)
    (hv : ∀ j < k, ∃ N K n : ℕ, (nth d j).N = N ∧ (nth d j).k = K ∧ (nth d j).n = n ∧ K ≤ N ∧ n ≤ N) :
    plot_cdf_discrete s d false label = .ok (picture (discreteXValues (s.min.getD 0) hi) k label fun j x =>
      (discRealLaw (nth d j).dist).real (Iic x)) :=
  plot_cdf_discrete_prob Hypergeometric.dist rfl d k hd (fun j hj => by
    obtain ⟨N, K, n, e1, e2, e3, h1, h2⟩ := hv j hj
    rw [hypergeom_mk e1 e2 e3]; exact hypergeom_prob N K n h1 h2)
    (fun j hj => by
    obtain ⟨N, K, n, e1, e2, e3, h1, h2⟩ := hv j hj
    rw [hypergeom_mk e1 e2 e3]; exact hypergeom_nonneg N K n h1 h2) s hi hs label hl

/-- C117 `BetaNegativeBinomial.plot_cdf` -/
theorem C117_cdf_beta_negative_binomial (d : BetaNegativeBinomial Field) (hd : Objects d k)
    (hv : ∀ j < k, 0 < (nth d j).n ∧ 0 < (nth d j).alpha ∧ 0 < (nth d j).beta) :
    plot_cdf_discrete s d false label = .ok (picture (discreteXValues (s.min.getD 0) hi) k label fun j x =>
      (discRealLaw (nth d j).dist).real (Iic x)) :=
  plot_cdf_discrete_prob BetaNegativeBinomial.dist rfl d k hd
    (fun j hj => betanb_prob (hv j hj).1 (hv j hj).2.1 (hv j hj).2.2)
    (fun j hj => betanb_nonneg (hv j hj).1 (hv j hj).2.1 (hv j hj).2.2) s hi hs label hl

end cdf

/-- ten balls, four of them red, three drawn -/
noncomputable def urn : Hypergeometric Field := { N := .number 10, k := .number 4, n := .number 3 }

/-- non-vacuity: one line, the distribution function of the number of red balls -/
example : plot_cdf_discrete { max := some 10 } urn false none =
    .ok (picture (discreteXValues 0 10) 1 none fun _ x => (discRealLaw (Hypergeometric.dist ⟨10, 4, 3⟩)).real (Iic x)) := by
  have hd : Objects urn 1 := .inl ⟨rfl, by
    intro F hF
    have hF : F = urn.N ∨ F = urn.k ∨ F = urn.n := by simpa [Plottable.params] using hF
    rcases hF with rfl | rfl | rfl <;> rfl⟩
  have hn : ∀ j, nth urn j = ⟨10, 4, 3⟩ := by
    intro j
    simp [nth, fmap, entry, urn, Field.arr, NdArr.scalar, NdArr.atIdx, NdArr.proj]
  rw [C117_cdf_hypergeometric 1 _ 10 rfl none trivial urn hd fun j _ => ⟨10, 4, 3, by simp [hn], by simp [hn], by simp [hn],
    by norm_num, by norm_num⟩]
  simp [hn]

end Conj
