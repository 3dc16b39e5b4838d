import Verif.OrderSpec
import Verif.Spec
import Verif.Lemmas.Bayes
import Mathlib.MeasureTheory.Measure.OpenPos
import Mathlib.Topology.Order.Basic

/-!
# Increasing density ratio means a higher distribution
-/

open MeasureTheory Set

namespace Conj

open Spec

theorem volume_inter_Iic_pos {S : Set ℝ} (hS : IsOpen S) {t : ℝ} (ht : t ∈ S) : 0 < volume (S ∩ Iio t) := by
  obtain ⟨l, hl, h⟩ := exists_Ioc_subset_of_mem_nhds (hS.mem_nhds ht) (exists_lt t)
  have h1 : Ioo l t ⊆ S ∩ Iio t := fun x hx => ⟨h ⟨hx.1, hx.2.le⟩, hx.2⟩
  refine lt_of_lt_of_le ?_ (measure_mono h1)
  rw [Real.volume_Ioo]
  simpa using hl

theorem volume_inter_Ioi_pos {S : Set ℝ} (hS : IsOpen S) {t : ℝ} (ht : t ∈ S) : 0 < volume (S ∩ Ioi t) := by
  obtain ⟨r, hr, h⟩ := exists_Ico_subset_of_mem_nhds (hS.mem_nhds ht) (exists_gt t)
  have h1 : Ioo t r ⊆ S ∩ Ioi t := fun x hx => ⟨h ⟨hx.1.le, hx.2⟩, hx.1⟩
  refine lt_of_lt_of_le ?_ (measure_mono h1)
  rw [Real.volume_Ioo]
  simpa using hr

theorem integral_pos_on {T : Set ℝ} (hT : MeasurableSet T) (hv : 0 < volume T) {h : ℝ → ℝ} (hi : IntegrableOn h T)
    (hp : ∀ x ∈ T, 0 < h x) : 0 < ∫ x in T, h x := by
  rw [setIntegral_pos_iff_support_of_nonneg_ae]
  · have : Function.support h ∩ T = T := inter_eq_right.2 fun x hx => (hp x hx).ne'
    rwa [this]
  · filter_upwards [ae_restrict_mem hT] with x hx using (hp x hx).le
  · exact hi

/-- If `g / f` increases strictly then `g` lies strictly higher than `f`. -/
theorem higher_of_ratio {S : Set ℝ} (hS : IsOpen S) {f g r : ℝ → ℝ} (hf : IsDensity volume S f)
    (hg : IsDensity volume S g) (hpos : ∀ x ∈ S, 0 < f x) (hr : ∀ x ∈ S, g x = r x * f x) (hm : StrictMonoOn r S) :
    Higher S f g := by
  intro t ht
  have hU : MeasurableSet (S ∩ Ioi t) := hS.measurableSet.inter measurableSet_Ioi
  have hL : MeasurableSet (S ∩ Iio t) := hS.measurableSet.inter measurableSet_Iio
  have hL' : MeasurableSet (S ∩ Iic t) := hS.measurableSet.inter measurableSet_Iic
  have fU := hf.2.1.mono_set (inter_subset_left (t := Ioi t))
  have gU := hg.2.1.mono_set (inter_subset_left (t := Ioi t))
  have fL := hf.2.1.mono_set (inter_subset_left (t := Iic t))
  have gL := hg.2.1.mono_set (inter_subset_left (t := Iic t))
  have split : ∀ h : ℝ → ℝ, IntegrableOn h S → ∫ x in S, h x = (∫ x in S ∩ Iic t, h x) + ∫ x in S ∩ Ioi t, h x := by
    intro h hi
    rw [← setIntegral_union]
    · rw [← inter_union_distrib_left, Iic_union_Ioi, inter_univ]
    · rw [Set.disjoint_left]
      rintro x ⟨_, h1⟩ ⟨_, h2⟩
      exact not_le.2 (mem_Ioi.1 h2) (mem_Iic.1 h1)
    · exact hU
    · exact hi.mono_set inter_subset_left
    · exact hi.mono_set inter_subset_left
  have sf := split f hf.2.1
  have sg := split g hg.2.1
  rw [hf.2.2] at sf
  rw [hg.2.2] at sg
  -- above `t` the ratio exceeds `r t`, below it does not
  have up : 0 < ∫ x in S ∩ Ioi t, (g x - r t * f x) := by
    refine integral_pos_on hU (volume_inter_Ioi_pos hS ht) (gU.sub (fU.const_mul _)) fun x hx => ?_
    rw [hr x hx.1, ← sub_mul]
    exact mul_pos (sub_pos.2 (hm ht hx.1 hx.2)) (hpos x hx.1)
  rw [integral_sub gU (fU.const_mul _), integral_const_mul] at up
  have low : ∫ x in S ∩ Iic t, g x ≤ ∫ x in S ∩ Iic t, r t * f x := by
    refine setIntegral_mono_on gL (fL.const_mul _) hL' fun x hx => ?_
    rw [hr x hx.1]
    exact mul_le_mul_of_nonneg_right (hm.monotoneOn hx.1 ht hx.2) (hpos x hx.1).le
  rw [integral_const_mul] at low
  have fpos : 0 < ∫ x in S ∩ Iic t, f x := by
    refine integral_pos_on hL' ?_ fL fun x hx => hpos x hx.1
    exact (volume_inter_Iic_pos hS ht).trans_le (measure_mono (inter_subset_inter_right _ Iio_subset_Iic_self))
  have fU0 : 0 ≤ ∫ x in S ∩ Ioi t, f x := setIntegral_nonneg hU fun x hx => (hpos x hx.1).le
  show ∫ x in S ∩ Ioi t, f x < ∫ x in S ∩ Ioi t, g x
  rcases le_or_gt 1 (r t) with h1 | h1
  · nlinarith
  · nlinarith

theorem Higher.trans {S : Set ℝ} {f g h : ℝ → ℝ} (h1 : Higher S f g) (h2 : Higher S g h) : Higher S f h :=
  fun t ht => (h1 t ht).trans (h2 t ht)

/-- A higher distribution is not lower. -/
theorem Higher.not_rev {S : Set ℝ} (hS : S.Nonempty) {f g : ℝ → ℝ} (h : Higher S f g) : ¬ Higher S g f := by
  obtain ⟨t, ht⟩ := hS
  exact fun h' => lt_asymm (h t ht) (h' t ht)

/-- Discrete version: probabilities of counts whose successive ratios are larger under `g` than under `f`, on a set of
counts that is either an initial segment or all of them. -/
theorem higherCounts_of_ratio {S : Set ℕ} (hdown : ∀ k, k + 1 ∈ S → k ∈ S) {f g : ℤ → ℝ}
    (hf : HasSum (fun k : ℕ => f k) 1) (hg : HasSum (fun k : ℕ => g k) 1)
    (hf0 : ∀ k : ℕ, k ∉ S → f k = 0) (hg0 : ∀ k : ℕ, k ∉ S → g k = 0)
    (hfp : ∀ k : ℕ, k ∈ S → 0 < f k) (hgp : ∀ k : ℕ, k ∈ S → 0 < g k)
    (hr : ∀ k : ℕ, k + 1 ∈ S → g k * f (k + 1 : ℕ) < g (k + 1 : ℕ) * f k) : HigherCounts S f g := by
  intro k hk
  have hkS := hdown k hk
  have down : ∀ i j : ℕ, i ≤ j → j ∈ S → i ∈ S := fun i j hij => by
    induction hij with
    | refl => exact id
    | step _ ih => exact fun h => ih (hdown _ h)
  have step : ∀ j : ℕ, j + 1 ∈ S → g j / f j < g (j + 1 : ℕ) / f (j + 1 : ℕ) := fun j hj => by
    rw [div_lt_div_iff₀ (hfp j (hdown j hj)) (hfp _ hj)]
    exact hr j hj
  have mono : ∀ i j : ℕ, i ≤ j → j ∈ S → g i / f i ≤ g j / f j := fun i j hij => by
    induction hij with
    | refl => exact fun _ => le_rfl
    | step _ ih => exact fun h => (ih (hdown _ h)).trans (step _ h).le
  have nf : ∀ j : ℕ, 0 ≤ f j := fun j => by
    by_cases h : j ∈ S
    · exact (hfp j h).le
    · exact (hf0 j h).ge
  have ng : ∀ j : ℕ, 0 ≤ g j := fun j => by
    by_cases h : j ∈ S
    · exact (hgp j h).le
    · exact (hg0 j h).ge
  have tail : ∀ u : ℤ → ℝ, HasSum (fun k : ℕ => u k) 1 →
      ∑ i ∈ Finset.range (k + 1), u i + ∑' j : ℕ, u (k + 1 + j : ℕ) = 1 := fun u hu => by
    have := hu.summable.sum_add_tsum_nat_add (k + 1)
    rw [hu.tsum_eq] at this
    rw [← this]
    congr 1
    exact tsum_congr fun j => by rw [add_comm]
  have stail : ∀ u : ℤ → ℝ, HasSum (fun k : ℕ => u k) 1 → Summable fun j : ℕ => u (k + 1 + j : ℕ) := fun u hu => by
    have := (summable_nat_add_iff (k + 1)).2 hu.summable
    exact this.congr fun j => by rw [add_comm]
  have tf := tail f hf
  have tg := tail g hg
  have sf := stail f hf
  have sg := stail g hg
  obtain ⟨c, hc⟩ : ∃ c, c = g k / f k := ⟨_, rfl⟩
  obtain ⟨c', hc'⟩ : ∃ c', c' = g (k + 1 : ℕ) / f (k + 1 : ℕ) := ⟨_, rfl⟩
  have hcc : c < c' := hc ▸ hc' ▸ step k hk
  have low : ∑ i ∈ Finset.range (k + 1), g i ≤ c * ∑ i ∈ Finset.range (k + 1), f i := by
    rw [Finset.mul_sum]
    refine Finset.sum_le_sum fun i hi => ?_
    have hik : i ≤ k := Nat.lt_succ_iff.1 (Finset.mem_range.1 hi)
    have := mono i k hik hkS
    rwa [← hc, div_le_iff₀ (hfp i (down i k hik hkS))] at this
  have high : c' * ∑' j : ℕ, f (k + 1 + j : ℕ) ≤ ∑' j : ℕ, g (k + 1 + j : ℕ) := by
    rw [← tsum_mul_left]
    refine (sf.mul_left c').tsum_le_tsum (fun j => ?_) sg
    by_cases h : k + 1 + j ∈ S
    · have := mono (k + 1) (k + 1 + j) (by omega) h
      rwa [← hc', le_div_iff₀ (hfp _ h)] at this
    · rw [hf0 _ h, mul_zero]; exact ng _
  have Fpos : 0 < ∑' j : ℕ, f (k + 1 + j : ℕ) :=
    sf.tsum_pos (fun j => nf _) 0 (hfp _ hk)
  have Apos : 0 < ∑ i ∈ Finset.range (k + 1), f i :=
    Finset.sum_pos' (fun i _ => nf i) ⟨k, Finset.mem_range.2 (by omega), hfp k hkS⟩
  generalize ∑' j : ℕ, f (k + 1 + j : ℕ) = F at *
  generalize ∑' j : ℕ, g (k + 1 + j : ℕ) = G at *
  generalize ∑ i ∈ Finset.range (k + 1), f i = A at *
  generalize ∑ i ∈ Finset.range (k + 1), g i = B at *
  nlinarith [mul_lt_mul_of_pos_right hcc (mul_pos Fpos Apos), mul_le_mul_of_nonneg_right high Apos.le,
    mul_le_mul_of_nonneg_right low Fpos.le]

theorem HigherCounts.trans {S : Set ℕ} {f g h : ℤ → ℝ} (h1 : HigherCounts S f g) (h2 : HigherCounts S g h) :
    HigherCounts S f h := fun k hk => (h1 k hk).trans (h2 k hk)

end Conj
