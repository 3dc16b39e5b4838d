import Verif.Lemmas.Martingale
import Mathlib.MeasureTheory.Constructions.Pi
import Mathlib.MeasureTheory.Constructions.BorelSpace.Real

/-!
# Thompson sampling in the long run

Groups are played according to random samples of estimates; estimates of groups played often are close to the truth,
estimates of groups no longer played do not change.
-/

open MeasureTheory Filter Topology Finset

namespace Conj

variable {k : ℕ}

section Deterministic

variable {N S : Fin k → ℕ → ℝ} {q : ℕ → Fin k → ℝ} {L : ℕ → Fin k → Measure ℝ} {m : Fin k → ℝ}

theorem not_summable_of_lower {f : ℕ → ℝ} {l : ℝ} (hl : 0 < l) (h0 : ∀ t, 0 ≤ f t) {u : ℕ → ℝ}
    (hu : Tendsto u atTop (𝓝 l)) (hf : ∀ t, u t ≤ f t) : Tendsto (fun n => ∑ t ∈ range n, f t) atTop atTop := by
  rw [← not_summable_iff_tendsto_nat_atTop_of_nonneg h0]
  intro hs
  have := le_of_tendsto_of_tendsto' hu hs.tendsto_atTop_zero hf
  linarith

/-- every group is played again and again, and the best one almost always -/
theorem thompson_long_run (hm : ∀ i, 0 < m i) (hq0 : ∀ t i, 0 ≤ q t i) (hq1 : ∀ t i, q t i ≤ 1)
    (hL : ∀ t i, IsProbabilityMeasure (L t i))
    (hlow : ∀ t i c, (L t i).real (Set.Iio c) * ∏ j ∈ univ.erase i, (L t j).real (Set.Ioi c) ≤ q t i)
    (hinf : ∀ i, Tendsto (fun n => ∑ t ∈ range n, q t i) atTop atTop → Tendsto (N i) atTop atTop)
    (hconc : ∀ i, Tendsto (N i) atTop atTop → (∀ c < m i, Tendsto (fun t => (L t i).real (Set.Ioi c)) atTop (𝓝 1)) ∧
      ∀ c > m i, Tendsto (fun t => (L t i).real (Set.Iio c)) atTop (𝓝 1))
    (hconst : ∀ i, ¬ Tendsto (N i) atTop atTop → ∃ T, ∀ t ≥ T, L t i = L T i)
    (hpos : ∀ t i, ∀ c > 0, 0 < (L t i).real (Set.Iio c) ∧ 0 < (L t i).real (Set.Ioi c))
    (hshare : ∀ i, Tendsto (fun n : ℕ => (N i n - ∑ t ∈ range n, q t i) / n) atTop (𝓝 0)) :
    (∀ i, Tendsto (N i) atTop atTop) ∧
      ∀ i, (∀ j, j ≠ i → m i < m j) → Tendsto (fun n : ℕ => N i n / n) atTop (𝓝 1) := by
  have hall : ∀ i, Tendsto (N i) atTop atTop := by
    by_contra hcon
    push Not at hcon
    obtain ⟨i, hi⟩ := hcon
    obtain ⟨c, hc0, hcm⟩ : ∃ c, 0 < c ∧ ∀ j, c < m j := by
      have h1 : ∀ᶠ c in 𝓝[>] (0 : ℝ), ∀ j, c < m j :=
        eventually_all.2 fun j => nhdsWithin_le_nhds (Iio_mem_nhds (hm j))
      obtain ⟨c, hc⟩ := (h1.and self_mem_nhdsWithin).exists
      exact ⟨c, hc.2, hc.1⟩
    have hj : ∀ j, ∃ l > 0, Tendsto (fun t => (L t j).real (Set.Ioi c)) atTop (𝓝 l) := by
      intro j
      by_cases h : Tendsto (N j) atTop atTop
      · exact ⟨1, one_pos, (hconc j h).1 c (hcm j)⟩
      · obtain ⟨T, hT⟩ := hconst j h
        refine ⟨_, (hpos T j c hc0).2, tendsto_const_nhds.congr' ?_⟩
        filter_upwards [eventually_ge_atTop T] with t ht
        rw [hT t ht]
    choose l hl hlt using hj
    obtain ⟨T, hT⟩ := hconst i hi
    have hlim : Tendsto (fun t => (L t i).real (Set.Iio c) * ∏ j ∈ univ.erase i, (L t j).real (Set.Ioi c)) atTop
        (𝓝 ((L T i).real (Set.Iio c) * ∏ j ∈ univ.erase i, l j)) := by
      refine Tendsto.mul (tendsto_const_nhds.congr' ?_) (tendsto_finset_prod _ fun j _ => hlt j)
      filter_upwards [eventually_ge_atTop T] with t ht
      rw [hT t ht]
    exact hi (hinf i (not_summable_of_lower
      (mul_pos (hpos T i c hc0).1 (prod_pos fun j _ => hl j)) (fun t => hq0 t i) hlim fun t => hlow t i c))
  refine ⟨hall, fun i hbest => ?_⟩
  obtain ⟨c, hci, hcj⟩ : ∃ c, m i < c ∧ ∀ j, j ≠ i → c < m j := by
    have h1 : ∀ᶠ c in 𝓝[>] (m i), ∀ j, j ≠ i → c < m j :=
      eventually_all.2 fun j => by
        by_cases h : j = i
        · exact Eventually.of_forall fun _ h' => absurd h h'
        · filter_upwards [nhdsWithin_le_nhds (Iio_mem_nhds (hbest j h))] with c hc _ using hc
    obtain ⟨c, hc⟩ := (h1.and self_mem_nhdsWithin).exists
    exact ⟨c, hc.2, hc.1⟩
  have hlim : Tendsto (fun t => (L t i).real (Set.Iio c) * ∏ j ∈ univ.erase i, (L t j).real (Set.Ioi c)) atTop
      (𝓝 (1 * ∏ _j ∈ univ.erase i, 1)) :=
    Tendsto.mul ((hconc i (hall i)).2 c hci) (tendsto_finset_prod _ fun j hj =>
      (hconc j (hall j)).1 c (hcj j (ne_of_mem_erase hj)))
  rw [prod_const_one, mul_one] at hlim
  have hq : Tendsto (fun t => q t i) atTop (𝓝 1) :=
    tendsto_of_tendsto_of_tendsto_of_le_of_le hlim tendsto_const_nhds (fun t => hlow t i c) fun t => hq1 t i
  have hces := hq.cesaro
  have := (hshare i).add hces
  rw [zero_add] at this
  refine this.congr fun n => ?_
  rw [inv_mul_eq_div, ← add_div]
  congr 1
  ring

/-- a group that is not the best is played a vanishing share of the time -/
theorem thompson_losers (hq0 : ∀ t i, 0 ≤ q t i)
    (hup : ∀ t i j c, i ≠ j → q t i ≤ 1 - (L t i).real (Set.Ioi c) * (L t j).real (Set.Iio c))
    (hconc : ∀ i, (∀ c < m i, Tendsto (fun t => (L t i).real (Set.Ioi c)) atTop (𝓝 1)) ∧
      ∀ c > m i, Tendsto (fun t => (L t i).real (Set.Iio c)) atTop (𝓝 1))
    (hshare : ∀ i, Tendsto (fun n : ℕ => (N i n - ∑ t ∈ range n, q t i) / n) atTop (𝓝 0)) {i j : Fin k}
    (hij : m j < m i) : Tendsto (fun n : ℕ => N i n / n) atTop (𝓝 0) := by
  obtain ⟨c, hcj, hci⟩ := exists_between hij
  have hlim := tendsto_const_nhds (x := (1 : ℝ)).sub (((hconc i).1 c hci).mul ((hconc j).2 c hcj))
  rw [mul_one, sub_self] at hlim
  have hne : i ≠ j := by rintro rfl; exact lt_irrefl _ hij
  have hq : Tendsto (fun t => q t i) atTop (𝓝 0) :=
    tendsto_of_tendsto_of_tendsto_of_le_of_le tendsto_const_nhds hlim (fun t => hq0 t i) fun t => hup t i j c hne
  have := (hshare i).add hq.cesaro
  rw [zero_add] at this
  refine this.congr fun n => ?_
  rw [inv_mul_eq_div, ← add_div]
  congr 1
  ring

/-- the average reward tends to that of the best group -/
theorem thompson_regret (hN : ∀ i, Tendsto (N i) atTop atTop) (hN0 : ∀ i n, 0 ≤ N i n)
    (hsum : ∀ n : ℕ, ∑ i, N i n = n)
    (have' : ∀ i, Tendsto (fun n => S i n / N i n) atTop (𝓝 (m i)))
    (hlose : ∀ i j, m j < m i → Tendsto (fun n : ℕ => N i n / n) atTop (𝓝 0)) {b : Fin k} (hb : ∀ j, m b ≤ m j) :
    Tendsto (fun n : ℕ => (∑ i, S i n) / n) atTop (𝓝 (m b)) := by
  have h1 : ∀ i, Tendsto (fun n : ℕ => (S i n / N i n - m i) * (N i n / n)) atTop (𝓝 0) := by
    intro i
    have h0 : Tendsto (fun n => S i n / N i n - m i) atTop (𝓝 0) := by simpa using (have' i).sub_const (m i)
    refine squeeze_zero_norm (fun n => ?_) (by simpa using h0.norm)
    rw [norm_mul]
    refine mul_le_of_le_one_right (norm_nonneg _) ?_
    rw [Real.norm_eq_abs, abs_of_nonneg (div_nonneg (hN0 i n) n.cast_nonneg)]
    refine div_le_one_of_le₀ ?_ n.cast_nonneg
    rw [← hsum n]
    exact single_le_sum (fun j _ => hN0 j n) (mem_univ i)
  have h2 : ∀ i, Tendsto (fun n : ℕ => (m i - m b) * (N i n / n)) atTop (𝓝 0) := by
    intro i
    rcases (hb i).lt_or_eq with h | h
    · simpa using (hlose i b h).const_mul (m i - m b)
    · simp [← h]
  have h3 := (tendsto_finset_sum univ fun i _ => (h1 i).add (h2 i)).add_const (m b)
  simp only [add_zero, sum_const_zero, zero_add] at h3
  refine h3.congr' ?_
  have hev : ∀ᶠ n in atTop, ∀ i, 0 < N i n := eventually_all.2 fun i => (hN i).eventually_gt_atTop 0
  filter_upwards [hev, eventually_gt_atTop 0] with n hn hn0
  have hn' : (n : ℝ) ≠ 0 := Nat.cast_ne_zero.2 hn0.ne'
  have e : ∀ i, (S i n / N i n - m i) * (N i n / n) + (m i - m b) * (N i n / n) = S i n / n - m b * N i n / n := by
    intro i
    have := (hn i).ne'
    field_simp
    ring
  rw [sum_congr rfl fun i _ => e i, sum_sub_distrib, ← sum_div, ← sum_div, ← mul_sum, hsum]
  field_simp
  ring

end Deterministic

section Random

variable {Ω : Type*} {m0 : MeasurableSpace Ω}

/-- Play `t` is of a group `g t` chosen with the conditional probabilities `q t`; the reward `x t` then has
conditional mean `m` and variance `v` of the group played. -/
structure IsBandit (μ : Measure Ω) (ℱ : Filtration ℕ m0) (g : ℕ → Ω → Fin k) (x : ℕ → Ω → ℝ)
    (q : ℕ → Fin k → Ω → ℝ) (m v : Fin k → ℝ) : Prop where
  arm : ∀ t i, MeasurableSet[ℱ (t + 1)] {ω | g t ω = i}
  reward : ∀ t, StronglyMeasurable[ℱ (t + 1)] (x t)
  memLp : ∀ t i, MemLp ({ω | g t ω = i}.indicator fun ω => x t ω - m i) 2 μ
  qmeas : ∀ t i, StronglyMeasurable[ℱ t] (q t i)
  q0 : ∀ t i ω, 0 ≤ q t i ω
  q1 : ∀ t i ω, q t i ω ≤ 1
  choose : ∀ t i, μ[{ω | g t ω = i}.indicator (1 : Ω → ℝ) | ℱ t] =ᵐ[μ] q t i
  mean : ∀ t i, μ[{ω | g t ω = i}.indicator (fun ω => x t ω - m i) | ℱ t] =ᵐ[μ] 0
  v0 : ∀ i, 0 ≤ v i
  var : ∀ t i (w : Ω → ℝ), StronglyMeasurable[ℱ t] w → (∀ ω, 0 ≤ w ω) → (∀ ω, w ω ≤ 1) →
    ∫ ω, w ω * {ω | g t ω = i}.indicator (fun ω => x t ω - m i) ω ^ 2 ∂μ =
      v i * ∫ ω, w ω * {ω | g t ω = i}.indicator 1 ω ∂μ

variable {μ : Measure Ω} [IsProbabilityMeasure μ] {ℱ : Filtration ℕ m0} {g : ℕ → Ω → Fin k} {x : ℕ → Ω → ℝ}
  {q : ℕ → Fin k → Ω → ℝ} {m v : Fin k → ℝ}

/-- the number of plays of group `i` before time `n` -/
noncomputable def playsOf (g : ℕ → Ω → Fin k) (i : Fin k) (n : ℕ) (ω : Ω) : ℝ := times (fun t => {ω | g t ω = i}) n ω

/-- the sum of the rewards of group `i` before time `n` -/
noncomputable def rewardOf (g : ℕ → Ω → Fin k) (x : ℕ → Ω → ℝ) (i : Fin k) (n : ℕ) (ω : Ω) : ℝ :=
  ∑ t ∈ range n, {ω | g t ω = i}.indicator (x t) ω

theorem IsBandit.infinitely_often (h : IsBandit μ ℱ g x q m v) (i : Fin k) : ∀ᵐ ω ∂μ,
    Tendsto (fun n => playsOf g i n ω) atTop atTop ↔ Tendsto (fun n => ∑ t ∈ range n, q t i ω) atTop atTop := by
  obtain ⟨s, hs⟩ : ∃ s : ℕ → Set Ω, s = fun t => Nat.casesOn t ∅ fun t => {ω | g t ω = i} := ⟨_, rfl⟩
  have hsm : ∀ n, MeasurableSet[ℱ n] (s n) := by
    intro n
    rw [hs]
    cases n with
    | zero => exact @MeasurableSet.empty _ (ℱ 0)
    | succ n => exact h.arm n i
  have hs1 : ∀ t, s (t + 1) = {ω | g t ω = i} := fun t => by rw [hs]
  have hch : ∀ᵐ ω ∂μ, ∀ t, (μ[{ω | g t ω = i}.indicator (1 : Ω → ℝ) | ℱ t]) ω = q t i ω :=
    ae_all_iff.2 fun t => h.choose t i
  filter_upwards [tendsto_sum_indicator_atTop_iff' (μ := μ) hsm, hch] with ω h1 h2
  simp only [hs1, h2] at h1
  exact h1

theorem IsBandit.averages (h : IsBandit μ ℱ g x q m v) (i : Fin k) : ∀ᵐ ω ∂μ,
    Tendsto (fun n => playsOf g i n ω) atTop atTop →
      Tendsto (fun n => rewardOf g x i n ω / playsOf g i n ω) atTop (𝓝 (m i)) := by
  have := average_when (μ := μ) (ℱ := ℱ) (A := fun t => {ω | g t ω = i})
    (D := fun t => {ω | g t ω = i}.indicator fun ω => x t ω - m i) (fun t => h.arm t i)
    (fun t => ((h.reward t).sub stronglyMeasurable_const).indicator (h.arm t i)) (fun t => h.memLp t i)
    (fun t ω hω => Set.indicator_of_notMem hω _) (fun t => h.mean t i) (h.v0 i) (fun t => h.var t i)
  filter_upwards [this] with ω hω hN
  have h1 := (hω hN).add_const (m i)
  rw [zero_add] at h1
  refine h1.congr' ?_
  filter_upwards [hN.eventually_gt_atTop 0] with n hn
  have e : ∑ t ∈ range n, {ω | g t ω = i}.indicator (fun ω => x t ω - m i) ω =
      rewardOf g x i n ω - m i * playsOf g i n ω := by
    rw [rewardOf, playsOf, times, mul_sum, ← sum_sub_distrib]
    refine sum_congr rfl fun t _ => ?_
    by_cases hi : g t ω = i <;> simp [Set.indicator, hi]
  have e2 : times (fun t => {ω | g t ω = i}) n ω = playsOf g i n ω := rfl
  rw [e, e2]
  field_simp
  ring

theorem IsBandit.shares (h : IsBandit μ ℱ g x q m v) (i : Fin k) : ∀ᵐ ω ∂μ,
    Tendsto (fun n : ℕ => (playsOf g i n ω - ∑ t ∈ range n, q t i ω) / n) atTop (𝓝 0) := by
  have hi : ∀ t, Integrable ({ω | g t ω = i}.indicator (1 : Ω → ℝ)) μ := fun t =>
    (integrable_const (1 : ℝ)).indicator (ℱ.le _ _ (h.arm t i))
  have hqi : ∀ t, Integrable (q t i) μ := fun t =>
    Integrable.of_bound ((h.qmeas t i).mono (ℱ.le t)).aestronglyMeasurable 1
      (Eventually.of_forall fun ω => by rw [Real.norm_eq_abs, abs_of_nonneg (h.q0 t i ω)]; exact h.q1 t i ω)
  have := average_bounded (μ := μ) (ℱ := ℱ) (D := fun t => {ω | g t ω = i}.indicator 1 - q t i)
    (fun t => (stronglyMeasurable_one.indicator (h.arm t i)).sub ((h.qmeas t i).mono (ℱ.mono (Nat.le_succ t))))
    (fun t ω => by
      have h0 := h.q0 t i ω
      have h1 := h.q1 t i ω
      simp only [Pi.sub_apply]
      by_cases hg : g t ω = i
      · rw [Set.indicator_of_mem (by exact hg), Pi.one_apply, abs_le]; constructor <;> linarith
      · rw [Set.indicator_of_notMem (by exact hg), abs_le]; constructor <;> linarith)
    (fun t => by
      refine (condExp_sub (hi t) (hqi t) (ℱ t)).trans ?_
      rw [condExp_of_stronglyMeasurable (ℱ.le t) (h.qmeas t i) (hqi t)]
      filter_upwards [h.choose t i] with ω hω
      simp [hω])
  filter_upwards [this] with ω hω
  refine hω.congr fun n => ?_
  rw [playsOf, times, ← sum_sub_distrib]
  rfl

end Random

end Conj
