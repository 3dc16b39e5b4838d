import Verif.Lemmas.BanditRun
import Verif.BanditSpec
import Verif.Lemmas.Quantile

/-!
# C107, C108: the documented Thompson sampling loop
-/

open MeasureTheory Filter Topology

namespace Conj

open Scipy Spec

variable {k : ℕ} {ι : Type} {P : Measure Stream} [IsProbabilityMeasure P]

/-- The loop never fails; its estimates count the total wait and the plays of each group; and its plays, as random
variables of the generator, are Thompson sampling. -/
theorem C107_thompson (lib : FrozenSamplers ι) (hlib : CorrectFrozen lib P) (hk : 0 < k) (true_dist : ℕ → Cont)
    (hm : ∀ i < k, Measurable (true_dist i).pdf) (hp : ∀ i < k, IsProbabilityMeasure (contLaw (true_dist i)))
    (h0 : ∀ i < k, ∀ᵐ x ∂contLaw (true_dist i), 0 < x) (estimate : Gamma (ArrExpr ℝ)) (a b : ℕ → ℝ)
    (ha : Holds estimate.alpha k a) (hb : Holds estimate.beta k b) (ha0 : ∀ i < k, 0 < a i) (hb0 : ∀ i < k, 0 < b i) :
    ∃ (group : ℕ → Stream → Fin k) (wait : ℕ → Stream → ℝ), IsThompson P true_dist a b group wait ∧
      ∀ T s, ∃ e rng, thompsonLoop lib k true_dist T estimate s = .ok (e, rng) ∧
        Holds e.alpha k (fun i => a i + waited (fun t => group t s) (fun t => wait t s) T i) ∧
        Holds e.beta k (fun i => b i + sampled (fun t => group t s) T i) := by
  obtain ⟨L, hL⟩ : ∃ L, L = docsLoop lib hk true_dist a b := ⟨_, rfl⟩
  have hok : L.Ok P (Set.Ioi 0 ×ˢ Set.Ioi 0) := hL ▸ docsLoop_ok hlib hk hm hp h0 ha0 hb0
  refine ⟨fun t s => (L.play t s).1, fun t s => (L.play t s).2,
    ⟨fun t => (hok.measurable_play t).fst, fun t => (hok.measurable_play t).snd, fun T H hH g A hA => ?_⟩, fun T s => ?_⟩
  · have hpast : ∀ s, (fun t : Fin T => ((L.play t s).1, (L.play t s).2)) = fun t : Fin T => (L.state T s).1 t := by
      intro s
      funext t
      rw [Loop.hist_get L s t.isLt]
    have hH' : MeasurableSet ((fun (h : Loop.Hist k) (t : Fin T) => h t) ⁻¹' H) := by
      have : Measurable fun (h : Loop.Hist k) (t : Fin T) => h t := by
        rw [measurable_pi_iff]; intro t; exact measurable_pi_apply _
      exact this hH
    simp only [hpast]
    have hS : MeasurableSet {s | (fun t : Fin T => (L.state T s).1 t) ∈ H} := hok.measurable_hist T hH'
    have hG : MeasurableSet {s | (L.play T s).1 = g} := (hok.measurable_play T).fst (measurableSet_singleton g)
    have hW : MeasurableSet {s | (L.play T s).2 ∈ A} := (hok.measurable_play T).snd hA
    have h1 := hok.rewarded T g (w := ((fun (h : Loop.Hist k) (t : Fin T) => h t) ⁻¹' H).indicator 1)
      (measurable_one.indicator hH') (f := A.indicator 1) (measurable_one.indicator hA)
    rw [hok.chosen T g (measurable_one.indicator hH'), lintegral_indicator_one hA, mul_comm] at h1
    have hsrc : contLaw (L.source g) = contLaw (true_dist g) := by rw [hL]; rfl
    rw [hsrc] at h1
    refine Eq.trans ?_ (h1.trans (congrArg (· * _) ?_))
    · have e : {s | (fun t : Fin T => (L.state T s).1 t) ∈ H ∧ (L.play T s).1 = g ∧ (L.play T s).2 ∈ A} =
          {s | (fun t : Fin T => (L.state T s).1 t) ∈ H} ∩ ({s | (L.play T s).1 = g} ∩ {s | (L.play T s).2 ∈ A}) := rfl
      rw [e, ← lintegral_indicator_one (hS.inter (hG.inter hW))]
      refine lintegral_congr fun s => ?_
      by_cases c1 : (fun t : Fin T => (L.state T s).1 t) ∈ H <;> by_cases c2 : (L.play T s).1 = g <;>
        by_cases c3 : (L.play T s).2 ∈ A <;> simp [Set.indicator, c1, c2, c3]
    · rw [← lintegral_indicator hS]
      refine lintegral_congr_ae ?_
      filter_upwards [(hok.fresh T).1] with s hs
      by_cases c1 : (fun t : Fin T => (L.state T s).1 t) ∈ H
      · rw [Set.indicator_of_mem (by exact c1), Set.indicator_of_mem (by exact c1), Pi.one_apply, one_mul, hok.prob_eq hs,
          Loop.chance]
        have hpr : ∀ i, IsProbabilityMeasure (contLaw (L.estimate (L.params T (L.state T s).1 i))) := fun i =>
          hok.est _ (hs i)
        have harm : L.arm = least hk := by rw [hL]; rfl
        rw [harm, least_strict hpr hk g]
        congr 2
        funext i
        rw [hL, docs_params]
        simp only [waited, sampled, Fin.val_inj]
        rfl
      · rw [Set.indicator_of_notMem (by exact c1), Set.indicator_of_notMem (by exact c1), zero_mul]
  · obtain ⟨e, h1, h2, h3⟩ := docs_run lib hk true_dist ha hb s T
    rw [← hL] at h1 h2 h3
    exact ⟨e, _, h1, h2, h3⟩

/-- the hypotheses hold: two groups with exponential waits of means 2 and 5, correct samplers, and a first play that is of
group 0 with the chance that a draw of `Gamma(1, 1)` is the lesser of two -/
example : ∃ (ι : Type) (lib : FrozenSamplers ι) (group : ℕ → Stream → Fin 2) (wait : ℕ → Stream → ℝ),
    IsThompson streamLaw (fun i => Exponential.dist ⟨[2, 5].getD i 1⟩) (fun _ => 1) (fun _ => 1) group wait ∧
    (∀ T s, ∃ e rng, thompsonLoop lib 2 (fun i => Exponential.dist ⟨[2, 5].getD i 1⟩) T
      ⟨.ok ⟨[2], fun _ => 1⟩, .ok ⟨[2], fun _ => 1⟩⟩ s = .ok (e, rng)) ∧
    streamLaw {s | group 0 s = 0} =
      (Measure.pi fun _ : Fin 2 => contLaw (Gamma.dist ⟨1, 1⟩)) {θ | ∀ j, j ≠ 0 → θ 0 < θ j} := by
  obtain ⟨lib, hlib⟩ := exists_frozen 0
  have hl : ∀ i < 2, (0 : ℝ) < [2, 5].getD i 1 := fun i hi => by interval_cases i <;> norm_num
  have hp : ∀ s : ℝ, 0 < s → IsProbabilityMeasure (contLaw (Exponential.dist ⟨s⟩)) := fun s hs => by
    rw [exponential_as_gamma hs]; exact gamma_prob one_pos (by positivity)
  obtain ⟨group, wait, h, hr⟩ := C107_thompson (k := 2) lib hlib (by norm_num)
    (fun i => Exponential.dist ⟨[2, 5].getD i 1⟩) (fun i _ => measurable_exponential_pdf _) (fun i hi => hp _ (hl i hi))
    (fun i hi => by beta_reduce; rw [exponential_as_gamma (hl i hi)]; exact gamma_pos (by have := hl i hi; positivity))
    ⟨.ok ⟨[2], fun _ => 1⟩, .ok ⟨[2], fun _ => 1⟩⟩ (fun _ => 1) (fun _ => 1) ⟨_, rfl, rfl, fun _ _ => rfl⟩
    ⟨_, rfl, rfl, fun _ _ => rfl⟩ (fun _ _ => one_pos) fun _ _ => one_pos
  refine ⟨_, lib, group, wait, h, fun T s => ?_, ?_⟩
  · obtain ⟨e, rng, h1, -⟩ := hr T s
    exact ⟨e, rng, h1⟩
  · have h1 := h.law 0 Set.univ MeasurableSet.univ 0 Set.univ MeasurableSet.univ
    have := hp ([2, 5].getD 0 1) (hl 0 (by norm_num))
    simp only [Set.mem_univ, true_and, and_true, waited, sampled, Finset.range_zero, Finset.sum_empty, add_zero,
      Fin.val_zero, measure_univ, mul_one, Set.ofPred_true, Measure.restrict_univ, lintegral_const] at h1
    exact h1

theorem Spec.IsWait.waits {d : Cont} {m v : ℝ} (h : IsWait d m v) : Waits d m v := by
  have hp := h.prob
  have h2 : MemLp (fun x : ℝ => x) 2 (contLaw d) := (memLp_two_iff_integrable_sq (by fun_prop)).2 h.square
  have h3 : MemLp (fun x : ℝ => x - m) 2 (contLaw d) := h2.sub (memLp_const m)
  refine ⟨h.meas, h.prob, h.pos, h2, h.mean, ?_, ?_⟩
  · rw [← h.var, ofReal_integral_eq_lintegral_ofReal ((memLp_two_iff_integrable_sq (by fun_prop)).1 h3)
      (Eventually.of_forall fun x => sq_nonneg _)]
  · rw [← h.var]; exact integral_nonneg fun x => sq_nonneg _

/-- In the long run, with probability one: every group is sampled again and again; every estimate finds the true mean
wait of its group; a group with the only shortest mean wait is sampled all but a vanishing share of the time, and one
that some other group beats only a vanishing share; the average wait tends to the shortest mean wait. -/
theorem C108_long_run (lib : FrozenSamplers ι) (hlib : CorrectFrozen lib P) (hk : 0 < k) (true_dist : ℕ → Cont)
    (m v : ℕ → ℝ) (hW : ∀ i < k, IsWait (true_dist i) (m i) (v i)) (estimate : Gamma (ArrExpr ℝ)) (a b : ℕ → ℝ)
    (ha : Holds estimate.alpha k a) (hb : Holds estimate.beta k b) (ha0 : ∀ i < k, 0 < a i) (hb0 : ∀ i < k, 0 < b i) :
    ∀ᵐ s ∂P, ∃ e : ℕ → Gamma (ArrExpr ℝ), (∀ T, ∃ rng, thompsonLoop lib k true_dist T estimate s = .ok (e T, rng)) ∧
      (∀ i < k, Tendsto (fun T => ((e T).entry i).beta - b i) atTop atTop) ∧
      (∀ i < k, Recovers (fun T => contLaw ((e T).entry i).dist) (m i)) ∧
      (∀ i < k, (∀ j < k, j ≠ i → m i < m j) → Tendsto (fun T : ℕ => (((e T).entry i).beta - b i) / T) atTop (𝓝 1)) ∧
      (∀ i < k, ∀ j < k, m j < m i → Tendsto (fun T : ℕ => (((e T).entry i).beta - b i) / T) atTop (𝓝 0)) ∧
      ∀ i < k, (∀ j < k, m i ≤ m j) →
        Tendsto (fun T : ℕ => (∑ j ∈ Finset.range k, (((e T).entry j).alpha - a j)) / T) atTop (𝓝 (m i)) := by
  have hm0 : ∀ i < k, 0 < m i := by
    intro i hi
    have h := hW i hi
    have hp := h.prob
    rw [← h.mean]
    have hint : Integrable (fun x : ℝ => x) (contLaw (true_dist i)) := h.waits.moments.memLp.integrable one_le_two
    rw [integral_pos_iff_support_of_nonneg_ae (h.pos.mono fun x hx => hx.le) hint]
    have : contLaw (true_dist i) (Function.support fun x : ℝ => x) = 1 := by
      exact (prob_compl_eq_zero_iff₀ (measurableSet_support measurable_id).nullMeasurableSet).1
        (h.pos.mono fun x hx => hx.ne')
    rw [this]; exact one_pos
  filter_upwards [docs_long_run hlib hk (fun i hi => (hW i hi).waits) hm0 ha0 hb0] with s hs
  obtain ⟨L, hL⟩ : ∃ L, L = docsLoop lib hk true_dist a b := ⟨_, rfl⟩
  have hrun := docs_run lib hk true_dist ha hb s
  rw [← hL] at hs hrun
  choose e he hA hB using hrun
  obtain ⟨hpos, hinf, hav, hbest, hlose⟩ := hs
  have halpha : ∀ T (i : Fin k), ((e T).entry i).alpha =
      a i + ∑ t ∈ Finset.range T, (if (L.play t s).1 = i then (L.play t s).2 else 0) := by
    intro T i
    rw [Gamma.entry]
    exact (entryAt_holds (hA T) i).trans (by simp only [Fin.val_inj])
  have hbeta : ∀ T (i : Fin k), ((e T).entry i).beta =
      b i + ∑ t ∈ Finset.range T, (if (L.play t s).1 = i then (1 : ℝ) else 0) := by
    intro T i
    rw [Gamma.entry]
    exact (entryAt_holds (hB T) i).trans (by simp only [Fin.val_inj])
  have hpar : ∀ T (i : Fin k), L.params T (L.state T s).1 i = (((e T).entry i).alpha, ((e T).entry i).beta) := by
    intro T i
    rw [halpha, hbeta, hL]
    exact docs_params lib hk true_dist a b T s i
  have hba : ∀ (i : Fin k), (fun T => ((e T).entry i).beta - b i) =
      fun T => ∑ t ∈ Finset.range T, (if (L.play t s).1 = i then (1 : ℝ) else 0) := fun i => by
    funext T; rw [hbeta]; ring
  refine ⟨e, fun T => ⟨_, he T⟩, fun i hi => ?_, fun i hi => ?_, fun i hi h => ?_, fun i hi j hj h => ?_, fun i hi h => ?_⟩
  · exact (hba ⟨i, hi⟩) ▸ hinf ⟨i, hi⟩
  · refine recovers_gamma (a := fun T => ((e T).entry i).alpha) (b := fun T => ((e T).entry i).beta)
      (fun T => ?_) (fun T => ?_) ?_ ?_
    · have := (hpos T ⟨i, hi⟩).1
      rwa [hpar] at this
    · have := (hpos T ⟨i, hi⟩).2
      rwa [hpar] at this
    · have := ratio_limit (a i) (b i) (hav ⟨i, hi⟩) (hinf ⟨i, hi⟩)
      exact this.congr fun T => by rw [← halpha T ⟨i, hi⟩, ← hbeta T ⟨i, hi⟩]
    · exact (tendsto_atTop_add_const_left _ (b i) (hinf ⟨i, hi⟩)).congr fun T => (hbeta T ⟨i, hi⟩).symm
  · exact (hbest ⟨i, hi⟩ h).congr fun T => by rw [← congrFun (hba ⟨i, hi⟩) T]
  · exact (hlose ⟨i, hi⟩ ⟨j, hj⟩ h).congr fun T => by rw [← congrFun (hba ⟨i, hi⟩) T]
  · have hreg := thompson_regret (k := k) (m := fun i => m i)
      (N := fun i n => ∑ t ∈ Finset.range n, (if (L.play t s).1 = i then (1 : ℝ) else 0))
      (S := fun i n => ∑ t ∈ Finset.range n, (if (L.play t s).1 = i then (L.play t s).2 else 0)) hinf
      (fun i n => Finset.sum_nonneg fun t _ => by split_ifs <;> norm_num)
      (fun n => by rw [Finset.sum_comm]; simp) hav (fun i j h => hlose i j h) (b := ⟨i, hi⟩) fun j => h j j.isLt
    refine hreg.congr fun T => ?_
    rw [Finset.sum_range fun j => ((e T).entry j).alpha - a j]
    congr 1
    refine Finset.sum_congr rfl fun j _ => ?_
    rw [halpha]; ring

theorem exponential_wait {s : ℝ} (hs : 0 < s) : IsWait (Exponential.dist ⟨s⟩) s (s * s) := by
  have h := exponential_moments hs
  have hp : IsProbabilityMeasure (contLaw (Exponential.dist ⟨s⟩)) := by
    rw [exponential_as_gamma hs]; exact gamma_prob one_pos (by positivity)
  refine ⟨measurable_exponential_pdf s, hp, ?_, (memLp_two_iff_integrable_sq (by fun_prop)).1 h.memLp, h.mean, ?_⟩
  · rw [exponential_as_gamma hs]; exact gamma_pos (by positivity)
  · rw [integral_eq_lintegral_of_nonneg_ae (Eventually.of_forall fun x => sq_nonneg _) (by fun_prop), h.var,
      ENNReal.toReal_ofReal h.nonneg]

/-- The documentation's example: exponential waits with means `lam`, from `Gamma(1, 1)` estimates. "We can see that the
group with the lowest wait time was actually exploited the most!" -/
theorem C108_documented (lib : FrozenSamplers ι) (hlib : CorrectFrozen lib P) (lam : ℕ → ℝ) (hl : ∀ i < k, 0 < lam i)
    (best : ℕ) (hbk : best < k) (hbest : ∀ j < k, j ≠ best → lam best < lam j) (ones : NdArr ℝ) (ho : ones.rshape = [k])
    (ho1 : ∀ i < k, ones.get [i] = 1) :
    ∀ᵐ s ∂P, ∃ e : ℕ → Gamma (ArrExpr ℝ),
      (∀ T, ∃ rng, thompsonLoop lib k (fun i => Exponential.dist ⟨lam i⟩) T ⟨.ok ones, .ok ones⟩ s = .ok (e T, rng)) ∧
      (∀ i < k, Recovers (fun T => contLaw ((e T).entry i).dist) (lam i)) ∧
      Tendsto (fun T : ℕ => (((e T).entry best).beta - 1) / T) atTop (𝓝 1) ∧
      (∀ j < k, j ≠ best → Tendsto (fun T : ℕ => (((e T).entry j).beta - 1) / T) atTop (𝓝 0)) ∧
      (∀ j < k, j ≠ best → ∀ᶠ T in atTop, ((e T).entry j).beta < ((e T).entry best).beta) ∧
      Tendsto (fun T : ℕ => (∑ j ∈ Finset.range k, (((e T).entry j).alpha - 1)) / T) atTop (𝓝 (lam best)) := by
  have h1 : Holds (.ok ones) k fun _ => 1 := ⟨ones, rfl, ho, ho1⟩
  filter_upwards [C108_long_run lib hlib (by omega) (fun i => Exponential.dist ⟨lam i⟩) lam (fun i => lam i * lam i)
    (fun i hi => exponential_wait (hl i hi)) ⟨.ok ones, .ok ones⟩ _ _ h1 h1 (fun _ _ => one_pos) fun _ _ => one_pos] with s hs
  obtain ⟨e, he, -, hrec, hb, hlose, hreg⟩ := hs
  have b1 := hb best hbk hbest
  have b2 := fun j hj hne => hlose j hj best hbk (hbest j hj hne)
  refine ⟨e, he, hrec, b1, b2, fun j hj hne => ?_, hreg best hbk fun j hj => ?_⟩
  · filter_upwards [b1.eventually_const_lt (by norm_num : (1 / 2 : ℝ) < 1),
      (b2 j hj hne).eventually_lt_const (by norm_num : (0 : ℝ) < 1 / 2), eventually_gt_atTop 0] with T h1 h2 hT
    have hT' : (0 : ℝ) < T := Nat.cast_pos.2 hT
    have := (div_lt_div_iff_of_pos_right hT').1 (h2.trans h1)
    linarith
  · by_cases h : j = best
    · rw [h]
    · exact (hbest j hj h).le

/-- three groups with mean waits 3, 1 and 2: a library of correct samplers exists, and group 1 wins -/
example : ∃ (ι : Type) (lib : FrozenSamplers ι), ∀ᵐ s ∂streamLaw, ∃ e : ℕ → Gamma (ArrExpr ℝ),
    (∀ T, ∃ rng, thompsonLoop lib 3 (fun i => Exponential.dist ⟨[3, 1, 2].getD i 1⟩) T
      ⟨.ok ⟨[3], fun _ => 1⟩, .ok ⟨[3], fun _ => 1⟩⟩ s = .ok (e T, rng)) ∧
    Tendsto (fun T : ℕ => (((e T).entry 1).beta - 1) / T) atTop (𝓝 1) := by
  obtain ⟨lib, hlib⟩ := exists_frozen 0
  refine ⟨_, lib, ?_⟩
  filter_upwards [C108_documented (k := 3) lib hlib (fun i => [3, 1, 2].getD i 1)
    (fun i hi => by interval_cases i <;> norm_num) 1 (by norm_num)
    (fun j hj hne => by interval_cases j <;> norm_num at *) ⟨[3], fun _ => 1⟩ rfl fun _ _ => rfl] with s hs
  obtain ⟨e, h1, -, h2, -⟩ := hs
  exact ⟨e, h1, h2⟩

end Conj
