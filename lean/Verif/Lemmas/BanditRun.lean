import Verif.Lemmas.BanditGamma

/-!
# The documented loop and its long run
-/

open MeasureTheory Filter Topology

namespace Conj

open Scipy Spec

variable {k : ℕ} {ι : Type} {P : Measure Stream} [IsProbabilityMeasure P]

/-- the loop of the documentation -/
noncomputable def docsLoop (lib : FrozenSamplers ι) (hk : 0 < k) (true_dist : ℕ → Cont) (a b : ℕ → ℝ) : Loop k ι where
  lib := lib
  estimate e := Gamma.dist ⟨e.1, e.2⟩
  arm := least hk
  source i := true_dist i
  start i := (a i, b i)
  add x := (x, 1)

/-- the waits have a density, are positive and have a mean and a variance -/
structure Waits (d : Cont) (m v : ℝ) : Prop where
  meas : Measurable d.pdf
  prob : IsProbabilityMeasure (contLaw d)
  pos : ∀ᵐ x ∂contLaw d, 0 < x
  moments : Loop.Moments (contLaw d) m v

theorem docsLoop_ok {lib : FrozenSamplers ι} (hlib : CorrectFrozen lib P) (hk : 0 < k) {true_dist : ℕ → Cont}
    (hm : ∀ i < k, Measurable (true_dist i).pdf) (hp : ∀ i < k, IsProbabilityMeasure (contLaw (true_dist i)))
    (h0 : ∀ i < k, ∀ᵐ x ∂contLaw (true_dist i), 0 < x) {a b : ℕ → ℝ} (ha : ∀ i < k, 0 < a i) (hb : ∀ i < k, 0 < b i) :
    (docsLoop lib hk true_dist a b).Ok P (Set.Ioi 0 ×ˢ Set.Ioi 0) where
  lib := hlib
  mT := measurableSet_Ioi.prod measurableSet_Ioi
  mEst := measurable_gamma_pdf
  est e he := gamma_prob he.1 he.2
  arm := measurable_least hk
  mSrc i := hm i i.isLt
  src i := hp i i.isLt
  start i := ⟨ha i i.isLt, hb i i.isLt⟩
  mAdd := by simp only [docsLoop]; fun_prop
  add i := by
    filter_upwards [h0 i i.isLt] with x hx e he
    have h1 : 0 < e.1 := he.1
    have h2 : 0 < e.2 := he.2
    refine ⟨?_, ?_⟩
    · change 0 < e.1 + x; linarith
    · change 0 < e.2 + 1; linarith

theorem docs_params (lib : FrozenSamplers ι) (hk : 0 < k) (true_dist : ℕ → Cont) (a b : ℕ → ℝ) (t : ℕ) (s : Stream)
    (i : Fin k) :
    (docsLoop lib hk true_dist a b).params t ((docsLoop lib hk true_dist a b).state t s).1 i =
      (a i + ∑ j ∈ Finset.range t, (if ((docsLoop lib hk true_dist a b).play j s).1 = i then
          ((docsLoop lib hk true_dist a b).play j s).2 else 0),
       b i + ∑ j ∈ Finset.range t, (if ((docsLoop lib hk true_dist a b).play j s).1 = i then 1 else 0)) := by
  rw [Loop.params_eq]
  have hs : (docsLoop lib hk true_dist a b).start i = (a i, b i) := rfl
  rw [hs]
  ext
  · rw [Prod.fst_add, Prod.fst_sum]
    congr 1
    refine Finset.sum_congr rfl fun j _ => ?_
    split_ifs <;> rfl
  · rw [Prod.snd_add, Prod.snd_sum]
    congr 1
    refine Finset.sum_congr rfl fun j _ => ?_
    split_ifs <;> rfl

theorem entryAt_holds {A : ArrExpr ℝ} {f : ℕ → ℝ} (h : Holds A k f) (i : Fin k) : entryAt A i = f i := by
  obtain ⟨B, rfl, -, h2⟩ := h
  exact h2 i i.isLt

/-- what the loop returns -/
theorem docs_run (lib : FrozenSamplers ι) (hk : 0 < k) (true_dist : ℕ → Cont) {estimate : Gamma (ArrExpr ℝ)} {a b : ℕ → ℝ}
    (ha : Holds estimate.alpha k a) (hb : Holds estimate.beta k b) (s : Stream) : ∀ T, ∃ e,
      thompsonLoop lib k true_dist T estimate s = .ok (e, ((docsLoop lib hk true_dist a b).state T s).2) ∧
      Holds e.alpha k (fun i => a i + ∑ t ∈ Finset.range T, (if ((docsLoop lib hk true_dist a b).play t s).1.val = i then
          ((docsLoop lib hk true_dist a b).play t s).2 else 0)) ∧
      Holds e.beta k (fun i => b i + ∑ t ∈ Finset.range T,
          (if ((docsLoop lib hk true_dist a b).play t s).1.val = i then 1 else 0))
  | 0 => ⟨estimate, rfl, by simpa using ha, by simpa using hb⟩
  | T + 1 => by
    obtain ⟨e, he, hA, hB⟩ := docs_run lib hk true_dist ha hb s T
    obtain ⟨L, hL⟩ : ∃ L, L = docsLoop lib hk true_dist a b := ⟨_, rfl⟩
    have hentry : ∀ i : Fin k, (e.entry i).dist = L.estimate (L.params T (L.state T s).1 i) := by
      intro i
      rw [hL, docs_params]
      simp only [Gamma.entry, docsLoop, entryAt_holds hA, entryAt_holds hB, Fin.val_inj]
      rfl
    obtain ⟨p, hp⟩ : ∃ p, p = (Draw.vec fun i : Fin k => lib.cont (e.entry i).dist).run (L.state T s).2 := ⟨_, rfl⟩
    obtain ⟨w, hw⟩ : ∃ w, w = (lib.cont (true_dist (least hk p.1))).run p.2 := ⟨_, rfl⟩
    have hnext : L.next T (L.state T s) = ((least hk p.1, w.1), w.2) := by
      have hd : (L.draw (L.params T (L.state T s).1)).run (L.state T s).2 = ((p.1, w.1), w.2) := by
        rw [Loop.draw, pair_run]
        simp only [← hentry]
        rw [hw, hp, hL]
        rfl
      simp only [Loop.next, hd]
      rw [hL]; rfl
    have hplay : L.play T s = (least hk p.1, w.1) := by rw [Loop.play_eq, hnext]
    obtain ⟨X, N, hst, hX, hN⟩ := holds_stats (least hk p.1).isLt w.1
    refine ⟨exponential_gamma (.ok X) (.ok N) e, ?_, ?_, ?_⟩
    · rw [thompsonLoop, he]
      change thompsonStep lib k true_dist e ((docsLoop lib hk true_dist a b).state T s).2 = _
      rw [← hL, Loop.state_succ, hnext]
      simp only [thompsonStep, ← hp, (least_spec hk p.1).1]
      change (bayesian_update_stats (least hk p.1) ((lib.cont (true_dist (least hk p.1))).run p.2).1 k >>= _) = _
      rw [← hw, hst]
      rfl
    · obtain ⟨A, h1, h2, h3⟩ := holds_add hA hX
      refine ⟨A, h1, h2, fun i hi => ?_⟩
      rw [h3 i hi]
      beta_reduce
      rw [Finset.sum_range_succ, ← hL, hplay, ← add_assoc]
      simp only [eq_comm]
    · obtain ⟨A, h1, h2, h3⟩ := holds_add hB hN
      refine ⟨A, h1, h2, fun i hi => ?_⟩
      rw [h3 i hi]
      beta_reduce
      rw [Finset.sum_range_succ, ← hL, hplay, ← add_assoc]
      simp only [eq_comm]

theorem pi_box {d : Fin k → Measure ℝ} [∀ i, IsProbabilityMeasure (d i)] {S : Fin k → Set ℝ} :
    (Measure.pi d).real (Set.univ.pi S) = ∏ i, (d i).real (S i) := by
  rw [measureReal_def, Measure.pi_pi, ENNReal.toReal_prod]
  rfl

/-- if a group is not played forever it is not played any more -/
theorem stops {g : ℕ → Fin k} {i : Fin k}
    (h : ¬ Tendsto (fun n => ∑ t ∈ Finset.range n, (if g t = i then (1 : ℝ) else 0)) atTop atTop) :
    ∃ T, ∀ t ≥ T, g t ≠ i := by
  by_contra hcon
  push Not at hcon
  refine h ((not_summable_iff_tendsto_nat_atTop_of_nonneg fun t => by split_ifs <;> norm_num).1 fun hs => ?_)
  have h0 := hs.tendsto_atTop_zero.eventually_lt_const (one_pos)
  obtain ⟨T, hT⟩ := eventually_atTop.1 h0
  obtain ⟨t, ht, he⟩ := hcon T
  have := hT t ht
  rw [if_pos he] at this
  exact lt_irrefl _ this

/-- a prior does not matter in the long run -/
theorem ratio_limit {R N : ℕ → ℝ} {m : ℝ} (a b : ℝ) (h : Tendsto (fun n => R n / N n) atTop (𝓝 m))
    (hN : Tendsto N atTop atTop) : Tendsto (fun n => (a + R n) / (b + N n)) atTop (𝓝 m) := by
  have h1 : Tendsto (fun n => (a / N n + R n / N n) / (b / N n + 1)) atTop (𝓝 ((0 + m) / (0 + 1))) :=
    ((hN.const_div_atTop a).add h).div ((hN.const_div_atTop b).add_const 1) (by norm_num)
  rw [zero_add, zero_add, div_one] at h1
  refine h1.congr' ?_
  filter_upwards [hN.eventually_gt_atTop 0] with n hn
  have e1 : a / N n + R n / N n = (a + R n) / N n := by rw [add_div]
  have e2 : b / N n + 1 = (b + N n) / N n := by rw [add_div, div_self hn.ne']
  rw [e1, e2, div_div_div_cancel_right₀ hn.ne']

theorem concentrates_sides {post : ℕ → Measure ℝ} (hp : ∀ n, IsProbabilityMeasure (post n)) {m : ℝ}
    (h : ConcentratesAt post m) : (∀ c < m, Tendsto (fun t => (post t).real (Set.Ioi c)) atTop (𝓝 1)) ∧
      ∀ c > m, Tendsto (fun t => (post t).real (Set.Iio c)) atTop (𝓝 1) := by
  have key : ∀ ε > 0, ∀ S : Set ℝ, Metric.ball m ε ⊆ S → Tendsto (fun t => (post t).real S) atTop (𝓝 1) := by
    intro ε hε S hS
    have h1 : Tendsto (fun n => (post n).real (Metric.ball m ε)) atTop (𝓝 1) := by
      have := (ENNReal.tendsto_toReal ENNReal.one_ne_top).comp (h ε hε)
      rw [ENNReal.toReal_one] at this
      exact this
    exact tendsto_of_tendsto_of_tendsto_of_le_of_le h1 tendsto_const_nhds (fun n => measureReal_mono hS)
      fun n => measureReal_le_one
  refine ⟨fun c hc => key (m - c) (by linarith) _ fun x hx => ?_, fun c hc => key (c - m) (by linarith) _ fun x hx => ?_⟩
  · rw [Metric.mem_ball, Real.dist_eq, abs_lt] at hx
    rw [Set.mem_Ioi]; linarith
  · rw [Metric.mem_ball, Real.dist_eq, abs_lt] at hx
    rw [Set.mem_Iio]; linarith

theorem docs_long_run {lib : FrozenSamplers ι} (hlib : CorrectFrozen lib P) (hk : 0 < k) {true_dist : ℕ → Cont}
    {m v : ℕ → ℝ} (hW : ∀ i < k, Waits (true_dist i) (m i) (v i)) (hm0 : ∀ i < k, 0 < m i) {a b : ℕ → ℝ}
    (ha : ∀ i < k, 0 < a i) (hb : ∀ i < k, 0 < b i) : ∀ᵐ s ∂P,
      (∀ t (i : Fin k), (docsLoop lib hk true_dist a b).params t ((docsLoop lib hk true_dist a b).state t s).1 i ∈
        Set.Ioi (0 : ℝ) ×ˢ Set.Ioi (0 : ℝ)) ∧
      (∀ i : Fin k, Tendsto (fun n => ∑ t ∈ Finset.range n,
        (if ((docsLoop lib hk true_dist a b).play t s).1 = i then (1 : ℝ) else 0)) atTop atTop) ∧
      (∀ i : Fin k, Tendsto (fun n => (∑ t ∈ Finset.range n, (if ((docsLoop lib hk true_dist a b).play t s).1 = i then
          ((docsLoop lib hk true_dist a b).play t s).2 else 0)) / ∑ t ∈ Finset.range n,
        (if ((docsLoop lib hk true_dist a b).play t s).1 = i then (1 : ℝ) else 0)) atTop (𝓝 (m i))) ∧
      (∀ i : Fin k, (∀ j < k, j ≠ i → m i < m j) → Tendsto (fun n : ℕ => (∑ t ∈ Finset.range n,
        (if ((docsLoop lib hk true_dist a b).play t s).1 = i then (1 : ℝ) else 0)) / n) atTop (𝓝 1)) ∧
      ∀ i j : Fin k, m j < m i → Tendsto (fun n : ℕ => (∑ t ∈ Finset.range n,
        (if ((docsLoop lib hk true_dist a b).play t s).1 = i then (1 : ℝ) else 0)) / n) atTop (𝓝 0) := by
  obtain ⟨L, hL⟩ : ∃ L, L = docsLoop lib hk true_dist a b := ⟨_, rfl⟩
  have hok : L.Ok P (Set.Ioi 0 ×ˢ Set.Ioi 0) := hL ▸ docsLoop_ok hlib hk (fun i hi => (hW i hi).meas)
    (fun i hi => (hW i hi).prob) (fun i hi => (hW i hi).pos) ha hb
  have hB := hok.isBandit (m := fun i => m i) (v := fun i => v i) fun i => hL ▸ (hW i i.isLt).moments
  have hgood : ∀ᵐ s ∂P, ∀ t i, L.params t (L.state t s).1 i ∈ Set.Ioi (0 : ℝ) ×ˢ Set.Ioi (0 : ℝ) :=
    ae_all_iff.2 fun t => (hok.fresh t).1
  have hN : ∀ i n s, playsOf (fun t s => (L.play t s).1) i n s =
      ∑ t ∈ Finset.range n, (if (L.play t s).1 = i then (1 : ℝ) else 0) := by
    intro i n s
    rw [playsOf, times]
    refine Finset.sum_congr rfl fun t _ => ?_
    by_cases h : (L.play t s).1 = i <;> simp [h]
  have hR : ∀ i n s, rewardOf (fun t s => (L.play t s).1) (fun t s => (L.play t s).2) i n s =
      ∑ t ∈ Finset.range n, (if (L.play t s).1 = i then (L.play t s).2 else 0) := by
    intro i n s
    rw [rewardOf]
    refine Finset.sum_congr rfl fun t _ => ?_
    by_cases h : (L.play t s).1 = i <;> simp [h]
  have h1 := ae_all_iff.2 fun i => hB.infinitely_often i
  have h2 := ae_all_iff.2 fun i => hB.averages i
  have h3 := ae_all_iff.2 fun i => hB.shares i
  rw [← hL]
  filter_upwards [hgood, h1, h2, h3] with s hg i1 i2 i3
  simp only [hN, hR] at i1 i2 i3
  have hest : ∀ e, L.estimate e = Gamma.dist ⟨e.1, e.2⟩ := fun e => by rw [hL]; rfl
  have hpr : ∀ t i, IsProbabilityMeasure (contLaw (L.estimate (L.params t (L.state t s).1 i))) := fun t i =>
    hok.est _ (hg t i)
  have hch : ∀ t i, (L.prob P (L.params t (L.state t s).1) i).toReal =
      (Measure.pi fun j => contLaw (L.estimate (L.params t (L.state t s).1 j))).real {r | least hk r = i} := by
    intro t i
    rw [hok.prob_eq (hg t), Loop.chance, hL]
    rfl
  have hparams : ∀ t i, L.params t (L.state t s).1 i =
      (a i + ∑ j ∈ Finset.range t, (if (L.play j s).1 = i then (L.play j s).2 else 0),
       b i + ∑ j ∈ Finset.range t, (if (L.play j s).1 = i then 1 else 0)) := by
    intro t i; rw [hL]; exact docs_params lib hk true_dist a b t s i
  have hrec : ∀ i, Tendsto (fun n => ∑ t ∈ Finset.range n, (if (L.play t s).1 = i then (1 : ℝ) else 0)) atTop atTop →
      Recovers (fun t => contLaw (L.estimate (L.params t (L.state t s).1 i))) (m i) := by
    intro i hi
    simp only [hest]
    refine recovers_gamma (fun t => (hg t i).1) (fun t => (hg t i).2) ?_ ?_
    · simp only [hparams]
      exact ratio_limit (a i) (b i) (i2 i hi) hi
    · simp only [hparams]
      exact tendsto_atTop_add_const_left _ _ hi
  have hconc : ∀ i, Tendsto (fun n => ∑ t ∈ Finset.range n, (if (L.play t s).1 = i then (1 : ℝ) else 0)) atTop atTop →
      (∀ c < m i, Tendsto (fun t => (contLaw (L.estimate (L.params t (L.state t s).1 i))).real (Set.Ioi c)) atTop (𝓝 1)) ∧
      ∀ c > m i, Tendsto (fun t => (contLaw (L.estimate (L.params t (L.state t s).1 i))).real (Set.Iio c)) atTop (𝓝 1) :=
    fun i hi => concentrates_sides (fun t => hpr t i) (hrec i hi).concentrates
  have hlr := thompson_long_run (k := k)
    (N := fun i n => ∑ t ∈ Finset.range n, (if (L.play t s).1 = i then (1 : ℝ) else 0))
    (q := fun t i => (L.prob P (L.params t (L.state t s).1) i).toReal)
    (L := fun t i => contLaw (L.estimate (L.params t (L.state t s).1 i))) (m := fun i => m i)
    (fun i => hm0 i i.isLt) (fun t i => hB.q0 t i s) (fun t i => hB.q1 t i s) hpr
    (fun t i c => by
      rw [hch]
      refine le_trans (le_of_eq ?_) (measureReal_mono (h₂ := measure_ne_top _ _)
        (s₁ := Set.univ.pi fun j => if j = i then Set.Iio c else Set.Ioi c) fun r hr => ?_)
      · rw [pi_box, ← Finset.mul_prod_erase Finset.univ _ (Finset.mem_univ i), if_pos rfl]
        congr 1
        exact Finset.prod_congr rfl fun j hj => by rw [if_neg (Finset.ne_of_mem_erase hj)]
      · have hi : r i < c := by simpa using hr i (Set.mem_univ i)
        have hj : ∀ j, j ≠ i → c < r j := fun j hj => by simpa [hj] using hr j (Set.mem_univ j)
        refine (least_eq_iff hk r i).2 ⟨fun j => ?_, fun j h => hi.trans (hj j h.ne)⟩
        by_cases h : j = i
        · rw [h]
        · exact (hi.trans (hj j h)).le)
    (fun i h => (i1 i).2 h) hconc
    (fun i hi => by
      obtain ⟨T, hT⟩ := stops hi
      refine ⟨T, fun t ht => ?_⟩
      have : L.params t (L.state t s).1 i = L.params T (L.state T s).1 i := by
        induction t, ht using Nat.le_induction with
        | base => rfl
        | succ t ht ih => rw [Loop.params_succ, if_neg (hT t ht), add_zero, ih]
      rw [this])
    (fun t i c hc => by
      rw [hest]
      exact gamma_both_sides (hg t i).1 (hg t i).2 hc)
    i3
  refine ⟨hg, hlr.1, fun i => i2 i (hlr.1 i), fun i hi => hlr.2 i fun j hj => hi j j.isLt fun h => hj (Fin.ext h), ?_⟩
  intro i j hij
  refine thompson_losers (k := k)
    (N := fun i n => ∑ t ∈ Finset.range n, (if (L.play t s).1 = i then (1 : ℝ) else 0))
    (q := fun t i => (L.prob P (L.params t (L.state t s).1) i).toReal)
    (L := fun t i => contLaw (L.estimate (L.params t (L.state t s).1 i))) (m := fun i => m i)
    (fun t i => hB.q0 t i s) (fun t i j c hne => ?_) (fun i => hconc i (hlr.1 i)) i3 hij
  rw [hch, le_sub_iff_add_le]
  have hbox : (contLaw (L.estimate (L.params t (L.state t s).1 i))).real (Set.Ioi c) *
      (contLaw (L.estimate (L.params t (L.state t s).1 j))).real (Set.Iio c) =
      (Measure.pi fun j => contLaw (L.estimate (L.params t (L.state t s).1 j))).real
        (Set.univ.pi fun l => if l = i then Set.Ioi c else if l = j then Set.Iio c else Set.univ) := by
    rw [pi_box, ← Finset.mul_prod_erase Finset.univ _ (Finset.mem_univ i),
      ← Finset.mul_prod_erase (Finset.univ.erase i) _ (Finset.mem_erase.2 ⟨hne.symm, Finset.mem_univ j⟩), if_pos rfl,
      if_neg hne.symm, if_pos rfl, Finset.prod_eq_one fun l hl => ?_, mul_one]
    rw [if_neg (Finset.ne_of_mem_erase (Finset.mem_of_mem_erase hl)), if_neg (Finset.ne_of_mem_erase hl)]
    exact probReal_univ
  rw [hbox, ← measureReal_union _ _]
  · exact measureReal_le_one
  · refine Set.disjoint_left.2 fun r hr hr2 => ?_
    have h1 := ((least_eq_iff hk r i).1 hr).1 j
    have h2 : c < r i := by simpa using hr2 i (Set.mem_univ i)
    have h3 : r j < c := by simpa [hne.symm] using hr2 j (Set.mem_univ j)
    linarith
  · exact MeasurableSet.univ_pi fun l => by split_ifs <;> measurability

end Conj
