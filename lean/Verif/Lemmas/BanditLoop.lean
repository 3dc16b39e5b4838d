import Verif.Lemmas.Bandit
import Verif.Lemmas.VectorDraw
import Verif.RvsSpec
import Mathlib.MeasureTheory.Function.FactorsThrough

/-!
# A loop of draws, each with parameters that depend on what was drawn before
-/

open MeasureTheory Filter Topology

namespace Conj

open Scipy Spec

variable {A B C : Type} [MeasurableSpace A] [MeasurableSpace B] [MeasurableSpace C]

/-- draw, then draw again with what came out -/
def Draw.pair {A C : Type} (d : Draw A) (f : A → Draw C) : Draw (A × C) :=
  ⟨fun s => (d.value s, (f (d.value s)).value (s.drop (d.used s))),
    fun s => d.used s + (f (d.value s)).used (s.drop (d.used s))⟩

theorem pair_run {A C : Type} (d : Draw A) (f : A → Draw C) (s : Stream) : (d.pair f).run s =
    (((d.run s).1, ((f (d.run s).1).run (d.run s).2).1), ((f (d.run s).1).run (d.run s).2).2) := by
  simp only [Draw.pair, Draw.run, Stream.drop_drop]

variable {P : Measure Stream} [IsProbabilityMeasure P]

theorem measurable_pair {d : B → Draw A} {f : A → Draw C} (hd : Measurable fun q : B × Stream => (d q.1).run q.2)
    (hf : Measurable fun q : A × Stream => (f q.1).run q.2) :
    Measurable fun q : B × Stream => ((d q.1).pair f).run q.2 := by
  simp only [pair_run]
  have h2 : Measurable fun q : B × Stream => (f ((d q.1).run q.2).1).run ((d q.1).run q.2).2 := hf.comp hd
  exact (hd.fst.prodMk h2.fst).prodMk h2.snd

theorem lintegral_pair {d : B → Draw A} {f : A → Draw C} {T : Set B} {κ : B → Measure A} {ν : A → Measure C}
    (hd : SamplesEach P d T κ) (hf : SamplesEach P f Set.univ ν) {b : B} (hb : b ∈ T)
    {F : (A × C) × Stream → ENNReal} (hF : Measurable F) :
    ∫⁻ s, F (((d b).pair f).run s) ∂P = ∫⁻ a, ∫⁻ c, ∫⁻ s, F ((a, c), s) ∂P ∂ν a ∂κ b := by
  simp only [pair_run]
  have hG : Measurable fun z : A × Stream => F ((z.1, ((f z.1).run z.2).1), ((f z.1).run z.2).2) := by
    have h2 := hf.measurable
    exact hF.comp ((measurable_fst.prodMk h2.fst).prodMk h2.snd)
  refine (lintegral_run hd hb hG).trans (lintegral_congr fun a => ?_)
  have hF' : Measurable fun z : C × Stream => F ((a, z.1), z.2) := by fun_prop
  exact lintegral_run hf (Set.mem_univ a) hF'

/-- a bandit: how the samples of the estimates are drawn, which group is chosen, where its rewards come from and what
they add to its parameters -/
structure Loop (k : ℕ) (ι : Type) where
  lib : FrozenSamplers ι
  estimate : ℝ × ℝ → Cont
  arm : (Fin k → ℝ) → Fin k
  source : Fin k → Cont
  start : Fin k → ℝ × ℝ
  add : ℝ → ℝ × ℝ

namespace Loop

variable {k : ℕ} {ι : Type}

/-- the plays: group and reward -/
abbrev Hist (k : ℕ) := ℕ → Fin k × ℝ

/-- the parameters after the first `t` plays -/
noncomputable def params (L : Loop k ι) (t : ℕ) (h : Hist k) (i : Fin k) : ℝ × ℝ :=
  L.start i + ∑ j ∈ Finset.range t, if (h j).1 = i then L.add (h j).2 else 0

/-- the samples of the estimates, and the reward of the group chosen -/
def draw (L : Loop k ι) (e : Fin k → ℝ × ℝ) : Draw ((Fin k → ℝ) × ℝ) :=
  (Draw.vec fun i => L.lib.cont (L.estimate (e i))).pair fun r => L.lib.cont (L.source (L.arm r))

/-- the plays so far (later ones are left at a fixed value) and the state of the generator -/
noncomputable def state (L : Loop k ι) : ℕ → Stream → Hist k × Stream
  | 0, s => (fun _ => (L.arm 0, 0), s)
  | t + 1, s =>
    let p := (L.draw (L.params t (L.state t s).1)).run (L.state t s).2
    (Function.update (L.state t s).1 t (L.arm p.1.1, p.1.2), p.2)

/-- play `t` -/
noncomputable def play (L : Loop k ι) (t : ℕ) (s : Stream) : Fin k × ℝ :=
  let p := (L.draw (L.params t (L.state t s).1)).run (L.state t s).2
  (L.arm p.1.1, p.1.2)

theorem hist_succ (L : Loop k ι) (t : ℕ) (s : Stream) :
    (L.state (t + 1) s).1 = Function.update (L.state t s).1 t (L.play t s) := rfl

theorem hist_get (L : Loop k ι) (s : Stream) : ∀ {t j : ℕ}, j < t → (L.state t s).1 j = L.play j s
  | t + 1, j, h => by
    rw [hist_succ]
    rcases Nat.lt_succ_iff_lt_or_eq.1 h with h' | h'
    · rw [Function.update_of_ne h'.ne]; exact hist_get L s h'
    · rw [h', Function.update_self]

/-- the parameters at time `t`, from the plays -/
theorem params_eq (L : Loop k ι) (t : ℕ) (s : Stream) (i : Fin k) : L.params t (L.state t s).1 i =
    L.start i + ∑ j ∈ Finset.range t, if (L.play j s).1 = i then L.add (L.play j s).2 else 0 := by
  rw [params]
  congr 1
  refine Finset.sum_congr rfl fun j hj => ?_
  rw [hist_get L s (Finset.mem_range.1 hj)]

theorem params_succ (L : Loop k ι) (t : ℕ) (s : Stream) (i : Fin k) : L.params (t + 1) (L.state (t + 1) s).1 i =
    L.params t (L.state t s).1 i + if (L.play t s).1 = i then L.add (L.play t s).2 else 0 := by
  rw [params_eq, params_eq, Finset.sum_range_succ, add_assoc]

/-- the samplers are correct, and every parameter stays where the estimates are distributions -/
structure Ok (L : Loop k ι) (P : Measure Stream) (T : Set (ℝ × ℝ)) : Prop where
  lib : CorrectFrozen L.lib P
  mT : MeasurableSet T
  mEst : Measurable fun q : (ℝ × ℝ) × ℝ => (L.estimate q.1).pdf q.2
  est : ∀ e ∈ T, IsProbabilityMeasure (contLaw (L.estimate e))
  arm : Measurable L.arm
  mSrc : ∀ i, Measurable (L.source i).pdf
  src : ∀ i, IsProbabilityMeasure (contLaw (L.source i))
  start : ∀ i, L.start i ∈ T
  mAdd : Measurable L.add
  add : ∀ i, ∀ᵐ x ∂contLaw (L.source i), ∀ e ∈ T, e + L.add x ∈ T

variable {L : Loop k ι} {T : Set (ℝ × ℝ)}

theorem Ok.samples (h : L.Ok P T) : SamplesEach P
    (fun e : Fin k → ℝ × ℝ => Draw.vec fun i => L.lib.cont (L.estimate (e i))) (Set.univ.pi fun _ => T)
    fun e => Measure.pi fun i => contLaw (L.estimate (e i)) :=
  vec_samples (d := fun (e : Fin k → ℝ × ℝ) i => L.lib.cont (L.estimate (e i))) fun i =>
    h.lib.cont (fun e : Fin k → ℝ × ℝ => L.estimate (e i)) _
      (h.mEst.comp (g := fun q : (ℝ × ℝ) × ℝ => (L.estimate q.1).pdf q.2)
        (f := fun q : (Fin k → ℝ × ℝ) × ℝ => (q.1 i, q.2)) (by fun_prop))
      fun e he => h.est _ (he i (Set.mem_univ i))

theorem Ok.rewards (h : L.Ok P T) : SamplesEach P (fun r : Fin k → ℝ => L.lib.cont (L.source (L.arm r))) Set.univ
    fun r => contLaw (L.source (L.arm r)) := by
  refine h.lib.cont (fun r : Fin k → ℝ => L.source (L.arm r)) _ ?_ fun r _ => h.src _
  have h1 : Measurable fun q : Fin k × ℝ => (L.source q.1).pdf q.2 := measurable_from_prod_countable_right fun i => h.mSrc i
  exact h1.comp (g := fun q : Fin k × ℝ => (L.source q.1).pdf q.2)
    (f := fun q : (Fin k → ℝ) × ℝ => (L.arm q.1, q.2)) ((h.arm.comp measurable_fst).prodMk measurable_snd)

theorem Ok.measurable_draw (h : L.Ok P T) : Measurable fun q : (Fin k → ℝ × ℝ) × Stream => (L.draw q.1).run q.2 :=
  measurable_pair (d := fun e : Fin k → ℝ × ℝ => Draw.vec fun i => L.lib.cont (L.estimate (e i))) h.samples.measurable
    h.rewards.measurable

theorem Ok.measurable_params (h : L.Ok P T) (t : ℕ) : Measurable (L.params t) := by
  rw [measurable_pi_iff]
  intro i
  refine measurable_const.add (Finset.measurable_sum _ fun j _ => ?_)
  refine Measurable.ite ?_ (h.mAdd.comp ((measurable_pi_apply j).snd)) measurable_const
  exact (measurable_pi_apply j).fst (measurableSet_singleton i)

theorem measurable_update_at (t : ℕ) : Measurable fun z : Hist k × (Fin k × ℝ) => Function.update z.1 t z.2 := by
  rw [measurable_pi_iff]
  intro j
  by_cases hj : j = t
  · subst hj; simpa using measurable_snd
  · simp only [Function.update_of_ne hj]
    exact (measurable_pi_apply j).comp measurable_fst

/-- one step, from the plays so far and the state of the generator -/
noncomputable def next (L : Loop k ι) (t : ℕ) (z : Hist k × Stream) : (Fin k × ℝ) × Stream :=
  let p := (L.draw (L.params t z.1)).run z.2
  ((L.arm p.1.1, p.1.2), p.2)

theorem Ok.measurable_next (h : L.Ok P T) (t : ℕ) : Measurable (L.next t) := by
  have h1 : Measurable fun z : Hist k × Stream => (L.draw (L.params t z.1)).run z.2 :=
    h.measurable_draw.comp (g := fun q : (Fin k → ℝ × ℝ) × Stream => (L.draw q.1).run q.2)
      (f := fun z : Hist k × Stream => (L.params t z.1, z.2)) (((h.measurable_params t).comp measurable_fst).prodMk measurable_snd)
  exact ((h.arm.comp h1.fst.fst).prodMk h1.fst.snd).prodMk h1.snd

theorem state_succ (L : Loop k ι) (t : ℕ) (s : Stream) : L.state (t + 1) s =
    (Function.update (L.state t s).1 t (L.next t (L.state t s)).1, (L.next t (L.state t s)).2) := rfl

theorem play_eq (L : Loop k ι) (t : ℕ) (s : Stream) : L.play t s = (L.next t (L.state t s)).1 := rfl

theorem Ok.measurable_state (h : L.Ok P T) : ∀ t, Measurable (L.state t)
  | 0 => by
    have : L.state 0 = fun s => (fun _ => (L.arm 0, 0), s) := rfl
    rw [this]; fun_prop
  | t + 1 => by
    have h1 := h.measurable_state t
    have h2 : Measurable fun s => L.next t (L.state t s) := (h.measurable_next t).comp h1
    have : L.state (t + 1) = fun s => (Function.update (L.state t s).1 t (L.next t (L.state t s)).1, (L.next t (L.state t s)).2) :=
      funext fun s => state_succ L t s
    rw [this]
    exact ((measurable_update_at t).comp (h1.fst.prodMk h2.fst)).prodMk h2.snd

/-- the chance, with the parameters `e`, that the samples of the estimates choose group `i` -/
noncomputable def chance (L : Loop k ι) (e : Fin k → ℝ × ℝ) (i : Fin k) : ENNReal :=
  (Measure.pi fun j => contLaw (L.estimate (e j))) {r | L.arm r = i}

/-- one step: the group is chosen by samples of the estimates, the reward comes from its source, the rest of the
generator is as new -/
theorem Ok.step (h : L.Ok P T) {e : Fin k → ℝ × ℝ} (he : ∀ i, e i ∈ T) {F : (Fin k × ℝ) × Stream → ENNReal}
    (hF : Measurable F) : ∫⁻ s, F ((L.arm ((L.draw e).run s).1.1, ((L.draw e).run s).1.2), ((L.draw e).run s).2) ∂P =
      ∑ i, (∫⁻ x, ∫⁻ s, F ((i, x), s) ∂P ∂contLaw (L.source i)) * L.chance e i := by
  have hF' : Measurable fun z : ((Fin k → ℝ) × ℝ) × Stream => F ((L.arm z.1.1, z.1.2), z.2) := by
    have := h.arm
    exact hF.comp (((this.comp measurable_fst.fst).prodMk measurable_fst.snd).prodMk measurable_snd)
  have h1 := lintegral_pair (b := e) h.samples h.rewards (fun i _ => he i) hF'
  refine h1.trans ?_
  have hp := h.samples.prob e fun i _ => he i
  have h2 := lintegral_map (μ := Measure.pi fun j => contLaw (L.estimate (e j)))
    (f := fun i : Fin k => ∫⁻ x, ∫⁻ s, F ((i, x), s) ∂P ∂contLaw (L.source i)) (measurable_of_countable _) h.arm
  refine h2.symm.trans ?_
  rw [lintegral_fintype]
  refine Finset.sum_congr rfl fun i _ => ?_
  rw [Measure.map_apply h.arm (measurableSet_singleton i)]
  rfl

/-- the plays after which all parameters are good -/
def good (L : Loop k ι) (T : Set (ℝ × ℝ)) (t : ℕ) : Set (Hist k) := {h | ∀ i, L.params t h i ∈ T}

theorem Ok.measurableSet_good (h : L.Ok P T) (t : ℕ) : MeasurableSet (L.good T t) := by
  have : L.good T t = L.params t ⁻¹' (Set.univ.pi fun _ => T) := by
    ext z; simp [good]
  rw [this]
  exact h.measurable_params t (MeasurableSet.univ_pi fun _ => h.mT)

theorem params_update (L : Loop k ι) (t : ℕ) (h : Hist k) (i j : Fin k) (x : ℝ) :
    L.params (t + 1) (Function.update h t (i, x)) j = L.params t h j + if i = j then L.add x else 0 := by
  rw [params, params, Finset.sum_range_succ, Function.update_self, ← add_assoc]
  congr 2
  refine Finset.sum_congr rfl fun l hl => ?_
  rw [Function.update_of_ne (Finset.mem_range.1 hl).ne]

/-- what is left of the generator is independent of the plays, and the parameters stay good -/
theorem Ok.fresh (h : L.Ok P T) : ∀ t, (∀ᵐ s ∂P, ∀ i, L.params t (L.state t s).1 i ∈ T) ∧
    ∀ {F : Hist k × Stream → ENNReal}, Measurable F →
      ∫⁻ s, F (L.state t s) ∂P = ∫⁻ s, ∫⁻ s', F ((L.state t s).1, s') ∂P ∂P
  | 0 => by
    refine ⟨Eventually.of_forall fun s i => ?_, fun {F} hF => ?_⟩
    · simpa [params] using h.start i
    · simp only [state, lintegral_const, measure_univ, mul_one]
  | t + 1 => by
    obtain ⟨hgood, hfresh⟩ := h.fresh t
    have hst := h.measurable_state t
    constructor
    · have hG : MeasurableSet (L.good T (t + 1))ᶜ := (h.measurableSet_good (t + 1)).compl
      have hup : Measurable fun z : Hist k × Stream => Function.update z.1 t (L.next t z).1 :=
        (measurable_update_at t).comp (measurable_fst.prodMk (h.measurable_next t).fst)
      have hI : Measurable ((L.good T (t + 1))ᶜ.indicator (1 : Hist k → ENNReal)) := measurable_one.indicator hG
      have h1 := hfresh (hI.comp hup)
      have h2 : ∀ᵐ s ∂P, ∫⁻ s', ((L.good T (t + 1))ᶜ.indicator (1 : Hist k → ENNReal) ∘
          fun z : Hist k × Stream => Function.update z.1 t (L.next t z).1) ((L.state t s).1, s') ∂P = 0 := by
        filter_upwards [hgood] with s hs
        have hx := h.step hs (F := fun z => (L.good T (t + 1))ᶜ.indicator (1 : Hist k → ENNReal)
          (Function.update (L.state t s).1 t z.1))
          (hI.comp ((measurable_update_at t).comp (measurable_const.prodMk measurable_fst)))
        refine Eq.trans (lintegral_congr fun s' => rfl) (hx.trans ?_)
        refine Finset.sum_eq_zero fun i _ => mul_eq_zero.2 (Or.inl ?_)
        simp only [lintegral_const, measure_univ, mul_one]
        refine (lintegral_congr_ae ?_).trans lintegral_zero
        filter_upwards [h.add i] with x hxT
        refine Set.indicator_of_notMem ?_ _
        rw [Set.mem_compl_iff, not_not]
        intro j
        rw [params_update]
        split_ifs
        · exact hxT _ (hs j)
        · rw [add_zero]; exact hs j
      rw [lintegral_congr_ae h2, lintegral_zero] at h1
      have h3 := (lintegral_eq_zero_iff ((hI.comp hup).comp hst)).1 h1
      filter_upwards [h3] with s hs
      by_contra hcon
      have hmem : Function.update (L.state t s).1 t (L.next t (L.state t s)).1 ∈ (L.good T (t + 1))ᶜ := hcon
      simp only [Function.comp_apply, Set.indicator_of_mem hmem, Pi.one_apply, Pi.zero_apply] at hs
      exact one_ne_zero hs
    · intro F hF
      have hup : Measurable fun z : Hist k × Stream => (Function.update z.1 t (L.next t z).1, (L.next t z).2) :=
        ((measurable_update_at t).comp (measurable_fst.prodMk (h.measurable_next t).fst)).prodMk (h.measurable_next t).snd
      have hG1 : Measurable fun z : Hist k × Stream => F (Function.update z.1 t (L.next t z).1, (L.next t z).2) := hF.comp hup
      have hG2 : Measurable fun z : Hist k × Stream => ∫⁻ s', F (Function.update z.1 t (L.next t z).1, s') ∂P :=
        (hF.lintegral_prod_right' (ν := P)).comp hup.fst
      have e1 := hfresh hG1
      have e2 := hfresh hG2
      simp only [state_succ]
      refine e1.trans (Eq.trans ?_ e2.symm)
      refine lintegral_congr_ae ?_
      filter_upwards [hgood] with s hs
      have hF1 : Measurable fun z : (Fin k × ℝ) × Stream => F (Function.update (L.state t s).1 t z.1, z.2) :=
        hF.comp (((measurable_update_at t).comp (measurable_const.prodMk measurable_fst)).prodMk measurable_snd)
      have hF2 : Measurable fun z : (Fin k × ℝ) × Stream => ∫⁻ s', F (Function.update (L.state t s).1 t z.1, s') ∂P :=
        (hF.lintegral_prod_right' (ν := P)).comp ((measurable_update_at t).comp (measurable_const.prodMk measurable_fst))
      have s1 := h.step hs hF1
      have s2 := h.step hs hF2
      refine s1.trans (Eq.trans ?_ s2.symm)
      simp only [lintegral_const, measure_univ, mul_one]

/-- the next play, given the plays so far -/
theorem Ok.next_play (h : L.Ok P T) (t : ℕ) {G : Hist k × (Fin k × ℝ) → ENNReal} (hG : Measurable G) :
    ∫⁻ s, G ((L.state t s).1, L.play t s) ∂P =
      ∫⁻ s, ∑ i, (∫⁻ x, G ((L.state t s).1, (i, x)) ∂contLaw (L.source i)) * L.chance (L.params t (L.state t s).1) i ∂P := by
  obtain ⟨hgood, hfresh⟩ := h.fresh t
  have hG1 : Measurable fun z : Hist k × Stream => G (z.1, (L.next t z).1) :=
    hG.comp (measurable_fst.prodMk (h.measurable_next t).fst)
  refine (hfresh hG1).trans (lintegral_congr_ae ?_)
  filter_upwards [hgood] with s hs
  have hF : Measurable fun z : (Fin k × ℝ) × Stream => G ((L.state t s).1, z.1) :=
    hG.comp (measurable_const.prodMk measurable_fst)
  have := h.step hs hF
  simp only [lintegral_const, measure_univ, mul_one] at this
  exact this

end Loop

end Conj
