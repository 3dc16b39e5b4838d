import Verif.SampleSpec

/-! Two-stage sampling: the list of pairs is an i.i.d. sample from the joint law. -/

open MeasureTheory Set

set_option linter.unusedSectionVars false

namespace Conj

open Spec

variable {A B C : Type} [MeasurableSpace A] [MeasurableSpace B] [MeasurableSpace C]

/-- several draws, as a vector -/
def drawVec : (n : ℕ) → (Fin n → Draw A) → Stream → (Fin n → A) × Stream
  | 0, _, s => (fun i => i.elim0, s)
  | n + 1, d, s =>
    let r := (d 0).run s
    let q := drawVec n (fun i => d i.succ) r.2
    (Fin.cons r.1 q.1, q.2)

theorem drawAll_ofFn : ∀ (n : ℕ) (d : Fin n → Draw A) (s : Stream),
    drawAll (List.ofFn d) s = (List.ofFn (drawVec n d s).1, (drawVec n d s).2)
  | 0, _, s => by simp [drawAll, drawVec]
  | n + 1, d, s => by
    rw [List.ofFn_succ]
    simp only [drawAll, drawVec, drawAll_ofFn n]
    simp [List.ofFn_succ]

theorem measurable_cons {n : ℕ} {X : Type*} [MeasurableSpace X] {f : X → A} {g : X → Fin n → A}
    (hf : Measurable f) (hg : Measurable g) : Measurable fun x => (Fin.cons (f x) (g x) : Fin (n + 1) → A) := by
  rw [measurable_pi_iff]
  intro i
  refine Fin.cases ?_ (fun j => ?_) i
  · simpa using hf
  · have h : Measurable fun x => g x j := (measurable_pi_apply j).comp hg
    simpa using h

theorem measurable_drawVec {d : B → Draw A} (hd : Measurable fun q : B × Stream => (d q.1).run q.2) :
    ∀ n : ℕ, Measurable fun q : (Fin n → B) × Stream => drawVec n (fun i => d (q.1 i)) q.2
  | 0 => by
    have : (fun q : (Fin 0 → B) × Stream => drawVec 0 (fun i => d (q.1 i)) q.2) =
        fun q => ((fun i => i.elim0 : Fin 0 → A), q.2) := by funext q; simp [drawVec]
    rw [this]; fun_prop
  | n + 1 => by
    have ih := measurable_drawVec hd n
    have h1 : Measurable fun q : (Fin (n + 1) → B) × Stream => (d (q.1 0)).run q.2 :=
      hd.comp (g := fun q : B × Stream => (d q.1).run q.2) (f := fun q : (Fin (n + 1) → B) × Stream => (q.1 0, q.2))
        (by fun_prop)
    have h2 : Measurable fun q : (Fin (n + 1) → B) × Stream =>
        drawVec n (fun i => d (q.1 i.succ)) ((d (q.1 0)).run q.2).2 :=
      ih.comp ((measurable_pi_iff.2 fun i => (measurable_pi_apply i.succ).comp measurable_fst).prodMk h1.snd)
    exact (measurable_cons h1.fst h2.fst).prodMk h2.snd

theorem lintegral_pi_const_succ (J : Measure A) [SigmaFinite J] (n : ℕ) (F : (Fin (n + 1) → A) → ENNReal)
    (hF : Measurable F) :
    ∫⁻ p, F p ∂(Measure.pi fun _ => J) = ∫⁻ x, ∫⁻ t : Fin n → A, F (Fin.cons x t) ∂(Measure.pi fun _ => J) ∂J := by
  have h := (measurePreserving_piFinSuccAbove (fun _ : Fin (n + 1) => J) 0).symm
  rw [← h.lintegral_comp hF]
  have hm : Measurable fun z : A × (Fin n → A) =>
      F ((MeasurableEquiv.piFinSuccAbove (fun _ => A) 0).symm z) := hF.comp (MeasurableEquiv.measurable _)
  refine (lintegral_prod (μ := J) (ν := Measure.pi fun _ : Fin n => J) _ hm.aemeasurable).trans ?_
  refine lintegral_congr fun x => lintegral_congr fun t => ?_
  congr 1
  funext i
  simp [MeasurableEquiv.piFinSuccAbove, Fin.insertNthEquiv]

theorem lintegral_pi_zero (J : Measure A) [SigmaFinite J] (F : (Fin 0 → A) → ENNReal) :
    ∫⁻ p, F p ∂(Measure.pi fun _ => J) = F (fun i => i.elim0) := by
  rw [Measure.pi_of_empty (fun _ : Fin 0 => J) (fun i => i.elim0)]
  have : Measurable F := Subsingleton.measurable
  rw [lintegral_dirac' _ this]

variable {P : Measure Stream} [IsProbabilityMeasure P]

/-- one draw, integrated -/
theorem lintegral_run {d : B → Draw A} {T : Set B} {κ : B → Measure A} (h : SamplesEach P d T κ) {b : B}
    (hb : b ∈ T) {F : A × Stream → ENNReal} (hF : Measurable F) :
    ∫⁻ s, F ((d b).run s) ∂P = ∫⁻ a, ∫⁻ s, F (a, s) ∂P ∂κ b := by
  have hm : Measurable (d b).run := h.measurable.comp (measurable_const.prodMk measurable_id)
  rw [← lintegral_map hF hm, h.law b hb]
  exact lintegral_prod _ hF.aemeasurable

/-- the first stage: `n` draws with the same parameter -/
theorem lintegral_drawVec_const {d : B → Draw A} {T : Set B} {κ : B → Measure A} (h : SamplesEach P d T κ) {b : B}
    (hb : b ∈ T) : ∀ (n : ℕ) {F : (Fin n → A) × Stream → ENNReal}, Measurable F →
    ∫⁻ s, F (drawVec n (fun _ => d b) s) ∂P = ∫⁻ v, ∫⁻ s, F (v, s) ∂P ∂(Measure.pi fun _ => κ b)
  | 0, F, hF => by
    have := h.prob b hb
    rw [lintegral_pi_zero]; rfl
  | n + 1, F, hF => by
    have := h.prob b hb
    have hm : Measurable fun z : A × Stream =>
        F (Fin.cons z.1 (drawVec n (fun _ => d b) z.2).1, (drawVec n (fun _ => d b) z.2).2) := by
      have h2 : Measurable fun z : A × Stream => drawVec n (fun _ => d b) z.2 :=
        (measurable_drawVec h.measurable n).comp (measurable_const.prodMk measurable_snd)
      exact hF.comp ((measurable_cons measurable_fst h2.fst).prodMk h2.snd)
    have e := lintegral_run h hb hm
    refine e.trans ?_
    rw [lintegral_pi_const_succ _ _ _ hF.lintegral_prod_right']
    refine lintegral_congr fun a => ?_
    have hm' : Measurable fun z : (Fin n → A) × Stream => F (Fin.cons a z.1, z.2) :=
      hF.comp ((measurable_cons measurable_const measurable_fst).prodMk measurable_snd)
    exact lintegral_drawVec_const h hb n hm'

/-- the second stage -/
theorem lintegral_drawVec_two {d : A → Draw C} {T : Set A} {κ : A → Measure C} (h : SamplesEach P d T κ)
    {ν : Measure A} [IsProbabilityMeasure ν] (hT : ∀ᵐ a ∂ν, a ∈ T) {J : Measure (C × A)} [IsProbabilityMeasure J]
    (hJ : ∀ f : C × A → ENNReal, Measurable f → ∫⁻ z, f z ∂J = ∫⁻ a, ∫⁻ c, f (c, a) ∂κ a ∂ν) :
    ∀ (n : ℕ) {F : (Fin n → C × A) × Stream → ENNReal}, Measurable F →
    ∫⁻ v, ∫⁻ s, F (fun i => ((drawVec n (fun i => d (v i)) s).1 i, v i), (drawVec n (fun i => d (v i)) s).2) ∂P
        ∂(Measure.pi fun _ => ν) =
      ∫⁻ z, ∫⁻ s, F (z, s) ∂P ∂(Measure.pi fun _ => J)
  | 0, F, hF => by
    rw [lintegral_pi_zero, lintegral_pi_zero]
    refine lintegral_congr fun s => ?_
    congr 2
    funext i; exact i.elim0
  | n + 1, F, hF => by
    have mV : ∀ m, Measurable fun q : (Fin m → A) × Stream => drawVec m (fun i => d (q.1 i)) q.2 :=
      measurable_drawVec h.measurable
    have mpair : ∀ {X : Type} [MeasurableSpace X] (m : ℕ) {f : X → Fin m → C} {g : X → Fin m → A},
        Measurable f → Measurable g → Measurable fun x i => (f x i, g x i) := by
      intro X _ m f g hf hg
      exact measurable_pi_iff.2 fun i => ((measurable_pi_apply i).comp hf).prodMk ((measurable_pi_apply i).comp hg)
    rw [lintegral_pi_const_succ ν, lintegral_pi_const_succ J _ _ hF.lintegral_prod_right', hJ]
    · refine lintegral_congr_ae ?_
      filter_upwards [hT] with a ha
      have hpr := h.prob a ha
      -- the first draw
      have e1 : ∀ v : Fin n → A, ∫⁻ s, F (fun i => ((drawVec (n + 1) (fun i => d ((Fin.cons a v : Fin (n + 1) → A) i)) s).1 i,
            (Fin.cons a v : Fin (n + 1) → A) i), (drawVec (n + 1) (fun i => d ((Fin.cons a v : Fin (n + 1) → A) i)) s).2) ∂P =
          ∫⁻ c, ∫⁻ s, F (Fin.cons (c, a) fun i => ((drawVec n (fun i => d (v i)) s).1 i, v i),
            (drawVec n (fun i => d (v i)) s).2) ∂P ∂κ a := by
        intro v
        have hm : Measurable fun z : C × Stream =>
            F (Fin.cons (z.1, a) fun i => ((drawVec n (fun i => d (v i)) z.2).1 i, v i),
              (drawVec n (fun i => d (v i)) z.2).2) := by
          have h2 : Measurable fun z : C × Stream => drawVec n (fun i => d (v i)) z.2 :=
            (mV n).comp (measurable_const.prodMk measurable_snd)
          exact hF.comp ((measurable_cons (measurable_fst.prodMk measurable_const)
            (mpair n h2.fst measurable_const)).prodMk h2.snd)
        rw [← lintegral_run h ha hm]
        refine lintegral_congr fun s => ?_
        congr 2
        · funext i
          refine Fin.cases ?_ (fun j => ?_) i <;> simp [drawVec]
      simp only [e1]
      have hjoint : Measurable fun z : ((Fin n → A) × C) × Stream =>
          F (Fin.cons (z.1.2, a) fun i => ((drawVec n (fun i => d (z.1.1 i)) z.2).1 i, z.1.1 i),
            (drawVec n (fun i => d (z.1.1 i)) z.2).2) := by
        have h2 : Measurable fun z : ((Fin n → A) × C) × Stream => drawVec n (fun i => d (z.1.1 i)) z.2 :=
          (mV n).comp ((measurable_fst.comp measurable_fst).prodMk measurable_snd)
        exact hF.comp ((measurable_cons ((measurable_snd.comp measurable_fst).prodMk measurable_const)
          (mpair n h2.fst (measurable_fst.comp measurable_fst))).prodMk h2.snd)
      rw [lintegral_lintegral_swap (hjoint.lintegral_prod_right').aemeasurable]
      refine lintegral_congr fun c => ?_
      have hm' : Measurable fun z : (Fin n → C × A) × Stream => F (Fin.cons (c, a) z.1, z.2) :=
        hF.comp ((measurable_cons measurable_const measurable_fst).prodMk measurable_snd)
      exact lintegral_drawVec_two h hT hJ n hm'
    · have : Measurable fun z : ((C × A) × (Fin n → C × A)) × Stream => F (Fin.cons z.1.1 z.1.2, z.2) :=
        hF.comp ((measurable_cons (measurable_fst.comp measurable_fst) (measurable_snd.comp measurable_fst)).prodMk
          measurable_snd)
      exact this.lintegral_prod_right'.lintegral_prod_right'
    · have : Measurable fun z : (Fin (n + 1) → A) × Stream =>
          F (fun i => ((drawVec (n + 1) (fun i => d (z.1 i)) z.2).1 i, z.1 i),
            (drawVec (n + 1) (fun i => d (z.1 i)) z.2).2) :=
        hF.comp ((mpair _ (mV _).fst measurable_fst).prodMk (mV _).snd)
      exact this.lintegral_prod_right'

theorem measure_ext_lintegral {X : Type*} [MeasurableSpace X] {μ ν : Measure X}
    (h : ∀ f : X → ENNReal, Measurable f → ∫⁻ x, f x ∂μ = ∫⁻ x, f x ∂ν) : μ = ν := by
  ext s hs
  have := h (s.indicator 1) (measurable_one.indicator hs)
  rwa [lintegral_indicator_one hs, lintegral_indicator_one hs] at this

/-- a state of the program: `n` values so far, independent with law `ν`, and the rest of the stream -/
structure Stage (P : Measure Stream) (n : ℕ) (f : Stream → (Fin n → A) × Stream) (ν : Measure A) : Prop where
  measurable : Measurable f
  law : P.map f = (Measure.pi fun _ => ν).prod P

omit [IsProbabilityMeasure P] in
theorem stage_of {n : ℕ} {f : Stream → (Fin n → A) × Stream} {ν : Measure A} [IsProbabilityMeasure ν] [SFinite P]
    (hf : Measurable f)
    (h : ∀ F : (Fin n → A) × Stream → ENNReal, Measurable F →
      ∫⁻ s, F (f s) ∂P = ∫⁻ v, ∫⁻ s, F (v, s) ∂P ∂(Measure.pi fun _ => ν)) : Stage P n f ν :=
  ⟨hf, measure_ext_lintegral fun F hF => by
    rw [lintegral_map hF hf, h F hF]
    exact (lintegral_prod _ hF.aemeasurable).symm⟩

theorem Stage.lintegral {n : ℕ} {f : Stream → (Fin n → A) × Stream} {ν : Measure A} [IsProbabilityMeasure ν]
    (h : Stage P n f ν) {F : (Fin n → A) × Stream → ENNReal} (hF : Measurable F) :
    ∫⁻ s, F (f s) ∂P = ∫⁻ v, ∫⁻ s, F (v, s) ∂P ∂(Measure.pi fun _ => ν) := by
  rw [← lintegral_map hF h.measurable, h.law]
  exact lintegral_prod _ hF.aemeasurable

/-- a function of the values -/
theorem Stage.map {n : ℕ} {f : Stream → (Fin n → A) × Stream} {ν : Measure A} [IsProbabilityMeasure ν]
    (h : Stage P n f ν) {g : A → C} (hg : Measurable g) :
    Stage P n (fun s => (fun i => g ((f s).1 i), (f s).2)) (ν.map g) := by
  have hp : IsProbabilityMeasure (ν.map g) := Measure.isProbabilityMeasure_map hg.aemeasurable
  have hgn : Measurable fun v : Fin n → A => (fun i => g (v i) : Fin n → C) :=
    measurable_pi_iff.2 fun i => hg.comp (measurable_pi_apply i)
  refine stage_of ((hgn.comp h.measurable.fst).prodMk h.measurable.snd) fun F hF => ?_
  rw [h.lintegral (F := fun z => F (fun i => g (z.1 i), z.2))
    (hF.comp ((hgn.comp measurable_fst).prodMk measurable_snd)),
    ← Measure.pi_map_pi (f := fun _ => g) (hμ := fun _ => inferInstance) fun _ => hg.aemeasurable,
    lintegral_map hF.lintegral_prod_right' hgn]

/-- the first stage -/
theorem stage_replicate {d : B → Draw A} {T : Set B} {κ : B → Measure A} (h : SamplesEach P d T κ) {b : B}
    (hb : b ∈ T) (n : ℕ) : Stage P n (drawVec n fun _ => d b) (κ b) := by
  have := h.prob b hb
  exact stage_of ((measurable_drawVec h.measurable n).comp (f := fun s : Stream => ((fun _ => b : Fin n → B), s))
    (by fun_prop)) fun F hF => lintegral_drawVec_const h hb n hF

/-- a further stage: one more value for each value so far -/
theorem Stage.next {n : ℕ} {f : Stream → (Fin n → A) × Stream} {ν : Measure A} [IsProbabilityMeasure ν]
    (h₀ : Stage P n f ν) {d : A → Draw C} {T : Set A} {κ : A → Measure C} (h : SamplesEach P d T κ)
    (hT : ∀ᵐ a ∂ν, a ∈ T) {J : Measure (C × A)} [IsProbabilityMeasure J]
    (hJ : ∀ f : C × A → ENNReal, Measurable f → ∫⁻ z, f z ∂J = ∫⁻ a, ∫⁻ c, f (c, a) ∂κ a ∂ν) :
    Stage P n (fun s => (fun i => ((drawVec n (fun i => d ((f s).1 i)) (f s).2).1 i, (f s).1 i),
      (drawVec n (fun i => d ((f s).1 i)) (f s).2).2)) J := by
  have hm2 : Measurable fun q : (Fin n → A) × Stream => drawVec n (fun i => d (q.1 i)) q.2 :=
    measurable_drawVec h.measurable n
  have hG : Measurable fun q : (Fin n → A) × Stream =>
      ((fun i => ((drawVec n (fun i => d (q.1 i)) q.2).1 i, q.1 i) : Fin n → C × A),
        (drawVec n (fun i => d (q.1 i)) q.2).2) :=
    (measurable_pi_iff.2 fun i => ((measurable_pi_apply i).comp hm2.fst).prodMk
      ((measurable_pi_apply i).comp measurable_fst)).prodMk hm2.snd
  refine stage_of (hG.comp h₀.measurable) fun F hF => ?_
  rw [h₀.lintegral (F := fun q => F (fun i => ((drawVec n (fun i => d (q.1 i)) q.2).1 i, q.1 i),
    (drawVec n (fun i => d (q.1 i)) q.2).2)) (hF.comp hG)]
  exact lintegral_drawVec_two h hT hJ n hF

theorem Stage.sample {n : ℕ} {g : Stream → (Fin n → A) × Stream} {ν : Measure A} (h : Stage P n g ν)
    {f : Stream → List A × Stream} (hf : ∀ s, f s = (List.ofFn (g s).1, (g s).2)) : IIDSampleThen P n f ν := by
  refine ⟨fun s => (g s).1, h.measurable.fst, ?_, fun s => by rw [hf], ?_⟩
  · simp only [hf]; exact h.measurable.snd
  · simp only [hf]; exact h.law

theorem Stage.sampled {n : ℕ} {g : Stream → (Fin n → A × C) × Stream} {J : Measure (A × C)} (h : Stage P n g J)
    (rv : Bool) {f : Stream → Sampled A C × Stream}
    (hf : ∀ s, f s = (Sampled.of rv (List.ofFn fun i => ((g s).1 i).1, List.ofFn fun i => ((g s).1 i).2), (g s).2)) :
    IIDSampledThen P n rv f J := by
  refine ⟨fun s => (g s).1, h.measurable.fst, ?_, fun s => by rw [hf]; rfl, ?_⟩
  · simp only [hf]; exact h.measurable.snd
  · simp only [hf]; exact h.law

theorem Spec.IIDSampleThen.stage {n : ℕ} {f : Stream → List A × Stream} {ν : Measure A} (h : IIDSampleThen P n f ν) :
    ∃ g : Stream → (Fin n → A) × Stream, Stage P n g ν ∧ ∀ s, f s = (List.ofFn (g s).1, (g s).2) := by
  obtain ⟨X, hX, hm, hf, hP⟩ := h
  exact ⟨fun s => (X s, (f s).2), ⟨hX.prodMk hm, hP⟩, fun s => Prod.ext (hf s) rfl⟩

theorem Spec.IIDSampledThen.stage {n : ℕ} {f : Stream → Sampled A C × Stream} {J : Measure (A × C)}
    (h : IIDSampledThen P n true f J) :
    ∃ g : Stream → (Fin n → A × C) × Stream, Stage P n g J ∧
      ∀ s, f s = (.meanAndVariance (List.ofFn fun i => ((g s).1 i).1) (List.ofFn fun i => ((g s).1 i).2), (g s).2) := by
  obtain ⟨X, hX, hm, hf, hP⟩ := h
  exact ⟨fun s => (X s, (f s).2), ⟨hX.prodMk hm, hP⟩, fun s => Prod.ext (hf s) rfl⟩

/-- the samples alone -/
theorem Spec.IIDSampleThen.iid {n : ℕ} {f : Stream → List A × Stream} {ν : Measure A} [IsProbabilityMeasure ν]
    (h : IIDSampleThen P n f ν) : IIDSample P n (fun s => (f s).1) ν := by
  obtain ⟨X, hX, hm, hf, hP⟩ := h
  refine ⟨X, hX, hf, ?_⟩
  have := congrArg (Measure.map Prod.fst) hP
  rw [Measure.map_map measurable_fst (hX.prodMk hm), Measure.map_fst_prod, measure_univ, one_smul] at this
  exact this

theorem Spec.IIDSampledThen.iid {n : ℕ} {rv : Bool} {f : Stream → Sampled A C × Stream} {J : Measure (A × C)}
    [IsProbabilityMeasure J] (h : IIDSampledThen P n rv f J) : IIDSampled P n rv (fun s => (f s).1) J := by
  obtain ⟨X, hX, hm, hf, hP⟩ := h
  refine ⟨X, hX, hf, ?_⟩
  have := congrArg (Measure.map Prod.fst) hP
  rw [Measure.map_map measurable_fst (hX.prodMk hm), Measure.map_fst_prod, measure_univ, one_smul] at this
  exact this

omit [IsProbabilityMeasure P] in
theorem Spec.FreshRun.mono {R : Type} {f : RandomState → World → R × World} {S : (Stream → R × Stream) → Prop}
    {S' : (Stream → R) → Prop} (h : FreshRun f S) (hS : ∀ g, S g → S' fun s => (g s).1) : FreshStream f S' :=
  ⟨fun g => hS _ (h.1 g), fun g => hS _ (h.2 g)⟩

theorem Spec.FreshRun.iid {n : ℕ} {f : RandomState → World → List A × World} {ν : Measure A} [IsProbabilityMeasure ν]
    (h : FreshRun f fun f => IIDSampleThen P n f ν) : FreshStream f fun f => IIDSample P n f ν :=
  h.mono fun _ => Spec.IIDSampleThen.iid

/-- one stage: `n` draws from the same sampler -/
theorem iid_replicate {d : B → Draw A} {T : Set B} {κ : B → Measure A} (h : SamplesEach P d T κ) {b : B}
    (hb : b ∈ T) (n : ℕ) : IIDSampleThen P n (drawAll (List.replicate n (d b))) (κ b) :=
  (stage_replicate h hb n).sample fun s => by rw [← List.ofFn_const, drawAll_ofFn]

theorem Spec.IIDSampleThen.map {n : ℕ} {f : Stream → List A × Stream} {μ : Measure A} [IsProbabilityMeasure μ]
    (h : IIDSampleThen P n f μ) {g : A → C} (hg : Measurable g) :
    IIDSampleThen P n (fun s => ((f s).1.map g, (f s).2)) (μ.map g) := by
  obtain ⟨F, hF, hf⟩ := h.stage
  exact (hF.map hg).sample fun s => by beta_reduce; rw [hf, List.map_ofFn]; rfl

/-- two stages: the second stage draws one value for each value of the first, from the same generator -/
theorem iid_two_stage {d₀ : B → Draw A} {T₀ : Set B} {κ₀ : B → Measure A} (h₀ : SamplesEach P d₀ T₀ κ₀) {b : B}
    (hb : b ∈ T₀) {d : A → Draw C} {T : Set A} {κ : A → Measure C} (h : SamplesEach P d T κ)
    (hT : ∀ᵐ a ∂κ₀ b, a ∈ T) {J : Measure (C × A)} [IsProbabilityMeasure J]
    (hJ : ∀ f : C × A → ENNReal, Measurable f → ∫⁻ z, f z ∂J = ∫⁻ a, ∫⁻ c, f (c, a) ∂κ a ∂κ₀ b) (n : ℕ) :
    ∃ X : Stream → (Fin n → C × A) × Stream, Stage P n X J ∧
      (∀ s, (drawAll (List.replicate n (d₀ b)) s).1 = List.ofFn (fun i => ((X s).1 i).2) ∧
        drawAll ((drawAll (List.replicate n (d₀ b)) s).1.map d) (drawAll (List.replicate n (d₀ b)) s).2 =
          (List.ofFn (fun i => ((X s).1 i).1), (X s).2)) := by
  have := h₀.prob b hb
  refine ⟨_, (stage_replicate h₀ hb n).next h hT hJ, fun s => ?_⟩
  beta_reduce; rw [← List.ofFn_const, drawAll_ofFn]
  simp only [List.map_ofFn]
  rw [show (d ∘ (drawVec n (fun _ => d₀ b) s).1) = fun i => d ((drawVec n (fun _ => d₀ b) s).1 i) from rfl,
    drawAll_ofFn]
  simp

/-- the joint law of two stages exists: it is the law of one two-stage draw -/
theorem exists_joint {d₀ : B → Draw A} {T₀ : Set B} {κ₀ : B → Measure A} (h₀ : SamplesEach P d₀ T₀ κ₀) {b : B}
    (hb : b ∈ T₀) {d : A → Draw C} {T : Set A} {κ : A → Measure C} (h : SamplesEach P d T κ)
    (hT : ∀ᵐ a ∂κ₀ b, a ∈ T) : ∃ J : Measure (C × A), IsProbabilityMeasure J ∧
      ∀ f : C × A → ENNReal, Measurable f → ∫⁻ z, f z ∂J = ∫⁻ a, ∫⁻ c, f (c, a) ∂κ a ∂κ₀ b := by
  have h1 : Measurable (d₀ b).run :=
    h₀.measurable.comp (f := fun s : Stream => (b, s)) (by fun_prop)
  have h2 : Measurable fun z : A × Stream => (((d z.1).run z.2).1, z.1) := h.measurable.fst.prodMk measurable_fst
  refine ⟨P.map fun s => (fun z : A × Stream => (((d z.1).run z.2).1, z.1)) ((d₀ b).run s),
    Measure.isProbabilityMeasure_map (h2.comp h1).aemeasurable, fun f hf => ?_⟩
  rw [lintegral_map hf (by exact h2.comp h1),
    lintegral_run h₀ hb (F := fun z => f (((d z.1).run z.2).1, z.1)) (hf.comp h2)]
  refine lintegral_congr_ae ?_
  filter_upwards [hT] with a ha
  have hf' : Measurable fun c : C => f (c, a) := hf.comp (measurable_id.prodMk measurable_const)
  refine (lintegral_run h ha (F := fun z => f (z.1, a)) (hf'.comp measurable_fst)).trans ?_
  simp

/-- the joint law of a value and a draw given that value -/
theorem exists_joint' {ν : Measure A} [IsProbabilityMeasure ν] {d : A → Draw C} {T : Set A} {κ : A → Measure C}
    (h : SamplesEach P d T κ) (hT : ∀ᵐ a ∂ν, a ∈ T) : ∃ J : Measure (C × A), IsProbabilityMeasure J ∧
      ∀ f : C × A → ENNReal, Measurable f → ∫⁻ z, f z ∂J = ∫⁻ a, ∫⁻ c, f (c, a) ∂κ a ∂ν := by
  have h2 : Measurable fun z : A × Stream => (((d z.1).run z.2).1, z.1) := h.measurable.fst.prodMk measurable_fst
  refine ⟨(ν.prod P).map fun z => (((d z.1).run z.2).1, z.1), Measure.isProbabilityMeasure_map h2.aemeasurable,
    fun f hf => ?_⟩
  rw [lintegral_map hf h2]
  refine (lintegral_prod _ (hf.comp h2).aemeasurable).trans ?_
  refine lintegral_congr_ae ?_
  filter_upwards [hT] with a ha
  have hf' : Measurable fun c : C => f (c, a) := hf.comp (measurable_id.prodMk measurable_const)
  refine (lintegral_run h ha (F := fun z => f (z.1, a)) (hf'.comp measurable_fst)).trans ?_
  simp

/-- a further stage, of which only the last values are kept -/
theorem Stage.last {n : ℕ} {f : Stream → (Fin n → A) × Stream} {ν : Measure A} [IsProbabilityMeasure ν]
    (h₀ : Stage P n f ν) {d : A → Draw C} {T : Set A} {κ : A → Measure C} (h : SamplesEach P d T κ)
    (hT : ∀ᵐ a ∂ν, a ∈ T) {μ : Measure C}
    (hμ : ∀ f : C → ENNReal, Measurable f → ∫⁻ c, f c ∂μ = ∫⁻ a, ∫⁻ c, f c ∂κ a ∂ν) :
    Stage P n (fun s => drawVec n (fun i => d ((f s).1 i)) (f s).2) μ := by
  obtain ⟨J, hJp, hJ⟩ := exists_joint' h hT
  have e : μ = J.map Prod.fst := measure_ext_lintegral fun f hf => by
    rw [lintegral_map hf measurable_fst, hJ (fun z => f z.1) (hf.comp measurable_fst), hμ f hf]
  rw [e]
  exact (h₀.next h hT hJ).map measurable_fst

/-- two stages, of which only the second is returned -/
theorem iid_second_stage {d₀ : B → Draw A} {T₀ : Set B} {κ₀ : B → Measure A} (h₀ : SamplesEach P d₀ T₀ κ₀) {b : B}
    (hb : b ∈ T₀) {d : A → Draw C} {T : Set A} {κ : A → Measure C} (h : SamplesEach P d T κ)
    (hT : ∀ᵐ a ∂κ₀ b, a ∈ T) {V : Type} [MeasurableSpace V] {r : C → V} (hr : Measurable r) {μ : Measure V}
    (hμ : ∀ f : V → ENNReal, Measurable f → ∫⁻ c, f c ∂μ = ∫⁻ a, ∫⁻ c, f (r c) ∂κ a ∂κ₀ b) (n : ℕ) :
    IIDSampleThen P n (fun s => ((drawAll ((drawAll (List.replicate n (d₀ b)) s).1.map d)
      (drawAll (List.replicate n (d₀ b)) s).2).1.map r, (drawAll ((drawAll (List.replicate n (d₀ b)) s).1.map d)
      (drawAll (List.replicate n (d₀ b)) s).2).2)) μ := by
  obtain ⟨J, hJp, hJ⟩ := exists_joint h₀ hb h hT
  obtain ⟨X, hX, hs⟩ := iid_two_stage h₀ hb h hT hJ n
  have hg : Measurable fun z : C × A => r z.1 := hr.comp measurable_fst
  have e : μ = J.map fun z => r z.1 := measure_ext_lintegral fun f hf => by
    rw [lintegral_map hf hg, hJ (fun z => f (r z.1)) (hf.comp hg), hμ f hf]
  rw [e]
  refine (hX.map hg).sample fun s => ?_
  rw [(hs s).2, List.map_ofFn]
  rfl

end Conj
