import Verif.Lemmas.TwoStage
import Verif.Lemmas.Marginal

/-!
# Vectors of independent draws, and of densities
-/

open MeasureTheory Set

set_option linter.unusedSectionVars false

namespace Conj

open Scipy Spec

variable {A B : Type} [MeasurableSpace A] [MeasurableSpace B]

theorem Stream.drop_drop (s : Stream) (m n : ℕ) : (s.drop m).drop n = s.drop (m + n) := by
  funext i; simp [Stream.drop, Nat.add_assoc]

theorem Stream.drop_zero (s : Stream) : s.drop 0 = s := by
  funext i; simp [Stream.drop]

omit [MeasurableSpace A] in
theorem vec_run : ∀ {m : ℕ} (d : Fin m → Draw A) (s : Stream), (Draw.vec d).run s = drawVec m d s
  | 0, d, s => by simp [Draw.vec, Draw.run, drawVec, valuesOf, usedBy, Stream.drop_zero]
  | m + 1, d, s => by
    have ih := vec_run (fun i : Fin m => d i.succ) (s.drop ((d 0).used s))
    simp only [Draw.vec, Draw.run] at ih
    simp only [Draw.vec, Draw.run, drawVec, valuesOf, usedBy, ← ih, Stream.drop_drop]

variable {P : Measure Stream} [IsProbabilityMeasure P]

theorem lintegral_pi_cons {n : ℕ} (J : Fin (n + 1) → Measure A) [∀ i, SigmaFinite (J i)]
    (F : (Fin (n + 1) → A) → ENNReal) (hF : Measurable F) :
    ∫⁻ p, F p ∂(Measure.pi J) = ∫⁻ x, ∫⁻ t : Fin n → A, F (Fin.cons x t) ∂(Measure.pi fun i => J i.succ) ∂J 0 := by
  have h := (measurePreserving_piFinSuccAbove J 0).symm
  rw [← h.lintegral_comp hF]
  have hm : Measurable fun z : A × (Fin n → A) =>
      F ((MeasurableEquiv.piFinSuccAbove (fun _ => A) 0).symm z) := hF.comp (MeasurableEquiv.measurable _)
  refine (lintegral_prod (μ := J 0) (ν := Measure.pi fun i : Fin n => J i.succ) _ hm.aemeasurable).trans ?_
  refine lintegral_congr fun x => lintegral_congr fun t => ?_
  congr 1
  funext i
  simp [MeasurableEquiv.piFinSuccAbove, Fin.insertNthEquiv]

theorem measurable_drawVec_param : ∀ {m : ℕ} {d : B → Fin m → Draw A}
    (_ : ∀ i, Measurable fun q : B × Stream => (d q.1 i).run q.2),
    Measurable fun q : B × Stream => drawVec m (d q.1) q.2
  | 0, d, _ => by
    have : (fun q : B × Stream => drawVec 0 (d q.1) q.2) = fun q => ((fun i => i.elim0 : Fin 0 → A), q.2) := by
      funext q; simp [drawVec]
    rw [this]; fun_prop
  | m + 1, d, h => by
    have ih := measurable_drawVec_param (d := fun b (i : Fin m) => d b i.succ) fun i => h i.succ
    have h2 : Measurable fun q : B × Stream => drawVec m (fun i => d q.1 i.succ) ((d q.1 0).run q.2).2 :=
      ih.comp (g := fun q : B × Stream => drawVec m (fun i => d q.1 i.succ) q.2)
        (f := fun q : B × Stream => (q.1, ((d q.1 0).run q.2).2)) (measurable_fst.prodMk (h 0).snd)
    exact (measurable_cons (h 0).fst h2.fst).prodMk h2.snd

theorem lintegral_drawVec_param : ∀ {m : ℕ} {d : B → Fin m → Draw A} {T : Set B} {κ : Fin m → B → Measure A}
    (_ : ∀ i, SamplesEach P (fun b => d b i) T (κ i)) {b : B} (_ : b ∈ T) {F : (Fin m → A) × Stream → ENNReal},
    Measurable F → ∫⁻ s, F (drawVec m (d b) s) ∂P = ∫⁻ v, ∫⁻ s, F (v, s) ∂P ∂(Measure.pi fun i => κ i b)
  | 0, d, T, κ, h, b, hb, F, hF => by
    rw [Measure.pi_of_empty (fun i : Fin 0 => κ i b) (fun i => i.elim0), lintegral_dirac' _ Subsingleton.measurable]
    rfl
  | m + 1, d, T, κ, h, b, hb, F, hF => by
    have hp := fun i => (h i).prob b hb
    have hm : Measurable fun z : A × Stream =>
        F (Fin.cons z.1 (drawVec m (fun i => d b i.succ) z.2).1, (drawVec m (fun i => d b i.succ) z.2).2) := by
      have h2 : Measurable fun z : A × Stream => drawVec m (fun i => d b i.succ) z.2 :=
        (measurable_drawVec_param (d := fun b (i : Fin m) => d b i.succ) fun i => (h i.succ).measurable).comp
          (f := fun z : A × Stream => (b, z.2)) (by fun_prop)
      exact hF.comp ((measurable_cons measurable_fst h2.fst).prodMk h2.snd)
    refine (lintegral_run (h 0) hb hm).trans ?_
    rw [lintegral_pi_cons _ _ hF.lintegral_prod_right']
    refine lintegral_congr fun a => ?_
    have hm' : Measurable fun z : (Fin m → A) × Stream => F (Fin.cons a z.1, z.2) :=
      hF.comp ((measurable_cons measurable_const measurable_fst).prodMk measurable_snd)
    exact lintegral_drawVec_param (κ := fun i b => κ i.succ b) (fun i => h i.succ) hb hm'

/-- independent entries: the product law -/
theorem vec_samples {m : ℕ} {d : B → Fin m → Draw A} {T : Set B} {κ : Fin m → B → Measure A}
    (h : ∀ i, SamplesEach P (fun b => d b i) T (κ i)) :
    SamplesEach P (fun b => Draw.vec (d b)) T fun b => Measure.pi fun i => κ i b where
  measurable := by
    simp only [vec_run]
    exact measurable_drawVec_param fun i => (h i).measurable
  prob b hb := by
    have := fun i => (h i).prob b hb
    infer_instance
  law b hb := by
    have hp := fun i => (h i).prob b hb
    have hm : Measurable (Draw.vec (d b)).run := by
      have := (measurable_drawVec_param fun i => (h i).measurable).comp (f := fun s : Stream => (b, s)) (by fun_prop)
      have e : (Draw.vec (d b)).run = fun s => drawVec m (d b) s := funext fun s => vec_run _ s
      rw [e]; exact this
    refine measure_ext_lintegral fun F hF => ?_
    rw [lintegral_map hF hm]
    simp only [vec_run]
    exact (lintegral_drawVec_param h hb hF).trans (lintegral_prod _ hF.aemeasurable).symm

/-- the product of laws with densities has the product density -/
theorem pi_withDensity {k : Type} [Fintype k] {f : k → ℝ → ℝ} (h0 : ∀ i x, 0 ≤ f i x)
    (hm : ∀ i, Measurable (f i))
    (h1 : ∀ i, IsProbabilityMeasure ((volume : Measure ℝ).withDensity fun x => ENNReal.ofReal (f i x))) :
    Measure.pi (fun i => (volume : Measure ℝ).withDensity fun x => ENNReal.ofReal (f i x)) =
      (volume : Measure (k → ℝ)).withDensity fun y => ENNReal.ofReal (∏ i, f i (y i)) := by
  have hint : ∀ i, Integrable (f i) := fun i => by
    refine ⟨(hm i).aestronglyMeasurable, ?_⟩
    rw [hasFiniteIntegral_iff_ofReal (Filter.Eventually.of_forall (h0 i))]
    have := (h1 i).measure_univ
    rw [withDensity_apply _ MeasurableSet.univ, Measure.restrict_univ] at this
    rw [this]; exact ENNReal.one_lt_top
  refine Measure.pi_eq fun s hs => ?_
  rw [withDensity_apply _ (MeasurableSet.univ_pi hs), volume_pi, Measure.restrict_pi_pi,
    ← ofReal_integral_eq_lintegral_ofReal]
  · rw [integral_fintype_prod_eq_prod (f := f),
      ENNReal.ofReal_prod_of_nonneg fun i _ => integral_nonneg fun z => h0 i z]
    refine Finset.prod_congr rfl fun i _ => ?_
    rw [withDensity_apply _ (hs i), ofReal_integral_eq_lintegral_ofReal (hint i).restrict
      (Filter.Eventually.of_forall (h0 i))]
  · exact Integrable.fintype_prod fun i => (hint i).restrict
  · exact Filter.Eventually.of_forall fun z => Finset.prod_nonneg fun i _ => h0 i _

end Conj
