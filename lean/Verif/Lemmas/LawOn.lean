import Verif.Lemmas.SampleLaw
import Verif.Lemmas.NormalAlg
import Verif.Lemmas.Mvt
import Verif.Lemmas.NiwNorm

/-! Laws given by densities, and joint laws built in two stages. -/

open MeasureTheory Set

set_option linter.unusedSectionVars false

namespace Conj

open Scipy Spec

variable {A B C : Type} [MeasurableSpace A] [MeasurableSpace B] [MeasurableSpace C]

theorem lawOn_prob {X : Type} [MeasureSpace X] {S : Set X} (hS : MeasurableSet S) {f : X → ℝ}
    (hd : IsDensity volume S f) : IsProbabilityMeasure (lawOn S f) := by
  refine ⟨?_⟩
  rw [lawOn, withDensity_apply _ MeasurableSet.univ, Measure.restrict_univ, IsDensity.lintegral_eq_one hS hd]

theorem lintegral_lawOn {X : Type} [MeasureSpace X] {S : Set X} {f : X → ℝ} (hd : IsDensity volume S f)
    {F : X → ENNReal} (hF : Measurable F) :
    ∫⁻ x, F x ∂lawOn S f = ∫⁻ x in S, ENNReal.ofReal (f x) * F x := by
  rw [lawOn, lintegral_withDensity_eq_lintegral_mul₀ hd.2.1.aestronglyMeasurable.aemeasurable.ennreal_ofReal
    hF.aemeasurable]
  rfl

theorem ae_lawOn_mem {X : Type} [MeasureSpace X] {S : Set X} (hS : MeasurableSet S) (f : X → ℝ) :
    ∀ᵐ x ∂lawOn S f, x ∈ S :=
  (withDensity_absolutelyContinuous _ _).ae_le (ae_restrict_mem hS)

theorem lawOn_congr {X : Type} [MeasureSpace X] {S : Set X} (hS : MeasurableSet S) {f g : X → ℝ}
    (h : ∀ x ∈ S, f x = g x) : lawOn S f = lawOn S g := by
  refine withDensity_congr_ae ?_
  filter_upwards [ae_restrict_mem hS] with x hx
  rw [h x hx]

theorem lawOn_univ {X : Type} [MeasureSpace X] (f : X → ℝ) :
    lawOn univ f = volume.withDensity fun x => ENNReal.ofReal (f x) := by
  rw [lawOn, Measure.restrict_univ]

theorem contLaw_eq_lawOn (d : Cont) {S : Set ℝ} (hS : MeasurableSet S) (h : ∀ᵐ x, x ∉ S → d.pdf x = 0) :
    contLaw d = lawOn S d.pdf := by
  rw [contLaw, lawOn, ← withDensity_indicator hS]
  refine withDensity_congr_ae ?_
  filter_upwards [h] with x hx
  by_cases hm : x ∈ S
  · rw [indicator_of_mem hm]
  · rw [indicator_of_notMem hm, hx hm, ENNReal.ofReal_zero]

/-- a joint density `g(a) h(c, a)` integrates in two stages -/
theorem lintegral_lawOn_prod {X Y : Type} [MeasureSpace X] [MeasureSpace Y] [SFinite (volume : Measure X)]
    [SFinite (volume : Measure Y)] {S : Set X} {T : Set Y} (hT : MeasurableSet T)
    {g : Y → ℝ} {h : X → Y → ℝ} (hg : IsDensity volume T g) (hh : ∀ b ∈ T, IsDensity volume S (fun a => h a b))
    (hgh : IsDensity (volume : Measure (X × Y)) (S ×ˢ T) (fun p => g p.2 * h p.1 p.2))
    {F : X × Y → ENNReal} (hF : Measurable F) :
    ∫⁻ z, F z ∂lawOn (S ×ˢ T) (fun p : X × Y => g p.2 * h p.1 p.2) =
      ∫⁻ y, ∫⁻ x, F (x, y) ∂lawOn S (fun x => h x y) ∂lawOn T g := by
  have hr : (volume : Measure (X × Y)).restrict (S ×ˢ T) =
      (volume.restrict S).prod (volume.restrict T) := (Measure.prod_restrict S T).symm
  have hm : AEMeasurable (fun z : X × Y => ENNReal.ofReal (g z.2 * h z.1 z.2) * F z)
      ((volume.restrict S).prod (volume.restrict T)) := by
    rw [← hr]
    exact hgh.2.1.aestronglyMeasurable.aemeasurable.ennreal_ofReal.mul hF.aemeasurable
  rw [lintegral_lawOn hgh hF, hr, lintegral_prod_symm _ hm, lawOn,
    lintegral_withDensity_eq_lintegral_mul_non_measurable₀ _
      hg.2.1.aestronglyMeasurable.aemeasurable.ennreal_ofReal (Filter.Eventually.of_forall fun _ => ENNReal.ofReal_lt_top)]
  refine setLIntegral_congr_fun hT fun y hy => ?_
  have hFy : Measurable fun x => F (x, y) := hF.comp (measurable_id.prodMk measurable_const)
  dsimp only [Pi.mul_apply]
  rw [lintegral_lawOn (hh y hy) hFy, ← lintegral_const_mul'' (f := fun x => ENNReal.ofReal (h x y) * F (x, y)) _
    ((hh y hy).2.1.aestronglyMeasurable.aemeasurable.ennreal_ofReal.mul hFy.aemeasurable)]
  refine lintegral_congr fun x => ?_
  rw [ENNReal.ofReal_mul (hg.1 y hy), mul_assoc]

theorem Spec.SamplesEach.comp {P : Measure Stream} {d : B → Draw A} {T : Set B} {κ : B → Measure A}
    (h : SamplesEach P d T κ) {g : C → B} (hg : Measurable g) :
    SamplesEach P (fun c => d (g c)) (g ⁻¹' T) (fun c => κ (g c)) where
  measurable := h.measurable.comp (f := fun q : C × Stream => (g q.1, q.2)) (by fun_prop)
  prob c hc := h.prob _ hc
  law c hc := h.law _ hc

theorem Spec.CorrectNormal.at {ι : Type} [Fintype ι] [DecidableEq ι] {lib : Samplers ι} {P : Measure Stream}
    (h : CorrectNormal lib P) (mean : ι → ℝ) :
    SamplesEach P (fun cov => lib.multivariate_normal mean cov) {cov | cov.PosDef}
      (fun cov => lawOn univ (mvnPdf mean cov)) :=
  Spec.SamplesEach.comp h (g := fun cov : Matrix ι ι ℝ => (mean, cov)) (measurable_const.prodMk measurable_id)

end Conj
