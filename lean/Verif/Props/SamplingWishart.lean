import Verif.Props.SamplingLaws

/-!
# C86: `NormalWishart`
-/

open MeasureTheory Set

set_option linter.unusedSectionVars false

namespace Conj

open Scipy Spec Matrix

variable {P : Measure Stream} [IsProbabilityMeasure P] {n : ℕ}

theorem measurable_nw_normal (lam : ℝ) (mu : Fin n → ℝ) :
    Measurable fun θ : (Fin n → ℝ) × (UpperIdx n → ℝ) => mvnPdf mu (lam • symOf θ.2)⁻¹ θ.1 := by
  have h2 : Measurable fun θ : (Fin n → ℝ) × (UpperIdx n → ℝ) => (lam • symOf θ.2)⁻¹ :=
    Measurable.comp (g := fun S : Matrix (Fin n) (Fin n) ℝ => (lam • S)⁻¹)
      (f := fun θ : (Fin n → ℝ) × (UpperIdx n → ℝ) => symOf θ.2) (measurable_smul_inv lam)
      (Measurable.comp (g := symOf) (f := Prod.snd) measurable_symOf measurable_snd)
  have h4 : Measurable fun θ : (Fin n → ℝ) × (UpperIdx n → ℝ) => (θ.1, (lam • symOf θ.2)⁻¹) :=
    measurable_fst.prodMk h2
  exact Measurable.comp (g := fun q : (Fin n → ℝ) × Matrix (Fin n) (Fin n) ℝ => mvnPdf mu q.2 q.1)
    (f := fun θ : (Fin n → ℝ) × (UpperIdx n → ℝ) => (θ.1, (lam • symOf θ.2)⁻¹)) (measurable_mvnPdf_joint mu) h4

theorem nw_isDensity {nu lam : ℝ} {W : Matrix (Fin n) (Fin n) ℝ} (hl : 0 < lam) (hnu : (n : ℝ) - 1 < nu)
    (hW : W.PosDef) (mu : Fin n → ℝ) :
    IsDensity volume {θ : (Fin n → ℝ) × (UpperIdx n → ℝ) | (symOf θ.2).PosDef}
      (fun θ => wishartPdf nu W (symOf θ.2) * mvnPdf mu (lam • symOf θ.2)⁻¹ θ.1) := by
  have hset : {θ : (Fin n → ℝ) × (UpperIdx n → ℝ) | (symOf θ.2).PosDef} =
      univ ×ˢ {c | (symOf c).PosDef} := by ext θ; simp
  rw [hset, Measure.volume_eq_prod]
  refine isDensity_prod (g := fun c => wishartPdf nu W (symOf c))
    (h := fun b c => mvnPdf mu (lam • symOf c)⁻¹ b) MeasurableSet.univ measurableSet_posDef
    (wishart_isDensity hW hnu) (fun c hc => mvn_isDensity (posDef_smul_inv hc hl) mu) ?_
  have h1 : Measurable fun θ : (Fin n → ℝ) × (UpperIdx n → ℝ) => wishartPdf nu W (symOf θ.2) :=
    (measurable_wishartPdf nu W).comp measurable_snd
  exact (Measurable.mul h1 (measurable_nw_normal lam mu)).aestronglyMeasurable

/-- C86. `NormalWishart.sample_mean`: (mean, precision) are independent draws from the joint distribution; the
reported variance is the inverse of `lam` times the precision, the covariance the mean was drawn with. -/
theorem C86_normal_wishart (lib : Samplers (Fin n)) (hmvn : CorrectNormal lib P) (hw : CorrectWishart lib P)
    (d : NormalWishart ℝ (Fin n → ℝ) (Matrix (Fin n) (Fin n) ℝ)) (hl : 0 < d.lam) (hnu : (n : ℝ) - 1 < d.nu)
    (hW : d.W.PosDef) (size : ℕ) (return_variance : Bool) :
    FreshRun (d.sample_mean lib size return_variance) fun f =>
      IIDSampledThen P size return_variance f
        ((lawOn {θ : (Fin n → ℝ) × (UpperIdx n → ℝ) | (symOf θ.2).PosDef} fun θ =>
          d.jointPdf θ.1 (symOf θ.2)).map fun θ => (θ.1, (d.lam • symOf θ.2)⁻¹)) := by
  have h₀ := hw d.nu hnu d.W hW
  have hg : Measurable fun S : Matrix (Fin n) (Fin n) ℝ => (d.lam • S)⁻¹ :=
    measurable_matrix_inv.comp (measurable_const_smul_matrix d.lam)
  have h := (hmvn.at d.mu).comp hg
  have hd := nw_isDensity hl hnu hW d.mu
  have hset : {θ : (Fin n → ℝ) × (UpperIdx n → ℝ) | (symOf θ.2).PosDef} =
      univ ×ˢ {c | (symOf c).PosDef} := by ext θ; simp
  have hpdf : (fun θ : (Fin n → ℝ) × (UpperIdx n → ℝ) => d.jointPdf θ.1 (symOf θ.2)) =
      fun θ => wishartPdf d.nu d.W (symOf θ.2) * mvnPdf d.mu (d.lam • symOf θ.2)⁻¹ θ.1 := rfl
  rw [hpdf]
  set L := lawOn {θ : (Fin n → ℝ) × (UpperIdx n → ℝ) | (symOf θ.2).PosDef} fun θ =>
    wishartPdf d.nu d.W (symOf θ.2) * mvnPdf d.mu (d.lam • symOf θ.2)⁻¹ θ.1 with hL
  have hp : IsProbabilityMeasure L := lawOn_prob (hset ▸ MeasurableSet.univ.prod measurableSet_posDef) hd
  have hs : Measurable fun θ : (Fin n → ℝ) × (UpperIdx n → ℝ) => (θ.1, symOf θ.2) :=
    measurable_fst.prodMk (measurable_symOf.comp measurable_snd)
  have hp' : IsProbabilityMeasure (L.map fun θ => (θ.1, symOf θ.2)) :=
    Measure.isProbabilityMeasure_map hs.aemeasurable
  have hT : ∀ᵐ S ∂(symLaw (wishartPdf d.nu d.W)),
      S ∈ (fun S : Matrix (Fin n) (Fin n) ℝ => (d.lam • S)⁻¹) ⁻¹' {cov | cov.PosDef} := by
    filter_upwards [ae_symLaw _] with S hS
    exact posDef_smul_inv hS hl
  have hJ : ∀ f : (Fin n → ℝ) × Matrix (Fin n) (Fin n) ℝ → ENNReal, Measurable f →
      ∫⁻ z, f z ∂(L.map fun θ => (θ.1, symOf θ.2)) =
      ∫⁻ S, ∫⁻ m, f (m, S) ∂(lawOn univ (mvnPdf d.mu (d.lam • S)⁻¹)) ∂(symLaw (wishartPdf d.nu d.W)) := by
    intro f hf
    rw [lintegral_map hf hs, lintegral_symLaw, hL, hset]
    exact lintegral_lawOn_prod (S := univ) (T := {c | (symOf c).PosDef}) (g := fun c => wishartPdf d.nu d.W (symOf c))
      (h := fun m c => mvnPdf d.mu (d.lam • symOf c)⁻¹ m) measurableSet_posDef (wishart_isDensity hW hnu)
      (fun c hc => mvn_isDensity (posDef_smul_inv hc hl) d.mu) (hset ▸ hd) (F := fun θ => f (θ.1, symOf θ.2))
      (hf.comp hs)
  have key : ∀ f : Stream → Sampled (Fin n → ℝ) (Matrix (Fin n) (Fin n) ℝ) × Stream, _ → IIDSampledThen P size return_variance f
      (L.map fun θ => (θ.1, (d.lam • symOf θ.2)⁻¹)) := fun f hf => by
    have := iidSampled_of h₀ h hT hJ size hg return_variance f hf
    rwa [Measure.map_map (by exact measurable_fst.prodMk (hg.comp measurable_snd)) hs] at this
  refine ⟨fun g => key _ fun s => ?_, fun g => key _ fun s => ?_⟩
  all_goals simp [NormalWishart.sample_mean, NormalWishart.sample_variance, NormalWishart.wishart, rvsEach_generator,
    rvsEach_none, rvs, Function.comp_def]

/-- C86. `NormalWishart.sample_variance` returns independent draws of the inverse of `lam` times the precision, with
the precision drawn from the Wishart of the object. -/
theorem C86_normal_wishart_variance (lib : Samplers (Fin n)) (hw : CorrectWishart lib P)
    (d : NormalWishart ℝ (Fin n → ℝ) (Matrix (Fin n) (Fin n) ℝ)) (hnu : (n : ℝ) - 1 < d.nu)
    (hW : d.W.PosDef) (size : ℕ) :
    FreshRun (d.sample_variance lib size) fun f =>
      IIDSampleThen P size f ((symLaw (wishartPdf d.nu d.W)).map fun S => (d.lam • S)⁻¹) := by
  have h₀ := hw d.nu hnu d.W hW
  have h := iid_replicate h₀ (mem_univ ()) size
  have hp : IsProbabilityMeasure (symLaw (wishartPdf d.nu d.W)) := h₀.prob () (mem_univ ())
  have key := IIDSampleThen.map (μ := symLaw (wishartPdf d.nu d.W)) h (measurable_smul_inv d.lam)
  exact ⟨fun _ => key, fun _ => key⟩

example (d : NormalWishart ℝ (Fin 2 → ℝ) (Matrix (Fin 2) (Fin 2) ℝ)) (h : d = ⟨![1, -1], 2, (3 : ℝ) • 1, 5⟩) :
    ∃ lib : Samplers (Fin 2), FreshRun (d.sample_mean lib 7 true) (fun f => IIDSampledThen streamLaw 7 true f
        ((lawOn {θ : (Fin 2 → ℝ) × (UpperIdx 2 → ℝ) | (symOf θ.2).PosDef} fun θ =>
          d.jointPdf θ.1 (symOf θ.2)).map fun θ => (θ.1, (d.lam • symOf θ.2)⁻¹))) ∧
      FreshRun (d.sample_variance lib 7) fun f =>
      IIDSampleThen streamLaw 7 f ((symLaw (wishartPdf d.nu d.W)).map fun S => (d.lam • S)⁻¹) := by
  obtain ⟨lib, -, h1, -, h2⟩ := exists_library 2
  subst h
  exact ⟨lib, C86_normal_wishart lib h1 h2 _ (by norm_num) (by norm_num)
    (posDef_smul PosDef.one three_pos) 7 true,
    C86_normal_wishart_variance lib h2 _ (by norm_num) (posDef_smul PosDef.one three_pos) 7⟩

end Conj
