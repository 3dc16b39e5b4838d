import Verif.Lemmas.IdealSamplers
import Verif.Props.Sampling

/-!
# C86, C87: the samples have the law of the distribution object
-/

open MeasureTheory Set

set_option linter.unusedSectionVars false

namespace Conj

open Scipy Spec Matrix

variable {A B C V : Type} [MeasurableSpace A] [MeasurableSpace B] [MeasurableSpace C] [MeasurableSpace V]
variable {P : Measure Stream} [IsProbabilityMeasure P]

/-- from the two stages to what the method returns; the reported variance is a function of the
first-stage value -/
theorem iidSampled_of {d₀ : Draw A} {ν : Measure A} (h₀ : Samples P d₀ ν) {d : A → Draw C} {T : Set A}
    {κ : A → Measure C} (h : SamplesEach P d T κ) (hT : ∀ᵐ a ∂ν, a ∈ T) {J : Measure (C × A)}
    [IsProbabilityMeasure J]
    (hJ : ∀ f : C × A → ENNReal, Measurable f → ∫⁻ z, f z ∂J = ∫⁻ a, ∫⁻ c, f (c, a) ∂κ a ∂ν) (n : ℕ)
    {r : A → V} (hr : Measurable r) (rv : Bool) (f : Stream → Sampled C V × Stream)
    (hf : ∀ s, f s = (Sampled.of rv
      ((drawAll ((drawAll (List.replicate n d₀) s).1.map d) (drawAll (List.replicate n d₀) s).2).1,
        (drawAll (List.replicate n d₀) s).1.map r),
      (drawAll ((drawAll (List.replicate n d₀) s).1.map d) (drawAll (List.replicate n d₀) s).2).2)) :
    IIDSampledThen P n rv f (J.map fun z => (z.1, r z.2)) := by
  obtain ⟨X, hX, hs⟩ := iid_two_stage h₀ (mem_univ ()) h hT hJ n
  have hg : Measurable fun z : C × A => (z.1, r z.2) := measurable_fst.prodMk (hr.comp measurable_snd)
  refine (hX.map hg).sampled rv fun s => ?_
  obtain ⟨h1, h2⟩ := hs s
  rw [hf, h2, h1]
  simp [Function.comp_def]

/-! ## NormalInverseGamma, scalar mean -/

/-- C86. `NormalInverseGamma.sample_mean` / `sample_beta` with a scalar mean return independent draws
from the joint distribution of mean and variance. -/
theorem C86_normal_inverse_gamma {ι M : Type} (lib : Samplers ι) (hlib : CorrectScalar lib P)
    (d : NormalInverseGamma ℝ ℝ M) (ha : 0 < d.alpha) (hb : 0 < d.beta) (nu : ℝ) (hnu : 0 < nu) (size : ℕ)
    (return_variance : Bool) :
    FreshRun (d.sample_beta lib nu size return_variance) fun f =>
      IIDSampledThen P size return_variance f
        (lawOn (univ ×ˢ Ioi 0) fun θ : ℝ × ℝ => d.jointPdf nu θ.1 θ.2) := by
  have h₀ := hlib.invgamma d.alpha ha d.beta hb
  have hg : Measurable fun v : ℝ => √(v / nu) := by fun_prop
  have h := (hlib.norm d.mu).comp hg
  have e0 := invgamma_lawOn ⟨d.alpha, d.beta⟩ hb
  have hd := nigPdf_isDensity d.mu nu d.alpha d.beta hnu ha hb
  have hpdf : (fun θ : ℝ × ℝ => d.jointPdf nu θ.1 θ.2) = nigPdf d.mu nu d.alpha d.beta := by
    funext θ
    simp [NormalInverseGamma.jointPdf, nigPdf, NormalInverseGamma.inverse_gamma]
  have hp := lawOn_prob (MeasurableSet.univ.prod measurableSet_Ioi) hd
  rw [hpdf]
  have hT : ∀ᵐ v ∂(contLaw (InverseGamma.dist ⟨d.alpha, d.beta⟩)), v ∈ (fun v : ℝ => √(v / nu)) ⁻¹' Ioi 0 := by
    rw [e0]
    filter_upwards [ae_lawOn_mem measurableSet_Ioi _] with v hv
    exact Real.sqrt_pos.2 (div_pos hv hnu)
  have hJ : ∀ f : ℝ × ℝ → ENNReal, Measurable f → ∫⁻ z, f z ∂(lawOn (univ ×ˢ Ioi 0) (nigPdf d.mu nu d.alpha d.beta)) =
      ∫⁻ v, ∫⁻ m, f (m, v) ∂(contLaw (Normal.dist ⟨d.mu, √(v / nu)⟩))
        ∂(contLaw (InverseGamma.dist ⟨d.alpha, d.beta⟩)) := by
    intro f hf
    rw [e0]
    simp only [norm_lawOn]
    exact lintegral_lawOn_prod (S := univ) (T := Ioi 0) (g := (InverseGamma.dist ⟨d.alpha, d.beta⟩).pdf)
      (h := fun m v => (Normal.dist ⟨d.mu, √(v / nu)⟩).pdf m) measurableSet_Ioi
      (InverseGamma.isDensity _ ha hb)
      (fun v hv => Normal.isDensity ⟨d.mu, √(v / nu)⟩ (Real.sqrt_pos.2 (div_pos hv hnu))) hd hf
  have key : ∀ f : Stream → Sampled ℝ ℝ × Stream, _ → IIDSampledThen P size return_variance f
      (lawOn (univ ×ˢ Ioi 0) (nigPdf d.mu nu d.alpha d.beta)) := fun f hf => by
    have := iidSampled_of h₀ h hT hJ size measurable_id return_variance f hf
    simpa using this
  refine ⟨fun g => key _ fun s => ?_, fun g => key _ fun s => ?_⟩
  all_goals simp [NormalInverseGamma.sample_beta, NormalInverseGamma.sampleBoth1d, NormalInverseGamma.sample_variance, NormalInverseGamma.inverse_gamma,
    NormalInverseGamma.sampleBeta1d, rvs]

/-- an exact library exists, and with it 7 draws from the prior (mean 1, alpha 2, beta 3, nu 4) -/
example : ∃ lib : Samplers (Fin 2), FreshRun
    ((⟨1, 2, 3, none, some 4⟩ : NormalInverseGamma ℝ ℝ ℝ).sample_beta lib 4 7 true) fun f =>
      IIDSampledThen streamLaw 7 true f (lawOn (univ ×ˢ Ioi 0) fun θ : ℝ × ℝ =>
        (⟨1, 2, 3, none, some 4⟩ : NormalInverseGamma ℝ ℝ ℝ).jointPdf 4 θ.1 θ.2) := by
  obtain ⟨lib, h, -⟩ := exists_library 2
  exact ⟨lib, C86_normal_inverse_gamma lib h _ (by norm_num) (by norm_num) 4 (by norm_num) 7 true⟩

/-- C86. `sample_variance` returns independent draws from the inverse gamma of the object. -/
theorem C86_normal_inverse_gamma_variance {ι V M : Type} (lib : Samplers ι) (hlib : CorrectScalar lib P)
    (d : NormalInverseGamma ℝ V M) (ha : 0 < d.alpha) (hb : 0 < d.beta) (size : ℕ) :
    FreshRun (d.sample_variance lib size) fun f =>
      IIDSampleThen P size f (contLaw (InverseGamma.dist { alpha := d.alpha, beta := d.beta })) := by
  have h := iid_replicate (hlib.invgamma d.alpha ha d.beta hb) (mem_univ ()) size
  exact ⟨fun _ => h, fun _ => h⟩

example : ∃ lib : Samplers (Fin 2), FreshRun
    ((⟨1, 2, 3, none, some 4⟩ : NormalInverseGamma ℝ ℝ ℝ).sample_variance lib 5) fun f =>
      IIDSampleThen streamLaw 5 f (contLaw (⟨1, 2, 3, none, some 4⟩ : NormalInverseGamma ℝ ℝ ℝ).inverse_gamma.dist) := by
  obtain ⟨lib, h, -⟩ := exists_library 2
  exact ⟨lib, C86_normal_inverse_gamma_variance lib h _ (by norm_num) (by norm_num) 5⟩

/-! ## NormalInverseGamma, vector mean -/

theorem scaledCovariances_eq {ι : Type} (D : Matrix ι ι ℝ) (variance : List ℝ) :
    scaledCovariances D variance = variance.map fun v => v • D := by
  simp only [scaledCovariances]
  congr 1
  funext v
  ext i j
  simp [mul_comm]

/-- C86. `NormalInverseGamma.sample_mean` / `sample_beta` with a vector mean and `delta_inverse`. -/
theorem C86_normal_inverse_gamma_nd {ι : Type} [Fintype ι] [DecidableEq ι] (lib : Samplers ι)
    (hlib : CorrectScalar lib P) (hmvn : CorrectNormal lib P)
    (d : NormalInverseGamma ℝ (ι → ℝ) (Matrix ι ι ℝ)) (ha : 0 < d.alpha) (hb : 0 < d.beta)
    (delta_inverse : Matrix ι ι ℝ) (hD : delta_inverse.PosDef) (size : ℕ) (return_variance : Bool) :
    FreshRun (d.sample_beta_nd lib delta_inverse size return_variance) fun f =>
      IIDSampledThen P size return_variance f
        (lawOn (univ ×ˢ Ioi 0) fun θ : (ι → ℝ) × ℝ => d.jointPdfNd delta_inverse θ.1 θ.2) := by
  have h₀ := hlib.invgamma d.alpha ha d.beta hb
  have hg : Measurable fun v : ℝ => v • delta_inverse := measurable_matrix fun i j => by
    simp only [Matrix.smul_apply, smul_eq_mul]; fun_prop
  have h := (hmvn.at d.mu).comp hg
  have e0 := invgamma_lawOn ⟨d.alpha, d.beta⟩ hb
  have hd := nigNd_isDensity ha hb hD d.mu
  have hpdf : (fun θ : (ι → ℝ) × ℝ => d.jointPdfNd delta_inverse θ.1 θ.2) =
      fun θ => (InverseGamma.dist ⟨d.alpha, d.beta⟩).pdf θ.2 * mvnPdf d.mu (θ.2 • delta_inverse) θ.1 := rfl
  have hp := lawOn_prob (MeasurableSet.univ.prod measurableSet_Ioi) hd
  rw [hpdf]
  have hT : ∀ᵐ v ∂(contLaw (InverseGamma.dist ⟨d.alpha, d.beta⟩)),
      v ∈ (fun v : ℝ => v • delta_inverse) ⁻¹' {cov | cov.PosDef} := by
    rw [e0]
    filter_upwards [ae_lawOn_mem measurableSet_Ioi _] with v hv
    exact posDef_smul hD hv
  have hJ : ∀ f : (ι → ℝ) × ℝ → ENNReal, Measurable f →
      ∫⁻ z, f z ∂(lawOn (univ ×ˢ Ioi 0) fun θ : (ι → ℝ) × ℝ =>
        (InverseGamma.dist ⟨d.alpha, d.beta⟩).pdf θ.2 * mvnPdf d.mu (θ.2 • delta_inverse) θ.1) =
      ∫⁻ v, ∫⁻ m, f (m, v) ∂(lawOn univ (mvnPdf d.mu (v • delta_inverse)))
        ∂(contLaw (InverseGamma.dist ⟨d.alpha, d.beta⟩)) := by
    intro f hf
    rw [e0]
    exact lintegral_lawOn_prod (S := univ) (T := Ioi 0) (g := (InverseGamma.dist ⟨d.alpha, d.beta⟩).pdf)
      (h := fun m v => mvnPdf d.mu (v • delta_inverse) m) measurableSet_Ioi
      (InverseGamma.isDensity _ ha hb) (fun v hv => mvn_isDensity (posDef_smul hD hv) d.mu) hd hf
  have key : ∀ f : Stream → Sampled (ι → ℝ) ℝ × Stream, _ → IIDSampledThen P size return_variance f
      (lawOn (univ ×ˢ Ioi 0) fun θ : (ι → ℝ) × ℝ =>
        (InverseGamma.dist ⟨d.alpha, d.beta⟩).pdf θ.2 * mvnPdf d.mu (θ.2 • delta_inverse) θ.1) := fun f hf => by
    have := iidSampled_of h₀ h hT hJ size measurable_id return_variance f hf
    simpa using this
  refine ⟨fun g => key _ fun s => ?_, fun g => key _ fun s => ?_⟩
  all_goals simp [NormalInverseGamma.sample_beta_nd, NormalInverseGamma.sampleBothNd,
    NormalInverseGamma.sample_variance, NormalInverseGamma.inverse_gamma, NormalInverseGamma.sampleBetaNd, rvsEach_generator, rvsEach_none, rvs,
    scaledCovariances_eq, Function.comp_def]

example (d : NormalInverseGamma ℝ (Fin 2 → ℝ) (Matrix (Fin 2) (Fin 2) ℝ)) (h : d = ⟨![1, -1], 2, 3, none, none⟩) :
    ∃ lib : Samplers (Fin 2), FreshRun (d.sample_beta_nd lib ((2 : ℝ) • 1) 7 true) fun f =>
      IIDSampledThen streamLaw 7 true f
        (lawOn (univ ×ˢ Ioi 0) fun θ : (Fin 2 → ℝ) × ℝ => d.jointPdfNd ((2 : ℝ) • 1) θ.1 θ.2) := by
  obtain ⟨lib, h1, h2, -⟩ := exists_library 2
  subst h
  exact ⟨lib, C86_normal_inverse_gamma_nd lib h1 h2 _ (by norm_num) (by norm_num) _
    (posDef_smul PosDef.one two_pos) 7 true⟩

/-! ## NormalGamma -/

/-- C86. `NormalGamma.sample_mean` / `sample_beta`: (mean, precision) are independent draws from the joint
distribution; the reported variance is the variance `1 / (lam * precision)` the mean was drawn with. -/
theorem C86_normal_gamma {ι : Type} (lib : Samplers ι) (hlib : CorrectScalar lib P) (d : NormalGamma ℝ)
    (hlam : 0 < d.lam) (ha : 0 < d.alpha) (hb : 0 < d.beta) (size : ℕ) (return_variance : Bool) :
    FreshRun (d.sample_beta lib size return_variance) fun f =>
      IIDSampledThen P size return_variance f
        ((lawOn (univ ×ˢ Ioi 0) fun θ : ℝ × ℝ => d.jointPdf θ.1 θ.2).map
          fun θ => (θ.1, 1 / (d.lam * θ.2))) := by
  have hb' : (0 : ℝ) < 1 / d.beta := by positivity
  have h₀ : Samples P (lib.gamma d.alpha (1 / d.beta)) (contLaw (Gamma.dist ⟨d.alpha, d.beta⟩)) := by
    have := (hlib.gamma d.alpha ha).comp (g := fun _ : Unit => 1 / d.beta) measurable_const
    have e : (fun _ : Unit => 1 / d.beta) ⁻¹' Ioi 0 = univ := by ext; simp [hb]
    rwa [e] at this
  have hg : Measurable fun t : ℝ => √(1 / (d.lam * t)) := by fun_prop
  have h := (hlib.norm d.mu).comp hg
  have e0 := gamma_lawOn ⟨d.alpha, d.beta⟩ hb
  have hd := ngPdf_isDensity d.mu d.lam d.alpha d.beta hlam ha hb
  have hpdf : (fun θ : ℝ × ℝ => d.jointPdf θ.1 θ.2) = ngPdf d.mu d.lam d.alpha d.beta := by
    funext θ
    simp [NormalGamma.jointPdf, ngPdf, NormalGamma.gamma]
  have hp := lawOn_prob (MeasurableSet.univ.prod measurableSet_Ioi) hd
  rw [hpdf]
  have hpos : ∀ t : ℝ, t ∈ Ioi (0 : ℝ) → 0 < √(1 / (d.lam * t)) := fun t ht =>
    Real.sqrt_pos.2 (by have : 0 < t := ht; positivity)
  have hT : ∀ᵐ t ∂(contLaw (Gamma.dist ⟨d.alpha, d.beta⟩)), t ∈ (fun t : ℝ => √(1 / (d.lam * t))) ⁻¹' Ioi 0 := by
    rw [e0]
    filter_upwards [ae_lawOn_mem measurableSet_Ioi _] with t ht
    exact hpos t ht
  have hJ : ∀ f : ℝ × ℝ → ENNReal, Measurable f →
      ∫⁻ z, f z ∂(lawOn (univ ×ˢ Ioi 0) (ngPdf d.mu d.lam d.alpha d.beta)) =
      ∫⁻ t, ∫⁻ m, f (m, t) ∂(contLaw (Normal.dist ⟨d.mu, √(1 / (d.lam * t))⟩))
        ∂(contLaw (Gamma.dist ⟨d.alpha, d.beta⟩)) := by
    intro f hf
    rw [e0]
    simp only [norm_lawOn]
    exact lintegral_lawOn_prod (S := univ) (T := Ioi 0) (g := (Gamma.dist ⟨d.alpha, d.beta⟩).pdf)
      (h := fun m t => (Normal.dist ⟨d.mu, √(1 / (d.lam * t))⟩).pdf m) measurableSet_Ioi
      (Gamma.isDensity _ ha hb)
      (fun t ht => Normal.isDensity ⟨d.mu, √(1 / (d.lam * t))⟩ (hpos t ht)) hd hf
  have hr : Measurable fun t : ℝ => 1 / (d.lam * t) := by fun_prop
  refine ⟨fun g => iidSampled_of h₀ h hT hJ size hr return_variance _ fun s => ?_,
    fun g => iidSampled_of h₀ h hT hJ size hr return_variance _ fun s => ?_⟩
  all_goals simp [NormalGamma.sample_beta, NormalGamma.sample_variance, NormalGamma.gamma, rvs, Function.comp_def]

/-- C86. `NormalGamma.sample_variance` returns independent draws of `1 / (lam * precision)` with the precision
drawn from the gamma of the object. -/
theorem C86_normal_gamma_variance {ι : Type} (lib : Samplers ι) (hlib : CorrectScalar lib P) (d : NormalGamma ℝ)
    (ha : 0 < d.alpha) (hb : 0 < d.beta) (size : ℕ) :
    FreshRun (d.sample_variance lib size) fun f =>
      IIDSampleThen P size f ((contLaw (Gamma.dist { alpha := d.alpha, beta := d.beta })).map fun g => 1 / (d.lam * g)) := by
  have hb' : (1 / d.beta : ℝ) ∈ Ioi (0 : ℝ) := one_div_pos.2 hb
  have h := iid_replicate (hlib.gamma d.alpha ha) hb' size
  have hp : IsProbabilityMeasure (contLaw { family := .gamma d.alpha, scale := 1 / d.beta }) :=
    (hlib.gamma d.alpha ha).prob _ hb'
  have key := IIDSampleThen.map (μ := contLaw { family := .gamma d.alpha, scale := 1 / d.beta }) h
    (g := fun g : ℝ => 1 / (d.lam * g)) (by fun_prop)
  have e : contLaw (Gamma.dist { alpha := d.alpha, beta := d.beta }) = contLaw { family := .gamma d.alpha, scale := 1 / d.beta } := rfl
  refine ⟨fun _ => ?_, fun _ => ?_⟩
  all_goals
    rw [e]
    convert key using 3 <;> simp [NormalGamma.sample_variance, NormalGamma.gamma, rvs]

example (d : NormalGamma ℝ) (h : d = ⟨1, 2, 3, 4⟩) :
    ∃ lib : Samplers (Fin 2), FreshRun (d.sample_beta lib 7 true) (fun f =>
      IIDSampledThen streamLaw 7 true f ((lawOn (univ ×ˢ Ioi 0) fun θ : ℝ × ℝ => d.jointPdf θ.1 θ.2).map
          fun θ => (θ.1, 1 / (d.lam * θ.2)))) ∧
      FreshRun (d.sample_variance lib 7) fun f =>
      IIDSampleThen streamLaw 7 f ((contLaw (Gamma.dist { alpha := d.alpha, beta := d.beta })).map fun g => 1 / (d.lam * g)) := by
  obtain ⟨lib, h1, -⟩ := exists_library 2
  subst h
  exact ⟨lib, C86_normal_gamma lib h1 _ (by norm_num) (by norm_num) (by norm_num) 7 true,
    C86_normal_gamma_variance lib h1 _ (by norm_num) (by norm_num) 7⟩

/-! ## NormalInverseWishart -/

/-- C86. `NormalInverseWishart.sample_mean`: (mean, covariance) are independent draws from the joint
distribution; the reported variance is the covariance over `kappa`, the one the mean was drawn with. -/
theorem C86_normal_inverse_wishart {n : ℕ} (lib : Samplers (Fin n)) (hmvn : CorrectNormal lib P)
    (hiw : CorrectInvWishart lib P) (d : NormalInverseWishart ℝ (Fin n → ℝ) (Matrix (Fin n) (Fin n) ℝ))
    (hk : 0 < d.kappa) (hnu : (n : ℝ) - 1 < d.nu) (hpsi : d.psi.PosDef) (size : ℕ) (return_variance : Bool) :
    FreshRun (d.sample_mean lib size return_variance) fun f =>
      IIDSampledThen P size return_variance f
        ((lawOn {θ : (Fin n → ℝ) × (UpperIdx n → ℝ) | (symOf θ.2).PosDef} fun θ =>
          d.jointPdf θ.1 (symOf θ.2)).map fun θ => (θ.1, (1 / d.kappa) • symOf θ.2)) := by
  have h₀ := hiw d.nu hnu d.psi hpsi
  have hg := measurable_const_smul_matrix (m := Fin n) (n := Fin n) (1 / d.kappa)
  have h := (hmvn.at d.mu).comp hg
  have hd := niw_isDensity hk hnu hpsi d.mu
  have hset : {θ : (Fin n → ℝ) × (UpperIdx n → ℝ) | (symOf θ.2).PosDef} =
      univ ×ˢ {c | (symOf c).PosDef} := by ext θ; simp
  have hpdf : (fun θ : (Fin n → ℝ) × (UpperIdx n → ℝ) => d.jointPdf θ.1 (symOf θ.2)) =
      fun θ => invwishartPdf d.nu d.psi (symOf θ.2) * mvnPdf d.mu ((1 / d.kappa) • symOf θ.2) θ.1 := rfl
  rw [hpdf]
  set L := lawOn {θ : (Fin n → ℝ) × (UpperIdx n → ℝ) | (symOf θ.2).PosDef} fun θ =>
    invwishartPdf d.nu d.psi (symOf θ.2) * mvnPdf d.mu ((1 / d.kappa) • symOf θ.2) θ.1 with hL
  have hp : IsProbabilityMeasure L := lawOn_prob (hset ▸ MeasurableSet.univ.prod measurableSet_posDef) hd
  have hs : Measurable fun θ : (Fin n → ℝ) × (UpperIdx n → ℝ) => (θ.1, symOf θ.2) :=
    measurable_fst.prodMk (measurable_symOf.comp measurable_snd)
  have hp' : IsProbabilityMeasure (L.map fun θ => (θ.1, symOf θ.2)) :=
    Measure.isProbabilityMeasure_map hs.aemeasurable
  have hT : ∀ᵐ S ∂(symLaw (invwishartPdf d.nu d.psi)),
      S ∈ (fun S : Matrix (Fin n) (Fin n) ℝ => (1 / d.kappa) • S) ⁻¹' {cov | cov.PosDef} := by
    filter_upwards [ae_symLaw _] with S hS
    exact posDef_smul hS (by positivity)
  have hJ : ∀ f : (Fin n → ℝ) × Matrix (Fin n) (Fin n) ℝ → ENNReal, Measurable f →
      ∫⁻ z, f z ∂(L.map fun θ => (θ.1, symOf θ.2)) =
      ∫⁻ S, ∫⁻ m, f (m, S) ∂(lawOn univ (mvnPdf d.mu ((1 / d.kappa) • S))) ∂(symLaw (invwishartPdf d.nu d.psi)) := by
    intro f hf
    rw [lintegral_map hf hs, lintegral_symLaw, hL, hset]
    exact lintegral_lawOn_prod (S := univ) (T := {c | (symOf c).PosDef}) (g := fun c => invwishartPdf d.nu d.psi (symOf c))
      (h := fun m c => mvnPdf d.mu ((1 / d.kappa) • symOf c) m) measurableSet_posDef (iw_isDensity hpsi hnu)
      (fun c hc => mvn_isDensity (posDef_smul hc (by positivity)) d.mu) (hset ▸ hd) (F := fun θ => f (θ.1, symOf θ.2))
      (hf.comp hs)
  have key : ∀ f : Stream → Sampled (Fin n → ℝ) (Matrix (Fin n) (Fin n) ℝ) × Stream, _ → IIDSampledThen P size return_variance f
      (L.map fun θ => (θ.1, (1 / d.kappa) • symOf θ.2)) := fun f hf => by
    have := iidSampled_of h₀ h hT hJ size hg return_variance f hf
    rwa [Measure.map_map (by exact measurable_fst.prodMk (hg.comp measurable_snd)) hs] at this
  refine ⟨fun g => key _ fun s => ?_, fun g => key _ fun s => ?_⟩
  all_goals simp [NormalInverseWishart.sample_mean, NormalInverseWishart.sample_variance, NormalInverseWishart.inverse_wishart, rvsEach_generator,
    rvsEach_none, rvs, Function.comp_def]

/-- C86. `NormalInverseWishart.sample_variance` returns independent draws from the inverse Wishart of the object,
divided by `kappa`. -/
theorem C86_normal_inverse_wishart_variance {n : ℕ} (lib : Samplers (Fin n)) (hiw : CorrectInvWishart lib P)
    (d : NormalInverseWishart ℝ (Fin n → ℝ) (Matrix (Fin n) (Fin n) ℝ)) (hnu : (n : ℝ) - 1 < d.nu)
    (hpsi : d.psi.PosDef) (size : ℕ) :
    FreshRun (d.sample_variance lib size) fun f =>
      IIDSampleThen P size f ((symLaw (invwishartPdf d.nu d.psi)).map fun S => (1 / d.kappa) • S) := by
  have h₀ := hiw d.nu hnu d.psi hpsi
  have h := iid_replicate h₀ (mem_univ ()) size
  have hp : IsProbabilityMeasure (symLaw (invwishartPdf d.nu d.psi)) := h₀.prob () (mem_univ ())
  have key := IIDSampleThen.map (μ := symLaw (invwishartPdf d.nu d.psi)) h
    (measurable_const_smul_matrix (m := Fin n) (n := Fin n) (1 / d.kappa))
  exact ⟨fun _ => key, fun _ => key⟩

example (d : NormalInverseWishart ℝ (Fin 2 → ℝ) (Matrix (Fin 2) (Fin 2) ℝ)) (h : d = ⟨![1, -1], 2, 5, (3 : ℝ) • 1⟩) :
    ∃ lib : Samplers (Fin 2), FreshRun (d.sample_mean lib 7 true) (fun f => IIDSampledThen streamLaw 7 true f
        ((lawOn {θ : (Fin 2 → ℝ) × (UpperIdx 2 → ℝ) | (symOf θ.2).PosDef} fun θ =>
          d.jointPdf θ.1 (symOf θ.2)).map fun θ => (θ.1, (1 / d.kappa) • symOf θ.2))) ∧
      FreshRun (d.sample_variance lib 7) fun f =>
      IIDSampleThen streamLaw 7 f ((symLaw (invwishartPdf d.nu d.psi)).map fun S => (1 / d.kappa) • S) := by
  obtain ⟨lib, -, h1, h2, -⟩ := exists_library 2
  subst h
  exact ⟨lib, C86_normal_inverse_wishart lib h1 h2 _ (by norm_num) (by norm_num)
    (posDef_smul PosDef.one three_pos) 7 true,
    C86_normal_inverse_wishart_variance lib h2 _ (by norm_num) (posDef_smul PosDef.one three_pos) 7⟩

/-- C86. The assumption of the theorems above can be met: some library of samplers draws exactly from every law it is asked for,
all at once, and leaves what follows in the stream independent of what was drawn. -/
theorem C86_exact_draws_possible (n : ℕ) : ∃ lib : Samplers (Fin n), CorrectScalar lib streamLaw ∧
    CorrectNormal lib streamLaw ∧ CorrectInvWishart lib streamLaw ∧ CorrectWishart lib streamLaw :=
  exists_library n

end Conj
