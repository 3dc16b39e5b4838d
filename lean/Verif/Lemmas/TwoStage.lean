import Verif.RvsSpec
import Verif.Lemmas.SampleLaw
import Verif.Lemmas.LawFamilies
import Verif.Props.Sampling

/-!
# Mixtures
-/

open MeasureTheory Set

namespace Conj

open Scipy Spec

/-- the predictive density is the density of the mixture -/
theorem mixture_lintegral {Θ X : Type*} [MeasurableSpace Θ] [MeasurableSpace X] {μ : Measure Θ} [SFinite μ]
    {ν : Measure X} [SFinite ν] {S : Set Θ} (hS : MeasurableSet S) {g : Θ → ℝ} (hg : IsDensity μ S g)
    {L : Θ → X → ℝ} (hL : Measurable fun q : Θ × X => L q.1 q.2) (h0 : ∀ θ ∈ S, ∀ x, 0 ≤ L θ x)
    {pred : X → ℝ} (hp : ∀ᵐ x ∂ν, IsPredictive μ S (fun θ => L θ x) g (pred x))
    {F : X → ENNReal} (hF : Measurable F) :
    ∫⁻ x, ENNReal.ofReal (pred x) * F x ∂ν =
      ∫⁻ θ in S, ENNReal.ofReal (g θ) * ∫⁻ x, ENNReal.ofReal (L θ x) * F x ∂ν ∂μ := by
  have hgm : AEMeasurable (fun θ => ENNReal.ofReal (g θ)) (μ.restrict S) :=
    hg.2.1.aestronglyMeasurable.aemeasurable.ennreal_ofReal
  have h1 : ∀ θ, ENNReal.ofReal (g θ) * ∫⁻ x, ENNReal.ofReal (L θ x) * F x ∂ν =
      ∫⁻ x, ENNReal.ofReal (g θ) * (ENNReal.ofReal (L θ x) * F x) ∂ν := by
    intro θ
    rw [lintegral_const_mul]
    have : Measurable fun x => L θ x := hL.comp (f := fun x : X => (θ, x)) (by fun_prop)
    fun_prop
  simp only [h1]
  rw [lintegral_lintegral_swap]
  · refine lintegral_congr_ae ?_
    filter_upwards [hp] with x hx
    have hLx : Measurable fun θ => L θ x := hL.comp (f := fun θ : Θ => (θ, x)) (by fun_prop)
    have h2 : ∀ θ, ENNReal.ofReal (g θ) * (ENNReal.ofReal (L θ x) * F x) =
        (ENNReal.ofReal (g θ) * ENNReal.ofReal (L θ x)) * F x := fun θ => (mul_assoc _ _ _).symm
    simp only [h2]
    have h3 : AEMeasurable (fun θ => ENNReal.ofReal (g θ) * ENNReal.ofReal (L θ x)) (μ.restrict S) :=
      hgm.mul hLx.ennreal_ofReal.aemeasurable
    rw [lintegral_mul_const'' _ h3, hx.2,
      ofReal_integral_eq_lintegral_ofReal hx.1]
    · congr 1
      refine setLIntegral_congr_fun hS fun θ hθ => ?_
      beta_reduce
      rw [ENNReal.ofReal_mul (h0 θ hθ x), mul_comm]
    · filter_upwards [ae_restrict_mem hS] with θ hθ
      exact mul_nonneg (h0 θ hθ x) (hg.1 θ hθ)
  · refine AEMeasurable.mul (hgm.comp_fst) ?_
    have : Measurable fun q : Θ × X => ENNReal.ofReal (L q.1 q.2) * F q.2 := by fun_prop
    exact this.aemeasurable

variable {P : Measure Stream} [IsProbabilityMeasure P] {ι : Type}

/-- a continuous model: independent draws from the predictive density -/
theorem two_stage_cont (lib : FrozenSamplers ι) (hlib : CorrectFrozen lib P) {post : Cont} {S : Set ℝ}
    (hS : MeasurableSet S) (he : contLaw post = lawOn S post.pdf) (hd : IsDensity volume S post.pdf)
    (hpm : Measurable post.pdf) {model : ℝ → Cont} (hm : Measurable fun q : ℝ × ℝ => (model q.1).pdf q.2)
    (hprob : ∀ θ ∈ S, IsProbabilityMeasure (contLaw (model θ))) (h0 : ∀ θ ∈ S, ∀ x, 0 ≤ (model θ).pdf x)
    {pred : ℝ → ℝ} (hpred : Measurable pred)
    (hp : ∀ᵐ x, IsPredictive volume S (fun θ => (model θ).pdf x) post.pdf (pred x)) (size : ℕ) :
    FreshRun (posteriorPredictiveSamples lib (lib.cont post) (fun θ => lib.cont (model θ)) size) fun f =>
      IIDSampleThen P size f (volume.withDensity fun x => ENNReal.ofReal (pred x)) := by
  have hpr : IsProbabilityMeasure (contLaw post) := by rw [he]; exact lawOn_prob hS hd
  have h1 := hlib.cont (fun _ : Unit => post) univ (hpm.comp measurable_snd) fun _ _ => hpr
  have h2 := hlib.cont model S hm hprob
  have hT : ∀ᵐ θ ∂contLaw post, θ ∈ S := by rw [he]; exact ae_lawOn_mem hS _
  have key := iid_second_stage h1 (mem_univ ()) h2 hT measurable_id
    (μ := volume.withDensity fun x => ENNReal.ofReal (pred x)) (fun F hF => ?_) size
  · simp only [List.map_id] at key
    exact ⟨fun _ => key, fun _ => key⟩
  · have hFm : Measurable fun q : ℝ × ℝ => ENNReal.ofReal ((model q.1).pdf q.2) * F q.2 := by fun_prop
    have e1 : ∀ θ, ∫⁻ x, F x ∂contLaw (model θ) = ∫⁻ x, ENNReal.ofReal ((model θ).pdf x) * F x := by
      intro θ
      have hθ : Measurable fun x => (model θ).pdf x := hm.comp (f := fun x : ℝ => (θ, x)) (by fun_prop)
      rw [contLaw, lintegral_withDensity_eq_lintegral_mul _ hθ.ennreal_ofReal hF]
      rfl
    rw [lintegral_withDensity_eq_lintegral_mul _ hpred.ennreal_ofReal hF]
    simp only [id, e1]
    rw [he, lintegral_lawOn hd hFm.lintegral_prod_right]
    exact mixture_lintegral hS hd hm h0 hp hF

/-- a count model: independent draws from the predictive probabilities -/
theorem two_stage_disc (lib : FrozenSamplers ι) (hlib : CorrectFrozen lib P) {post : Cont} {S : Set ℝ}
    (hS : MeasurableSet S) (he : contLaw post = lawOn S post.pdf) (hd : IsDensity volume S post.pdf)
    (hpm : Measurable post.pdf) {model : ℝ → Disc} (hm : ∀ k, Measurable fun θ => (model θ).pmf k)
    (hprob : ∀ θ ∈ S, IsProbabilityMeasure (discLaw (model θ))) (h0 : ∀ θ ∈ S, ∀ k, 0 ≤ (model θ).pmf k)
    {pred : ℤ → ℝ}
    (hp : ∀ k, IsPredictive volume S (fun θ => (model θ).pmf k) post.pdf (pred k)) (size : ℕ) :
    FreshRun (posteriorPredictiveSamples lib (lib.cont post) (fun θ => lib.disc (model θ)) size) fun f =>
      IIDSampleThen P size f ((Measure.count.withDensity fun k : ℤ => ENNReal.ofReal (pred k)).map fun k : ℤ => (k : ℝ)) := by
  have hpr : IsProbabilityMeasure (contLaw post) := by rw [he]; exact lawOn_prob hS hd
  have h1 := hlib.cont (fun _ : Unit => post) univ (hpm.comp measurable_snd) fun _ _ => hpr
  have h2 := hlib.disc model S hm hprob
  have hT : ∀ᵐ θ ∂contLaw post, θ ∈ S := by rw [he]; exact ae_lawOn_mem hS _
  have hmm : Measurable fun q : ℝ × ℤ => (model q.1).pmf q.2 := measurable_from_prod_countable_left hm
  have key := iid_second_stage h1 (mem_univ ()) h2 hT measurable_id
    (μ := (Measure.count.withDensity fun k : ℤ => ENNReal.ofReal (pred k)).map fun k : ℤ => (k : ℝ))
    (fun F hF => ?_) size
  · simp only [List.map_id] at key
    exact ⟨fun _ => key, fun _ => key⟩
  · have hFz : Measurable fun k : ℤ => F k := measurable_of_countable _
    have hFm : Measurable fun q : ℝ × ℤ => ENNReal.ofReal ((model q.1).pmf q.2) * F q.2 :=
      hmm.ennreal_ofReal.mul (hFz.comp measurable_snd)
    have e1 : ∀ θ, ∫⁻ x, F x ∂discRealLaw (model θ) = ∫⁻ k : ℤ, ENNReal.ofReal ((model θ).pmf k) * F k ∂Measure.count := by
      intro θ
      rw [discRealLaw, discLaw, lintegral_map hF (measurable_of_countable _),
        lintegral_withDensity_eq_lintegral_mul _ (measurable_of_countable _) hFz]
      rfl
    rw [lintegral_map hF (measurable_of_countable _),
      lintegral_withDensity_eq_lintegral_mul _ (measurable_of_countable _) hFz]
    simp only [id, e1]
    rw [he, lintegral_lawOn hd hFm.lintegral_prod_right]
    exact mixture_lintegral hS hd hmm h0 (Filter.Eventually.of_forall hp) hFz

/-- a continuous model whose observations lie in `R` -/
theorem two_stage_cont_on (lib : FrozenSamplers ι) (hlib : CorrectFrozen lib P) {post : Cont} {S : Set ℝ}
    (hS : MeasurableSet S) (he : contLaw post = lawOn S post.pdf) (hd : IsDensity volume S post.pdf)
    (hpm : Measurable post.pdf) {model : ℝ → Cont} (hm : Measurable fun q : ℝ × ℝ => (model q.1).pdf q.2)
    (hprob : ∀ θ ∈ S, IsProbabilityMeasure (contLaw (model θ))) (h0 : ∀ θ ∈ S, ∀ x, 0 ≤ (model θ).pdf x)
    {R : Set ℝ} (hR : MeasurableSet R) (hz : ∀ᵐ x, x ∉ R → ∀ θ ∈ S, (model θ).pdf x = 0)
    {pred : ℝ → ℝ} (hpred : Measurable pred)
    (hp : ∀ x ∈ R, IsPredictive volume S (fun θ => (model θ).pdf x) post.pdf (pred x)) (size : ℕ) :
    FreshRun (posteriorPredictiveSamples lib (lib.cont post) (fun θ => lib.cont (model θ)) size) fun f =>
      IIDSampleThen P size f (lawOn R pred) := by
  have e : lawOn R pred = volume.withDensity fun x => ENNReal.ofReal (R.indicator pred x) := by
    rw [lawOn, ← withDensity_indicator hR]
    congr 1
    funext x
    by_cases hx : x ∈ R <;> simp [hx]
  rw [e]
  refine two_stage_cont lib hlib hS he hd hpm hm hprob h0 (hpred.indicator hR) ?_ size
  filter_upwards [hz] with x hx
  by_cases hxR : x ∈ R
  · rw [indicator_of_mem hxR]; exact hp x hxR
  · rw [indicator_of_notMem hxR]
    have h1 : ∀ θ ∈ S, (model θ).pdf x * post.pdf θ = 0 := fun θ hθ => by rw [hx hxR θ hθ, zero_mul]
    refine ⟨(integrableOn_congr_fun h1 hS).2 integrableOn_zero, ?_⟩
    rw [setIntegral_congr_fun hS h1]
    simp

theorem zipWith_ofFn {A B C : Type} {n : ℕ} (f : A → B → C) (a : Fin n → A) (b : Fin n → B) :
    List.zipWith f (List.ofFn a) (List.ofFn b) = List.ofFn fun i => f (a i) (b i) := by
  apply List.ext_getElem
  · simp
  · intro i h1 h2; simp

/-- samples of (mean, variance), then one observation for each: independent draws from the mixture -/
theorem predictive_from_samples {A B C : Type} [MeasurableSpace A] [MeasurableSpace B] [MeasurableSpace C]
    (lib : FrozenSamplers ι) {sample : RandomState → World → Sampled A B × World} {n : ℕ} {J : Measure (A × B)}
    [IsProbabilityMeasure J] (hs : FreshRun sample fun f => IIDSampledThen P n true f J)
    {model : A → B → Draw C} {T : Set (A × B)} {κ : A × B → Measure C}
    (h : SamplesEach P (fun z : A × B => model z.1 z.2) T κ) (hT : ∀ᵐ z ∂J, z ∈ T) {μ : Measure C}
    (hμ : ∀ f : C → ENNReal, Measurable f → ∫⁻ c, f c ∂μ = ∫⁻ z, ∫⁻ c, f c ∂κ z ∂J) :
    FreshRun (predictiveFromSamples lib sample model) (fun f => IIDSampleThen P n f μ) ∧
    FreshRun (predictiveFromSamplesEach lib sample model) (fun f => IIDSampleThen P n f μ) := by
  refine ⟨⟨fun g => ?_, fun g => ?_⟩, ⟨fun g => ?_, fun g => ?_⟩⟩
  · obtain ⟨F, hF, hf⟩ := (hs.1 g).stage
    refine (hF.last h hT hμ).sample fun s => ?_
    have h1 := congrArg Prod.fst (hf s)
    have h2 := congrArg Prod.snd (hf s)
    dsimp only at h1 h2
    simp only [predictiveFromSamples]
    generalize sample .generator ⟨g, s⟩ = r at h1 h2 ⊢
    obtain ⟨r1, r2⟩ := r
    subst h1
    dsimp only at h2 ⊢
    simp only [rvs, zipWith_ofFn, drawAll_ofFn, h2]
  · obtain ⟨F, hF, hf⟩ := (hs.2 g).stage
    refine (hF.last h hT hμ).sample fun s => ?_
    have h1 := congrArg Prod.fst (hf s)
    have h2 := congrArg Prod.snd (hf s)
    dsimp only at h1 h2
    simp only [predictiveFromSamples]
    generalize sample .none ⟨s, g⟩ = r at h1 h2 ⊢
    obtain ⟨r1, r2⟩ := r
    subst h1
    dsimp only at h2 ⊢
    simp only [rvs, zipWith_ofFn, drawAll_ofFn, h2]
  · obtain ⟨F, hF, hf⟩ := (hs.1 g).stage
    refine (hF.last h hT hμ).sample fun s => ?_
    have h1 := congrArg Prod.fst (hf s)
    have h2 := congrArg Prod.snd (hf s)
    dsimp only at h1 h2
    simp only [predictiveFromSamplesEach]
    generalize sample .generator ⟨g, s⟩ = r at h1 h2 ⊢
    obtain ⟨r1, r2⟩ := r
    subst h1
    dsimp only at h2 ⊢
    simp only [rvsEach_generator, rvs, zipWith_ofFn, drawAll_ofFn, h2]
  · obtain ⟨F, hF, hf⟩ := (hs.2 g).stage
    refine (hF.last h hT hμ).sample fun s => ?_
    have h1 := congrArg Prod.fst (hf s)
    have h2 := congrArg Prod.snd (hf s)
    dsimp only at h1 h2
    simp only [predictiveFromSamplesEach]
    generalize sample .none ⟨s, g⟩ = r at h1 h2 ⊢
    obtain ⟨r1, r2⟩ := r
    subst h1
    dsimp only at h2 ⊢
    simp only [rvsEach_none, rvs, zipWith_ofFn, drawAll_ofFn, h2]

/-! ## Measurability of the densities in the argument and one parameter -/

theorem measurable_std_gamma (a : ℝ) : Measurable fun x : ℝ => (Family.gamma a).std x :=
  Measurable.ite measurableSet_Ici (by fun_prop) measurable_const

theorem measurable_std_beta (a b : ℝ) : Measurable fun x : ℝ => (Family.beta a b).std x :=
  Measurable.ite (measurableSet_Ici.inter measurableSet_Iic) (by fun_prop) measurable_const

theorem measurable_std_invgamma (a : ℝ) : Measurable fun x : ℝ => (Family.invgamma a).std x :=
  Measurable.ite measurableSet_Ioi (by fun_prop) measurable_const

theorem measurable_std_norm : Measurable fun x : ℝ => Family.norm.std x := by
  simp only [Family.std]; fun_prop

theorem measurable_std_t (df : ℝ) : Measurable fun x : ℝ => (Family.t df).std x := by
  simp only [Family.std]; fun_prop

theorem measurable_std_expon : Measurable fun x : ℝ => Family.expon.std x :=
  Measurable.ite measurableSet_Ici (by fun_prop) measurable_const

theorem measurable_std_uniform : Measurable fun x : ℝ => Family.uniform.std x :=
  Measurable.ite (measurableSet_Ici.inter measurableSet_Iic) measurable_const measurable_const

theorem measurable_std_weibull (c : ℝ) : Measurable fun x : ℝ => (Family.weibull_min c).std x :=
  Measurable.ite measurableSet_Ici (by fun_prop) measurable_const

theorem measurable_std_lomax (c : ℝ) : Measurable fun x : ℝ => (Family.lomax c).std x :=
  Measurable.ite measurableSet_Ici (by fun_prop) measurable_const

theorem measurable_std_pareto : Measurable fun q : ℝ × ℝ => (Family.pareto q.1).std q.2 :=
  Measurable.ite (measurableSet_le measurable_const measurable_snd) (by fun_prop) measurable_const

/-- the location and the scale may vary -/
theorem measurable_loc_scale {B : Type} [MeasurableSpace B] {F : Family} (hF : Measurable fun x : ℝ => F.std x)
    {loc scale : B → ℝ} (hl : Measurable loc) (hs : Measurable scale) :
    Measurable fun q : B × ℝ => (Cont.mk F (loc q.1) (scale q.1)).pdf q.2 := by
  have h1 : Measurable fun q : B × ℝ => (q.2 - loc q.1) / scale q.1 := by fun_prop
  exact (hF.comp h1).div (hs.comp measurable_fst)

theorem measurable_pdf {F : Family} (hF : Measurable fun x : ℝ => F.std x) (loc scale : ℝ) :
    Measurable (Cont.mk F loc scale).pdf := by
  have h1 : Measurable fun x : ℝ => (x - loc) / scale := by fun_prop
  exact (hF.comp h1).div_const scale

end Conj
