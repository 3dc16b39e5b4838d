import Verif.Lemmas.Maxima
import Verif.Props.Repeated

/-!
# C104: samples of the largest of several new observations
-/

open MeasureTheory Set Real

namespace Conj

open Scipy Spec

variable {ι : Type} {P : Measure Stream} [IsProbabilityMeasure P]

theorem poisson_real_prob {l : ℝ} (hl : 0 ≤ l) : IsProbabilityMeasure (discRealLaw (Poisson.dist ⟨l⟩)) := by
  have := poisson_prob hl
  exact Measure.isProbabilityMeasure_map (measurable_of_countable _).aemeasurable

theorem poisson_mixes {d : Gamma ℝ} (ha : 0 < d.alpha) (hb : 0 < d.beta) :
    Mixes (discRealLaw (poisson_gamma_predictive d).dist) (contLaw d.dist) fun l => discRealLaw (Poisson.dist ⟨l⟩) := by
  have e : (poisson_gamma_predictive d).dist = NegativeBinomial.dist ⟨d.alpha, d.beta / (1 + d.beta)⟩ := by
    simp [poisson_gamma_predictive]
  rw [e]
  refine mixes_disc (model := fun l => Poisson.dist ⟨l⟩) measurableSet_Ioi (gamma_lawOn _ hb) (Gamma.isDensity _ ha hb)
    measurable_poisson_pmf (fun l hl => poisson_nonneg l (le_of_lt hl)) fun k => ?_
  simpa using poisson_predictive_true d ha hb 1 one_pos k

/-- C104. For observations of any kind: the largest of `n` draws from the predictive distribution of one observation
(`pred`) is at most `k` no more often than the largest of `n` new observations (`new`) is. -/
theorem C104_max_of_predictions_le {pred post new : Measure ℝ} [IsProbabilityMeasure post] {model : ℝ → Measure ℝ}
    (hmodel : ∀ᵐ θ ∂post, IsProbabilityMeasure (model θ)) (hm : ∀ k, AEMeasurable (fun θ => model θ (Iic k)) post)
    (hpred : Mixes pred post model) {n : ℕ} (hn : 0 < n) (hnew : Mixes new post fun θ => maxLaw n (model θ)) (k : ℝ) :
    maxLaw n pred (Iic k) ≤ new (Iic k) := by
  have hp : IsProbabilityMeasure pred := ⟨by
    have := hpred (fun _ => 1) measurable_const
    rw [lintegral_one] at this
    rw [this, lintegral_congr_ae (hmodel.mono fun θ hθ => by simp : ∀ᵐ θ ∂post, ∫⁻ _, 1 ∂model θ = 1)]
    simp⟩
  rw [maxLaw_Iic hn, hpred.atMost, hnew.atMost,
    lintegral_congr_ae (hmodel.mono fun θ hθ => maxLaw_Iic hn (model θ) k)]
  have e : ∀ᵐ θ ∂post, model θ (Iic k) = ENNReal.ofReal (model θ (Iic k)).toReal :=
    hmodel.mono fun θ hθ => (ENNReal.ofReal_toReal (measure_ne_top _ _)).symm
  rw [lintegral_congr_ae e, lintegral_congr_ae (e.mono fun θ h => congrArg (· ^ n) h)]
  refine (lintegral_pow_le (hm k).ennreal_toReal.aestronglyMeasurable (hmodel.mono fun θ hθ => ⟨by positivity, ?_⟩) n).1
  exact ENNReal.toReal_le_of_le_ofReal one_pos.le (by simpa using prob_le_one)

theorem measurable_poisson_Iic (k : ℝ) {d : Gamma ℝ} (hb : 0 < d.beta) :
    AEMeasurable (fun l => discRealLaw (Poisson.dist ⟨l⟩) (Iic k)) (contLaw d.dist) := by
  have e : ∀ l, discRealLaw (Poisson.dist ⟨l⟩) (Iic k) =
      ∑' j : ℤ, ((fun j : ℤ => (j : ℝ)) ⁻¹' Iic k).indicator (fun j => ENNReal.ofReal ((Poisson.dist ⟨l⟩ : Disc).pmf j)) j := by
    intro l
    rw [discRealLaw, Measure.map_apply (measurable_of_countable _) measurableSet_Iic, discLaw,
      withDensity_apply _ (Set.to_countable _).measurableSet, ← lintegral_indicator (Set.to_countable _).measurableSet,
      lintegral_count]
  simp only [e]
  refine (Measurable.tsum fun j => ?_).aemeasurable
  by_cases hj : j ∈ (fun j : ℤ => (j : ℝ)) ⁻¹' Iic k
  · simp only [indicator_of_mem hj]
    exact (measurable_poisson_pmf j).ennreal_ofReal
  · simp only [indicator_of_notMem hj]
    exact measurable_const

/-- C104 (disagreement). `docs/examples/bootstrap.md` draws each of the `n_new` observations from the predictive
distribution of one, with a rate of its own. For two observations or more the maximum is then too large: every bound
`k ≥ 0` is kept with too small a probability. -/
theorem C104_max_too_large (d : Gamma ℝ) (ha : 0 < d.alpha) (hb : 0 < d.beta) {n_new : ℕ} (hn : 2 ≤ n_new)
    {new : Measure ℝ} (hnew : Mixes new (contLaw d.dist) fun rate => maxLaw n_new (discRealLaw (Poisson.dist ⟨rate⟩)))
    {k : ℝ} (hk : 0 ≤ k) :
    maxLaw n_new (discRealLaw (poisson_gamma_predictive d).dist) (Iic k) < new (Iic k) := by
  have hpost : IsProbabilityMeasure (contLaw d.dist) := gamma_prob ha hb
  have hmodel : ∀ᵐ l ∂contLaw d.dist, IsProbabilityMeasure (discRealLaw (Poisson.dist ⟨l⟩)) :=
    (gamma_ae_pos d hb).mono fun l hl => poisson_real_prob (le_of_lt hl)
  have hp : IsProbabilityMeasure (discRealLaw (poisson_gamma_predictive d).dist) := by
    have e : (poisson_gamma_predictive d).dist = NegativeBinomial.dist ⟨d.alpha, d.beta / (1 + d.beta)⟩ := by
      simp [poisson_gamma_predictive]
    rw [e]
    have := nb_prob ha (p := d.beta / (1 + d.beta)) (by positivity) (by rw [div_le_one (by positivity)]; linarith)
    exact Measure.isProbabilityMeasure_map (measurable_of_countable _).aemeasurable
  refine lt_of_le_of_ne (C104_max_of_predictions_le hmodel (fun k => measurable_poisson_Iic k hb) (poisson_mixes ha hb)
    (by omega) hnew k) fun heq => ?_
  have e : ∀ᵐ l ∂contLaw d.dist, discRealLaw (Poisson.dist ⟨l⟩) (Iic k) =
      ENNReal.ofReal (∑ i ∈ Finset.range (⌊k⌋₊ + 1), exp (-l) * l ^ i / i.factorial) :=
    (gamma_ae_pos d hb).mono fun l hl => by
      rw [discRealLaw_Iic (poisson_neg l) (poisson_nonneg l (le_of_lt hl)) hk]
      simp only [Poisson.pmf_nat]
  rw [maxLaw_Iic (by omega), (poisson_mixes ha hb).atMost, hnew.atMost,
    lintegral_congr_ae (hmodel.mono fun θ hθ => maxLaw_Iic (by omega) _ k), lintegral_congr_ae e,
    lintegral_congr_ae (e.mono fun θ h => congrArg (· ^ n_new) h)] at heq
  obtain ⟨c, hc⟩ := (lintegral_pow_le (post := contLaw d.dist)
    (F := fun l => ∑ i ∈ Finset.range (⌊k⌋₊ + 1), exp (-l) * l ^ i / i.factorial)
    (by fun_prop) (by
      filter_upwards [gamma_ae_pos d hb, hmodel, e] with l hl hl' he
      have hl : 0 < l := hl
      refine ⟨by positivity, ?_⟩
      have := prob_le_one (μ := discRealLaw (Poisson.dist ⟨l⟩)) (s := Iic k)
      rw [he] at this
      exact ENNReal.ofReal_le_one.1 this) n_new).2 hn heq
  -- a strictly decreasing function is constant at one point at most, and a point has probability zero
  have hall : ∀ᵐ l ∂contLaw d.dist, l ∈ Ioi (0 : ℝ) ∧
      ∑ i ∈ Finset.range (⌊k⌋₊ + 1), exp (-l) * l ^ i / i.factorial = c := (gamma_ae_pos d hb).and hc
  obtain ⟨a, ha0, hac⟩ := hall.exists
  have hpt : ∀ᵐ l ∂contLaw d.dist, l = a := hall.mono fun l hl =>
    (strictAntiOn_poisson_cdf ⌊k⌋₊).injOn hl.1 ha0 (hl.2.trans hac.symm)
  have hne : ∀ᵐ l ∂contLaw d.dist, l ≠ a := by
    have : ∀ᵐ l ∂(volume : Measure ℝ), l ≠ a := by simp [ae_iff]
    exact (withDensity_absolutelyContinuous _ _).ae_le this
  obtain ⟨l, h1, h2⟩ := (hpt.and hne).exists
  exact h2 h1

/-- C104. The samples `docs/examples/bootstrap.md` takes are independent, each the largest of `n_new` independent draws
from the predictive distribution of one observation, whether `random_state` is given or not. -/
theorem C104_bootstrap_samples (lib : FrozenSamplers ι) (hlib : CorrectFrozen lib P) {n_new : ℕ} (hn : 0 < n_new)
    (samples : ℕ) (prior : Gamma ℝ) (ha : 0 < prior.alpha) (hb : 0 < prior.beta) (data : List ℕ) :
    ∃ f : RandomState → World → List ℝ × World,
      (∀ random_state w, conjugateStat lib n_new samples prior data random_state w =
        (.ok (f random_state w).1, (f random_state w).2)) ∧
      FreshRun f fun g => IIDSampleThen P samples g
        (maxLaw n_new (discRealLaw (NegativeBinomial.dist
          ⟨prior.alpha + data.sum, (prior.beta + data.length) / (1 + (prior.beta + data.length))⟩))) := by
  set nb : NegativeBinomial ℝ := ⟨prior.alpha + data.sum, (prior.beta + data.length) / (1 + (prior.beta + data.length))⟩
  have e : (getPosteriorPredictive data prior).dist = nb.dist := by
    simp [getPosteriorPredictive, poisson_gamma_predictive, poisson_gamma, getPoissonGammaPosteriorParams, nb]
  have hp : IsProbabilityMeasure (discLaw nb.dist) :=
    nb_prob (by positivity) (by positivity) (by rw [div_le_one (by positivity)]; linarith)
  have hp' : IsProbabilityMeasure (discRealLaw nb.dist) :=
    Measure.isProbabilityMeasure_map (measurable_of_countable _).aemeasurable
  have hs : SamplesEach P (fun _ : Unit => lib.disc nb.dist) univ fun _ => discRealLaw nb.dist :=
    hlib.disc (fun _ : Unit => nb.dist) univ (fun k => measurable_const) fun _ _ => hp
  obtain ⟨X, hX, hf⟩ := (iid_replicate hs (b := ()) (mem_univ _) (n_new * samples)).stage
  have key : IIDSampleThen P samples
      (fun s => (List.ofFn fun j : Fin samples => ⨆ i : Fin n_new, (X s).1 (finProdFinEquiv (i, j)), (X s).2))
      (maxLaw n_new (discRealLaw nb.dist)) := by
    have hc : Measurable fun (x : Fin (n_new * samples) → ℝ) (j : Fin samples) (i : Fin n_new) => x (finProdFinEquiv (i, j)) := by
      fun_prop
    have hm : Measurable fun (x : Fin samples → Fin n_new → ℝ) (j : Fin samples) => ⨆ i, x j i :=
      measurable_pi_iff.2 fun j => (measurable_iSup_fin n_new).comp (measurable_pi_apply j)
    have := maxLaw_prob n_new (discRealLaw nb.dist)
    refine Stage.sample (g := fun s => (fun j => ⨆ i : Fin n_new, (X s).1 (finProdFinEquiv (i, j)), (X s).2))
      (stage_of ((hm.comp (hc.comp hX.measurable.fst)).prodMk hX.measurable.snd) fun F hF => ?_) fun _ => rfl
    rw [hX.lintegral (F := fun z => F (fun j => ⨆ i : Fin n_new, z.1 (finProdFinEquiv (i, j)), z.2))
      (hF.comp ((hm.comp (hc.comp measurable_fst)).prodMk measurable_snd))]
    have e2 : (Measure.pi fun _ : Fin samples => maxLaw n_new (discRealLaw nb.dist)) =
        (Measure.pi fun _ : Fin (n_new * samples) => discRealLaw nb.dist).map
          fun x j => ⨆ i : Fin n_new, x (finProdFinEquiv (i, j)) := by
      rw [← Function.comp_def (fun (x : Fin samples → Fin n_new → ℝ) (j : Fin samples) => ⨆ i, x j i)
        (fun (x : Fin (n_new * samples) → ℝ) (j : Fin samples) (i : Fin n_new) => x (finProdFinEquiv (i, j))),
        ← Measure.map_map hm hc, pi_columns, Measure.pi_map_pi (f := fun _ (x : Fin n_new → ℝ) => ⨆ i, x i)
          (hμ := fun _ => by change SigmaFinite (maxLaw n_new (discRealLaw nb.dist)); infer_instance) fun _ => (measurable_iSup_fin n_new).aemeasurable]
      rfl
    rw [e2]
    exact (lintegral_map hF.lintegral_prod_right' (hm.comp hc)).symm
  have hr : ∀ s, maxAxis0 n_new samples (drawAll (List.replicate (n_new * samples) (lib.disc nb.dist)) s).1 =
      .ok (List.ofFn fun j : Fin samples => ⨆ i : Fin n_new, (X s).1 (finProdFinEquiv (i, j))) := fun s => by
    rw [hf, maxAxis0_ofFn hn]
  have hstat : ∀ random_state w, ∃ l, (conjugateStat lib n_new samples prior data random_state w).1 = .ok l := by
    intro random_state w
    cases random_state <;> simp only [conjugateStat, rvsDist, rvs, e, hr, Except.ok.injEq, exists_eq']
  refine ⟨fun random_state w => ((conjugateStat lib n_new samples prior data random_state w).1.toOption.getD [],
    (conjugateStat lib n_new samples prior data random_state w).2), fun random_state w => ?_, fun _ => ?_, fun _ => ?_⟩
  · obtain ⟨l, hl⟩ := hstat random_state w
    refine Prod.ext ?_ rfl
    simp only [hl, Except.toOption, Option.getD_some]
  · simp only [conjugateStat, rvsDist, rvs, e, hr, Except.toOption, Option.getD_some]
    simpa only [hf] using key
  · simp only [conjugateStat, rvsDist, rvs, e, hr, Except.toOption, Option.getD_some]
    simpa only [hf] using key

/-- C104. There is nothing to take the maximum of. -/
theorem C104_bootstrap_empty (lib : FrozenSamplers ι) {samples : ℕ} (hs : samples ≠ 0) (prior : Gamma ℝ) (data : List ℕ)
    (random_state : RandomState) (w : World) :
    ∃ msg, (conjugateStat lib 0 samples prior data random_state w).1 = .error (.valueError msg) := by
  simp [conjugateStat, maxAxis0, hs]

/-- C104. The law of the largest of `n_new` new observations exists, -/
theorem C104_new_max_exists (lib : FrozenSamplers ι) (hlib : CorrectFrozen lib P) (n_new : ℕ) (d : Gamma ℝ)
    (ha : 0 < d.alpha) (hb : 0 < d.beta) :
    ∃ new : Measure ℝ, IsProbabilityMeasure new ∧
      Mixes new (contLaw d.dist) fun rate => maxLaw n_new (discRealLaw (Poisson.dist ⟨rate⟩)) := by
  have hpost : IsProbabilityMeasure (contLaw d.dist) := gamma_prob ha hb
  have h := vec_samples (P := P) (m := n_new) (d := fun rate (_ : Fin n_new) => lib.disc (Poisson.dist ⟨rate⟩)) (T := Ioi 0)
    (κ := fun _ rate => discRealLaw (Poisson.dist ⟨rate⟩)) fun _ =>
      hlib.disc (fun rate => Poisson.dist ⟨rate⟩) (Ioi 0) measurable_poisson_pmf fun l hl => poisson_prob (le_of_lt hl)
  obtain ⟨J, hJp, hJ⟩ := exists_joint' h (gamma_ae_pos d hb)
  have hm : Measurable fun z : (Fin n_new → ℝ) × ℝ => ⨆ i, z.1 i := (measurable_iSup_fin n_new).comp measurable_fst
  refine ⟨J.map fun z => ⨆ i, z.1 i, Measure.isProbabilityMeasure_map hm.aemeasurable, fun F hF => ?_⟩
  rw [lintegral_map hF hm, hJ (fun z => F (⨆ i, z.1 i)) (hF.comp hm)]
  refine lintegral_congr fun l => ?_
  exact (lintegral_map hF (measurable_iSup_fin n_new)).symm

/-- C104. and drawing the rate first, then all `n_new` observations with that rate, samples from it. -/
theorem C104_two_stage_samples (lib : FrozenSamplers ι) (hlib : CorrectFrozen lib P) {n_new : ℕ} (hn : 0 < n_new)
    (samples : ℕ) (d : Gamma ℝ) (ha : 0 < d.alpha) (hb : 0 < d.beta) {new : Measure ℝ}
    (hnew : Mixes new (contLaw d.dist) fun rate => maxLaw n_new (discRealLaw (Poisson.dist ⟨rate⟩))) :
    ∃ f : RandomState → World → List ℝ × World,
      (∀ random_state w, twoStageStat lib n_new samples d random_state w =
        (.ok (f random_state w).1, (f random_state w).2)) ∧
      FreshRun f fun g => IIDSampleThen P samples g new := by
  have hpost : IsProbabilityMeasure (contLaw d.dist) := gamma_prob ha hb
  have h0 : SamplesEach P (fun _ : Unit => lib.cont d.dist) univ fun _ => contLaw d.dist :=
    hlib.cont (fun _ : Unit => d.dist) univ ((measurable_pdf (measurable_std_gamma _) _ _).comp measurable_snd)
      fun _ _ => hpost
  have h := vec_samples (P := P) (m := n_new) (d := fun rate (_ : Fin n_new) => lib.disc (Poisson.dist ⟨rate⟩)) (T := Ioi 0)
    (κ := fun _ rate => discRealLaw (Poisson.dist ⟨rate⟩)) fun _ =>
      hlib.disc (fun rate => Poisson.dist ⟨rate⟩) (Ioi 0) measurable_poisson_pmf fun l hl => poisson_prob (le_of_lt hl)
  have key := iid_second_stage h0 (b := ()) (mem_univ _) h (gamma_ae_pos d hb) (measurable_iSup_fin n_new) (μ := new)
    (fun F hF => by
      rw [hnew F hF]
      refine lintegral_congr fun l => ?_
      exact lintegral_map hF (measurable_iSup_fin n_new)) samples
  have h1 : ¬ (n_new = 0 ∧ samples ≠ 0) := by omega
  refine ⟨fun random_state w =>
    ((posteriorPredictiveSamplesEach lib (lib.cont d.dist)
      (fun rate => Draw.vec fun _ : Fin n_new => lib.disc (Poisson.dist ⟨rate⟩)) samples random_state w).1.map fun x => ⨆ i, x i,
      (posteriorPredictiveSamplesEach lib (lib.cont d.dist)
      (fun rate => Draw.vec fun _ : Fin n_new => lib.disc (Poisson.dist ⟨rate⟩)) samples random_state w).2),
    fun random_state w => ?_, fun _ => ?_, fun _ => ?_⟩
  · simp only [twoStageStat, if_neg h1, max_ofFn hn]
  · simpa only [posteriorPredictiveSamplesEach, rvsEach_generator, rvs] using key
  · simpa only [posteriorPredictiveSamplesEach, rvsEach_none, rvs] using key

/-- C104. One new observation: the page's samples have the right law. What is missing: more than one. -/
theorem C104_one_observation_partial (d : Gamma ℝ) (ha : 0 < d.alpha) (hb : 0 < d.beta) {new : Measure ℝ}
    (hnew : Mixes new (contLaw d.dist) fun rate => maxLaw 1 (discRealLaw (Poisson.dist ⟨rate⟩))) :
    maxLaw 1 (discRealLaw (poisson_gamma_predictive d).dist) = new := by
  have h1 : ∀ μ : Measure ℝ, IsProbabilityMeasure μ → maxLaw 1 μ = μ := fun μ hμ => by
    rw [maxLaw]
    have e : (fun x : Fin 1 → ℝ => ⨆ i, x i) = fun x => x 0 := by
      funext x
      exact ciSup_unique
    rw [e]
    exact (measurePreserving_eval (fun _ : Fin 1 => μ) 0).map_eq
  have hp : IsProbabilityMeasure (discRealLaw (poisson_gamma_predictive d).dist) := by
    have e : (poisson_gamma_predictive d).dist = NegativeBinomial.dist ⟨d.alpha, d.beta / (1 + d.beta)⟩ := by
      simp [poisson_gamma_predictive]
    rw [e]
    have := nb_prob ha (p := d.beta / (1 + d.beta)) (by positivity) (by rw [div_le_one (by positivity)]; linarith)
    exact Measure.isProbabilityMeasure_map (measurable_of_countable _).aemeasurable
  rw [h1 _ hp]
  refine measure_ext_lintegral fun F hF => ?_
  rw [poisson_mixes ha hb F hF, hnew F hF]
  refine lintegral_congr_ae ((gamma_ae_pos d hb).mono fun l hl => ?_)
  beta_reduce
  rw [h1 _ (poisson_real_prob (le_of_lt hl))]

/-- C104 (disagreement). The page's samples have the law of the largest new observation exactly for one observation. -/
theorem C104_bootstrap_iff (d : Gamma ℝ) (ha : 0 < d.alpha) (hb : 0 < d.beta) {n_new : ℕ} (hn : 0 < n_new)
    {new : Measure ℝ} (hnew : Mixes new (contLaw d.dist) fun rate => maxLaw n_new (discRealLaw (Poisson.dist ⟨rate⟩))) :
    maxLaw n_new (discRealLaw (poisson_gamma_predictive d).dist) = new ↔ n_new = 1 := by
  constructor
  · intro h
    by_contra h1
    have := C104_max_too_large d ha hb (n_new := n_new) (by omega) hnew le_rfl
    rw [h] at this
    exact lt_irrefl _ this
  · rintro rfl
    exact C104_one_observation_partial d ha hb hnew

/-- the page's settings: ten new observations, a `Gamma(1, 1)` prior and some counts -/
example (lib : FrozenSamplers ι) (hlib : CorrectFrozen lib P) :
    ∃ new : Measure ℝ, Mixes new (contLaw (poisson_gamma 5 3 ⟨1, 1⟩).dist)
        (fun rate => maxLaw 10 (discRealLaw (Poisson.dist ⟨rate⟩))) ∧
      maxLaw 10 (discRealLaw (poisson_gamma_predictive (poisson_gamma 5 3 ⟨1, 1⟩)).dist) (Iic 4) < new (Iic 4) := by
  have ha : 0 < (poisson_gamma (5 : ℝ) 3 ⟨1, 1⟩).alpha := by norm_num [poisson_gamma, getPoissonGammaPosteriorParams]
  have hb : 0 < (poisson_gamma (5 : ℝ) 3 ⟨1, 1⟩).beta := by norm_num [poisson_gamma, getPoissonGammaPosteriorParams]
  obtain ⟨new, -, h⟩ := C104_new_max_exists lib hlib 10 _ ha hb
  exact ⟨new, h, C104_max_too_large _ ha hb (by norm_num) h (by norm_num)⟩

end Conj
