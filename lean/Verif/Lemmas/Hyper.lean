import Verif.Hyper
import Verif.Lemmas.LawOn
import Verif.Props.PredictiveScalar

/-!
# Unknown parameters of the prior: the joint posterior
-/

open MeasureTheory Set

namespace Conj

open Spec

variable {H : Type*} [MeasurableSpace H] {Θ : Type} [MeasureSpace Θ] [SFinite (volume : Measure Θ)]
  {ν : Measure H} [IsProbabilityMeasure ν] {S : Set Θ} {prior post : H → Θ → ℝ} {lik : Θ → ℝ}

/-- the evidence: the predictive probability of the data under the prior with parameters `h` -/
noncomputable def evidence (S : Set Θ) (prior : H → Θ → ℝ) (lik : Θ → ℝ) (h : H) : ℝ := ∫ θ in S, prior h θ * lik θ

theorem measurable_evidence (hp : Measurable (Function.uncurry prior)) (hl : Measurable lik) :
    Measurable (evidence S prior lik) := by
  have : StronglyMeasurable (Function.uncurry fun h θ => prior h θ * lik θ) :=
    (hp.mul (hl.comp measurable_snd)).stronglyMeasurable
  exact (this.integral_prod_right (ν := volume.restrict S)).measurable

omit [IsProbabilityMeasure ν] in
theorem lintegral_twoStage_fst [SFinite ν] (hm : Measurable (Function.uncurry post)) (hS : MeasurableSet S)
    (hd : ∀ h, IsDensity volume S (post h)) {F : H → ENNReal} (hF : Measurable F) :
    ∫⁻ q, F q.1 ∂twoStage ν S post = ∫⁻ h, F h ∂ν := by
  have hm' : Measurable fun q : H × Θ => ENNReal.ofReal (post q.1 q.2) := hm.ennreal_ofReal
  have hF' : Measurable fun q : H × Θ => F q.1 := hF.comp measurable_fst
  rw [twoStage, lintegral_withDensity_eq_lintegral_mul _ hm' hF',
    lintegral_prod _ (hm'.mul hF').aemeasurable]
  refine lintegral_congr fun h => ?_
  simp only [Pi.mul_apply]
  have hm1 : Measurable fun y => ENNReal.ofReal (post h y) := hm'.comp (measurable_const.prodMk measurable_id)
  rw [lintegral_mul_const _ hm1, IsDensity.lintegral_eq_one hS (hd h), one_mul]

theorem weighted_eq (hS : MeasurableSet S) (hp : Measurable (Function.uncurry prior)) (hpo : Measurable (Function.uncurry post))
    (hl : Measurable lik) (h0 : ∀ h, ∀ θ ∈ S, 0 ≤ prior h θ) (h : ∀ h, IsPosterior volume S (prior h) lik (post h)) :
    (twoStage ν S prior).withDensity (fun q => ENNReal.ofReal (lik q.2)) =
      (twoStage ν S post).withDensity fun q => ENNReal.ofReal (evidence S prior lik q.1) := by
  have m1 : Measurable fun q : H × Θ => ENNReal.ofReal (prior q.1 q.2) := hp.ennreal_ofReal
  have m2 : Measurable fun q : H × Θ => ENNReal.ofReal (post q.1 q.2) := hpo.ennreal_ofReal
  have m3 : Measurable fun q : H × Θ => ENNReal.ofReal (lik q.2) := (hl.comp measurable_snd).ennreal_ofReal
  have m4 : Measurable fun q : H × Θ => ENNReal.ofReal (evidence S prior lik q.1) :=
    ((measurable_evidence hp hl).comp measurable_fst).ennreal_ofReal
  rw [twoStage, twoStage, ← withDensity_mul _ m1 m3, ← withDensity_mul _ m2 m4]
  refine withDensity_congr_ae ?_
  have hae : ∀ᵐ q ∂ν.prod (volume.restrict S), q.2 ∈ S := by
    have e : ν.prod (volume.restrict S) = (ν.restrict univ).prod (volume.restrict S) := by rw [Measure.restrict_univ]
    rw [e, Measure.prod_restrict]
    filter_upwards [ae_restrict_mem (MeasurableSet.univ.prod hS)] with q hq using hq.2
  filter_upwards [hae] with q hq
  simp only [Pi.mul_apply]
  obtain ⟨hZ, he⟩ := h q.1
  have hev : evidence S prior lik q.1 = ∫ θ in S, prior q.1 θ * lik θ := rfl
  rw [← ENNReal.ofReal_mul (h0 q.1 q.2 hq), mul_comm (ENNReal.ofReal (post _ _)), ← ENNReal.ofReal_mul (hev ▸ hZ.le), he q.2 hq, hev]
  congr 1
  field_simp

theorem jointPosterior_eq (hS : MeasurableSet S) (hp : Measurable (Function.uncurry prior)) (hpo : Measurable (Function.uncurry post))
    (hl : Measurable lik) (h0 : ∀ h, ∀ θ ∈ S, 0 ≤ prior h θ) (h : ∀ h, IsPosterior volume S (prior h) lik (post h))
    (hd : ∀ h, IsDensity volume S (post h)) :
    jointPosterior ν S prior lik = (∫⁻ h, ENNReal.ofReal (evidence S prior lik h) ∂ν)⁻¹ •
      (twoStage ν S post).withDensity fun q => ENNReal.ofReal (evidence S prior lik q.1) := by
  rw [jointPosterior, weighted_eq hS hp hpo hl h0 h, withDensity_apply _ MeasurableSet.univ, Measure.restrict_univ,
    lintegral_twoStage_fst hpo hS hd (measurable_evidence hp hl).ennreal_ofReal]

omit [IsProbabilityMeasure ν] in
theorem map_fst_twoStage [SFinite ν] (hm : Measurable (Function.uncurry post)) (hS : MeasurableSet S)
    (hd : ∀ h, IsDensity volume S (post h)) {F : H → ENNReal} (hF : Measurable F) :
    ((twoStage ν S post).withDensity fun q => F q.1).map Prod.fst = ν.withDensity F := by
  refine Measure.ext fun A hA => ?_
  rw [Measure.map_apply measurable_fst hA, withDensity_apply _ (measurable_fst hA), withDensity_apply _ hA,
    ← lintegral_indicator (measurable_fst hA), ← lintegral_indicator hA,
    ← lintegral_twoStage_fst hm hS hd (hF.indicator hA)]
  rfl

theorem jointPosterior_iff (hS : MeasurableSet S) (hp : Measurable (Function.uncurry prior)) (hpo : Measurable (Function.uncurry post))
    (hl : Measurable lik) (h0 : ∀ h, ∀ θ ∈ S, 0 ≤ prior h θ) (h : ∀ h, IsPosterior volume S (prior h) lik (post h))
    (hd : ∀ h, IsDensity volume S (post h)) :
    twoStage ν S post = jointPosterior ν S prior lik ↔ ∃ c, ∀ᵐ x ∂ν, evidence S prior lik x = c := by
  have hme := (measurable_evidence (S := S) hp hl).ennreal_ofReal
  rw [jointPosterior_eq hS hp hpo hl h0 h hd]
  set M := ∫⁻ x, ENNReal.ofReal (evidence S prior lik x) ∂ν with hM
  constructor
  · intro e
    have e1 := congrArg (Measure.map Prod.fst) e
    have e2 := map_fst_twoStage (ν := ν) hpo hS hd (F := 1) measurable_one
    rw [show ((twoStage ν S post).withDensity fun q => (1 : H → ENNReal) q.1) = twoStage ν S post from withDensity_one,
      withDensity_one] at e2
    rw [e2, Measure.map_smul, map_fst_twoStage hpo hS hd hme, ← withDensity_smul _ hme] at e1
    have e3 : ν.withDensity 1 = ν.withDensity (M⁻¹ • fun x => ENNReal.ofReal (evidence S prior lik x)) := by
      rw [withDensity_one]; exact e1
    rw [withDensity_eq_iff (by fun_prop) (by fun_prop) (by simp)] at e3
    refine ⟨M.toReal, ?_⟩
    filter_upwards [e3] with x hx
    have hx : (1 : ENNReal) = M⁻¹ * ENNReal.ofReal (evidence S prior lik x) := hx
    have hpos : 0 < evidence S prior lik x := (h x).1
    have : ENNReal.ofReal (evidence S prior lik x) = M := by
      have hM0 : M⁻¹ ≠ 0 := by
        intro h0
        rw [h0, zero_mul] at hx
        exact one_ne_zero hx
      have hMt : M⁻¹ ≠ ⊤ := by
        intro ht
        rw [ht, ENNReal.top_mul (by simpa using hpos)] at hx
        exact ENNReal.one_ne_top hx
      have := congrArg (M * ·) hx
      simp only [mul_one, ← mul_assoc] at this
      rw [ENNReal.mul_inv_cancel (by simpa using hMt) (by simpa using hM0), one_mul] at this
      exact this.symm
    rw [← this, ENNReal.toReal_ofReal hpos.le]
  · rintro ⟨c, hc⟩
    have hcpos : 0 < c := by
      obtain ⟨x, hx⟩ := hc.exists
      rw [← hx]
      exact (h x).1
    have hMc : M = ENNReal.ofReal c := by
      rw [hM, lintegral_congr_ae (g := fun _ => ENNReal.ofReal c) (by filter_upwards [hc] with x hx; rw [hx])]
      simp
    have hae : ∀ᵐ q ∂twoStage ν S post, evidence S prior lik q.1 = c := by
      refine (withDensity_absolutelyContinuous _ _).ae_le ?_
      exact Measure.quasiMeasurePreserving_fst.ae hc
    rw [withDensity_congr_ae (g := fun _ => ENNReal.ofReal c) (by filter_upwards [hae] with q hq; rw [hq]), withDensity_const,
      smul_smul, hMc, ENNReal.inv_mul_cancel (by simpa using hcpos) ENNReal.ofReal_ne_top, one_smul]

end Conj

namespace Conj

open Spec Scipy Real Filter Topology

section reweighted

variable {H : Type*} [MeasurableSpace H] {Θ : Type} [MeasureSpace Θ] [SFinite (volume : Measure Θ)]
  {ν : Measure H} [SFinite ν] {S : Set Θ} {post : H → Θ → ℝ}

theorem twoStage_weight (hm : Measurable (Function.uncurry post)) {F : H → ENNReal} (hF : Measurable F) :
    twoStage (ν.withDensity F) S post = (twoStage ν S post).withDensity fun q => F q.1 := by
  have m2 : Measurable fun q : H × Θ => ENNReal.ofReal (post q.1 q.2) := hm.ennreal_ofReal
  have m4 : Measurable fun q : H × Θ => F q.1 := hF.comp measurable_fst
  rw [twoStage, twoStage, prod_withDensity_left hF, ← withDensity_mul _ m4 m2, ← withDensity_mul _ m2 m4, mul_comm]

end reweighted

theorem continuous_Gamma_sub (c : ℝ) (hc : 0 ≤ c) : Continuous fun a : Ioi (0 : ℝ) => Real.Gamma (a + c) := by
  refine continuous_iff_continuousAt.2 fun a => ?_
  have ha : 0 < (a : ℝ) + c := add_pos_of_pos_of_nonneg a.2 hc
  have h := (Real.differentiableAt_Gamma fun m => by
    have : (0 : ℝ) ≤ m := m.cast_nonneg
    linarith : DifferentiableAt ℝ Real.Gamma ((a : ℝ) + c)).continuousAt
  exact ContinuousAt.comp (f := fun a : Ioi (0 : ℝ) => (a : ℝ) + c) h (by fun_prop)

theorem continuous_Gamma_sum : Continuous fun h : PosPair => Real.Gamma (h.1 + h.2) := by
  have hs : Continuous fun h : PosPair => (⟨h.1 + h.2, mem_Ioi.2 (add_pos h.1.2 h.2.2)⟩ : Ioi (0 : ℝ)) := by fun_prop
  have := (continuous_Gamma_sub 0 le_rfl).comp hs
  simp only [add_zero] at this
  exact this

/-- shifting both parameters -/
def shiftPair (u v : ℝ) (hu : 0 ≤ u) (hv : 0 ≤ v) (h : PosPair) : PosPair :=
  (⟨h.1 + u, add_pos_of_pos_of_nonneg h.1.2 hu⟩, ⟨h.2 + v, add_pos_of_pos_of_nonneg h.2.2 hv⟩)

theorem continuous_shiftPair (u v : ℝ) (hu : 0 ≤ u) (hv : 0 ≤ v) : Continuous (shiftPair u v hu hv) := by
  unfold shiftPair
  fun_prop

theorem continuous_betaFn : Continuous fun h : PosPair => betaFn h.1 h.2 := by
  unfold betaFn
  have h1 : Continuous fun h : PosPair => Real.Gamma h.1 := by
    have := (continuous_Gamma_sub 0 le_rfl).comp (continuous_fst (X := Ioi (0 : ℝ)) (Y := Ioi (0 : ℝ)))
    simp only [add_zero] at this
    exact this
  have h2 : Continuous fun h : PosPair => Real.Gamma h.2 := by
    have := (continuous_Gamma_sub 0 le_rfl).comp (continuous_snd (X := Ioi (0 : ℝ)) (Y := Ioi (0 : ℝ)))
    simp only [add_zero] at this
    exact this
  exact (h1.mul h2).div continuous_Gamma_sum fun h => (Real.Gamma_pos_of_pos (add_pos h.1.2 h.2.2)).ne'

theorem measurable_priorAt_pdf : Measurable (Function.uncurry fun h : PosPair => (priorAt h).dist.pdf) := by
  have hB : Measurable fun q : PosPair × ℝ => betaFn q.1.1 q.1.2 := (continuous_betaFn.measurable).comp measurable_fst
  have e : (Function.uncurry fun h : PosPair => (priorAt h).dist.pdf) = fun q => if 0 ≤ q.2 ∧ q.2 ≤ 1 then
      (betaFn q.1.1 q.1.2)⁻¹ * q.2 ^ ((q.1.1 : ℝ) - 1) * (1 - q.2) ^ ((q.1.2 : ℝ) - 1) else 0 := by
    funext q
    simp only [Function.uncurry, priorAt, Beta.dist, Cont.pdf, sub_zero, div_one, Family.std, betaFn, inv_div]
  rw [e]
  refine Measurable.ite ?_ (by fun_prop) measurable_const
  exact measurableSet_le measurable_const measurable_snd |>.inter (measurableSet_le measurable_snd measurable_const)

theorem binomial_beta_shift (n x : ℕ) (hx : x ≤ n) (h : PosPair) :
    binomial_beta (n : ℝ) x (priorAt h) =
      priorAt (shiftPair x (n - x) (Nat.cast_nonneg x) (sub_nonneg.2 (by exact_mod_cast hx)) h) := by
  simp only [binomial_beta, getBinomialBetaPosteriorParams, priorAt, shiftPair]

theorem measurable_binomial_lik (n x : ℕ) (hx : x ≤ n) : Measurable fun p : ℝ => (Binomial.dist ⟨(n : ℝ), p⟩).pmf x := by
  simp only [Binomial.pmf_nat n x hx]
  fun_prop

theorem pymcGamma_prob {a b : ℝ} (ha : 0 < a) (hb : 0 < b) : IsProbabilityMeasure (pymcGamma a b) := by
  have hp := lawOn_prob measurableSet_Ioi (Gamma.isDensity ⟨a, b⟩ ha hb)
  refine ⟨?_⟩
  rw [pymcGamma, (MeasurableEmbedding.subtype_coe measurableSet_Ioi).comap_apply, image_univ, Subtype.range_coe]
  exact (prob_compl_eq_zero_iff measurableSet_Ioi).1 (ae_lawOn_mem measurableSet_Ioi _)

theorem pymcGamma_openPos {a b : ℝ} (ha : 0 < a) (hb : 0 < b) : (pymcGamma a b).IsOpenPosMeasure := by
  refine ⟨fun U hU hne h0 => ?_⟩
  rw [pymcGamma, (MeasurableEmbedding.subtype_coe measurableSet_Ioi).comap_apply, lawOn,
    withDensity_apply_eq_zero' (Gamma.isDensity ⟨a, b⟩ ha hb).2.1.aestronglyMeasurable.aemeasurable.ennreal_ofReal] at h0
  have hV : IsOpen ((↑) '' U : Set ℝ) := isOpen_Ioi.isOpenMap_subtype_val U hU
  have hsub : ((↑) '' U : Set ℝ) ⊆ Ioi 0 := by rintro _ ⟨y, -, rfl⟩; exact y.2
  have hpos : ∀ x ∈ ((↑) '' U : Set ℝ), 0 < (Gamma.dist ⟨a, b⟩).pdf x := by
    intro x hx
    have hx0 : 0 < x := hsub hx
    have := Real.Gamma_pos_of_pos ha
    rw [Gamma.pdf_eq ⟨a, b⟩ hb hx0]
    positivity
  have e : {x | ENNReal.ofReal ((Gamma.dist ⟨a, b⟩).pdf x) ≠ 0} ∩ ((↑) '' U : Set ℝ) = ((↑) '' U : Set ℝ) := by
    refine inter_eq_right.2 fun x hx => ?_
    simpa using hpos x hx
  rw [e, Measure.restrict_apply hV.measurableSet, inter_eq_left.2 hsub] at h0
  exact (hV.measure_pos volume (hne.image _)).ne' h0

/-- the evidence of `x` successes in `n` -/
theorem evidence_eq (n x : ℕ) (h : PosPair) :
    evidence (Ioo 0 1) (fun h => (priorAt h).dist.pdf) (fun p => (Binomial.dist ⟨(n : ℝ), p⟩).pmf x) h =
      (binomial_beta_predictive (n : ℝ) (priorAt h)).dist.pmf x := by
  rw [(C24_binomial_beta_predictive n (priorAt h) h.1.2 h.2.2 x).2, evidence]
  simp only [mul_comm]

theorem predictive_pmf_eq (n x : ℕ) (hx : x ≤ n) (h : PosPair) :
    (binomial_beta_predictive (n : ℝ) (priorAt h)).dist.pmf x =
      n.choose x * betaFn (h.1 + x) (h.2 + (n - x)) / betaFn h.1 h.2 := by
  simp only [binomial_beta_predictive, priorAt, BetaBinomial.dist, Disc.pmf, sub_zero, DiscFamily.pmf0]
  rw [if_pos (by constructor <;> simp [hx]), Int.cast_natCast, choose_natCast hx, add_comm (x : ℝ), add_comm ((n : ℝ) - x)]

theorem continuous_predictive_pmf (n x : ℕ) (hx : x ≤ n) :
    Continuous fun h : PosPair => (binomial_beta_predictive (n : ℝ) (priorAt h)).dist.pmf x := by
  simp only [predictive_pmf_eq n x hx]
  have h1 := continuous_betaFn.comp
    (continuous_shiftPair x (n - x) (Nat.cast_nonneg x) (sub_nonneg.2 (by exact_mod_cast hx)))
  exact (continuous_const.mul h1).div continuous_betaFn fun h => (betaFn_pos h.1.2 h.2.2).ne'

theorem predictive_pmf_pos (n x : ℕ) (hx : x ≤ n) (h : PosPair) :
    0 < (binomial_beta_predictive (n : ℝ) (priorAt h)).dist.pmf x := by
  have hnx : (0 : ℝ) ≤ n - x := sub_nonneg.2 (by exact_mod_cast hx)
  have h1 := h.1.2
  have h2 := h.2.2
  rw [mem_Ioi] at h1 h2
  rw [predictive_pmf_eq n x hx]
  have hb := betaFn_pos h1 h2
  have hb' := betaFn_pos (a := h.1 + x) (b := h.2 + (n - x)) (by positivity) (by positivity)
  have : (0 : ℝ) < n.choose x := by exact_mod_cast Nat.choose_pos hx
  positivity

theorem tendsto_ratio_zero (K : ℝ) {m k : ℕ} (hm : 1 ≤ m) (hk : 1 ≤ k) :
    Tendsto (fun t : ℝ => t * (K * Real.Gamma (t + m) / Real.Gamma (t + k))) (𝓝[>] 0) (𝓝 0) := by
  have hG : ∀ j : ℕ, 1 ≤ j → ContinuousAt (fun t : ℝ => Real.Gamma (t + j)) 0 := by
    intro j hj
    have hj' : (1 : ℝ) ≤ j := by exact_mod_cast hj
    have h : ContinuousAt Real.Gamma ((0 : ℝ) + j) := (Real.differentiableAt_Gamma fun i => by
      have : (0 : ℝ) ≤ i := i.cast_nonneg
      linarith).continuousAt
    exact ContinuousAt.comp (f := fun t : ℝ => t + (j : ℝ)) h (by fun_prop)
  have hne : Real.Gamma ((0 : ℝ) + k) ≠ 0 := by
    have : (0 : ℝ) < k := by exact_mod_cast hk
    exact (Real.Gamma_pos_of_pos (by linarith)).ne'
  have hc : ContinuousAt (fun t : ℝ => t * (K * Real.Gamma (t + m) / Real.Gamma (t + k))) 0 :=
    continuousAt_id.mul ((continuousAt_const.mul (hG m hm)).div (hG k hk) hne)
  have := hc.tendsto
  simp only [zero_mul] at this
  exact this.mono_left nhdsWithin_le_nhds

theorem predictive_not_const (n x : ℕ) (hn : 1 ≤ n) (hx : x ≤ n) :
    ¬ ∃ c, ∀ h : PosPair, (binomial_beta_predictive (n : ℝ) (priorAt h)).dist.pmf x = c := by
  rintro ⟨c, hc⟩
  have hcpos : 0 < c := by
    rw [← hc (⟨1, mem_Ioi.2 one_pos⟩, ⟨1, mem_Ioi.2 one_pos⟩)]
    exact predictive_pmf_pos n x hx _
  have hlim : ∃ (K : ℝ) (m k : ℕ), 1 ≤ m ∧ 1 ≤ k ∧ ∀ t : ℝ, 0 < t → c = t * (K * Real.Gamma (t + m) / Real.Gamma (t + k)) := by
    rcases Nat.eq_zero_or_pos x with rfl | hx1
    · refine ⟨1, n, n + 1, hn, by omega, fun t ht => ?_⟩
      rw [← hc (⟨1, mem_Ioi.2 one_pos⟩, ⟨t, ht⟩), predictive_pmf_eq n 0 hx]
      have g1 := Real.Gamma_pos_of_pos ht
      have g2 : 0 < Real.Gamma (t + ((n + 1 : ℕ) : ℝ)) := Real.Gamma_pos_of_pos (by positivity)
      have e : (1 : ℝ) + (t + n) = t + ((n + 1 : ℕ) : ℝ) := by push_cast; ring
      simp only [betaFn, Nat.choose_zero_right, Nat.cast_zero, Nat.cast_one, add_zero, sub_zero, Real.Gamma_one, one_mul, e,
        add_comm 1 t, Real.Gamma_add_one ht.ne']
      field_simp
    · refine ⟨n.choose x * Real.Gamma (1 + (n - x)), x, n + 1, hx1, by omega, fun t ht => ?_⟩
      rw [← hc (⟨t, ht⟩, ⟨1, mem_Ioi.2 one_pos⟩), predictive_pmf_eq n x hx]
      have g1 := Real.Gamma_pos_of_pos ht
      have g2 : 0 < Real.Gamma (t + ((n + 1 : ℕ) : ℝ)) := Real.Gamma_pos_of_pos (by positivity)
      have e : t + (x : ℝ) + (1 + (n - x)) = t + ((n + 1 : ℕ) : ℝ) := by push_cast; ring
      simp only [betaFn, e, Real.Gamma_one, mul_one, Real.Gamma_add_one ht.ne']
      field_simp
  obtain ⟨K, m, k, hm, hk, h⟩ := hlim
  have h1 : Tendsto (fun _ : ℝ => c) (𝓝[>] 0) (𝓝 0) :=
    (tendsto_ratio_zero K hm hk).congr' (by filter_upwards [self_mem_nhdsWithin] with t ht using (h t ht).symm)
  exact hcpos.ne' (tendsto_nhds_unique tendsto_const_nhds h1)

end Conj
