import Verif.Lemmas.BanditLaw
import Verif.Lemmas.DataMeans
import Verif.Lemmas.TwoStage
import Verif.Bandit
import Verif.Props.Thompson
import Mathlib.Analysis.SpecialFunctions.Gamma.Beta
import Mathlib.Probability.Independence.Basic
import Mathlib.Probability.Independence.InfinitePi

/-!
# The loop of the documentation: estimates are gamma distributions, the least sample is chosen
-/

open MeasureTheory Filter Topology

namespace Conj

open Scipy Spec

theorem measurable_gammaFn : Measurable Real.Gamma := by
  refine measurable_of_tendsto_metrizable (f := fun n s => Real.GammaSeq s n) (fun n => ?_)
    (tendsto_pi_nhds.2 fun s => Real.GammaSeq_tendsto_Gamma s)
  simp only [Real.GammaSeq]
  fun_prop

theorem measurable_gamma_pdf : Measurable fun q : (ℝ × ℝ) × ℝ => (Gamma.dist ⟨q.1.1, q.1.2⟩).pdf q.2 := by
  simp only [Gamma.dist, Cont.pdf, Family.std]
  have hG : Measurable fun q : (ℝ × ℝ) × ℝ => Real.Gamma q.1.1 := measurable_gammaFn.comp measurable_fst.fst
  refine Measurable.div (Measurable.ite ?_ ?_ measurable_const) (by fun_prop)
  · exact measurableSet_le measurable_const (by fun_prop)
  · fun_prop

theorem measurable_exponential_pdf (s : ℝ) : Measurable (Exponential.dist ⟨s⟩).pdf := by
  have : Measurable fun x : ℝ => Family.expon.std x := by
    simp only [Family.std]
    exact Measurable.ite measurableSet_Ici (by fun_prop) measurable_const
  exact measurable_pdf this _ _

theorem gamma_mass {a b : ℝ} (ha : 0 < a) (hb : 0 < b) {u v : ℝ} (hu : 0 ≤ u) (huv : u < v) :
    0 < contLaw (Gamma.dist ⟨a, b⟩) (Set.Ioo u v) := by
  have hm : Measurable fun x => (Gamma.dist ⟨a, b⟩).pdf x :=
    measurable_gamma_pdf.comp (g := fun q : (ℝ × ℝ) × ℝ => (Gamma.dist ⟨q.1.1, q.1.2⟩).pdf q.2)
      (f := fun x : ℝ => ((a, b), x)) (by fun_prop)
  rw [contLaw, withDensity_apply _ measurableSet_Ioo, setLIntegral_pos_iff hm.ennreal_ofReal]
  have : Set.Ioo u v ⊆ Function.support (fun x => ENNReal.ofReal ((Gamma.dist ⟨a, b⟩).pdf x)) := by
    intro x hx
    have hx0 : 0 < x := hu.trans_lt hx.1
    have hG := Real.Gamma_pos_of_pos ha
    rw [Function.mem_support, Gamma.pdf_eq ⟨a, b⟩ hb hx0]
    simp only [ne_eq, ENNReal.ofReal_eq_zero, not_le]
    positivity
  rw [Set.inter_eq_right.2 this, Real.volume_Ioo]
  simpa using huv

theorem gamma_both_sides {a b : ℝ} (ha : 0 < a) (hb : 0 < b) {c : ℝ} (hc : 0 < c) :
    0 < (contLaw (Gamma.dist ⟨a, b⟩)).real (Set.Iio c) ∧ 0 < (contLaw (Gamma.dist ⟨a, b⟩)).real (Set.Ioi c) := by
  have := gamma_prob ha hb
  refine ⟨ENNReal.toReal_pos (ne_of_gt ?_) (measure_ne_top _ _), ENNReal.toReal_pos (ne_of_gt ?_) (measure_ne_top _ _)⟩
  · exact (gamma_mass ha hb le_rfl hc).trans_le (measure_mono fun x hx => hx.2)
  · exact (gamma_mass ha hb hc.le (lt_add_one c)).trans_le (measure_mono fun x hx => hx.1)

theorem gamma_moments {a b : ℝ} (ha : 0 < a) (hb : 0 < b) :
    Loop.Moments (contLaw (Gamma.dist ⟨a, b⟩)) (a / b) (a / b / b) := by
  have hp := gamma_prob ha hb
  have hv : ∫⁻ x, ENNReal.ofReal ((x - a / b) ^ 2) ∂contLaw (Gamma.dist ⟨a, b⟩) = ENNReal.ofReal (a / b / b) := by
    rw [gamma_lawOn _ hb]
    have h := variance_of_tilt measurableSet_Ioi (Gamma.isDensity ⟨a, b⟩ ha hb)
      (Gamma.isDensity ⟨a + 1, b⟩ (by simp only; positivity) hb) (Gamma.isDensity ⟨a + 1 + 1, b⟩ (by simp only; positivity) hb)
      (fun x hx => Gamma.tilt ⟨a, b⟩ ha hb hx) (fun x hx => Gamma.tilt ⟨a + 1, b⟩ (by simp only; positivity) hb hx)
    rw [h]
    congr 1
    simp only
    field_simp
    ring
  refine ⟨?_, (gamma_expect ha hb).2, hv, by positivity⟩
  have h1 : MemLp (fun x : ℝ => x - a / b) 2 (contLaw (Gamma.dist ⟨a, b⟩)) := by
    rw [memLp_two_iff_integrable_sq (by fun_prop)]
    refine ⟨by fun_prop, ?_⟩
    rw [hasFiniteIntegral_iff_ofReal (Eventually.of_forall fun s => sq_nonneg _), hv]
    exact ENNReal.ofReal_lt_top
  have h2 := h1.add (memLp_const (a / b))
  have e : ((fun x : ℝ => x - a / b) + fun _ => a / b) = fun x => x := by funext x; simp
  rwa [e] at h2

theorem exponential_moments {s : ℝ} (hs : 0 < s) : Loop.Moments (contLaw (Exponential.dist ⟨s⟩)) s (s * s) := by
  have h := gamma_moments (a := 1) (b := 1 / s) one_pos (by positivity)
  rw [exponential_as_gamma hs]
  have e1 : 1 / (1 / s) = s := by field_simp
  have e2 : s / (1 / s) = s * s := by field_simp
  rw [e1, e2] at h
  exact h

section Argmin

variable {k : ℕ}

theorem ofFn_getD (r : Fin k → ℝ) (i : Fin k) : (List.ofFn r).getD i.val 0 = r i := by
  simp [List.getD_eq_getElem?_getD]

theorem exists_argmin (hk : 0 < k) (r : Fin k → ℝ) : ∃ i : Fin k, argmin (List.ofFn r) = .ok i.val ∧
    (∀ j, r i ≤ r j) ∧ ∀ j, j < i → r i < r j := by
  obtain ⟨g, hg, h1, h2, h3⟩ := argmin_spec (List.ofFn r) (by
    intro h; have := congrArg List.length h; simp at this; omega)
  have hgk : g < k := by simpa using h1
  refine ⟨⟨g, hgk⟩, hg, fun j => ?_, fun j hj => ?_⟩
  · have := h2 j.val (by simp)
    rwa [ofFn_getD r ⟨g, hgk⟩, ofFn_getD] at this
  · have := h3 j.val hj
    rwa [ofFn_getD r ⟨g, hgk⟩, ofFn_getD] at this

/-- the group `np.argmin` finds -/
noncomputable def least (hk : 0 < k) (r : Fin k → ℝ) : Fin k := (exists_argmin hk r).choose

theorem least_spec (hk : 0 < k) (r : Fin k → ℝ) : argmin (List.ofFn r) = .ok (least hk r).val ∧
    (∀ j, r (least hk r) ≤ r j) ∧ ∀ j, j < least hk r → r (least hk r) < r j := (exists_argmin hk r).choose_spec

theorem least_eq_iff (hk : 0 < k) (r : Fin k → ℝ) (i : Fin k) :
    least hk r = i ↔ (∀ j, r i ≤ r j) ∧ ∀ j, j < i → r i < r j := by
  obtain ⟨-, h1, h2⟩ := least_spec hk r
  constructor
  · rintro rfl; exact ⟨h1, h2⟩
  · rintro ⟨h3, h4⟩
    rcases lt_trichotomy (least hk r) i with h | h | h
    · exact absurd (h1 i) (not_le.2 (h4 _ h))
    · exact h
    · exact absurd (h3 _) (not_le.2 (h2 _ h))

theorem measurable_least (hk : 0 < k) : Measurable (least hk) := by
  refine measurable_to_countable' fun i => ?_
  have : least hk ⁻¹' {i} = (⋂ j, {r : Fin k → ℝ | r i ≤ r j}) ∩ ⋂ j, {r | j < i → r i < r j} := by
    ext r
    simp only [Set.mem_preimage, Set.mem_singleton_iff, least_eq_iff, Set.mem_inter_iff, Set.mem_iInter, Set.mem_ofPred_eq]
  rw [this]
  refine (MeasurableSet.iInter fun j => measurableSet_le (measurable_pi_apply i) (measurable_pi_apply j)).inter
    (MeasurableSet.iInter fun j => ?_)
  by_cases hj : j < i
  · simpa only [hj, true_imp_iff] using measurableSet_lt (measurable_pi_apply i) (measurable_pi_apply j)
  · simp [hj]

/-- independent draws from laws with densities do not tie -/
theorem pi_tie {d : Fin k → Cont} (hd : ∀ i, IsProbabilityMeasure (contLaw (d i))) {i j : Fin k} (hij : i ≠ j) :
    (Measure.pi fun i => contLaw (d i)) {r | r i = r j} = 0 := by
  have hind : ProbabilityTheory.iIndepFun (fun (i : Fin k) (r : Fin k → ℝ) => r i) (Measure.pi fun i => contLaw (d i)) :=
    ProbabilityTheory.iIndepFun_pi (X := fun _ x => x) fun i => aemeasurable_id
  have hp := (ProbabilityTheory.indepFun_iff_map_prod_eq_prod_map_map (measurable_pi_apply i).aemeasurable
    (measurable_pi_apply j).aemeasurable).1 (hind.indepFun hij)
  have e : ∀ i : Fin k, (Measure.pi fun i => contLaw (d i)).map (fun r => r i) = contLaw (d i) := fun i =>
    (measurePreserving_eval (fun i => contLaw (d i)) i).map_eq
  rw [e, e] at hp
  have hD : MeasurableSet {z : ℝ × ℝ | z.1 = z.2} := measurableSet_eq_fun measurable_fst measurable_snd
  have h1 := congrArg (fun μ : Measure (ℝ × ℝ) => μ {z | z.1 = z.2}) hp
  beta_reduce at h1
  rw [Measure.map_apply (by fun_prop) hD, Measure.prod_apply hD] at h1
  refine Eq.trans ?_ (h1.trans ?_)
  · rfl
  · refine (lintegral_congr fun x => ?_).trans lintegral_zero
    have : Prod.mk x ⁻¹' {z : ℝ × ℝ | z.1 = z.2} = {x} := by ext y; simp [eq_comm]
    rw [this]
    exact withDensity_absolutelyContinuous _ _ (measure_singleton x)

theorem least_strict {d : Fin k → Cont} (hd : ∀ i, IsProbabilityMeasure (contLaw (d i))) (hk : 0 < k) (i : Fin k) :
    (Measure.pi fun i => contLaw (d i)) {r | least hk r = i} =
      (Measure.pi fun i => contLaw (d i)) {r | ∀ j, j ≠ i → r i < r j} := by
  refine measure_congr ?_
  have ht : ∀ᵐ r ∂Measure.pi fun i => contLaw (d i), ∀ j, j ≠ i → r i ≠ r j := by
    rw [ae_all_iff]
    intro j
    by_cases h : j = i
    · simp [h]
    · have : ∀ᵐ r ∂Measure.pi fun i => contLaw (d i), r i ≠ r j := by
        rw [ae_iff]; simpa using pi_tie hd (Ne.symm h)
      exact this.mono fun r hr _ => hr
  filter_upwards [ht] with r hr
  refine propext ?_
  change least hk r = i ↔ ∀ j, j ≠ i → r i < r j
  rw [least_eq_iff]
  constructor
  · rintro ⟨h, _⟩ j hj
    exact lt_of_le_of_ne (h j) (hr j hj)
  · intro h
    refine ⟨fun j => ?_, fun j hj => h j hj.ne⟩
    by_cases hj : j = i
    · rw [hj]
    · exact (h j hj).le

end Argmin

end Conj
