import Verif.Lemmas.Joint
import Verif.Lemmas.TwoStage
import Mathlib.MeasureTheory.Measure.Lebesgue.EqHaar

/-! Rows of samples of independent groups. -/

open MeasureTheory Set

namespace Conj

open Scipy Spec

variable {k : ℕ} {X : Type} {ι : Type} {P : Measure Stream} [IsProbabilityMeasure P]

theorem box_isDensity {S : Set ℝ} {post : Fin k → ℝ → ℝ} (hd : ∀ i, IsDensity volume S (post i)) :
    IsDensity volume (box k S) fun θ => ∏ i, post i (θ i) := by
  refine ⟨fun θ hθ => Finset.prod_nonneg fun i _ => (hd i).1 _ (hθ i (mem_univ i)), ?_, ?_⟩
  · rw [IntegrableOn, volume_pi, Measure.restrict_pi_pi]
    exact Integrable.fintype_prod fun i => (hd i).2.1
  · rw [volume_pi, Measure.restrict_pi_pi]
    refine (integral_fintype_prod_eq_prod post).trans ?_
    exact Finset.prod_eq_one fun i _ => (hd i).2.2

/-- everything there is to know about a vectorised posterior follows from its entries -/
theorem jointly_right (lib : FrozenSamplers ι) (hlib : CorrectFrozen lib P) {S : Set ℝ} (hS : MeasurableSet S)
    {prior : Fin k → ℝ → ℝ} {post : Fin k → Cont} {f : Fin k → ℝ → X → ℝ} {h : List (Fin k × X)}
    (each : ∀ i, IsPosterior volume S (prior i) (likelihood (f i) (observed h i)) (post i).pdf)
    (law : ∀ i, contLaw (post i) = lawOn S (post i).pdf) (hm : ∀ i, Measurable (post i).pdf)
    (hd : ∀ i, IsDensity volume S (post i).pdf) (size : ℕ) :
    JointlyRight P S prior (groupLikelihood f h) (fun i => (post i).pdf) size
      (rvsRows lib (fun i => lib.cont (post i)) size) := by
  have hpost : IsPosterior volume (box k S) (fun θ => ∏ i, prior i (θ i)) (groupLikelihood f h)
      fun θ => ∏ i, (post i).pdf (θ i) := by
    have e : groupLikelihood f h = fun θ => ∏ i, likelihood (f i) (observed h i) (θ i) :=
      funext (groupLikelihood_eq f h)
    rw [e]
    exact joint_posterior each
  have hbox : MeasurableSet (box k S) := MeasurableSet.univ_pi fun _ => hS
  have hden := box_isDensity hd
  have hlaw : (Measure.pi fun i => contLaw (post i)) = lawOn (box k S) fun θ =>
      (∏ i, prior i (θ i)) * groupLikelihood f h θ /
        ∫ t in box k S, (∏ i, prior i (t i)) * groupLikelihood f h t := by
    simp only [law]
    rw [pi_lawOn hS hm hd]
    exact lawOn_congr hbox hpost.2
  have hpr : ∀ i, IsProbabilityMeasure (contLaw (post i)) := fun i => by
    rw [law i]; exact lawOn_prob hS (hd i)
  have hiid : FreshRun (rvsRows lib (fun i => lib.cont (post i)) size) fun f' =>
      IIDSampleThen P size f' (Measure.pi fun i => contLaw (post i)) := by
    have h1 : ∀ i, SamplesEach P (fun _ : Unit => lib.cont (post i)) univ fun _ => contLaw (post i) := fun i =>
      hlib.cont (fun _ : Unit => post i) univ ((hm i).comp measurable_snd) fun _ _ => hpr i
    have h2 := iid_replicate (vec_samples (d := fun (_ : Unit) i => lib.cont (post i)) h1) (mem_univ ()) size
    exact ⟨fun _ => h2, fun _ => h2⟩
  refine ⟨hpost, by rw [← hlaw]; exact hiid, fun B hB h0 => ?_⟩
  refine (Spec.FreshRun.iid hiid).imp (fun g w => ?_) (fun g w => ?_)
  all_goals
    obtain ⟨Y, hY, hf, hmap⟩ := g w
    intro ε hε
    have hp : posteriorProb (box k S) (fun θ => ∏ i, prior i (θ i)) (groupLikelihood f h) B =
        (Measure.pi (fun i => contLaw (post i)) B).toReal := by
      simp only [law]
      rw [pi_lawOn hS hm hd, lawOn_toReal hbox hden hB, posteriorProb, ← integral_div]
      exact setIntegral_congr_fun (hbox.inter hB) fun θ hθ => (hpost.2 θ hθ.1).symm
    simp only [hf, hp]
    refine le_trans ?_ (share_close (Measure.pi fun i => contLaw (post i)) h0 hB hε)
    rw [← hmap]
    exact Measure.le_map_apply hY.aemeasurable
      {x | ε ≤ |share B (List.ofFn x) - (Measure.pi (fun i => contLaw (post i)) B).toReal|}

/-! ## The best group -/

/-- `i` is the first position of the greatest entry -/
def IsArgmax (l : List ℝ) (i : ℕ) : Prop :=
  i < l.length ∧ (∀ j < l.length, l.getD j 0 ≤ l.getD i 0) ∧ ∀ j < i, l.getD j 0 < l.getD i 0

theorem argmax_spec (l : List ℝ) (hl : l ≠ []) : ∃ i, argmax l = .ok i ∧ IsArgmax l i := by
  induction l with
  | nil => exact absurd rfl hl
  | cons x l ih =>
    cases l with
    | nil =>
      refine ⟨0, rfl, by simp, ?_, by simp⟩
      intro j hj
      have : j = 0 := by simpa using hj
      subst this; rfl
    | cons y l =>
      obtain ⟨i, hi, hlt, hmax, hfirst⟩ := ih (by simp)
      have e : argmax (x :: y :: l) = .ok (if (y :: l).getD i 0 ≤ x then 0 else i + 1) := by
        rw [argmax, hi]
        simp
      refine ⟨_, e, ?_⟩
      split_ifs with hx
      · refine ⟨by simp, ?_, by simp⟩
        intro j hj
        cases j with
        | zero => rfl
        | succ j =>
          simp only [List.getD_cons_zero, List.getD_cons_succ]
          exact (hmax j (by simpa using hj)).trans hx
      · push Not at hx
        refine ⟨by simpa using hlt, ?_, ?_⟩
        · intro j hj
          cases j with
          | zero => simpa only [List.getD_cons_zero, List.getD_cons_succ] using hx.le
          | succ j =>
            simp only [List.getD_cons_succ]
            exact hmax j (by simpa using hj)
        · intro j hj
          cases j with
          | zero => simpa only [List.getD_cons_zero, List.getD_cons_succ] using hx
          | succ j =>
            simp only [List.getD_cons_succ]
            exact hfirst j (by omega)

theorem argmax_unique {l : List ℝ} {i j : ℕ} (hi : IsArgmax l i) (hj : IsArgmax l j) : i = j := by
  rcases lt_trichotomy i j with h | h | h
  · exact absurd (hi.2.1 j hj.1) (not_le.2 (hj.2.2 i h))
  · exact h
  · exact absurd (hj.2.1 i hi.1) (not_le.2 (hi.2.2 j h))

theorem getD_ofFn (r : Fin k → ℝ) (i : Fin k) : (List.ofFn r).getD i.val 0 = r i := by
  simp [List.getD_eq_getElem?_getD]

/-- when `np.argmax` of a row is `i` -/
theorem argmax_eq_iff (r : Fin k → ℝ) (i : Fin k) :
    argmax (List.ofFn r) = .ok i.val ↔ (∀ j, r j ≤ r i) ∧ ∀ j, j < i → r j < r i := by
  have hne : List.ofFn r ≠ [] := by
    intro h
    have h' := congrArg List.length h
    simp only [List.length_ofFn, List.length_nil] at h'
    exact absurd i.isLt (by omega)
  obtain ⟨m, hm, hs⟩ := argmax_spec (List.ofFn r) hne
  have key : IsArgmax (List.ofFn r) i.val ↔ (∀ j, r j ≤ r i) ∧ ∀ j, j < i → r j < r i := by
    constructor
    · rintro ⟨_, h2, h3⟩
      refine ⟨fun j => ?_, fun j hj => ?_⟩
      · have := h2 j.val (by simp)
        rwa [getD_ofFn, getD_ofFn] at this
      · have := h3 j.val hj
        rwa [getD_ofFn, getD_ofFn] at this
    · rintro ⟨h2, h3⟩
      refine ⟨by simp, fun j hj => ?_, fun j hj => ?_⟩
      · have hj' : j < k := by simpa using hj
        have := getD_ofFn r ⟨j, hj'⟩
        simp only at this
        rw [this, getD_ofFn]; exact h2 _
      · have hj' : j < k := hj.trans i.isLt
        have := getD_ofFn r ⟨j, hj'⟩
        simp only at this
        rw [this, getD_ofFn]; exact h3 _ hj
  rw [← key, hm]
  constructor
  · intro e
    rw [← Except.ok.inj e]; exact hs
  · intro e
    rw [argmax_unique hs e]

/-- the rows on which `np.argmax` is `i` -/
def argmaxSet (i : Fin k) : Set (Fin k → ℝ) := {r | argmax (List.ofFn r) = .ok i.val}

theorem measurableSet_argmaxSet (i : Fin k) : MeasurableSet (argmaxSet i) := by
  have : argmaxSet i = (⋂ j, {r : Fin k → ℝ | r j ≤ r i}) ∩ ⋂ j, {r | j < i → r j < r i} := by
    ext r
    simp only [argmaxSet, mem_ofPred_eq, argmax_eq_iff, mem_inter_iff, mem_iInter]
  rw [this]
  refine (MeasurableSet.iInter fun j => measurableSet_le (measurable_pi_apply j) (measurable_pi_apply i)).inter
    (MeasurableSet.iInter fun j => ?_)
  by_cases hj : j < i
  · simpa only [hj, true_imp_iff] using measurableSet_lt (measurable_pi_apply j) (measurable_pi_apply i)
  · simp [hj]

/-- ties have no volume -/
theorem volume_tie {i j : Fin k} (hij : i ≠ j) : (volume : Measure (Fin k → ℝ)) {r | r i = r j} = 0 := by
  let L : (Fin k → ℝ) →ₗ[ℝ] ℝ := LinearMap.proj (R := ℝ) (φ := fun _ : Fin k => ℝ) i - LinearMap.proj (R := ℝ) (φ := fun _ : Fin k => ℝ) j
  have e : {r : Fin k → ℝ | r i = r j} = (LinearMap.ker L : Set (Fin k → ℝ)) := by
    ext r
    simp [L, sub_eq_zero]
  rw [e]
  refine Measure.addHaar_submodule _ _ fun h => ?_
  have h1 : Pi.single i (1 : ℝ) ∈ LinearMap.ker L := by rw [h]; trivial
  simp [L, hij.symm] at h1

theorem argmaxSet_ae (i : Fin k) : (argmaxSet i : Set (Fin k → ℝ)) =ᵐ[volume] IsBest i := by
  have ht : ∀ᵐ r : Fin k → ℝ, ∀ j, j ≠ i → r j ≠ r i := by
    rw [ae_all_iff]
    intro j
    by_cases h : j = i
    · simp [h]
    · have : ∀ᵐ r : Fin k → ℝ, r j ≠ r i := by
        rw [ae_iff]; simpa using volume_tie h
      exact this.mono fun r hr _ => hr
  filter_upwards [ht] with r hr
  refine propext ?_
  change argmax (List.ofFn r) = .ok i.val ↔ ∀ j, j ≠ i → r j < r i
  rw [argmax_eq_iff]
  constructor
  · rintro ⟨h, _⟩ j hj
    exact lt_of_le_of_ne (h j) (hr j hj)
  · intro h
    refine ⟨fun j => ?_, fun j hj => h j hj.ne⟩
    by_cases hj : j = i
    · rw [hj]
    · exact (h j hj).le

theorem posteriorProb_best (S : Set (Fin k → ℝ)) (prior lik : (Fin k → ℝ) → ℝ) (i : Fin k) :
    posteriorProb S prior lik (argmaxSet i) = posteriorProb S prior lik (IsBest i) := by
  rw [posteriorProb, posteriorProb]
  congr 1
  exact setIntegral_congr_set ((Filter.EventuallyEq.refl _ S).inter (argmaxSet_ae i))

theorem mostEngaged_eq (rows : List (Fin k → ℝ)) (i : Fin k) : (mostEngaged rows i).getD 0 = share (argmaxSet i) rows := by
  classical
  have e : (rows.map fun r => argmax (List.ofFn r)).countP (fun b => decide (b = .ok i.val)) =
      rows.countP fun r => decide (r ∈ argmaxSet i) := by
    rw [List.countP_map]
    exact List.countP_congr fun r _ => by
      rw [Function.comp_apply, decide_eq_true_iff, decide_eq_true_iff]; rfl
  simp only [mostEngaged, share, e, List.length_map]
  split_ifs with h
  · simp only [h]; simp
  · rfl

end Conj
