import Verif.Lemmas.DirMultMerge
import Verif.UnitsSpec
import Verif.Props.Dirichlet
import Verif.Props.Identifiable
import Verif.Props.IdentifiableDiscrete
import Verif.Props.Monotone
import Mathlib.MeasureTheory.Function.AEEqOfIntegral
import Mathlib.MeasureTheory.Measure.OpenPos

/-!
# C102: renaming and merging categories
-/

open MeasureTheory Set Real

namespace Conj

open Spec Scipy

variable {k l : ℕ}

/-! ### Set probabilities determine a continuous density -/

theorem eqOn_of_setIntegral {X : Type*} [TopologicalSpace X] [MeasurableSpace X] [BorelSpace X] {μ : Measure X}
    [μ.IsOpenPosMeasure] {U : Set X} (hU : IsOpen U) {f f' : X → ℝ} (hf : IntegrableOn f U μ) (hf' : IntegrableOn f' U μ)
    (hc : ContinuousOn f U) (hc' : ContinuousOn f' U)
    (h : ∀ S, MeasurableSet S → ∫ x in U ∩ S, f x ∂μ = ∫ x in U ∩ S, f' x ∂μ) : EqOn f f' U := by
  refine Measure.eqOn_open_of_ae_eq (μ := μ) ?_ hU hc hc'
  refine Integrable.ae_eq_of_forall_setIntegral_eq f f' hf hf' fun S hS _ => ?_
  rw [Measure.restrict_restrict hS, inter_comm]
  exact h S hS

theorem isOpen_simplex (k : ℕ) : IsOpen (simplex k) := by
  have : simplex k = (⋂ i, {p : Fin k → ℝ | 0 < p i}) ∩ {p | ∑ i, p i < 1} := by
    ext p; simp [simplex]
  rw [this]
  exact (isOpen_iInter_of_finite fun i => isOpen_lt continuous_const (continuous_apply i)).inter
    (isOpen_lt (continuous_finsetSum _ fun i _ => continuous_apply i) continuous_const)

theorem continuous_fullVector : Continuous (fullVector : (Fin k → ℝ) → Fin (k + 1) → ℝ) := by
  refine continuous_pi fun j => ?_
  refine Fin.lastCases ?_ (fun i => ?_) j
  · simp only [fullVector, Fin.snoc_last]; fun_prop
  · simp only [fullVector, Fin.snoc_castSucc]; exact continuous_apply i

theorem continuousOn_dirichlet (d : Dirichlet (Fin (k + 1) → ℝ)) :
    ContinuousOn (fun p => d.pdf (fullVector p)) (simplex k) := by
  simp only [Dirichlet.pdf, dirichletPdf]
  refine continuousOn_const.mul (continuousOn_finsetProd _ fun i _ => ?_)
  exact ContinuousOn.rpow_const (((continuous_apply i).comp continuous_fullVector).continuousOn) fun p hp =>
    Or.inl (fullVector_pos hp i).ne'

theorem fullVector_init {q : Fin (k + 1) → ℝ} (hs : ∑ i, q i = 1) : fullVector (fun i : Fin k => q i.castSucc) = q := by
  funext j
  refine Fin.lastCases ?_ (fun i => ?_) j
  · simp only [fullVector, Fin.snoc_last]
    rw [Fin.sum_univ_castSucc] at hs
    linarith
  · simp only [fullVector, Fin.snoc_castSucc]

theorem init_mem_simplex {q : Fin (k + 1) → ℝ} (hq : ∀ i, 0 < q i) (hs : ∑ i, q i = 1) :
    (fun i : Fin k => q i.castSucc) ∈ simplex k := by
  refine ⟨fun i => hq _, ?_⟩
  rw [Fin.sum_univ_castSucc] at hs
  have := hq (Fin.last k)
  linarith

/-- two Dirichlet distributions that agree on every event are the same -/
theorem Dirichlet.ext_of_prob (d d' : Dirichlet (Fin (l + 2) → ℝ)) (hd : ∀ i, 0 < d.alpha i) (hd' : ∀ i, 0 < d'.alpha i)
    (h : ∀ B : Set (Fin (l + 2) → ℝ), MeasurableSet B →
      ∫ p in {p ∈ simplex (l + 1) | fullVector p ∈ B}, d.pdf (fullVector p) =
        ∫ p in {p ∈ simplex (l + 1) | fullVector p ∈ B}, d'.pdf (fullVector p)) : d = d' := by
  have hE : EqOn (fun p => d.pdf (fullVector p)) (fun p => d'.pdf (fullVector p)) (simplex (l + 1)) := by
    refine eqOn_of_setIntegral (isOpen_simplex _) (dirichlet_isDensity _ hd).2.1 (dirichlet_isDensity _ hd').2.1
      (continuousOn_dirichlet d) (continuousOn_dirichlet d') fun S hS => ?_
    have hB : MeasurableSet {q : Fin (l + 2) → ℝ | (fun i : Fin (l + 1) => q i.castSucc) ∈ S} :=
      (measurable_pi_lambda _ fun i => measurable_pi_apply _) hS
    have e : {p ∈ simplex (l + 1) | fullVector p ∈ {q : Fin (l + 2) → ℝ | (fun i : Fin (l + 1) => q i.castSucc) ∈ S}} =
        simplex (l + 1) ∩ S := by
      ext p
      simp [fullVector]
    have := h _ hB
    rwa [e] at this
  refine C97_dirichlet d d' hd hd' fun q hq hs => ?_
  have := hE (init_mem_simplex hq hs)
  simpa only [fullVector_init hs] using this

/-! ### Merging categories -/

theorem dirInt_toReal (α : Fin (k + 1) → ℝ) (hα : ∀ i, 0 < α i) {C : Set (Fin (k + 1) → ℝ)} (hC : MeasurableSet C) :
    ∫ p in {p ∈ simplex k | fullVector p ∈ C}, (Dirichlet.mk α).pdf (fullVector p) =
      (dirInt α (C.indicator 1)).toReal := by
  have hS : MeasurableSet {p ∈ simplex k | fullVector p ∈ C} := (measurableSet_simplex k).inter (measurable_fullVector' hC)
  have hd := dirichlet_isDensity α hα
  have e1 : {p ∈ simplex k | fullVector p ∈ C} = simplex k ∩ fullVector ⁻¹' C := rfl
  simp only [Dirichlet.pdf]
  rw [integral_eq_lintegral_of_nonneg_ae
    ((ae_restrict_iff' hS).2 (Filter.Eventually.of_forall fun p hp => hd.1 p hp.1))
    ((hd.2.1.mono_set (fun p hp => hp.1)).aestronglyMeasurable)]
  congr 1
  rw [dirInt, e1, inter_comm, ← Measure.restrict_restrict (measurable_fullVector' hC), ← lintegral_indicator
    (measurable_fullVector' hC)]
  refine lintegral_congr fun p => ?_
  by_cases hp : fullVector p ∈ C
  · rw [indicator_of_mem (show p ∈ fullVector ⁻¹' C from hp), indicator_of_mem hp]
    simp
  · rw [indicator_of_notMem (show p ∉ fullVector ⁻¹' C from hp), indicator_of_notMem hp, mul_zero]

/-- C102. The group probabilities of a Dirichlet distribution are Dirichlet with the group totals of `alpha`. -/
theorem C102_dirichlet (g : Fin (k + 1) → Fin (l + 1)) (hg : Function.Surjective g) (d : Dirichlet (Fin (k + 1) → ℝ))
    (hd : ∀ i, 0 < d.alpha i) : Merged g d.pdf (Dirichlet.mk (groupTotals g d.alpha)).pdf := by
  intro B hB
  have h1 := dirInt_toReal d.alpha hd (measurable_groupTotals (M := ℝ) g hB)
  have h2 := dirInt_toReal (groupTotals g d.alpha) (groupTotals_pos hg hd) hB
  refine (h1.trans ?_).trans h2.symm
  rw [← dirInt_groupTotals g hg d.alpha hd (B.indicator 1) (measurable_one.indicator hB)]
  rfl

/-- a prior over at least two groups that agrees with the prior over the categories has the group totals of `alpha` -/
theorem Merged.alpha {g : Fin (k + 1) → Fin (l + 2)} (hg : Function.Surjective g) {d : Dirichlet (Fin (k + 1) → ℝ)}
    {d' : Dirichlet (Fin (l + 2) → ℝ)} (hd : ∀ i, 0 < d.alpha i) (hd' : ∀ i, 0 < d'.alpha i) (h : Merged g d.pdf d'.pdf) :
    d' = ⟨groupTotals g d.alpha⟩ :=
  Dirichlet.ext_of_prob _ _ hd' (groupTotals_pos hg hd) fun B hB => (h B hB).symm.trans (C102_dirichlet g hg d hd B hB)

theorem groupTotals_add (g : Fin k → Fin l) (v w : Fin k → ℝ) :
    groupTotals g (fun i => v i + w i) = fun j => groupTotals g v j + groupTotals g w j := by
  funext j
  simp only [groupTotals]
  rw [← Finset.sum_add_distrib]
  exact Finset.sum_congr rfl fun i _ => by split_ifs <;> simp

theorem counts_map (g : Fin (k + 1) → Fin (l + 1)) (xs : List (Fin (k + 1))) :
    counts (xs.map g) = groupTotals g (counts xs) := by
  funext j
  simp only [groupTotals, counts]
  induction xs with
  | nil => simp
  | cons x xs ih =>
    simp only [List.map_cons, List.count_cons]
    have e : ∀ i, (if g i = j then ((xs.count i + if (x == i) = true then 1 else 0 : ℕ) : ℝ) else 0) =
        (if g i = j then (xs.count i : ℝ) else 0) + if i = x then (if g x = j then 1 else 0) else 0 := by
      intro i
      by_cases hix : i = x
      · subst hix; simp only [BEq.rfl, if_true]; split_ifs <;> simp
      · have : ¬ x = i := fun h => hix h.symm
        simp [hix, this]
    simp only [e, Finset.sum_add_distrib, ← ih, Finset.sum_ite_eq', Finset.mem_univ, if_true]
    by_cases hgx : g x = j
    · simp [hgx]
    · simp [hgx]

theorem columnSums_map (g : Fin (k + 1) → Fin (l + 1)) (data : List (Fin (k + 1) → ℕ)) :
    columnSums (data.map (groupTotals g)) = groupTotals g (columnSums data) := by
  funext j
  simp only [columnSums]
  induction data with
  | nil => simp [groupTotals, columnSums]
  | cons x data ih =>
    have e : columnSums (x :: data) = fun i => (x i : ℝ) + columnSums data i := by
      funext i; simp [columnSums]
    rw [e, groupTotals_add]
    simp only [List.map_cons, List.sum_cons, Nat.cast_add]
    rw [ih]
    congr 1
    simp only [groupTotals, Nat.cast_sum, Nat.cast_ite, Nat.cast_zero]

/-- C102, categories. Merging (or renaming) the categories before or after the update gives the same answer: if `prior'`
is the prior of the group probabilities, the posterior from the group of each observation is the posterior of the group
probabilities. -/
theorem C102_categorical_dirichlet (g : Fin (k + 1) → Fin (l + 2)) (hg : Function.Surjective g)
    {prior : Dirichlet (Fin (k + 1) → ℝ)} {prior' : Dirichlet (Fin (l + 2) → ℝ)} (hp : ∀ i, 0 < prior.alpha i)
    (hp' : ∀ i, 0 < prior'.alpha i) (h : Merged g prior.pdf prior'.pdf) (xs : List (Fin (k + 1))) :
    ∃ post post', categorical_dirichlet (counts xs) prior = .ok post ∧
      categorical_dirichlet (counts (xs.map g)) prior' = .ok post' ∧ Merged g post.pdf post'.pdf := by
  obtain rfl := Merged.alpha hg hp hp' h
  have hpos : ∀ i, 0 < prior.alpha i + counts xs i := fun i => by
    have : 0 ≤ counts xs i := Nat.cast_nonneg _
    linarith [hp i]
  refine ⟨⟨fun i => prior.alpha i + counts xs i⟩, ⟨fun j => groupTotals g prior.alpha j + counts (xs.map g) j⟩, rfl, rfl, ?_⟩
  have := C102_dirichlet g hg ⟨fun i => prior.alpha i + counts xs i⟩ hpos
  rwa [groupTotals_add, ← counts_map] at this

/-- C102, count vectors. -/
theorem C102_multinomial_dirichlet (g : Fin (k + 1) → Fin (l + 2)) (hg : Function.Surjective g)
    {prior : Dirichlet (Fin (k + 1) → ℝ)} {prior' : Dirichlet (Fin (l + 2) → ℝ)} (hp : ∀ i, 0 < prior.alpha i)
    (hp' : ∀ i, 0 < prior'.alpha i) (h : Merged g prior.pdf prior'.pdf) (data : List (Fin (k + 1) → ℕ)) :
    ∃ post post', multinomial_dirichlet (columnSums data) prior = .ok post ∧
      multinomial_dirichlet (columnSums (data.map (groupTotals g))) prior' = .ok post' ∧ Merged g post.pdf post'.pdf := by
  obtain rfl := Merged.alpha hg hp hp' h
  have hpos : ∀ i, 0 < prior.alpha i + columnSums data i := fun i => by
    have : 0 ≤ columnSums data i := Nat.cast_nonneg _
    linarith [hp i]
  refine ⟨⟨fun i => prior.alpha i + columnSums data i⟩,
    ⟨fun j => groupTotals g prior.alpha j + columnSums (data.map (groupTotals g)) j⟩, rfl, rfl, ?_⟩
  have := C102_dirichlet g hg ⟨fun i => prior.alpha i + columnSums data i⟩ hpos
  rwa [groupTotals_add, ← columnSums_map] at this

/-- the group counts of a Dirichlet-multinomial distribution -/
theorem C102_dirichlet_multinomial (g : Fin (k + 1) → Fin (l + 1)) (hg : Function.Surjective g) (α : Fin (k + 1) → ℝ)
    (hα : ∀ i, 0 < α i) (n : ℕ) :
    MergedCounts g (DirichletMultinomial.mk α (n : ℝ)).pmf (DirichletMultinomial.mk (groupTotals g α) (n : ℝ)).pmf := by
  intro y
  have h := dmInt_groupTotals n g hg α hα (({y} : Set (Fin (l + 1) → ℕ)).indicator 1)
  have h0 := dirichletMultinomialPmf_nonneg α hα n
  have h1 : dmInt n (groupTotals g α) (({y} : Set (Fin (l + 1) → ℕ)).indicator 1) =
      ENNReal.ofReal (dirichletMultinomialPmf (groupTotals g α) n y) := by
    rw [dmInt, tsum_eq_single y]
    · simp
    · intro x hx
      rw [indicator_of_notMem (by simpa using hx), mul_zero]
  have h2 : dmInt n α (fun q => ({y} : Set (Fin (l + 1) → ℕ)).indicator 1 (groupTotals g q)) =
      ∑' x : {x : Fin (k + 1) → ℕ // groupTotals g x = y}, ENNReal.ofReal (dirichletMultinomialPmf α n x) := by
    rw [dmInt]
    refine Eq.trans ?_ (tsum_subtype {x : Fin (k + 1) → ℕ | groupTotals g x = y}
      fun x => ENNReal.ofReal (dirichletMultinomialPmf α n x)).symm
    refine tsum_congr fun x => ?_
    by_cases hx : groupTotals g x = y
    · rw [indicator_of_mem (show groupTotals g x ∈ ({y} : Set _) from hx),
        indicator_of_mem (show x ∈ {x : Fin (k + 1) → ℕ | groupTotals g x = y} from hx)]
      simp
    · rw [indicator_of_notMem (show groupTotals g x ∉ ({y} : Set _) from hx),
        indicator_of_notMem (show x ∉ {x : Fin (k + 1) → ℕ | groupTotals g x = y} from hx), mul_zero]
  rw [h1, h2] at h
  have hs : Summable fun x : {x : Fin (k + 1) → ℕ // groupTotals g x = y} => dirichletMultinomialPmf α n x := by
    have := ENNReal.summable_toReal (f := fun x : {x : Fin (k + 1) → ℕ // groupTotals g x = y} =>
      ENNReal.ofReal (dirichletMultinomialPmf α n x)) (by rw [h]; exact ENNReal.ofReal_ne_top)
    simpa only [ENNReal.toReal_ofReal (h0 _)] using this
  have ht : ∑' x : {x : Fin (k + 1) → ℕ // groupTotals g x = y}, dirichletMultinomialPmf α n x =
      dirichletMultinomialPmf (groupTotals g α) n y := by
    rw [← ENNReal.ofReal_tsum_of_nonneg (fun x => h0 _) hs] at h
    exact (ENNReal.ofReal_eq_ofReal_iff (tsum_nonneg fun x => h0 _)
      (dirichletMultinomialPmf_nonneg _ (groupTotals_pos hg hα) n y)).1 h
  have := hs.hasSum
  rw [ht] at this
  exact this

/-- C102, predictive counts. -/
theorem C102_multinomial_dirichlet_predictive (g : Fin (k + 1) → Fin (l + 2)) (hg : Function.Surjective g)
    {d : Dirichlet (Fin (k + 1) → ℝ)} {d' : Dirichlet (Fin (l + 2) → ℝ)} (hd : ∀ i, 0 < d.alpha i)
    (hd' : ∀ i, 0 < d'.alpha i) (h : Merged g d.pdf d'.pdf) (n : ℕ) :
    MergedCounts g (multinomial_dirichlet_predictive d (n : ℝ)).pmf (multinomial_dirichlet_predictive d' (n : ℝ)).pmf := by
  obtain rfl := Merged.alpha hg hd hd' h
  exact C102_dirichlet_multinomial g hg d.alpha hd n

theorem C102_categorical_dirichlet_predictive (g : Fin (k + 1) → Fin (l + 2)) (hg : Function.Surjective g)
    {d : Dirichlet (Fin (k + 1) → ℝ)} {d' : Dirichlet (Fin (l + 2) → ℝ)} (hd : ∀ i, 0 < d.alpha i)
    (hd' : ∀ i, 0 < d'.alpha i) (h : Merged g d.pdf d'.pdf) (n : ℕ) :
    MergedCounts g (categorical_dirichlet_predictive d (n : ℝ)).pmf (categorical_dirichlet_predictive d' (n : ℝ)).pmf :=
  C102_multinomial_dirichlet_predictive g hg hd hd' h n

/-- three categories, the last two merged -/
example : ∃ post post', categorical_dirichlet (counts [0, 2, 2, 1]) (⟨![1, 2, 3]⟩ : Dirichlet (Fin 3 → ℝ)) = .ok post ∧
    categorical_dirichlet (counts ([0, 2, 2, 1].map ![0, 1, 1])) (⟨groupTotals ![0, 1, 1] ![1, 2, 3]⟩ : Dirichlet (Fin 2 → ℝ)) =
      .ok post' ∧ Merged ![0, 1, 1] post.pdf post'.pdf := by
  have hg : Function.Surjective (![0, 1, 1] : Fin 3 → Fin 2) := by decide
  have hp : ∀ i, (0 : ℝ) < (![1, 2, 3] : Fin 3 → ℝ) i := by intro i; fin_cases i <;> simp
  exact C102_categorical_dirichlet (k := 2) (l := 0) ![0, 1, 1] hg (prior := ⟨![1, 2, 3]⟩)
    (prior' := ⟨groupTotals ![0, 1, 1] ![1, 2, 3]⟩) hp (groupTotals_pos hg hp) (C102_dirichlet _ hg ⟨![1, 2, 3]⟩ hp) _

example : groupTotals (![0, 1, 1] : Fin 3 → Fin 2) (![1, 2, 3] : Fin 3 → ℝ) = ![1, 5] := by
  funext j; fin_cases j <;> simp [groupTotals, Fin.sum_univ_succ] <;> norm_num

/-- three categories renamed -/
example (n : ℕ) : MergedCounts ![2, 0, 1] (multinomial_dirichlet_predictive (⟨![1, 2, 3]⟩ : Dirichlet (Fin 3 → ℝ)) (n : ℝ)).pmf
    (multinomial_dirichlet_predictive (⟨groupTotals ![2, 0, 1] ![1, 2, 3]⟩ : Dirichlet (Fin 3 → ℝ)) (n : ℝ)).pmf := by
  have hg : Function.Surjective (![2, 0, 1] : Fin 3 → Fin 3) := by decide
  have hp : ∀ i, (0 : ℝ) < (![1, 2, 3] : Fin 3 → ℝ) i := by intro i; fin_cases i <;> simp
  exact C102_multinomial_dirichlet_predictive (k := 2) (l := 1) ![2, 0, 1] hg (d := ⟨![1, 2, 3]⟩)
    (d' := ⟨groupTotals ![2, 0, 1] ![1, 2, 3]⟩) hp (groupTotals_pos hg hp) (C102_dirichlet _ hg ⟨![1, 2, 3]⟩ hp) n

example (n : ℕ) : MergedCounts ![0, 1, 1] (categorical_dirichlet_predictive (⟨![1, 2, 3]⟩ : Dirichlet (Fin 3 → ℝ)) (n : ℝ)).pmf
    (categorical_dirichlet_predictive (⟨groupTotals ![0, 1, 1] ![1, 2, 3]⟩ : Dirichlet (Fin 2 → ℝ)) (n : ℝ)).pmf := by
  have hg : Function.Surjective (![0, 1, 1] : Fin 3 → Fin 2) := by decide
  have hp : ∀ i, (0 : ℝ) < (![1, 2, 3] : Fin 3 → ℝ) i := by intro i; fin_cases i <;> simp
  exact C102_categorical_dirichlet_predictive (k := 2) (l := 0) ![0, 1, 1] hg (d := ⟨![1, 2, 3]⟩)
    (d' := ⟨groupTotals ![0, 1, 1] ![1, 2, 3]⟩) hp (groupTotals_pos hg hp) (C102_dirichlet _ hg ⟨![1, 2, 3]⟩ hp) n

end Conj
