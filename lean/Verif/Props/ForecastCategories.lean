import Verif.Props.DecisionPredictGuess
import Verif.Props.DecisionPredictVector
import Verif.Props.CalibrationMarginal

/-!
# C111 and C125 for categories: the number of new observations in a set of categories

`multinomial_dirichlet_predictive` and `categorical_dirichlet_predictive` predict the counts of all categories together.
Here is the count in one category, or in any set of them that leaves something out.
-/

open MeasureTheory Set Real

namespace Conj

open Scipy Spec

variable {Ω : Type} [MeasurableSpace Ω] {P : Measure Ω} {n k : ℕ}

/-- the number of observations in the categories of `A` -/
def inside (A : Finset (Fin (k + 1))) (x : Fin (k + 1) → ℕ) : ℝ := ∑ i ∈ A, (x i : ℝ)

theorem dirMult_inside {A : Finset (Fin (k + 1))} (hA : A.Nonempty) (hA' : Aᶜ.Nonempty)
    (d : Dirichlet (Fin (k + 1) → ℝ)) (hd : ∀ i, 0 < d.alpha i) (N : ℕ) :
    (pmfLaw (multinomial_dirichlet_predictive d (N : ℝ)).pmf).map (inside A) =
      discRealLaw (binomial_beta_predictive (N : ℝ) ⟨∑ i ∈ A, d.alpha i, ∑ i ∈ Aᶜ, d.alpha i⟩).dist := by
  have hv := valid_share hA hA' hd
  have hc : Measurable fun x : Fin (k + 1) → ℕ => ((∑ i ∈ A, x i : ℕ) : ℤ) := measurable_of_countable _
  have e : inside A = (fun z : ℤ => (z : ℝ)) ∘ fun x : Fin (k + 1) → ℕ => ((∑ i ∈ A, x i : ℕ) : ℤ) := by
    funext x
    simp [inside]
  rw [e, ← Measure.map_map (measurable_int _) hc, discRealLaw]
  congr 1
  refine Measure.ext_of_singleton fun z => ?_
  rw [Measure.map_apply hc (measurableSet_singleton z), discLaw, withDensity_apply _ (measurableSet_singleton z), pmfLaw,
    withDensity_apply _ (hc (measurableSet_singleton z))]
  simp only [Measure.restrict_singleton, Measure.count_singleton, one_smul, lintegral_dirac]
  rcases lt_or_ge z 0 with hz | hz
  · have h1 : (fun x : Fin (k + 1) → ℕ => ((∑ i ∈ A, x i : ℕ) : ℤ)) ⁻¹' {z} = ∅ := by
      ext x
      simp only [mem_preimage, mem_singleton_iff, mem_empty_iff_false, iff_false]
      omega
    rw [h1, Measure.restrict_empty, lintegral_zero_measure]
    simp only [binomial_beta_predictive, BetaBinomial.dist, Disc.pmf, sub_zero, DiscFamily.pmf0]
    rw [if_neg (by rintro ⟨h, -⟩; omega), ENNReal.ofReal_zero]
  · obtain ⟨m, rfl⟩ := Int.eq_ofNat_of_zero_le hz
    have h1 : (fun x : Fin (k + 1) → ℕ => ((∑ i ∈ A, x i : ℕ) : ℤ)) ⁻¹' {(m : ℤ)} = {x | ∑ i ∈ A, x i = m} := by
      ext x
      simp only [mem_preimage, mem_singleton_iff, mem_ofPred_eq]
      omega
    have h2 := C102_multinomial_dirichlet_share_predictive hA hA' hd hv (fun B hB => shareProb_eq hA hA' d hd hB) N m
    have h3 : ∀ x : {x : Fin (k + 1) → ℕ // ∑ i ∈ A, x i = m}, 0 ≤ (multinomial_dirichlet_predictive d (N : ℝ)).pmf x :=
      fun x => dirichletMultinomialPmf_nonneg _ hd N x.1
    rw [h1, ← h2.tsum_eq, ENNReal.ofReal_tsum_of_nonneg h3 h2.summable, lintegral_countable _ (to_countable _)]
    simp only [Measure.count_singleton, mul_one]
    rfl

/-- C111. The number of new observations in the categories of `A`: mean and variance of the prediction from the mean and variance
of the probability of `A` under the posterior. -/
theorem C111_multinomial_dirichlet {A : Finset (Fin (k + 1))} (hA : A.Nonempty) (hA' : Aᶜ.Nonempty)
    (d : Dirichlet (Fin (k + 1) → ℝ)) (hd : ∀ i, 0 < d.alpha i) (N : ℕ) :
    ∃ m v, MeanVar ((dirLaw d).map fun p => ∑ i ∈ A, fullVector p i) m v ∧
      MeanVar ((pmfLaw (multinomial_dirichlet_predictive d (N : ℝ)).pmf).map fun x => ∑ i ∈ A, (x i : ℝ)) (N * m)
        (N * (m * (1 - m) - v) + N ^ 2 * v) := by
  have hv := valid_share hA hA' hd
  have h := C111_binomial_beta N ⟨∑ i ∈ A, d.alpha i, ∑ i ∈ Aᶜ, d.alpha i⟩ hv.1 hv.2
  rw [← dirMult_inside hA hA' d hd N, ← dirLaw_share hA hA' d hd] at h
  exact h

/-- C111. The same after single category observations. -/
theorem C111_categorical_dirichlet {A : Finset (Fin (k + 1))} (hA : A.Nonempty) (hA' : Aᶜ.Nonempty)
    (d : Dirichlet (Fin (k + 1) → ℝ)) (hd : ∀ i, 0 < d.alpha i) (N : ℕ) :
    ∃ m v, MeanVar ((dirLaw d).map fun p => ∑ i ∈ A, fullVector p i) m v ∧
      MeanVar ((pmfLaw (categorical_dirichlet_predictive d (N : ℝ)).pmf).map fun x => ∑ i ∈ A, (x i : ℝ)) (N * m)
        (N * (m * (1 - m) - v) + N ^ 2 * v) :=
  C111_multinomial_dirichlet hA hA' d hd N

/-- losses that depend on a function of what is predicted -/
theorem Spec.LossesKept.through {A B : Type} [MeasurableSpace A] [MeasurableSpace B] {Y : Ω → B} {X : Ω → Fin n → A}
    {post : (Fin n → A) → Measure B} (h : LossesKept P Y X post) {g : B → ℝ} (hg : Measurable g) :
    LossesKept P (fun ω => g (Y ω)) X fun x => (post x).map g := by
  intro F hF
  have h1 := h (fun z => F (g z.1, z.2)) (hF.comp ((hg.comp measurable_fst).prodMk measurable_snd))
  rw [h1]
  refine lintegral_congr fun ω => ?_
  beta_reduce
  have h2 : Measurable fun t : ℝ => F (t, X ω) := hF.comp (measurable_id.prodMk measurable_const)
  rw [lintegral_map h2 hg]

/-- C125. After multinomial observations: the mean of the prediction of the number of new observations in a set of categories is the
best guess of it. -/
theorem C125_multinomial_dirichlet_guess (N N' : ℕ) (prior : Dirichlet (Fin (k + 1) → ℝ)) (hp : ∀ i, 0 < prior.alpha i)
    {θ : Ω → Fin k → ℝ} {X : Ω → Fin n → Fin (k + 1) → ℕ} {Y : Ω → Fin (k + 1) → ℕ}
    (h : DrawThenPredict P θ X Y (dirLaw prior) (fun _ p => pmfLaw (Multinomial.mk (N : ℝ) (fullVector p)).pmf)
      fun p => pmfLaw (Multinomial.mk (N' : ℝ) (fullVector p)).pmf) :
    ∃ post : (Fin n → Fin (k + 1) → ℕ) → Dirichlet (Fin (k + 1) → ℝ),
      (∀ x, multinomial_dirichlet (columnSums (List.ofFn x)) prior = .ok (post x)) ∧
      ∀ A : Finset (Fin (k + 1)), A.Nonempty → Aᶜ.Nonempty → ∃ guess error : (Fin n → Fin (k + 1) → ℕ) → ℝ,
        (∀ᵐ ω ∂P, MeanVar ((pmfLaw (multinomial_dirichlet_predictive (post (X ω)) (N' : ℝ)).pmf).map
          fun x => ∑ i ∈ A, (x i : ℝ)) (guess (X ω)) (error (X ω))) ∧
        BestGuess P (fun ω => ∑ i ∈ A, (Y ω i : ℝ)) X guess error := by
  obtain ⟨post, h1, hl, -⟩ := C125_multinomial_dirichlet N N' prior hp h
  refine ⟨post, h1, fun A hA hA' => ?_⟩
  refine (hl.through (g := fun x => ∑ i ∈ A, (x i : ℝ)) (measurable_of_countable _)).guess_countable
    (Filter.Eventually.of_forall fun ω => ?_)
  obtain ⟨p, e1, g1, -⟩ := C16_multinomial_dirichlet_posterior prior hp (List.ofFn (X ω))
  have e3 : post (X ω) = p := by
    have := (h1 (X ω)).symm.trans e1
    simpa using this
  obtain ⟨m, v, -, h2⟩ := C111_multinomial_dirichlet hA hA' (post (X ω)) (by rw [e3]; exact g1) N'
  exact ⟨_, _, h2⟩

/-- C125. After single category observations. -/
theorem C125_categorical_dirichlet_guess (N : ℕ) (prior : Dirichlet (Fin (k + 1) → ℝ)) (hp : ∀ i, 0 < prior.alpha i)
    {θ : Ω → Fin k → ℝ} {X : Ω → Fin n → Fin (k + 1)} {Y : Ω → Fin (k + 1) → ℕ}
    (h : DrawThenPredict P θ X Y (dirLaw prior) (fun _ p => pmfLaw (fullVector p))
      fun p => pmfLaw (Multinomial.mk (N : ℝ) (fullVector p)).pmf) :
    ∃ post : (Fin n → Fin (k + 1)) → Dirichlet (Fin (k + 1) → ℝ),
      (∀ x, categorical_dirichlet (counts (List.ofFn x)) prior = .ok (post x)) ∧
      ∀ A : Finset (Fin (k + 1)), A.Nonempty → Aᶜ.Nonempty → ∃ guess error : (Fin n → Fin (k + 1)) → ℝ,
        (∀ᵐ ω ∂P, MeanVar ((pmfLaw (categorical_dirichlet_predictive (post (X ω)) (N : ℝ)).pmf).map
          fun x => ∑ i ∈ A, (x i : ℝ)) (guess (X ω)) (error (X ω))) ∧
        BestGuess P (fun ω => ∑ i ∈ A, (Y ω i : ℝ)) X guess error := by
  obtain ⟨post, h1, hl, -⟩ := C125_categorical_dirichlet N prior hp h
  refine ⟨post, h1, fun A hA hA' => ?_⟩
  refine (hl.through (g := fun x => ∑ i ∈ A, (x i : ℝ)) (measurable_of_countable _)).guess_countable
    (Filter.Eventually.of_forall fun ω => ?_)
  obtain ⟨p, e1, g1, -⟩ := C16_categorical_dirichlet_posterior prior hp (List.ofFn (X ω))
  have e3 : post (X ω) = p := by
    have := (h1 (X ω)).symm.trans e1
    simpa using this
  obtain ⟨m, v, -, h2⟩ := C111_categorical_dirichlet hA hA' (post (X ω)) (by rw [e3]; exact g1) N
  exact ⟨_, _, h2⟩

/-! ## Instances -/

example := C111_multinomial_dirichlet (A := ({0, 2} : Finset (Fin 3))) ⟨0, by simp⟩ ⟨1, by simp⟩ ⟨![1, 2, 3]⟩
  (fun i => by fin_cases i <;> simp) 10

example : ∃ (Ω : Type) (_ : MeasurableSpace Ω) (P : Measure Ω) (X : Ω → Fin 4 → Fin 3 → ℕ) (Y : Ω → Fin 3 → ℕ)
    (guess error : (Fin 4 → Fin 3 → ℕ) → ℝ), BestGuess P (fun ω => ∑ i ∈ {0}, (Y ω i : ℝ)) X guess error := by
  have hp : ∀ i, 0 < (⟨![1, 2, 3]⟩ : Dirichlet (Fin 3 → ℝ)).alpha i := fun i => by fin_cases i <;> simp
  obtain ⟨_, _, h⟩ := bayes_multinomial (n := 4) 7 (⟨![1, 2, 3]⟩ : Dirichlet (Fin 3 → ℝ)) hp
  obtain ⟨Ω, i, P, θ, X, Y, h⟩ := h.exists_again 0
  obtain ⟨post, -, h2⟩ := C125_multinomial_dirichlet_guess 7 7 (⟨![1, 2, 3]⟩ : Dirichlet (Fin 3 → ℝ)) hp h
  obtain ⟨g, e, -, hb⟩ := h2 {0} ⟨0, by simp⟩ ⟨1, by simp⟩
  exact ⟨Ω, i, P, X, Y, g, e, hb⟩

end Conj
