import Verif.Props.Relabel
import Verif.Props.MonotonePredictive
import Mathlib.MeasureTheory.Measure.Lebesgue.Basic

/-!
# C102: one group of categories against the rest; successes and failures swapped
-/

open MeasureTheory Set Real

namespace Conj

open Spec Scipy

variable {k : ℕ}

theorem continuousOn_beta (d : Beta ℝ) : ContinuousOn d.dist.pdf (Ioo 0 1) := by
  refine ContinuousOn.congr (f := fun p => (betaFn d.alpha d.beta)⁻¹ * p ^ (d.alpha - 1) * (1 - p) ^ (d.beta - 1)) ?_
    fun p hp => Beta.pdf_eq d hp
  refine (continuousOn_const.mul (continuousOn_id.rpow_const fun p hp => Or.inl hp.1.ne')).mul ?_
  exact (continuousOn_const.sub continuousOn_id).rpow_const fun p hp => Or.inl (sub_pos.2 hp.2).ne'

theorem Beta.ext_of_prob (d d' : Beta ℝ) (hd : d.Valid) (hd' : d'.Valid)
    (h : ∀ B, MeasurableSet B → ∫ x in Ioo 0 1 ∩ B, d.dist.pdf x = ∫ x in Ioo 0 1 ∩ B, d'.dist.pdf x) : d = d' :=
  C97_beta d d' hd hd' (eqOn_of_setIntegral isOpen_Ioo (Beta.isDensity d hd.1 hd.2).2.1 (Beta.isDensity d' hd'.1 hd'.2).2.1
    (continuousOn_beta d) (continuousOn_beta d') h)

/-- the categories in `A`, and the others -/
def twoGroups (A : Finset (Fin (k + 1))) : Fin (k + 1) → Fin 2 := fun i => if i ∈ A then 0 else 1

theorem twoGroups_surjective {A : Finset (Fin (k + 1))} (hA : A.Nonempty) (hA' : Aᶜ.Nonempty) :
    Function.Surjective (twoGroups A) := by
  intro j
  obtain ⟨a, ha⟩ := hA
  obtain ⟨b, hb⟩ := hA'
  rw [Finset.mem_compl] at hb
  fin_cases j
  · exact ⟨a, by simp [twoGroups, ha]⟩
  · exact ⟨b, by simp [twoGroups, hb]⟩

theorem twoGroups_zero {M : Type*} [AddCommMonoid M] (A : Finset (Fin (k + 1))) (v : Fin (k + 1) → M) :
    groupTotals (twoGroups A) v 0 = ∑ i ∈ A, v i := by
  simp only [groupTotals]
  rw [← Finset.sum_filter]
  refine Finset.sum_congr ?_ fun _ _ => rfl
  ext i
  by_cases h : i ∈ A <;> simp [twoGroups, h]

theorem twoGroups_one {M : Type*} [AddCommMonoid M] (A : Finset (Fin (k + 1))) (v : Fin (k + 1) → M) :
    groupTotals (twoGroups A) v 1 = ∑ i ∈ Aᶜ, v i := by
  simp only [groupTotals]
  rw [← Finset.sum_filter]
  refine Finset.sum_congr ?_ fun _ _ => rfl
  ext i
  by_cases h : i ∈ A <;> simp [twoGroups, h]

theorem fullVector_two_zero (p : Fin 1 → ℝ) : fullVector p 0 = p 0 := rfl

theorem fullVector_two_one (p : Fin 1 → ℝ) : fullVector p 1 = 1 - p 0 := by
  have : fullVector p (Fin.last 1) = 1 - ∑ i, p i := by simp only [fullVector, Fin.snoc_last]
  simpa using this

/-- a Dirichlet distribution over two categories is a Beta distribution -/
theorem dirichlet_two (α : Fin 2 → ℝ) {B : Set ℝ} (hB : MeasurableSet B) :
    ∫ p in {p ∈ simplex 1 | fullVector p ∈ {q : Fin 2 → ℝ | q 0 ∈ B}}, (Dirichlet.mk α).pdf (fullVector p) =
      ∫ x in Ioo 0 1 ∩ B, (Beta.dist ⟨α 0, α 1⟩).pdf x := by
  have hmp := volume_preserving_funUnique (Fin 1) ℝ
  have h := hmp.setIntegral_preimage_emb (MeasurableEquiv.measurableEmbedding _) (Beta.dist ⟨α 0, α 1⟩).pdf (Ioo 0 1 ∩ B)
  rw [← h]
  have e : {p ∈ simplex 1 | fullVector p ∈ {q : Fin 2 → ℝ | q 0 ∈ B}} =
      ⇑(MeasurableEquiv.funUnique (Fin 1) ℝ) ⁻¹' (Ioo 0 1 ∩ B) := by
    ext p
    simp [simplex, fullVector_two_zero, MeasurableEquiv.funUnique, and_assoc]
  rw [e]
  refine setIntegral_congr_fun ((MeasurableEquiv.measurable _) (measurableSet_Ioo.inter hB)) fun p hp => ?_
  have hp' : p 0 ∈ Ioo (0 : ℝ) 1 := hp.1
  have e2 : (MeasurableEquiv.funUnique (Fin 1) ℝ) p = p 0 := rfl
  beta_reduce
  rw [e2, Beta.pdf_eq _ hp', Dirichlet.pdf, dirichletPdf]
  have s1 : ∑ i, α i = α 0 + α 1 := Fin.sum_univ_two α
  have s2 : ∏ i, Real.Gamma (α i) = Real.Gamma (α 0) * Real.Gamma (α 1) := Fin.prod_univ_two _
  have s3 : ∏ i, fullVector p i ^ (α i - 1) = fullVector p 0 ^ (α 0 - 1) * fullVector p 1 ^ (α 1 - 1) := Fin.prod_univ_two _
  rw [s1, s2, s3, fullVector_two_zero, fullVector_two_one]
  simp only [betaFn, inv_div]
  ring

/-- the probability of a group of categories has a Beta distribution -/
theorem shareProb_eq {A : Finset (Fin (k + 1))} (hA : A.Nonempty) (hA' : Aᶜ.Nonempty) (d : Dirichlet (Fin (k + 1) → ℝ))
    (hd : ∀ i, 0 < d.alpha i) {B : Set ℝ} (hB : MeasurableSet B) :
    shareProb A d.pdf B = ∫ x in Ioo 0 1 ∩ B, (Beta.dist ⟨∑ i ∈ A, d.alpha i, ∑ i ∈ Aᶜ, d.alpha i⟩).pdf x := by
  have h := C102_dirichlet (twoGroups A) (twoGroups_surjective hA hA') d hd {q | q 0 ∈ B} (measurable_pi_apply 0 hB)
  rw [dirichlet_two _ hB, twoGroups_zero, twoGroups_one] at h
  rw [← h, shareProb]
  congr 2
  ext p
  simp only [mem_ofPred_eq, twoGroups_zero]

theorem valid_share {A : Finset (Fin (k + 1))} (hA : A.Nonempty) (hA' : Aᶜ.Nonempty) {v : Fin (k + 1) → ℝ}
    (hv : ∀ i, 0 < v i) : (⟨∑ i ∈ A, v i, ∑ i ∈ Aᶜ, v i⟩ : Beta ℝ).Valid :=
  ⟨Finset.sum_pos (fun i _ => hv i) hA, Finset.sum_pos (fun i _ => hv i) hA'⟩

theorem share_prior {A : Finset (Fin (k + 1))} (hA : A.Nonempty) (hA' : Aᶜ.Nonempty) {d : Dirichlet (Fin (k + 1) → ℝ)}
    (hd : ∀ i, 0 < d.alpha i) {d2 : Beta ℝ} (h2 : d2.Valid)
    (h : ∀ B, MeasurableSet B → shareProb A d.pdf B = ∫ x in Ioo 0 1 ∩ B, d2.dist.pdf x) :
    d2 = ⟨∑ i ∈ A, d.alpha i, ∑ i ∈ Aᶜ, d.alpha i⟩ :=
  Beta.ext_of_prob _ _ h2 (valid_share hA hA' hd) fun B hB => (h B hB).symm.trans (shareProb_eq hA hA' d hd hB)

/-- C102, one group against the rest. If the Beta prior `prior2` is the prior of the total probability of the categories in
`A`, then counting the observations inside and outside `A` and updating with `binomial_beta` gives the distribution of that
probability under the Dirichlet posterior. -/
theorem C102_multinomial_dirichlet_share {A : Finset (Fin (k + 1))} (hA : A.Nonempty) (hA' : Aᶜ.Nonempty)
    {prior : Dirichlet (Fin (k + 1) → ℝ)} (hp : ∀ i, 0 < prior.alpha i) {prior2 : Beta ℝ} (h2 : prior2.Valid)
    (h : ∀ B, MeasurableSet B → shareProb A prior.pdf B = ∫ x in Ioo 0 1 ∩ B, prior2.dist.pdf x)
    (data : List (Fin (k + 1) → ℕ)) :
    ∃ post, multinomial_dirichlet (columnSums data) prior = .ok post ∧ ∀ B, MeasurableSet B →
      shareProb A post.pdf B = ∫ x in Ioo 0 1 ∩ B, (binomial_beta (((data.map fun x => ∑ i, x i).sum : ℕ) : ℝ)
        (((data.map fun x => ∑ i ∈ A, x i).sum : ℕ) : ℝ) prior2).dist.pdf x := by
  obtain rfl := share_prior hA hA' hp h2 h
  have hpos : ∀ i, 0 < prior.alpha i + columnSums data i := fun i => by
    have : 0 ≤ columnSums data i := Nat.cast_nonneg _
    linarith [hp i]
  refine ⟨⟨fun i => prior.alpha i + columnSums data i⟩, rfl, fun B hB => ?_⟩
  rw [shareProb_eq hA hA' _ hpos hB]
  have hs : ∀ C : Finset (Fin (k + 1)), ∑ i ∈ C, columnSums data i = (((data.map fun x => ∑ i ∈ C, x i).sum : ℕ) : ℝ) := by
    intro C
    simp only [columnSums]
    induction data with
    | nil => simp
    | cons x data ih =>
      simp only [List.map_cons, List.sum_cons, Nat.cast_add, Finset.sum_add_distrib, Nat.cast_sum]
      rw [ih fun i => by
        have : 0 ≤ columnSums data i := Nat.cast_nonneg _
        linarith [hp i]]
  have htot : (((data.map fun x => ∑ i, x i).sum : ℕ) : ℝ) - (((data.map fun x => ∑ i ∈ A, x i).sum : ℕ) : ℝ) =
      ∑ i ∈ Aᶜ, columnSums data i := by
    rw [← hs A, ← hs Finset.univ, ← Finset.sum_add_sum_compl A]; ring
  congr 1
  funext x
  simp only [binomial_beta, getBinomialBetaPosteriorParams]
  rw [htot, ← hs A, Finset.sum_add_distrib, Finset.sum_add_distrib]

/-- three categories; the probability of the first or the third -/
example : ∃ post, multinomial_dirichlet (columnSums [![1, 2, 0], ![4, 0, 3]]) (⟨![1, 2, 3]⟩ : Dirichlet (Fin 3 → ℝ)) = .ok post ∧
    ∀ B, MeasurableSet B → shareProb {0, 2} post.pdf B = ∫ x in Ioo 0 1 ∩ B,
      (binomial_beta ((([![1, 2, 0], ![4, 0, 3]].map fun x : Fin 3 → ℕ => ∑ i, x i).sum : ℕ) : ℝ)
        ((([![1, 2, 0], ![4, 0, 3]].map fun x : Fin 3 → ℕ => ∑ i ∈ {0, 2}, x i).sum : ℕ) : ℝ)
        ⟨∑ i ∈ {0, 2}, (![1, 2, 3] : Fin 3 → ℝ) i, ∑ i ∈ ({0, 2} : Finset (Fin 3))ᶜ, (![1, 2, 3] : Fin 3 → ℝ) i⟩).dist.pdf x := by
  have hp : ∀ i, (0 : ℝ) < (![1, 2, 3] : Fin 3 → ℝ) i := by intro i; fin_cases i <;> simp
  have hA : ({0, 2} : Finset (Fin 3)).Nonempty := by decide
  have hA' : ({0, 2} : Finset (Fin 3))ᶜ.Nonempty := by decide
  exact C102_multinomial_dirichlet_share (k := 2) hA hA' (prior := ⟨![1, 2, 3]⟩) hp (valid_share hA hA' hp)
    (fun B hB => shareProb_eq hA hA' ⟨![1, 2, 3]⟩ hp hB) _

/-- The same for category observations: being in `A` or not is a Bernoulli observation. -/
theorem C102_categorical_dirichlet_share {A : Finset (Fin (k + 1))} (hA : A.Nonempty) (hA' : Aᶜ.Nonempty)
    {prior : Dirichlet (Fin (k + 1) → ℝ)} (hp : ∀ i, 0 < prior.alpha i) {prior2 : Beta ℝ} (h2 : prior2.Valid)
    (h : ∀ B, MeasurableSet B → shareProb A prior.pdf B = ∫ x in Ioo 0 1 ∩ B, prior2.dist.pdf x)
    (xs : List (Fin (k + 1))) :
    ∃ post, categorical_dirichlet (counts xs) prior = .ok post ∧ ∀ B, MeasurableSet B →
      shareProb A post.pdf B = ∫ x in Ioo 0 1 ∩ B,
        (binomial_beta (xs.length : ℝ) ((xs.countP (· ∈ A) : ℕ) : ℝ) prior2).dist.pdf x := by
  obtain ⟨post, h3, h4⟩ := C102_multinomial_dirichlet_share hA hA' hp h2 h (xs.map fun i => Pi.single i 1)
  have e1 : columnSums (xs.map fun i => (Pi.single i 1 : Fin (k + 1) → ℕ)) = counts xs := by
    funext j
    simp only [columnSums, counts]
    congr 1
    clear h3 h4
    induction xs with
    | nil => simp
    | cons x xs ih =>
      simp only [List.map_cons, List.sum_cons, List.count_cons, ih]
      by_cases hxj : x = j
      · subst hxj; simp [add_comm]
      · have : ¬ j = x := fun e => hxj e.symm
        simp [hxj, this]
  have e2 : ((xs.map fun i => (Pi.single i 1 : Fin (k + 1) → ℕ)).map fun x => ∑ i, x i).sum = xs.length := by
    clear h3 h4 e1
    induction xs with
    | nil => simp
    | cons x xs ih => simp only [List.map_cons, List.sum_cons, List.length_cons, ih]; simp [add_comm]
  have e3 : ((xs.map fun i => (Pi.single i 1 : Fin (k + 1) → ℕ)).map fun x => ∑ i ∈ A, x i).sum = xs.countP (· ∈ A) := by
    clear h3 h4 e1 e2
    induction xs with
    | nil => simp
    | cons x xs ih =>
      simp only [List.map_cons, List.sum_cons, List.countP_cons, ih]
      by_cases hx : x ∈ A <;> simp [hx, Finset.sum_pi_single, add_comm]
  rw [e1] at h3
  rw [e2, e3] at h4
  exact ⟨post, h3, h4⟩

example : ∃ post, categorical_dirichlet (counts [0, 2, 2, 1]) (⟨![1, 2, 3]⟩ : Dirichlet (Fin 3 → ℝ)) = .ok post ∧
    ∀ B, MeasurableSet B → shareProb {0, 2} post.pdf B = ∫ x in Ioo 0 1 ∩ B,
      (binomial_beta (([0, 2, 2, 1] : List (Fin 3)).length : ℝ)
        ((([0, 2, 2, 1] : List (Fin 3)).countP (· ∈ ({0, 2} : Finset (Fin 3))) : ℕ) : ℝ)
        ⟨∑ i ∈ {0, 2}, (![1, 2, 3] : Fin 3 → ℝ) i, ∑ i ∈ ({0, 2} : Finset (Fin 3))ᶜ, (![1, 2, 3] : Fin 3 → ℝ) i⟩).dist.pdf x := by
  have hp : ∀ i, (0 : ℝ) < (![1, 2, 3] : Fin 3 → ℝ) i := by intro i; fin_cases i <;> simp
  have hA : ({0, 2} : Finset (Fin 3)).Nonempty := by decide
  have hA' : ({0, 2} : Finset (Fin 3))ᶜ.Nonempty := by decide
  exact C102_categorical_dirichlet_share (k := 2) hA hA' (prior := ⟨![1, 2, 3]⟩) hp (valid_share hA hA' hp)
    (fun B hB => shareProb_eq hA hA' ⟨![1, 2, 3]⟩ hp hB) _

theorem dirichletMultinomialPmf_two (α : Fin 2 → ℝ) (hα : ∀ i, 0 < α i) (n m : ℕ) (hm : m ≤ n) :
    dirichletMultinomialPmf α n ![m, n - m] = (BetaBinomial.dist { n := (n : ℝ), alpha := α 0, beta := α 1 }).pmf (m : ℤ) := by
  have h := dirichletMultinomialPmf_split (k := 0) α hα n n m hm ![]
  have e : (Fin.cons m (Fin.cons (n - m) ![] : Fin 1 → ℕ) : Fin 2 → ℕ) = ![m, n - m] := rfl
  rw [e] at h
  rw [h]
  have h01 := add_pos (hα 0) (hα 1)
  have h1 := Real.Gamma_pos_of_pos h01
  have h2 := Real.Gamma_pos_of_pos (show (0 : ℝ) < n + (α 0 + α 1) by positivity)
  have h3 := Real.Gamma_pos_of_pos (show (0 : ℝ) < (n : ℝ) + 1 by positivity)
  have : dirichletMultinomialPmf (mergeTwo α) n (Fin.cons n ![]) = 1 := by
    simp only [dirichletMultinomialPmf, mergeTwo, Fin.sum_univ_succ, Fin.prod_univ_succ, Fin.cons_zero,
      Finset.univ_eq_empty, Finset.sum_empty, Finset.prod_empty, add_zero, mul_one, if_true]
    field_simp
  rw [this, one_mul]

/-- C102, one group against the rest, predictive: the number of future observations in `A` is beta-binomial, with the
parameters `binomial_beta_predictive` returns for the prior of the probability of `A`. -/
theorem C102_multinomial_dirichlet_share_predictive {A : Finset (Fin (k + 1))} (hA : A.Nonempty) (hA' : Aᶜ.Nonempty)
    {d : Dirichlet (Fin (k + 1) → ℝ)} (hd : ∀ i, 0 < d.alpha i) {d2 : Beta ℝ} (h2 : d2.Valid)
    (h : ∀ B, MeasurableSet B → shareProb A d.pdf B = ∫ x in Ioo 0 1 ∩ B, d2.dist.pdf x) (n m : ℕ) :
    HasSum (fun x : {x : Fin (k + 1) → ℕ // ∑ i ∈ A, x i = m} => (multinomial_dirichlet_predictive d (n : ℝ)).pmf x)
      ((binomial_beta_predictive (n : ℝ) d2).dist.pmf (m : ℤ)) := by
  obtain rfl := share_prior hA hA' hd h2 h
  have hg := twoGroups_surjective hA hA'
  have hsum : ∀ x : Fin (k + 1) → ℕ, ∑ i, x i = ∑ i ∈ A, x i + ∑ i ∈ Aᶜ, x i := fun x =>
    (Finset.sum_add_sum_compl A _).symm
  have hzero : ∀ x : Fin (k + 1) → ℕ, ∑ i, x i ≠ n → (multinomial_dirichlet_predictive d (n : ℝ)).pmf x = 0 := by
    intro x hx
    refine if_neg fun hc => hx ?_
    have hc : (∑ i, (x i : ℝ)) = n := hc
    exact_mod_cast hc
  rcases le_or_gt m n with hm | hm
  · have hM := C102_dirichlet_multinomial (twoGroups A) hg d.alpha hd n ![m, n - m]
    have e : (DirichletMultinomial.mk (groupTotals (twoGroups A) d.alpha) (n : ℝ)).pmf ![m, n - m] =
        (binomial_beta_predictive (n : ℝ) ⟨∑ i ∈ A, d.alpha i, ∑ i ∈ Aᶜ, d.alpha i⟩).dist.pmf (m : ℤ) := by
      rw [DirichletMultinomial.pmf, dirichletMultinomialPmf_two _ (groupTotals_pos hg hd) n m hm, twoGroups_zero, twoGroups_one]
      rfl
    rw [e] at hM
    have him : ∀ x : Fin (k + 1) → ℕ, groupTotals (twoGroups A) x = ![m, n - m] ↔ ∑ i ∈ A, x i = m ∧ ∑ i ∈ Aᶜ, x i = n - m := by
      intro x
      rw [← twoGroups_zero A x, ← twoGroups_one A x, funext_iff, Fin.forall_fin_two]
      rfl
    obtain ⟨ι, hι⟩ : ∃ ι : {x : Fin (k + 1) → ℕ // groupTotals (twoGroups A) x = ![m, n - m]} →
        {x : Fin (k + 1) → ℕ // ∑ i ∈ A, x i = m}, ∀ x, (ι x).1 = x.1 :=
      ⟨fun x => ⟨x.1, ((him x.1).1 x.2).1⟩, fun _ => rfl⟩
    have hinj : Function.Injective ι := fun x y hxy => Subtype.ext (by rw [← hι x, ← hι y, hxy])
    refine (hinj.hasSum_iff ?_).1 ?_
    · rintro ⟨x, hx⟩ hnot
      refine hzero x fun hc => hnot ⟨⟨x, (him x).2 ⟨hx, ?_⟩⟩, Subtype.ext (hι _)⟩
      rw [hsum] at hc
      omega
    · refine hM.congr_fun ?_
      intro x
      simp only [Function.comp, hι]
      rfl
  · have e : (binomial_beta_predictive (n : ℝ) ⟨∑ i ∈ A, d.alpha i, ∑ i ∈ Aᶜ, d.alpha i⟩).dist.pmf (m : ℤ) = 0 :=
      BetaBinomial.pmf_gt n m _ _ hm
    rw [e]
    have : (fun x : {x : Fin (k + 1) → ℕ // ∑ i ∈ A, x i = m} => (multinomial_dirichlet_predictive d (n : ℝ)).pmf x) =
        fun _ => 0 := by
      funext ⟨x, hx⟩
      refine hzero x fun hc => ?_
      rw [hsum] at hc
      omega
    rw [this]
    exact hasSum_zero

example (n m : ℕ) : HasSum (fun x : {x : Fin 3 → ℕ // ∑ i ∈ {0, 2}, x i = m} =>
    (multinomial_dirichlet_predictive (⟨![1, 2, 3]⟩ : Dirichlet (Fin 3 → ℝ)) (n : ℝ)).pmf x)
    ((binomial_beta_predictive (n : ℝ) ⟨∑ i ∈ {0, 2}, (![1, 2, 3] : Fin 3 → ℝ) i,
      ∑ i ∈ ({0, 2} : Finset (Fin 3))ᶜ, (![1, 2, 3] : Fin 3 → ℝ) i⟩).dist.pmf (m : ℤ)) := by
  have hp : ∀ i, (0 : ℝ) < (![1, 2, 3] : Fin 3 → ℝ) i := by intro i; fin_cases i <;> simp
  have hA : ({0, 2} : Finset (Fin 3)).Nonempty := by decide
  have hA' : ({0, 2} : Finset (Fin 3))ᶜ.Nonempty := by decide
  exact C102_multinomial_dirichlet_share_predictive (k := 2) hA hA' (d := ⟨![1, 2, 3]⟩) hp (valid_share hA hA' hp)
    (fun B hB => shareProb_eq hA hA' ⟨![1, 2, 3]⟩ hp hB) n m

/-- C99 for categories. Of two data sets of the same size, the one with more observations in `A` makes it more probable
that the total probability of `A` exceeds any threshold. -/
theorem C99_multinomial_dirichlet {A : Finset (Fin (k + 1))} (hA' : Aᶜ.Nonempty) (prior : Dirichlet (Fin (k + 1) → ℝ))
    (hp : ∀ i, 0 < prior.alpha i) {x x' : Fin (k + 1) → ℝ} (hx : ∀ i, 0 ≤ x i) (hx' : ∀ i, 0 ≤ x' i)
    (hn : ∑ i, x i = ∑ i, x' i) (h : ∑ i ∈ A, x i < ∑ i ∈ A, x' i) {t : ℝ} (ht : t ∈ Ioo (0 : ℝ) 1) :
    ∃ post post', multinomial_dirichlet x prior = .ok post ∧ multinomial_dirichlet x' prior = .ok post' ∧
      shareProb A post.pdf (Ioi t) < shareProb A post'.pdf (Ioi t) := by
  have hA : A.Nonempty := by
    rw [Finset.nonempty_iff_ne_empty]
    rintro rfl
    simp at h
  refine ⟨⟨fun i => prior.alpha i + x i⟩, ⟨fun i => prior.alpha i + x' i⟩, rfl, rfl, ?_⟩
  rw [shareProb_eq hA hA' _ (fun i => by linarith [hp i, hx i] : ∀ i, 0 < prior.alpha i + x i) measurableSet_Ioi,
    shareProb_eq hA hA' _ (fun i => by linarith [hp i, hx' i] : ∀ i, 0 < prior.alpha i + x' i) measurableSet_Ioi]
  have hc : ∀ y : Fin (k + 1) → ℝ, ∑ i ∈ Aᶜ, y i = ∑ i, y i - ∑ i ∈ A, y i := fun y => by
    rw [← Finset.sum_add_sum_compl A y]; ring
  have h0 : 0 ≤ ∑ i ∈ A, x i := Finset.sum_nonneg fun i _ => hx i
  have hle : ∑ i ∈ A, x' i ≤ ∑ i, x i := by
    have : 0 ≤ ∑ i ∈ Aᶜ, x' i := Finset.sum_nonneg fun i _ => hx' i
    rw [hc, ← hn] at this
    linarith
  have := C99_binomial_beta_successes ⟨∑ i ∈ A, prior.alpha i, ∑ i ∈ Aᶜ, prior.alpha i⟩ (valid_share hA hA' hp) h0 h hle t ht
  simp only [Finset.sum_add_distrib]
  rw [hc x, hc x', ← hn]
  exact this

example : ∃ post post', multinomial_dirichlet ![1, 3, 0] (⟨![1, 2, 3]⟩ : Dirichlet (Fin 3 → ℝ)) = .ok post ∧
    multinomial_dirichlet ![2, 0, 2] (⟨![1, 2, 3]⟩ : Dirichlet (Fin 3 → ℝ)) = .ok post' ∧
    shareProb {0, 2} post.pdf (Ioi (1 / 2)) < shareProb {0, 2} post'.pdf (Ioi (1 / 2)) :=
  C99_multinomial_dirichlet (k := 2) (A := {0, 2}) (by decide) ⟨![1, 2, 3]⟩ (by intro i; fin_cases i <;> simp)
    (by intro i; fin_cases i <;> simp) (by intro i; fin_cases i <;> simp)
    (by simp [Fin.sum_univ_succ]; norm_num) (by simp; norm_num) (by constructor <;> norm_num)

theorem C99_categorical_dirichlet {A : Finset (Fin (k + 1))} (hA' : Aᶜ.Nonempty) (prior : Dirichlet (Fin (k + 1) → ℝ))
    (hp : ∀ i, 0 < prior.alpha i) {x x' : Fin (k + 1) → ℝ} (hx : ∀ i, 0 ≤ x i) (hx' : ∀ i, 0 ≤ x' i)
    (hn : ∑ i, x i = ∑ i, x' i) (h : ∑ i ∈ A, x i < ∑ i ∈ A, x' i) {t : ℝ} (ht : t ∈ Ioo (0 : ℝ) 1) :
    ∃ post post', categorical_dirichlet x prior = .ok post ∧ categorical_dirichlet x' prior = .ok post' ∧
      shareProb A post.pdf (Ioi t) < shareProb A post'.pdf (Ioi t) :=
  C99_multinomial_dirichlet hA' prior hp hx hx' hn h ht

/-! ### Successes and failures swapped -/

theorem Beta.swap (a b : ℝ) : Rescaled (-1) 1 (Beta.dist ⟨a, b⟩).pdf (Beta.dist ⟨b, a⟩).pdf := by
  intro x
  simp only [Beta.dist, Cont.pdf, sub_zero, div_one, Family.std, abs_neg, abs_one, one_mul]
  by_cases h : 0 ≤ x ∧ x ≤ 1
  · rw [if_pos h, if_pos ⟨by linarith [h.2], by linarith [h.1]⟩, show 1 - (-1 * x + 1) = x by ring,
      show -1 * x + 1 = 1 - x by ring, add_comm b a]
    ring
  · rw [if_neg h, if_neg]
    rintro ⟨h1, h2⟩
    exact h ⟨by linarith, by linarith⟩

theorem Beta.swap_prior {d d' : Beta ℝ} (hd : d.Valid) (hd' : d'.Valid) (h : Rescaled (-1) 1 d.dist.pdf d'.dist.pdf) :
    d' = ⟨d.beta, d.alpha⟩ := by
  refine C97_beta _ _ hd' ⟨hd.2, hd.1⟩ fun x _ => ?_
  have h1 := h (1 - x)
  have h2 := Beta.swap d.alpha d.beta (1 - x)
  simp only [abs_neg, abs_one, one_mul, show -1 * (1 - x) + 1 = x by ring] at h1 h2
  rw [← h1, ← h2]

/-- C102, binomial. If `prior'` is the prior of the probability of failure, counting failures instead of successes gives
the posterior of the probability of failure. -/
theorem C102_binomial_beta {prior prior' : Beta ℝ} (hp : prior.Valid) (hp' : prior'.Valid)
    (h : Rescaled (-1) 1 prior.dist.pdf prior'.dist.pdf) (n x : ℝ) :
    Rescaled (-1) 1 (binomial_beta n x prior).dist.pdf (binomial_beta n (n - x) prior').dist.pdf := by
  obtain rfl := Beta.swap_prior hp hp' h
  have := Beta.swap (prior.alpha + x) (prior.beta + (n - x))
  simpa only [binomial_beta, getBinomialBetaPosteriorParams, sub_sub_cancel] using this

example : Rescaled (-1) 1 (binomial_beta 10 3 ⟨1, 2⟩ : Beta ℝ).dist.pdf (binomial_beta 10 (10 - 3) ⟨2, 1⟩ : Beta ℝ).dist.pdf :=
  C102_binomial_beta ⟨one_pos, two_pos⟩ ⟨two_pos, one_pos⟩ (Beta.swap 1 2) 10 3

theorem C102_bernoulli_beta {prior prior' : Beta ℝ} (hp : prior.Valid) (hp' : prior'.Valid)
    (h : Rescaled (-1) 1 prior.dist.pdf prior'.dist.pdf) (x : ℝ) :
    Rescaled (-1) 1 (bernoulli_beta x prior).dist.pdf (bernoulli_beta (1 - x) prior').dist.pdf := by
  have := C102_binomial_beta hp hp' h 1 x
  simpa [bernoulli_beta] using this

example : Rescaled (-1) 1 (bernoulli_beta 1 ⟨1, 2⟩ : Beta ℝ).dist.pdf (bernoulli_beta (1 - 1) ⟨2, 1⟩ : Beta ℝ).dist.pdf :=
  C102_bernoulli_beta ⟨one_pos, two_pos⟩ ⟨two_pos, one_pos⟩ (Beta.swap 1 2) 1

theorem BetaBinomial.swap (n : ℕ) (a b : ℝ) (m : ℤ) :
    (BetaBinomial.dist ⟨(n : ℝ), a, b⟩).pmf m = (BetaBinomial.dist ⟨(n : ℝ), b, a⟩).pmf (n - m) := by
  simp only [BetaBinomial.dist, Disc.pmf, sub_zero, DiscFamily.pmf0]
  by_cases h : 0 ≤ m ∧ (m : ℝ) ≤ n
  · have hm : m ≤ n := by exact_mod_cast h.2
    rw [if_pos h, if_pos ⟨by linarith, by push_cast; have : (0 : ℝ) ≤ m := by exact_mod_cast h.1
                                          linarith⟩]
    have hch : choose (n : ℝ) (m : ℝ) = choose (n : ℝ) (((n : ℤ) - m : ℤ) : ℝ) := by
      simp only [choose]
      push_cast
      rw [sub_sub_cancel, mul_comm (Real.Gamma ((m : ℝ) + 1))]
    have hb : ∀ a b : ℝ, betaFn a b = betaFn b a := fun a b => by simp only [betaFn]; rw [add_comm, mul_comm (Real.Gamma a)]
    rw [hch, hb b a, hb ((m : ℝ) + a)]
    push_cast
    rw [sub_sub_cancel]
  · rw [if_neg h, if_neg]
    rintro ⟨h1, h2⟩
    push_cast at h2
    refine h ⟨?_, ?_⟩
    · have : (0 : ℝ) ≤ m := by linarith
      exact_mod_cast this
    · have : m ≤ n := by linarith
      exact_mod_cast this

/-- C102, binomial predictive: the number of failures. -/
theorem C102_binomial_beta_predictive {d d' : Beta ℝ} (hd : d.Valid) (hd' : d'.Valid)
    (h : Rescaled (-1) 1 d.dist.pdf d'.dist.pdf) (n : ℕ) (m : ℤ) :
    (binomial_beta_predictive (n : ℝ) d).dist.pmf m = (binomial_beta_predictive (n : ℝ) d').dist.pmf (n - m) := by
  obtain rfl := Beta.swap_prior hd hd' h
  exact BetaBinomial.swap n d.alpha d.beta m

example : (binomial_beta_predictive ((5 : ℕ) : ℝ) ⟨1, 2⟩).dist.pmf 2 = (binomial_beta_predictive ((5 : ℕ) : ℝ) ⟨2, 1⟩).dist.pmf (5 - 2) :=
  C102_binomial_beta_predictive (d := ⟨1, 2⟩) (d' := ⟨2, 1⟩) ⟨one_pos, two_pos⟩ ⟨two_pos, one_pos⟩ (Beta.swap 1 2) 5 2

theorem C102_bernoulli_beta_predictive {d d' : Beta ℝ} (hd : d.Valid) (hd' : d'.Valid)
    (h : Rescaled (-1) 1 d.dist.pdf d'.dist.pdf) (m : ℤ) :
    (bernoulli_beta_predictive d).dist.pmf m = (bernoulli_beta_predictive d').dist.pmf (1 - m) := by
  have := C102_binomial_beta_predictive hd hd' h 1 m
  simpa [bernoulli_beta_predictive] using this

example : (bernoulli_beta_predictive ⟨1, 2⟩ : BetaBinomial ℝ).dist.pmf 1 = (bernoulli_beta_predictive ⟨2, 1⟩ : BetaBinomial ℝ).dist.pmf (1 - 1) :=
  C102_bernoulli_beta_predictive (d := ⟨1, 2⟩) (d' := ⟨2, 1⟩) ⟨one_pos, two_pos⟩ ⟨two_pos, one_pos⟩ (Beta.swap 1 2) 1

/-- C102 for the hypergeometric model: `x` of `n` sampled items of a population of `N` have the property; the posterior of
the number without the property from the `n - x` items without it. -/
def C102_hypergeometric_statement : Prop :=
  ∀ (N x n : ℕ) (a b : ℝ), 0 < a → 0 < b → x ≤ n → n ≤ N → ∀ m : ℤ,
    (hypergeometric_beta_binomial (x : ℝ) (n : ℝ) ⟨(N : ℝ), a, b⟩).dist.pmf m =
      (hypergeometric_beta_binomial ((n : ℝ) - x) (n : ℝ) ⟨(N : ℝ), b, a⟩).dist.pmf (N - m)

/-- It holds when the whole population is sampled. -/
theorem C102_hypergeometric_partial (N x : ℕ) (a b : ℝ) (m : ℤ) :
    (hypergeometric_beta_binomial (x : ℝ) (N : ℝ) ⟨(N : ℝ), a, b⟩).dist.pmf m =
      (hypergeometric_beta_binomial ((N : ℝ) - x) (N : ℝ) ⟨(N : ℝ), b, a⟩).dist.pmf (N - m) := by
  have := BetaBinomial.swap N (a + x) (b + (N - x)) m
  simpa only [hypergeometric_beta_binomial, sub_sub_cancel] using this

example : (hypergeometric_beta_binomial ((2 : ℕ) : ℝ) ((5 : ℕ) : ℝ) ⟨((5 : ℕ) : ℝ), 1, 2⟩).dist.pmf 3 =
    (hypergeometric_beta_binomial (((5 : ℕ) : ℝ) - (2 : ℕ)) ((5 : ℕ) : ℝ) ⟨((5 : ℕ) : ℝ), 2, 1⟩).dist.pmf ((5 : ℕ) - 3) :=
  C102_hypergeometric_partial 5 2 1 2 3

/-- It is false for a smaller sample: the code counts `N - x` failures, not `n - x`. -/
theorem C102_hypergeometric_false : ¬ C102_hypergeometric_statement := by
  intro h
  have h1 := h 2 0 1 1 1 one_pos one_pos (by norm_num) (by norm_num) 0
  have e1 : hypergeometric_beta_binomial ((0 : ℕ) : ℝ) ((1 : ℕ) : ℝ) ⟨((2 : ℕ) : ℝ), 1, 1⟩ = ⟨((2 : ℕ) : ℝ), 1, 3⟩ := by
    simp only [hypergeometric_beta_binomial]; norm_num
  have e2 : hypergeometric_beta_binomial (((1 : ℕ) : ℝ) - (0 : ℕ)) ((1 : ℕ) : ℝ) ⟨((2 : ℕ) : ℝ), 1, 1⟩ = ⟨((2 : ℕ) : ℝ), 2, 2⟩ := by
    simp only [hypergeometric_beta_binomial]; norm_num
  rw [e1, e2, ← BetaBinomial.swap] at h1
  have h2 := BetaBinomial.pmf_nat 2 0 (by norm_num) 1 3
  have h3 := BetaBinomial.pmf_nat 2 0 (by norm_num) 2 2
  rw [Nat.cast_zero] at h2 h3
  rw [h2, h3] at h1
  simp only [betaFn] at h1
  norm_num [Nat.factorial] at h1

end Conj
