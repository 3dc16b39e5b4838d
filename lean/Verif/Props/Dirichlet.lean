import Verif.Models
import Verif.Lemmas.Dirichlet

/-!
# C16, C36: the Dirichlet models

`k + 1` categories.  The unknown is the probability vector, given by its first `k` entries; `fullVector` adds
the last.
-/

open MeasureTheory Set Real

namespace Conj

open Spec Scipy

variable {k : ℕ}

theorem measurableSet_simplex (k : ℕ) : MeasurableSet (simplex k) := measurableSet_simplexOf k 1

/-- prior times a monomial -/
theorem dirichlet_kernel (alpha c : Fin (k + 1) → ℝ) (ha : ∀ i, 0 < alpha i) (hc : ∀ i, 0 ≤ c i)
    {p : Fin k → ℝ} (hp : p ∈ simplex k) :
    dirichletPdf alpha (fullVector p) * ∏ i, fullVector p i ^ c i =
      (Real.Gamma (∑ i, alpha i) / Real.Gamma (∑ i, (alpha i + c i)) *
        ∏ i, (Real.Gamma (alpha i + c i) / Real.Gamma (alpha i))) *
      dirichletPdf (fun i => alpha i + c i) (fullVector p) := by
  have hG : ∀ i, Real.Gamma (alpha i) ≠ 0 := fun i => (Real.Gamma_pos_of_pos (ha i)).ne'
  have hG' : ∀ i, Real.Gamma (alpha i + c i) ≠ 0 := fun i =>
    (Real.Gamma_pos_of_pos (by linarith [ha i, hc i])).ne'
  have hs : 0 < ∑ i, (alpha i + c i) :=
    Finset.sum_pos (fun i _ => by linarith [ha i, hc i]) ⟨0, Finset.mem_univ _⟩
  have hGs := (Real.Gamma_pos_of_pos hs).ne'
  have e : ∏ i, fullVector p i ^ (alpha i + c i - 1) =
      (∏ i, fullVector p i ^ (alpha i - 1)) * ∏ i, fullVector p i ^ c i := by
    rw [← Finset.prod_mul_distrib]
    refine Finset.prod_congr rfl fun i _ => ?_
    rw [← rpow_add (fullVector_pos hp i)]
    congr 1
    ring
  have h1 : ∏ i, Real.Gamma (alpha i + c i) ≠ 0 := Finset.prod_ne_zero_iff.2 fun i _ => hG' i
  have h2 : ∏ i, Real.Gamma (alpha i) ≠ 0 := Finset.prod_ne_zero_iff.2 fun i _ => hG i
  simp only [dirichletPdf, e, Finset.prod_div_distrib]
  field_simp

theorem kernel_const_pos (alpha c : Fin (k + 1) → ℝ) (ha : ∀ i, 0 < alpha i) (hc : ∀ i, 0 ≤ c i) :
    0 < Real.Gamma (∑ i, alpha i) / Real.Gamma (∑ i, (alpha i + c i)) *
        ∏ i, (Real.Gamma (alpha i + c i) / Real.Gamma (alpha i)) := by
  have h1 := Real.Gamma_pos_of_pos (show 0 < ∑ i, alpha i from
    Finset.sum_pos (fun i _ => ha i) ⟨0, Finset.mem_univ _⟩)
  have h2 := Real.Gamma_pos_of_pos (show 0 < ∑ i, (alpha i + c i) from
    Finset.sum_pos (fun i _ => by linarith [ha i, hc i]) ⟨0, Finset.mem_univ _⟩)
  have h3 : 0 < ∏ i, (Real.Gamma (alpha i + c i) / Real.Gamma (alpha i)) :=
    Finset.prod_pos fun i _ => div_pos (Real.Gamma_pos_of_pos (by linarith [ha i, hc i])) (Real.Gamma_pos_of_pos (ha i))
  positivity

namespace Spec

/-- the counts of a sequence of category observations -/
def counts (xs : List (Fin (k + 1))) : Fin (k + 1) → ℝ := fun i => (xs.count i : ℝ)

/-- the column sums of several count vectors (`data.sum(axis=0)`) -/
def columnSums (data : List (Fin (k + 1) → ℕ)) : Fin (k + 1) → ℝ := fun i => (((data.map fun x => x i).sum : ℕ) : ℝ)

end Spec

theorem likelihood_counts (xs : List (Fin (k + 1))) (q : Fin (k + 1) → ℝ) :
    likelihood (fun q x => q x) xs q = ∏ i, q i ^ counts xs i := by
  simp only [likelihood, counts, rpow_natCast]
  induction xs with
  | nil => simp
  | cons x xs ih =>
    rw [List.map_cons, List.prod_cons, ih]
    have : ∀ i, q i ^ (x :: xs).count i = (if i = x then q i else 1) * q i ^ xs.count i := by
      intro i
      by_cases h : i = x
      · subst h; simp [pow_succ, mul_comm]
      · have : ¬ x = i := fun e => h e.symm
        simp [h, this]
    simp only [this, Finset.prod_mul_distrib]
    simp

/-- C16. Category observations, in any number and order: the posterior for their counts is Bayes' rule. -/
theorem C16_categorical_dirichlet_posterior (prior : Dirichlet (Fin (k + 1) → ℝ)) (hp : ∀ i, 0 < prior.alpha i)
    (xs : List (Fin (k + 1))) :
    ∃ post, categorical_dirichlet (counts xs) prior = .ok post ∧ (∀ i, 0 < post.alpha i) ∧
      IsPosterior volume (simplex k) (fun p => prior.pdf (fullVector p))
        (fun p => likelihood (fun q x => q x) xs (fullVector p)) (fun p => post.pdf (fullVector p)) := by
  have hc : ∀ i, 0 ≤ counts xs i := fun i => Nat.cast_nonneg _
  have hpost : ∀ i, 0 < prior.alpha i + counts xs i := fun i => by linarith [hp i, hc i]
  refine ⟨⟨fun i => prior.alpha i + counts xs i⟩, rfl, hpost, ?_⟩
  refine IsPosterior.of_density (measurableSet_simplex k) (dirichlet_isDensity _ hpost)
    (c := Real.Gamma (∑ i, prior.alpha i) / Real.Gamma (∑ i, (prior.alpha i + counts xs i)) *
      ∏ i, (Real.Gamma (prior.alpha i + counts xs i) / Real.Gamma (prior.alpha i)))
    (kernel_const_pos prior.alpha (counts xs) hp hc) ?_
  intro p hps
  rw [likelihood_counts]
  exact dirichlet_kernel prior.alpha (counts xs) hp hc hps

/-- the coefficient of `multinomialPmf` -/
noncomputable def multCoeff (x : Fin (k + 1) → ℕ) : ℝ :=
  Real.Gamma (∑ i, (x i : ℝ) + 1) / ∏ i, Real.Gamma (x i + 1)

theorem multCoeff_pos (x : Fin (k + 1) → ℕ) : 0 < multCoeff x := by
  unfold multCoeff
  have h1 : 0 < ∏ i, Real.Gamma ((x i : ℝ) + 1) := Finset.prod_pos fun i _ => Real.Gamma_pos_of_pos (by positivity)
  have h2 := Real.Gamma_pos_of_pos (show 0 < ∑ i, (x i : ℝ) + 1 by positivity)
  positivity

theorem likelihood_multinomial (data : List (Fin (k + 1) → ℕ)) (q : Fin (k + 1) → ℝ) :
    likelihood (fun q x => (Multinomial.mk (∑ i, (x i : ℝ)) q).pmf x) data q =
      (data.map multCoeff).prod * ∏ i, q i ^ columnSums data i := by
  simp only [likelihood, columnSums, rpow_natCast]
  induction data with
  | nil => simp
  | cons x data ih =>
    rw [List.map_cons, List.prod_cons, ih]
    simp only [Multinomial.pmf, multinomialPmf, if_true, List.map_cons, List.prod_cons, List.sum_cons, pow_add,
      Finset.prod_mul_distrib, multCoeff]
    ring

/-- C16. Several multinomial observations, of any sizes: the posterior for the column sums is Bayes' rule. -/
theorem C16_multinomial_dirichlet_posterior (prior : Dirichlet (Fin (k + 1) → ℝ)) (hp : ∀ i, 0 < prior.alpha i)
    (data : List (Fin (k + 1) → ℕ)) :
    ∃ post, multinomial_dirichlet (columnSums data) prior = .ok post ∧ (∀ i, 0 < post.alpha i) ∧
      IsPosterior volume (simplex k) (fun p => prior.pdf (fullVector p))
        (fun p => likelihood (fun q x => (Multinomial.mk (∑ i, (x i : ℝ)) q).pmf x) data (fullVector p))
        (fun p => post.pdf (fullVector p)) := by
  have hc : ∀ i, 0 ≤ columnSums data i := fun i => Nat.cast_nonneg _
  have hpost : ∀ i, 0 < prior.alpha i + columnSums data i := fun i => by linarith [hp i, hc i]
  have hm : 0 < (data.map multCoeff).prod := List.prod_pos fun a ha => by
    obtain ⟨x, -, rfl⟩ := List.mem_map.1 ha
    exact multCoeff_pos x
  refine ⟨⟨fun i => prior.alpha i + columnSums data i⟩, rfl, hpost, ?_⟩
  refine IsPosterior.of_density (measurableSet_simplex k) (dirichlet_isDensity _ hpost)
    (c := (data.map multCoeff).prod *
      (Real.Gamma (∑ i, prior.alpha i) / Real.Gamma (∑ i, (prior.alpha i + columnSums data i)) *
      ∏ i, (Real.Gamma (prior.alpha i + columnSums data i) / Real.Gamma (prior.alpha i))))
    (mul_pos hm (kernel_const_pos prior.alpha (columnSums data) hp hc)) ?_
  intro p hps
  rw [likelihood_multinomial, mul_left_comm, Dirichlet.pdf,
    dirichlet_kernel prior.alpha (columnSums data) hp hc hps, ← mul_assoc]
  rfl

/-- C36. The Dirichlet-multinomial pmf is the multinomial pmf averaged over the Dirichlet distribution: every number of
categories, number of trials and count vector (also one whose sum is not the number of trials). -/
theorem C36_multinomial_dirichlet_predictive (d : Dirichlet (Fin (k + 1) → ℝ)) (hd : ∀ i, 0 < d.alpha i) (n : ℕ)
    (x : Fin (k + 1) → ℕ) :
    IsPredictive volume (simplex k) (fun p => (Multinomial.mk (n : ℝ) (fullVector p)).pmf x)
      (fun p => d.pdf (fullVector p)) ((multinomial_dirichlet_predictive d (n : ℝ)).pmf x) := by
  by_cases hx : (∑ i, (x i : ℝ)) = n
  · have hc : ∀ i, (0 : ℝ) ≤ x i := fun i => Nat.cast_nonneg _
    have hpost : ∀ i, 0 < d.alpha i + (x i : ℝ) := fun i => by linarith [hd i, hc i]
    refine IsPredictive.of_density (measurableSet_simplex k) (dirichlet_isDensity _ hpost) ?_
    intro p hps
    have h := dirichlet_kernel d.alpha (fun i => (x i : ℝ)) hd hc hps
    simp only [rpow_natCast] at h
    have hpred : (multinomial_dirichlet_predictive d (n : ℝ)).pmf x =
        Real.Gamma (∑ i, d.alpha i) * Real.Gamma ((n : ℝ) + 1) / Real.Gamma (n + ∑ i, d.alpha i) *
          ∏ i, (Real.Gamma (x i + d.alpha i) / (Real.Gamma (d.alpha i) * Real.Gamma (x i + 1))) := if_pos hx
    rw [hpred]
    simp only [Multinomial.pmf, multinomialPmf, if_pos hx, Dirichlet.pdf]
    rw [mul_assoc, mul_comm (∏ i, fullVector p i ^ x i), h]
    have h1 : ∏ i, Real.Gamma ((x i : ℝ) + 1) ≠ 0 :=
      Finset.prod_ne_zero_iff.2 fun i _ => (Real.Gamma_pos_of_pos (by positivity)).ne'
    have h2 : ∏ i, Real.Gamma (d.alpha i) ≠ 0 :=
      Finset.prod_ne_zero_iff.2 fun i _ => (Real.Gamma_pos_of_pos (hd i)).ne'
    rw [show ∑ i, (d.alpha i + (x i : ℝ)) = n + ∑ i, d.alpha i by rw [Finset.sum_add_distrib, hx]; ring]
    simp only [Finset.prod_div_distrib, Finset.prod_mul_distrib, add_comm (d.alpha _)]
    field_simp
  · have h0 : (multinomial_dirichlet_predictive d (n : ℝ)).pmf x = 0 := by
      simp [DirichletMultinomial.pmf, dirichletMultinomialPmf, multinomial_dirichlet_predictive, hx]
    have h1 : ∀ p : Fin k → ℝ, (Multinomial.mk (n : ℝ) (fullVector p)).pmf x = 0 := by
      intro p; simp [Multinomial.pmf, multinomialPmf, hx]
    simp only [IsPredictive, h0, h1, zero_mul]
    exact ⟨integrableOn_zero, by simp⟩

theorem C36_categorical_dirichlet_predictive (d : Dirichlet (Fin (k + 1) → ℝ)) (hd : ∀ i, 0 < d.alpha i) (n : ℕ)
    (x : Fin (k + 1) → ℕ) :
    IsPredictive volume (simplex k) (fun p => (Multinomial.mk (n : ℝ) (fullVector p)).pmf x)
      (fun p => d.pdf (fullVector p)) ((categorical_dirichlet_predictive d (n : ℝ)).pmf x) :=
  C36_multinomial_dirichlet_predictive d hd n x

/-- With the default number of trials, the predictive probability of a category is its share of `alpha`. -/
theorem C36_one_trial (d : Dirichlet (Fin (k + 1) → ℝ)) (hd : ∀ i, 0 < d.alpha i) (j : Fin (k + 1)) :
    (categorical_dirichlet_predictive (α := ℝ) d).pmf (Pi.single j 1) = d.alpha j / ∑ i, d.alpha i := by
  have hs : 0 < ∑ i, d.alpha i := Finset.sum_pos (fun i _ => hd i) ⟨0, Finset.mem_univ _⟩
  have hG := (Real.Gamma_pos_of_pos hs).ne'
  have hsum : (∑ i, ((Pi.single j 1 : Fin (k + 1) → ℕ) i : ℝ)) = 1 := by
    rw [← Nat.cast_sum]; simp
  have hprod : (∏ i, (Real.Gamma (((Pi.single j 1 : Fin (k + 1) → ℕ) i : ℝ) + d.alpha i) /
      (Real.Gamma (d.alpha i) * Real.Gamma (((Pi.single j 1 : Fin (k + 1) → ℕ) i : ℝ) + 1)))) = d.alpha j := by
    rw [Finset.prod_eq_single j]
    · have := (Real.Gamma_pos_of_pos (hd j)).ne'
      simp only [Pi.single_eq_same, Nat.cast_one]
      rw [add_comm, Real.Gamma_add_one (hd j).ne', show (1 : ℝ) + 1 = 2 by norm_num, Real.Gamma_two]
      field_simp
    · intro i _ hij
      have := (Real.Gamma_pos_of_pos (hd i)).ne'
      simp [Pi.single_eq_of_ne hij, this]
    · simp
  simp only [categorical_dirichlet_predictive, DirichletMultinomial.pmf, dirichletMultinomialPmf, lit_real, Rat.cast_one,
    if_pos hsum, hprod]
  rw [add_comm (1 : ℝ) (∑ i, d.alpha i), Real.Gamma_add_one hs.ne', show (1 : ℝ) + 1 = 2 by norm_num, Real.Gamma_two]
  field_simp

/-- three categories, four observations -/
example := C16_categorical_dirichlet_posterior (k := 2) ⟨![1, 2, 3]⟩ (by intro i; fin_cases i <;> simp) [0, 2, 2, 1]
example : (simplex 2).Nonempty := ⟨![1 / 4, 1 / 4], by
  constructor
  · intro i; fin_cases i <;> simp
  · simp [Fin.sum_univ_two]; norm_num⟩

end Conj
