import Verif.Lemmas.DirichletMerge
import Verif.Props.Hypergeometric
import Mathlib.Topology.Algebra.InfiniteSum.ENNReal

/-! Renaming and merging the categories of a Dirichlet-multinomial distribution. -/

open MeasureTheory Set Real

namespace Conj

open Spec Scipy

variable {k l : ℕ}

theorem dirichletMultinomialPmf_nonneg (α : Fin (k + 1) → ℝ) (hα : ∀ i, 0 < α i) (n : ℕ) (x : Fin (k + 1) → ℕ) :
    0 ≤ dirichletMultinomialPmf α n x := by
  have hs : 0 < ∑ i, α i := Finset.sum_pos (fun i _ => hα i) ⟨0, Finset.mem_univ _⟩
  unfold dirichletMultinomialPmf
  split_ifs
  · have h1 := Real.Gamma_pos_of_pos hs
    have h2 := Real.Gamma_pos_of_pos (show (0 : ℝ) < n + 1 by positivity)
    have h3 := Real.Gamma_pos_of_pos (show (0 : ℝ) < n + ∑ i, α i by positivity)
    refine mul_nonneg (by positivity) (Finset.prod_nonneg fun i _ => ?_)
    have h4 := Real.Gamma_pos_of_pos (show (0 : ℝ) < x i + α i from add_pos_of_nonneg_of_pos (Nat.cast_nonneg _) (hα i))
    have h5 := Real.Gamma_pos_of_pos (hα i)
    have h6 := Real.Gamma_pos_of_pos (show (0 : ℝ) < (x i : ℝ) + 1 by positivity)
    positivity
  · exact le_rfl

/-- the expectation of a function of the counts -/
noncomputable def dmInt (n : ℕ) (α : Fin (k + 1) → ℝ) (F : (Fin (k + 1) → ℕ) → ENNReal) : ENNReal :=
  ∑' x, ENNReal.ofReal (dirichletMultinomialPmf α n x) * F x

theorem dmInt_perm (n : ℕ) (α : Fin (k + 1) → ℝ) (σ : Equiv.Perm (Fin (k + 1))) (F : (Fin (k + 1) → ℕ) → ENNReal) :
    dmInt n α (fun q => F (q ∘ σ)) = dmInt n (α ∘ σ) F := by
  have e : ∀ x : Fin (k + 1) → ℕ, dirichletMultinomialPmf α n x = dirichletMultinomialPmf (α ∘ σ) n (x ∘ σ) := by
    intro x
    simp only [dirichletMultinomialPmf, Function.comp]
    rw [Equiv.sum_comp σ fun i => (x i : ℝ), Equiv.sum_comp σ fun i => α i,
      Equiv.prod_comp σ fun i => Real.Gamma (x i + α i) / (Real.Gamma (α i) * Real.Gamma ((x i : ℝ) + 1))]
  simp only [dmInt, e]
  exact Equiv.tsum_eq (σ.symm.arrowCongr (Equiv.refl ℕ)) fun x => ENNReal.ofReal (dirichletMultinomialPmf (α ∘ σ) n x) * F x

theorem tsum_cons (f : (Fin (k + 1) → ℕ) → ENNReal) : ∑' x, f x = ∑' a : ℕ, ∑' t : Fin k → ℕ, f (Fin.cons a t) := by
  rw [← ENNReal.tsum_prod (f := fun a (t : Fin k → ℕ) => f (Fin.cons a t))]
  exact ((Fin.consEquiv fun _ : Fin (k + 1) => ℕ).tsum_eq f).symm

/-- the pmf of a count vector: that of the vector with the first two categories merged, times the chance of the split -/
theorem dirichletMultinomialPmf_split (α : Fin (k + 2) → ℝ) (hα : ∀ i, 0 < α i) (n s m : ℕ) (hm : m ≤ s) (t : Fin k → ℕ) :
    dirichletMultinomialPmf α n (Fin.cons m (Fin.cons (s - m) t : Fin (k + 1) → ℕ)) =
      dirichletMultinomialPmf (mergeTwo α) n (Fin.cons s t) *
        (BetaBinomial.dist { n := (s : ℝ), alpha := α 0, beta := α 1 }).pmf (m : ℤ) := by
  have hsum : ∑ i, mergeTwo α i = ∑ i, α i := by
    rw [Fin.sum_univ_succ, Fin.sum_univ_succ (f := α), Fin.sum_univ_succ]
    simp only [mergeTwo, Fin.cons_zero, Fin.cons_succ, Fin.succ_zero_eq_one, add_assoc]
  have hx : (∑ i, (((Fin.cons m (Fin.cons (s - m) t : Fin (k + 1) → ℕ) : Fin (k + 2) → ℕ) i : ℕ) : ℝ)) =
      ∑ i, (((Fin.cons s t : Fin (k + 1) → ℕ) i : ℕ) : ℝ) := by
    rw [Fin.sum_univ_succ, Fin.sum_univ_succ, Fin.sum_univ_succ (n := k)]
    simp only [Fin.cons_zero, Fin.cons_succ]
    push_cast [hm]
    ring
  simp only [dirichletMultinomialPmf, hx, hsum]
  split_ifs with h
  · rw [mul_assoc]
    congr 1
    rw [Fin.prod_univ_succ, Fin.prod_univ_succ, Fin.prod_univ_succ (n := k), BetaBinomial.pmf_nat s m hm]
    simp only [Fin.cons_zero, Fin.cons_succ, mergeTwo, Fin.succ_zero_eq_one, betaFn]
    have p0 := Real.Gamma_pos_of_pos (hα 0)
    have p1 := Real.Gamma_pos_of_pos (hα 1)
    have p01 := Real.Gamma_pos_of_pos (add_pos (hα 0) (hα 1))
    have hms : (0 : ℝ) ≤ (s : ℝ) - m := sub_nonneg.2 (by exact_mod_cast hm)
    have p2 := Real.Gamma_pos_of_pos (show (0 : ℝ) < m + α 0 by have := hα 0; positivity)
    have p3 := Real.Gamma_pos_of_pos (show (0 : ℝ) < ((s - m : ℕ) : ℝ) + α 1 by have := hα 1; positivity)
    have p4 := Real.Gamma_pos_of_pos (show (0 : ℝ) < s + (α 0 + α 1) by have := hα 0; have := hα 1; positivity)
    rw [Nat.choose_eq_factorial_div_factorial hm,
      Nat.cast_div (Nat.factorial_mul_factorial_dvd_factorial hm) (by positivity)]
    rw [show (m : ℝ) + α 0 + ((s : ℝ) - m + α 1) = s + (α 0 + α 1) by ring]
    rw [← Nat.cast_sub hm]
    simp only [Real.Gamma_nat_eq_factorial]
    rw [show (Fin.cons m (Fin.cons (s - m) t : Fin (k + 1) → ℕ) : Fin (k + 2) → ℕ) 1 = s - m from rfl]
    push_cast
    field_simp
  · simp

theorem dmInt_mergeTwo (n : ℕ) (α : Fin (k + 2) → ℝ) (hα : ∀ i, 0 < α i) (F : (Fin (k + 1) → ℕ) → ENNReal) :
    dmInt n α (fun q => F (mergeTwo q)) = dmInt n (mergeTwo α) F := by
  have hpos : ∀ j, 0 < mergeTwo α j := by
    intro j
    refine Fin.cases ?_ (fun i => ?_) j
    · exact add_pos (hα _) (hα _)
    · exact hα _
  simp only [dmInt]
  rw [tsum_cons]
  simp only [tsum_cons (k := k)]
  rw [← ENNReal.tsum_prod (f := fun a b => ∑' t : Fin k → ℕ,
      ENNReal.ofReal (dirichletMultinomialPmf α n (Fin.cons a (Fin.cons b t : Fin (k + 1) → ℕ))) *
        F (mergeTwo (Fin.cons a (Fin.cons b t : Fin (k + 1) → ℕ)))),
    ← Equiv.tsum_eq (Finset.HasAntidiagonal.sigmaAntidiagonalEquivProd (A := ℕ)), ENNReal.tsum_sigma']
  refine tsum_congr fun s => ?_
  have e : ∀ (c : Finset.antidiagonal s) (t : Fin k → ℕ),
      ENNReal.ofReal (dirichletMultinomialPmf α n (Fin.cons c.1.1 (Fin.cons c.1.2 t : Fin (k + 1) → ℕ))) *
        F (mergeTwo (Fin.cons c.1.1 (Fin.cons c.1.2 t : Fin (k + 1) → ℕ))) =
      ENNReal.ofReal ((BetaBinomial.dist { n := (s : ℝ), alpha := α 0, beta := α 1 }).pmf (c.1.1 : ℤ)) *
        (ENNReal.ofReal (dirichletMultinomialPmf (mergeTwo α) n (Fin.cons s t)) * F (Fin.cons s t)) := by
    rintro ⟨⟨a, b⟩, hab⟩ t
    rw [Finset.mem_antidiagonal] at hab
    simp only at hab ⊢
    subst hab
    have h1 := dirichletMultinomialPmf_split α hα n (a + b) a (Nat.le_add_right a b) t
    rw [Nat.add_sub_cancel_left] at h1
    rw [h1, ENNReal.ofReal_mul (dirichletMultinomialPmf_nonneg _ hpos n _)]
    have h2 : mergeTwo (Fin.cons a (Fin.cons b t : Fin (k + 1) → ℕ) : Fin (k + 2) → ℕ) = Fin.cons (a + b) t := by
      funext j
      refine Fin.cases ?_ (fun i => ?_) j
      · rfl
      · simp only [mergeTwo, Fin.cons_succ]
    rw [h2]
    ring
  have e' : ∀ c : Finset.antidiagonal s, (∑' t : Fin k → ℕ,
      ENNReal.ofReal (dirichletMultinomialPmf α n (Fin.cons c.1.1 (Fin.cons c.1.2 t : Fin (k + 1) → ℕ))) *
        F (mergeTwo (Fin.cons c.1.1 (Fin.cons c.1.2 t : Fin (k + 1) → ℕ)))) =
      ENNReal.ofReal ((BetaBinomial.dist { n := (s : ℝ), alpha := α 0, beta := α 1 }).pmf (c.1.1 : ℤ)) *
        ∑' t : Fin k → ℕ, ENNReal.ofReal (dirichletMultinomialPmf (mergeTwo α) n (Fin.cons s t)) * F (Fin.cons s t) := by
    intro c
    rw [← ENNReal.tsum_mul_left]
    exact tsum_congr fun t => e c t
  have e'' : ∀ c : Finset.antidiagonal s, ((Finset.HasAntidiagonal.sigmaAntidiagonalEquivProd (A := ℕ)) ⟨s, c⟩) = c.1 := fun c => rfl
  simp only [e'', e']
  rw [ENNReal.tsum_mul_right]
  have hone : (∑' c : Finset.antidiagonal s,
      ENNReal.ofReal ((BetaBinomial.dist { n := (s : ℝ), alpha := α 0, beta := α 1 }).pmf (c.1.1 : ℤ))) = 1 := by
    rw [Finset.tsum_subtype (Finset.antidiagonal s) fun c : ℕ × ℕ =>
      ENNReal.ofReal ((BetaBinomial.dist { n := (s : ℝ), alpha := α 0, beta := α 1 }).pmf (c.1 : ℤ)),
      Finset.Nat.sum_antidiagonal_eq_sum_range_succ_mk, ← ENNReal.ofReal_sum_of_nonneg,
      BetaBinomial.sum_pmf s _ _ (hα 0) (hα 1), ENNReal.ofReal_one]
    intro m hm
    exact (BetaBinomial.pmf_pos s m (Nat.lt_succ_iff.1 (Finset.mem_range.1 hm)) _ _ (hα 0) (hα 1)).le
  rw [hone, one_mul]

theorem dmInt_groupTotals (n : ℕ) (g : Fin (k + 1) → Fin (l + 1)) (hg : Function.Surjective g) (α : Fin (k + 1) → ℝ)
    (hα : ∀ i, 0 < α i) (F : (Fin (l + 1) → ℕ) → ENNReal) :
    dmInt n α (fun q => F (groupTotals g q)) = dmInt n (groupTotals g α) F :=
  merge_induction (M := ℕ) (fun _ => dmInt n) (fun _ α σ F _ _ => dmInt_perm n α σ F)
    (fun _ α F hα _ => dmInt_mergeTwo n α hα F) k l g hg α hα F (measurable_of_countable _)

end Conj
