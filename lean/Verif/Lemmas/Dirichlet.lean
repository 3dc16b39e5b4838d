import Verif.DirichletScipy
import Verif.Lemmas.Sums
import Verif.Lemmas.Bayes

/-! The Dirichlet normaliser, by induction on the number of categories. -/

open MeasureTheory Set Real

namespace Conj

open Spec Scipy

variable {k : ℕ}

/-- the scaled open simplex -/
def simplexOf (k : ℕ) (s : ℝ) : Set (Fin k → ℝ) := {p | (∀ i, 0 < p i) ∧ ∑ i, p i < s}

theorem measurableSet_simplexOf (k : ℕ) (s : ℝ) : MeasurableSet (simplexOf k s) := by
  have : simplexOf k s = (⋂ i, {p : Fin k → ℝ | 0 < p i}) ∩ {p | ∑ i, p i < s} := by
    ext p; simp [simplexOf]
  rw [this]
  refine (MeasurableSet.iInter fun i => measurableSet_lt measurable_const (measurable_pi_apply i)).inter ?_
  exact measurableSet_lt (by fun_prop) measurable_const

/-- the Dirichlet kernel on the scaled simplex -/
noncomputable def dirKernel (a : Fin k → ℝ) (b s : ℝ) (p : Fin k → ℝ) : ℝ :=
  (∏ i, p i ^ (a i - 1)) * (s - ∑ i, p i) ^ (b - 1)

theorem measurable_dirKernel (a : Fin k → ℝ) (b s : ℝ) : Measurable (dirKernel a b s) := by
  unfold dirKernel
  refine Measurable.mul ?_ ?_
  · exact Finset.measurable_prod _ fun i _ => (measurable_pi_apply i).pow_const _
  · exact Measurable.pow_const (measurable_const.sub (by fun_prop)) _

theorem lintegral_pi_succ (F : (Fin (k + 1) → ℝ) → ENNReal) (hF : Measurable F) :
    ∫⁻ p, F p = ∫⁻ x : ℝ, ∫⁻ t : Fin k → ℝ, F (Fin.cons x t) := by
  have h := (volume_preserving_piFinSuccAbove (fun _ : Fin (k + 1) => ℝ) 0).symm
  rw [← h.lintegral_comp hF]
  have hm : Measurable fun z : ℝ × (Fin k → ℝ) => F ((MeasurableEquiv.piFinSuccAbove (fun _ => ℝ) 0).symm z) :=
    hF.comp (MeasurableEquiv.measurable _)
  have := lintegral_prod (μ := (volume : Measure ℝ)) (ν := (volume : Measure (Fin k → ℝ))) _ hm.aemeasurable
  refine this.trans ?_
  refine lintegral_congr fun x => lintegral_congr fun t => ?_
  congr 1
  funext i
  simp [MeasurableEquiv.piFinSuccAbove, Fin.insertNthEquiv]

theorem dirichlet_lintegral : ∀ (k : ℕ) (a : Fin k → ℝ) (b : ℝ), (∀ i, 0 < a i) → 0 < b → ∀ s : ℝ, 0 < s →
    ∫⁻ p in simplexOf k s, ENNReal.ofReal (dirKernel a b s p) =
      ENNReal.ofReal (s ^ (∑ i, a i + b - 1) * ((∏ i, Real.Gamma (a i)) * Real.Gamma b / Real.Gamma (∑ i, a i + b))) := by
  intro k
  induction k with
  | zero =>
    intro a b ha hb s hs
    have hG := (Real.Gamma_pos_of_pos hb).ne'
    have : simplexOf 0 s = Set.univ := by
      ext p; simp [simplexOf, hs]
    rw [this, Measure.restrict_univ]
    have hv : (volume : Measure (Fin 0 → ℝ)) = Measure.dirac 0 := by
      rw [volume_pi, Measure.pi_of_empty _ 0]
    rw [hv, lintegral_dirac]
    simp [dirKernel, hG]
  | succ k ih =>
    intro a b ha hb s hs
    set a' : Fin k → ℝ := fun i => a i.succ with ha'
    set A := ∑ i, a' i with hA
    have hA0 : 0 ≤ A := Finset.sum_nonneg fun i _ => (ha _).le
    have hsum : ∑ i, a i = a 0 + A := by rw [Fin.sum_univ_succ]
    set K := (∏ i, Real.Gamma (a' i)) * Real.Gamma b / Real.Gamma (A + b) with hK
    have hK0 : 0 < K := by
      have : 0 < ∏ i, Real.Gamma (a' i) := Finset.prod_pos fun i _ => Real.Gamma_pos_of_pos (ha _)
      have := Real.Gamma_pos_of_pos hb
      have := Real.Gamma_pos_of_pos (show 0 < A + b by linarith)
      positivity
    rw [← lintegral_indicator (measurableSet_simplexOf _ _), lintegral_pi_succ]
    · have key : ∀ x : ℝ, (∫⁻ t : Fin k → ℝ, (simplexOf (k + 1) s).indicator
          (fun p => ENNReal.ofReal (dirKernel a b s p)) (Fin.cons x t)) =
          (Ioo 0 s).indicator (fun x => ENNReal.ofReal K *
            ENNReal.ofReal (x ^ (a 0 - 1) * (s - x) ^ (A + b - 1))) x := by
        intro x
        have hmem : ∀ t : Fin k → ℝ, (Fin.cons x t : Fin (k + 1) → ℝ) ∈ simplexOf (k + 1) s ↔
            0 < x ∧ t ∈ simplexOf k (s - x) := by
          intro t
          simp only [simplexOf, mem_ofPred_eq, Fin.forall_fin_succ, Fin.cons_zero, Fin.cons_succ, Fin.sum_univ_succ]
          constructor
          · rintro ⟨⟨h1, h2⟩, h3⟩
            exact ⟨h1, h2, by linarith⟩
          · rintro ⟨h1, h2, h3⟩
            exact ⟨⟨h1, h2⟩, by linarith⟩
        by_cases hx : x ∈ Ioo 0 s
        · rw [indicator_of_mem hx]
          have hsx : 0 < s - x := sub_pos.2 hx.2
          have e : ∀ t : Fin k → ℝ, (simplexOf (k + 1) s).indicator
              (fun p => ENNReal.ofReal (dirKernel a b s p)) (Fin.cons x t) =
              ENNReal.ofReal (x ^ (a 0 - 1)) * (simplexOf k (s - x)).indicator
                (fun t => ENNReal.ofReal (dirKernel a' b (s - x) t)) t := by
            intro t
            by_cases ht : t ∈ simplexOf k (s - x)
            · rw [indicator_of_mem ((hmem t).2 ⟨hx.1, ht⟩), indicator_of_mem ht,
                ← ENNReal.ofReal_mul (rpow_nonneg hx.1.le _)]
              congr 1
              simp only [dirKernel, Fin.prod_univ_succ, Fin.sum_univ_succ, Fin.cons_zero, Fin.cons_succ, ha']
              rw [show s - (x + ∑ i, t i) = s - x - ∑ i, t i by ring]
              ring
            · rw [indicator_of_notMem (fun h => ht ((hmem t).1 h).2), indicator_of_notMem ht, mul_zero]
          simp_rw [e]
          rw [lintegral_const_mul' _ _ ENNReal.ofReal_ne_top, lintegral_indicator (measurableSet_simplexOf _ _),
            ih a' b (fun i => ha _) hb (s - x) hsx, ← ENNReal.ofReal_mul (rpow_nonneg hx.1.le _),
            ← ENNReal.ofReal_mul hK0.le]
          congr 1
          simp only [hK, hA]
          ring
        · rw [indicator_of_notMem hx]
          have e : ∀ t : Fin k → ℝ, (simplexOf (k + 1) s).indicator
              (fun p => ENNReal.ofReal (dirKernel a b s p)) (Fin.cons x t) = 0 := by
            intro t
            refine indicator_of_notMem (fun h => hx ?_) _
            obtain ⟨h1, h2, h3⟩ := (hmem t).1 h
            exact ⟨h1, by linarith [Finset.sum_nonneg fun i (_ : i ∈ Finset.univ) => (h2 i).le]⟩
          simp [e]
      simp_rw [key]
      rw [lintegral_indicator measurableSet_Ioo, lintegral_const_mul' _ _ ENNReal.ofReal_ne_top,
        beta_scaled_integral (ha 0) (show 0 < A + b by linarith) hs, ← ENNReal.ofReal_mul hK0.le]
      congr 1
      have hG := (Real.Gamma_pos_of_pos (show 0 < A + b by linarith)).ne'
      rw [hsum, Fin.prod_univ_succ]
      simp only [hK, betaFn, ← add_assoc]
      field_simp
      ring
    · exact (measurable_dirKernel a b s).ennreal_ofReal.indicator (measurableSet_simplexOf _ _)

theorem simplex_eq (k : ℕ) : simplex k = simplexOf k 1 := rfl

theorem dirichletPdf_full (alpha : Fin (k + 1) → ℝ) (p : Fin k → ℝ) :
    dirichletPdf alpha (fullVector p) = Real.Gamma (∑ i, alpha i) / (∏ i, Real.Gamma (alpha i)) *
      dirKernel (fun i => alpha i.castSucc) (alpha (Fin.last k)) 1 p := by
  simp [dirichletPdf, dirKernel, fullVector, Fin.prod_univ_castSucc]

theorem fullVector_pos {p : Fin k → ℝ} (hp : p ∈ simplex k) (i : Fin (k + 1)) : 0 < fullVector p i := by
  refine Fin.lastCases ?_ (fun j => ?_) i
  · simpa [fullVector] using hp.2
  · simpa [fullVector] using hp.1 j

/-- The Dirichlet density is a probability density on the simplex, for every number of categories. -/
theorem dirichlet_isDensity (alpha : Fin (k + 1) → ℝ) (ha : ∀ i, 0 < alpha i) :
    IsDensity volume (simplex k) (fun p => dirichletPdf alpha (fullVector p)) := by
  have hprod : 0 < ∏ i, Real.Gamma (alpha i) := Finset.prod_pos fun i _ => Real.Gamma_pos_of_pos (ha i)
  have hsum : 0 < ∑ i, alpha i := Finset.sum_pos (fun i _ => ha i) ⟨0, Finset.mem_univ _⟩
  have hG := Real.Gamma_pos_of_pos hsum
  have h0 : ∀ p ∈ simplex k, 0 ≤ dirichletPdf alpha (fullVector p) := by
    intro p hp
    have : 0 ≤ ∏ i, fullVector p i ^ (alpha i - 1) :=
      Finset.prod_nonneg fun i _ => rpow_nonneg (fullVector_pos hp i).le _
    unfold dirichletPdf
    positivity
  refine isDensity_of_integral h0 ?_
  rw [simplex_eq] at h0 ⊢
  have hm : Measurable fun p : Fin k → ℝ => dirichletPdf alpha (fullVector p) := by
    simp_rw [dirichletPdf_full]
    exact (measurable_dirKernel _ _ _).const_mul _
  rw [integral_eq_lintegral_of_nonneg_ae
    ((ae_restrict_iff' (measurableSet_simplexOf k 1)).2 (Filter.Eventually.of_forall h0)) hm.aestronglyMeasurable]
  have e : ∀ p, ENNReal.ofReal (dirichletPdf alpha (fullVector p)) =
      ENNReal.ofReal (Real.Gamma (∑ i, alpha i) / (∏ i, Real.Gamma (alpha i))) *
        ENNReal.ofReal (dirKernel (fun i => alpha i.castSucc) (alpha (Fin.last k)) 1 p) := by
    intro p
    rw [dirichletPdf_full, ENNReal.ofReal_mul (by positivity)]
  simp_rw [e]
  rw [lintegral_const_mul' _ _ ENNReal.ofReal_ne_top,
    dirichlet_lintegral k _ _ (fun i => ha _) (ha _) 1 one_pos, ← ENNReal.ofReal_mul (by positivity)]
  rw [one_rpow, one_mul, ← Fin.sum_univ_castSucc, ← Fin.prod_univ_castSucc (fun i => Real.Gamma (alpha i)), ENNReal.toReal_ofReal (by positivity)]
  field_simp

end Conj
