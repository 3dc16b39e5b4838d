import Verif.Lemmas.WishartNorm

/-! The Wishart density integrates to one. -/

open MeasureTheory Set Real Matrix

set_option linter.unusedSectionVars false

open scoped ENNReal

namespace Conj

open Scipy Spec

variable {m p : Type} [Fintype m] [Fintype p] [DecidableEq m] [DecidableEq p]

theorem multigamma_succ' (a : ℝ) (d : ℕ) :
    multigamma a (d + 1) = π ^ ((d : ℝ) / 2) * Real.Gamma (a - (d : ℝ) / 2) * multigamma a d := by
  unfold multigamma
  rw [Finset.prod_range_succ,
    show ((d + 1 : ℕ) : ℝ) * (((d + 1 : ℕ) : ℝ) - 1) / 4 = (d : ℝ) / 2 + (d : ℝ) * (d - 1) / 4 by
      push_cast; ring, rpow_add pi_pos]
  ring

theorem wishart_trace {P A : Matrix p p ℝ} {q b : p → ℝ} {r d : ℝ} (hP : P.PosDef) (hA : A.PosDef)
    (hσ : schur P q r ≠ 0) :
    ((border P q r)⁻¹ * border A b d).trace = (P⁻¹ * A).trace +
      (schur P q r)⁻¹ * (quad A⁻¹ (b - A *ᵥ (P⁻¹ *ᵥ q)) + schur A b d) := by
  have hAs := posDef_symm hA
  have hAi := posDef_symm hA.inv
  rw [trace_mul_comm, trace_border hP hσ, trace_mul_comm A]
  congr 2
  set u := P⁻¹ *ᵥ q
  have e : A⁻¹ *ᵥ (A *ᵥ u) = u := by
    rw [mulVec_mulVec, nonsing_inv_mul _ (posDef_unit hA), one_mulVec]
  have e2 : quad A⁻¹ (A *ᵥ u) = quad A u := by
    rw [quad, e, quad, dotProduct_comm]
  rw [quad_sub hAi, e2, e, schur]
  ring

theorem wishart_border {P A : Matrix p p ℝ} {q b : p → ℝ} {r d nu : ℝ} (hP : P.PosDef)
    (hA : A.PosDef) (hσ : 0 < schur P q r) (hs : 0 < schur A b d)
    (hnu : (Fintype.card p : ℝ) < nu) :
    wishartPdf nu (border P q r) (border A b d) =
      wishartPdf nu P A *
      ((Gamma.dist ⟨(nu - Fintype.card p) / 2, 1 / (2 * schur P q r)⟩).pdf (schur A b d) *
      mvnPdf (A *ᵥ (P⁻¹ *ᵥ q)) (schur P q r • A) b) := by
  have hn0 : (0 : ℝ) ≤ Fintype.card p := Nat.cast_nonneg _
  have hdA := posDef_det hA
  have hdP := posDef_det hP
  rw [Gamma.pdf_eq ⟨(nu - Fintype.card p) / 2, 1 / (2 * schur P q r)⟩ (by positivity) hs, mvnPdf_smul hA hσ]
  simp only [wishartPdf]
  rw [wishart_trace hP hA hσ.ne', det_border hA, det_border hP, Fintype.card_sum, Fintype.card_unit,
    multigamma_succ']
  set σ := schur P q r with hσd
  set s := schur A b d with hsd
  set n : ℝ := (Fintype.card p : ℝ) with hn
  set Q := quad A⁻¹ (b - A *ᵥ (P⁻¹ *ᵥ q))
  have hG := Real.Gamma_pos_of_pos (show 0 < nu / 2 - n / 2 by linarith)
  have hmg := multigamma_pos (a := nu / 2) (d := Fintype.card p) (by linarith)
  rw [show (nu - n) / 2 = nu / 2 - n / 2 by ring]
  have hsq : √((2 * π) ^ n * A.det) = 2 ^ (n / 2) * π ^ (n / 2) * A.det ^ (1 / 2 : ℝ) := by
    rw [show (2 * π) ^ n * A.det = (2 ^ (n / 2) * π ^ (n / 2) * A.det ^ (1 / 2 : ℝ)) ^ 2 by
        rw [mul_pow, mul_pow, ← rpow_natCast (A.det ^ _), ← rpow_natCast (2 ^ _),
          ← rpow_natCast (π ^ _), ← rpow_mul hdA.le, ← rpow_mul two_pos.le, ← rpow_mul pi_pos.le,
          mul_rpow two_pos.le pi_pos.le]
        rw [show (1 / 2 : ℝ) * (2 : ℕ) = 1 by norm_num, rpow_one,
          show n / 2 * ((2 : ℕ) : ℝ) = n by push_cast; ring]]
    rw [sqrt_sq (by positivity)]
  rw [hsq]
  have e1 : exp (-(1 / 2) * ((P⁻¹ * A).trace + σ⁻¹ * (Q + s))) =
      exp (-(1 / 2) * (P⁻¹ * A).trace) *
        (exp (-(1 / (2 * σ) * s)) * exp (-(1 / 2 * Q / σ))) := by
    rw [← exp_add, ← exp_add]; congr 1; field_simp; ring
  rw [e1, mul_rpow hdA.le hs.le, mul_rpow hdP.le hσ.le, one_div (2 * σ), inv_rpow (by positivity),
    mul_rpow two_pos.le hσ.le]
  push_cast
  have e2 : A.det ^ ((nu - (n + 1) - 1) / 2) =
      A.det ^ ((nu - n - 1) / 2) * (A.det ^ (1 / 2 : ℝ))⁻¹ := by
    rw [← rpow_neg hdA.le, ← rpow_add hdA]; congr 1; ring
  have e3 : s ^ ((nu - (n + 1) - 1) / 2) = s ^ (nu / 2 - n / 2 - 1) := by congr 1; ring
  have e4 : σ ^ (nu / 2) = σ ^ (nu / 2 - n / 2) * σ ^ (n / 2) := by
    rw [← rpow_add hσ]; congr 1; ring
  have e5 : (2 : ℝ) ^ (nu * (n + 1) / 2) =
      2 ^ (nu * n / 2) * 2 ^ (nu / 2 - n / 2) * 2 ^ (n / 2) := by
    rw [← rpow_add two_pos, ← rpow_add two_pos]; congr 1; ring
  rw [e2, e3, e4, e5, rpow_neg hσ.le]
  simp only [one_div]
  generalize exp (-2⁻¹ * (P⁻¹ * A).trace) = E1
  generalize exp (-((2 * σ)⁻¹ * s)) = E2
  generalize exp (-(2⁻¹ * Q / σ)) = E3
  have q1 : 0 < (2 : ℝ) ^ (nu * n / 2) := by positivity
  have q2 : 0 < (2 : ℝ) ^ (nu / 2 - n / 2) := by positivity
  have q3 : 0 < (2 : ℝ) ^ (n / 2) := by positivity
  have q4 : 0 < π ^ (n / 2) := by positivity
  have q5 : 0 < A.det ^ (2⁻¹ : ℝ) := by positivity
  have q6 : 0 < σ ^ (nu / 2 - n / 2) := by positivity
  have q7 : 0 < σ ^ (n / 2) := by positivity
  field_simp

theorem wishartPdf_pos {nu : ℝ} (hnu : (Fintype.card p : ℝ) - 1 < nu) {W S : Matrix p p ℝ}
    (hW : W.PosDef) (hS : S.PosDef) : 0 < wishartPdf nu W S := by
  have h1 := multigamma_pos (a := nu / 2) (d := Fintype.card p) (by linarith)
  have h2 := posDef_det hS
  have h3 := posDef_det hW
  simp only [wishartPdf]
  positivity

theorem measurable_wishartPdf {n : ℕ} (nu : ℝ) (W : Matrix (Fin n) (Fin n) ℝ) :
    Measurable fun c : UpperIdx n → ℝ => wishartPdf nu W (symOf c) := by
  simp only [wishartPdf]
  have h1 : Measurable fun c : UpperIdx n → ℝ => (symOf c).det :=
    continuous_symOf.matrix_det.measurable
  have h2 : Measurable fun c : UpperIdx n → ℝ => (W⁻¹ * symOf c).trace :=
    (continuous_const.matrix_mul continuous_symOf).matrix_trace.measurable
  fun_prop

theorem wishartPdf_submatrix (e : m ≃ p) (nu : ℝ) (W S : Matrix p p ℝ) :
    wishartPdf nu (W.submatrix e e) (S.submatrix e e) = wishartPdf nu W S := by
  have ht : ((W.submatrix e e)⁻¹ * S.submatrix e e).trace = (W⁻¹ * S).trace := by
    rw [inv_submatrix_equiv, submatrix_mul_equiv]
    simp only [trace, diag, submatrix_apply]
    exact Equiv.sum_comp e fun i => (W⁻¹ * S) i i
  simp only [wishartPdf, det_submatrix_equiv_self, ht, Fintype.card_congr e]

open Classical in
/-- the density, zero off the positive definite matrices -/
noncomputable def wE (nu : ℝ) (W S : Matrix p p ℝ) : ℝ≥0∞ :=
  if S.PosDef then ENNReal.ofReal (wishartPdf nu W S) else 0

theorem measurable_wE {n : ℕ} (nu : ℝ) (W : Matrix (Fin n) (Fin n) ℝ) :
    Measurable fun c : UpperIdx n → ℝ => wE nu W (symOf c) :=
  Measurable.ite measurableSet_posDef (measurable_wishartPdf nu W).ennreal_ofReal measurable_const

/-- the integral over the last column and the corner -/
theorem wishart_inner {n : ℕ} {nu : ℝ} (hnu : (n : ℝ) < nu) {P : Matrix (Fin n) (Fin n) ℝ}
    {q : Fin n → ℝ} {r : ℝ} (hP : P.PosDef) (hσ : 0 < schur P q r)
    (A : Matrix (Fin n) (Fin n) ℝ) :
    ∫⁻ b : Fin n → ℝ, ∫⁻ d : ℝ, wE nu (grow P q r) (grow A b d) = wE nu P A := by
  have hcard : (Fintype.card (Fin n) : ℝ) < nu := by simpa using hnu
  by_cases hA : A.PosDef
  swap
  · have : ∀ b d, wE nu (grow P q r) (grow A b d) = 0 := by
      intro b d
      refine if_neg fun h => hA ?_
      rw [grow, posDef_submatrix_equiv, border_posDef_iff] at h
      exact h.1
    simp only [this, lintegral_zero]
    exact (if_neg hA).symm
  have hK := wishartPdf_pos (nu := nu) (by linarith) hP hA
  set g : ℝ → ℝ := (Gamma.dist ⟨(nu - Fintype.card (Fin n)) / 2, 1 / (2 * schur P q r)⟩).pdf with hg
  set h : (Fin n → ℝ) → ℝ := fun b => mvnPdf (A *ᵥ (P⁻¹ *ᵥ q)) (schur P q r • A) b with hh
  have hgd : IsDensity volume (Ioi 0) g := Gamma.isDensity _ (by simp only; linarith) (by simp only; positivity)
  have hhd : IsDensity volume univ h := mvn_isDensity (posDef_smul hA hσ) _
  have key : ∀ b d, wE nu (grow P q r) (grow A b d) =
      (Ioi (0 : ℝ)).indicator (fun s => ENNReal.ofReal (wishartPdf nu P A * h b) *
        ENNReal.ofReal (g s)) (d - quad A⁻¹ b) := by
    intro b d
    have hb0 := hhd.1 b (mem_univ _)
    by_cases hs : 0 < schur A b d
    · have h1 : (grow A b d).PosDef := by
        rw [grow, posDef_submatrix_equiv, border_posDef_iff]; exact ⟨hA, hs⟩
      rw [indicator_of_mem (show d - quad A⁻¹ b ∈ Ioi 0 from hs), wE, if_pos h1, grow, grow,
        wishartPdf_submatrix, wishart_border hP hA hσ hs hcard, ← ENNReal.ofReal_mul (by positivity)]
      congr 1
      rw [mul_assoc, mul_comm (h b)]
      rfl
    · have h1 : ¬ (grow A b d).PosDef := by
        rw [grow, posDef_submatrix_equiv, border_posDef_iff]; exact fun h => hs h.2
      rw [indicator_of_notMem (show d - quad A⁻¹ b ∉ Ioi 0 from hs), wE, if_neg h1]
  simp only [key]
  have h2 : ∀ b, ∫⁻ d : ℝ, (Ioi (0 : ℝ)).indicator (fun s =>
      ENNReal.ofReal (wishartPdf nu P A * h b) * ENNReal.ofReal (g s)) (d - quad A⁻¹ b) =
      ENNReal.ofReal (wishartPdf nu P A) * ENNReal.ofReal (h b) := by
    intro b
    rw [lintegral_sub_right_eq_self (μ := volume) (fun s => (Ioi (0 : ℝ)).indicator (fun s =>
      ENNReal.ofReal (wishartPdf nu P A * h b) * ENNReal.ofReal (g s)) s),
      lintegral_indicator measurableSet_Ioi, lintegral_const_mul' _ _ ENNReal.ofReal_ne_top,
      IsDensity.lintegral_eq_one measurableSet_Ioi hgd, mul_one, ENNReal.ofReal_mul hK.le]
  simp only [h2]
  rw [lintegral_const_mul' _ _ ENNReal.ofReal_ne_top]
  have h3 := IsDensity.lintegral_eq_one MeasurableSet.univ hhd
  rw [Measure.restrict_univ] at h3
  rw [h3, mul_one]
  exact (if_pos hA).symm

theorem wishart_lintegral : ∀ (n : ℕ) (nu : ℝ) (W : Matrix (Fin n) (Fin n) ℝ), W.PosDef →
    (n : ℝ) - 1 < nu → ∫⁻ c : UpperIdx n → ℝ, wE nu W (symOf c) = 1
  | 0, nu, W, hW, hnu => by
    have h : ∀ c : UpperIdx 0 → ℝ, wE nu W (symOf c) = 1 := by
      intro c
      have hc : (symOf c).PosDef := by
        rw [Subsingleton.elim (symOf c) W]; exact hW
      rw [wE, if_pos hc, wishartPdf]
      simp [multigamma, det_isEmpty, trace]
    simp only [h, lintegral_const, one_mul]
    rw [volume_pi, Measure.pi_of_empty]
    simp
  | n + 1, nu, W, hW, hnu => by
    obtain ⟨P, q, r, rfl⟩ := exists_grow (posDef_symm hW)
    have h1 : P.PosDef ∧ 0 < schur P q r := by
      rwa [grow, posDef_submatrix_equiv, border_posDef_iff] at hW
    push_cast at hnu
    rw [lintegral_upper_succ _ (measurable_wE _ _)]
    simp only [wishart_inner (show (n : ℝ) < nu by linarith) h1.1 h1.2]
    exact wishart_lintegral n nu P h1.1 (by linarith)

/-- the Wishart density is a probability density on the positive definite matrices -/
theorem wishart_isDensity {n : ℕ} {nu : ℝ} {W : Matrix (Fin n) (Fin n) ℝ} (hW : W.PosDef)
    (hnu : (n : ℝ) - 1 < nu) :
    IsDensity volume {c : UpperIdx n → ℝ | (symOf c).PosDef}
      (fun c => wishartPdf nu W (symOf c)) := by
  refine isDensity_of_lintegral measurableSet_posDef
    (fun c hc => (wishartPdf_pos (by simpa using hnu) hW hc).le)
    (measurable_wishartPdf nu W).aestronglyMeasurable ?_
  rw [← wishart_lintegral n nu W hW hnu, ← lintegral_indicator measurableSet_posDef]
  refine lintegral_congr fun c => ?_
  by_cases hc : (symOf c).PosDef
  · rw [indicator_of_mem (show c ∈ {c : UpperIdx n → ℝ | (symOf c).PosDef} from hc), wE, if_pos hc]
  · rw [indicator_of_notMem (show c ∉ {c : UpperIdx n → ℝ | (symOf c).PosDef} from hc), wE,
      if_neg hc]

end Conj
