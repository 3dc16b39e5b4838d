import Verif.Lemmas.WishartBlocks
import Verif.SymSpec
import Mathlib.MeasureTheory.Constructions.Pi
import Mathlib.Topology.Instances.Matrix

/-! The inverse-Wishart density integrates to one. -/

open MeasureTheory Set Real Matrix
open scoped ENNReal

set_option linter.unusedSectionVars false

namespace Conj

open Scipy Spec

variable {m p : Type} [Fintype m] [Fintype p] [DecidableEq m] [DecidableEq p]

theorem IsDensity.lintegral_eq_one {Θ : Type*} [MeasurableSpace Θ] {μ : Measure Θ} {S : Set Θ}
    (hS : MeasurableSet S) {f : Θ → ℝ} (h : IsDensity μ S f) :
    ∫⁻ x in S, ENNReal.ofReal (f x) ∂μ = 1 := by
  rw [← ofReal_integral_eq_lintegral_ofReal h.2.1 (ae_restrict_of_forall_mem hS h.1), h.2.2,
    ENNReal.ofReal_one]

theorem isDensity_of_lintegral {Θ : Type*} [MeasurableSpace Θ] {μ : Measure Θ} {S : Set Θ}
    (hS : MeasurableSet S) {f : Θ → ℝ} (h0 : ∀ x ∈ S, 0 ≤ f x)
    (hm : AEStronglyMeasurable f (μ.restrict S))
    (h : ∫⁻ x in S, ENNReal.ofReal (f x) ∂μ = 1) : IsDensity μ S f := by
  apply isDensity_of_integral h0
  rw [integral_eq_lintegral_of_nonneg_ae (ae_restrict_of_forall_mem hS h0) hm, h,
    ENNReal.toReal_one]

/-! ### Coordinates -/

/-- index of the last row and column -/
def lastEquiv (n : ℕ) : Fin (n + 1) ≃ Fin n ⊕ Unit :=
  finSuccEquivLast.trans (Equiv.optionEquivSumPUnit _)

@[simp] theorem lastEquiv_castSucc {n : ℕ} (i : Fin n) : lastEquiv n i.castSucc = Sum.inl i := by
  simp [lastEquiv]

@[simp] theorem lastEquiv_last {n : ℕ} : lastEquiv n (Fin.last n) = Sum.inr () := by
  simp [lastEquiv]

/-- `border` indexed by `Fin (n + 1)` -/
def grow {n : ℕ} (A : Matrix (Fin n) (Fin n) ℝ) (b : Fin n → ℝ) (d : ℝ) :
    Matrix (Fin (n + 1)) (Fin (n + 1)) ℝ :=
  (border A b d).submatrix (lastEquiv n) (lastEquiv n)

theorem exists_grow {n : ℕ} {S : Matrix (Fin (n + 1)) (Fin (n + 1)) ℝ} (hS : Sᵀ = S) :
    ∃ A b d, S = grow A b d := by
  refine ⟨S.submatrix Fin.castSucc Fin.castSucc, fun i => S i.castSucc (Fin.last n),
    S (Fin.last n) (Fin.last n), ?_⟩
  have hs : ∀ i j, S j i = S i j := fun i j => congrFun (congrFun hS i) j
  ext i j
  refine Fin.lastCases ?_ (fun i => ?_) i <;> refine Fin.lastCases ?_ (fun j => ?_) j <;>
    simp [grow, border, hs]

/-- the entries on and above the diagonal: those of the leading block, the last column, the
corner -/
def upperSuccFun (n : ℕ) : UpperIdx n ⊕ (Fin n ⊕ Unit) → UpperIdx (n + 1)
  | .inl ij => ⟨(ij.1.1.castSucc, ij.1.2.castSucc), by simpa using ij.2⟩
  | .inr (.inl i) => ⟨(i.castSucc, Fin.last n), Fin.le_last _⟩
  | .inr (.inr _) => ⟨(Fin.last n, Fin.last n), le_rfl⟩

theorem upperSuccFun_bijective (n : ℕ) : Function.Bijective (upperSuccFun n) := by
  constructor
  · rintro (⟨⟨i, j⟩, h⟩ | i | _) (⟨⟨i', j'⟩, h'⟩ | i' | _) he <;>
      simp_all [upperSuccFun, Fin.castSucc_ne_last, (Fin.castSucc_ne_last _).symm]
  · rintro ⟨⟨i, j⟩, h⟩
    revert h
    refine Fin.lastCases (fun h => ?_) (fun j h => ?_) j
    · revert h
      refine Fin.lastCases (fun h => ?_) (fun i h => ?_) i
      · exact ⟨.inr (.inr ()), rfl⟩
      · exact ⟨.inr (.inl i), rfl⟩
    · revert h
      refine Fin.lastCases (fun h => ?_) (fun i h => ?_) i
      · exact absurd h (not_le.2 (Fin.castSucc_lt_last j))
      · exact ⟨.inl ⟨(i, j), by simpa using h⟩, rfl⟩

/-- index equivalence -/
noncomputable def upperSucc (n : ℕ) : UpperIdx n ⊕ (Fin n ⊕ Unit) ≃ UpperIdx (n + 1) :=
  Equiv.ofBijective _ (upperSuccFun_bijective n)

/-- split the coordinates -/
noncomputable def splitUpper (n : ℕ) :
    (UpperIdx (n + 1) → ℝ) ≃ᵐ (UpperIdx n → ℝ) × (Fin n → ℝ) × ℝ :=
  ((MeasurableEquiv.piCongrLeft (fun _ => ℝ) (upperSucc n)).symm.trans
    (MeasurableEquiv.sumPiEquivProdPi fun _ => ℝ)).trans
    (MeasurableEquiv.prodCongr (MeasurableEquiv.refl _)
      ((MeasurableEquiv.sumPiEquivProdPi fun _ => ℝ).trans
        (MeasurableEquiv.prodCongr (MeasurableEquiv.refl _) (MeasurableEquiv.funUnique Unit ℝ))))

theorem splitUpper_preserving (n : ℕ) : MeasurePreserving (splitUpper n) volume volume := by
  refine MeasurePreserving.trans (MeasurePreserving.trans
    ((volume_measurePreserving_piCongrLeft (fun _ => ℝ) (upperSucc n)).symm _)
    (volume_measurePreserving_sumPiEquivProdPi fun _ => ℝ)) ?_
  refine MeasurePreserving.prod (MeasurePreserving.id _) ?_
  exact (volume_measurePreserving_sumPiEquivProdPi fun _ => ℝ).trans
    (MeasurePreserving.prod (MeasurePreserving.id _) (volume_preserving_funUnique Unit ℝ))

theorem splitUpper_apply {n : ℕ} (c : UpperIdx (n + 1) → ℝ) :
    splitUpper n c = (fun ij => c (upperSuccFun n (.inl ij)),
      fun i => c (upperSuccFun n (.inr (.inl i))), c (upperSuccFun n (.inr (.inr ())))) := rfl

theorem symOf_grow {n : ℕ} (c : UpperIdx (n + 1) → ℝ) :
    symOf c = grow (symOf (splitUpper n c).1) (splitUpper n c).2.1 (splitUpper n c).2.2 := by
  rw [splitUpper_apply]
  ext i j
  refine Fin.lastCases ?_ (fun i => ?_) i <;> refine Fin.lastCases ?_ (fun j => ?_) j <;>
    simp [grow, border, symOf, upperSuccFun, Fin.le_last]
  rcases le_total i j with h | h
  · have h' : i.castSucc ≤ j.castSucc := by simpa using h
    simp only [min_eq_left h, max_eq_right h, min_eq_left h', max_eq_right h']
  · have h' : j.castSucc ≤ i.castSucc := by simpa using h
    simp only [min_eq_right h, max_eq_left h, min_eq_right h', max_eq_left h']

theorem lintegral_upper_succ {n : ℕ} (F : Matrix (Fin (n + 1)) (Fin (n + 1)) ℝ → ℝ≥0∞)
    (hF : Measurable fun c : UpperIdx (n + 1) → ℝ => F (symOf c)) :
    ∫⁻ c : UpperIdx (n + 1) → ℝ, F (symOf c) =
      ∫⁻ a : UpperIdx n → ℝ, ∫⁻ b : Fin n → ℝ, ∫⁻ d : ℝ, F (grow (symOf a) b d) := by
  have hG : Measurable fun x : (UpperIdx n → ℝ) × (Fin n → ℝ) × ℝ =>
      F (grow (symOf x.1) x.2.1 x.2.2) := by
    have := hF.comp (splitUpper n).symm.measurable
    convert this using 1
    funext x
    simp only [Function.comp, symOf_grow, MeasurableEquiv.apply_symm_apply]
  have h1 := (splitUpper_preserving n).lintegral_comp hG
  simp only [← symOf_grow] at h1
  rw [h1, Measure.volume_eq_prod, lintegral_prod _ hG.aemeasurable]
  refine lintegral_congr fun a => ?_
  exact lintegral_prod (fun y : (Fin n → ℝ) × ℝ => F (grow (symOf a) y.1 y.2))
    (hG.comp measurable_prodMk_left).aemeasurable

/-! ### Measurability -/

theorem continuous_symOf {n : ℕ} : Continuous (symOf (n := n)) := by
  refine continuous_matrix fun i j => ?_
  exact continuous_apply _

theorem posDef_iff_semidef_det {S : Matrix p p ℝ} : S.PosDef ↔ S.PosSemidef ∧ S.det ≠ 0 :=
  ⟨fun h => ⟨h.posSemidef, (posDef_det h).ne'⟩, fun h => h.1.posDef_iff_det_ne_zero.2 h.2⟩

theorem measurableSet_posDef {n : ℕ} :
    MeasurableSet {c : UpperIdx n → ℝ | (symOf c).PosDef} := by
  have h : {c : UpperIdx n → ℝ | (symOf c).PosDef} =
      (⋂ x : Fin n → ℝ, {c | 0 ≤ quad (symOf c) x}) ∩ {c | (symOf c).det ≠ 0} := by
    ext c
    simp only [mem_ofPred_eq, posDef_iff_semidef_det, mem_inter_iff, mem_iInter]
    refine and_congr_left fun _ => ⟨fun h x => quad_nonneg h x, fun h => ?_⟩
    refine .of_dotProduct_mulVec_nonneg ?_ fun x => ?_
    · rw [IsHermitian, conjTranspose_eq_transpose_of_trivial, symOf_symm]
    · simpa [quad] using h x
  rw [h]
  refine MeasurableSet.inter (IsClosed.measurableSet (isClosed_iInter fun x => ?_)) ?_
  · refine isClosed_le continuous_const ?_
    simp only [quad]
    exact Continuous.dotProduct continuous_const (continuous_symOf.matrix_mulVec continuous_const)
  · exact (isOpen_ne_fun continuous_symOf.matrix_det continuous_const).measurableSet

theorem measurable_trace_inv {n : ℕ} (psi : Matrix (Fin n) (Fin n) ℝ) :
    Measurable fun c : UpperIdx n → ℝ => (psi * (symOf c)⁻¹).trace := by
  have h : ∀ c : UpperIdx n → ℝ, (psi * (symOf c)⁻¹).trace =
      (symOf c).det⁻¹ * (psi * (symOf c).adjugate).trace := by
    intro c
    rw [inv_def, Ring.inverse_eq_inv', Matrix.mul_smul, trace_smul, smul_eq_mul]
  simp only [h]
  have h1 : Measurable fun c : UpperIdx n → ℝ => (symOf c).det :=
    continuous_symOf.matrix_det.measurable
  have h2 : Measurable fun c : UpperIdx n → ℝ => (psi * (symOf c).adjugate).trace :=
    (continuous_const.matrix_mul continuous_symOf.matrix_adjugate).matrix_trace.measurable
  fun_prop

theorem measurable_invwishartPdf {n : ℕ} (nu : ℝ) (psi : Matrix (Fin n) (Fin n) ℝ) :
    Measurable fun c : UpperIdx n → ℝ => invwishartPdf nu psi (symOf c) := by
  simp only [invwishartPdf_eq]
  have h1 : Measurable fun c : UpperIdx n → ℝ => (symOf c).det :=
    continuous_symOf.matrix_det.measurable
  have h2 := measurable_trace_inv psi
  fun_prop

/-! ### Reindexing -/

theorem invwishartPdf_submatrix (e : m ≃ p) (nu : ℝ) (psi S : Matrix p p ℝ) :
    invwishartPdf nu (psi.submatrix e e) (S.submatrix e e) = invwishartPdf nu psi S := by
  have ht : (psi.submatrix e e * (S.submatrix e e)⁻¹).trace = (psi * S⁻¹).trace := by
    rw [inv_submatrix_equiv, submatrix_mul_equiv]
    simp only [trace, diag, submatrix_apply]
    exact Equiv.sum_comp e fun i => (psi * S⁻¹) i i
  simp only [invwishartPdf, det_submatrix_equiv_self, ht, Fintype.card_congr e]

theorem posDef_submatrix_equiv (e : m ≃ p) {S : Matrix p p ℝ} :
    (S.submatrix e e).PosDef ↔ S.PosDef := by
  refine ⟨fun h => ?_, fun h => h.submatrix e.injective⟩
  have := h.submatrix (e := e.symm) e.symm.injective
  simpa using this

/-! ### Normalisation -/

open Classical in
/-- the density, zero off the positive definite matrices -/
noncomputable def iwE (nu : ℝ) (psi S : Matrix p p ℝ) : ℝ≥0∞ :=
  if S.PosDef then ENNReal.ofReal (invwishartPdf nu psi S) else 0

theorem measurable_iwE {n : ℕ} (nu : ℝ) (psi : Matrix (Fin n) (Fin n) ℝ) :
    Measurable fun c : UpperIdx n → ℝ => iwE nu psi (symOf c) :=
  Measurable.ite measurableSet_posDef (measurable_invwishartPdf nu psi).ennreal_ofReal
    measurable_const

theorem invwishartPdf_pos {nu : ℝ} (hnu : (Fintype.card p : ℝ) - 1 < nu) {psi S : Matrix p p ℝ}
    (hpsi : psi.PosDef) (hS : S.PosDef) : 0 < invwishartPdf nu psi S := by
  have h1 := iwConst_pos hnu hpsi
  have h2 := posDef_det hS
  rw [invwishartPdf_eq]
  positivity

/-- the integral over the last column and the corner -/
theorem iw_inner {n : ℕ} {nu : ℝ} (hnu : (n : ℝ) < nu) {P : Matrix (Fin n) (Fin n) ℝ}
    {q : Fin n → ℝ} {r : ℝ} (hP : P.PosDef) (hσ : 0 < schur P q r)
    (A : Matrix (Fin n) (Fin n) ℝ) :
    ∫⁻ b : Fin n → ℝ, ∫⁻ d : ℝ, iwE nu (grow P q r) (grow A b d) = iwE (nu - 1) P A := by
  have hcard : (Fintype.card (Fin n) : ℝ) < nu := by simpa using hnu
  have hn0 : (0 : ℝ) ≤ n := Nat.cast_nonneg _
  by_cases hA : A.PosDef
  swap
  · have : ∀ b d, iwE nu (grow P q r) (grow A b d) = 0 := by
      intro b d
      refine if_neg fun h => hA ?_
      rw [grow, posDef_submatrix_equiv, border_posDef_iff] at h
      exact h.1
    simp only [this, lintegral_zero]
    exact (if_neg hA).symm
  have hK := invwishartPdf_pos (nu := nu - 1) (by linarith) hP hA
  set g : ℝ → ℝ := (InverseGamma.dist ⟨nu / 2, schur P q r / 2⟩).pdf with hg
  set h : (Fin n → ℝ) → ℝ → ℝ := fun b s => mvnPdf (A *ᵥ (P⁻¹ *ᵥ q)) (s • (A * P⁻¹ * A)) b with hh
  have hdens := nigNd_isDensity (alpha := nu / 2) (beta := schur P q r / 2) (by linarith)
    (by positivity) (sandwich_posDef hA hP) (A *ᵥ (P⁻¹ *ᵥ q))
  have key : ∀ b d, iwE nu (grow P q r) (grow A b d) =
      (Ioi (0 : ℝ)).indicator (fun s => ENNReal.ofReal (invwishartPdf (nu - 1) P A) *
        ENNReal.ofReal (g s * h b s)) (d - quad A⁻¹ b) := by
    intro b d
    by_cases hs : 0 < schur A b d
    · have h1 : (grow A b d).PosDef := by
        rw [grow, posDef_submatrix_equiv, border_posDef_iff]; exact ⟨hA, hs⟩
      rw [indicator_of_mem (show d - quad A⁻¹ b ∈ Ioi 0 from hs), iwE, if_pos h1, grow, grow,
        invwishartPdf_submatrix, iw_border hP hA hσ hs hcard, ENNReal.ofReal_mul hK.le]
      rfl
    · have h1 : ¬ (grow A b d).PosDef := by
        rw [grow, posDef_submatrix_equiv, border_posDef_iff]; exact fun h => hs h.2
      rw [indicator_of_notMem (show d - quad A⁻¹ b ∉ Ioi 0 from hs), iwE, if_neg h1]
  simp only [key]
  have h2 : ∀ b, ∫⁻ d : ℝ, (Ioi (0 : ℝ)).indicator (fun s =>
      ENNReal.ofReal (invwishartPdf (nu - 1) P A) * ENNReal.ofReal (g s * h b s))
        (d - quad A⁻¹ b) =
      ENNReal.ofReal (invwishartPdf (nu - 1) P A) *
        ∫⁻ s in Ioi (0 : ℝ), ENNReal.ofReal (g s * h b s) := by
    intro b
    rw [lintegral_sub_right_eq_self (μ := volume) (fun s => (Ioi (0 : ℝ)).indicator (fun s =>
      ENNReal.ofReal (invwishartPdf (nu - 1) P A) * ENNReal.ofReal (g s * h b s)) s),
      lintegral_indicator measurableSet_Ioi, lintegral_const_mul' _ _ ENNReal.ofReal_ne_top]
  simp only [h2]
  rw [lintegral_const_mul' _ _ ENNReal.ofReal_ne_top]
  have h3 := IsDensity.lintegral_eq_one (MeasurableSet.univ.prod measurableSet_Ioi) hdens
  have hm := hdens.2.1.aestronglyMeasurable.aemeasurable.ennreal_ofReal
  rw [Measure.volume_eq_prod, ← Measure.prod_restrict] at h3 hm
  rw [lintegral_prod _ hm, Measure.restrict_univ] at h3
  rw [h3, mul_one]
  exact (if_pos hA).symm

theorem iw_lintegral : ∀ (n : ℕ) (nu : ℝ) (psi : Matrix (Fin n) (Fin n) ℝ), psi.PosDef →
    (n : ℝ) - 1 < nu → ∫⁻ c : UpperIdx n → ℝ, iwE nu psi (symOf c) = 1
  | 0, nu, psi, hpsi, hnu => by
    have h : ∀ c : UpperIdx 0 → ℝ, iwE nu psi (symOf c) = 1 := by
      intro c
      have hc : (symOf c).PosDef := by
        rw [Subsingleton.elim (symOf c) psi]; exact hpsi
      rw [iwE, if_pos hc, invwishartPdf]
      simp [multigamma, det_isEmpty, trace]
    simp only [h, lintegral_const, one_mul]
    rw [volume_pi, Measure.pi_of_empty]
    simp
  | n + 1, nu, psi, hpsi, hnu => by
    obtain ⟨P, q, r, rfl⟩ := exists_grow (posDef_symm hpsi)
    have h1 : P.PosDef ∧ 0 < schur P q r := by
      rwa [grow, posDef_submatrix_equiv, border_posDef_iff] at hpsi
    push_cast at hnu
    rw [lintegral_upper_succ _ (measurable_iwE _ _)]
    simp only [iw_inner (show (n : ℝ) < nu by linarith) h1.1 h1.2]
    exact iw_lintegral n (nu - 1) P h1.1 (by linarith)

/-- the inverse-Wishart density is a probability density on the positive definite matrices -/
theorem iw_isDensity {n : ℕ} {nu : ℝ} {psi : Matrix (Fin n) (Fin n) ℝ} (hpsi : psi.PosDef)
    (hnu : (n : ℝ) - 1 < nu) :
    IsDensity volume {c : UpperIdx n → ℝ | (symOf c).PosDef}
      (fun c => invwishartPdf nu psi (symOf c)) := by
  refine isDensity_of_lintegral measurableSet_posDef
    (fun c hc => (invwishartPdf_pos (by simpa using hnu) hpsi hc).le)
    (measurable_invwishartPdf nu psi).aestronglyMeasurable ?_
  rw [← iw_lintegral n nu psi hpsi hnu, ← lintegral_indicator measurableSet_posDef]
  refine lintegral_congr fun c => ?_
  by_cases hc : (symOf c).PosDef
  · rw [indicator_of_mem (show c ∈ {c : UpperIdx n → ℝ | (symOf c).PosDef} from hc), iwE, if_pos hc]
  · rw [indicator_of_notMem (show c ∉ {c : UpperIdx n → ℝ | (symOf c).PosDef} from hc), iwE,
      if_neg hc]

end Conj
