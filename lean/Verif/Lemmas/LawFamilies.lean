import Verif.Lemmas.LawOn
import Verif.Lemmas.WishartDensity

/-! The laws of the families, and measurability in their parameters. -/

open MeasureTheory Set

set_option linter.unusedSectionVars false

namespace Conj

open Scipy Spec Matrix

variable {n : ℕ}

instance {m n : Type} [Countable m] [Countable n] : BorelSpace (Matrix m n ℝ) :=
  inferInstanceAs (BorelSpace (m → n → ℝ))

instance {m n : Type} [Countable m] [Countable n] : StandardBorelSpace (Matrix m n ℝ) :=
  inferInstanceAs (StandardBorelSpace (m → n → ℝ))

theorem invgamma_lawOn (d : InverseGamma ℝ) (hb : 0 < d.beta) : contLaw d.dist = lawOn (Ioi 0) d.dist.pdf := by
  refine contLaw_eq_lawOn _ measurableSet_Ioi (Filter.Eventually.of_forall fun x hx => ?_)
  have hx : x ≤ 0 := not_lt.1 hx
  have : ¬ 0 < (x - 0) / d.beta := not_lt.2 (by rw [sub_zero]; exact div_nonpos_of_nonpos_of_nonneg hx hb.le)
  simp [Cont.pdf, InverseGamma.dist, Family.std, if_neg (show ¬ 0 < x / d.beta by simpa using this)]

theorem gamma_lawOn (d : Gamma ℝ) (hb : 0 < d.beta) : contLaw d.dist = lawOn (Ioi 0) d.dist.pdf := by
  refine contLaw_eq_lawOn _ measurableSet_Ioi ?_
  have h0 : ∀ᵐ x : ℝ, x ≠ 0 := by simp [ae_iff]
  filter_upwards [h0] with x hx0 hx
  have hx : x < 0 := lt_of_le_of_ne (not_lt.1 hx) hx0
  have h : ¬ 0 ≤ x * d.beta := not_le.2 (mul_neg_of_neg_of_pos hx hb)
  simp [Cont.pdf, Gamma.dist, Family.std, h]

theorem norm_lawOn (d : Normal ℝ) : contLaw d.dist = lawOn univ d.dist.pdf := by
  rw [lawOn_univ]; rfl

theorem beta_lawOn (d : Beta ℝ) : contLaw d.dist = lawOn (Ioo 0 1) d.dist.pdf := by
  refine contLaw_eq_lawOn _ measurableSet_Ioo ?_
  have h0 : ∀ᵐ x : ℝ, x ≠ 0 := by simp [ae_iff]
  have h1 : ∀ᵐ x : ℝ, x ≠ 1 := by simp [ae_iff]
  filter_upwards [h0, h1] with x hx0 hx1 hx
  have h : ¬ (0 ≤ x ∧ x ≤ 1) := fun h => hx ⟨lt_of_le_of_ne h.1 hx0.symm, lt_of_le_of_ne h.2 hx1⟩
  simp [Cont.pdf, Beta.dist, Family.std, h]

theorem measurable_matrix {X m n : Type} [MeasurableSpace X] {f : X → Matrix m n ℝ}
    (h : ∀ i j, Measurable fun x => f x i j) : Measurable f :=
  measurable_pi_iff.2 fun i => measurable_pi_iff.2 fun j => h i j

theorem measurable_entry {m n : Type} (i : m) (j : n) : Measurable fun S : Matrix m n ℝ => S i j :=
  (measurable_pi_apply j).comp (measurable_pi_apply i)

theorem measurable_symOf {n : ℕ} : Measurable (symOf (n := n)) :=
  measurable_matrix fun i j => by
    simp only [symOf, Matrix.of_apply]
    exact measurable_pi_apply _

theorem measurable_const_smul_matrix {m n : Type} (c : ℝ) : Measurable fun S : Matrix m n ℝ => c • S :=
  measurable_matrix fun i j => by
    simp only [Matrix.smul_apply, smul_eq_mul]
    exact (measurable_entry i j).const_mul c

theorem measurableEmbedding_symOf {n : ℕ} : MeasurableEmbedding (symOf (n := n)) := by
  have hr : range (symOf (n := n)) = ⋂ i, ⋂ j, {S | S j i = S i j} := by
    ext S
    simp only [mem_range, mem_iInter]
    constructor
    · rintro ⟨c, rfl⟩ i j
      exact congrFun (congrFun (symOf_symm c) i) j
    · intro h
      exact ⟨upperOf S, symOf_upperOf (by ext i j; exact h i j)⟩
  refine MeasurableEmbedding.of_measurable_inverse measurable_symOf ?_ (g := upperOf)
    (measurable_pi_iff.2 fun ij => measurable_entry _ _) upperOf_symOf
  rw [hr]
  exact MeasurableSet.iInter fun i => MeasurableSet.iInter fun j =>
    measurableSet_eq_fun (measurable_entry j i) (measurable_entry i j)

theorem lintegral_symLaw {n : ℕ} (g : Matrix (Fin n) (Fin n) ℝ → ℝ) (F : Matrix (Fin n) (Fin n) ℝ → ENNReal) :
    ∫⁻ S, F S ∂symLaw g = ∫⁻ c, F (symOf c) ∂lawOn {c | (symOf c).PosDef} fun c : UpperIdx n → ℝ => g (symOf c) :=
  measurableEmbedding_symOf.lintegral_map F

theorem ae_symLaw {n : ℕ} (g : Matrix (Fin n) (Fin n) ℝ → ℝ) : ∀ᵐ S ∂symLaw g, S.PosDef := by
  rw [symLaw, measurableEmbedding_symOf.ae_map_iff]
  exact ae_lawOn_mem measurableSet_posDef _

theorem lintegral_countLaw (first : ℝ) (pmf : ℝ → ℝ) {f : ℝ → ENNReal} (hf : Measurable f) :
    ∫⁻ x, f x ∂countLaw first pmf = ∑' m : ℕ, ENNReal.ofReal (pmf (first + m)) * f (first + m) := by
  rw [countLaw, lintegral_map hf (measurable_of_countable _),
    lintegral_withDensity_eq_lintegral_mul _ (measurable_of_countable _) (measurable_of_countable _),
    lintegral_count]
  rfl

theorem lintegral_geom {p : ℝ} {f : ℝ → ENNReal} (hf : Measurable f) :
    ∫⁻ x, f x ∂((discLaw { family := .geom p }).map fun k : ℤ => (k : ℝ)) =
      ∑' m : ℕ, ENNReal.ofReal ((1 - p) ^ m * p) * f (1 + m) := by
  rw [discLaw, lintegral_map hf (measurable_of_countable _),
    lintegral_withDensity_eq_lintegral_mul _ (measurable_of_countable _) (measurable_of_countable _),
    lintegral_count]
  have hi : Function.Injective fun m : ℕ => (m : ℤ) + 1 := fun a b h => by simpa using h
  rw [← hi.tsum_eq]
  · refine tsum_congr fun m => ?_
    simp only [Pi.mul_apply, Disc.pmf, DiscFamily.pmf0, sub_zero]
    rw [if_pos (by omega)]
    push_cast
    rw [add_sub_cancel_right, Real.rpow_natCast, add_comm]
  · intro k hk
    by_contra hn
    refine hk ?_
    simp only [Pi.mul_apply, Disc.pmf, DiscFamily.pmf0, sub_zero]
    rw [if_neg, ENNReal.ofReal_zero, zero_mul]
    intro h1
    exact hn ⟨(k - 1).toNat, by simp only; omega⟩

theorem measurable_det : Measurable fun S : Matrix (Fin n) (Fin n) ℝ => S.det :=
  (continuous_id.matrix_det).measurable

theorem measurable_matrix_inv : Measurable fun S : Matrix (Fin n) (Fin n) ℝ => S⁻¹ := by
  refine measurable_matrix fun i j => ?_
  have h : (fun S : Matrix (Fin n) (Fin n) ℝ => S⁻¹ i j) = fun S => S.det⁻¹ * S.adjugate i j := by
    funext S
    rw [inv_def, Ring.inverse_eq_inv', Matrix.smul_apply, smul_eq_mul]
  rw [h]
  have h2 : Measurable fun S : Matrix (Fin n) (Fin n) ℝ => S.adjugate i j :=
    ((continuous_id.matrix_adjugate).matrix_elem i j).measurable
  exact measurable_det.inv.mul h2

theorem measurable_quad : Measurable fun q : (Fin n → ℝ) × Matrix (Fin n) (Fin n) ℝ => quad q.2 q.1 := by
  have h2 : ∀ i j, Measurable fun q : (Fin n → ℝ) × Matrix (Fin n) (Fin n) ℝ => q.2 i j := fun i j =>
    (measurable_entry i j).comp measurable_snd
  have h3 : ∀ i, Measurable fun q : (Fin n → ℝ) × Matrix (Fin n) (Fin n) ℝ => q.1 i := fun i =>
    (measurable_pi_apply i).comp measurable_fst
  simp only [quad, dotProduct, mulVec]
  refine Finset.measurable_fun_sum _ fun i _ => ?_
  refine Measurable.mul (h3 i) (Finset.measurable_fun_sum _ fun j _ => ?_)
  exact (h2 i j).mul (h3 j)

theorem measurable_mvnPdf_joint (mean : Fin n → ℝ) :
    Measurable fun q : (Fin n → ℝ) × Matrix (Fin n) (Fin n) ℝ => mvnPdf mean q.2 q.1 := by
  have h1 : Measurable fun q : (Fin n → ℝ) × Matrix (Fin n) (Fin n) ℝ => q.2.det :=
    measurable_det.comp measurable_snd
  have h4 : Measurable fun q : (Fin n → ℝ) × Matrix (Fin n) (Fin n) ℝ => (q.1 - mean, q.2⁻¹) :=
    (measurable_fst.sub measurable_const).prodMk (measurable_matrix_inv.comp measurable_snd)
  have h5 : Measurable fun q : (Fin n → ℝ) × Matrix (Fin n) (Fin n) ℝ => quad q.2⁻¹ (q.1 - mean) :=
    measurable_quad.comp h4
  exact (Real.measurable_exp.comp (h5.const_mul _)).div (Real.continuous_sqrt.measurable.comp (h1.const_mul _))

theorem measurable_mvnPdf_all :
    Measurable fun z : (Fin n → ℝ) × (Fin n → ℝ) × Matrix (Fin n) (Fin n) ℝ => mvnPdf z.2.1 z.2.2 z.1 := by
  have e : (fun z : (Fin n → ℝ) × (Fin n → ℝ) × Matrix (Fin n) (Fin n) ℝ => mvnPdf z.2.1 z.2.2 z.1) =
      fun z => mvnPdf 0 z.2.2 (z.1 - z.2.1) := by
    funext z; simp [mvnPdf]
  rw [e]
  exact (measurable_mvnPdf_joint (0 : Fin n → ℝ)).comp
    (f := fun z : (Fin n → ℝ) × (Fin n → ℝ) × Matrix (Fin n) (Fin n) ℝ => (z.1 - z.2.1, z.2.2))
    ((measurable_fst.sub (measurable_fst.comp measurable_snd)).prodMk (measurable_snd.comp measurable_snd))

theorem posDef_smul_inv {S : Matrix (Fin n) (Fin n) ℝ} (h : S.PosDef) {c : ℝ} (hc : 0 < c) : (c • S)⁻¹.PosDef :=
  (posDef_smul h hc).inv

theorem measurable_smul_inv (c : ℝ) : Measurable fun S : Matrix (Fin n) (Fin n) ℝ => (c • S)⁻¹ :=
  measurable_matrix_inv.comp (measurable_const_smul_matrix c)

end Conj
