import Verif.Lemmas.Marginal
import Verif.Props.MultivariateNormal
import Verif.Props.DistMeaning

/-!
# Indexing a multivariate distribution (C56)

`densLaw f` is the probability law with Lebesgue density `f`.  If `x` has the law of the
distribution, `x[i]` has the push-forward law under `x ↦ x i`; the claim is that this is the
law of the distribution returned by `__getitem__`.
-/

open MeasureTheory Set Real Matrix

set_option linter.unusedSectionVars false

namespace Conj

open Scipy Spec

variable {p k l : Type} [Fintype p] [DecidableEq p] [Fintype k] [DecidableEq k]

/-- C56. A list of distinct indices gives the joint law of those coordinates. -/
theorem C56_multivariate_normal_list (d : MultivariateNormal (p → ℝ) (Matrix p p ℝ))
    (h : d.cov.PosDef) (key : k → p) (hk : Function.Injective key) :
    (d.getList key).cov.PosDef ∧
    (densLaw d.pdf).map (fun x j => x (key j)) = densLaw (d.getList key).pdf :=
  ⟨h.submatrix hk, mvnLaw_map h d.mu key hk⟩

/-- C56. Likewise for the multivariate t. -/
theorem C56_multivariate_student_t_list
    (d : MultivariateStudentT ℝ (p → ℝ) (Matrix p p ℝ)) (h : d.sigma.PosDef) (hn : 0 < d.nu)
    (key : k → p) (hk : Function.Injective key) :
    (d.getList key).sigma.PosDef ∧ (d.getList key).nu = d.nu ∧
    (densLaw d.pdf).map (fun x j => x (key j)) = densLaw (d.getList key).pdf :=
  ⟨h.submatrix hk, rfl, mvtLaw_map h d.mu hn key hk⟩

/-- C56. Indexing composes. -/
theorem C56_index_composes (d : MultivariateNormal (p → ℝ) (Matrix p p ℝ))
    (t : MultivariateStudentT ℝ (p → ℝ) (Matrix p p ℝ)) (key : k → p) (key' : l → k) (j : k) :
    (d.getList key).getList key' = d.getList (key ∘ key') ∧
    (d.getList key).getInt j = d.getInt (key j) ∧
    (t.getList key).getList key' = t.getList (key ∘ key') ∧
    (t.getList key).getInt j = t.getInt (key j) := ⟨rfl, rfl, rfl, rfl⟩

theorem mat_unit_inv (A : Matrix Unit Unit ℝ) : A⁻¹ = fun _ _ => (A () ())⁻¹ := by
  rw [Matrix.inv_def, Ring.inverse_eq_inv', Matrix.det_unique]
  ext i j
  simp [Matrix.adjugate_subsingleton]

theorem mvnPdf_unit (m v : ℝ) (hv : 0 < v) (A : Matrix Unit Unit ℝ) (hA : A () () = v)
    (x : Unit → ℝ) : mvnPdf (fun _ => m) A x = (Normal.dist ⟨m, √v⟩).pdf (x ()) := by
  rw [C52_normal ⟨m, √v⟩ (Real.sqrt_pos.2 hv)]
  simp only [mvnPdf, quad, mat_unit_inv, Matrix.det_unique, hA, Fintype.card_unit, Nat.cast_one,
    rpow_one]
  simp only [dotProduct, mulVec, Finset.univ_unique, Finset.sum_singleton, Pi.sub_apply]
  rw [ProbabilityTheory.gaussianPDFReal, Real.sq_sqrt hv.le, Real.coe_toNNReal _ hv.le,
    div_eq_inv_mul]
  congr 2
  field_simp

theorem mvtPdf_unit (m v nu : ℝ) (hv : 0 < v) (hn : 0 < nu) (A : Matrix Unit Unit ℝ)
    (hA : A () () = v) (x : Unit → ℝ) :
    mvtPdf (fun _ => m) A nu x = (StudentT.dist ⟨m, √v, nu⟩).pdf (x ()) := by
  rw [C52_student_t ⟨m, √v, nu⟩ (Real.sqrt_pos.2 hv) hn]
  simp only [mvtPdf, quad, mat_unit_inv, Matrix.det_unique, hA, Fintype.card_unit, Nat.cast_one]
  simp only [dotProduct, mulVec, Finset.univ_unique, Finset.sum_singleton, Pi.sub_apply]
  rw [div_pow, Real.sq_sqrt hv.le,
    ← Real.sqrt_eq_rpow, ← Real.sqrt_eq_rpow, ← Real.sqrt_eq_rpow, Real.sqrt_mul Real.pi_pos.le]
  congr 2
  · ring
  · rw [show x default = x () from rfl]
    ring

theorem measurable_normal_pdf (m s : ℝ) (hs : 0 < s) : Measurable (Normal.dist ⟨m, s⟩).pdf := by
  rw [show (Normal.dist ⟨m, s⟩).pdf = _ from funext (C52_normal ⟨m, s⟩ hs)]
  fun_prop

theorem continuous_student_pdf (m s nu : ℝ) (hs : 0 < s) (hn : 0 < nu) :
    Continuous (StudentT.dist ⟨m, s, nu⟩).pdf := by
  rw [show (StudentT.dist ⟨m, s, nu⟩).pdf = _ from funext (C52_student_t ⟨m, s, nu⟩ hs hn)]
  refine continuous_const.mul (Continuous.rpow_const (by fun_prop) fun x => Or.inl ?_)
  simp only
  positivity

theorem diag_pos {A : Matrix p p ℝ} (h : A.PosDef) (i : p) : 0 < A i i := h.diag_pos

/-- C56. `MultivariateNormal[i]` is the law of coordinate `i`. -/
theorem C56_multivariate_normal_int (d : MultivariateNormal (p → ℝ) (Matrix p p ℝ))
    (h : d.cov.PosDef) (i : p) :
    (densLaw d.pdf).map (fun x => x i) = densLaw (d.getInt i).dist.pdf := by
  have hv := diag_pos h i
  have h1 := mvnLaw_map h d.mu (fun _ : Unit => i) (fun _ _ _ => rfl)
  have h2 : densLaw (mvnPdf (fun _ : Unit => d.mu i) (d.cov.submatrix (fun _ => i) fun _ => i)) =
      densLaw fun x : Unit → ℝ => (Normal.dist ⟨d.mu i, √(d.cov i i)⟩).pdf (x ()) := by
    congr 1
    funext x
    exact mvnPdf_unit _ _ hv _ rfl x
  rw [h2] at h1
  have h3 := densLaw_unit _ (measurable_normal_pdf (d.mu i) _ (Real.sqrt_pos.2 hv))
  rw [← h1, Measure.map_map (by fun_prop) (by fun_prop)] at h3
  simp only [MultivariateNormal.getInt, powq_half]
  exact h3

/-- C56, partial: the law of coordinate `i` of a multivariate t is the t distribution with scale
`sigma[i, i] ** 0.5`.  Missing: `MultivariateStudentT[i]` returns the scale `sigma[i, i]`, see
`C56_multivariate_student_t_int_iff`. -/
theorem C56_multivariate_student_t_int_partial
    (d : MultivariateStudentT ℝ (p → ℝ) (Matrix p p ℝ)) (h : d.sigma.PosDef) (hn : 0 < d.nu)
    (i : p) :
    (densLaw d.pdf).map (fun x => x i) =
      densLaw (StudentT.dist { d.getInt i with sigma := √(d.getInt i).sigma }).pdf := by
  have hv := diag_pos h i
  have h1 := mvtLaw_map h d.mu hn (fun _ : Unit => i) (fun _ _ _ => rfl)
  have h2 : densLaw (mvtPdf (fun _ : Unit => d.mu i) (d.sigma.submatrix (fun _ => i) fun _ => i)
      d.nu) = densLaw fun x : Unit → ℝ =>
        (StudentT.dist ⟨d.mu i, √(d.sigma i i), d.nu⟩).pdf (x ()) := by
    congr 1
    funext x
    exact mvtPdf_unit _ _ _ hv hn _ rfl x
  rw [h2] at h1
  have h3 := densLaw_unit _ (continuous_student_pdf (d.mu i) _ d.nu (Real.sqrt_pos.2 hv) hn).measurable
  rw [← h1, Measure.map_map (by fun_prop) (by fun_prop)] at h3
  exact h3

/-- C56 for an integer index of a multivariate t holds exactly when `sigma[i, i] = 1`. -/
theorem C56_multivariate_student_t_int_iff
    (d : MultivariateStudentT ℝ (p → ℝ) (Matrix p p ℝ)) (h : d.sigma.PosDef) (hn : 0 < d.nu)
    (i : p) :
    (densLaw d.pdf).map (fun x => x i) = densLaw (d.getInt i).dist.pdf ↔ d.sigma i i = 1 := by
  have hv := diag_pos h i
  have hsv := Real.sqrt_pos.2 hv
  rw [C56_multivariate_student_t_int_partial d h hn]
  constructor
  · intro he
    have c1 := continuous_student_pdf (d.mu i) (√(d.sigma i i)) d.nu hsv hn
    have c2 := continuous_student_pdf (d.mu i) (d.sigma i i) d.nu hv hn
    have hae : (fun x => ENNReal.ofReal ((StudentT.dist ⟨d.mu i, √(d.sigma i i), d.nu⟩).pdf x))
        =ᵐ[volume] fun x => ENNReal.ofReal ((StudentT.dist ⟨d.mu i, d.sigma i i, d.nu⟩).pdf x) := by
      exact (withDensity_eq_iff_of_sigmaFinite c1.measurable.ennreal_ofReal.aemeasurable
        c2.measurable.ennreal_ofReal.aemeasurable).1 he
    have hfe := congrFun ((ENNReal.continuous_ofReal.comp c1).ae_eq_iff_eq volume
      (ENNReal.continuous_ofReal.comp c2) |>.1 hae) (d.mu i)
    simp only [Function.comp] at hfe
    rw [C52_student_t ⟨d.mu i, √(d.sigma i i), d.nu⟩ hsv hn,
      C52_student_t ⟨d.mu i, d.sigma i i, d.nu⟩ hv hn] at hfe
    have g1 := Real.Gamma_pos_of_pos (show 0 < (d.nu + 1) / 2 by positivity)
    have g2 := Real.Gamma_pos_of_pos (show 0 < d.nu / 2 by positivity)
    have g3 : 0 < √(π * d.nu) := Real.sqrt_pos.2 (by positivity)
    simp only [sub_self, zero_div, ne_eq, OfNat.ofNat_ne_zero, not_false_eq_true, zero_pow,
      mul_zero, add_zero, one_rpow, mul_one] at hfe
    rw [ENNReal.ofReal_eq_ofReal_iff (by positivity) (by positivity)] at hfe
    have h3 : √(d.sigma i i) = d.sigma i i := by
      field_simp at hfe
      linarith
    have h4 := Real.sq_sqrt hv.le
    rw [h3] at h4
    nlinarith
  · intro h1
    have : √(d.getInt i).sigma = (d.getInt i).sigma := by
      simp [MultivariateStudentT.getInt, h1]
    rw [this]

/-- C56 is false of `MultivariateStudentT[i]`: a concrete scale matrix. -/
theorem C56_multivariate_student_t_int_false :
    ∃ d : MultivariateStudentT ℝ (Fin 2 → ℝ) (Matrix (Fin 2) (Fin 2) ℝ), d.sigma.PosDef ∧
      0 < d.nu ∧ ∃ i, (densLaw d.pdf).map (fun x => x i) ≠ densLaw (d.getInt i).dist.pdf := by
  refine ⟨{ mu := 0, sigma := !![2, 1; 1, 2], nu := 3 }, exampleCov_posDef, by norm_num, 0, ?_⟩
  rw [Ne, C56_multivariate_student_t_int_iff _ exampleCov_posDef (by norm_num)]
  norm_num

example := C56_multivariate_normal_int { mu := 0, cov := !![2, 1; 1, 2] } exampleCov_posDef 1
example := C56_multivariate_normal_list (k := Unit) { mu := 0, cov := !![2, 1; 1, 2] }
  exampleCov_posDef (fun _ => 1) (fun _ _ _ => rfl)

end Conj
