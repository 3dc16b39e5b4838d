import Verif.Lemmas.StudentLimit
import Verif.Lemmas.NiwNorm
import Verif.Lemmas.LawFamilies

/-!
# Concentration of inverse Wishart distributions
-/

open MeasureTheory Set Filter Topology Matrix

set_option linter.unusedSectionVars false

namespace Conj

open Scipy Spec

/-! ## Convergence in probability -/

/-- the function `f` tends to `y₀` in probability -/
def InProb {A Y : Type} [MeasurableSpace A] [PseudoMetricSpace Y] (L : ℕ → Measure A) (f : A → Y) (y₀ : Y) : Prop :=
  ∀ ε > 0, Tendsto (fun n => L n {a | ε ≤ dist (f a) y₀}) atTop (𝓝 0)

section
variable {A Y Z : Type} [MeasurableSpace A] [PseudoMetricSpace Y] [PseudoMetricSpace Z] {L : ℕ → Measure A}
  {f : A → Y} {y₀ : Y}

theorem InProb.comp (h : InProb L f y₀) {g : Y → Z} (hg : ContinuousAt g y₀) : InProb L (fun a => g (f a)) (g y₀) := by
  intro ε hε
  obtain ⟨δ, hδ, hb⟩ := Metric.continuousAt_iff.1 hg ε hε
  refine tendsto_of_tendsto_of_tendsto_of_le_of_le tendsto_const_nhds (h δ hδ) (fun _ => zero_le) fun n => ?_
  refine measure_mono fun a ha => ?_
  by_contra hc
  exact absurd (hb (not_le.1 hc)) (not_lt.2 ha)

theorem InProb.pi {ι : Type} [Fintype ι] {F : A → ι → ℝ} {y : ι → ℝ} (h : ∀ i, InProb L (fun a => F a i) (y i)) :
    InProb L F y := by
  intro ε hε
  have hs : Tendsto (fun n => ∑ i, L n {a | ε ≤ dist (F a i) (y i)}) atTop (𝓝 0) := by
    have := tendsto_finsetSum Finset.univ fun i _ => h i ε hε
    simpa using this
  refine tendsto_of_tendsto_of_tendsto_of_le_of_le tendsto_const_nhds hs (fun _ => zero_le) fun n => ?_
  refine le_trans (measure_mono fun a ha => ?_) (measure_iUnion_fintype_le (L n) fun i => {a | ε ≤ dist (F a i) (y i)})
  by_contra hc
  simp only [mem_iUnion, not_exists] at hc
  refine absurd ((dist_pi_lt_iff hε).2 fun i => ?_) (not_lt.2 ha)
  have := hc i
  rw [mem_ofPred_eq, not_le] at this
  exact this

theorem InProb.congr (h : InProb L f y₀) {f' : A → Y} (he : ∀ n, ∀ᵐ a ∂L n, f a = f' a) : InProb L f' y₀ := by
  intro ε hε
  refine (h ε hε).congr fun n => measure_congr ?_
  filter_upwards [he n] with a ha
  exact propext (by change ε ≤ dist (f a) y₀ ↔ ε ≤ dist (f' a) y₀; rw [ha])

end

/-! ## The Laplace transform -/

variable {n : ℕ}

theorem measurable_quad_symInv (u : Fin n → ℝ) : Measurable fun c : UpperIdx n → ℝ => quad (symOf c)⁻¹ u := by
  have hs : Continuous fun c : UpperIdx n → ℝ => symOf c := continuous_symOf
  have h1 : Measurable fun c : UpperIdx n → ℝ => (symOf c).det := hs.matrix_det.measurable
  have h2 : Measurable fun c : UpperIdx n → ℝ => u ⬝ᵥ ((symOf c).adjugate *ᵥ u) :=
    (continuous_const.dotProduct (hs.matrix_adjugate.matrix_mulVec continuous_const)).measurable
  have e : (fun c : UpperIdx n → ℝ => quad (symOf c)⁻¹ u) =
      fun c => ((symOf c).det)⁻¹ * (u ⬝ᵥ ((symOf c).adjugate *ᵥ u)) := by
    funext c
    rw [quad, Matrix.inv_def, Ring.inverse_eq_inv', smul_mulVec, dotProduct_smul, smul_eq_mul]
  rw [e]
  exact h1.inv.mul h2

theorem iw_tilt {nu t : ℝ} {psi S : Matrix (Fin n) (Fin n) ℝ} (ht : 0 ≤ t) (hpsi : psi.PosDef) (u : Fin n → ℝ) :
    invwishartPdf nu psi S * Real.exp (-(t / 2) * quad S⁻¹ u) =
      (1 + t * quad psi⁻¹ u) ^ (-(nu + 0) / 2) * invwishartPdf nu (psi + t • vecMulVec u u) S := by
  have hd := posDef_det hpsi
  have hq : 0 ≤ quad psi⁻¹ u := quad_nonneg hpsi.inv.posSemidef u
  have hb : 0 < 1 + t * quad psi⁻¹ u := by positivity
  simp only [invwishartPdf]
  rw [det_add_vecMulVec hpsi, Real.mul_rpow hd.le hb.le, Matrix.add_mul, trace_add, Matrix.smul_mul, trace_smul,
    trace_vecMulVec_mul, smul_eq_mul]
  have e1 : Real.exp (-(1 / 2) * ((psi * S⁻¹).trace + t * quad S⁻¹ u)) =
      Real.exp (-(1 / 2) * (psi * S⁻¹).trace) * Real.exp (-(t / 2) * quad S⁻¹ u) := by
    rw [← Real.exp_add]; congr 1; ring
  have e2 : (1 + t * quad psi⁻¹ u) ^ (-(nu + 0) / 2) * (1 + t * quad psi⁻¹ u) ^ (nu / 2) = 1 := by
    rw [← Real.rpow_add hb]
    have : -(nu + 0) / 2 + nu / 2 = 0 := by ring
    rw [this, Real.rpow_zero]
  rw [e1]
  linear_combination (-(psi.det ^ (nu / 2) / (2 ^ (nu * (Fintype.card (Fin n) : ℝ) / 2) * multigamma (nu / 2) (Fintype.card (Fin n))) *
    S.det ^ (-(nu + (Fintype.card (Fin n) : ℝ) + 1) / 2) * (Real.exp (-(1 / 2) * (psi * S⁻¹).trace) *
      Real.exp (-(t / 2) * quad S⁻¹ u)))) * e2

/-- the inverse Wishart law on the coordinates of the upper triangle -/
noncomputable def iwLaw (nu : ℝ) (psi : Matrix (Fin n) (Fin n) ℝ) : Measure (UpperIdx n → ℝ) :=
  lawOn {c | (symOf c).PosDef} fun c => invwishartPdf nu psi (symOf c)

theorem iwLaw_prob {nu : ℝ} {psi : Matrix (Fin n) (Fin n) ℝ} (hpsi : psi.PosDef) (hnu : (n : ℝ) - 1 < nu) :
    IsProbabilityMeasure (iwLaw nu psi) := lawOn_prob measurableSet_posDef (iw_isDensity hpsi hnu)

theorem iw_laplace {nu t : ℝ} {psi : Matrix (Fin n) (Fin n) ℝ} (ht : 0 ≤ t) (hpsi : psi.PosDef)
    (hnu : (n : ℝ) - 1 < nu) (u : Fin n → ℝ) :
    ∫ c, Real.exp (-(t / 2) * quad (symOf c)⁻¹ u) ∂iwLaw nu psi = (1 + t * quad psi⁻¹ u) ^ (-(nu + 0) / 2) := by
  have hm : Measurable fun c : UpperIdx n → ℝ => Real.exp (-(t / 2) * quad (symOf c)⁻¹ u) :=
    Real.measurable_exp.comp ((measurable_quad_symInv u).const_mul _)
  have hq : 0 ≤ quad psi⁻¹ u := quad_nonneg hpsi.inv.posSemidef u
  have hb : 0 < 1 + t * quad psi⁻¹ u := by positivity
  have hvv : (vecMulVec u u).PosSemidef := by
    have := posSemidef_vecMulVec_self_star u
    rwa [star_trivial] at this
  have hP : (psi + t • vecMulVec u u).PosDef := hpsi.add_posSemidef (hvv.smul ht)
  rw [integral_eq_lintegral_of_nonneg_ae (Eventually.of_forall fun c => (Real.exp_pos _).le) hm.aestronglyMeasurable,
    iwLaw, lintegral_lawOn (iw_isDensity hpsi hnu) hm.ennreal_ofReal]
  have e : ∫⁻ c in {c : UpperIdx n → ℝ | (symOf c).PosDef}, ENNReal.ofReal (invwishartPdf nu psi (symOf c)) *
      ENNReal.ofReal (Real.exp (-(t / 2) * quad (symOf c)⁻¹ u)) =
      ∫⁻ c in {c : UpperIdx n → ℝ | (symOf c).PosDef}, ENNReal.ofReal ((1 + t * quad psi⁻¹ u) ^ (-(nu + 0) / 2)) *
        ENNReal.ofReal (invwishartPdf nu (psi + t • vecMulVec u u) (symOf c)) := by
    refine setLIntegral_congr_fun measurableSet_posDef fun c hc => ?_
    beta_reduce
    rw [← ENNReal.ofReal_mul (invwishartPdf_pos (by simpa using hnu) hpsi hc).le, iw_tilt ht hpsi u,
      ENNReal.ofReal_mul (Real.rpow_nonneg hb.le _)]
  have hone : ∫⁻ c in {c : UpperIdx n → ℝ | (symOf c).PosDef},
      ENNReal.ofReal (invwishartPdf nu (psi + t • vecMulVec u u) (symOf c)) = 1 := by
    have := (iwLaw_prob hP hnu).measure_univ
    rw [iwLaw, lawOn, withDensity_apply _ MeasurableSet.univ, Measure.restrict_univ] at this
    exact this
  rw [e, lintegral_const_mul' _ _ ENNReal.ofReal_ne_top, hone, mul_one,
    ENNReal.toReal_ofReal (Real.rpow_nonneg hb.le _)]

/-! ## Concentration -/

section
variable {nu : ℕ → ℝ} {psi : ℕ → Matrix (Fin n) (Fin n) ℝ} {S₀ : Matrix (Fin n) (Fin n) ℝ} (hpsi : ∀ k, (psi k).PosDef)
  (hnu : ∀ k, (n : ℝ) - 1 < nu k) (hinf : Tendsto nu atTop atTop) (hS : S₀.PosDef)
  (hlim : ∀ i j, Tendsto (fun k => psi k i j / nu k) atTop (𝓝 (S₀ i j)))

include hpsi hnu hinf hS hlim

theorem iw_laplace_limit (u : Fin n → ℝ) {t : ℝ} (ht : 0 ≤ t) :
    Tendsto (fun k => ∫ c, Real.exp (-(t / 2) * quad (symOf c)⁻¹ u) ∂iwLaw (nu k) (psi k)) atTop
      (𝓝 (Real.exp (-(t / 2) * quad S₀⁻¹ u))) := by
  have h1 : Tendsto (fun k => (nu k)⁻¹ • psi k) atTop (𝓝 S₀) :=
    tendsto_matrix fun i j => (hlim i j).congr fun k => by rw [Matrix.smul_apply, smul_eq_mul, div_eq_inv_mul]
  have h2 := tendsto_matrix_inv h1 (posDef_det hS).ne'
  have h3 : Tendsto (fun k => t * quad ((nu k)⁻¹ • psi k)⁻¹ u) atTop (𝓝 (t * quad S₀⁻¹ u)) :=
    (tendsto_quad (fun i j => tendsto_entry h2 i j) (v := fun _ => u) (v₀ := u) fun _ => tendsto_const_nhds).const_mul t
  have hpos : ∀ᶠ k in atTop, 0 < nu k := hinf.eventually_gt_atTop 0
  have h4 : Tendsto (fun k => |t * quad ((nu k)⁻¹ • psi k)⁻¹ u|) atTop (𝓝 (t * quad S₀⁻¹ u)) := by
    have := h3.abs
    rwa [abs_of_nonneg (mul_nonneg ht (quad_nonneg hS.inv.posSemidef u))] at this
  have h5 := tendsto_t_kernel 0 hinf h4 fun k => abs_nonneg _
  have e : -(1 / 2) * (t * quad S₀⁻¹ u) = -(t / 2) * quad S₀⁻¹ u := by ring
  rw [e] at h5
  refine h5.congr' ?_
  filter_upwards [hpos] with k hk
  rw [iw_laplace ht (hpsi k) (hnu k) u]
  congr 2
  have hi : ((nu k)⁻¹ • psi k)⁻¹ = nu k • (psi k)⁻¹ := by
    rw [inv_smul_mat (hpsi k) (inv_ne_zero hk.ne'), inv_inv]
  have hq : 0 ≤ quad (psi k)⁻¹ u := quad_nonneg (hpsi k).inv.posSemidef u
  rw [hi, quad_smul, abs_of_nonneg (by positivity)]
  field_simp

theorem iw_quad_inProb (u : Fin n → ℝ) :
    InProb (fun k => iwLaw (nu k) (psi k)) (fun c => quad (symOf c)⁻¹ u) (quad S₀⁻¹ u) := by
  have hm : Measurable fun c : UpperIdx n → ℝ => Real.exp (-(1 / 2) * quad (symOf c)⁻¹ u) :=
    Real.measurable_exp.comp ((measurable_quad_symInv u).const_mul _)
  set w₀ := Real.exp (-(1 / 2) * quad S₀⁻¹ u) with hw₀
  have hW : InProb (fun k => iwLaw (nu k) (psi k)) (fun c => Real.exp (-(1 / 2) * quad (symOf c)⁻¹ u)) w₀ := by
    have l1 := iw_laplace_limit hpsi hnu hinf hS hlim u (t := 1) zero_le_one
    have l2 := iw_laplace_limit hpsi hnu hinf hS hlim u (t := 2) zero_le_two
    have hsq : ∀ x : ℝ, Real.exp (-(2 / 2) * x) = Real.exp (-(1 / 2) * x) ^ 2 := fun x => by
      rw [← Real.exp_nat_mul]; congr 1; push_cast; ring
    simp only [hsq, ← hw₀] at l1 l2
    have hbd : ∀ k, ∀ᵐ c ∂iwLaw (nu k) (psi k), ‖Real.exp (-(1 / 2) * quad (symOf c)⁻¹ u)‖ ≤ 1 := by
      intro k
      filter_upwards [ae_lawOn_mem measurableSet_posDef fun c => invwishartPdf (nu k) (psi k) (symOf c)] with c hc
      rw [Real.norm_eq_abs, abs_of_pos (Real.exp_pos _), Real.exp_le_one_iff]
      have := quad_nonneg (show (symOf c).PosDef from hc).inv.posSemidef u
      linarith
    have hint : ∀ k, ∫ c, (Real.exp (-(1 / 2) * quad (symOf c)⁻¹ u) - w₀) ^ 2 ∂iwLaw (nu k) (psi k) =
        (∫ c, Real.exp (-(1 / 2) * quad (symOf c)⁻¹ u) ^ 2 ∂iwLaw (nu k) (psi k)) -
          2 * w₀ * (∫ c, Real.exp (-(1 / 2) * quad (symOf c)⁻¹ u) ∂iwLaw (nu k) (psi k)) + w₀ ^ 2 ∧
        Integrable (fun c => (Real.exp (-(1 / 2) * quad (symOf c)⁻¹ u) - w₀) ^ 2) (iwLaw (nu k) (psi k)) := by
      intro k
      have := iwLaw_prob (hpsi k) (hnu k)
      have i1 : Integrable (fun c => Real.exp (-(1 / 2) * quad (symOf c)⁻¹ u)) (iwLaw (nu k) (psi k)) :=
        Integrable.of_bound hm.aestronglyMeasurable 1 (hbd k)
      have i2 : Integrable (fun c => Real.exp (-(1 / 2) * quad (symOf c)⁻¹ u) ^ 2) (iwLaw (nu k) (psi k)) := by
        refine Integrable.of_bound (hm.pow_const 2).aestronglyMeasurable 1 ?_
        filter_upwards [hbd k] with c hc
        rw [norm_pow]
        exact pow_le_one₀ (norm_nonneg _) hc
      have e : ∀ c : UpperIdx n → ℝ, (Real.exp (-(1 / 2) * quad (symOf c)⁻¹ u) - w₀) ^ 2 =
          Real.exp (-(1 / 2) * quad (symOf c)⁻¹ u) ^ 2 - 2 * w₀ * Real.exp (-(1 / 2) * quad (symOf c)⁻¹ u) + w₀ ^ 2 :=
        fun c => by ring
      have i3 : Integrable (fun c => Real.exp (-(1 / 2) * quad (symOf c)⁻¹ u) ^ 2 -
          2 * w₀ * Real.exp (-(1 / 2) * quad (symOf c)⁻¹ u)) (iwLaw (nu k) (psi k)) := i2.sub (i1.const_mul _)
      refine ⟨?_, ?_⟩
      · simp_rw [e]
        rw [integral_add i3 (integrable_const _), integral_sub i2 (i1.const_mul _), integral_const_mul, integral_const,
          probReal_univ, one_smul]
      · exact (i3.add (integrable_const _)).congr (Eventually.of_forall fun c => (e c).symm)
    have hz : Tendsto (fun k => ∫ c, (Real.exp (-(1 / 2) * quad (symOf c)⁻¹ u) - w₀) ^ 2 ∂iwLaw (nu k) (psi k)) atTop
        (𝓝 0) := by
      simp only [fun k => (hint k).1]
      have := (l2.sub (l1.const_mul (2 * w₀))).add_const (w₀ ^ 2)
      have e : w₀ ^ 2 - 2 * w₀ * w₀ + w₀ ^ 2 = 0 := by ring
      rwa [e] at this
    intro ε hε
    have hz' : Tendsto (fun k => ENNReal.ofReal ((∫ c, (Real.exp (-(1 / 2) * quad (symOf c)⁻¹ u) - w₀) ^ 2
        ∂iwLaw (nu k) (psi k)) / ε ^ 2)) atTop (𝓝 0) := by
      have := ENNReal.tendsto_ofReal (hz.div_const (ε ^ 2))
      simpa using this
    refine tendsto_of_tendsto_of_tendsto_of_le_of_le tendsto_const_nhds hz' (fun _ => zero_le) fun k => ?_
    have := iwLaw_prob (hpsi k) (hnu k)
    have hmk := mul_meas_ge_le_integral_of_nonneg (μ := iwLaw (nu k) (psi k))
      (Eventually.of_forall fun c => sq_nonneg (Real.exp (-(1 / 2) * quad (symOf c)⁻¹ u) - w₀)) (hint k).2 (ε ^ 2)
    have hset : {c : UpperIdx n → ℝ | ε ≤ dist (Real.exp (-(1 / 2) * quad (symOf c)⁻¹ u)) w₀} =
        {c | ε ^ 2 ≤ (Real.exp (-(1 / 2) * quad (symOf c)⁻¹ u) - w₀) ^ 2} := by
      ext c
      change ε ≤ dist _ _ ↔ ε ^ 2 ≤ _
      rw [Real.dist_eq, ← sq_abs (Real.exp (-(1 / 2) * quad (symOf c)⁻¹ u) - w₀)]
      exact (pow_le_pow_iff_left₀ hε.le (abs_nonneg _) two_ne_zero).symm
    rw [hset]
    refine ENNReal.le_ofReal_iff_toReal_le (measure_ne_top _ _) (by positivity) |>.2 ?_
    rw [le_div_iff₀ (by positivity), mul_comm]
    exact hmk
  have hlog := hW.comp (g := fun w => -2 * Real.log w)
    ((Real.continuousAt_log (Real.exp_pos _).ne').const_mul (-2))
  have e : ∀ x : ℝ, -2 * Real.log (Real.exp (-(1 / 2) * x)) = x := fun x => by rw [Real.log_exp]; ring
  rw [hw₀] at hlog
  simpa only [e] using hlog

/-- inverse Wishart distributions with growing degrees of freedom concentrate -/
theorem concentrates_iw : ConcentratesAt (fun k => iwLaw (nu k) (psi k)) (upperOf S₀) := by
  -- all quadratic forms at sums of two unit vectors
  have hV : InProb (fun k => iwLaw (nu k) (psi k))
      (fun c (ij : Fin n × Fin n) => quad (symOf c)⁻¹ (Pi.single ij.1 1 + Pi.single ij.2 1))
      (fun ij => quad S₀⁻¹ (Pi.single ij.1 1 + Pi.single ij.2 1)) :=
    InProb.pi fun ij => iw_quad_inProb hpsi hnu hinf hS hlim _
  let back : (Fin n × Fin n → ℝ) → Matrix (Fin n) (Fin n) ℝ := fun z =>
    Matrix.of fun i j => (z (i, j) - z (i, i) / 4 - z (j, j) / 4) / 2
  have hback : ∀ P : Matrix (Fin n) (Fin n) ℝ, Pᵀ = P →
      back (fun ij => quad P (Pi.single ij.1 1 + Pi.single ij.2 1)) = P := by
    intro P hP
    ext i j
    have hsym : P j i = P i j := by rw [← congrFun (congrFun hP i) j]; rfl
    have hq : ∀ i j, quad P (Pi.single i 1 + Pi.single j 1) = P i i + P i j + (P j i + P j j) := by
      intro i j
      simp [quad, mulVec_add, add_dotProduct, dotProduct_add]
      ring
    simp only [back, of_apply, hq, hsym]
    ring
  have hcont : ContinuousAt (fun z => upperOf (back z)⁻¹)
      (fun ij : Fin n × Fin n => quad S₀⁻¹ (Pi.single ij.1 1 + Pi.single ij.2 1)) := by
    have hb : Continuous back := by
      refine continuous_matrix fun i j => ?_
      simp only [back, of_apply]
      fun_prop
    have h1 := hb.tendsto (fun ij : Fin n × Fin n => quad S₀⁻¹ (Pi.single ij.1 1 + Pi.single ij.2 1))
    have hsym : (S₀⁻¹)ᵀ = S₀⁻¹ := by
      have := hS.inv.isHermitian.eq
      rwa [conjTranspose_eq_transpose_of_trivial] at this
    have h2 := h1
    rw [hback _ hsym] at h2
    have h3 := tendsto_matrix_inv' h2 (posDef_det hS.inv).ne'
    unfold ContinuousAt
    beta_reduce
    rw [hback _ hsym]
    refine tendsto_pi_nhds.2 fun ij => ?_
    exact ((continuous_id.matrix_elem ij.1.1 ij.1.2).tendsto _).comp h3
  have hsymS : ∀ P : Matrix (Fin n) (Fin n) ℝ, P.PosDef → (P⁻¹)ᵀ = P⁻¹ := by
    intro P hP
    have := hP.inv.isHermitian.eq
    rwa [conjTranspose_eq_transpose_of_trivial] at this
  have hfin := hV.comp hcont
  rw [hback _ (hsymS _ hS), nonsing_inv_nonsing_inv _ (posDef_unit hS)] at hfin
  have hid : InProb (fun k => iwLaw (nu k) (psi k)) (fun c => c) (upperOf S₀) := by
    refine hfin.congr fun k => ?_
    filter_upwards [ae_lawOn_mem measurableSet_posDef fun c => invwishartPdf (nu k) (psi k) (symOf c)] with c hc
    have hc' : (symOf c).PosDef := hc
    rw [hback _ (hsymS _ hc'), nonsing_inv_nonsing_inv _ (posDef_unit hc'), upperOf_symOf]
  refine concentrates_of_compl (Eventually.of_forall fun k => iwLaw_prob (hpsi k) (hnu k)) fun ε hε => ?_
  refine (hid ε hε).congr fun k => ?_
  congr 1
  ext c
  simp [not_lt]

end

end Conj
